import Verif.Model.SadOccs
import Verif.Spec.SadOccs
import Mathlib.Algebra.BigOperators.Ring.Finset
import Mathlib.Tactic.Linarith
import Mathlib.Tactic.NormNum

/-!
# C83: fixed occupations of the spherically averaged atom

What is typed after `--occs` arrives at the solver, block by block; totals are divided between the spins by Hund's rule; other numbers of values are refused. Proved too: what the program
accepts although it should not.
-/

namespace HelFEM
namespace SadSCF

open Finset

/-! ### Hund's rule -/

theorem inShell_zero (l n : Nat) : Spec.inShell l n 0 = min n (2 * (2 * l + 1)) := by simp [Spec.inShell]

theorem inShell_succ (l n k : Nat) : Spec.inShell l n (k + 1) = Spec.inShell l (n - 2 * (2 * l + 1)) k := by
  unfold Spec.inShell
  rw [Nat.add_mul, Nat.one_mul, Nat.sub_sub, Nat.add_comm (k * _)]

theorem inShell_out {l n k : Nat} (h : n ≤ k) : Spec.inShell l n k = 0 := by
  unfold Spec.inShell
  rw [Nat.sub_eq_zero_of_le (le_trans h (Nat.le_mul_of_pos_right k (by omega)))]
  simp

theorem shells_step (l n : Nat) (hn : 0 < n) (f : Nat → Nat) (h0 : f 0 = 0) :
    ∑ k ∈ range n, f (Spec.inShell l n k) = f (min n (2 * (2 * l + 1))) + ∑ k ∈ range (n - 2 * (2 * l + 1)), f (Spec.inShell l (n - 2 * (2 * l + 1)) k) := by
  obtain ⟨m, rfl⟩ := Nat.exists_eq_succ_of_ne_zero hn.ne'
  rw [sum_range_succ', inShell_zero, add_comm]
  congr 1
  rw [sum_congr rfl fun k _ => by rw [inShell_succ]]
  symm
  refine sum_subset (fun k hk => ?_) fun k _ hk => ?_
  · rw [mem_range] at hk ⊢
    omega
  · rw [mem_range, not_lt] at hk
    rw [inShell_out hk, h0]

theorem spinUp_step (l n : Nat) (hn : 0 < n) : Spec.spinUp l n = min (min n (2 * (2 * l + 1))) (2 * l + 1) + Spec.spinUp l (n - 2 * (2 * l + 1)) :=
  shells_step l n hn (fun x => min x (2 * l + 1)) (by simp)

theorem spinDown_step (l n : Nat) (hn : 0 < n) : Spec.spinDown l n = (min n (2 * (2 * l + 1)) - (2 * l + 1)) + Spec.spinDown l (n - 2 * (2 * l + 1)) :=
  shells_step l n hn (fun x => x - (2 * l + 1)) (by simp)

theorem hundLoop_eq (l : Nat) : ∀ (n : Nat) (a b : ℝ), hundLoop l n a b = (a + Spec.spinUp l n, b + Spec.spinDown l n) := by
  intro n
  induction n using Nat.strong_induction_on with
  | _ n ih =>
    intro a b
    rw [hundLoop]
    by_cases hn : 0 < n
    · rw [if_pos (by exact_mod_cast hn)]
      have e1 : ((n : Int) - min (n : Int) (2 * (2 * l + 1))) = ((n - 2 * (2 * l + 1) : Nat) : Int) := by omega
      have e2 : (min (min (n : Int) (2 * (2 * l + 1))) (2 * l + 1)) = ((min (min n (2 * (2 * l + 1))) (2 * l + 1) : Nat) : Int) := by omega
      have e3 : (min (n : Int) (2 * (2 * l + 1)) - min (min (n : Int) (2 * (2 * l + 1))) (2 * l + 1)) = ((min n (2 * (2 * l + 1)) - (2 * l + 1) : Nat) : Int) := by omega
      dsimp only
      rw [e1, e3, e2, ih _ (by omega), spinUp_step l n hn, spinDown_step l n hn]
      push_cast
      rw [add_assoc, add_assoc]
    · obtain rfl : n = 0 := by omega
      rw [if_neg (by simp)]
      simp [Spec.spinUp, Spec.spinDown]

/-- **C83, electrons.** Hund's rule divides the electrons of a shell between the spins without losing any, -/
theorem C83_hund_total (l n : Nat) : Spec.spinUp l n + Spec.spinDown l n = n := by
  induction n using Nat.strong_induction_on with
  | _ n ih =>
    rcases Nat.eq_zero_or_pos n with rfl | hn
    · simp [Spec.spinUp, Spec.spinDown]
    · have := ih (n - 2 * (2 * l + 1)) (by omega)
      rw [spinUp_step l n hn, spinDown_step l n hn]
      omega

/-- and leaves as many unpaired electrons as the last, partly filled shell allows. -/
theorem C83_hund_spin (l n : Nat) : Spec.spinUp l n = Spec.spinDown l n + min (n % (2 * (2 * l + 1))) (2 * (2 * l + 1) - n % (2 * (2 * l + 1))) := by
  induction n using Nat.strong_induction_on with
  | _ n ih =>
    rcases Nat.eq_zero_or_pos n with rfl | hn
    · simp [Spec.spinUp, Spec.spinDown]
    · have := ih (n - 2 * (2 * l + 1)) (by omega)
      rw [spinUp_step l n hn, spinDown_step l n hn]
      by_cases hc : 2 * (2 * l + 1) ≤ n
      · rw [show n % (2 * (2 * l + 1)) = (n - 2 * (2 * l + 1)) % (2 * (2 * l + 1)) from Nat.mod_eq_sub_mod hc]
        omega
      · rw [Nat.mod_eq_of_lt (by omega)]
        have z : n - 2 * (2 * l + 1) = 0 := by omega
        rw [z] at this ⊢
        simp only [Nat.zero_mod, Nat.sub_zero, Nat.zero_min, Nat.add_zero] at this
        omega

/-- seven electrons in d shells: five up, two down -/
example : Spec.spinUp 2 7 = 5 ∧ Spec.spinDown 2 7 = 2 := by decide

/-! ### The option -/

theorem readVals_some (v : List ℝ) : readVals (v.map some) = v := by
  induction v with
  | nil => rfl
  | cons a r ih => simp [readVals, ih]

theorem roundAway_of_count {x : ℝ} {n : Nat} (h : |x - n| ≤ 1e-10) : roundAway x = n := by
  obtain ⟨h1, h2⟩ := abs_le.1 h
  unfold roundAway
  split_ifs with hx
  · rw [Int.floor_eq_iff]
    push_cast
    constructor <;> linarith
  · have hn : n = 0 := by
      by_contra hh
      have : (1 : ℝ) ≤ n := by exact_mod_cast Nat.one_le_iff_ne_zero.2 hh
      linarith
    subst hn
    rw [Int.ceil_eq_iff]
    push_cast at h1 ⊢
    constructor <;> linarith

/-- **C83, automatic.** `auto` fixes nothing. -/
theorem C83_auto (restricted : Bool) (lmax : Nat) : ∃ f, occsOption restricted lmax .auto = .ok f ∧ fixedCounts restricted lmax f.1 f.2 = none := by
  refine ⟨_, rfl, ?_⟩
  unfold fixedCounts
  simp

/-- **C83, restricted.** One number for every angular momentum is handed to the solver as it stands, also a fractional one. -/
theorem C83_restricted (lmax : Nat) (v : List ℝ) (hv : v.length = lmax + 1) :
    ∃ f, occsOption true lmax (.words (v.map some)) = .ok f ∧ fixedCounts true lmax f.1 f.2 = some v := by
  refine ⟨(v, []), ?_, ?_⟩
  · unfold occsOption
    simp [readVals_some, hv]
  · unfold fixedCounts
    simp [hv]

/-- **C83, unrestricted, both spins.** The alpha numbers, then the beta ones. -/
theorem C83_explicit (lmax : Nat) (a b : List ℝ) (ha : a.length = lmax + 1) (hb : b.length = lmax + 1) :
    ∃ f, occsOption false lmax (.words ((a ++ b).map some)) = .ok f ∧ f = (a, b) ∧ fixedCounts false lmax f.1 f.2 = some (a ++ b) := by
  refine ⟨(a, b), ?_, rfl, ?_⟩
  · unfold occsOption
    simp only [readVals_some, List.length_append, ha, hb]
    rw [if_neg (by simp), if_neg (by omega), if_pos (by omega), ← ha, List.take_left' rfl, List.drop_left' rfl]
  · unfold fixedCounts
    simp [ha, hb]

/-- **C83, unrestricted, totals.** Every total is divided by Hund's rule. -/
theorem C83_hund (lmax : Nat) (v : List ℝ) (n : Nat → Nat) (hv : v.length = lmax + 1) (hn : ∀ l (h : l < v.length), Spec.IsCount v[l] (n l)) :
    ∃ f, occsOption false lmax (.words (v.map some)) = .ok f ∧
      fixedCounts false lmax f.1 f.2 = some ((List.range (lmax + 1)).map (fun l => (Spec.spinUp l (n l) : ℝ)) ++ (List.range (lmax + 1)).map fun l => (Spec.spinDown l (n l) : ℝ)) := by
  refine ⟨((List.range (lmax + 1)).map (fun l => (Spec.spinUp l (n l) : ℝ)), (List.range (lmax + 1)).map fun l => (Spec.spinDown l (n l) : ℝ)), ?_, ?_⟩
  · unfold occsOption
    simp only [readVals_some]
    rw [if_neg (by simp), if_pos hv, if_neg ?_, Res.mapM_ok _ (fun l => ((Spec.spinUp l (n l) : ℝ), (Spec.spinDown l (n l) : ℝ)))]
    · rw [Res.ok_bind, List.map_map, List.map_map]
      rfl
    · intro l hl
      rw [List.mem_range] at hl
      have hl' : l < v.length := by omega
      obtain ⟨h1, h2⟩ := hn l hl'
      have e : readAt v l = .ok v[l] := by simp [readAt, hl']
      rw [e, Res.ok_bind, roundAway_of_count h1, toInt, if_pos ⟨by omega, by omega⟩, Res.ok_bind, hundLoop_eq, zero_add, zero_add]
    · rintro ⟨x, hx, hb⟩
      obtain ⟨l, hl, rfl⟩ := List.mem_iff_getElem.1 hx
      obtain ⟨h1, -⟩ := hn l hl
      rw [roundAway_of_count h1, Int.cast_natCast] at hb
      exact absurd h1 (not_le.2 hb)
  · unfold fixedCounts
    simp

/-- **C83, refused.** Any other number of values is refused, -/
theorem C83_length (restricted : Bool) (lmax : Nat) (v : List ℝ) (h1 : v.length ≠ lmax + 1) (h2 : restricted = false → v.length ≠ 2 * (lmax + 1)) :
    occsOption restricted lmax (.words (v.map some)) = .throw .logicError := by
  unfold occsOption
  simp only [readVals_some]
  cases restricted
  · rw [if_neg (by simp), if_neg h1, if_neg (h2 rfl)]
  · rw [if_pos rfl, if_pos h1]

/-- and so is a fractional total where it would have to be divided. -/
theorem C83_fractional (lmax : Nat) (v : List ℝ) (hv : v.length = lmax + 1) (x : ℝ) (hx : x ∈ v) (hf : ∀ k : Int, 1e-10 < |x - k|) :
    occsOption false lmax (.words (v.map some)) = .throw .logicError := by
  unfold occsOption
  simp only [readVals_some]
  rw [if_neg (by simp), if_pos hv, if_pos ⟨x, hx, hf _⟩]

/-- carbon as `4 2`: two s electrons of each spin, two p electrons with spin up -/
example : ∃ f, occsOption false 1 (.words [some 4, some 2]) = .ok f ∧ fixedCounts false 1 f.1 f.2 = some [2, 2, 2, 0] := by
  have h := C83_hund 1 [4, 2] (fun l => if l = 0 then 4 else 2) rfl (by
    intro l hl
    simp only [List.length_cons, List.length_nil] at hl
    obtain rfl | rfl : l = 0 ∨ l = 1 := by omega
    · exact ⟨by norm_num, by norm_num⟩
    · exact ⟨by norm_num, by norm_num⟩)
  have e1 : Spec.spinUp 0 4 = 2 := by decide
  have e2 : Spec.spinUp 1 2 = 2 := by decide
  have e3 : Spec.spinDown 0 4 = 2 := by decide
  have e4 : Spec.spinDown 1 2 = 0 := by decide
  simpa [List.range_succ, e1, e2, e3, e4] using h

/-- a third of an electron, explicitly and as a total -/
example : (∃ f, occsOption false 0 (.words [some (1 / 3), some 0]) = .ok f ∧ f = ([1 / 3], [0]) ∧ fixedCounts false 0 f.1 f.2 = some [1 / 3, 0]) ∧
    occsOption false 0 (.words [some (1 / 3)]) = .throw .logicError := by
  refine ⟨C83_explicit 0 [1 / 3] [0] rfl rfl, C83_fractional 0 [1 / 3] rfl (1 / 3) (by simp) fun k => ?_⟩
  rcases le_or_gt k 0 with hk | hk
  · have : (k : ℝ) ≤ 0 := by exact_mod_cast hk
    rw [abs_of_pos (by linarith)]
    linarith
  · have : (1 : ℝ) ≤ k := by exact_mod_cast hk
    rw [abs_of_neg (by linarith)]
    linarith

/-! ### What is not checked -/

/-- **C83, refuted: one spin only.** `scf.h` promises that the occupations are fixed for the spin whose vector is given. With only the alpha vector the beta electrons are fixed too: there are none. -/
theorem C83_one_spin (lmax : Nat) (a : List ℝ) (ha : a.length = lmax + 1) : fixedCounts false lmax a [] = some (a ++ List.replicate (lmax + 1) 0) := by
  unfold fixedCounts
  simp [ha]

/-- **C83, refuted: reading.** The argument is read up to the first word which is not a number, and what follows is dropped without a message. -/
theorem C83_rest_dropped (restricted : Bool) (lmax : Nat) (v : List ℝ) (rest : List (Option ℝ)) :
    occsOption restricted lmax (.words (v.map some ++ none :: rest)) = occsOption restricted lmax (.words (v.map some)) := by
  have : readVals (v.map some ++ none :: rest) = readVals (v.map some) := by
    induction v with
    | nil => rfl
    | cons a r ih => simpa [readVals] using ih
  unfold occsOption
  simp only [this]

/-- **C83, refuted: sign.** A negative total is accepted and holds no electrons. -/
theorem C83_negative : ∃ f, occsOption false 0 (.words [some (-3)]) = .ok f ∧ fixedCounts false 0 f.1 f.2 = some [0, 0] := by
  have hr : roundAway (-3) = -3 := by
    unfold roundAway
    rw [if_neg (by norm_num), Int.ceil_eq_iff]
    push_cast
    constructor <;> norm_num
  refine ⟨([0], [0]), ?_, by simp [fixedCounts]⟩
  have hv : readVals [some (-3)] = [-3] := rfl
  unfold occsOption
  simp only [hv]
  rw [if_neg (by simp), if_pos (by rfl), if_neg (by simp [hr]; norm_num), Res.mapM_ok _ (fun _ => ((0 : ℝ), (0 : ℝ)))]
  · rfl
  · intro l hl
    obtain rfl : l = 0 := by simpa using hl
    show (toInt (roundAway (-3)) >>= fun n => Res.ok (hundLoop 0 n 0 0)) = _
    rw [hr, toInt, if_pos (by norm_num), Res.ok_bind, hundLoop, if_neg (by norm_num)]

/-- **C83, refuted: number of electrons.** The fixed numbers are not compared with the number of electrons the solver is given: whatever the charge, two s electrons may be asked for. -/
theorem C83_not_compared (nela nelb : Int) : ∃ f c, occsOption true 0 (.words [some 2]) = .ok f ∧ fixedCounts true 0 f.1 f.2 = some c ∧ c.sum = 2 ∧
    (nela + nelb ≠ 2 → c.sum ≠ ((particles true nela nelb).sum : Int)) := by
  obtain ⟨f, h1, h2⟩ := C83_restricted 0 [2] rfl
  refine ⟨f, [2], h1, h2, by simp, fun h => ?_⟩
  simp only [List.sum_cons, List.sum_nil, add_zero, particles, if_true]
  intro hh
  exact h (by exact_mod_cast hh.symm)

/-! ### The atoms of the completeness tool -/

/-- **C83, atoms.** For every element the occupations of the table hold as many electrons as the neutral atom, up to the largest occupied angular momentum, each within range, -/
theorem C83_atoms (Z : Nat) (h1 : 1 ≤ Z) (h2 : Z ≤ 118) : ∃ r, ∃ occ : List Nat, runSide Z = .ok r ∧ r.fixed = occ.map (fun (n : Nat) => (n : ℝ)) ∧ 0 ≤ r.lmax ∧ r.lmax ≤ 3 ∧ (occ.length : Int) = r.lmax + 1 ∧ occ.sum = Z ∧
    0 < occ.getD r.lmax.toNat 0 := by
  have key : ∀ i < 118, ∃ row, pbeGroundStates[i]? = some row ∧ (row.take (lmaxForZ row + 1).toNat).sum = i + 1 ∧ 0 ≤ lmaxForZ row ∧ lmaxForZ row ≤ 3 ∧
      ((row.take (lmaxForZ row + 1).toNat).length : Int) = lmaxForZ row + 1 ∧ 0 < (row.take (lmaxForZ row + 1).toNat).getD (lmaxForZ row).toNat 0 := by
    intro i hi
    refine ⟨pbeGroundStates[i]'(by simpa [pbeGroundStates] using hi), by simp, ?_⟩
    revert i
    decide
  obtain ⟨row, k1, k2, k3, k4, k5, k6⟩ := key (Z - 1) (by omega)
  refine ⟨⟨lmaxForZ row, ((row.take (lmaxForZ row + 1).toNat).sum : Int).tdiv 2, ((row.take (lmaxForZ row + 1).toNat).sum : Int).tdiv 2,
    (row.take (lmaxForZ row + 1).toNat).map fun (n : Nat) => (n : ℝ)⟩, row.take (lmaxForZ row + 1).toNat, ?_, rfl, k3, k4, k5, by omega, k6⟩
  have : readAt pbeGroundStates (Z - 1) = .ok row := by rw [readAt, k1]
  unfold runSide
  rw [this, Res.ok_bind]

/-- the charges of the two spins are half of this number, rounded down: for an odd nuclear charge the solver is told of one electron less than the occupations hold. The comment next to the
division says that the numbers are even. -/
theorem C83_atoms_odd (Z : Nat) (h1 : 1 ≤ Z) (h2 : Z ≤ 118) : ∃ r c, runSide Z = .ok r ∧ fixedCounts true r.lmax.toNat r.fixed [] = some c ∧ c.sum = Z ∧
    (particles true r.nela r.nelb).sum = Z - Z % 2 := by
  obtain ⟨r, occ, e1, e2, e3, e4, e5, e6, e7⟩ := C83_atoms Z h1 h2
  have en : r.nela = (Z : Int).tdiv 2 ∧ r.nelb = (Z : Int).tdiv 2 := by
    unfold runSide at e1
    cases hr : readAt pbeGroundStates (Z - 1) with
    | ok row =>
      rw [hr, Res.ok_bind, Res.ok.injEq] at e1
      subst e1
      have : row.take (lmaxForZ row + 1).toNat = occ := by
        have hi : Function.Injective fun (n : Nat) => (n : ℝ) := Nat.cast_injective
        exact List.map_injective_iff.2 hi e2
      dsimp only
      rw [this, e6]
      exact ⟨rfl, rfl⟩
    | throw e => rw [hr] at e1; cases e1
    | ub => rw [hr] at e1; cases e1
  refine ⟨r, r.fixed, e1, ?_, ?_, ?_⟩
  · unfold fixedCounts
    have : r.fixed.length = r.lmax.toNat + 1 := by
      rw [e2, List.length_map]
      omega
    simp [this]
  · rw [e2, ← e6]
    exact (Nat.cast_list_sum occ).symm
  · obtain ⟨n1, n2⟩ := en
    simp only [particles, if_true, List.sum_cons, List.sum_nil]
    rw [n1, n2, Int.tdiv_eq_ediv_of_nonneg (by omega)]
    omega

/-- oxygen and fluorine -/
example : (∃ r c, runSide 8 = .ok r ∧ fixedCounts true r.lmax.toNat r.fixed [] = some c ∧ c.sum = (8 : Nat) ∧ (particles true r.nela r.nelb).sum = ((8 : Nat) : Int) - (8 : Nat) % 2) ∧
    ∃ r c, runSide 9 = .ok r ∧ fixedCounts true r.lmax.toNat r.fixed [] = some c ∧ c.sum = (9 : Nat) ∧ (particles true r.nela r.nelb).sum = ((9 : Nat) : Int) - (9 : Nat) % 2 :=
  ⟨C83_atoms_odd 8 (by norm_num) (by norm_num), C83_atoms_odd 9 (by norm_num) (by norm_num)⟩

/-- **C83, past the table.** For a heavier nucleus the table is read behind its end. -/
theorem C83_past_table (Z : Nat) (h : 118 < Z) : runSide Z = .ub := by
  unfold runSide
  rw [readAt, List.getElem?_eq_none (by simp [pbeGroundStates]; omega)]
  rfl

end SadSCF
end HelFEM
