import Verif.Lemmas.CoreBasis
import Verif.Props.SymBlocks
import Mathlib.Algebra.BigOperators.Group.List.Basic
import Mathlib.Tactic.IntervalCases

/-!
# C89: the search for a basis set of the diatomic program
-/

namespace HelFEM
namespace Core

open Core.Spec

/-! ### The orbitals -/

/-- the shells of an atom with an orbital of projection `m`, in the table of the code -/
def count (m : Nat) (Z : Int) : Nat := shells.countP fun s => decide ((s.1 : Int) ≤ Z ∧ m ≤ s.2)

theorem numOrbs1_eq (Z : Int) (n : Nat × Nat × Nat × Nat) : numOrbs1 Z n = .ok (n.1 + count 0 Z, n.2.1 + count 1 Z, n.2.2.1 + count 2 Z, n.2.2.2 + count 3 Z) := by
  have h3 : ∀ s ∈ shells, s.2 ≤ 3 := by decide
  unfold numOrbs1 count
  revert h3
  generalize shells = L
  induction L generalizing n with
  | nil => intro _; rfl
  | cons s L ih =>
    intro h3
    have hs := h3 s (by simp)
    have hL : ∀ s ∈ L, s.2 ≤ 3 := fun t ht => h3 t (List.mem_cons_of_mem _ ht)
    rw [List.foldl_cons, Res.ok_bind]
    simp only [List.countP_cons]
    by_cases hz : (s.1 : Int) ≤ Z
    · rw [if_pos hz]
      obtain ⟨z, l⟩ := s
      dsimp only at hs hz ⊢
      interval_cases l <;> simp only [ih _ hL, hz, true_and] <;> simp [Nat.add_assoc, Nat.add_comm 1]
    · rw [if_neg hz, ih _ hL]
      simp [hz]

/-- the table of the code and the rule of filling agree for every element -/
theorem count_eq (m : Nat) (Z : Int) (hZ : Z ≤ 118) : count m Z = orbitals m Z := by
  by_cases h0 : Z ≤ 0
  · have h1 : count m Z = 0 := by
      unfold count
      rw [List.countP_eq_zero]
      intro s hs
      have : ∀ s ∈ shells, 1 ≤ s.1 := by decide
      have := this s hs
      simp only [decide_eq_true_eq]
      omega
    have h2 : orbitals m Z = 0 := by
      unfold orbitals firstZ
      rw [List.countP_eq_zero]
      intro k hk
      simp only [decide_eq_true_eq]
      push_cast
      omega
    rw [h1, h2]
  · have hm : ∀ m, 4 ≤ m → count m Z = orbitals m Z := by
      intro m hm
      have h1 : count m Z = 0 := by
        unfold count
        rw [List.countP_eq_zero]
        intro s hs
        have : ∀ s ∈ shells, s.2 ≤ 3 := by decide
        have := this s hs
        simp only [decide_eq_true_eq]
        omega
      have h2 : orbitals m Z = 0 := by
        unfold orbitals
        rw [List.countP_eq_zero]
        intro k hk
        have : ∀ k ∈ List.range madelung.length, (madelung.getD k (0, 0)).2 ≤ 3 := by decide +kernel
        have := this k hk
        simp only [decide_eq_true_eq]
        omega
      rw [h1, h2]
    by_cases h4 : 4 ≤ m
    · exact hm m h4
    · have key : ∀ z : Fin 119, ∀ m : Fin 4, count m (z.1 : Int) = orbitals m (z.1 : Int) := by decide +kernel
      have := key ⟨Z.toNat, by omega⟩ ⟨m, by omega⟩
      simpa [Int.toNat_of_nonneg (show (0 : Int) ≤ Z by omega)] using this

theorem count_anti (m : Nat) (Z : Int) : count (m + 1) Z ≤ count m Z := by
  unfold count
  apply List.countP_mono_left
  intro s _ h
  simp only [decide_eq_true_eq] at h ⊢
  omega

theorem erase_ok {n0 n1 n2 n3 : Nat} (h0 : n1 ≤ n0) (h1 : n2 ≤ n1) (h2 : n3 ≤ n2) : ∀ {v : List Nat}, v = (List.range 4).reverse.foldl (fun v m => if v.getD m 0 = 0 then v.eraseIdx m else v) [n0, n1, n2, n3] →
    v.getD 0 0 = n0 ∧ v.getD 1 0 = n1 ∧ v.getD 2 0 = n2 ∧ v.getD 3 0 = n3 ∧ v.length ≤ 4 ∧ 0 ∉ v := by
  rintro v rfl
  rw [show (List.range 4).reverse = [3, 2, 1, 0] by rfl]
  simp only [List.foldl_cons, List.foldl_nil]
  by_cases c3 : n3 = 0
  · by_cases c2 : n2 = 0
    · by_cases c1 : n1 = 0
      · by_cases c0 : n0 = 0
        · simp [c3, c2, c1, c0]
        · simp [c3, c2, c1, c0, Ne.symm c0]
      · have : n0 ≠ 0 := by omega
        simp [c3, c2, c1, this, this.symm, Ne.symm c1]
    · have g0 : n0 ≠ 0 := by omega
      have g1 : n1 ≠ 0 := by omega
      simp [c3, c2, g0, g1, g0.symm, g1.symm, Ne.symm c2]
  · have g0 : n0 ≠ 0 := by omega
    have g1 : n1 ≠ 0 := by omega
    have g2 : n2 ≠ 0 := by omega
    simp [c3, g0, g1, g2, g0.symm, g1.symm, g2.symm, Ne.symm c3]

/-- The entry of symmetry `m` in the list of orbitals is the number of shells of the two atoms that have such an orbital; dropping the symmetries without orbitals does not move the others. The list ends with the last
symmetry that has orbitals. -/
theorem C89_orbitals (Z1 Z2 : Int) (h1 : Z1 ≤ 118) (h2 : Z2 ≤ 118) : ∃ v, norbs Z1 Z2 = .ok v ∧ (∀ m < 4, v.getD m 0 = orbitals m Z1 + orbitals m Z2) ∧ v.length ≤ 4 ∧ 0 ∉ v := by
  have hn : numOrbs Z1 Z2 = .ok (orbitals 0 Z1 + orbitals 0 Z2, orbitals 1 Z1 + orbitals 1 Z2, orbitals 2 Z1 + orbitals 2 Z2, orbitals 3 Z1 + orbitals 3 Z2) := by
    unfold numOrbs
    rw [numOrbs1_eq, Res.ok_bind, numOrbs1_eq]
    simp only [Nat.zero_add, count_eq _ _ h1, count_eq _ _ h2]
  have ha : ∀ m, orbitals (m + 1) Z1 + orbitals (m + 1) Z2 ≤ orbitals m Z1 + orbitals m Z2 := fun m => by
    have e1 := count_anti m Z1
    have e2 := count_anti m Z2
    simp only [count_eq _ _ h1, count_eq _ _ h2] at e1 e2
    omega
  have a0 := ha 0
  have a1 := ha 1
  have a2 := ha 2
  obtain ⟨e0, e1, e2, e3, e4, e5⟩ := erase_ok a0 a1 a2 rfl
  refine ⟨_, by unfold norbs; rw [hn]; rfl, fun m hm => ?_, e4, e5⟩
  interval_cases m
  · exact e0
  · exact e1
  · exact e2
  · exact e3

/-- Carbon and oxygen have six shells with a sigma and two with a pi orbital. -/
example : norbs 6 8 = .ok [6, 2] := by decide +kernel

/-! ### The search -/

/-- The memory of bases changes nothing: the program ends in the same way with the same basis sets as one that makes every basis anew, and no basis is made twice. -/
theorem C89_memory (build : Key → Res Value) (norbs : List Nat) (nadd thresh : Int) (f : Nat) :
    (∀ out c, program (eval build) Memo.empty norbs nadd thresh f = some (.ok (out, c)) → program (evalPure build) () norbs nadd thresh f = some (.ok (out, ())) ∧ (c.entries.map Prod.fst).Nodup ∧
      c.misses = c.entries.length ∧ ∀ k v, (k, v) ∈ c.entries → build k = .ok v) ∧
    (∀ out, program (evalPure build) () norbs nadd thresh f = some (.ok (out, ())) → ∃ c, program (eval build) Memo.empty norbs nadd thresh f = some (.ok (out, c))) ∧
    (∀ e, program (eval build) Memo.empty norbs nadd thresh f = some (.throw e) ↔ program (evalPure build) () norbs nadd thresh f = some (.throw e)) ∧
    (program (eval build) Memo.empty norbs nadd thresh f = some .ub ↔ program (evalPure build) () norbs nadd thresh f = some .ub) := by
  have hg : Good build Memo.empty := ⟨by simp [Memo.empty], by simp [Memo.empty], rfl⟩
  have h := search_sim build norbs nadd thresh f 0 ⟨Memo.empty, 1, fun _ => none, fun _ => true, true⟩ ⟨(), 1, fun _ => none, fun _ => true, true⟩ [] ⟨rfl, rfl, rfl, rfl, hg⟩
  change Rel _ (program (eval build) Memo.empty norbs nadd thresh f) (program (evalPure build) () norbs nadd thresh f) at h
  revert h
  generalize program (eval build) Memo.empty norbs nadd thresh f = r
  generalize program (evalPure build) () norbs nadd thresh f = r'
  intro h
  match r, r', h with
  | none, none, _ => simp
  | some (.ok (o, c)), some (.ok (o', u)), h =>
    obtain ⟨h1, h2⟩ := h
    dsimp only at h1 h2
    subst h1
    refine ⟨fun out c' e => ?_, fun out e => ?_, by simp, by simp⟩
    · cases e
      exact ⟨rfl, h2.once, h2.count, h2.right⟩
    · cases e
      exact ⟨c, rfl⟩
  | some (.throw e), some (.throw e'), h =>
    have h' : e = e' := h
    subst h'
    simp
  | some .ub, some .ub, _ => simp

/-- Every basis set that is reported is converged to the threshold it is reported with: neither more partial waves nor more elements lower the energy of any symmetry by the threshold. A finished run reports one basis
set for each threshold, in order. -/
theorem C89_converged {build : Key → Res Value} {b : Key → Value} (hb : ∀ k v, build k = .ok v → b k = v) {norbs : List Nat} {nadd thresh : Int} {f : Nat} {out : List Report} {c : Memo}
    (h : program (eval build) Memo.empty norbs nadd thresh f = some (.ok (out, c))) :
    out.map Report.thr = List.range (thresh + 1).toNat ∧
      ∀ r ∈ out, ∃ lm : Nat → Int, r.lmgrid = (List.range norbs.length).map (fun m => some (lm m)) ∧ Converged b norbs nadd (1 / 10 ^ r.thr) r.N lm := by
  obtain ⟨h1, -⟩ := (C89_memory build norbs nadd thresh f).1 out c h
  obtain ⟨new, k1, k2, k3⟩ := search_post hb thresh f 0 _ [] _ h1
  rw [List.nil_append] at k1
  dsimp only at k1
  subst k1
  refine ⟨?_, k3⟩
  rw [k2]
  simp

/-- The partial waves that are read have always been set. -/
theorem C89_defined {build : Key → Res Value} (hb : ∀ k, build k ≠ .ub) (norbs : List Nat) (nadd thresh : Int) (f : Nat) : program (eval build) Memo.empty norbs nadd thresh f ≠ some .ub := by
  rw [Ne, (C89_memory build norbs nadd thresh f).2.2.2]
  exact search_ub hb norbs nadd thresh f 0 _ [] fun k hk hor => by
    rcases hor with h | h
    · omega
    · exact absurd h (by simp)

/-- The search ends if the energies are bounded from below and more elements never raise them. -/
theorem C89_ends {b : Key → Value} {norbs : List Nat} {nadd : Int} {B : Nat → ℝ} (hB : ∀ m N l, B m ≤ energy b norbs m N l) (hanti : ∀ m N l, energy b norbs m (N + nadd) l ≤ energy b norbs m N l)
    (thresh : Int) : ∃ F out c, program (eval fun k => .ok (b k)) Memo.empty norbs nadd thresh F = some (.ok (out, c)) := by
  obtain ⟨⟨out, u⟩, F, hF⟩ := search_ends hB hanti thresh (thresh + 1).toNat 0 (by omega) ⟨(), 1, fun _ => none, fun _ => true, true⟩ [] fun k hk hor => by
    rcases hor with h | h
    · omega
    · exact absurd h (by simp)
  obtain ⟨c, hc⟩ := (C89_memory (fun k => .ok (b k)) norbs nadd thresh F).2.1 out (hF F le_rfl)
  exact ⟨F, out, c, hc⟩

/-- Hydrogen-like energies `-1 + 1 / (1 + elements + partial waves)`, as a case of all the hypotheses. -/
noncomputable def hyd (k : Key) : Value := ⟨[-1 + 1 / (1 + (k.1.toNat : ℝ) + ((k.2.getLast?.getD 0).toNat : ℝ))], 1, 1⟩

theorem hyd_energy (N l : Int) (m : Nat) (hm : m = 0) : energy hyd [1] m N l = -1 + 1 / (1 + (N.toNat : ℝ) + (l.toNat : ℝ)) := by
  subst hm
  simp [energy, hyd]

theorem hyd_energy' (N l : Int) (m : Nat) (hm : m ≠ 0) : energy hyd [1] m N l = 0 := by
  obtain ⟨k, rfl⟩ := Nat.exists_eq_succ_of_ne_zero hm
  simp [energy, hyd]

example : ∃ F out c, program (eval fun k => .ok (hyd k)) Memo.empty [1] 2 10 F = some (.ok (out, c)) ∧ out.map Report.thr = List.range 11 := by
  obtain ⟨F, out, c, h⟩ := C89_ends (b := hyd) (norbs := [1]) (nadd := 2) (B := fun _ => -1)
    (fun m N l => by
      by_cases hm : m = 0
      · rw [hyd_energy N l m hm]
        have : (0 : ℝ) ≤ 1 / (1 + (N.toNat : ℝ) + (l.toNat : ℝ)) := by positivity
        linarith
      · rw [hyd_energy' N l m hm]
        norm_num)
    (fun m N l => by
      by_cases hm : m = 0
      · rw [hyd_energy _ l m hm, hyd_energy N l m hm]
        have h1 : (N.toNat : ℝ) ≤ ((N + 2).toNat : ℝ) := by exact_mod_cast (by omega : N.toNat ≤ (N + 2).toNat)
        have := one_div_le_one_div_of_le (show (0 : ℝ) < 1 + (N.toNat : ℝ) + (l.toNat : ℝ) by positivity) (show 1 + (N.toNat : ℝ) + (l.toNat : ℝ) ≤ 1 + ((N + 2).toNat : ℝ) + (l.toNat : ℝ) by linarith)
        linarith
      · rw [hyd_energy' _ l m hm, hyd_energy' N l m hm]) 10
  exact ⟨F, out, c, h, (C89_converged (b := hyd) (fun k v e => by cases e; rfl) h).1⟩

/-! ### Where the result is not what it seems -/

theorem angular_zero (b : Key → Value) (norbs : List Nat) (m : Nat) {thr : ℝ} (ht : 0 < thr) (f : Nat) (s : Loop Unit) (hE : s.E = energy b norbs m s.N s.l) :
    angular (evb b) m (norbs.getD m 0) 0 thr (f + 1) s = some (.ok s) := by
  obtain ⟨r, hr, hrE⟩ := evb_ok (b := b) (norbs := norbs) (m := m) s.N s.l
  unfold angular
  rw [add_zero, hr, Run.bind_ok, if_pos (by rw [hrE, hE]; linarith)]

theorem channel_zero (b : Key → Value) (norbs : List Nat) (m : Nat) {thr : ℝ} (ht : 0 < thr) (f : Nat) (s : Loop Unit) (hE : s.E = energy b norbs m s.N s.l) :
    channel (evb b) m (norbs.getD m 0) 0 thr (f + 2) s = some (.ok s) := by
  obtain ⟨r, hr, hrE⟩ := evb_ok (b := b) (norbs := norbs) (m := m) s.N s.l
  unfold channel
  rw [angular_zero b norbs m ht f s hE, Run.bind_ok, add_zero, hr, Run.bind_ok, if_pos (by rw [hrE, hE]; linarith)]

theorem pass_zero (b : Key → Value) (norbs : List Nat) {thr : ℝ} (ht : 0 < thr) (f j : Nat) (hj : j ≤ norbs.length) (p : Prog Unit) (hp : ∀ k < norbs.length, p.init k = true ∧ (j ≤ k → p.lmgrid k = some ((norbs.length : Int) - 1)) ∨
      p.init k = false ∧ p.lmgrid k = some ((norbs.length : Int) - 1)) :
    ∃ p', pass (evb b) norbs 0 thr (f + 2) j p = some (.ok p') ∧ p'.N = p.N ∧ p'.cvd = p.cvd ∧ (∀ k < j, p'.init k = false ∧ p'.lmgrid k = some ((norbs.length : Int) - 1)) ∧ ∀ k, j ≤ k → p'.init k = p.init k ∧ p'.lmgrid k = p.lmgrid k := by
  induction j generalizing p with
  | zero => exact ⟨p, rfl, rfl, rfl, fun k hk => absurd hk (Nat.not_lt_zero k), fun _ _ => ⟨rfl, rfl⟩⟩
  | succ j ih =>
    have hs : start norbs.length j p = .ok ((norbs.length : Int) - 1) := by
      unfold start
      rcases hp j (by omega) with ⟨h1, h2⟩ | ⟨h1, h2⟩
      · rw [if_pos h1]
        by_cases hn : j + 1 < norbs.length
        · rw [if_pos hn]
          rcases hp (j + 1) hn with ⟨-, h3⟩ | ⟨-, h3⟩
          · rw [h3 le_rfl]
          · rw [h3]
        · rw [if_neg hn]
          dsimp only
          congr 1
          omega
      · rw [if_neg (by simp [h1]), h2]
    obtain ⟨r, hr, hrE⟩ := evb_ok (b := b) (norbs := norbs) (m := j) p.N ((norbs.length : Int) - 1)
    have hsym : symmetry (evb b) norbs 0 thr (f + 2) j p = some (.ok ⟨r.2, p.N, fun k => if k = j then some ((norbs.length : Int) - 1) else p.lmgrid k, fun k => if k = j then false else p.init k, p.cvd⟩) := by
      unfold symmetry
      rw [hs, Run.bind_ok, hr, Run.bind_ok, channel_zero b norbs j ht f _ hrE, Run.bind_ok]
    obtain ⟨p', k1, k2, k3, k4, k5⟩ := ih (by omega) ⟨r.2, p.N, fun k => if k = j then some ((norbs.length : Int) - 1) else p.lmgrid k, fun k => if k = j then false else p.init k, p.cvd⟩ (by
      intro k hk
      dsimp only
      by_cases hkj : k = j
      · rw [if_pos hkj, if_pos hkj]
        exact Or.inr ⟨rfl, rfl⟩
      · rw [if_neg hkj, if_neg hkj]
        rcases hp k hk with ⟨h1, h2⟩ | h
        · exact Or.inl ⟨h1, fun hle => h2 (by omega)⟩
        · exact Or.inr h)
    refine ⟨p', ?_, k2, k3, fun k hk => ?_, fun k hk => ?_⟩
    · unfold pass
      rw [hsym, Run.bind_ok, k1]
    · rcases Nat.lt_succ_iff_lt_or_eq.1 hk with h | rfl
      · exact k4 k h
      · obtain ⟨e1, e2⟩ := k5 k le_rfl
        rw [e1, e2]
        exact ⟨if_pos rfl, if_pos rfl⟩
    · obtain ⟨e1, e2⟩ := k5 k (by omega)
      rw [e1, e2]
      exact ⟨if_neg (by omega), if_neg (by omega)⟩

/-- With nothing to add, the smallest basis set is reported as converged to every threshold, whatever its energies. -/
theorem C89_nothing_added (b : Key → Value) (norbs : List Nat) (thresh : Int) : ∃ F out c, program (eval fun k => .ok (b k)) Memo.empty norbs 0 thresh F = some (.ok (out, c)) ∧
    out = (List.range (thresh + 1).toNat).map fun i => ⟨i, 1, List.replicate norbs.length (some ((norbs.length : Int) - 1))⟩ := by
  have key : ∀ (d ithr : Nat) (p : Prog Unit) (out : List Report), (thresh + 1).toNat - ithr = d → p.N = 1 → (∀ k < norbs.length, p.init k = true ∨ p.init k = false ∧ p.lmgrid k = some ((norbs.length : Int) - 1)) →
      search (evb b) norbs 0 thresh (d + 3) ithr p out = some (.ok (out ++ (List.range d).map fun i => ⟨ithr + i, 1, List.replicate norbs.length (some ((norbs.length : Int) - 1))⟩, ())) := by
    intro d
    induction d with
    | zero =>
      intro ithr p out hd _ _
      unfold search
      rw [if_neg (by omega)]
      simp
    | succ d ih =>
      intro ithr p out hd hN hp
      obtain ⟨p', k1, k2, k3, k4, -⟩ := pass_zero b norbs (thr := 1 / 10 ^ ithr) (by positivity) (d + 1) norbs.length le_rfl { p with cvd := true }
        (fun k hk => (hp k hk).imp (fun h => ⟨h, fun hle => absurd hk (by omega)⟩) id)
      have hl : (List.range norbs.length).map p'.lmgrid = List.replicate norbs.length (some ((norbs.length : Int) - 1)) := by
        rw [List.eq_replicate_iff]
        refine ⟨by simp, fun x hx => ?_⟩
        obtain ⟨k, hk, rfl⟩ := List.mem_map.1 hx
        exact (k4 k (List.mem_range.1 hk)).2
      unfold search
      rw [if_pos (by omega), k1, Run.bind_ok, if_pos k3, ih (ithr + 1) p' _ (by omega) (k2.trans hN) fun k hk => Or.inr (k4 k hk), hl, k2, hN, List.range_succ_eq_map]
      simp [Function.comp_def, Nat.add_assoc, Nat.add_comm 1]
  have h := key (thresh + 1).toNat 0 ⟨(), 1, fun _ => none, fun _ => true, true⟩ [] (by omega) rfl fun k _ => Or.inl rfl
  obtain ⟨c, hc⟩ := (C89_memory (fun k => .ok (b k)) norbs 0 thresh _).2.1 _ h
  exact ⟨_, _, c, hc, by simp⟩

/-- For `m` that is not zero the basis has functions with `m` and with `-m`. -/
theorem C89_both_signs (m : Nat) (L l μ : Int) : (l, μ) ∈ Sym.lmToLM (lmOf m L) ↔ |μ| = m ∧ |μ| ≤ l ∧ l ≤ L := by
  rw [(Sym.C26_diatomic_basis (lmOf m L)).2 l μ]
  unfold lmOf
  rw [List.length_append, List.length_replicate, List.length_singleton]
  constructor
  · rintro ⟨h1, h2, h3⟩
    by_cases h : μ.natAbs < m
    · rw [List.getD_eq_getElem?_getD, List.getElem?_append_left (by simpa using h), List.getElem?_replicate, if_pos h, Option.getD_some] at h3
      have := abs_nonneg μ
      omega
    · have e : μ.natAbs = m := by
        have := Int.natCast_natAbs μ
        push_cast at h1
        omega
      rw [e, List.getD_eq_getElem?_getD, List.getElem?_append_right (by simp)] at h3
      simp at h3
      refine ⟨?_, h2, h3⟩
      rw [← Int.natCast_natAbs, e]
  · rintro ⟨h1, h2, h3⟩
    have e : μ.natAbs = m := by
      rw [← Int.natCast_natAbs] at h1
      omega
    refine ⟨by push_cast; omega, h2, ?_⟩
    rw [e, List.getD_eq_getElem?_getD, List.getElem?_append_right (by simp)]
    simpa using h3

theorem take_twice (e : List ℝ) (n : Nat) : (e.flatMap fun x => [x, x]).take n = ((e.take ((n + 1) / 2)).flatMap fun x => [x, x]).take n := by
  induction e generalizing n with
  | nil => simp
  | cons x e ih =>
    match n with
    | 0 => simp
    | 1 => simp
    | n + 2 =>
      rw [show (n + 2 + 1) / 2 = (n + 1) / 2 + 1 by omega, List.take_succ_cons]
      simp only [List.flatMap_cons, List.cons_append, List.nil_append, List.take_succ_cons]
      rw [ih]

/-- If the levels of `m` and `-m` are the same, the energy that is converged sees only half of the shells: two bases whose lower half of the levels agree have the same energy, whatever the upper half. -/
theorem C89_half (v v' : Value) (e e' : List ℝ) (n : Nat) (hv : v.ev = e.flatMap fun x => [x, x]) (hv' : v'.ev = e'.flatMap fun x => [x, x]) (h : e.take ((n + 1) / 2) = e'.take ((n + 1) / 2)) :
    (outOf v n).E = (outOf v' n).E := by
  rw [outOf_energy, outOf_energy, hv, hv', take_twice, take_twice e', h]

/-- With two pi shells only the first is seen: the second may be off by any amount. -/
example : (outOf ⟨[-2, -2, -1, -1], 2, 2⟩ 2).E = (outOf ⟨[-2, -2, 7, 7], 2, 2⟩ 2).E := C89_half _ _ [-2, -1] [-2, 7] 2 rfl rfl rfl

/-- a basis of one element and one partial wave has one function, larger ones have two -/
noncomputable def small (k : Key) : Value := if k = (1, [0]) then ⟨[-1], 1, 1⟩ else ⟨[-2, 5], 1, 2⟩

/-- With fewer functions than orbitals the energies that are compared have different numbers of orbitals: a basis is reported as converged although a larger one lowers its orbital. -/
theorem C89_few : ∃ F out c, program (eval fun k => .ok (small k)) Memo.empty [2] 2 0 F = some (.ok (out, c)) ∧ out = [⟨0, 1, [some 0]⟩] ∧ (small (1, [0])).ev = [-1] ∧ (small (1, [2])).ev.head? = some (-2) := by
  have h0 : energy small [2] 0 1 0 = -1 := by simp [energy, small]
  have h1 : energy small [2] 0 1 2 = 3 := by norm_num [energy, small]
  have h2 : energy small [2] 0 3 0 = 3 := by norm_num [energy, small]
  have hp : program (evb small) () [2] 2 0 4 = some (.ok ([⟨0, 1, [some 0]⟩], ())) := by
    obtain ⟨r0, a0, e0⟩ := evb_ok (b := small) (norbs := [2]) (m := 0) 1 0
    obtain ⟨r1, a1, e1⟩ := evb_ok (b := small) (norbs := [2]) (m := 0) 1 2
    obtain ⟨r2, a2, e2⟩ := evb_ok (b := small) (norbs := [2]) (m := 0) 3 0
    have hang : ∀ st cvd, angular (evb small) 0 ([2].getD 0 0) 2 (1 / 10 ^ 0) 2 ⟨st, 1, 0, r0.1.E, cvd⟩ = some (.ok ⟨(), 1, 0, r0.1.E, cvd⟩) := by
      intro st cvd
      unfold angular
      rw [zero_add, a1, Run.bind_ok, if_pos (by rw [e1, e0, h1, h0]; norm_num)]
    have hch : ∀ st cvd, channel (evb small) 0 ([2].getD 0 0) 2 (1 / 10 ^ 0) 3 ⟨st, 1, 0, r0.1.E, cvd⟩ = some (.ok ⟨(), 1, 0, r0.1.E, cvd⟩) := by
      intro st cvd
      unfold channel
      rw [hang, Run.bind_ok]
      dsimp only
      rw [show (1 : Int) + 2 = 3 by norm_num, a2, Run.bind_ok, if_pos (by rw [e2, e0, h2, h0]; norm_num)]
    have hsym : symmetry (evb small) [2] 2 (1 / 10 ^ 0) 3 0 ⟨(), 1, fun _ => none, fun _ => true, true⟩ =
        some (.ok ⟨(), 1, fun k => if k = 0 then some 0 else none, fun k => if k = 0 then false else true, true⟩) := by
      unfold symmetry
      rw [show start [2].length 0 (⟨(), 1, fun _ => none, fun _ => true, true⟩ : Prog Unit) = .ok 0 from rfl, Run.bind_ok, a0, Run.bind_ok, hch, Run.bind_ok]
    unfold program search
    rw [if_pos (by norm_num)]
    unfold pass
    rw [show [2].length = 1 from rfl]
    dsimp only
    rw [hsym, Run.bind_ok]
    unfold pass
    rw [Run.bind_ok]
    rfl
  obtain ⟨c, hc⟩ := (C89_memory (fun k => .ok (small k)) [2] 2 0 4).2.1 _ hp
  exact ⟨4, _, c, hc, rfl, by simp [small], by simp [small]⟩

end Core
end HelFEM
