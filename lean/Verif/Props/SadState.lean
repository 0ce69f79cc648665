import Verif.Lemmas.SadState
import Verif.Props.SadSCF

/-!
# C84: start, result, saving and loading of the spherically averaged atom
-/

namespace HelFEM
namespace SadSCF

open Matrix Finset XC AtomJK TwoE

/-! ### Start -/

/-- **C84, start.** The first Fock matrix of shell `l` is the one-electron Hamiltonian with the potential of the guess, the same for both spins; -/
theorem C84_start (s : Setup) (iguess : Int) (model : Int → Matrix (Fin s.N) (Fin s.N) ℝ) (h0 : 0 ≤ iguess) (h4 : iguess ≤ 4) :
    ∃ F, coreStart s iguess model = .ok F ∧ F.length = (if s.restricted then 1 else 2) * (s.lmax + 1) ∧ ∀ t < (if s.restricted then 1 else 2), ∀ l ≤ s.lmax,
      F[t * (s.lmax + 1) + l]? = some (s.Xᵀ * (s.T + (l * (l + 1) : ℝ) • s.Tl + (if iguess = 0 then s.Vnuc else model iguess) + if s.haveConf then s.Vconf else 0) * s.X) := by
  have hg : guessPotential s iguess model = .ok (if iguess = 0 then s.Vnuc else model iguess) := by
    unfold guessPotential
    by_cases h : iguess = 0
    · rw [if_neg (by simpa using h), if_pos h]
    · rw [if_pos h, if_pos (by omega), if_neg h]
  obtain ⟨V, hV⟩ : ∃ V, V = (if iguess = 0 then s.Vnuc else model iguess) := ⟨_, rfl⟩
  rw [← hV] at hg ⊢
  have hb : ∀ l : Nat, coreBlock s V l = s.Xᵀ * (s.T + (l * (l + 1) : ℝ) • s.Tl + V + if s.haveConf then s.Vconf else 0) * s.X := by
    intro l
    unfold coreBlock
    dsimp only
    congr 2
    rcases Nat.eq_zero_or_pos l with rfl | hl
    · split_ifs <;> simp_all
    · rw [if_pos hl]
      split_ifs
      · abel
      · rw [add_zero]
        abel
  refine ⟨_, by unfold coreStart; rw [hg, Res.ok_bind], ?_, ?_⟩
  · cases s.restricted <;> simp [Setup.nblock, List.range_succ (n := 1), two_mul]
  · intro t ht l hl
    rw [← hb l]
    unfold Setup.nblock
    cases hr : s.restricted
    · rw [hr] at ht
      simp only [Bool.false_eq_true, if_false] at ht ⊢
      simp only [List.range_succ (n := 1), List.range_one, List.flatMap_append, List.flatMap_cons, List.flatMap_nil, List.append_nil]
      obtain rfl | rfl : t = 0 ∨ t = 1 := by omega
      · rw [List.getElem?_append_left (by simp; omega)]
        simp [show l < s.lmax + 1 by omega]
      · rw [List.getElem?_append_right (by simp)]
        simp [show l < s.lmax + 1 by omega]
    · rw [hr] at ht
      simp only [if_true] at ht ⊢
      obtain rfl : t = 0 := by omega
      simp [show l < s.lmax + 1 by omega]

/-- other guesses are refused. -/
theorem C84_start_refused (s : Setup) (iguess : Int) (model : Int → Matrix (Fin s.N) (Fin s.N) ℝ) (h : iguess < 0 ∨ 4 < iguess) : coreStart s iguess model = .throw .logicError := by
  unfold coreStart guessPotential
  rw [if_pos (by omega), if_neg (by omega)]
  rfl

/-- a guess and a refused one, both spins -/
example : (∃ F, coreStart (exSetup false 1 0 true) 2 (fun k => (k : ℝ) • 1) = .ok F ∧ F.length = 4) ∧ coreStart (exSetup false 1 0 true) 5 (fun _ => 1) = .throw .logicError := by
  obtain ⟨F, h1, h2, -⟩ := C84_start (exSetup false 1 0 true) 2 (fun k => (k : ℝ) • 1) (by norm_num) (by norm_num)
  exact ⟨⟨F, h1, h2⟩, C84_start_refused _ _ _ (.inr (by norm_num))⟩

/-! ### Result -/

section result
variable {s : Setup} {sol : List (Dens.Orbs s.M)} {oa ob : Nat → Dens.Orbs s.M}

/-- **C84, result.** The density matrices returned are those of the orbitals and occupations the solver found, shell by shell and spin by spin; the total one is their sum; the orbitals are
the solver's over the radial functions, with their occupations unchanged, and the counts are the rounded sums of these. -/
theorem C84_result (h : Spec.Answer s sol oa ob) : ∃ r, result s sol = .ok r ∧
    r.orbsA = (List.range (s.lmax + 1)).map (fun l => (⟨(oa l).p, s.X * (oa l).C, (oa l).occ⟩ : Dens.Orbs s.N)) ∧
    r.PlA = (List.range (s.lmax + 1)).map (fun l => Spec.density s.X (oa l)) ∧ r.occsA = (List.range (s.lmax + 1)).map (fun l => roundAway (oa l).total) ∧
    (s.restricted = true → r.orbsB = [] ∧ r.PlB = [] ∧ r.occsB = [] ∧ r.Prad = ∑ l ∈ range (s.lmax + 1), Spec.density s.X (oa l)) ∧
    (s.restricted = false → r.orbsB = (List.range (s.lmax + 1)).map (fun l => (⟨(ob l).p, s.X * (ob l).C, (ob l).occ⟩ : Dens.Orbs s.N)) ∧
      r.PlB = (List.range (s.lmax + 1)).map (fun l => Spec.density s.X (ob l)) ∧ r.occsB = (List.range (s.lmax + 1)).map (fun l => roundAway (ob l).total) ∧
      r.Prad = (∑ l ∈ range (s.lmax + 1), Spec.density s.X (oa l)) + ∑ l ∈ range (s.lmax + 1), Spec.density s.X (ob l)) := by
  have ea := extract_ok s sol 0 oa (fun l hl => by rw [Nat.zero_mul, Nat.zero_add]; exact h.alpha l hl) fun l hl => (h.small l hl).1
  unfold result
  rw [ea, Res.ok_bind]
  cases hr : s.restricted
  · rw [if_neg (by simp), extract_ok s sol 1 ob (fun l hl => by rw [Nat.one_mul]; exact h.beta hr l hl) fun l hl => (h.small l hl).2, Res.ok_bind]
    refine ⟨_, rfl, rfl, buildCube_map _ _ _, rfl, fun hh => (by cases hh), fun _ => ⟨rfl, buildCube_map _ _ _, rfl, ?_⟩⟩
    dsimp only
    rw [buildCube_map, buildCube_map, foldl_add_range, foldl_add_range, zero_add]
  · rw [if_pos rfl, Res.ok_bind]
    refine ⟨_, rfl, rfl, buildCube_map _ _ _, rfl, fun _ => ⟨rfl, rfl, rfl, ?_⟩, fun hh => by cases hh⟩
    dsimp only
    rw [buildCube_map, foldl_add_range, zero_add]
    rfl

/-- **C84, electrons.** The total density holds the electrons of the occupied orbitals, -/
theorem C84_electrons (h : Spec.Answer s sol oa ob) {S : Matrix (Fin s.N) (Fin s.N) ℝ} (hX : Spec.Orthonormalises S s.X) (ha : ∀ l ≤ s.lmax, (oa l).Orthonormal)
    (hb : s.restricted = false → ∀ l ≤ s.lmax, (ob l).Orthonormal) :
    ∃ r, result s sol = .ok r ∧ Spec.count S r.Prad = ∑ l ∈ range (s.lmax + 1), ((oa l).total + if s.restricted then 0 else (ob l).total) := by
  obtain ⟨r, h1, -, -, -, h2, h3⟩ := C84_result h
  refine ⟨r, h1, ?_⟩
  have ct : ∀ o : Nat → Dens.Orbs s.M, (∀ l ≤ s.lmax, (o l).Orthonormal) → Spec.count S (∑ l ∈ range (s.lmax + 1), Spec.density s.X (o l)) = ∑ l ∈ range (s.lmax + 1), (o l).total := by
    intro o ho
    unfold Spec.count
    rw [Matrix.sum_mul, trace_sum]
    refine sum_congr rfl fun l hl => ?_
    rw [mem_range] at hl
    exact density_count hX _ (ho l (by omega))
  cases hr : s.restricted
  · rw [(h3 hr).2.2.2]
    have : ∀ A B : Matrix (Fin s.N) (Fin s.N) ℝ, Spec.count S (A + B) = Spec.count S A + Spec.count S B := fun A B => by
      unfold Spec.count
      rw [Matrix.add_mul, trace_add]
    rw [this, ct oa ha, ct ob (hb hr), ← sum_add_distrib]
    simp
  · rw [(h2 hr).2.2.2, ct oa ha]
    simp

/-- and it is the one the Fock builder was given. -/
theorem C84_same_density (h : Spec.Answer s sol oa ob) (pa : ∀ l ≤ s.lmax, (oa l).p ≠ 0) (pb : s.restricted = false → ∀ l ≤ s.lmax, (ob l).p ≠ 0) : ∃ r, result s sol = .ok r ∧
    (s.restricted = true → ∃ g, gatherR s sol = .ok g ∧ g.1.P = r.Prad ∧ ∀ l ≤ s.lmax, r.PlA[l]? = some (g.1.Pl l)) ∧
    (s.restricted = false → ∃ g, gatherU s sol = .ok g ∧ g.1.1.P + g.1.2.P = r.Prad ∧ ∀ l ≤ s.lmax, r.PlA[l]? = some (g.1.1.Pl l) ∧ r.PlB[l]? = some (g.1.2.Pl l)) := by
  obtain ⟨r, h1, -, h4, -, h2, h3⟩ := C84_result h
  refine ⟨r, h1, fun hr => ?_, fun hr => ?_⟩
  · obtain ⟨a, g1, g2, g3⟩ := gatherR_ok s sol oa (fun l hl => by rw [readAt, h.alpha l (by unfold Setup.nblock at hl; omega)]) fun l hl => pa l (by unfold Setup.nblock at hl; omega)
    refine ⟨_, g1, by rw [(h2 hr).2.2.2]; exact g2, fun l hl => ?_⟩
    dsimp only
    rw [h4, g3 l, if_pos (by unfold Setup.nblock; omega)]
    simp [show l < s.lmax + 1 by omega]
  · obtain ⟨a, b, g1, ⟨g2, g3⟩, g4, g5⟩ := gatherU_ok s sol oa ob (fun l hl => by rw [readAt, h.alpha l (by unfold Setup.nblock at hl; omega)])
      (fun l hl => by unfold Setup.nblock at hl ⊢; rw [readAt, h.beta hr l (by omega)]) (fun l hl => pa l (by unfold Setup.nblock at hl; omega)) fun l hl => pb hr l (by unfold Setup.nblock at hl; omega)
    refine ⟨_, g1, by rw [(h3 hr).2.2.2]; dsimp only; rw [g2, g4]; rfl, fun l hl => ?_⟩
    dsimp only
    rw [h4, (h3 hr).2.1, g3 l, g5 l, if_pos (by unfold Setup.nblock; omega), if_pos (by unfold Setup.nblock; omega)]
    simp [show l < s.lmax + 1 by omega]

end result

/-! ### Saving -/

/-- **C84, saved orbitals.** The orbitals written are the occupied ones, and they give the density of all of them. -/
theorem C84_saved {N : Nat} (o : Dens.Orbs N) : (keptOrbs o).C * diagonal (keptOrbs o).occ * (keptOrbs o).Cᵀ = o.C * diagonal o.occ * o.Cᵀ ∧ (∀ k, (keptOrbs o).occ k ≠ 0) ∧
    ∃ e : Fin (keptOrbs o).p → Fin o.p, Function.Injective e ∧ (∀ i, o.occ i ≠ 0 → ∃ k, e k = i) ∧ ∀ k, (keptOrbs o).occ k = o.occ (e k) ∧ ∀ i, (keptOrbs o).C i k = o.C i (e k) := by
  obtain ⟨keep, hk⟩ : ∃ keep, keep = (List.finRange o.p).filter fun i => decide (occSaveThreshold < |o.occ i|) := ⟨_, rfl⟩
  have hkept : keptOrbs o = ⟨keep.length, o.C.submatrix id keep.get, fun k => o.occ (keep.get k)⟩ := by rw [hk]; rfl
  have hmem : ∀ i, i ∈ keep ↔ o.occ i ≠ 0 := by
    intro i
    rw [hk, List.mem_filter]
    have : (0.0 : ℝ) = 0 := by norm_num
    simp [occSaveThreshold, this]
  have hnd : keep.Nodup := by
    rw [hk]
    exact (List.nodup_finRange _).filter _
  rw [hkept]
  refine ⟨?_, fun k => (hmem _).1 (List.get_mem _ _), keep.get, List.nodup_iff_injective_get.1 hnd, fun i hi => List.get_of_mem ((hmem i).2 hi), fun k => ⟨rfl, fun i => rfl⟩⟩
  ext i j
  have e : ∀ {p : Nat} (C : Matrix (Fin N) (Fin p) ℝ) (w : Fin p → ℝ), (C * diagonal w * Cᵀ) i j = ∑ k, C i k * w k * C j k := by
    intro p C w
    rw [Matrix.mul_apply]
    exact sum_congr rfl fun k _ => by rw [Matrix.mul_diagonal, transpose_apply]
  rw [e, e]
  rw [← Finset.sum_subset (Finset.subset_univ keep.toFinset) fun x _ hx => ?_]
  · rw [List.sum_toFinset _ hnd, ← Fin.sum_univ_fun_getElem]
    rfl
  · have : o.occ x = 0 := by
      by_contra hh
      exact hx (List.mem_toFinset.2 ((hmem x).2 hh))
    rw [this, mul_zero, zero_mul]

/-! ### Loading -/

theorem fill_ok (s : Setup) {sv : Orth.Solvers} (hs : sv.Sound) (ht : sv.Total) {P : Matrix (Fin s.N) (Fin s.N) ℝ} (hP : Pᵀ = P) {c : ℝ} (hc : 0 ≤ c) :
    ∃ o, fillShell s sv P c = .ok o ∧ o.Orthonormal ∧ Spec.Within o c ∧ ∃ v V, Vᵀ * V = 1 ∧ s.Xᵀ * P * s.X = V * diagonal v * Vᵀ ∧
      o = ⟨s.M, V.submatrix id Fin.rev, fun i => min (max (v (Fin.rev i)) 0.0) c⟩ := by
  have hsym : (s.Xᵀ * P * s.X)ᵀ = s.Xᵀ * P * s.X := by rw [transpose_mul, transpose_mul, transpose_transpose, hP, Matrix.mul_assoc]
  obtain ⟨⟨v, V⟩, he⟩ := ht.eig _ _ hsym
  obtain ⟨hV, hA⟩ := hs.eig _ _ _ _ hsym he
  refine ⟨⟨s.M, V.submatrix id Fin.rev, fun i => min (max (v (Fin.rev i)) 0.0) c⟩, ?_, ?_, ?_, v, V, hV, hA, rfl⟩
  · unfold fillShell
    rw [he]
  · unfold Dens.Orbs.Orthonormal
    dsimp only
    ext i j
    have := congrFun (congrFun hV (Fin.rev i)) (Fin.rev j)
    simp only [Matrix.mul_apply, Matrix.transpose_apply, Matrix.submatrix_apply, id] at this ⊢
    rw [this]
    by_cases hij : i = j
    · subst hij; simp
    · rw [Matrix.one_apply_ne hij, Matrix.one_apply_ne (fun hh => hij (Fin.rev_injective hh))]
  · intro i
    refine ⟨le_min ?_ hc, min_le_right _ _⟩
    have := le_max_right (v (Fin.rev i)) (0.0 : ℝ)
    norm_num at this ⊢

theorem places_nonneg (r : Bool) (l : Nat) : 0 ≤ Spec.places r l := by
  unfold Spec.places
  split_ifs <;> positivity

/-- the blocks of the start, one by one -/
theorem load_ok (s : Setup) {n : Nat} {sv : Orth.Solvers} {S : Matrix (Fin s.N) (Fin s.N) ℝ} {S12 : Matrix (Fin s.N) (Fin n) ℝ} {chk : Saved n} {la lb : Nat → Dens.Orbs s.M}
    (ha : ∀ l ≤ s.lmax, fillShell s sv (projected s S S12 chk.lmax (readCube chk.lmax chk.Pal) l (perShell chk.occsA l)) (Spec.places s.restricted l) = .ok (la l))
    (hb : s.restricted = false → ∀ l ≤ s.lmax, fillShell s sv (projected s S S12 chk.lmax (readCube chk.lmax chk.Pbl) l (perShell chk.occsB l)) (Spec.places false l) = .ok (lb l)) :
    loadStart s sv S S12 chk = .ok ((List.range (s.lmax + 1)).map la ++ if s.restricted then [] else (List.range (s.lmax + 1)).map lb) := by
  unfold loadStart Setup.nblock
  dsimp only
  rw [Res.mapM_ok _ la]
  · rw [Res.ok_bind]
    cases hr : s.restricted
    · rw [if_neg (by simp), if_neg (by simp), if_neg (by simp), Res.mapM_ok _ lb]
      · rfl
      · intro l hl
        rw [List.mem_range] at hl
        rw [← hb hr l (by omega)]
        congr 1
        simp only [Spec.places, Bool.false_eq_true, if_false]
        norm_num
    · rw [if_pos rfl, if_pos rfl]
      rfl
  · intro l hl
    rw [List.mem_range] at hl
    rw [← ha l (by omega)]
    congr 1
    unfold Spec.places
    split_ifs <;> norm_num

theorem readCube_symm {n : Nat} {k : Nat} {P : Nat → Option (Matrix (Fin n) (Fin n) ℝ)} (h : ∀ l A, P l = some A → Aᵀ = A) (l : Nat) (A : Matrix (Fin n) (Fin n) ℝ)
    (hA : (readCube k P)[l]? = some A) : Aᵀ = A := by
  unfold readCube at hA
  cases h0 : P 0 with
  | none => rw [h0] at hA; simp at hA
  | some P0 =>
    rw [h0] at hA
    simp only [List.getElem?_map, Option.map_eq_some_iff] at hA
    obtain ⟨m, -, hm⟩ := hA
    split_ifs at hm with hz
    · rw [← hm]; exact h 0 _ h0
    · cases hP : P m with
      | none => rw [hP] at hm; rw [← hm]; simp
      | some B => rw [hP] at hm; rw [← hm]; exact h m _ hP

theorem projected_symm (s : Setup) {n : Nat} (S : Matrix (Fin s.N) (Fin s.N) ℝ) (S12 : Matrix (Fin s.N) (Fin n) ℝ) (k : Nat) {cube : List (Matrix (Fin n) (Fin n) ℝ)}
    (h : ∀ (l : Nat) (A : Matrix (Fin n) (Fin n) ℝ), cube[l]? = some A → Aᵀ = A) (l : Nat) (q : ℝ) : (projected s S S12 k cube l q)ᵀ = projected s S S12 k cube l q := by
  unfold projected
  cases hc : cube[l]? with
  | none => simp
  | some A =>
    have hA := h l A hc
    have e : (s.X * s.Xᵀ * S12 * A * (s.X * s.Xᵀ * S12)ᵀ)ᵀ = s.X * s.Xᵀ * S12 * A * (s.X * s.Xᵀ * S12)ᵀ := by
      rw [transpose_mul, transpose_mul (s.X * s.Xᵀ * S12) A, transpose_transpose, hA]
      simp only [Matrix.mul_assoc]
    dsimp only
    split_ifs
    · rw [transpose_smul, e]
    · exact e
    · simp

/-- **C84, loading any checkpoint.** Whatever the old basis, the start consists of orthonormal orbitals for every shell and spin, with occupations within the places of the shell; shells which
the checkpoint does not know start empty. -/
theorem C84_load (s : Setup) {n : Nat} {sv : Orth.Solvers} (hs : sv.Sound) (ht : sv.Total) (S : Matrix (Fin s.N) (Fin s.N) ℝ) (S12 : Matrix (Fin s.N) (Fin n) ℝ) (chk : Saved n)
    (hA : ∀ l A, chk.Pal l = some A → Aᵀ = A) (hB : ∀ l A, chk.Pbl l = some A → Aᵀ = A) :
    ∃ la lb : Nat → Dens.Orbs s.M, loadStart s sv S S12 chk = .ok ((List.range (s.lmax + 1)).map la ++ if s.restricted then [] else (List.range (s.lmax + 1)).map lb) ∧
      (∀ l ≤ s.lmax, (la l).Orthonormal ∧ Spec.Within (la l) (Spec.places s.restricted l) ∧ (chk.lmax < l ∨ chk.Pal 0 = none → (la l).total = 0)) ∧
      (s.restricted = false → ∀ l ≤ s.lmax, (lb l).Orthonormal ∧ Spec.Within (lb l) (Spec.places false l) ∧ (chk.lmax < l ∨ chk.Pbl 0 = none → (lb l).total = 0)) := by
  have one : ∀ (P : Nat → Option (Matrix (Fin n) (Fin n) ℝ)) (occs : Option (List Int)) (r : Bool), (∀ l A, P l = some A → Aᵀ = A) → ∀ l, ∃ o : Dens.Orbs s.M,
      fillShell s sv (projected s S S12 chk.lmax (readCube chk.lmax P) l (perShell occs l)) (Spec.places r l) = .ok o ∧ o.Orthonormal ∧ Spec.Within o (Spec.places r l) ∧
        (chk.lmax < l ∨ P 0 = none → o.total = 0) := by
    intro P occs r hP l
    obtain ⟨o, h1, h2, h3, v, V, hV, hE, ho⟩ := fill_ok s hs ht (projected_symm s S S12 chk.lmax (readCube_symm hP) l (perShell occs l)) (places_nonneg r l)
    refine ⟨o, h1, h2, h3, fun hm => ?_⟩
    have hz : projected s S S12 chk.lmax (readCube chk.lmax P) l (perShell occs l) = 0 := by
      unfold projected
      rcases hm with hm | hm
      · split
        · rw [if_neg (by omega)]
        · rfl
      · have : readCube chk.lmax P = [] := by unfold readCube; rw [hm]
        rw [this]
        rfl
    rw [hz, Matrix.mul_zero, Matrix.zero_mul] at hE
    have hd : diagonal v = 0 := by
      calc diagonal v = (Vᵀ * V) * diagonal v * (Vᵀ * V) := by rw [hV, Matrix.one_mul, Matrix.mul_one]
        _ = Vᵀ * (V * diagonal v * Vᵀ) * V := by simp only [Matrix.mul_assoc]
        _ = 0 := by rw [← hE, Matrix.mul_zero, Matrix.zero_mul]
    have hv : ∀ i, v i = 0 := fun i => by
      have := congrFun (congrFun hd i) i
      simpa using this
    subst ho
    unfold Dens.Orbs.total
    refine sum_eq_zero fun i _ => ?_
    dsimp only
    rw [hv, max_eq_left (by norm_num), min_eq_left (places_nonneg r l)]
  choose la a1 a2 a3 a4 using fun l => one chk.Pal chk.occsA s.restricted hA l
  choose lb b1 b2 b3 b4 using fun l => one chk.Pbl chk.occsB false hB l
  exact ⟨la, lb, load_ok s (fun l _ => a1 l) fun _ l _ => b1 l, fun l _ => ⟨a2 l, a3 l, a4 l⟩, fun _ l _ => ⟨b2 l, b3 l, b4 l⟩⟩

theorem readCube_full {n : Nat} (k : Nat) (D : Nat → Matrix (Fin n) (Fin n) ℝ) : readCube k (fun l => ((List.range (k + 1)).map D)[l]?) = (List.range (k + 1)).map D := by
  unfold readCube
  simp only [List.getElem?_map, List.getElem?_range (Nat.succ_pos k), Option.map_some]
  refine List.map_congr_left fun l hl => ?_
  rw [List.mem_range] at hl
  split_ifs with h
  · rw [h]
  · simp [hl]

/-- projected into the basis it came from, with a whole number of electrons, the density of a shell does not change -/
theorem projected_same (s : Setup) {S : Matrix (Fin s.N) (Fin s.N) ℝ} (hX : Spec.Orthonormalises S s.X) (o : Nat → Dens.Orbs s.M) (l : Nat) (hl : l ≤ s.lmax) (ho : (o l).Orthonormal) (m : Nat)
    (hm : (o l).total = m) :
    projected s S S s.lmax ((List.range (s.lmax + 1)).map fun l => Spec.density s.X (o l)) l (perShell (some ((List.range (s.lmax + 1)).map fun l => roundAway (o l).total)) l) =
      Spec.density s.X (o l) := by
  have e : s.X * s.Xᵀ * S * Spec.density s.X (o l) * (s.X * s.Xᵀ * S)ᵀ = Spec.density s.X (o l) := by
    unfold Spec.density
    calc s.X * s.Xᵀ * S * (s.X * Spec.orthDensity (o l) * s.Xᵀ) * (s.X * s.Xᵀ * S)ᵀ
        = s.X * (s.Xᵀ * S * s.X) * Spec.orthDensity (o l) * (s.Xᵀ * Sᵀ * s.X) * s.Xᵀ := by rw [transpose_mul, transpose_mul, transpose_transpose]; simp only [Matrix.mul_assoc]
      _ = _ := by rw [hX.1, hX.2, Matrix.mul_one, Matrix.mul_one]
  have ht : (Spec.density s.X (o l) * S).trace = m := by
    have := density_count hX (o l) ho
    rw [hm] at this
    exact this
  unfold projected perShell
  simp only [List.getElem?_map, List.getElem?_range (show l < s.lmax + 1 by omega), Option.map_some, if_pos hl, e, ht]
  rw [hm, roundAway_of_count (n := m) (by norm_num)]
  split_ifs with h
  · rw [Int.cast_natCast, div_self (by exact_mod_cast h.1.ne'), one_smul]
  · rfl

/-- **C84, saving and loading.** A run saved and loaded in the same basis starts where it stopped, for both spins, if the basis functions happen to be orthonormal as they stand
(`XᵀX = 1`) and every shell holds a whole number of electrons. Missing from the full property: other overlaps, fractional numbers and a change of the spin treatment, for which it is false
(`C84_overlap_wrong`, `C84_fraction_wrong`, `C84_spin_wrong`). -/
theorem C84_roundtrip_partial {s : Setup} {sol : List (Dens.Orbs s.M)} {oa ob : Nat → Dens.Orbs s.M} (h : Spec.Answer s sol oa ob) {sv : Orth.Solvers} (hs : sv.Sound) (ht : sv.Total)
    {S : Matrix (Fin s.N) (Fin s.N) ℝ} (hX : Spec.Orthonormalises S s.X) (h1 : s.Xᵀ * s.X = 1)
    (ha : ∀ l ≤ s.lmax, (oa l).Orthonormal ∧ Spec.Within (oa l) (Spec.places s.restricted l) ∧ ∃ m : Nat, (oa l).total = m)
    (hb : s.restricted = false → ∀ l ≤ s.lmax, (ob l).Orthonormal ∧ Spec.Within (ob l) (Spec.places false l) ∧ ∃ m : Nat, (ob l).total = m) :
    ∃ r, result s sol = .ok r ∧ ∃ L, loadStart s sv S S (save s r) = .ok L ∧ ∀ l ≤ s.lmax,
      (∃ o, L[l]? = some o ∧ Spec.density s.X o = Spec.density s.X (oa l)) ∧
      (s.restricted = false → ∃ o, L[s.lmax + 1 + l]? = some o ∧ Spec.density s.X o = Spec.density s.X (ob l)) := by
  obtain ⟨r, r1, -, r2, r3, -, r5⟩ := C84_result h
  have one : ∀ (o : Nat → Dens.Orbs s.M) (q : Bool), (∀ l ≤ s.lmax, (o l).Orthonormal ∧ Spec.Within (o l) (Spec.places q l) ∧ ∃ m : Nat, (o l).total = m) → ∀ l, ∃ o' : Dens.Orbs s.M, l ≤ s.lmax →
      fillShell s sv (projected s S S s.lmax ((List.range (s.lmax + 1)).map fun l => Spec.density s.X (o l)) l
        (perShell (some ((List.range (s.lmax + 1)).map fun l => roundAway (o l).total)) l)) (Spec.places q l) = .ok o' ∧ Spec.density s.X o' = Spec.density s.X (o l) := by
    intro o q ho l
    by_cases hl : l ≤ s.lmax
    · obtain ⟨p1, p2, m, p3⟩ := ho l hl
      rw [projected_same s hX o l hl p1 m p3]
      obtain ⟨o', f1, f2, f3, v, V, hV, hE, e⟩ := fill_ok s hs ht (density_symm s.X (o l)) (places_nonneg q l)
      have hD : s.Xᵀ * Spec.density s.X (o l) * s.X = Spec.orthDensity (o l) := by
        unfold Spec.density
        calc s.Xᵀ * (s.X * Spec.orthDensity (o l) * s.Xᵀ) * s.X = (s.Xᵀ * s.X) * Spec.orthDensity (o l) * (s.Xᵀ * s.X) := by simp only [Matrix.mul_assoc]
          _ = _ := by rw [h1, Matrix.one_mul, Matrix.mul_one]
      rw [hD] at hE
      refine ⟨o', fun _ => ⟨f1, ?_⟩⟩
      have hc : ∀ i, min (max (v i) 0.0) (Spec.places q l) = v i := by
        intro i
        obtain ⟨w1, w2⟩ := eig_within (o l) p1 (places_nonneg q l) p2 hV hE i
        rw [max_eq_left (by norm_num; exact w1), min_eq_left w2]
      have : Spec.orthDensity o' = Spec.orthDensity (o l) := by
        rw [hE, e]
        unfold Spec.orthDensity
        simp only [hc]
        exact Dens.rev_spectral V v
      unfold Spec.density
      rw [this]
    · exact ⟨o l, fun hh => absurd hh hl⟩
  choose la a1 using one oa s.restricted ha
  refine ⟨r, r1, ?_⟩
  have sA : readCube (save s r).lmax (save s r).Pal = (List.range (s.lmax + 1)).map fun l => Spec.density s.X (oa l) := by
    show readCube s.lmax (fun l => r.PlA[l]?) = _
    rw [r2, readCube_full]
  have oA : (save s r).occsA = some ((List.range (s.lmax + 1)).map fun l => roundAway (oa l).total) := by
    show some r.occsA = _
    rw [r3]
  cases hr : s.restricted
  · have hb' := hb hr
    choose lb b1 using one ob false hb'
    have sB : readCube (save s r).lmax (save s r).Pbl = (List.range (s.lmax + 1)).map fun l => Spec.density s.X (ob l) := by
      show readCube s.lmax (fun l => if s.restricted then none else r.PlB[l]?) = _
      rw [hr, (r5 hr).2.1]
      exact readCube_full s.lmax _
    have oB : (save s r).occsB = some ((List.range (s.lmax + 1)).map fun l => roundAway (ob l).total) := by
      show (if s.restricted then none else some r.occsB) = _
      rw [hr, (r5 hr).2.2.1]
      rfl
    refine ⟨_, load_ok (la := la) (lb := lb) s (fun l hl => by rw [sA, oA]; exact (a1 l hl).1) fun _ l hl => by rw [sB, oB]; exact (b1 l hl).1, fun l hl => ⟨⟨la l, ?_, (a1 l hl).2⟩, fun _ => ⟨lb l, ?_, (b1 l hl).2⟩⟩⟩
    · rw [List.getElem?_append_left (by simp; omega)]
      simp [show l < s.lmax + 1 by omega]
    · rw [List.getElem?_append_right (by simp), hr]
      simp [show l < s.lmax + 1 by omega]
  · refine ⟨_, load_ok (la := la) (lb := la) s (fun l hl => by rw [sA, oA]; exact (a1 l hl).1) fun hh => (by rw [hr] at hh; cases hh), fun l hl => ⟨⟨la l, ?_, (a1 l hl).2⟩, fun hh => (by cases hh)⟩⟩
    rw [List.getElem?_append_left (by simp; omega)]
    simp [show l < s.lmax + 1 by omega]

/-- What would be needed: with the overlap on both sides of the density the occupations come back for every basis. -/
theorem C84_repair {N M : Nat} {S : Matrix (Fin N) (Fin N) ℝ} {X : Matrix (Fin N) (Fin M) ℝ} (hX : Spec.Orthonormalises S X) (o : Dens.Orbs M) :
    Xᵀ * (S * Spec.density X o * S) * X = Spec.orthDensity o := by
  unfold Spec.density
  calc Xᵀ * (S * (X * Spec.orthDensity o * Xᵀ) * S) * X = (Xᵀ * S * X) * Spec.orthDensity o * (Xᵀ * S * X) := by simp only [Matrix.mul_assoc]
    _ = _ := by rw [hX.2, Matrix.one_mul, Matrix.mul_one]

/-! ### What goes wrong -/

/-- one s function, the orthonormal one being `x` times it -/
noncomputable abbrev tiny (restricted : Bool) (x : ℝ) : Setup where
  N := 1
  M := 1
  lmax := 0
  restricted := restricted
  nelb := 1
  haveConf := false
  T := 1
  Tl := 1
  Vnuc := -1
  Vconf := 0
  X := Matrix.of fun _ _ => x
  kfrac := 0
  kshort := 0
  omega := 0
  erfc := false
  yukawa := false
  env := toy
  fn := ⟨1, [], 0, [], 0⟩
  G := realG
  R := exR
  pr := exPrims
  tol := 0
  elems := [toySad]

/-- an orbital holding `q` electrons -/
noncomputable abbrev holding (q : ℝ) : Dens.Orbs 1 := ⟨1, Matrix.of fun _ _ => 1, fun _ => q⟩

theorem holding_orthonormal (q : ℝ) : (holding q).Orthonormal := by
  unfold Dens.Orbs.Orthonormal
  ext i j
  fin_cases i; fin_cases j
  simp [Matrix.mul_apply, holding]

theorem holding_total (q : ℝ) : (holding q).total = q := by simp [Dens.Orbs.total, holding]

theorem tiny_orthonormalises (r : Bool) {x : ℝ} (hx : x ≠ 0) : Spec.Orthonormalises (Matrix.of fun _ _ => 1 / x ^ 2) (tiny r x).X := by
  refine ⟨by ext i j; rfl, ?_⟩
  ext i j
  fin_cases i; fin_cases j
  simp [Matrix.mul_apply, tiny]
  field_simp

theorem tiny_answer (r : Bool) (x a b : ℝ) (ha : |a| ≤ 2147483647) (hb : |b| ≤ 2147483647) : Spec.Answer (tiny r x) [holding a, holding b] (fun _ => holding a) fun _ => holding b where
  alpha := by
    intro l hl
    obtain rfl : l = 0 := Nat.le_zero.1 hl
    rfl
  beta := by
    intro _ l hl
    obtain rfl : l = 0 := Nat.le_zero.1 hl
    rfl
  small := fun l _ => ⟨by simpa [holding] using ha, by simpa [holding] using hb⟩

theorem tiny_density (r : Bool) (x q : ℝ) : Spec.density (tiny r x).X (holding q) = Matrix.of fun _ _ => x ^ 2 * q := by
  ext i j
  fin_cases i; fin_cases j
  simp [Spec.density, Spec.orthDensity, Matrix.mul_apply, tiny, holding]
  ring

/-- the electrons of a loaded shell -/
theorem tiny_fill (r : Bool) (x : ℝ) {sv : Orth.Solvers} (hs : sv.Sound) (ht : sv.Total) (p c : ℝ) (hc : 0 ≤ c) :
    ∃ o, fillShell (tiny r x) sv (Matrix.of fun _ _ => p) c = .ok o ∧ o.total = min (max (x ^ 2 * p) 0) c := by
  obtain ⟨o, h1, -, -, v, V, hV, hE, rfl⟩ := fill_ok (tiny r x) hs ht (P := Matrix.of fun _ _ => p) (by ext i j; rfl) hc
  refine ⟨_, h1, ?_⟩
  have e1 := congrFun (congrFun hV (0 : Fin 1)) (0 : Fin 1)
  have e2 := congrFun (congrFun hE (0 : Fin 1)) (0 : Fin 1)
  have e1' : V (0 : Fin 1) (0 : Fin 1) * V (0 : Fin 1) (0 : Fin 1) = 1 := by simpa [Matrix.mul_apply, tiny] using e1
  have e2' : x * p * x = V (0 : Fin 1) (0 : Fin 1) * v (0 : Fin 1) * V (0 : Fin 1) (0 : Fin 1) := by simpa [Matrix.mul_apply, Matrix.mul_diagonal, tiny] using e2
  have hv : v (0 : Fin 1) = x ^ 2 * p := by
    have : v (0 : Fin 1) * (V (0 : Fin 1) (0 : Fin 1) * V (0 : Fin 1) (0 : Fin 1)) = x ^ 2 * p := by
      calc _ = V (0 : Fin 1) (0 : Fin 1) * v (0 : Fin 1) * V (0 : Fin 1) (0 : Fin 1) := by ring
        _ = x ^ 2 * p := by rw [← e2']; ring
    rwa [e1', mul_one] at this
  show (∑ i : Fin 1, min (max (v (Fin.rev i)) 0.0) c) = _
  rw [Fin.sum_univ_one, show v (Fin.rev (0 : Fin 1)) = x ^ 2 * p from hv]
  norm_num

/-- loading into `tiny` what was saved from `tiny`: totals of the spins -/
theorem tiny_load (r r' : Bool) {x : ℝ} (hx : x ≠ 0) {sv : Orth.Solvers} (hs : sv.Sound) (ht : sv.Total) (a b : ℝ) (na nb : Nat) (ha : roundAway a = na) (hb : roundAway b = nb)
    (a0 : 0 < a) (b0 : 0 < b) (na0 : 0 < na) (nb0 : 0 < nb) (al : |a| ≤ 2147483647) (bl : |b| ≤ 2147483647) :
    ∃ R, result (tiny r x) [holding a, holding b] = .ok R ∧ ∃ L, loadStart (tiny r' x) sv (Matrix.of fun _ _ => 1 / x ^ 2) (Matrix.of fun _ _ => 1 / x ^ 2) (save (tiny r x) R) = .ok L ∧
      L.map Dens.Orbs.total = min (x ^ 4 * na) (Spec.places r' 0) :: if r' then [] else [if r then 0 else min (x ^ 4 * nb) 1] := by
  obtain ⟨R, r1, -, r2, r3, r4, r5⟩ := C84_result (tiny_answer r x a b al bl)
  refine ⟨R, r1, ?_⟩
  have proj : ∀ (q : ℝ) (n : Nat), 0 < q → 0 < n → projected (tiny r' x) (Matrix.of fun _ _ => 1 / x ^ 2) (Matrix.of fun _ _ => 1 / x ^ 2) 0 [(Matrix.of fun _ _ => x ^ 2 * q : Matrix (Fin 1) (Fin 1) ℝ)] 0 n = Matrix.of fun _ _ => x ^ 2 * n := by
    intro q n hq hn
    have hP : (tiny r' x).X * (tiny r' x).Xᵀ * (Matrix.of fun _ _ => 1 / x ^ 2 : Matrix (Fin 1) (Fin 1) ℝ) = 1 := by
      ext i j
      fin_cases i; fin_cases j
      simp [Matrix.mul_apply, tiny]
      field_simp
    have ht : ((Matrix.of fun _ _ => x ^ 2 * q : Matrix (Fin 1) (Fin 1) ℝ) * (Matrix.of fun _ _ => 1 / x ^ 2 : Matrix (Fin 1) (Fin 1) ℝ)).trace = q := by
      simp [Matrix.trace, Matrix.mul_apply]
      field_simp
    unfold projected
    simp only [List.getElem?_cons_zero, hP, le_refl, if_true]
    erw [transpose_one, Matrix.one_mul, Matrix.mul_one, ht, if_pos ⟨hq, by exact_mod_cast hn⟩]
    ext i j
    show (n : ℝ) / q * (x ^ 2 * q) = x ^ 2 * n
    field_simp
  have pl : ∀ q, 0 ≤ Spec.places q 0 := fun q => places_nonneg q 0
  have sA : readCube (save (tiny r x) R).lmax (save (tiny r x) R).Pal = [(Matrix.of fun _ _ => x ^ 2 * a : Matrix (Fin 1) (Fin 1) ℝ)] := by
    show readCube 0 (fun l => R.PlA[l]?) = _
    rw [r2, readCube_full]
    show [Spec.density (tiny r x).X (holding a)] = _
    rw [tiny_density]
  have oA : perShell (save (tiny r x) R).occsA 0 = na := by
    show perShell (some R.occsA) 0 = _
    rw [r3]
    show ((roundAway (holding a).total : Int) : ℝ) = na
    rw [holding_total, ha, Int.cast_natCast]
  obtain ⟨la, f1, f2⟩ := tiny_fill r' x hs ht (x ^ 2 * na) (Spec.places r' 0) (pl r')
  have key : ∀ lb : Dens.Orbs 1, (r' = false → fillShell (tiny r' x) sv (projected (tiny r' x) (Matrix.of fun _ _ => 1 / x ^ 2) (Matrix.of fun _ _ => 1 / x ^ 2) (save (tiny r x) R).lmax
      (readCube (save (tiny r x) R).lmax (save (tiny r x) R).Pbl) 0 (perShell (save (tiny r x) R).occsB 0)) (Spec.places false 0) = .ok lb) →
      loadStart (tiny r' x) sv (Matrix.of fun _ _ => 1 / x ^ 2) (Matrix.of fun _ _ => 1 / x ^ 2) (save (tiny r x) R) = .ok ([la] ++ if r' then [] else [lb]) := by
    intro lb hlb
    refine load_ok (la := fun _ => la) (lb := fun _ => lb) (tiny r' x) (fun l hl => ?_) fun hh l hl => ?_
    · obtain rfl : l = 0 := Nat.le_zero.1 hl
      rw [sA, oA]
      show fillShell (tiny r' x) sv (projected (tiny r' x) _ _ 0 _ 0 na) _ = _
      rw [proj a na a0 na0]
      exact f1
    · obtain rfl : l = 0 := Nat.le_zero.1 hl
      exact hlb hh
  have e4 : min (max (x ^ 2 * (x ^ 2 * na)) 0) (Spec.places r' 0) = min (x ^ 4 * (na : ℝ)) (Spec.places r' 0) := by
    rw [max_eq_left (by positivity)]
    ring_nf
  have e4' : min (max (x ^ 2 * (x ^ 2 * nb)) 0) (Spec.places false 0) = min (x ^ 4 * (nb : ℝ)) 1 := by
    rw [max_eq_left (by positivity)]
    simp only [Spec.places, Bool.false_eq_true, if_false]
    norm_num
    ring_nf
  cases r'
  · cases r
    · obtain ⟨lb, g1, g2⟩ := tiny_fill false x hs ht (x ^ 2 * nb) (Spec.places false 0) (pl false)
      refine ⟨_, key lb fun _ => ?_, ?_⟩
      · have sB : readCube (save (tiny false x) R).lmax (save (tiny false x) R).Pbl = [(Matrix.of fun _ _ => x ^ 2 * b : Matrix (Fin 1) (Fin 1) ℝ)] := by
          show readCube 0 (fun l => R.PlB[l]?) = _
          rw [(r5 rfl).2.1, readCube_full]
          show [Spec.density (tiny false x).X (holding b)] = _
          rw [tiny_density]
        have oB : perShell (save (tiny false x) R).occsB 0 = nb := by
          show perShell (some R.occsB) 0 = _
          rw [(r5 rfl).2.2.1]
          show ((roundAway (holding b).total : Int) : ℝ) = nb
          rw [holding_total, hb, Int.cast_natCast]
        rw [sB, oB]
        show fillShell (tiny false x) sv (projected (tiny false x) _ _ 0 _ 0 nb) _ = _
        rw [proj b nb b0 nb0]
        exact g1
      · simp [f2, g2, e4, e4']
    · obtain ⟨lb, g1, g2⟩ := tiny_fill false x hs ht 0 (Spec.places false 0) (pl false)
      refine ⟨_, key lb fun _ => g1, ?_⟩
      have : min (max (x ^ 2 * 0) 0) (Spec.places false 0) = 0 := by
        rw [mul_zero, max_self, min_eq_left (pl false)]
      simp only [Bool.false_eq_true, if_false, if_true, List.map_cons, List.map_nil, List.singleton_append]
      rw [f2, g2, e4, this]
  · refine ⟨_, key la fun hh => (by cases hh), ?_⟩
    simp [f2, e4]

/-- **C84, refuted: overlap.** One function with overlap four holding one electron of each spin: after saving and loading in the same basis each spin holds 1/16 of an electron, whatever sound
eigensolver is used. -/
theorem C84_overlap_wrong {sv : Orth.Solvers} (hs : sv.Sound) (ht : sv.Total) : Spec.Orthonormalises (Matrix.of fun _ _ => 4) (tiny false (1 / 2)).X ∧ (holding 1).Orthonormal ∧
    ∃ R, result (tiny false (1 / 2)) [holding 1, holding 1] = .ok R ∧ ∃ L, loadStart (tiny false (1 / 2)) sv (Matrix.of fun _ _ => 4) (Matrix.of fun _ _ => 4) (save (tiny false (1 / 2)) R) = .ok L ∧
      L.map Dens.Orbs.total = [1 / 16, 1 / 16] := by
  have e : (1 : ℝ) / (1 / 2) ^ 2 = 4 := by norm_num
  have ho := tiny_orthonormalises false (x := 1 / 2) (by norm_num)
  have h1 : roundAway 1 = ((1 : Nat) : Int) := roundAway_of_count (by norm_num)
  obtain ⟨R, r1, L, l1, l2⟩ := tiny_load false false (x := 1 / 2) (by norm_num) hs ht 1 1 1 1 h1 h1 (by norm_num) (by norm_num) (by norm_num) (by norm_num) (by norm_num) (by norm_num)
  rw [e] at ho l1
  refine ⟨ho, holding_orthonormal 1, R, r1, L, l1, ?_⟩
  rw [l2]
  simp only [Spec.places, Bool.false_eq_true, if_false]
  norm_num

/-- **C84, refuted: fractions.** `scf.h` allows fractional numbers of electrons in a shell. Three halves of an electron are saved as two and come back as two. -/
theorem C84_fraction_wrong {sv : Orth.Solvers} (hs : sv.Sound) (ht : sv.Total) :
    ∃ R, result (tiny true 1) [holding (3 / 2), holding 1] = .ok R ∧ R.Prad = (Matrix.of fun _ _ => 3 / 2) ∧ ∃ L, loadStart (tiny true 1) sv (Matrix.of fun _ _ => 1) (Matrix.of fun _ _ => 1) (save (tiny true 1) R) = .ok L ∧
      L.map Dens.Orbs.total = [2] := by
  have e : (1 : ℝ) / 1 ^ 2 = 1 := by norm_num
  have h1 : roundAway 1 = ((1 : Nat) : Int) := roundAway_of_count (by norm_num)
  have h2 : roundAway (3 / 2) = ((2 : Nat) : Int) := by
    unfold roundAway
    rw [if_pos (by norm_num), Int.floor_eq_iff]
    norm_num
  have al : |(3 / 2 : ℝ)| ≤ 2147483647 := by rw [abs_of_pos (by norm_num)]; norm_num
  obtain ⟨R, r1, L, l1, l2⟩ := tiny_load true true (x := 1) (by norm_num) hs ht (3 / 2) 1 2 1 h2 h1 (by norm_num) (by norm_num) (by norm_num) (by norm_num) al (by norm_num)
  rw [e] at l1
  obtain ⟨R', q1, -, -, -, q2, -⟩ := C84_result (tiny_answer true 1 (3 / 2) 1 al (by norm_num))
  rw [r1, Res.ok.injEq] at q1
  subst q1
  refine ⟨R, r1, ?_, L, l1, ?_⟩
  · rw [(q2 rfl).2.2.2]
    show ∑ l ∈ range 1, Spec.density (tiny true 1).X (holding (3 / 2)) = _
    rw [sum_range_one, tiny_density]
    norm_num
  · rw [l2]
    simp only [Spec.places, if_true]
    norm_num

/-- **C84, refuted: change of the spin treatment.** A restricted helium atom loaded into an unrestricted run starts with one electron, since both electrons are put into the alpha orbital; an
unrestricted one loaded into a restricted run also starts with one electron, since the beta density is not read. Nothing is reported. -/
theorem C84_spin_wrong {sv : Orth.Solvers} (hs : sv.Sound) (ht : sv.Total) :
    (∃ R, result (tiny true 1) [holding 2, holding 1] = .ok R ∧ ∃ L, loadStart (tiny false 1) sv (Matrix.of fun _ _ => 1) (Matrix.of fun _ _ => 1) (save (tiny true 1) R) = .ok L ∧ L.map Dens.Orbs.total = [1, 0]) ∧
    ∃ R, result (tiny false 1) [holding 1, holding 1] = .ok R ∧ ∃ L, loadStart (tiny true 1) sv (Matrix.of fun _ _ => 1) (Matrix.of fun _ _ => 1) (save (tiny false 1) R) = .ok L ∧ L.map Dens.Orbs.total = [1] := by
  have e : (1 : ℝ) / 1 ^ 2 = 1 := by norm_num
  have h1 : roundAway 1 = ((1 : Nat) : Int) := roundAway_of_count (by norm_num)
  have h2 : roundAway 2 = ((2 : Nat) : Int) := roundAway_of_count (by norm_num)
  have al : |(2 : ℝ)| ≤ 2147483647 := by rw [abs_of_pos (by norm_num)]; norm_num
  constructor
  · obtain ⟨R, r1, L, l1, l2⟩ := tiny_load true false (x := 1) (by norm_num) hs ht 2 1 2 1 h2 h1 (by norm_num) (by norm_num) (by norm_num) (by norm_num) al (by norm_num)
    rw [e] at l1
    refine ⟨R, r1, L, l1, ?_⟩
    rw [l2]
    simp only [Spec.places, Bool.false_eq_true, if_false, if_true]
    norm_num
  · obtain ⟨R, r1, L, l1, l2⟩ := tiny_load false true (x := 1) (by norm_num) hs ht 1 1 1 1 h1 h1 (by norm_num) (by norm_num) (by norm_num) (by norm_num) (by norm_num) (by norm_num)
    rw [e] at l1
    refine ⟨R, r1, L, l1, ?_⟩
    rw [l2]
    simp only [Spec.places, if_true]
    norm_num

/-! ### Examples -/

/-- two orthonormal orbitals with three halves and one half of an electron -/
noncomputable abbrev exPair : Dens.Orbs 2 := ⟨2, 1, ![3 / 2, 1 / 2]⟩

theorem exPair_orthonormal : exPair.Orthonormal := by
  unfold Dens.Orbs.Orthonormal
  simp [exPair]

theorem exX_orthonormal : (Matrix.of fun (i : Fin 3) (j : Fin 2) => if (i : Nat) = j then (1 : ℝ) else if (i : Nat) = 2 then 1 / 2 else 0)ᵀ * diagonal (![1, 1, 0] : Fin 3 → ℝ) *
    (Matrix.of fun (i : Fin 3) (j : Fin 2) => if (i : Nat) = j then (1 : ℝ) else if (i : Nat) = 2 then 1 / 2 else 0) = 1 := by
  ext i j
  fin_cases i <;> fin_cases j <;> simp [Matrix.mul_apply, Fin.sum_univ_three, diagonal_apply]

/-- three functions of which two are orthonormal and the third contributes nothing -/
theorem ex_orthonormalises (r : Bool) : Spec.Orthonormalises (diagonal ![1, 1, 0]) (exSetup r 1 0 true).X := by
  refine ⟨diagonal_transpose _, ?_⟩
  exact exX_orthonormal

theorem ex_answer (r : Bool) : Spec.Answer (exSetup r 1 0 true) [exPair, exPair, exPair, exPair] (fun _ => exPair) fun _ => exPair where
  alpha := by
    intro l (hl : l ≤ 1)
    obtain rfl | rfl : l = 0 ∨ l = 1 := by omega
    · rfl
    · rfl
  beta := by
    intro _ l (hl : l ≤ 1)
    obtain rfl | rfl : l = 0 ∨ l = 1 := by omega
    · rfl
    · rfl
  small := by
    have e : ∑ i, exPair.occ i = 2 := by
      simp only [Fin.sum_univ_two, Matrix.cons_val_zero, Matrix.cons_val_one]
      norm_num
    have b : |∑ i, exPair.occ i| ≤ 2147483647 := by
      rw [e, abs_of_pos (by norm_num)]
      norm_num
    exact fun l _ => ⟨b, b⟩

theorem exPair_total : exPair.total = 2 := by
  unfold Dens.Orbs.total
  simp only [Fin.sum_univ_two, Matrix.cons_val_zero, Matrix.cons_val_one]
  norm_num

/-- s and p shells, two electrons in each and each spin: eight electrons, in the density the Fock builder was given -/
example : (∃ r, result (exSetup false 1 0 true) [exPair, exPair, exPair, exPair] = .ok r ∧ Spec.count (diagonal ![1, 1, 0]) r.Prad = 8) ∧
    ∃ r, result (exSetup false 1 0 true) [exPair, exPair, exPair, exPair] = .ok r ∧ ∃ g, gatherU (exSetup false 1 0 true) [exPair, exPair, exPair, exPair] = .ok g ∧ g.1.1.P + g.1.2.P = r.Prad := by
  constructor
  · obtain ⟨r, h1, h2⟩ := C84_electrons (ex_answer false) (ex_orthonormalises false) (fun _ _ => exPair_orthonormal) fun _ _ _ => exPair_orthonormal
    refine ⟨r, h1, h2.trans ?_⟩
    show ∑ l ∈ range 2, (exPair.total + if false = true then 0 else exPair.total) = 8
    rw [exPair_total]
    norm_num
  · obtain ⟨r, h1, -, h2⟩ := C84_same_density (ex_answer false) (fun _ _ => two_ne_zero) fun _ _ _ => two_ne_zero
    obtain ⟨g, g1, g2, -⟩ := h2 rfl
    exact ⟨r, h1, g, g1, g2⟩

/-- an empty orbital is not written -/
example : (keptOrbs (⟨2, 1, ![1 / 2, 0]⟩ : Dens.Orbs 2)).C * diagonal (keptOrbs (⟨2, 1, ![1 / 2, 0]⟩ : Dens.Orbs 2)).occ * (keptOrbs (⟨2, 1, ![1 / 2, 0]⟩ : Dens.Orbs 2)).Cᵀ = diagonal ![1 / 2, 0] := by
  rw [(C84_saved _).1]
  simp

/-- a checkpoint of another basis with one s shell: its p shell starts empty -/
example : ∃ sv : Orth.Solvers, sv.Sound ∧ sv.Total ∧ ∃ la lb : Nat → Dens.Orbs 2,
    loadStart (exSetup false 1 0 true) sv (diagonal ![1, 1, 0]) (Matrix.of fun _ (j : Fin 2) => (j : ℝ) + 1) ⟨0, fun l => if l = 0 then some 1 else none, fun _ => none, [], [], some [2], none⟩ =
      .ok ((List.range 2).map la ++ (List.range 2).map lb) ∧ (la 1).total = 0 ∧ (lb 0).total = 0 := by
  obtain ⟨sv, h1, h2, -⟩ := Dens.ascending_exist
  obtain ⟨la, lb, l1, l2, l3⟩ := C84_load (exSetup false 1 0 true) h1 h2 (diagonal ![1, 1, 0]) (Matrix.of fun _ (j : Fin 2) => (j : ℝ) + 1)
    ⟨0, fun l => if l = 0 then some 1 else none, fun _ => none, [], [], some [2], none⟩
    (by
      intro l A h
      dsimp only at h
      split_ifs at h
      rw [Option.some.injEq] at h
      rw [← h, transpose_one])
    (by intro l A h; cases h)
  exact ⟨sv, h1, h2, la, lb, l1, (l2 1 (by show 1 ≤ 1; omega)).2.2 (.inl (by show 0 < 1; omega)), (l3 rfl 0 (Nat.zero_le _)).2.2 (.inr rfl)⟩

/-- an atom with an s electron of each spin comes back -/
example : ∃ sv : Orth.Solvers, sv.Sound ∧ sv.Total ∧ ∃ r, result (tiny false 1) [holding 1, holding 1] = .ok r ∧
    ∃ L, loadStart (tiny false 1) sv 1 1 (save (tiny false 1) r) = .ok L ∧ ∃ o, L[1]? = some o ∧ Spec.density (tiny false 1).X o = Spec.density (tiny false 1).X (holding 1) := by
  obtain ⟨sv, h1, h2, -⟩ := Dens.ascending_exist
  have hX : (tiny false 1).X = 1 := by
    ext i j
    fin_cases i; fin_cases j
    rfl
  have ho : Spec.Orthonormalises (1 : Matrix (Fin 1) (Fin 1) ℝ) (tiny false 1).X := ⟨transpose_one, by rw [hX, transpose_one, Matrix.one_mul, Matrix.one_mul]⟩
  have hw : Spec.Within (holding 1) (Spec.places false 0) := fun i => ⟨zero_le_one, by simp [Spec.places]⟩
  have hh : ∀ l ≤ 0, (holding 1).Orthonormal ∧ Spec.Within (holding 1) (Spec.places false l) ∧ ∃ m : Nat, (holding 1).total = m := by
    intro l hl
    obtain rfl : l = 0 := Nat.le_zero.1 hl
    exact ⟨holding_orthonormal 1, hw, 1, by rw [holding_total]; norm_num⟩
  obtain ⟨r, r1, L, l1, l2⟩ := C84_roundtrip_partial (tiny_answer false 1 1 1 (by norm_num) (by norm_num)) h1 h2 ho (by rw [hX, transpose_one, Matrix.one_mul]) hh fun _ => hh
  obtain ⟨o, o1, o2⟩ := (l2 0 (Nat.zero_le _)).2 rfl
  exact ⟨sv, h1, h2, r, r1, L, l1, o, o1, o2⟩

end SadSCF
end HelFEM
