import Verif.Lemmas.DiaIndex
import Mathlib.Data.Rat.Defs
import Mathlib.Algebra.Ring.Rat
import Mathlib.Tactic.NormNum

/-!
# C38: padded and physical functions of the diatomic basis
-/

namespace HelFEM
namespace Dia
open Sym

/-- **C38, the index map.** The list the basis keeps has one entry per basis function, in ascending order, and runs through exactly the padded
functions that exist: it is a bijection of the basis functions onto them. -/
theorem C38_index_bijection (lm : List (Int × Int)) (nrad : Nat) (hr : 1 ≤ nrad) :
    (pureIndices lm nrad).length = diaNbf lm nrad ∧ (∀ k, k ∈ pureIndices lm nrad ↔ Physical lm nrad k) ∧
      (pureIndices lm nrad).Pairwise (· < ·) ∧ ∀ k ∈ pureIndices lm nrad, k < nDummy lm nrad :=
  ⟨(diaNbf_eq lm nrad hr).symm, mem_pure lm nrad, pure_sorted lm nrad, fun k hk => physical_lt lm nrad k ((mem_pure lm nrad k).1 hk)⟩

/-- **C38, expansion.** Expanding a matrix over the basis functions never fails, keeps every entry at its padded place, and is zero everywhere else. -/
theorem C38_expand {K : Type _} [Zero K] (lm : List (Int × Int)) (nrad : Nat) (hr : 1 ≤ nrad) (P : Mat K) (h1 : P.rows = diaNbf lm nrad)
    (h2 : P.cols = diaNbf lm nrad) :
    ∃ E : Mat K, expandBoundaries lm nrad P = .ok E ∧ E.rows = lm.length * nrad ∧ E.cols = lm.length * nrad ∧
      (∀ i < P.rows, ∀ j < P.cols, E.get ((pureIndices lm nrad).getD i 0) ((pureIndices lm nrad).getD j 0) = P.get i j) ∧
      ∀ a b, ¬(Physical lm nrad a ∧ Physical lm nrad b) → E.get a b = 0 := by
  rw [diaNbf_eq lm nrad hr] at h1 h2
  obtain ⟨E, e, r, c, hE, hz⟩ := expand_ok lm nrad P h1 h2
  exact ⟨E, e, r, c, by rw [h1, h2]; exact hE, hz⟩

/-- **C38, round trip from the basis.** Expanding and then removing the boundary functions gives back the matrix. -/
theorem C38_remove_expand {K : Type _} [Zero K] (lm : List (Int × Int)) (nrad : Nat) (hr : 1 ≤ nrad) (P : Mat K) (h1 : P.rows = diaNbf lm nrad)
    (h2 : P.cols = diaNbf lm nrad) :
    ∃ P' : Mat K, (do let E ← expandBoundaries lm nrad P; removeBoundaries lm nrad E) = .ok P' ∧ P'.Same P := by
  rw [diaNbf_eq lm nrad hr] at h1 h2
  obtain ⟨E, e, r, c, hE, _⟩ := expand_ok lm nrad P h1 h2
  refine ⟨⟨(pureIndices lm nrad).length, (pureIndices lm nrad).length, fun i j => E.get ((pureIndices lm nrad).getD i 0) ((pureIndices lm nrad).getD j 0)⟩, ?_, ?_⟩
  · rw [e, Res.ok_bind, removeBoundaries, if_neg (by rw [r, c]; simp)]
  · exact ⟨h1.symm, h2.symm, fun i hi j hj => hE i hi j hj⟩

/-- **C38, round trip from the padded space.** Removing the boundary functions and expanding again keeps the entries between functions that exist and
clears the others; a padded matrix that is already zero there is unchanged. -/
theorem C38_expand_remove {K : Type _} [Zero K] (lm : List (Int × Int)) (nrad : Nat) (F : Mat K) (h1 : F.rows = lm.length * nrad)
    (h2 : F.cols = lm.length * nrad) :
    ∃ E : Mat K, (do let P ← removeBoundaries lm nrad F; expandBoundaries lm nrad P) = .ok E ∧ E.rows = F.rows ∧ E.cols = F.cols ∧
      (∀ a b, Physical lm nrad a → Physical lm nrad b → E.get a b = F.get a b) ∧
      (∀ a b, ¬(Physical lm nrad a ∧ Physical lm nrad b) → E.get a b = 0) ∧
      ((∀ a b, ¬(Physical lm nrad a ∧ Physical lm nrad b) → F.get a b = 0) → E.Same F) := by
  obtain ⟨E, e, r, c, hE, hz⟩ := expand_ok lm nrad
    (⟨_, _, fun i j => F.get ((pureIndices lm nrad).getD i 0) ((pureIndices lm nrad).getD j 0)⟩ : Mat K) rfl rfl
  have hp : ∀ a b, Physical lm nrad a → Physical lm nrad b → E.get a b = F.get a b := by
    intro a b ha hb
    obtain ⟨i, hi, rfl⟩ := List.getElem_of_mem ((mem_pure lm nrad a).2 ha)
    obtain ⟨j, hj, rfl⟩ := List.getElem_of_mem ((mem_pure lm nrad b).2 hb)
    have := hE i hi j hj
    simp only [getD_lt _ _ hi, getD_lt _ _ hj] at this
    exact this
  refine ⟨E, ?_, r.trans h1.symm, c.trans h2.symm, hp, hz, fun h0 => ⟨r.trans h1.symm, c.trans h2.symm, fun a _ b _ => ?_⟩⟩
  · rw [removeBoundaries, if_neg (by rw [h1, h2]; simp [nDummy]), Res.ok_bind]
    exact e
  · by_cases h : Physical lm nrad a ∧ Physical lm nrad b
    · exact hp a b h.1 h.2
    · rw [hz a b h, h0 a b h]

/-- **C38, wrong sizes.** Both conversions throw `logic_error` exactly when the matrix does not have the size of the space it should live in. -/
theorem C38_wrong_size {K : Type _} [Zero K] (lm : List (Int × Int)) (nrad : Nat) (hr : 1 ≤ nrad) (M : Mat K) :
    ((removeBoundaries lm nrad M = .throw .logicError ↔ ¬(M.rows = lm.length * nrad ∧ M.cols = lm.length * nrad)) ∧
      (removeBoundaries lm nrad M).isOk = decide (M.rows = lm.length * nrad ∧ M.cols = lm.length * nrad)) ∧
    ((expandBoundaries lm nrad M = .throw .logicError ↔ ¬(M.rows = diaNbf lm nrad ∧ M.cols = diaNbf lm nrad)) ∧
      (expandBoundaries lm nrad M).isOk = decide (M.rows = diaNbf lm nrad ∧ M.cols = diaNbf lm nrad)) := by
  constructor
  · unfold removeBoundaries
    by_cases h : M.rows = lm.length * nrad ∧ M.cols = lm.length * nrad
    · rw [if_neg (by rw [h.1, h.2]; simp [nDummy])]; simp [h, Res.isOk]
    · rw [if_pos (by unfold nDummy; tauto)]; simp [h, Res.isOk]
  · rw [diaNbf_eq lm nrad hr]
    by_cases h : M.rows = (pureIndices lm nrad).length ∧ M.cols = (pureIndices lm nrad).length
    · obtain ⟨E, e, _⟩ := expand_ok lm nrad M h.1 h.2
      rw [e]; simp [h, Res.isOk]
    · have e : expandBoundaries lm nrad M = .throw .logicError := by
        unfold expandBoundaries
        simp only
        rw [if_pos (by tauto)]
      rw [e]; simp [h, Res.isOk]

/-- **C38, traces.** Contracting an expanded density with a padded matrix is the same as contracting the density with the matrix after removal: no part
of the energy is lost or added by moving between the spaces. -/
theorem C38_trace {K : Type _} [CommRing K] (lm : List (Int × Int)) (nrad : Nat) (hr : 1 ≤ nrad) (P F : Mat K) (h1 : P.rows = diaNbf lm nrad)
    (h2 : P.cols = diaNbf lm nrad) (h3 : F.rows = lm.length * nrad) (h4 : F.cols = lm.length * nrad) :
    ∃ E G : Mat K, expandBoundaries lm nrad P = .ok E ∧ removeBoundaries lm nrad F = .ok G ∧
      ∑ a ∈ Finset.range (lm.length * nrad), ∑ b ∈ Finset.range (lm.length * nrad), E.get a b * F.get b a =
        ∑ i ∈ Finset.range (diaNbf lm nrad), ∑ j ∈ Finset.range (diaNbf lm nrad), P.get i j * G.get j i := by
  rw [diaNbf_eq lm nrad hr] at *
  obtain ⟨E, e, r, c, hE, hz⟩ := expand_ok lm nrad P h1 h2
  refine ⟨E, _, e, by rw [removeBoundaries, if_neg (by rw [h3, h4]; simp [nDummy])], ?_⟩
  simp only
  have key : ∀ f : Nat → K, (∀ a, ¬Physical lm nrad a → f a = 0) →
      ∑ a ∈ Finset.range (lm.length * nrad), f a = ∑ i ∈ Finset.range (pureIndices lm nrad).length, f ((pureIndices lm nrad).getD i 0) := by
    intro f hf
    refine (Finset.sum_bij_ne_zero (fun i _ _ => (pureIndices lm nrad).getD i 0) ?_ ?_ ?_ ?_).symm
    · intro i hi _
      exact Finset.mem_range.2 (pure_getD_lt lm nrad i (Finset.mem_range.1 hi))
    · intro i hi _ j hj _ h
      exact pure_inj lm nrad (Finset.mem_range.1 hi) (Finset.mem_range.1 hj) h
    · intro a _ ha
      have hp : Physical lm nrad a := by
        by_contra hc; exact ha (hf a hc)
      obtain ⟨i, hi, rfl⟩ := List.getElem_of_mem ((mem_pure lm nrad a).2 hp)
      exact ⟨i, Finset.mem_range.2 hi, by rwa [getD_lt _ _ hi], getD_lt _ _ hi⟩
    · intro i _ _; rfl
  rw [key (fun a => ∑ b ∈ Finset.range (lm.length * nrad), E.get a b * F.get b a)]
  · refine Finset.sum_congr rfl fun i hi => ?_
    rw [key (fun b => E.get ((pureIndices lm nrad).getD i 0) b * F.get b ((pureIndices lm nrad).getD i 0))]
    · exact Finset.sum_congr rfl fun j hj => by rw [hE i (Finset.mem_range.1 hi) j (Finset.mem_range.1 hj)]
    · intro b hb
      rw [hz _ b (fun h => hb h.2), zero_mul]
  · intro a ha
    exact Finset.sum_eq_zero fun b _ => by rw [hz a b (fun h => ha h.1), zero_mul]

open Classical in
/-- **C38, padded to physical indices.** A list with an index outside the padded space is rejected; otherwise the functions that do not exist are
dropped and every other index is replaced by the number of its basis function, keeping the order. -/
theorem C38_dummy_to_real (lm : List (Int × Int)) (nrad : Nat) (hr : 1 ≤ nrad) (idx : List Int) :
    ((¬∀ k ∈ idx, 0 ≤ k ∧ k < (lm.length * nrad : Nat)) → dummyToReal lm nrad idx = .throw .logicError) ∧
    ((∀ k ∈ idx, 0 ≤ k ∧ k < (lm.length * nrad : Nat)) → ∃ real : List Nat, dummyToReal lm nrad idx = .ok real ∧ (∀ i ∈ real, i < diaNbf lm nrad) ∧
      real.map (fun i : Nat => (((pureIndices lm nrad).getD i 0 : Nat) : Int)) = idx.filter fun k => Physical lm nrad k.toNat) := by
  constructor
  · intro h
    unfold dummyToReal
    rw [if_pos]
    simp only [List.any_eq_true, Bool.or_eq_true, decide_eq_true_eq]
    push Not at h
    obtain ⟨k, hk, h⟩ := h
    refine ⟨k, hk, ?_⟩
    by_cases h0 : k < 0
    · exact Or.inl h0
    · exact Or.inr (h (by omega))
  · intro h
    have key : ∀ (l : List Int) (acc : List Nat), (∀ k ∈ l, 0 ≤ k) → ∃ real : List Nat,
        l.foldl (pushReal lm nrad) acc = acc ++ real ∧
        (∀ i ∈ real, i < (pureIndices lm nrad).length) ∧
        real.map (fun i : Nat => (((pureIndices lm nrad).getD i 0 : Nat) : Int)) = l.filter fun k => Physical lm nrad k.toNat := by
      intro l
      induction l with
      | nil => intro acc _; exact ⟨[], by simp, by simp, rfl⟩
      | cons k l ih =>
        intro acc hl
        rw [List.foldl_cons]
        rcases Option.eq_none_or_eq_some (realMap lm nrad k.toNat) with e | ⟨v, e⟩
        · obtain ⟨real, h1, h2, h3⟩ := ih acc fun k hk => hl k (by simp [hk])
          refine ⟨real, ?_, h2, ?_⟩
          · rw [pushReal, e]; exact h1
          · rw [List.filter_cons_of_neg (by simpa using (realMap_none lm nrad _).1 e)]; exact h3
        · obtain ⟨real, h1, h2, h3⟩ := ih (acc ++ [v]) fun k hk => hl k (by simp [hk])
          obtain ⟨hv, hk⟩ := (realMap_some lm nrad _ v).1 e
          refine ⟨v :: real, ?_, ?_, ?_⟩
          · rw [pushReal, e]; simp only; rw [h1]; simp
          · intro i hi
            rcases List.mem_cons.1 hi with rfl | hi
            · exact hv
            · exact h2 i hi
          · have hp : Physical lm nrad k.toNat := by
              by_contra hc
              rw [(realMap_none lm nrad _).2 hc] at e; cases e
            rw [List.filter_cons_of_pos (by simpa using hp), List.map_cons, h3, hk, Int.toNat_of_nonneg (hl k (by simp))]
    obtain ⟨real, h1, h2, h3⟩ := key idx [] fun k hk => (h k hk).1
    refine ⟨real, ?_, by rw [diaNbf_eq lm nrad hr]; exact h2, h3⟩
    unfold dummyToReal
    rw [if_neg]
    · rw [h1, List.nil_append]
    · simp only [List.any_eq_true, Bool.or_eq_true, decide_eq_true_eq, not_exists, not_and, not_or, not_lt, not_le]
      exact fun k hk => h k hk

/-- **C38, functions of an element.** The list of an element's functions consists, each once, of the basis functions whose radial function is one of
the element's; `ifirst..ilast` are the element's radial functions. -/
theorem C38_element_functions (lm : List (Int × Int)) (nrad ifirst ilast : Nat) (h1 : ifirst ≤ ilast) (h2 : ilast < nrad) :
    ∃ fs : List Nat, bfList lm nrad ifirst ilast = .ok fs ∧ fs.Nodup ∧
      ∀ i, i ∈ fs ↔ i < diaNbf lm nrad ∧ ifirst ≤ (pureIndices lm nrad).getD i 0 % nrad ∧ (pureIndices lm nrad).getD i 0 % nrad ≤ ilast := by
  have hmem : ∀ k, k ∈ bfListDummy lm nrad ifirst ilast ↔ k < lm.length * nrad ∧ ifirst ≤ k % nrad ∧ k % nrad ≤ ilast := by
    intro k
    simp only [bfListDummy, List.mem_flatMap, List.mem_range, List.mem_map]
    constructor
    · rintro ⟨iam, hi, j, hj, rfl⟩
      rw [add_assoc, Nat.mul_add_mod, Nat.mod_eq_of_lt (by omega)]
      have h3 : (iam + 1) * nrad ≤ lm.length * nrad := Nat.mul_le_mul_right _ (by omega)
      have h4 : (iam + 1) * nrad = nrad * iam + nrad := by ring
      omega
    · rintro ⟨ha, hb, hc⟩
      refine ⟨k / nrad, Nat.div_lt_of_lt_mul (by rwa [mul_comm]), k % nrad - ifirst, by omega, ?_⟩
      have := Nat.div_add_mod k nrad
      omega
  have hnd : (bfListDummy lm nrad ifirst ilast).Pairwise (· < ·) := by
    unfold bfListDummy
    rw [List.pairwise_flatMap]
    refine ⟨fun i _ => ?_, List.pairwise_lt_range.imp ?_⟩
    · rw [List.pairwise_map]; exact List.pairwise_lt_range.imp (by omega)
    · intro i j hij x hx y hy
      obtain ⟨a, ha, rfl⟩ := List.mem_map.1 hx
      obtain ⟨b, hb, rfl⟩ := List.mem_map.1 hy
      have ha := List.mem_range.1 ha
      have h3 : nrad * (i + 1) ≤ nrad * j := Nat.mul_le_mul_left _ (by omega)
      have h4 : nrad * (i + 1) = nrad * i + nrad := by ring
      omega
  obtain ⟨real, e, hlt, hmap⟩ := (C38_dummy_to_real lm nrad (by omega) ((bfListDummy lm nrad ifirst ilast).map fun k : Nat => (k : Int))).2 (by
    intro k hk
    obtain ⟨n, hn, rfl⟩ := List.mem_map.1 hk
    have := ((hmem n).1 hn).1
    omega)
  have hlen := diaNbf_eq lm nrad (by omega)
  refine ⟨real, e, ?_, ?_⟩
  · have hn : (List.map (fun k : Nat => (k : Int)) (bfListDummy lm nrad ifirst ilast)).Nodup :=
      List.Nodup.map (fun a b h => by simpa using h) (hnd.imp fun h => by omega)
    have := hn.filter (fun k : Int => @decide (Physical lm nrad k.toNat) (Classical.propDecidable _))
    rw [← hmap] at this
    exact this.of_map
  · intro i
    constructor
    · intro hi
      refine ⟨hlt i hi, ?_⟩
      have h3 := List.mem_map_of_mem (f := fun i : Nat => (((pureIndices lm nrad).getD i 0 : Nat) : Int)) hi
      rw [hmap] at h3
      obtain ⟨n, hn, hne⟩ := List.mem_map.1 (List.mem_filter.1 h3).1
      have hne' : n = (pureIndices lm nrad).getD i 0 := by exact_mod_cast hne
      rw [← hne']
      exact ((hmem n).1 hn).2
    · rintro ⟨hi, h3⟩
      rw [hlen] at hi
      have hk : (pureIndices lm nrad).getD i 0 ∈ bfListDummy lm nrad ifirst ilast := (hmem _).2 ⟨pure_getD_lt lm nrad i hi, h3⟩
      have hp : Physical lm nrad ((pureIndices lm nrad).getD i 0) := by
        rw [← mem_pure, getD_lt _ _ hi]; exact List.getElem_mem hi
      have : (((pureIndices lm nrad).getD i 0 : Nat) : Int) ∈ real.map (fun i : Nat => (((pureIndices lm nrad).getD i 0 : Nat) : Int)) := by
        rw [hmap, List.mem_filter]
        exact ⟨List.mem_map_of_mem (f := fun k : Nat => (k : Int)) hk, by simpa using hp⟩
      obtain ⟨j, hj, hje⟩ := List.mem_map.1 this
      have hje' : (pureIndices lm nrad).getD j 0 = (pureIndices lm nrad).getD i 0 := by exact_mod_cast hje
      have hjl := hlt j hj
      rw [hlen] at hjl
      rwa [← pure_inj lm nrad hjl hi hje']

/-- **C38, functions of one m.** The padded functions of an element with a given `m` are the element's padded functions whose angular function has that `m`, in order. -/
theorem C38_bf_list_m (lm : List (Int × Int)) (nrad ifirst ilast : Nat) (m : Int) (h : ifirst ≤ ilast) (hl : ilast < nrad) :
    bfListDummyM lm nrad ifirst ilast m = (bfListDummy lm nrad ifirst ilast).filter fun k => (lm.getD (k / nrad) (0, 0)).2 = m := by
  unfold bfListDummyM bfListDummy
  have key : ∀ (l : List Nat) (acc : List Nat), l.foldl (fun acc iam =>
      if (lm.getD iam (0, 0)).2 = m then acc ++ (List.range (ilast - ifirst + 1)).map (fun j => nrad * iam + ifirst + j) else acc) acc =
      acc ++ (l.flatMap fun iam => (List.range (ilast - ifirst + 1)).map fun j => nrad * iam + ifirst + j).filter fun k => (lm.getD (k / nrad) (0, 0)).2 = m := by
    intro l
    induction l with
    | nil => intro acc; simp
    | cons a l ih =>
      intro acc
      have hd : ∀ k ∈ (List.range (ilast - ifirst + 1)).map (fun j => nrad * a + ifirst + j), k / nrad = a := by
        intro k hk
        obtain ⟨j, hj, rfl⟩ := List.mem_map.1 hk
        have hj := List.mem_range.1 hj
        rw [add_assoc, Nat.mul_add_div (by omega), Nat.div_eq_of_lt (by omega), add_zero]
      rw [List.foldl_cons, ih, List.flatMap_cons, List.filter_append]
      by_cases hm : (lm.getD a (0, 0)).2 = m
      · rw [if_pos hm, List.append_assoc]
        congr 2
        symm
        rw [List.filter_eq_self]
        intro k hk
        rw [hd k hk]; simpa using hm
      · rw [if_neg hm]
        have : ((List.range (ilast - ifirst + 1)).map fun j => nrad * a + ifirst + j).filter (fun k => (lm.getD (k / nrad) (0, 0)).2 = m) = [] := by
          rw [List.filter_eq_nil_iff]
          intro k hk
          rw [hd k hk]; simpa using hm
        rw [this, List.nil_append]
  rw [key]; rfl

/-- of three angular functions with two radial functions, those of `m = 1` in an element with both -/
example : bfListDummyM [(0, 0), (1, 1), (2, 1)] 2 0 1 1 = [2, 3, 4, 5] := by decide

/-- Two angular functions, `σ` and `π`, with three radial functions each: the fourth padded function does not exist. -/
example : pureIndices [(0, 0), (1, 1)] 3 = [0, 1, 2, 4, 5] ∧ diaNbf [(0, 0), (1, 1)] 3 = 5 ∧ nDummy [(0, 0), (1, 1)] 3 = 6 := by decide

example : ∃ E : Mat Int, expandBoundaries [(0, 0), (1, 1)] 3 ⟨5, 5, fun i j => (i : Int) + 10 * j⟩ = .ok E ∧ E.get 4 5 = 43 ∧ E.get 3 5 = 0 := by
  refine ⟨_, rfl, ?_, ?_⟩ <;> decide

example : dummyToReal [(0, 0), (1, 1)] 3 [5, 3, 0] = .ok [4, 0] ∧ dummyToReal [(0, 0), (1, 1)] 3 [6] = .throw .logicError ∧
    dummyToReal [(0, 0), (1, 1)] 3 [-1] = .throw .logicError ∧ bfList [(0, 0), (1, 1)] 3 0 1 = .ok [0, 1, 3] := by decide

end Dia
end HelFEM
