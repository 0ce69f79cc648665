import Verif.Model.DiaIndex
import Verif.Spec.DiaIndex
import Verif.Lemmas.SymBlocks
import Verif.Lemmas.Lists
import Mathlib.Algebra.BigOperators.Ring.Finset

namespace HelFEM
namespace Dia
open Sym

theorem getD_lt {α : Type _} (l : List α) {i : Nat} (d : α) (h : i < l.length) : l.getD i d = l[i] := by
  simp [List.getD_eq_getElem?_getD, h]

theorem mem_pure (lm : List (Int × Int)) (nrad k : Nat) : k ∈ pureIndices lm nrad ↔ Physical lm nrad k := by
  rw [pureIndices, pureIndices_eq, List.mem_flatMap]
  constructor
  · rintro ⟨i, hi, h⟩
    have hi' := List.mem_range.1 hi
    have e : lm[i]? = some (lm.getD i (0, 0)) := by rw [getD_lt _ _ hi', List.getElem?_eq_getElem hi']
    split_ifs at h with hz
    · obtain ⟨j, hj, rfl⟩ := List.mem_map.1 h
      have hj' := List.mem_range.1 hj
      refine ⟨lm.getD i (0, 0), ?_, Nat.mod_lt _ (by omega), Or.inl hz⟩
      rw [mul_comm, Nat.mul_add_div (by omega), Nat.div_eq_of_lt hj', add_zero]; exact e
    · obtain ⟨j, hj, rfl⟩ := List.mem_map.1 h
      have hj' := List.mem_range.1 hj
      refine ⟨lm.getD i (0, 0), ?_, Nat.mod_lt _ (by omega), Or.inr ?_⟩
      · rw [mul_comm, add_assoc, Nat.mul_add_div (by omega), Nat.div_eq_of_lt (by omega), add_zero]; exact e
      · rw [mul_comm, add_assoc, Nat.mul_add_mod, Nat.mod_eq_of_lt (by omega)]; omega
  · rintro ⟨p, hp, hlt, h⟩
    have hi : k / nrad < lm.length := by
      by_contra hc
      rw [List.getElem?_eq_none (by omega)] at hp
      cases hp
    refine ⟨k / nrad, List.mem_range.2 hi, ?_⟩
    have e : lm.getD (k / nrad) (0, 0) = p := by
      rw [getD_lt _ _ hi]
      rw [List.getElem?_eq_getElem hi] at hp
      exact Option.some.inj hp
    have hk : k / nrad * nrad + k % nrad = k := by rw [mul_comm]; exact Nat.div_add_mod k nrad
    rw [e]
    split_ifs with hz
    · exact List.mem_map.2 ⟨k % nrad, List.mem_range.2 hlt, hk⟩
    · have h0 : k % nrad ≠ 0 := h.resolve_left hz
      exact List.mem_map.2 ⟨k % nrad - 1, List.mem_range.2 (by omega), by omega⟩

theorem pure_sorted (lm : List (Int × Int)) (nrad : Nat) : (pureIndices lm nrad).Pairwise (· < ·) := by
  rw [pureIndices, pureIndices_eq]
  generalize lm.length = n
  have key : ∀ i x, x ∈ (if (lm.getD i (0, 0)).2 = 0 then (List.range nrad).map (fun j => i * nrad + j)
      else (List.range (nrad - 1)).map (fun j => i * nrad + 1 + j)) → i * nrad ≤ x ∧ x < (i + 1) * nrad := by
    intro i x hx
    have e : (i + 1) * nrad = i * nrad + nrad := by ring
    split_ifs at hx <;> obtain ⟨j, hj, rfl⟩ := List.mem_map.1 hx <;> have := List.mem_range.1 hj <;> omega
  rw [List.pairwise_flatMap]
  refine ⟨fun i _ => ?_, ?_⟩
  · split_ifs <;> rw [List.pairwise_map] <;> exact List.pairwise_lt_range.imp (by omega)
  · refine List.pairwise_lt_range.imp ?_
    intro i j hij x hx y hy
    have h1 := (key i x hx).2
    have h2 := (key j y hy).1
    have h3 : (i + 1) * nrad ≤ j * nrad := Nat.mul_le_mul_right _ (by omega)
    omega

theorem pure_nodup (lm : List (Int × Int)) (nrad : Nat) : (pureIndices lm nrad).Nodup := (pure_sorted lm nrad).imp (fun h => by omega)

theorem physical_lt (lm : List (Int × Int)) (nrad k : Nat) (h : Physical lm nrad k) : k < nDummy lm nrad := by
  obtain ⟨p, hp, hlt, _⟩ := h
  have hi : k / nrad < lm.length := by
    by_contra hc
    rw [List.getElem?_eq_none (by omega)] at hp
    cases hp
  have h1 : (k / nrad + 1) * nrad ≤ lm.length * nrad := Nat.mul_le_mul_right _ (by omega)
  have h2 : (k / nrad + 1) * nrad = nrad * (k / nrad) + nrad := by ring
  have h3 := Nat.div_add_mod k nrad
  unfold nDummy; omega

theorem pure_getD_lt (lm : List (Int × Int)) (nrad i : Nat) (h : i < (pureIndices lm nrad).length) :
    (pureIndices lm nrad).getD i 0 < nDummy lm nrad := by
  rw [getD_lt _ _ h]
  exact physical_lt _ _ _ ((mem_pure _ _ _).1 (List.getElem_mem h))

theorem pure_inj (lm : List (Int × Int)) (nrad : Nat) {i j : Nat} (hi : i < (pureIndices lm nrad).length) (hj : j < (pureIndices lm nrad).length)
    (h : (pureIndices lm nrad).getD i 0 = (pureIndices lm nrad).getD j 0) : i = j := by
  rw [getD_lt _ _ hi, getD_lt _ _ hj] at h
  exact (pure_nodup lm nrad).getElem_inj_iff.1 h

section Expand
variable {K : Type _}

theorem fill_col (p : List Nat) (P : Mat K) (j : Nat) (hp : ∀ i < p.length, ∀ k < p.length, p.getD i 0 = p.getD k 0 → i = k) :
    ∀ (n : Nat) (M : Mat K), n ≤ p.length → (∀ i < p.length, p.getD i 0 < M.rows ∧ p.getD i 0 < M.cols) → j < p.length →
    ∃ M' : Mat K, (List.range n).foldlM (fun M i => setEntry M (p.getD i 0) (p.getD j 0) (P.get i j)) M = .ok M' ∧ M'.rows = M.rows ∧ M'.cols = M.cols ∧
      (∀ i < n, M'.get (p.getD i 0) (p.getD j 0) = P.get i j) ∧
      ∀ a b, (∀ i < n, ¬(a = p.getD i 0 ∧ b = p.getD j 0)) → M'.get a b = M.get a b := by
  intro n
  induction n with
  | zero => intro M _ _ _; exact ⟨M, rfl, rfl, rfl, fun i hi => by omega, fun _ _ _ => rfl⟩
  | succ n ih =>
    intro M hn hM hj
    obtain ⟨M', e, r, c, h1, h2⟩ := ih M (by omega) hM hj
    have hb := hM n (by omega)
    have hb2 := hM j hj
    refine ⟨⟨M'.rows, M'.cols, fun x y => if x = p.getD n 0 ∧ y = p.getD j 0 then P.get n j else M'.get x y⟩, ?_, r, c, ?_, ?_⟩
    · rw [List.range_succ, List.foldlM_append, e]
      simp only [Res.ok_bind, List.foldlM_cons, List.foldlM_nil, setEntry]
      rw [if_pos ⟨by omega, by omega⟩]; rfl
    · intro i hi
      simp only
      by_cases hin : i = n
      · subst hin; simp
      · rw [if_neg (fun h => hin (hp i (by omega) n (by omega) h.1)), h1 i (by omega)]
    · intro a b hab
      simp only
      rw [if_neg (hab n (by omega)), h2 a b fun i hi => hab i (by omega)]

theorem fill_all (p : List Nat) (P : Mat K) (hp : ∀ i < p.length, ∀ k < p.length, p.getD i 0 = p.getD k 0 → i = k) :
    ∀ (n : Nat) (M : Mat K), n ≤ p.length → (∀ i < p.length, p.getD i 0 < M.rows ∧ p.getD i 0 < M.cols) →
    ∃ M' : Mat K, (List.range n).foldlM (fun M j => (List.range p.length).foldlM (fun M i => setEntry M (p.getD i 0) (p.getD j 0) (P.get i j)) M) M = .ok M' ∧
      M'.rows = M.rows ∧ M'.cols = M.cols ∧
      (∀ j < n, ∀ i < p.length, M'.get (p.getD i 0) (p.getD j 0) = P.get i j) ∧
      ∀ a b, (∀ j < n, ∀ i < p.length, ¬(a = p.getD i 0 ∧ b = p.getD j 0)) → M'.get a b = M.get a b := by
  intro n
  induction n with
  | zero => intro M _ _; exact ⟨M, rfl, rfl, rfl, fun i hi => by omega, fun _ _ _ => rfl⟩
  | succ n ih =>
    intro M hn hM
    obtain ⟨M', e, r, c, h1, h2⟩ := ih M (by omega) hM
    obtain ⟨N, e', r', c', h1', h2'⟩ := fill_col p P n hp p.length M' le_rfl (by rw [r, c]; exact hM) (by omega)
    refine ⟨N, ?_, r'.trans r, c'.trans c, ?_, ?_⟩
    · rw [List.range_succ, List.foldlM_append, e]
      simp only [Res.ok_bind, List.foldlM_cons, List.foldlM_nil]
      rw [e']; rfl
    · intro j hj i hi
      by_cases hjn : j = n
      · rw [hjn]; exact h1' i hi
      · rw [h2' _ _ fun k _ h => hjn (hp j (by omega) n (by omega) h.2)]
        exact h1 j (by omega) i hi
    · intro a b hab
      rw [h2' a b fun i hi => hab n (by omega) i hi]
      exact h2 a b fun j hj i hi => hab j (by omega) i hi

theorem expand_ok [Zero K] (lm : List (Int × Int)) (nrad : Nat) (P : Mat K) (hr : P.rows = (pureIndices lm nrad).length)
    (hc : P.cols = (pureIndices lm nrad).length) :
    ∃ E : Mat K, expandBoundaries lm nrad P = .ok E ∧ E.rows = nDummy lm nrad ∧ E.cols = nDummy lm nrad ∧
      (∀ i < (pureIndices lm nrad).length, ∀ j < (pureIndices lm nrad).length,
        E.get ((pureIndices lm nrad).getD i 0) ((pureIndices lm nrad).getD j 0) = P.get i j) ∧
      ∀ a b, ¬(Physical lm nrad a ∧ Physical lm nrad b) → E.get a b = 0 := by
  obtain ⟨E, e, r, c, h1, h2⟩ := fill_all (pureIndices lm nrad) P (fun i hi k hk => pure_inj lm nrad hi hk) (pureIndices lm nrad).length
    (Mat.zero (nDummy lm nrad) (nDummy lm nrad)) le_rfl (fun i hi => ⟨pure_getD_lt lm nrad i hi, pure_getD_lt lm nrad i hi⟩)
  refine ⟨E, ?_, r, c, fun i hi j hj => h1 j hj i hi, ?_⟩
  · unfold expandBoundaries
    simp only
    rw [if_neg (by rw [hr, hc]; simp)]
    exact e
  · intro a b hab
    rw [h2 a b]
    · rfl
    · rintro j hj i hi ⟨rfl, rfl⟩
      refine hab ⟨(mem_pure _ _ _).1 ?_, (mem_pure _ _ _).1 ?_⟩
      · rw [getD_lt _ _ hi]; exact List.getElem_mem hi
      · rw [getD_lt _ _ hj]; exact List.getElem_mem hj

end Expand

theorem fill_map (p : List Nat) (hp : ∀ i < p.length, ∀ k < p.length, p.getD i 0 = p.getD k 0 → i = k) (n : Nat) (hn : n ≤ p.length) (k v : Nat) :
    ((List.range n).foldl (fun mp i => mapSet mp (p.getD i 0) i) fun _ => none) k = some v ↔ v < n ∧ p.getD v 0 = k := by
  induction n with
  | zero => simp
  | succ n ih =>
    rw [List.range_succ, List.foldl_append, List.foldl_cons, List.foldl_nil, mapSet]
    by_cases hk : k = p.getD n 0
    · rw [if_pos hk]
      constructor
      · intro h; cases h; exact ⟨by omega, hk.symm⟩
      · rintro ⟨h1, h2⟩
        rw [hp v (by omega) n (by omega) (h2.trans hk)]
    · rw [if_neg hk, ih (by omega)]
      constructor
      · rintro ⟨h1, h2⟩; exact ⟨by omega, h2⟩
      · rintro ⟨h1, h2⟩
        refine ⟨?_, h2⟩
        have : v ≠ n := by rintro rfl; exact hk h2.symm
        omega

theorem realMap_some (lm : List (Int × Int)) (nrad k v : Nat) :
    realMap lm nrad k = some v ↔ v < (pureIndices lm nrad).length ∧ (pureIndices lm nrad).getD v 0 = k :=
  fill_map _ (fun i hi j hj => pure_inj lm nrad hi hj) _ le_rfl k v

theorem realMap_none (lm : List (Int × Int)) (nrad k : Nat) : realMap lm nrad k = none ↔ ¬Physical lm nrad k := by
  rw [← mem_pure]
  constructor
  · intro h hk
    obtain ⟨i, hi, e⟩ := List.getElem_of_mem hk
    have := (realMap_some lm nrad k i).2 ⟨hi, by rw [getD_lt _ _ hi]; exact e⟩
    rw [h] at this; cases this
  · intro h
    rcases Option.eq_none_or_eq_some (realMap lm nrad k) with e | ⟨v, e⟩
    · exact e
    · obtain ⟨h1, h2⟩ := (realMap_some lm nrad k v).1 e
      refine absurd ?_ h
      rw [← h2, getD_lt _ _ h1]; exact List.getElem_mem h1

end Dia
end HelFEM
