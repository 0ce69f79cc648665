import Verif.Model.TwoElectron
import Verif.Lemmas.Lists
import Mathlib.Algebra.BigOperators.Ring.Finset
import Verif.Spec.TwoElectron
import Mathlib.Tactic.Ring
import Mathlib.Tactic.Linarith

/-! Lemmas on two-electron assembly. -/

namespace HelFEM
namespace TwoE
open Finset

variable {K : Type _}

/-- loops whose bodies add something to a matrix of fixed size -/
theorem foldlM_acc [AddCommMonoid K] {ι : Type _} (N N' : Nat) (body : Mat K → ι → Res (Mat K)) (c : ι → Nat → Nat → K) :
    ∀ (l : List ι) (M : Mat K), M.rows = N → M.cols = N' →
      (∀ e ∈ l, ∀ M : Mat K, M.rows = N → M.cols = N' →
        ∃ M', body M e = .ok M' ∧ M'.rows = N ∧ M'.cols = N' ∧ ∀ i j, M'.get i j = M.get i j + c e i j) →
      ∃ M', l.foldlM body M = .ok M' ∧ M'.rows = N ∧ M'.cols = N' ∧ ∀ i j, M'.get i j = M.get i j + (l.map fun e => c e i j).sum := by
  intro l
  induction l with
  | nil => intro M h1 h2 _; exact ⟨M, rfl, h1, h2, by simp⟩
  | cons e l ih =>
    intro M h1 h2 h
    obtain ⟨M1, a1, a2, a3, a4⟩ := h e (by simp) M h1 h2
    obtain ⟨M2, b1, b2, b3, b4⟩ := ih M1 a2 a3 (fun e' he' => h e' (by simp [he']))
    refine ⟨M2, ?_, b2, b3, ?_⟩
    · rw [List.foldlM_cons, a1]; exact b1
    · intro i j
      rw [b4, a4, List.map_cons, List.sum_cons, add_assoc]

/-- `sum` over a column-major flattened index -/
theorem sum_flat [AddCommMonoid K] (n m : Nat) (F : Nat → Nat → K) :
    ∑ k ∈ range (n * m), F (k % n) (k / n) = ∑ d ∈ range m, ∑ c ∈ range n, F c d := by
  induction m with
  | zero => simp
  | succ m ih =>
    rw [Nat.mul_succ, sum_range_add, ih, sum_range_succ]
    congr 1
    apply sum_congr rfl
    intro c hc
    have hc := mem_range.1 hc
    congr 1
    · rw [Nat.mul_add_mod, Nat.mod_eq_of_lt hc]
    · rw [Nat.mul_add_div (by omega), Nat.div_eq_of_lt hc, add_zero]

theorem pair_inj {n a b c d : Nat} (hb : b < n) (hd : d < n) (h : a * n + b = c * n + d) : a = c ∧ b = d := by
  have e1 : (a * n + b) / n = a := by rw [Nat.mul_comm, Nat.mul_add_div (by omega), Nat.div_eq_of_lt hb, add_zero]
  have e2 : (c * n + d) / n = c := by rw [Nat.mul_comm, Nat.mul_add_div (by omega), Nat.div_eq_of_lt hd, add_zero]
  have : a = c := by rw [← e1, h, e2]
  subst this
  exact ⟨rfl, by omega⟩

theorem pair_lt {n m a b : Nat} (ha : a < m) (hb : b < n) : a * n + b < n * m := by
  calc a * n + b < a * n + n := by omega
    _ = (a + 1) * n := by ring
    _ ≤ m * n := Nat.mul_le_mul_right _ ha
    _ = n * m := Nat.mul_comm _ _

/-- a loop of writes to distinct places -/
theorem foldlM_write {ι : Type _} (N N' : Nat) (body : Mat K → ι → Res (Mat K)) (pi pj : ι → Nat) (val : ι → K) :
    ∀ (l : List ι) (M : Mat K), M.rows = N → M.cols = N' →
      (∀ e ∈ l, ∀ M : Mat K, M.rows = N → M.cols = N' → body M e = writeM M (pi e) (pj e) (val e)) →
      (∀ e ∈ l, pi e < N ∧ pj e < N') →
      (∀ e ∈ l, ∀ e' ∈ l, pi e = pi e' → pj e = pj e' → val e = val e') →
      ∃ M', l.foldlM body M = .ok M' ∧ M'.rows = N ∧ M'.cols = N' ∧ (∀ e ∈ l, M'.get (pi e) (pj e) = val e) ∧
        ∀ i j, (∀ e ∈ l, ¬ (i = pi e ∧ j = pj e)) → M'.get i j = M.get i j := by
  intro l
  induction l with
  | nil => intro M h1 h2 _ _ _; exact ⟨M, rfl, h1, h2, by simp, fun _ _ _ => rfl⟩
  | cons e l ih =>
    intro M h1 h2 hb hr hi
    obtain ⟨r1, r2⟩ := hr e (by simp)
    have hw : writeM M (pi e) (pj e) (val e) = .ok ⟨M.rows, M.cols, fun a b => if a = pi e ∧ b = pj e then val e else M.get a b⟩ := by
      unfold writeM; rw [if_pos (by rw [h1, h2]; exact ⟨r1, r2⟩)]
    obtain ⟨M2, b1, b2, b3, b4, b5⟩ := ih ⟨M.rows, M.cols, fun a b => if a = pi e ∧ b = pj e then val e else M.get a b⟩ h1 h2
      (fun e' he' => hb e' (by simp [he'])) (fun e' he' => hr e' (by simp [he']))
      (fun e' he' e'' he'' => hi e' (by simp [he']) e'' (by simp [he'']))
    refine ⟨M2, ?_, b2, b3, ?_, ?_⟩
    · rw [List.foldlM_cons, hb e (by simp) M h1 h2, hw]; exact b1
    · intro e' he'
      rcases List.mem_cons.1 he' with rfl | he'
      · by_cases hc : ∃ e'' ∈ l, pi e' = pi e'' ∧ pj e' = pj e''
        · obtain ⟨e'', he'', h3, h4⟩ := hc
          rw [h3, h4, b4 e'' he'']
          exact (hi e' (by simp) e'' (by simp [he'']) h3 h4).symm
        · rw [b5 _ _ (fun e'' he'' hh => hc ⟨e'', he'', hh⟩)]
          simp
      · exact b4 e' he'
    · intro i j h
      rw [b5 i j (fun e' he' => h e' (by simp [he']))]
      have := h e (by simp)
      simp [this]

/-- the numbering as the assembly sees it: element `e < ne` owns the functions `first e … last e` of `N` -/
structure Layout (R : Radial) (ne N : Nat) (first last : Nat → Nat) : Prop where
  nel : R.nel = ne
  nbf : R.nbf = N
  idx : ∀ e < ne, R.idx e = .ok (first e, last e)
  bound : ∀ e < ne, last e < N
  order : ∀ e < ne, first e ≤ last e + 1

/-- number of functions on an element -/
def cnt (first last : Nat → Nat) (e : Nat) : Nat := last e + 1 - first e

/-- value of an element block at a global position -/
def at_ [Zero K] (fi ni fj nj : Nat) (B : Nat → Nat → K) (i j : Nat) : K :=
  if (fi ≤ i ∧ i < fi + ni) ∧ (fj ≤ j ∧ j < fj + nj) then B (i - fi) (j - fj) else 0

theorem addBlock_ok [AddCommMonoid K] (M : Mat K) (N : Nat) (h1 : M.rows = N) (h2 : M.cols = N) (fi fj ni nj : Nat) (B : Mat K) (b1 : B.rows = ni)
    (b2 : B.cols = nj) (hi : fi + ni ≤ N) (hj : fj + nj ≤ N) :
    ∃ M', M.addBlock fi fj ni nj B = .ok M' ∧ M'.rows = N ∧ M'.cols = N ∧ ∀ i j, M'.get i j = M.get i j + at_ fi ni fj nj B.get i j := by
  refine ⟨_, if_pos ⟨by omega, by omega, b1, b2⟩, h1, h2, ?_⟩
  intro i j
  unfold at_
  by_cases h : (fi ≤ i ∧ i < fi + ni) ∧ (fj ≤ j ∧ j < fj + nj)
  · rw [if_pos h]; simp [h.1, h.2]
  · rw [if_neg h, add_zero]; simp only; rw [if_neg (by tauto)]

variable {R : Radial} {ne N : Nat} {first last : Nat → Nat}

theorem Layout.range (h : Layout R ne N first last) (e : Nat) (he : e < ne) : R.range e = .ok (first e, cnt first last e) := by
  unfold Radial.range
  rw [h.idx e he]; rfl

theorem Layout.fits (h : Layout R ne N first last) (e : Nat) (he : e < ne) : first e + cnt first last e ≤ N := by
  have := h.bound e he; have := h.order e he
  unfold cnt; omega

/-! ### sums over element windows -/

theorem sum_window [AddCommMonoid K] (N f n : Nat) (h : f + n ≤ N) (G : Nat → K) :
    (∑ k ∈ Finset.range N, if f ≤ k ∧ k < f + n then G k else 0) = ∑ c ∈ Finset.range n, G (f + c) := by
  rw [← sum_filter]
  have : (Finset.range N).filter (fun k => f ≤ k ∧ k < f + n) = Finset.Ico f (f + n) := by
    ext k; simp only [mem_filter, Finset.mem_range, Finset.mem_Ico]; omega
  rw [this, sum_Ico_eq_sum_range]; simp

theorem sum_window' [AddCommMonoid K] (N f n : Nat) (h : f + n ≤ N) (G : Nat → Nat → K) :
    (∑ c ∈ Finset.range n, G c (f + c)) = ∑ k ∈ Finset.range N, if f ≤ k ∧ k < f + n then G (k - f) k else 0 := by
  rw [sum_window N f n h (fun k => G (k - f) k)]; simp

theorem inWin (h : Layout R ne N first last) (e : Nat) (he : e < ne) (i : Nat) :
    (first e ≤ i ∧ i ≤ last e) ↔ (first e ≤ i ∧ i < first e + cnt first last e) := by
  have := h.order e he
  unfold cnt; omega

open Spec in
theorem coulomb_blocks [CommRing K] (h : Layout R ne N first last) (blk : Nat → Nat → Nat → Nat → Nat → Nat → K) (P : Nat → Nat → K) (i j : Nat) :
    coulomb N (fourIndex ne first last blk) P i j = ∑ e1 ∈ Finset.range ne, ∑ e2 ∈ Finset.range ne,
      at_ (first e1) (cnt first last e1) (first e1) (cnt first last e1) (fun a b =>
        ∑ c ∈ Finset.range (cnt first last e2), ∑ d ∈ Finset.range (cnt first last e2), blk e1 e2 a b c d * P (first e2 + c) (first e2 + d)) i j := by
  unfold coulomb fourIndex
  simp only [sum_mul]
  have : ∀ k ∈ Finset.range N, (∑ l ∈ Finset.range N, ∑ e1 ∈ Finset.range ne, ∑ e2 ∈ Finset.range ne,
      (if ((first e1 ≤ i ∧ i ≤ last e1) ∧ (first e1 ≤ j ∧ j ≤ last e1)) ∧ ((first e2 ≤ k ∧ k ≤ last e2) ∧ (first e2 ≤ l ∧ l ≤ last e2)) then
      blk e1 e2 (i - first e1) (j - first e1) (k - first e2) (l - first e2) else 0) * P k l) =
      ∑ e1 ∈ Finset.range ne, ∑ e2 ∈ Finset.range ne, ∑ l ∈ Finset.range N, 
      (if ((first e1 ≤ i ∧ i ≤ last e1) ∧ (first e1 ≤ j ∧ j ≤ last e1)) ∧ ((first e2 ≤ k ∧ k ≤ last e2) ∧ (first e2 ≤ l ∧ l ≤ last e2)) then
      blk e1 e2 (i - first e1) (j - first e1) (k - first e2) (l - first e2) else 0) * P k l := by
    intro k _
    rw [sum_comm]
    apply sum_congr rfl; intro e1 _
    rw [sum_comm]
  rw [sum_congr rfl this, sum_comm]
  apply sum_congr rfl; intro e1 he1
  rw [sum_comm]
  apply sum_congr rfl; intro e2 he2
  have he1 := Finset.mem_range.1 he1
  have he2 := Finset.mem_range.1 he2
  simp only [inWin h e1 he1, inWin h e2 he2]
  unfold at_
  by_cases hc : (first e1 ≤ i ∧ i < first e1 + cnt first last e1) ∧ (first e1 ≤ j ∧ j < first e1 + cnt first last e1)
  · rw [if_pos hc]
    beta_reduce
    rw [sum_window' N (first e2) (cnt first last e2) (h.fits e2 he2)
      (fun c k => ∑ d ∈ Finset.range (cnt first last e2), blk e1 e2 (i - first e1) (j - first e1) c d * P k (first e2 + d))]
    apply sum_congr rfl; intro k _
    by_cases hk : first e2 ≤ k ∧ k < first e2 + cnt first last e2
    · rw [if_pos hk, sum_window' N (first e2) (cnt first last e2) (h.fits e2 he2)
        (fun d l => blk e1 e2 (i - first e1) (j - first e1) (k - first e2) d * P k l)]
      apply sum_congr rfl; intro l _
      simp only [hc, hk, true_and, and_self]
      split_ifs <;> simp
    · rw [if_neg hk]
      apply sum_eq_zero; intro l _
      rw [if_neg (by tauto), zero_mul]
  · rw [if_neg hc]
    apply sum_eq_zero; intro k _
    apply sum_eq_zero; intro l _
    rw [if_neg (by tauto), zero_mul]

open Spec in
theorem exchange_blocks [CommRing K] (h : Layout R ne N first last) (blk : Nat → Nat → Nat → Nat → Nat → Nat → K) (P : Nat → Nat → K) (i k : Nat) :
    exchange N (fourIndex ne first last blk) P i k = ∑ e1 ∈ Finset.range ne, ∑ e2 ∈ Finset.range ne,
      at_ (first e1) (cnt first last e1) (first e2) (cnt first last e2) (fun a c =>
        ∑ b ∈ Finset.range (cnt first last e1), ∑ d ∈ Finset.range (cnt first last e2), blk e1 e2 a b c d * P (first e1 + b) (first e2 + d)) i k := by
  unfold exchange fourIndex
  simp only [sum_mul]
  have : ∀ j ∈ Finset.range N, (∑ l ∈ Finset.range N, ∑ e1 ∈ Finset.range ne, ∑ e2 ∈ Finset.range ne,
      (if ((first e1 ≤ i ∧ i ≤ last e1) ∧ (first e1 ≤ j ∧ j ≤ last e1)) ∧ ((first e2 ≤ k ∧ k ≤ last e2) ∧ (first e2 ≤ l ∧ l ≤ last e2)) then
      blk e1 e2 (i - first e1) (j - first e1) (k - first e2) (l - first e2) else 0) * P j l) =
      ∑ e1 ∈ Finset.range ne, ∑ e2 ∈ Finset.range ne, ∑ l ∈ Finset.range N, 
      (if ((first e1 ≤ i ∧ i ≤ last e1) ∧ (first e1 ≤ j ∧ j ≤ last e1)) ∧ ((first e2 ≤ k ∧ k ≤ last e2) ∧ (first e2 ≤ l ∧ l ≤ last e2)) then
      blk e1 e2 (i - first e1) (j - first e1) (k - first e2) (l - first e2) else 0) * P j l := by
    intro j _
    rw [sum_comm]
    apply sum_congr rfl; intro e1 _
    rw [sum_comm]
  rw [sum_congr rfl this, sum_comm]
  apply sum_congr rfl; intro e1 he1
  rw [sum_comm]
  apply sum_congr rfl; intro e2 he2
  have he1 := Finset.mem_range.1 he1
  have he2 := Finset.mem_range.1 he2
  simp only [inWin h e1 he1, inWin h e2 he2]
  unfold at_
  by_cases hc : (first e1 ≤ i ∧ i < first e1 + cnt first last e1) ∧ (first e2 ≤ k ∧ k < first e2 + cnt first last e2)
  · rw [if_pos hc]
    beta_reduce
    rw [sum_window' N (first e1) (cnt first last e1) (h.fits e1 he1)
      (fun b j => ∑ d ∈ Finset.range (cnt first last e2), blk e1 e2 (i - first e1) b (k - first e2) d * P j (first e2 + d))]
    apply sum_congr rfl; intro j _
    by_cases hj : first e1 ≤ j ∧ j < first e1 + cnt first last e1
    · rw [if_pos hj, sum_window' N (first e2) (cnt first last e2) (h.fits e2 he2)
        (fun d l => blk e1 e2 (i - first e1) (j - first e1) (k - first e2) d * P j l)]
      apply sum_congr rfl; intro l _
      simp only [hc, hj, true_and, and_self]
      split_ifs <;> simp
    · rw [if_neg hj]
      apply sum_eq_zero; intro l _
      rw [if_neg (by tauto), zero_mul]
  · rw [if_neg hc]
    apply sum_eq_zero; intro j _
    apply sum_eq_zero; intro l _
    rw [if_neg (by tauto), zero_mul]

theorem at_sum [AddCommMonoid K] {ι : Type _} (s : Finset ι) (fi ni fj nj : Nat) (B : ι → Nat → Nat → K) (i j : Nat) :
    ∑ e ∈ s, at_ fi ni fj nj (B e) i j = at_ fi ni fj nj (fun a b => ∑ e ∈ s, B e a b) i j := by
  unfold at_
  split_ifs
  · rfl
  · simp

theorem at_congr [Zero K] (fi ni fj nj : Nat) (B B' : Nat → Nat → K) (h : ∀ a < ni, ∀ b < nj, B a b = B' a b) (i j : Nat) :
    at_ fi ni fj nj B i j = at_ fi ni fj nj B' i j := by
  unfold at_
  split_ifs with hc
  · exact h _ (by omega) _ (by omega)
  · rfl

end TwoE
end HelFEM
