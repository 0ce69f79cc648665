import Verif.Model.Cholesky
import Mathlib.Algebra.BigOperators.Ring.Finset
import Mathlib.Tactic.Ring
import Mathlib.Tactic.Linarith
import Mathlib.Tactic.FieldSimp

/-! Lemmas on pivoted Cholesky factorisations. -/

namespace HelFEM
namespace Chol
open Finset

/-- quadratic form of the leading `n × n` block -/
def quad (n : Nat) (R : Nat → Nat → ℝ) (v : Nat → ℝ) : ℝ := ∑ i ∈ range n, ∑ j ∈ range n, v i * R i j * v j

theorem quad_shift (n : Nat) (R : Nat → Nat → ℝ) (hs : ∀ i < n, ∀ j < n, R i j = R j i) (p : Nat) (hp : p < n) (v : Nat → ℝ) (t : ℝ) :
    quad n R (fun i => v i - if i = p then t else 0) = quad n R v - 2 * t * ∑ j ∈ range n, R p j * v j + t * t * R p p := by
  unfold quad
  have h1 : ∀ i ∈ range n, ∑ j ∈ range n, (v i - if i = p then t else 0) * R i j * (v j - if j = p then t else 0) =
      ∑ j ∈ range n, v i * R i j * v j - v i * R i p * t - (if i = p then t else 0) * (∑ j ∈ range n, R i j * v j - R i p * t) := by
    intro i _
    have : ∀ j, (v i - if i = p then t else 0) * R i j * (v j - if j = p then t else 0) =
        v i * R i j * v j - (if i = p then t else 0) * (R i j * v j) - (if j = p then (v i - if i = p then t else 0) * R i p * t else 0) := by
      intro j
      generalize (if i = p then t else 0) = x
      by_cases hj : j = p
      · subst hj; simp; ring
      · simp [hj]; ring
    simp only [this]
    rw [sum_sub_distrib, sum_sub_distrib, ← mul_sum, sum_ite_eq' (range n) p, if_pos (mem_range.2 hp)]
    ring
  rw [sum_congr rfl h1, sum_sub_distrib, sum_sub_distrib]
  have h2 : ∑ i ∈ range n, (if i = p then t else 0) * (∑ j ∈ range n, R i j * v j - R i p * t) =
      t * (∑ j ∈ range n, R p j * v j - R p p * t) := by
    simp only [ite_mul, zero_mul]
    rw [sum_ite_eq' (range n) p, if_pos (mem_range.2 hp)]
  have h3 : ∑ i ∈ range n, v i * R i p * t = t * ∑ j ∈ range n, R p j * v j := by
    rw [mul_sum]
    apply sum_congr rfl
    intro i hi
    rw [hs i (mem_range.1 hi) p hp]; ring
  rw [h2, h3]
  ring

theorem quad_sub (n : Nat) (R : Nat → Nat → ℝ) (u : Nat → ℝ) (k : ℝ) (v : Nat → ℝ) :
    quad n (fun i j => R i j - k * (u i * u j)) v = quad n R v - k * ((∑ i ∈ range n, u i * v i) * ∑ i ∈ range n, u i * v i) := by
  unfold quad
  rw [sum_mul_sum, mul_sum, ← sum_sub_distrib]
  apply sum_congr rfl; intro i _
  rw [mul_sum, ← sum_sub_distrib]
  apply sum_congr rfl; intro j _
  ring

/-- removing the pivot keeps the form nonnegative -/
theorem schur_psd (n : Nat) (R : Nat → Nat → ℝ) (hs : ∀ i < n, ∀ j < n, R i j = R j i) (hR : ∀ v, 0 ≤ quad n R v) (p : Nat) (hp : p < n)
    (hpp : 0 < R p p) (v : Nat → ℝ) : 0 ≤ quad n (fun i j => R i j - (R p p)⁻¹ * (R p i * R p j)) v := by
  have h1 := quad_sub n R (fun i => R p i) (R p p)⁻¹ v
  have h2 := quad_shift n R hs p hp v ((R p p)⁻¹ * ∑ j ∈ range n, R p j * v j)
  have h3 := hR (fun i => v i - if i = p then (R p p)⁻¹ * ∑ j ∈ range n, R p j * v j else 0)
  rw [h1]
  rw [h2] at h3
  generalize (∑ j ∈ range n, R p j * v j) = S at *
  have : (R p p)⁻¹ * S * ((R p p)⁻¹ * S) * R p p = (R p p)⁻¹ * (S * S) := by field_simp
  rw [this] at h3
  linarith

theorem quad_two (n : Nat) (R : Nat → Nat → ℝ) (i j : Nat) (hi : i < n) (hj : j < n) (a b : ℝ) :
    quad n R (fun k => (if k = i then a else 0) + if k = j then b else 0) = a * a * R i i + a * b * R i j + b * a * R j i + b * b * R j j := by
  unfold quad
  have h1 : ∀ k ∈ range n, ∑ l ∈ range n, ((if k = i then a else 0) + if k = j then b else 0) * R k l * ((if l = i then a else 0) + if l = j then b else 0) =
      ((if k = i then a else 0) + if k = j then b else 0) * (R k i * a + R k j * b) := by
    intro k _
    simp only [mul_add, mul_ite, mul_zero, sum_add_distrib]
    rw [sum_ite_eq' (range n) i, sum_ite_eq' (range n) j, if_pos (mem_range.2 hi), if_pos (mem_range.2 hj)]
    ring
  rw [sum_congr rfl h1]
  simp only [add_mul, ite_mul, zero_mul, sum_add_distrib]
  rw [sum_ite_eq' (range n) i, sum_ite_eq' (range n) j, if_pos (mem_range.2 hi), if_pos (mem_range.2 hj)]
  ring

theorem psd_diag (n : Nat) (R : Nat → Nat → ℝ) (hR : ∀ v, 0 ≤ quad n R v) (i : Nat) (hi : i < n) : 0 ≤ R i i := by
  have := hR (fun k => (if k = i then 1 else 0) + if k = i then 0 else 0)
  rw [quad_two n R i i hi hi 1 0] at this
  linarith

/-- entries of a positive semidefinite matrix are bounded by its diagonal -/
theorem psd_entry (n : Nat) (R : Nat → Nat → ℝ) (hs : ∀ i < n, ∀ j < n, R i j = R j i) (hR : ∀ v, 0 ≤ quad n R v) (tol : ℝ)
    (hd : ∀ i < n, R i i ≤ tol) (i j : Nat) (hi : i < n) (hj : j < n) : |R i j| ≤ tol := by
  have h1 := hR (fun k => (if k = i then 1 else 0) + if k = j then 1 else 0)
  have h2 := hR (fun k => (if k = i then 1 else 0) + if k = j then -1 else 0)
  rw [quad_two n R i j hi hj 1 1] at h1
  rw [quad_two n R i j hi hj 1 (-1)] at h2
  have h3 := hs i hi j hj
  have h4 := hd i hi
  have h5 := hd j hj
  rw [abs_le]
  constructor <;> linarith

theorem foldl_sub {α : Type _} (l : List α) (f : α → ℝ) (x : ℝ) : l.foldl (fun s a => s - f a) x = x - (l.map f).sum := by
  induction l generalizing x with
  | nil => simp
  | cons a l ih => rw [List.foldl_cons, ih, List.map_cons, List.sum_cons]; ring

/-- what is left of `A` after subtracting the columns -/
def resid (A : Nat → Nat → ℝ) (cols : List (Nat → ℝ)) (i j : Nat) : ℝ := A i j - (cols.map fun c => c i * c j).sum

theorem resid_append (A : Nat → Nat → ℝ) (cols : List (Nat → ℝ)) (c : Nat → ℝ) (i j : Nat) :
    resid A (cols ++ [c]) i j = resid A cols i j - c i * c j := by
  unfold resid
  rw [List.map_append, List.sum_append]
  simp; ring

theorem resid_symm (A : Nat → Nat → ℝ) (cols : List (Nat → ℝ)) (i j : Nat) (h : A i j = A j i) : resid A cols i j = resid A cols j i := by
  unfold resid
  rw [h]
  congr 2
  apply List.map_congr_left
  intro c _; ring

theorem pivot_spec (n : Nat) (tol : ℝ) (s : State) :
    ((pivot n tol s).1 = n ∧ ∀ i < n, s.done i = false → s.D i ≤ tol) ∨
    ((pivot n tol s).1 < n ∧ s.done (pivot n tol s).1 = false ∧ (pivot n tol s).2 = s.D (pivot n tol s).1 ∧ tol < s.D (pivot n tol s).1 ∧
      ∀ i < n, s.done i = false → s.D i ≤ s.D (pivot n tol s).1) := by
  unfold pivot
  have key : ∀ m ≤ n, (((List.range m).foldl (fun pv i => if s.done i = false ∧ pv.2 < s.D i then (i, s.D i) else pv) (n, tol)) = (n, tol) ∧
        ∀ i < m, s.done i = false → s.D i ≤ tol) ∨
      ∃ p < m, ((List.range m).foldl (fun pv i => if s.done i = false ∧ pv.2 < s.D i then (i, s.D i) else pv) (n, tol)) = (p, s.D p) ∧
        s.done p = false ∧ tol < s.D p ∧ ∀ i < m, s.done i = false → s.D i ≤ s.D p := by
    intro m
    induction m with
    | zero => intro _; left; exact ⟨rfl, by intro i hi; omega⟩
    | succ m ih =>
      intro hm
      rw [List.range_succ, List.foldl_append, List.foldl_cons, List.foldl_nil]
      rcases ih (by omega) with ⟨h1, h2⟩ | ⟨p, hp, h1, h2, h3, h4⟩
      · rw [h1]
        by_cases hc : s.done m = false ∧ tol < s.D m
        · right
          refine ⟨m, by omega, by rw [if_pos hc], hc.1, hc.2, ?_⟩
          intro i hi hd
          rcases Nat.lt_succ_iff_lt_or_eq.1 hi with h | h
          · linarith [h2 i h hd, hc.2]
          · rw [h]
        · left
          refine ⟨by rw [if_neg hc], ?_⟩
          intro i hi hd
          rcases Nat.lt_succ_iff_lt_or_eq.1 hi with h | h
          · exact h2 i h hd
          · subst h
            by_contra hcon
            exact hc ⟨hd, not_le.1 hcon⟩
      · rw [h1]
        by_cases hc : s.done m = false ∧ s.D p < s.D m
        · right
          refine ⟨m, by omega, by rw [if_pos hc], hc.1, by linarith [hc.2], ?_⟩
          intro i hi hd
          rcases Nat.lt_succ_iff_lt_or_eq.1 hi with h | h
          · linarith [h4 i h hd, hc.2]
          · rw [h]
        · right
          refine ⟨p, by omega, by rw [if_neg hc], h2, h3, ?_⟩
          intro i hi hd
          rcases Nat.lt_succ_iff_lt_or_eq.1 hi with h | h
          · exact h4 i h hd
          · subst h
            by_contra hcon
            exact hc ⟨hd, not_le.1 hcon⟩
  rcases key n le_rfl with ⟨h1, h2⟩ | ⟨p, hp, h1, h2, h3, h4⟩
  · left; rw [h1]; exact ⟨rfl, h2⟩
  · right; rw [h1]; exact ⟨hp, h2, rfl, h3, h4⟩

/-- loop invariant -/
structure Inv (n : Nat) (A : Nat → Nat → ℝ) (s : State) : Prop where
  psd : ∀ v, 0 ≤ quad n (resid A s.cols) v
  zero : ∀ i < n, s.done i = true → ∀ j < n, resid A s.cols i j = 0
  diag : ∀ i < n, s.done i = false → s.D i = resid A s.cols i i
  count : ((range n).filter fun i => s.done i = true).card = s.cols.length

theorem step_inv (n : Nat) (A : Nat → Nat → ℝ) (hA : ∀ i < n, ∀ j < n, A i j = A j i) (tol : ℝ) (ht : 0 ≤ tol) (s s' : State) (h : Inv n A s)
    (hs : step n A tol s = some s') : Inv n A s' ∧ s'.cols.length = s.cols.length + 1 := by
  unfold step at hs
  rcases pivot_spec n tol s with ⟨h1, _⟩ | ⟨h1, h2, h3, h4, _⟩
  · simp [h1] at hs
  · simp only [if_neg (show ¬ (pivot n tol s).1 = n by omega)] at hs
    injection hs with hs
    rw [h3] at hs
    generalize (pivot n tol s).1 = p at *
    have hpos : 0 < s.D p := by linarith
    have hpp : resid A s.cols p p = s.D p := (h.diag p h1 h2).symm
    have hsq : Real.sqrt (s.D p) * Real.sqrt (s.D p) = s.D p := Real.mul_self_sqrt hpos.le
    have hsq0 : Real.sqrt (s.D p) ≠ 0 := (Real.sqrt_pos.2 hpos).ne'
    have hsym : ∀ i < n, ∀ j < n, resid A s.cols i j = resid A s.cols j i := fun i hi j hj => resid_symm A s.cols i j (hA i hi j hj)
    subst hs
    set col := newCol A p (Real.sqrt (s.D p)) (fun i => if i = p then true else s.done i) s.cols with hcol
    have hc : ∀ i < n, col i = resid A s.cols p i / Real.sqrt (s.D p) := by
      intro i hi
      rw [hcol, newCol]
      by_cases hip : i = p
      · subst hip
        rw [if_pos rfl, hpp, eq_div_iff hsq0, hsq]
      · rw [if_neg hip]
        simp only [if_neg hip]
        by_cases hdn : s.done i = true
        · rw [if_pos hdn, hsym p h1 i hi, h.zero i hi hdn p h1, zero_div]
        · rw [if_neg hdn, foldl_sub s.cols (fun c => c i * c p), hsym p h1 i hi]; rfl
    have hprod : ∀ i < n, ∀ j < n, col i * col j = (resid A s.cols p p)⁻¹ * (resid A s.cols p i * resid A s.cols p j) := by
      intro i hi j hj
      rw [hc i hi, hc j hj, hpp, div_mul_div_comm, hsq]; field_simp
    have hres : ∀ i < n, ∀ j < n, resid A (s.cols ++ [col]) i j = resid A s.cols i j - (resid A s.cols p p)⁻¹ * (resid A s.cols p i * resid A s.cols p j) := by
      intro i hi j hj
      rw [resid_append, hprod i hi j hj]
    refine ⟨⟨?_, ?_, ?_, ?_⟩, by simp⟩
    · intro v
      have := schur_psd n (resid A s.cols) hsym h.psd p h1 (by rw [hpp]; exact hpos) v
      have he : quad n (resid A (s.cols ++ [col])) v = quad n (fun i j => resid A s.cols i j - (resid A s.cols p p)⁻¹ * (resid A s.cols p i * resid A s.cols p j)) v := by
        unfold quad
        apply sum_congr rfl; intro i hi
        apply sum_congr rfl; intro j hj
        rw [hres i (mem_range.1 hi) j (mem_range.1 hj)]
      simp only
      rw [he]; exact this
    · intro i hi hd j hj
      simp only at hd ⊢
      rw [hres i hi j hj]
      by_cases hip : i = p
      · subst hip
        rw [hpp]; field_simp; ring
      · rw [if_neg hip] at hd
        rw [h.zero i hi hd j hj, hsym p h1 i hi, h.zero i hi hd p h1]; ring
    · intro i hi hd
      simp only at hd ⊢
      by_cases hip : i = p
      · rw [if_pos hip] at hd; exact absurd hd (by decide)
      · rw [if_neg hip] at hd
        simp only [if_neg hip, hd]
        rw [resid_append, ← h.diag i hi hd]
        simp
    · simp only [List.length_append, List.length_cons, List.length_nil]
      rw [← h.count, ← card_insert_of_notMem (a := p) (s := (range n).filter fun i => s.done i = true) (by simp [h2])]
      congr 1
      ext i
      simp only [mem_filter, mem_range, mem_insert]
      by_cases hip : i = p
      · subst hip; simp [h1]
      · simp [hip]

theorem step_none (n : Nat) (A : Nat → Nat → ℝ) (tol : ℝ) (s : State) (hs : step n A tol s = none) :
    ∀ i < n, s.done i = false → s.D i ≤ tol := by
  rcases pivot_spec n tol s with ⟨_, h2⟩ | ⟨h1, _⟩
  · exact h2
  · unfold step at hs
    simp [show ¬ (pivot n tol s).1 = n by omega] at hs

theorem loop_spec (n : Nat) (A : Nat → Nat → ℝ) (hA : ∀ i < n, ∀ j < n, A i j = A j i) (tol : ℝ) (ht : 0 ≤ tol) :
    ∀ (k : Nat) (s : State), Inv n A s → s.cols.length + k = n →
      Inv n A (loop n A tol k s) ∧ ∀ i < n, (loop n A tol k s).done i = false → (loop n A tol k s).D i ≤ tol := by
  intro k
  induction k with
  | zero =>
    intro s h hk
    refine ⟨h, ?_⟩
    intro i hi hd
    exfalso
    have hc := h.count
    have : (range n).filter (fun i => s.done i = true) = range n := by
      apply eq_of_subset_of_card_le (filter_subset _ _)
      rw [hc, card_range]; omega
    have hm : i ∈ (range n).filter (fun i => s.done i = true) := by rw [this]; exact mem_range.2 hi
    have := (mem_filter.1 hm).2
    rw [show loop n A tol 0 s = s from rfl] at hd
    rw [hd] at this; exact absurd this (by decide)
  | succ k ih =>
    intro s h hk
    unfold loop
    cases hst : step n A tol s with
    | none => exact ⟨h, step_none n A tol s hst⟩
    | some s' =>
      obtain ⟨i1, i2⟩ := step_inv n A hA tol ht s s' h hst
      exact ih s' i1 (by omega)

theorem loop_length (n : Nat) (A : Nat → Nat → ℝ) (tol : ℝ) : ∀ (k : Nat) (s : State), (loop n A tol k s).cols.length ≤ s.cols.length + k := by
  intro k
  induction k with
  | zero => intro s; exact le_rfl
  | succ k ih =>
    intro s
    unfold loop
    cases hst : step n A tol s with
    | none => simp only; omega
    | some s' =>
      have := ih s'
      have : s'.cols.length = s.cols.length + 1 := by
        unfold step at hst
        simp only at hst
        split at hst
        · exact absurd hst (by simp)
        · injection hst with hst; rw [← hst]; simp
      simp only; omega

/-! ### sign-aware variant -/

def sresid (W : Nat → Nat → ℝ) (cols : List ((Nat → ℝ) × ℝ)) (i j : Nat) : ℝ := W i j - (cols.map fun c => c.2 * (c.1 i * c.1 j)).sum

theorem sresid_append (W : Nat → Nat → ℝ) (cols : List ((Nat → ℝ) × ℝ)) (c : (Nat → ℝ) × ℝ) (i j : Nat) :
    sresid W (cols ++ [c]) i j = sresid W cols i j - c.2 * (c.1 i * c.1 j) := by
  unfold sresid
  rw [List.map_append, List.sum_append]
  simp; ring

theorem sresid_symm (W : Nat → Nat → ℝ) (cols : List ((Nat → ℝ) × ℝ)) (i j : Nat) (h : W i j = W j i) : sresid W cols i j = sresid W cols j i := by
  unfold sresid
  rw [h]
  congr 2
  apply List.map_congr_left
  intro c _; ring

theorem maxAbs_spec (n : Nat) (hn : 0 < n) (d : Nat → ℝ) :
    (maxAbs n d (0, |d 0|)).1 < n ∧ (maxAbs n d (0, |d 0|)).2 = |d (maxAbs n d (0, |d 0|)).1| ∧ ∀ i < n, |d i| ≤ (maxAbs n d (0, |d 0|)).2 := by
  unfold maxAbs
  have key : ∀ m ≤ n, ∃ p < n, (List.range m).foldl (fun pv i => if pv.2 < |d i| then (i, |d i|) else pv) (0, |d 0|) = (p, |d p|) ∧
      ∀ i < m, |d i| ≤ |d p| := by
    intro m
    induction m with
    | zero => intro _; exact ⟨0, hn, rfl, by intro i hi; omega⟩
    | succ m ih =>
      intro hm
      obtain ⟨p, hp, h1, h2⟩ := ih (by omega)
      rw [List.range_succ, List.foldl_append, List.foldl_cons, List.foldl_nil, h1]
      by_cases hc : |d p| < |d m|
      · refine ⟨m, by omega, by rw [if_pos hc], ?_⟩
        intro i hi
        rcases Nat.lt_succ_iff_lt_or_eq.1 hi with h | h
        · linarith [h2 i h]
        · rw [h]
      · refine ⟨p, hp, by rw [if_neg hc], ?_⟩
        intro i hi
        rcases Nat.lt_succ_iff_lt_or_eq.1 hi with h | h
        · exact h2 i h
        · rw [h]; exact not_lt.1 hc
  obtain ⟨p, hp, h1, h2⟩ := key n le_rfl
  rw [h1]
  exact ⟨hp, rfl, h2⟩

/-- loop invariant; `S` are the pivots used so far -/
structure SInv (n : Nat) (W : Nat → Nat → ℝ) (s : SState) (S : Finset Nat) : Prop where
  diag : ∀ i < n, s.d i = sresid W s.cols i i
  zero : ∀ i ∈ S, ∀ j < n, sresid W s.cols i j = 0
  sub : S ⊆ range n
  count : S.card = s.cols.length

theorem sstep_inv (n : Nat) (hn : 0 < n) (W : Nat → Nat → ℝ) (hW : ∀ i < n, ∀ j < n, W i j = W j i) (thresh dmax0 : ℝ) (ht : 0 ≤ thresh)
    (s s' : SState) (S : Finset Nat) (h : SInv n W s S) (hs : sstep n W thresh dmax0 s = some s') :
    ∃ p < n, s.d p ≠ 0 ∧ SInv n W s' (insert p S) ∧ s'.cols.length = s.cols.length + 1 ∧
      (∀ i < n, ∀ j < n, sresid W s'.cols i j = sresid W s.cols i j - (sresid W s.cols p p)⁻¹ * (sresid W s.cols p i * sresid W s.cols p j)) ∧
      (∃ c, s'.cols = s.cols ++ [(c, if 0 ≤ s.d p then 1 else -1)]) := by
  unfold sstep at hs
  obtain ⟨m1, m2, m3⟩ := maxAbs_spec n hn s.d
  simp only at hs
  by_cases hb : dmax0 ≤ 0 ∨ (maxAbs n s.d (0, |s.d 0|)).2 ≤ thresh * dmax0
  · rw [if_pos hb] at hs; exact absurd hs (by simp)
  · rw [if_neg hb] at hs
    injection hs with hs
    rw [not_or, not_le, not_le, m2] at hb
    generalize (maxAbs n s.d (0, |s.d 0|)).1 = p at *
    have hpos : 0 < |s.d p| := by have := mul_nonneg ht hb.1.le; linarith [hb.2]
    have hne : s.d p ≠ 0 := abs_pos.1 hpos
    have hsq : Real.sqrt |s.d p| * Real.sqrt |s.d p| = |s.d p| := Real.mul_self_sqrt hpos.le
    have hsq0 : Real.sqrt |s.d p| ≠ 0 := (Real.sqrt_pos.2 hpos).ne'
    have hsym : ∀ i < n, ∀ j < n, sresid W s.cols i j = sresid W s.cols j i := fun i hi j hj => sresid_symm W s.cols i j (hW i hi j hj)
    have hpp := h.diag p m1
    subst hs
    set col : Nat → ℝ := fun i => s.cols.foldl (fun v c => v - c.2 * c.1 p * c.1 i) (W i p) / Real.sqrt |s.d p| with hcol
    have hc : ∀ i < n, col i = sresid W s.cols p i / Real.sqrt |s.d p| := by
      intro i hi
      rw [hcol]
      simp only
      rw [foldl_sub s.cols (fun c => c.2 * c.1 p * c.1 i), hW i hi p m1]
      unfold sresid
      congr 3
      apply List.map_congr_left
      intro c _; ring
    have hsg : (if 0 ≤ s.d p then (1 : ℝ) else -1) * |s.d p|⁻¹ = (s.d p)⁻¹ := by
      split
      · rename_i h0; rw [abs_of_nonneg h0, one_mul]
      · rename_i h0; rw [abs_of_neg (not_le.1 h0), inv_neg]; ring
    have hres : ∀ i < n, ∀ j < n, sresid W (s.cols ++ [(col, if 0 ≤ s.d p then 1 else -1)]) i j =
        sresid W s.cols i j - (sresid W s.cols p p)⁻¹ * (sresid W s.cols p i * sresid W s.cols p j) := by
      intro i hi j hj
      rw [sresid_append]
      simp only
      rw [hc i hi, hc j hj, div_mul_div_comm, hsq, ← hpp, ← hsg, div_eq_mul_inv]
      ring
    have hrow : ∀ j < n, sresid W (s.cols ++ [(col, if 0 ≤ s.d p then 1 else -1)]) p j = 0 := by
      intro j hj
      rw [hres p m1 j hj, ← hpp]
      field_simp; ring
    refine ⟨p, m1, hne, ⟨?_, ?_, ?_, ?_⟩, by simp, hres, col, rfl⟩
    · intro i hi
      simp only
      by_cases hip : i = p
      · subst hip
        rw [if_pos rfl, hrow i hi]
      · rw [if_neg hip, sresid_append, ← h.diag i hi]
    · intro i hi j hj
      rcases mem_insert.1 hi with h1 | h1
      · rw [h1]; exact hrow j hj
      · have hin := mem_range.1 (h.sub h1)
        simp only
        rw [hres i hin j hj, h.zero i h1 j hj, hsym p m1 i hin, h.zero i h1 p m1]; ring
    · exact insert_subset (mem_range.2 m1) h.sub
    · rw [card_insert_of_notMem, h.count]
      · simp
      · intro hmem
        exact hne (hpp.trans (h.zero p hmem p m1))

theorem sstep_none (n : Nat) (hn : 0 < n) (W : Nat → Nat → ℝ) (thresh dmax0 : ℝ) (s : SState) (hs : sstep n W thresh dmax0 s = none) :
    dmax0 ≤ 0 ∨ ∀ i < n, |s.d i| ≤ thresh * dmax0 := by
  unfold sstep at hs
  simp only at hs
  obtain ⟨m1, m2, m3⟩ := maxAbs_spec n hn s.d
  by_cases hb : dmax0 ≤ 0 ∨ (maxAbs n s.d (0, |s.d 0|)).2 ≤ thresh * dmax0
  · rcases hb with h | h
    · exact Or.inl h
    · exact Or.inr fun i hi => (m3 i hi).trans h
  · rw [if_neg hb] at hs; exact absurd hs (by simp)

theorem sloop_spec (n : Nat) (hn : 0 < n) (W : Nat → Nat → ℝ) (hW : ∀ i < n, ∀ j < n, W i j = W j i) (thresh dmax0 : ℝ) (ht : 0 ≤ thresh)
    (P : (Nat → Nat → ℝ) → Prop) (Q : List ℝ → Prop)
    (hP : ∀ (cols : List ((Nat → ℝ) × ℝ)) (R' : Nat → Nat → ℝ) (p : Nat), p < n → sresid W cols p p ≠ 0 → P (sresid W cols) → Q (cols.map Prod.snd) →
      (∀ i < n, ∀ j < n, R' i j = sresid W cols i j - (sresid W cols p p)⁻¹ * (sresid W cols p i * sresid W cols p j)) →
      P R' ∧ Q (cols.map Prod.snd ++ [if 0 ≤ sresid W cols p p then 1 else -1])) :
    ∀ (k : Nat) (s : SState) (S : Finset Nat), SInv n W s S → P (sresid W s.cols) → Q (s.cols.map Prod.snd) → s.cols.length + k = n →
      (sloop n W thresh dmax0 k s).cols.length ≤ n ∧ P (sresid W (sloop n W thresh dmax0 k s).cols) ∧ Q ((sloop n W thresh dmax0 k s).cols.map Prod.snd) ∧
      ((dmax0 ≤ 0 ∧ sloop n W thresh dmax0 k s = s) ∨ ∀ i < n, |sresid W (sloop n W thresh dmax0 k s).cols i i| ≤ thresh * max dmax0 0) := by
  intro k
  induction k with
  | zero =>
    intro s S h hp hq hk
    refine ⟨by rw [show sloop n W thresh dmax0 0 s = s from rfl]; omega, hp, hq, Or.inr ?_⟩
    intro i hi
    have : S = range n := by
      apply eq_of_subset_of_card_le h.sub
      rw [h.count, card_range]; omega
    rw [show sloop n W thresh dmax0 0 s = s from rfl, h.zero i (by rw [this]; exact mem_range.2 hi) i hi, abs_zero]
    exact mul_nonneg ht (le_max_right _ _)
  | succ k ih =>
    intro s S h hp hq hk
    unfold sloop
    cases hst : sstep n W thresh dmax0 s with
    | none =>
      refine ⟨by simp only; omega, hp, hq, ?_⟩
      rcases sstep_none n hn W thresh dmax0 s hst with h0 | h0
      · exact Or.inl ⟨h0, rfl⟩
      · right
        intro i hi
        rw [← h.diag i hi]
        exact (h0 i hi).trans (mul_le_mul_of_nonneg_left (le_max_left _ _) ht)
    | some s' =>
      obtain ⟨p, p1, p2, i1, i2, i3, c, i4⟩ := sstep_inv n hn W hW thresh dmax0 ht s s' S h hst
      have hpos : 0 < dmax0 := by
        by_contra hc
        unfold sstep at hst
        simp only at hst
        rw [if_pos (Or.inl (not_lt.1 hc))] at hst
        exact absurd hst (by simp)
      rw [h.diag p p1] at p2
      obtain ⟨q1, q2⟩ := hP s.cols (sresid W s'.cols) p p1 p2 hp hq i3
      have := ih s' (insert p S) i1 q1 (by rw [i4, List.map_append, h.diag p p1]; exact q2) (by omega)
      obtain ⟨a, b, c, d⟩ := this
      refine ⟨a, b, c, ?_⟩
      rcases d with ⟨d, _⟩ | d
      · linarith
      · exact Or.inr d

end Chol
end HelFEM
