import Verif.Lemmas.Hermite
import Mathlib.Algebra.Polynomial.Roots
import Mathlib.Tactic.LinearCombination

/-! Lemmas: cardinality and uniqueness of the interpolating shape functions, and the change of variable. -/

namespace HelFEM
namespace Poly
open Finset Polynomial Spec

variable {K : Type _} [Field K]

/-! ### change of variable -/

theorem iterate_derivative_comp_lin (p q : K[X]) (a : K) (hq : derivative q = C a) (n : Nat) :
    derivative^[n] (p.comp q) = C (a ^ n) * (derivative^[n] p).comp q := by
  induction n with
  | zero => simp
  | succ n ih =>
    rw [Function.iterate_succ_apply', ih, derivative_C_mul, derivative_comp, hq, Function.iterate_succ_apply']
    rw [pow_succ, C_mul]; ring

theorem dv_onElement (mid len x : K) (hl : len ≠ 0) (p : K[X]) (n : Nat) :
    dv (onElement mid len p) (mid + len * x) n = dv p x n / len ^ n := by
  unfold dv onElement
  have hq : derivative (C len⁻¹ * (X - C mid) : K[X]) = C len⁻¹ := by simp
  rw [iterate_derivative_comp_lin _ _ _ hq]
  simp only [eval_mul, eval_C, eval_comp, eval_sub, eval_X]
  rw [show len⁻¹ * (mid + len * x - mid) = x by field_simp; ring, inv_pow]
  field_simp

theorem dv_onFirst (len x : K) (hl : len ≠ 0) (p : K[X]) (n : Nat) :
    dv (onFirstElement len p) (len * (x + 1)) n = dv p x n / len ^ n := by
  unfold dv onFirstElement
  have hq : derivative (C len⁻¹ * X - 1 : K[X]) = C len⁻¹ := by simp
  rw [iterate_derivative_comp_lin _ _ _ hq]
  simp only [eval_mul, eval_C, eval_comp, eval_sub, eval_X, eval_one]
  rw [show len⁻¹ * (len * (x + 1)) - 1 = x by field_simp; ring, inv_pow]
  field_simp

/-! ### uniqueness -/

theorem root_of_small_derivs [CharZero K] (h : K[X]) (a : K) (m : Nat) (H : ∀ d < m, (derivative^[d] h).eval a = 0) :
    (X - C a) ^ m ∣ h := by
  by_cases h0 : h = 0
  · rw [h0]; exact dvd_zero _
  cases m with
  | zero => simp
  | succ m =>
    rw [← le_rootMultiplicity_iff h0]
    have := (lt_rootMultiplicity_iff_isRoot_iterate_derivative (n := m) (t := a) h0).2
      (fun d hd => H d (by omega))
    omega

theorem zero_of_data [CharZero K] (m N : Nat) (x0 : Nat → K) (hx : DistinctNodes N x0) (h : K[X])
    (hdeg : h.degree < (m * N : Nat))
    (H : ∀ k < N, ∀ d < m, (derivative^[d] h).eval (x0 k) = 0) : h = 0 := by
  by_contra h0
  have hd : (∏ k ∈ range N, (X - C (x0 k)) ^ m) ∣ h := by
    apply Finset.prod_dvd_of_coprime
    · intro i hi j hj hij
      apply IsCoprime.pow
      apply pairwise_coprime_X_sub_C (s := fun i : {i // i ∈ range N} => x0 i.1) _ 
        (show (⟨i, hi⟩ : {i // i ∈ range N}) ≠ ⟨j, hj⟩ by simpa using hij)
      intro a b hab
      have ha := a.2; have hb := b.2
      simp only [mem_range] at ha hb
      exact Subtype.ext (hx _ ha _ hb hab)
    · intro k hk
      exact root_of_small_derivs h (x0 k) m (H k (mem_range.1 hk))
  have h1 := degree_le_of_dvd hd h0
  have h2 : (∏ k ∈ range N, (X - C (x0 k)) ^ m : K[X]).degree = (m * N : Nat) := by
    rw [degree_prod]
    simp only [degree_pow, degree_X_sub_C, sum_const, card_range, nsmul_eq_mul, mul_one]
    push_cast
    ring
  rw [h2] at h1
  exact absurd hdeg (not_lt.2 h1)

theorem HermiteCardinal_unique [CharZero K] (m N : Nat) (x0 : Nat → K) (hx : DistinctNodes N x0) (i j : Nat)
    (h h' : K[X]) (H : HermiteCardinal m N x0 i j h) (H' : HermiteCardinal m N x0 i j h') : h = h' := by
  have := zero_of_data m N x0 hx (h - h') (lt_of_le_of_lt (degree_sub_le _ _) (max_lt H.1 H'.1)) (by
    intro k hk d hd
    rw [iterate_derivative_sub, eval_sub, H.2 k hk d hd, H'.2 k hk d hd, sub_self])
  exact sub_eq_zero.1 this

/-! ### existence -/

theorem injOn {N : Nat} {x0 : Nat → K} (hx : DistinctNodes N x0) : Set.InjOn x0 (range N : Finset Nat) := by
  intro a ha b hb hab
  simp only [coe_range, Set.mem_Iio] at ha hb
  exact hx a ha b hb hab

theorem lip_cardinal (N : Nat) (x0 : Nat → K) (hx : DistinctNodes N x0) (i : Nat) (hi : i < N) :
    HermiteCardinal 1 N x0 i 0 (Lagrange.basis (range N) x0 i) := by
  refine ⟨?_, ?_⟩
  · rw [Lagrange.degree_basis (injOn hx) (mem_range.2 hi), card_range, one_mul]
    exact_mod_cast (by omega : N - 1 < N)
  · intro k hk d hd
    obtain rfl : d = 0 := by omega
    simp only [Function.iterate_zero, id_eq, and_true]
    split
    · next h => rw [h]; exact Lagrange.eval_basis_self (injOn hx) (mem_range.2 hi)
    · next h => exact Lagrange.eval_basis_of_ne (fun e => h e.symm) (mem_range.2 hk)

theorem dvd_dv_zero (h : K[X]) (a : K) (m d : Nat) (hd : d < m) (H : (X - C a) ^ m ∣ h) : dv h a d = 0 := by
  obtain ⟨q, rfl⟩ := H
  rw [dv_mul]
  unfold conv
  apply Finset.sum_eq_zero
  intro k hk
  have : dv ((X - C a) ^ m) a (d - k) = 0 := by
    unfold dv
    rw [iterate_derivative_X_sub_pow]
    simp only [nsmul_eq_mul, eval_mul, eval_pow, eval_sub, eval_X, eval_C, sub_self]
    rw [zero_pow (by omega), mul_zero]
  rw [this]; ring

theorem natDegree_cubic_le (c0 c1 c2 c3 a : K) (b : Nat) (h3 : b < 3 → c3 = 0) (h2 : b < 2 → c2 = 0)
    (h1 : b < 1 → c1 = 0) : (cubic c0 c1 c2 c3 a).natDegree ≤ b := by
  have hp (k : Nat) : ((X - C a : K[X]) ^ k).natDegree ≤ k := by
    refine le_trans natDegree_pow_le ?_
    simp
  have hc (c : K) (k : Nat) (h : b < k → c = 0) : (C c * (X - C a) ^ k : K[X]).natDegree ≤ b := by
    by_cases hk : b < k
    · rw [h hk]; simp
    · exact le_trans (natDegree_C_mul_le _ _) (le_trans (hp k) (by omega))
  unfold cubic
  refine natDegree_add_le_of_degree_le (natDegree_add_le_of_degree_le (natDegree_add_le_of_degree_le ?_ ?_) ?_) ?_
  · simp
  · simpa using hc c1 1 h1
  · exact hc c2 2 h2
  · exact hc c3 3 h3

theorem natDegree_qpoly_le (f : HermiteFam) (j : Nat) (p1 p2 p3 a : K) : (qpoly f j p1 p2 p3 a).natDegree ≤ f.m - 1 := by
  unfold qpoly
  apply natDegree_cubic_le
  all_goals
    unfold qcoef
    cases f <;> simp only [HermiteFam.m] <;> intro h
    all_goals first
      | omega
      | (split <;> simp_all)

theorem shape_cardinal [CharZero K] (f : HermiteFam) (N : Nat) (x0 : Nat → K) (hx : DistinctNodes N x0) (i j : Nat)
    (hi : i < N) (hj : j < f.m) : HermiteCardinal f.m N x0 i j (shape f N x0 i j) := by
  have hL := lip_cardinal N x0 hx i hi
  refine ⟨?_, ?_⟩
  · have h1 : (shape f N x0 i j).natDegree ≤ f.m * (N - 1) + (f.m - 1) := by
      unfold shape
      refine le_trans natDegree_mul_le (Nat.add_le_add ?_ (natDegree_qpoly_le _ _ _ _ _ _))
      refine le_trans natDegree_pow_le ?_
      rw [Lagrange.natDegree_basis (injOn hx) (mem_range.2 hi), card_range]
    have h2 : f.m * (N - 1) + (f.m - 1) < f.m * N := by
      obtain ⟨M, rfl⟩ : ∃ M, N = M + 1 := ⟨N - 1, by omega⟩
      simp only [Nat.add_sub_cancel, Nat.mul_add, Nat.mul_one]
      omega
    exact lt_of_le_of_lt degree_le_natDegree (by exact_mod_cast lt_of_le_of_lt h1 h2)
  · intro k hk d hd
    have hk0 := hL.2 k hk 0 (by omega)
    simp only [Function.iterate_zero, id_eq, and_true] at hk0
    by_cases hki : k = i
    · subst hki
      rw [if_pos rfl] at hk0
      have e : (derivative^[d] (shape f N x0 k j)).eval (x0 k) =
        conv (powConv f (dv (Lagrange.basis (range N) x0 k) (x0 k)))
          (dv (qpoly f j (dv (Lagrange.basis (range N) x0 k) (x0 k) 1) (dv (Lagrange.basis (range N) x0 k) (x0 k) 2)
            (dv (Lagrange.basis (range N) x0 k) (x0 k) 3) (x0 k)) (x0 k)) d := by
        change dv (shape f N x0 k j) (x0 k) d = _
        unfold shape
        simp only
        rw [dv_mul, dv_pow]
      rw [e]
      generalize hLd : dv (Lagrange.basis (range N) x0 k) (x0 k) = L
      have hL0 : L 0 = 1 := by rw [← hLd]; exact hk0
      unfold qpoly
      rw [dv_cubic]
      unfold powConv
      cases f with
      | hip =>
        simp only [HermiteFam.m] at hj hd
        interval_cases j <;> interval_cases d <;>
          simp [conv, cubicD, qcoef, Finset.sum_range_succ, hL0] <;> ring
      | hip2 =>
        simp only [HermiteFam.m] at hj hd
        interval_cases j <;> interval_cases d <;>
          simp [conv, cubicD, qcoef, Finset.sum_range_succ, hL0] <;> ring
      | hip3 =>
        simp only [HermiteFam.m] at hj hd
        interval_cases j <;> interval_cases d <;>
          simp [conv, cubicD, qcoef, Finset.sum_range_succ, hL0, Nat.choose] <;> ring
    · rw [if_neg (fun h => hki h.1)]
      rw [if_neg hki] at hk0
      apply dvd_dv_zero _ _ f.m d hd
      unfold shape
      exact Dvd.dvd.mul_right (pow_dvd_pow_of_dvd (dvd_iff_isRoot.2 hk0) _) _

end Poly
end HelFEM
