import Verif.Lemmas.Legendre
import Mathlib.Analysis.SpecialFunctions.Integrals.Basic
import Mathlib.Analysis.Calculus.Deriv.Polynomial
import Mathlib.LinearAlgebra.Lagrange
import Mathlib.Topology.Algebra.Polynomial

/-! Orthogonality of the Legendre polynomials and the Gauss-Lobatto rule. -/

namespace HelFEM
namespace Poly
open Finset Polynomial

/-- integral over the reference element -/
noncomputable def refInt (p : ℝ[X]) : ℝ := ∫ x in (-1 : ℝ)..1, p.eval x

theorem intble (p : ℝ[X]) : IntervalIntegrable (fun x => p.eval x) MeasureTheory.volume (-1) 1 :=
  (Polynomial.continuous p).intervalIntegrable _ _

theorem refInt_add (p q : ℝ[X]) : refInt (p + q) = refInt p + refInt q := by
  simp only [refInt, eval_add]
  exact intervalIntegral.integral_add (intble p) (intble q)

theorem refInt_sub (p q : ℝ[X]) : refInt (p - q) = refInt p - refInt q := by
  simp only [refInt, eval_sub]
  exact intervalIntegral.integral_sub (intble p) (intble q)

theorem refInt_C_mul (c : ℝ) (p : ℝ[X]) : refInt (C c * p) = c * refInt p := by
  simp only [refInt, eval_mul, eval_C]
  exact intervalIntegral.integral_const_mul _ _

theorem refInt_zero : refInt 0 = 0 := by simp [refInt]

theorem refInt_neg (p : ℝ[X]) : refInt (-p) = -refInt p := by
  have := refInt_sub 0 p
  rw [refInt_zero, zero_sub, zero_sub] at this
  exact this

theorem refInt_sum {ι : Type*} (s : Finset ι) (f : ι → ℝ[X]) : refInt (∑ i ∈ s, f i) = ∑ i ∈ s, refInt (f i) := by
  classical
  induction s using Finset.induction_on with
  | empty => simp [refInt_zero]
  | insert a s ha ih => rw [sum_insert ha, sum_insert ha, refInt_add, ih]

theorem refInt_derivative (p : ℝ[X]) : refInt (derivative p) = p.eval 1 - p.eval (-1) := by
  unfold refInt
  exact intervalIntegral.integral_eq_sub_of_hasDerivAt (fun x _ => p.hasDerivAt x) (intble _)

/-- integration by parts -/
theorem refInt_parts (p q : ℝ[X]) :
    refInt (derivative p * q) = (p * q).eval 1 - (p * q).eval (-1) - refInt (p * derivative q) := by
  have := refInt_derivative (p * q)
  rw [derivative_mul, refInt_add] at this
  linarith

theorem pP_rec (n : Nat) : C ((n : ℝ) + 2) * pP (n + 2) = C (2 * (n : ℝ) + 3) * (X * pP (n + 1)) - C ((n : ℝ) + 1) * pP n := by
  rw [show pP (n + 2) = C (1 / ((n + 1 + 1 : Nat) : ℝ)) * (C ((2 * (n + 1 : Nat) + 1 : Nat) : ℝ) * (X * pP (n + 1))
      - C ((n + 1 : Nat) : ℝ) * pP n) from rfl, ← mul_assoc, ← C_mul]
  have : ((n : ℝ) + 2) * (1 / ((n + 1 + 1 : Nat) : ℝ)) = 1 := by
    push_cast
    have : (n : ℝ) + 1 + 1 ≠ 0 := by positivity
    field_simp
    ring
  rw [this, C_1, one_mul]
  push_cast
  congr 3
  ring_nf

theorem C_ne {a : ℝ} (h : a ≠ 0) {p q : ℝ[X]} (hpq : C a * p = C a * q) : p = q :=
  mul_left_cancel₀ (C_ne_zero.2 h) hpq

theorem pP_AB (n : Nat) : derivative (pP (n + 1)) = X * derivative (pP n) + C ((n : ℝ) + 1) * pP n ∧
    X * derivative (pP (n + 1)) = derivative (pP n) + C ((n : ℝ) + 1) * pP (n + 1) := by
  induction n with
  | zero => simp [pP]
  | succ n ih =>
    obtain ⟨hA, hB⟩ := ih
    have hr := pP_rec n
    have hd := congrArg derivative hr
    simp only [derivative_mul, derivative_sub, derivative_C, derivative_X, zero_mul, zero_add, one_mul] at hd
    have hC : ∀ a b : ℝ, C (a + b) = C a + (C b : ℝ[X]) := fun a b => C_add
    have hM : ∀ a b : ℝ, C (a * b) = C a * (C b : ℝ[X]) := fun a b => C_mul
    simp only [hC, hM] at hr hd hA hB ⊢
    have h1 : (C (1 : ℝ) : ℝ[X]) = 1 := C_1
    have h2 : (C (2 : ℝ) : ℝ[X]) = 2 := rfl
    have h3 : (C (3 : ℝ) : ℝ[X]) = 3 := rfl
    simp only [h1, h2, h3] at hr hd hA hB ⊢
    push_cast
    simp only [hC, h1]
    have hA' : derivative (pP (n + 2)) = X * derivative (pP (n + 1)) + (C (n : ℝ) + 1 + 1) * pP (n + 1) := by
      apply C_ne (a := (n : ℝ) + 2) (by positivity)
      rw [hC, h2]
      linear_combination hd + (C (n : ℝ) + 1) * hB
    refine ⟨hA', ?_⟩
    linear_combination X * hA' - hr + X * hB - hA

theorem pP_q (n : Nat) : (1 - X ^ 2) * derivative (pP (n + 1)) = C ((n : ℝ) + 1) * (pP n - X * pP (n + 1)) := by
  obtain ⟨hA, hB⟩ := pP_AB n
  linear_combination hA - X * hB

theorem pP_ode (n : Nat) : derivative ((1 - X ^ 2) * derivative (pP n)) = -C ((n : ℝ) * (n + 1)) * pP n := by
  cases n with
  | zero => simp [pP]
  | succ n =>
    obtain ⟨hA, hB⟩ := pP_AB n
    rw [pP_q]
    simp only [derivative_mul, derivative_sub, derivative_C, derivative_X, zero_mul, zero_add, one_mul]
    push_cast
    simp only [C_add, C_mul, C_1] at hB ⊢
    linear_combination -(C (n : ℝ) + 1) * hB

theorem refInt_weighted (p q : ℝ[X]) : refInt ((1 - X ^ 2) * derivative p * q) =
    - refInt (p * derivative ((1 - X ^ 2) * q)) := by
  have := refInt_parts p ((1 - X ^ 2) * q)
  rw [show derivative p * ((1 - X ^ 2) * q) = (1 - X ^ 2) * derivative p * q by ring] at this
  rw [this]
  simp

theorem pP_orth (m n : Nat) (h : m ≠ n) : refInt (pP m * pP n) = 0 := by
  have key : ∀ a b, refInt (derivative ((1 - X ^ 2) * derivative (pP a)) * pP b) =
      - refInt ((1 - X ^ 2) * derivative (pP a) * derivative (pP b)) := by
    intro a b
    rw [refInt_parts]
    simp
  have h1 := key m n
  have h2 := key n m
  rw [pP_ode] at h1 h2
  rw [show (1 - X ^ 2) * derivative (pP n) * derivative (pP m) = (1 - X ^ 2) * derivative (pP m) * derivative (pP n) by ring] at h2
  rw [show -C ((m : ℝ) * (m + 1)) * pP m * pP n = C (-((m : ℝ) * (m + 1))) * (pP m * pP n) by simp [mul_assoc], refInt_C_mul] at h1
  rw [show -C ((n : ℝ) * (n + 1)) * pP n * pP m = C (-((n : ℝ) * (n + 1))) * (pP m * pP n) by simp; ring, refInt_C_mul] at h2
  have h3 : ((n : ℝ) * (n + 1) - m * (m + 1)) * refInt (pP m * pP n) = 0 := by linarith
  rcases mul_eq_zero.1 h3 with h4 | h4
  · exfalso
    have h5 : ((n : ℝ) - m) * (n + m + 1) = 0 := by linarith
    rcases mul_eq_zero.1 h5 with h6 | h6
    · apply h; have : (m : ℝ) = n := by linarith
      exact_mod_cast this
    · have : (0 : ℝ) < n + m + 1 := by positivity
      linarith
  · exact h4

theorem pP_norm (n : Nat) : refInt (pP n * pP n) = 2 / (2 * n + 1) := by
  induction n with
  | zero =>
    simp only [pP, refInt, mul_one, eval_one]
    simp; norm_num
  | succ n ih =>
    -- (2n+3) ∫ x P_{n+1} P_n = (n+1) ∫ P_n²
    have e1 : (2 * (n : ℝ) + 3) * refInt (X * pP (n + 1) * pP n) = (n + 1) * refInt (pP n * pP n) := by
      have h := congrArg (fun p => refInt (p * pP n)) (pP_rec n)
      simp only [sub_mul, mul_assoc, refInt_sub, refInt_C_mul] at h
      rw [pP_orth (n + 2) n (by omega), mul_zero] at h
      rw [mul_assoc]
      linarith
    -- (n+1) ∫ P_{n+1}² = (2n+1) ∫ x P_n P_{n+1}
    have e2 : ((n : ℝ) + 1) * refInt (pP (n + 1) * pP (n + 1)) = (2 * n + 1) * refInt (X * pP (n + 1) * pP n) := by
      cases n with
      | zero => simp [pP]
      | succ k =>
        have h := congrArg (fun p => refInt (p * pP (k + 2))) (pP_rec k)
        simp only [sub_mul, mul_assoc, refInt_sub, refInt_C_mul] at h
        rw [pP_orth k (k + 2) (by omega), mul_zero, sub_zero] at h
        push_cast
        rw [show X * pP (k + 1 + 1) * pP (k + 1) = X * (pP (k + 1) * pP (k + 2)) by ring]
        have e : ((k : ℝ) + 1 + 1) = k + 2 := by ring
        have e' : (2 * ((k : ℝ) + 1) + 1) = 2 * k + 3 := by ring
        rw [e, e', ← h]
    rw [ih] at e1
    have h3 : (2 * (n : ℝ) + 3) ≠ 0 := by positivity
    have h1 : (2 * (n : ℝ) + 1) ≠ 0 := by positivity
    have h0 : ((n : ℝ) + 1) ≠ 0 := by positivity
    have e3 : refInt (X * pP (n + 1) * pP n) = (n + 1) * (2 / (2 * n + 1)) / (2 * n + 3) := by
      field_simp at e1 ⊢
      linarith
    rw [e3] at e2
    push_cast
    have e4 : (2 * ((n : ℝ) + 1) + 1) = 2 * n + 3 := by ring
    rw [e4]
    field_simp at e2 ⊢
    linarith

theorem pP_orth_low (n k : Nat) (hk : k < n) (s : ℝ[X]) (hs : s.natDegree ≤ k) : refInt (pP n * s) = 0 := by
  induction k generalizing s with
  | zero =>
    rw [Polynomial.eq_C_of_natDegree_le_zero hs, mul_comm, refInt_C_mul]
    have := pP_orth n 0 (by omega)
    rw [show pP 0 = 1 from rfl, mul_one] at this
    rw [this, mul_zero]
  | succ k ih =>
    have hc := pP_coeff_pos (k + 1)
    set c := s.coeff (k + 1) / (pP (k + 1)).coeff (k + 1) with hcdef
    have hd : (s - C c * pP (k + 1)).natDegree ≤ k := by
      have h1 : (s - C c * pP (k + 1)).natDegree ≤ k + 1 :=
        le_trans (natDegree_sub_le _ _) (max_le hs (le_trans (natDegree_C_mul_le _ _) (pP_natDegree_le _)))
      rw [natDegree_le_iff_coeff_eq_zero]
      intro N hN
      by_cases h2 : N = k + 1
      · subst h2
        rw [coeff_sub, coeff_C_mul, hcdef]
        field_simp
        ring
      · exact coeff_eq_zero_of_natDegree_lt (by omega)
    have h := ih (by omega) _ hd
    rw [mul_sub, refInt_sub, show pP n * (C c * pP (k + 1)) = C c * (pP n * pP (k + 1)) by ring, refInt_C_mul,
      pP_orth n (k + 1) (by omega), mul_zero, sub_zero] at h
    exact h

theorem pP_proj (n : Nat) (s : ℝ[X]) (hs : s.natDegree ≤ n) :
    refInt (pP n * s) = s.coeff n / (pP n).coeff n * (2 / (2 * n + 1)) := by
  have hc := pP_coeff_pos n
  set c := s.coeff n / (pP n).coeff n with hcdef
  have h0 : refInt (pP n * (s - C c * pP n)) = 0 := by
    cases n with
    | zero =>
      have : s - C c * pP 0 = 0 := by
        rw [Polynomial.eq_C_of_natDegree_le_zero hs, hcdef]
        simp [pP]
      rw [this, mul_zero, refInt_zero]
    | succ k =>
      apply pP_orth_low (k + 1) k (by omega)
      have h1 : (s - C c * pP (k + 1)).natDegree ≤ k + 1 :=
        le_trans (natDegree_sub_le _ _) (max_le hs (le_trans (natDegree_C_mul_le _ _) (pP_natDegree_le _)))
      rw [natDegree_le_iff_coeff_eq_zero]
      intro N hN
      by_cases h2 : N = k + 1
      · subst h2
        rw [coeff_sub, coeff_C_mul, hcdef]
        field_simp
        ring
      · exact coeff_eq_zero_of_natDegree_lt (by omega)
  rw [mul_sub, refInt_sub, show pP n * (C c * pP n) = C c * (pP n * pP n) by ring, refInt_C_mul, pP_norm] at h0
  linarith

/-! ### Gauss-Lobatto -/

/-- the nodal polynomial of the Lobatto rule with `N + 1` nodes -/
noncomputable def qL (N : Nat) : ℝ[X] := (1 - X ^ 2) * derivative (pP N)

theorem qL_natDegree_le (N : Nat) (hN : 1 ≤ N) : (qL N).natDegree ≤ N + 1 := by
  unfold qL
  refine le_trans natDegree_mul_le ?_
  have h1 : (1 - X ^ 2 : ℝ[X]).natDegree ≤ 2 := by
    refine le_trans (natDegree_sub_le _ _) (max_le (by simp) (by simp))
  have h2 := natDegree_derivative_le (pP N)
  have h3 := pP_natDegree_le N
  omega

theorem qL_coeff (N : Nat) (hN : 1 ≤ N) : (qL N).coeff (N + 1) = -((N : ℝ) * (pP N).coeff N) := by
  obtain ⟨k, rfl⟩ : ∃ k, N = k + 1 := ⟨N - 1, by omega⟩
  unfold qL
  rw [sub_mul, one_mul, coeff_sub]
  have h1 : (derivative (pP (k + 1))).coeff (k + 1 + 1) = 0 := by
    apply coeff_eq_zero_of_natDegree_lt
    have h2 := natDegree_derivative_le (pP (k + 1))
    have h3 := pP_natDegree_le (k + 1)
    omega
  rw [h1, show k + 1 + 1 = k + 2 by ring, coeff_X_pow_mul, coeff_derivative]
  push_cast
  ring

theorem lobatto_g (N : Nat) (hN : 1 ≤ N) (a : ℝ) (ha : (qL N).eval a = 0) :
    ∃ g : ℝ[X], qL N = (X - C a) * g ∧ g.natDegree ≤ N ∧ g.eval a = -((N : ℝ) * (N + 1)) * (pP N).eval a ∧
      (pP N).eval a * refInt g = -2 := by
  obtain ⟨g, hg⟩ := dvd_iff_isRoot.2 (show IsRoot (qL N) a from ha)
  obtain ⟨h, hh⟩ := dvd_iff_isRoot.2 (show IsRoot (pP N - C ((pP N).eval a)) a by simp [IsRoot])
  have hkpos := pP_coeff_pos N
  have hq0 : qL N ≠ 0 := by
    intro h0
    have := qL_coeff N hN
    rw [h0, coeff_zero] at this
    have h1 : (0 : ℝ) < N := by exact_mod_cast hN
    have := mul_pos h1 hkpos
    linarith
  have hg0 : g ≠ 0 := by rintro rfl; rw [mul_zero] at hg; exact hq0 hg
  have hgd : g.natDegree ≤ N := by
    have h1 := congrArg natDegree hg
    rw [natDegree_mul (X_sub_C_ne_zero a) hg0, natDegree_X_sub_C] at h1
    have := qL_natDegree_le N hN
    omega
  have hgc : g.coeff N = -((N : ℝ) * (pP N).coeff N) := by
    rw [← qL_coeff N hN, hg, sub_mul, coeff_sub, coeff_X_mul, coeff_C_mul,
      coeff_eq_zero_of_natDegree_lt (lt_of_le_of_lt hgd (Nat.lt_succ_self N)), mul_zero, sub_zero]
  have hhd : h.natDegree ≤ N - 1 := by
    by_cases h0 : h = 0
    · simp [h0]
    have h1 := congrArg natDegree hh
    rw [natDegree_mul (X_sub_C_ne_zero a) h0, natDegree_X_sub_C] at h1
    have h2 : (pP N - C ((pP N).eval a)).natDegree ≤ N :=
      le_trans (natDegree_sub_le _ _) (max_le (pP_natDegree_le N) (by simp))
    omega
  have hhc : h.coeff (N - 1) = (pP N).coeff N := by
    obtain ⟨k, rfl⟩ : ∃ k, N = k + 1 := ⟨N - 1, by omega⟩
    have h1 := congrArg (fun p => coeff p (k + 1)) hh
    simp only [coeff_sub, sub_mul, coeff_X_mul, coeff_C_mul] at h1
    rw [coeff_C_succ, sub_zero, coeff_eq_zero_of_natDegree_lt (p := h) (n := k + 1) (by omega), mul_zero, sub_zero] at h1
    simp only [Nat.add_sub_cancel]
    exact h1.symm
  refine ⟨g, hg, hgd, ?_, ?_⟩
  · have h1 := congrArg (fun p => (derivative p).eval a) hg
    simp only [qL] at h1
    rw [pP_ode] at h1
    simp only [derivative_mul, derivative_sub, derivative_X, derivative_C, sub_zero, one_mul, eval_add, eval_mul, eval_sub,
      eval_X, eval_C, sub_self, zero_mul, add_zero, eval_neg] at h1
    exact h1.symm
  · have e1 : refInt (pP N * g) = -(2 * N / (2 * N + 1)) := by
      rw [pP_proj N g hgd, hgc]
      field_simp
    have hder : (derivative ((1 - X ^ 2) * h)).natDegree ≤ N := by
      refine le_trans (natDegree_derivative_le _) ?_
      have h1 : (1 - X ^ 2 : ℝ[X]).natDegree ≤ 2 :=
        le_trans (natDegree_sub_le _ _) (max_le (by simp) (by simp))
      have h2 : ((1 - X ^ 2 : ℝ[X]) * h).natDegree ≤ 2 + (N - 1) := le_trans natDegree_mul_le (by omega)
      omega
    have hderc : (derivative ((1 - X ^ 2) * h)).coeff N = -((N + 1) * (pP N).coeff N) := by
      rw [coeff_derivative, sub_mul, one_mul, coeff_sub, coeff_eq_zero_of_natDegree_lt (p := h) (n := N + 1) (by omega)]
      obtain ⟨k, rfl⟩ : ∃ k, N = k + 1 := ⟨N - 1, by omega⟩
      rw [show k + 1 + 1 = k + 2 by ring, coeff_X_pow_mul, ← hhc]
      simp only [Nat.add_sub_cancel]
      push_cast
      ring
    have e2 : refInt (qL N * h) = 2 * (N + 1) / (2 * N + 1) := by
      unfold qL
      rw [refInt_weighted, pP_proj N _ hder, hderc]
      field_simp
    have e3 : refInt (pP N * g) - (pP N).eval a * refInt g = refInt (qL N * h) := by
      rw [← refInt_C_mul, ← refInt_sub]
      congr 1
      rw [hg]
      linear_combination g * hh
    rw [e1, e2] at e3
    have hd : (2 * (N : ℝ) + 1) ≠ 0 := by positivity
    field_simp at e3
    have := mul_left_cancel₀ hd (b := (pP N).eval a * refInt g) (c := -2) (by linarith)
    exact this

theorem lobatto_exact (N : Nat) (hN : 1 ≤ N) (x : Nat → ℝ) (hx : ∀ i < N + 1, ∀ j < N + 1, x i = x j → i = j)
    (hr : ∀ i < N + 1, (qL N).eval (x i) = 0) (p : ℝ[X]) (hp : p.natDegree ≤ 2 * N - 1) :
    ∑ i ∈ range (N + 1), 2 / ((N : ℝ) * (N + 1) * (pP N).eval (x i) ^ 2) * p.eval (x i) = refInt p := by
  classical
  choose! g hg using fun i (hi : i < N + 1) => lobatto_g N hN (x i) (hr i hi)
  have hPne : ∀ i < N + 1, (pP N).eval (x i) ≠ 0 := by
    intro i hi h0
    have := (hg i hi).2.2.2
    rw [h0, zero_mul] at this
    norm_num at this
  have hN0 : (N : ℝ) ≠ 0 := by
    have : N ≠ 0 := by omega
    exact_mod_cast this
  have hN1 : (N : ℝ) + 1 ≠ 0 := by positivity
  have hgne : ∀ i < N + 1, (g i).eval (x i) ≠ 0 := by
    intro i hi
    rw [(hg i hi).2.2.1]
    exact mul_ne_zero (neg_ne_zero.2 (mul_ne_zero hN0 hN1)) (hPne i hi)
  have hq0 : qL N ≠ 0 := by
    intro h0
    have h2 := qL_coeff N hN
    rw [h0, coeff_zero] at h2
    have h1 : (0 : ℝ) < N := by exact_mod_cast hN
    have := mul_pos h1 (pP_coeff_pos N)
    linarith
  have hqdeg : (qL N).natDegree = N + 1 := by
    apply le_antisymm (qL_natDegree_le N hN)
    apply le_natDegree_of_ne_zero
    rw [qL_coeff N hN]
    exact neg_ne_zero.2 (mul_ne_zero hN0 (pP_coeff_pos N).ne')
  set r : ℝ[X] := ∑ i ∈ range (N + 1), C (p.eval (x i) / (g i).eval (x i)) * g i with hrdef
  have hmod : p % qL N = r := by
    apply eq_of_degrees_lt_of_eval_index_eq (s := range (N + 1)) (v := x)
    · intro i hi j hj h
      exact hx i (by simpa using hi) j (by simpa using hj) h
    · rw [card_range]
      refine lt_of_lt_of_le (degree_mod_lt p hq0) ?_
      rw [degree_eq_natDegree hq0, hqdeg]
    · rw [card_range, hrdef]
      refine lt_of_le_of_lt (degree_sum_le _ _) ?_
      rw [Finset.sup_lt_iff (by exact_mod_cast WithBot.bot_lt_coe (N + 1))]
      intro i hi
      rw [mem_range] at hi
      refine lt_of_le_of_lt degree_le_natDegree ?_
      exact_mod_cast lt_of_le_of_lt (le_trans (natDegree_C_mul_le _ _) (hg i hi).2.1) (Nat.lt_succ_self N)
    · intro j hj
      have hj' := mem_range.1 hj
      have h1 := congrArg (eval (x j)) (EuclideanDomain.div_add_mod p (qL N))
      rw [eval_add, eval_mul, hr j hj', zero_mul, zero_add] at h1
      rw [h1, hrdef, eval_finsetSum, Finset.sum_eq_single j]
      · rw [eval_mul, eval_C, div_mul_cancel₀ _ (hgne j hj')]
      · intro i hi hij
        rw [mem_range] at hi
        have h2 := hr j hj'
        rw [(hg i hi).1, eval_mul, eval_sub, eval_X, eval_C] at h2
        rcases mul_eq_zero.1 h2 with h3 | h3
        · exact absurd (hx i hi j hj' (by linarith)) hij
        · rw [eval_mul, h3, mul_zero]
      · intro h; exact absurd hj h
  have hdiv : refInt (qL N * (p / qL N)) = 0 := by
    by_cases hs : p / qL N = 0
    · rw [hs, mul_zero, refInt_zero]
    · have hle : degree (qL N) ≤ degree p := by
        by_contra hc
        exact hs ((Polynomial.div_eq_zero_iff hq0).2 (not_le.1 hc))
      have hdeg := degree_add_div hq0 hle
      have hp0 : p ≠ 0 := by rintro rfl; simp at hs
      rw [degree_eq_natDegree hq0, degree_eq_natDegree hs, degree_eq_natDegree hp0, hqdeg] at hdeg
      have hdeg' : N + 1 + (p / qL N).natDegree = p.natDegree := by exact_mod_cast hdeg
      unfold qL
      rw [refInt_weighted, pP_orth_low N (N - 1) (by omega), neg_zero]
      refine le_trans (natDegree_derivative_le _) ?_
      have h1 : (1 - X ^ 2 : ℝ[X]).natDegree ≤ 2 :=
        le_trans (natDegree_sub_le _ _) (max_le (by simp) (by simp))
      have h2 : ((1 - X ^ 2 : ℝ[X]) * (p / ((1 - X ^ 2) * derivative (pP N)))).natDegree ≤ 2 + (p / qL N).natDegree :=
        le_trans natDegree_mul_le (Nat.add_le_add_right h1 _)
      omega
  have hI : refInt p = refInt r := by
    conv_lhs => rw [← EuclideanDomain.div_add_mod p (qL N)]
    rw [refInt_add, hdiv, zero_add, hmod]
  rw [hI, hrdef, refInt_sum]
  apply Finset.sum_congr rfl
  intro i hi
  rw [mem_range] at hi
  have h1 := (hg i hi).2.2.1
  have h2 := (hg i hi).2.2.2
  have h3 := hPne i hi
  rw [refInt_C_mul, h1]
  have h4 : refInt (g i) = -2 / (pP N).eval (x i) := by
    field_simp
    linarith
  rw [h4]
  field_simp

end Poly
end HelFEM
