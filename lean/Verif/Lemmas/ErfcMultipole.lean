import Verif.Model.ErfcExpn
import Verif.Spec.Erfc
import Verif.Lemmas.LegendreOrtho
import Verif.Lemmas.Nucleus
import Mathlib.Analysis.SpecialFunctions.Trigonometric.DerivHyp
import Mathlib.Analysis.Calculus.ParametricIntervalIntegral
import Mathlib.Analysis.Calculus.MeanValue
import Mathlib.Data.Nat.Factorial.Basic
import Mathlib.Analysis.SpecialFunctions.Integrability.Basic
import Mathlib.Algebra.BigOperators.Intervals
import Mathlib.Tactic.FieldSimp
import Mathlib.Tactic.LinearCombination

/-! The general formula for the short-range kernel is the multipole integral. -/

namespace HelFEM
namespace Erfc
open Finset Polynomial Poly

/-! ### modified spherical Bessel functions -/

/-- modified spherical Bessel functions of the first kind -/
noncomputable def bes : Nat → ℝ → ℝ
  | 0, w => Real.sinh w / w
  | 1, w => Real.cosh w / w - Real.sinh w / w ^ 2
  | n + 2, w => bes n w - (2 * n + 3) / w * bes (n + 1) w

theorem bes_deriv (n : Nat) (w : ℝ) (hw : w ≠ 0) :
    HasDerivAt (bes n) (bes (n + 1) w + n / w * bes n w) w ∧ HasDerivAt (bes (n + 1)) (bes n w - (n + 2) / w * bes (n + 1) w) w := by
  have hid : HasDerivAt (fun w : ℝ => w) 1 w := hasDerivAt_id w
  induction n with
  | zero =>
    have hs := (Real.hasDerivAt_sinh w).div hid hw
    have hc := (Real.hasDerivAt_cosh w).div hid hw
    have hs2 := (Real.hasDerivAt_sinh w).div (hid.pow 2) (pow_ne_zero 2 hw)
    constructor
    · refine hs.congr_deriv ?_
      simp only [bes]
      field_simp
      push_cast
      ring
    · refine (hc.sub hs2).congr_deriv ?_
      simp only [bes, id, Pi.pow_apply]
      field_simp
      push_cast
      ring
  | succ n ih =>
    obtain ⟨h1, h2⟩ := ih
    have hrec : ∀ v, bes (n + 2) v = bes n v - (2 * n + 3) / v * bes (n + 1) v := fun v => rfl
    have h1' : HasDerivAt (bes (n + 1)) (bes (n + 2) w + ((n + 1 : Nat) : ℝ) / w * bes (n + 1) w) w := by
      refine h2.congr_deriv ?_
      rw [hrec]
      push_cast
      field_simp
      ring
    refine ⟨h1', ?_⟩
    have hinv : HasDerivAt (fun v : ℝ => (2 * (n : ℝ) + 3) / v) (-(2 * (n : ℝ) + 3) / w ^ 2) w := by
      refine ((hasDerivAt_const w (2 * (n : ℝ) + 3)).div hid hw).congr_deriv ?_
      simp
    have h3 : HasDerivAt (fun v => bes n v - (2 * n + 3) / v * bes (n + 1) v) _ w := h1.sub (hinv.mul h1')
    have h4 : HasDerivAt (bes (n + 2)) _ w := h3
    refine h4.congr_deriv ?_
    rw [show n + 1 + 1 = n + 2 from rfl, hrec]
    push_cast
    field_simp
    ring

/-- the derivative in terms of both neighbours -/
theorem bes_deriv_two (n : Nat) (w : ℝ) (hw : w ≠ 0) :
    HasDerivAt (bes (n + 1)) ((bes n w + bes (n + 2) w - bes (n + 1) w / w) / 2) w := by
  refine (bes_deriv n w hw).2.congr_deriv ?_
  have hrec : bes (n + 2) w = bes n w - (2 * n + 3) / w * bes (n + 1) w := rfl
  rw [hrec]
  field_simp
  ring

theorem bes_deriv_zero (w : ℝ) (hw : w ≠ 0) : HasDerivAt (bes 0) ((Real.cosh w / w + bes 1 w - bes 0 w / w) / 2) w := by
  refine (bes_deriv 0 w hw).1.congr_deriv ?_
  simp only [bes]
  push_cast
  field_simp
  ring

/-! ### the integral representation -/

theorem pP_diff (n : Nat) : derivative (pP (n + 2)) - derivative (pP n) = C (2 * (n : ℝ) + 3) * pP (n + 1) := by
  have h1 := (pP_AB (n + 1)).1
  have h2 := (pP_AB n).2
  have hC : ∀ a b : ℝ, C (a + b) = C a + (C b : ℝ[X]) := fun a b => C_add
  have hM : ∀ a b : ℝ, C (a * b) = C a * (C b : ℝ[X]) := fun a b => C_mul
  have h3 : (C (3 : ℝ) : ℝ[X]) = 3 := rfl
  have h4 : (C (2 : ℝ) : ℝ[X]) = 2 := rfl
  push_cast at h1
  simp only [hC, hM, C_1, h3, h4] at h1 h2 ⊢
  linear_combination h1 + h2

theorem parts (p : ℝ[X]) (w : ℝ) : (∫ x in (-1 : ℝ)..1, (derivative p).eval x * Real.exp (w * x)) =
    p.eval 1 * Real.exp w - p.eval (-1) * Real.exp (-w) - w * ∫ x in (-1 : ℝ)..1, p.eval x * Real.exp (w * x) := by
  have h : ∀ x ∈ Set.uIcc (-1 : ℝ) 1, HasDerivAt (fun x => p.eval x * Real.exp (w * x))
      ((derivative p).eval x * Real.exp (w * x) + w * (p.eval x * Real.exp (w * x))) x := by
    intro x _
    have h1 := p.hasDerivAt x
    have h2 : HasDerivAt (fun x => Real.exp (w * x)) (Real.exp (w * x) * w) x := by
      have := ((hasDerivAt_id x).const_mul w).exp
      simpa using this
    refine (h1.mul h2).congr_deriv ?_
    ring
  have := intervalIntegral.integral_eq_sub_of_hasDerivAt h (by apply Continuous.intervalIntegrable; fun_prop)
  rw [intervalIntegral.integral_add (by apply Continuous.intervalIntegrable; fun_prop) (by apply Continuous.intervalIntegrable; fun_prop),
    intervalIntegral.integral_const_mul] at this
  simp only [mul_one, mul_neg] at this
  linarith

theorem bes_integral (n : Nat) (w : ℝ) (hw : w ≠ 0) : (∫ x in (-1 : ℝ)..1, (pP n).eval x * Real.exp (w * x)) = 2 * bes n w := by
  induction n using two_step with
  | h0 =>
    have := parts (1 : ℝ[X]) w
    simp only [derivative_one, eval_zero, zero_mul, intervalIntegral.integral_zero, eval_one, one_mul] at this
    simp only [pP, eval_one, one_mul, bes]
    rw [Real.sinh_eq]
    field_simp
    linarith
  | h1 =>
    have := parts (1 : ℝ[X]) w
    simp only [derivative_one, eval_zero, zero_mul, intervalIntegral.integral_zero, eval_one, one_mul] at this
    have h2 := parts (X : ℝ[X]) w
    simp only [derivative_X, eval_one, eval_X, one_mul] at h2
    simp only [pP, eval_X, bes]
    rw [Real.sinh_eq, Real.cosh_eq]
    generalize (∫ x in (-1 : ℝ)..1, x * Real.exp (w * x)) = I1 at *
    generalize (∫ x in (-1 : ℝ)..1, Real.exp (w * x)) = I0 at *
    field_simp
    linear_combination w * h2 - this
  | h n ih1 ih2 =>
    have h1 := parts (pP (n + 2)) w
    have h2 := parts (pP n) w
    have h3 : (∫ x in (-1 : ℝ)..1, (derivative (pP (n + 2))).eval x * Real.exp (w * x)) - (∫ x in (-1 : ℝ)..1, (derivative (pP n)).eval x * Real.exp (w * x)) =
        (2 * n + 3) * ∫ x in (-1 : ℝ)..1, (pP (n + 1)).eval x * Real.exp (w * x) := by
      rw [← intervalIntegral.integral_sub (by apply Continuous.intervalIntegrable; fun_prop) (by apply Continuous.intervalIntegrable; fun_prop),
        ← intervalIntegral.integral_const_mul]
      congr 1
      funext x
      have := congrArg (eval x) (pP_diff n)
      simp only [eval_sub, eval_mul, eval_C] at this
      linear_combination Real.exp (w * x) * this
    simp only [pP_one, pP_neg_one, pow_add] at h1 h2
    rw [h1, h2, ih1, ih2] at h3
    have hrec : bes (n + 2) w = bes n w - (2 * n + 3) / w * bes (n + 1) w := rfl
    rw [hrec]
    field_simp
    linarith

/-! ### the explicit formula -/

/-- `(n+p)! / (p! (n-p)!)` -/
noncomputable def bc (n p : Nat) : ℝ := ((n + p).descFactorial (2 * p) : ℝ) / (p.factorial : ℝ)

theorem bc_zero (n p : Nat) (h : n < p) : bc n p = 0 := by
  unfold bc
  rw [Nat.descFactorial_eq_zero_iff_lt.2 (by omega)]
  simp

theorem bc_rec (n p : Nat) : bc (n + 2) (p + 1) = bc n (p + 1) + 2 * (2 * n + 3) * bc (n + 1) p := by
  unfold bc
  have h1 : (n + 2 + (p + 1)).descFactorial (2 * (p + 1)) = (n + p + 3) * ((n + p + 2) * (n + 1 + p).descFactorial (2 * p)) := by
    rw [show n + 2 + (p + 1) = n + p + 2 + 1 by ring, show 2 * (p + 1) = 2 * p + 1 + 1 by ring, Nat.succ_descFactorial_succ,
      show n + p + 2 = n + p + 1 + 1 by ring, Nat.succ_descFactorial_succ, show n + 1 + p = n + p + 1 by ring]
  have h2 : (n + (p + 1)).descFactorial (2 * (p + 1)) = (n + 1 + p - (2 * p + 1)) * ((n + 1 + p - 2 * p) * (n + 1 + p).descFactorial (2 * p)) := by
    rw [show n + (p + 1) = n + 1 + p by ring, show 2 * (p + 1) = 2 * p + 1 + 1 by ring, Nat.descFactorial_succ, Nat.descFactorial_succ]
  have h3 : (((n + 1 + p - (2 * p + 1)) * ((n + 1 + p - 2 * p) * (n + 1 + p).descFactorial (2 * p)) : Nat) : ℝ) =
      ((n : ℝ) - p) * (((n : ℝ) + 1 - p) * ((n + 1 + p).descFactorial (2 * p) : ℝ)) := by
    rcases lt_trichotomy p (n + 1) with h | h | h
    · rw [show n + 1 + p - (2 * p + 1) = n - p by omega, show n + 1 + p - 2 * p = n + 1 - p by omega]
      push_cast [Nat.cast_sub (show p ≤ n by omega), Nat.cast_sub (show p ≤ n + 1 by omega)]
      ring
    · subst h
      rw [show n + 1 + (n + 1) - 2 * (n + 1) = 0 by omega]
      push_cast
      ring
    · rw [Nat.descFactorial_eq_zero_iff_lt.2 (by omega)]
      simp
  rw [h1, h2, h3, Nat.factorial_succ]
  have : (p.factorial : ℝ) ≠ 0 := by exact_mod_cast Nat.factorial_ne_zero p
  push_cast
  field_simp
  ring

/-- reverse Bessel polynomial -/
noncomputable def th (n : Nat) (y : ℝ) : ℝ := ∑ p ∈ range (n + 1), bc n p * y ^ p

theorem th_ext (n N : Nat) (h : n ≤ N) (y : ℝ) : th n y = ∑ p ∈ range (N + 1), bc n p * y ^ p := by
  obtain ⟨c, rfl⟩ : ∃ c, N = n + c := ⟨N - n, by omega⟩
  induction c with
  | zero => rfl
  | succ c ih => rw [show n + (c + 1) + 1 = n + c + 1 + 1 by ring, sum_range_succ, ← ih (by omega), bc_zero n _ (by omega)]; simp

theorem th_rec (n : Nat) (y : ℝ) : th (n + 2) y = th n y + 2 * (2 * n + 3) * y * th (n + 1) y := by
  rw [th_ext n (n + 2) (by omega), th_ext (n + 2) (n + 2) le_rfl, sum_range_succ', sum_range_succ' (fun p => bc n p * y ^ p)]
  have h0 : ∀ m, bc m 0 = 1 := by intro m; simp [bc]
  rw [h0, h0, show th (n + 1) y = ∑ p ∈ range (n + 2), bc (n + 1) p * y ^ p from rfl]
  simp only [bc_rec, mul_sum]
  rw [add_right_comm, ← sum_add_distrib]
  congr 1
  apply sum_congr rfl
  intro p _
  ring

theorem bes_explicit (n : Nat) (w : ℝ) (hw : w ≠ 0) :
    bes n w = (Real.exp w * th n (-1 / (2 * w)) + (-1) ^ (n + 1) * Real.exp (-w) * th n (1 / (2 * w))) / (2 * w) := by
  have b11 : bc 1 1 = 2 := by norm_num [bc, Nat.descFactorial]
  have h0 : ∀ m, bc m 0 = 1 := by intro m; simp [bc]
  induction n using two_step with
  | h0 =>
    simp only [bes, th, sum_range_succ, range_zero, sum_empty, h0]
    rw [Real.sinh_eq]
    field_simp
    ring
  | h1 =>
    simp only [bes, th, sum_range_succ, range_zero, sum_empty, h0, b11]
    rw [Real.sinh_eq, Real.cosh_eq]
    field_simp
    ring
  | h n ih1 ih2 =>
    rw [bes, ih1, ih2, th_rec, th_rec]
    field_simp
    ring

theorem factorial_eq (n : Nat) : factorial n = n.factorial := by
  unfold factorial
  rcases n with _ | n
  · rfl
  induction n with
  | zero => rfl
  | succ n ih =>
    rw [show n + 1 + 1 - 1 = n + 1 by omega, List.range'_concat, List.foldl_append]
    rw [show n + 1 - 1 = n by omega] at ih
    rw [ih]
    simp only [List.foldl_cons, List.foldl_nil]
    rw [Nat.factorial_succ (n + 1)]
    ring

theorem foldl_add_range (f : Nat → ℝ) (n : Nat) : (List.range n).foldl (fun s p => s + f p) 0 = ∑ p ∈ range n, f p := by
  induction n with
  | zero => rfl
  | succ n ih => rw [List.range_succ, List.foldl_append, ih, sum_range_succ]; rfl

theorem foldl_add_range' (f : Nat → ℝ) (n : Nat) : (List.range' 1 n).foldl (fun s p => s + f p) 0 = ∑ p ∈ range n, f (p + 1) := by
  induction n with
  | zero => rfl
  | succ n ih =>
    rw [List.range'_concat, List.foldl_append, ih, sum_range_succ]
    simp [add_comm]

/-- `Fn` is a Gaussian times a modified Bessel function -/
theorem fn_eq (n : Nat) (Xi xi : ℝ) (h : Xi * xi ≠ 0) :
    fn n Xi xi = 2 / Real.sqrt Real.pi * (Real.exp (-(Xi ^ 2 + xi ^ 2)) * bes n (2 * Xi * xi)) := by
  unfold fn
  rw [foldl_add_range (fun p => (-1 / (4 * Xi * xi)) ^ (p + 1) * ((factorial (n + p) : ℝ) / ((factorial p : ℝ) * (factorial (n - p) : ℝ))) *
      ((-1) ^ (n - p) * Real.exp (-(Xi + xi) ^ 2) - Real.exp (-(Xi - xi) ^ 2)))]
  congr 1
  have hw : 2 * Xi * xi ≠ 0 := by
    rw [mul_assoc]; exact mul_ne_zero two_ne_zero h
  have e1 : Real.exp (-(Xi + xi) ^ 2) = Real.exp (-(Xi ^ 2 + xi ^ 2)) * Real.exp (-(2 * Xi * xi)) := by
    rw [← Real.exp_add]; congr 1; ring
  have e2 : Real.exp (-(Xi - xi) ^ 2) = Real.exp (-(Xi ^ 2 + xi ^ 2)) * Real.exp (2 * Xi * xi) := by
    rw [← Real.exp_add]; congr 1; ring
  rw [bes_explicit n _ hw, e1, e2]
  generalize Real.exp (-(Xi ^ 2 + xi ^ 2)) = g
  generalize Real.exp (-(2 * Xi * xi)) = em
  generalize Real.exp (2 * Xi * xi) = ep
  have hy : -1 / (4 * Xi * xi) = -1 / (2 * (2 * Xi * xi)) := by ring
  rw [hy]
  generalize 2 * Xi * xi = w at hw
  unfold th
  rw [mul_sum, mul_sum, ← sum_add_distrib, sum_div, mul_sum]
  apply sum_congr rfl
  intro p hp
  have hp := mem_range.1 hp
  have hb : (factorial (n + p) : ℝ) / ((factorial p : ℝ) * (factorial (n - p) : ℝ)) = bc n p := by
    rw [factorial_eq, factorial_eq, factorial_eq]
    unfold bc
    have := Nat.factorial_mul_descFactorial (show 2 * p ≤ n + p by omega)
    rw [show n + p - 2 * p = n - p by omega] at this
    have h1 : (p.factorial : ℝ) ≠ 0 := by exact_mod_cast Nat.factorial_ne_zero p
    have h2 : ((n - p).factorial : ℝ) ≠ 0 := by exact_mod_cast Nat.factorial_ne_zero _
    rw [← this]
    push_cast
    field_simp
  rw [hb]
  obtain ⟨q, rfl⟩ : ∃ q, n = p + q := ⟨n - p, by omega⟩
  rw [show p + q - p = q by omega]
  have s1 : (-1 : ℝ) ^ (p + q + 1) * (1 / (2 * w)) ^ p = -((-1) ^ q * (-1 / (2 * w)) ^ p) := by
    rw [show (-1 : ℝ) / (2 * w) = -1 * (1 / (2 * w)) by ring, mul_pow, pow_succ, pow_add]
    ring
  have s2 : (-1 / (2 * w)) ^ (p + 1) = -((-1 / (2 * w)) ^ p) / (2 * w) := by
    rw [pow_succ]; ring
  rw [s2]
  generalize (-1 / (2 * w)) ^ p = y at *
  generalize (-1 : ℝ) ^ q = z at *
  have : (-1 : ℝ) ^ (p + q + 1) * em * (bc (p + q) p * (1 / (2 * w)) ^ p) = -(z * y) * em * bc (p + q) p := by
    rw [← s1]; ring
  rw [this]
  ring

/-! ### the derivative along rays -/

/-- the ratios `(Ξ/ξ)^m + (ξ/Ξ)^m` -/
noncomputable def cc (Xi xi : ℝ) (m : Nat) : ℝ := (Xi ^ m * Xi ^ m + xi ^ m * xi ^ m) / (Xi ^ m * xi ^ m)

theorem cc_rec (Xi xi : ℝ) (hX : Xi ≠ 0) (hx : xi ≠ 0) (m : Nat) : cc Xi xi 1 * cc Xi xi (m + 1) = cc Xi xi (m + 2) + cc Xi xi m := by
  unfold cc
  field_simp
  ring

theorem telescope (c β : Nat → ℝ) (h0 : c 0 = 2) (hc : ∀ m, c 1 * c (m + 1) = c (m + 2) + c m) (n M : Nat) (hM : M ≤ n) :
    (β n + β (n + 2) - c 1 * β (n + 1)) + ∑ m ∈ range M, c (m + 1) * (β (n - m - 1) + β (n - m + 1) - c 1 * β (n - m)) =
      β (n + 2) - β n + c M * β (n - M) - c (M + 1) * β (n + 1 - M) := by
  induction M with
  | zero => simp [h0]; ring
  | succ M ih =>
    rw [sum_range_succ, ← add_assoc, ih (by omega), show n - (M + 1) = n - M - 1 by omega, show n + 1 - (M + 1) = n - M by omega,
      show n + 1 - M = n - M + 1 by omega]
    linear_combination -β (n - M) * hc M

/-- the Bessel functions with the one of order -1 in front -/
noncomputable def bet (u : ℝ) : Nat → ℝ
  | 0 => Real.cosh u / u
  | k + 1 => bes k u

theorem bes_deriv_bet (k : Nat) (u : ℝ) (hu : u ≠ 0) : HasDerivAt (bes k) ((bet u k + bet u (k + 2) - bes k u / u) / 2) u := by
  rcases k with _ | k
  · exact bes_deriv_zero u hu
  · exact bes_deriv_two k u hu

theorem bet_rec (n : Nat) (u : ℝ) (hu : u ≠ 0) : u * (bet u (n + 2) - bet u n) = -(2 * n + 1) * bes n u := by
  rcases n with _ | n
  · simp only [bet, bes]
    field_simp
    push_cast
    ring
  · simp only [bet]
    rw [bes]
    push_cast
    field_simp
    ring

noncomputable def sS (c : Nat → ℝ) (n : Nat) (u : ℝ) : ℝ := bes n u + ∑ m ∈ range n, c (m + 1) * bes (n - (m + 1)) u

theorem sS_deriv (c : Nat → ℝ) (h0 : c 0 = 2) (hc : ∀ m, c 1 * c (m + 1) = c (m + 2) + c m) (n : Nat) (u : ℝ) (hu : u ≠ 0) :
    ∃ d, HasDerivAt (sS c n) d u ∧ 2 * u * d + sS c n u - u * c 1 * sS c n u =
      -(2 * n + 1) * bes n u + c n * Real.cosh u - c (n + 1) * Real.sinh u := by
  refine ⟨_, (bes_deriv_bet n u hu).add (HasDerivAt.fun_sum fun m _ => (bes_deriv_bet (n - (m + 1)) u hu).const_mul (c (m + 1))), ?_⟩
  have h := telescope c (bet u) h0 hc n n le_rfl
  have h1 := bet_rec n u hu
  have e : ∑ m ∈ range n, c (m + 1) * (bet u (n - m - 1) + bet u (n - m + 1) - c 1 * bet u (n - m)) =
      ∑ m ∈ range n, c (m + 1) * (bet u (n - (m + 1)) + bet u (n - (m + 1) + 2) - c 1 * bes (n - (m + 1)) u) := by
    apply sum_congr rfl
    intro m hm
    have hm := mem_range.1 hm
    rw [show n - m - 1 = n - (m + 1) by omega, show n - m + 1 = n - (m + 1) + 2 by omega, show n - m = n - (m + 1) + 1 by omega]
    rfl
  rw [e, Nat.sub_self, show n + 1 - n = 1 by omega] at h
  have e2 : 2 * u * ((bet u n + bet u (n + 2) - bes n u / u) / 2 +
      ∑ m ∈ range n, c (m + 1) * ((bet u (n - (m + 1)) + bet u (n - (m + 1) + 2) - bes (n - (m + 1)) u / u) / 2)) + sS c n u - u * c 1 * sS c n u =
      u * ((bet u n + bet u (n + 2) - c 1 * bet u (n + 1)) +
        ∑ m ∈ range n, c (m + 1) * (bet u (n - (m + 1)) + bet u (n - (m + 1) + 2) - c 1 * bes (n - (m + 1)) u)) := by
    unfold sS
    have e3 : ∑ m ∈ range n, c (m + 1) * (bet u (n - (m + 1)) + bet u (n - (m + 1) + 2) - c 1 * bes (n - (m + 1)) u) =
        2 * (∑ m ∈ range n, c (m + 1) * ((bet u (n - (m + 1)) + bet u (n - (m + 1) + 2) - bes (n - (m + 1)) u / u) / 2)) +
          (1 / u - c 1) * ∑ m ∈ range n, c (m + 1) * bes (n - (m + 1)) u := by
      rw [mul_sum, mul_sum, ← sum_add_distrib]
      apply sum_congr rfl
      intro m _
      ring
    rw [e3, show bet u (n + 1) = bes n u from rfl]
    field_simp
    ring
  rw [e2, h]
  have hb0 : bet u 0 = Real.cosh u / u := rfl
  have hb1 : bet u 1 = Real.sinh u / u := rfl
  rw [hb0, hb1]
  have : u * (bet u (n + 2) - bet u n + c n * (Real.cosh u / u) - c (n + 1) * (Real.sinh u / u)) =
      u * (bet u (n + 2) - bet u n) + c n * Real.cosh u - c (n + 1) * Real.sinh u := by
    field_simp
  rw [this, h1]

open Filter Topology

theorem erfc_deriv (x : ℝ) : HasDerivAt Spec.erfc (-(2 / Real.sqrt Real.pi * Real.exp (-x ^ 2))) x := by
  unfold Spec.erfc
  exact (Nucleus.hasDerivAt_erf x).const_sub 1

theorem erfc_tendsto : Tendsto Spec.erfc atTop (𝓝 0) := by
  unfold Spec.erfc
  have := Nucleus.tendsto_erf.const_sub 1
  rwa [sub_self] at this

theorem erfc_cont : Continuous Spec.erfc := continuous_iff_continuousAt.2 fun x => (erfc_deriv x).continuousAt

theorem erfc_nonneg (x : ℝ) (hx : 0 ≤ x) : 0 ≤ Spec.erfc x := by
  have := Nucleus.erf_le_one x hx
  unfold Spec.erfc; linarith

theorem erfc_anti : Antitone Spec.erfc := by
  apply antitone_of_deriv_nonpos (fun x => (erfc_deriv x).differentiableAt)
  intro x
  rw [(erfc_deriv x).deriv]
  have : 0 ≤ 2 / Real.sqrt Real.pi * Real.exp (-x ^ 2) := by positivity
  linarith

/-- `t` times the general formula at `(tΞ, tξ)` -/
noncomputable def gG (n : Nat) (Xi xi t : ℝ) : ℝ :=
  2 / Real.sqrt Real.pi * (t * Real.exp (-(t ^ 2 * (Xi ^ 2 + xi ^ 2))) * sS (cc Xi xi) n (t ^ 2 * (2 * Xi * xi))) +
    ((Xi ^ (2 * n + 1) + xi ^ (2 * n + 1)) / (2 * (xi * Xi) ^ (n + 1)) * Spec.erfc (t * (Xi + xi)) -
      (Xi ^ (2 * n + 1) - xi ^ (2 * n + 1)) / (2 * (xi * Xi) ^ (n + 1)) * Spec.erfc (t * (Xi - xi)))

theorem gG_deriv (n : Nat) (Xi xi t : ℝ) (hx : 0 < xi) (hX : 0 < Xi) (ht : 0 < t) :
    HasDerivAt (gG n Xi xi) (-(2 / Real.sqrt Real.pi * Real.exp (-(t ^ 2 * (Xi ^ 2 + xi ^ 2))) * ((2 * n + 1) * bes n (t ^ 2 * (2 * Xi * xi))))) t := by
  have hu : t ^ 2 * (2 * Xi * xi) ≠ 0 := by positivity
  obtain ⟨d, hd, hS⟩ := sS_deriv (cc Xi xi) (by unfold cc; norm_num) (cc_rec Xi xi hX.ne' hx.ne') n _ hu
  have hid : HasDerivAt (fun t : ℝ => t) 1 t := hasDerivAt_id t
  have hsq : HasDerivAt (fun t : ℝ => t ^ 2 * (2 * Xi * xi)) (2 * t * (2 * Xi * xi)) t := by
    refine ((hid.pow 2).mul_const _).congr_deriv ?_
    simp
  have hE : HasDerivAt (fun t : ℝ => Real.exp (-(t ^ 2 * (Xi ^ 2 + xi ^ 2)))) (Real.exp (-(t ^ 2 * (Xi ^ 2 + xi ^ 2))) * -(2 * t * (Xi ^ 2 + xi ^ 2))) t := by
    refine (((hid.pow 2).mul_const (Xi ^ 2 + xi ^ 2)).neg.exp).congr_deriv ?_
    simp
  have hSt : HasDerivAt (fun t : ℝ => sS (cc Xi xi) n (t ^ 2 * (2 * Xi * xi))) (d * (2 * t * (2 * Xi * xi))) t :=
    HasDerivAt.comp (h₂ := sS (cc Xi xi) n) (h := fun t : ℝ => t ^ 2 * (2 * Xi * xi)) t hd hsq
  have he : ∀ v : ℝ, HasDerivAt (fun t : ℝ => Spec.erfc (t * v)) (-(2 / Real.sqrt Real.pi * Real.exp (-(t * v) ^ 2)) * v) t := by
    intro v
    have hv : HasDerivAt (fun t : ℝ => t * v) v t := by simpa using hid.mul_const v
    exact HasDerivAt.comp (h₂ := Spec.erfc) (h := fun t : ℝ => t * v) t (erfc_deriv (t * v)) hv
  have e1 : Real.exp (-(t * (Xi + xi)) ^ 2) = Real.exp (-(t ^ 2 * (Xi ^ 2 + xi ^ 2))) * Real.exp (-(t ^ 2 * (2 * Xi * xi))) := by
    rw [← Real.exp_add]; congr 1; ring
  have e2 : Real.exp (-(t * (Xi - xi)) ^ 2) = Real.exp (-(t ^ 2 * (Xi ^ 2 + xi ^ 2))) * Real.exp (t ^ 2 * (2 * Xi * xi)) := by
    rw [← Real.exp_add]; congr 1; ring
  have hall := (((hid.mul hE).mul hSt).const_mul (2 / Real.sqrt Real.pi)).add
    (((he (Xi + xi)).const_mul ((Xi ^ (2 * n + 1) + xi ^ (2 * n + 1)) / (2 * (xi * Xi) ^ (n + 1)))).sub
      ((he (Xi - xi)).const_mul ((Xi ^ (2 * n + 1) - xi ^ (2 * n + 1)) / (2 * (xi * Xi) ^ (n + 1)))))
  have ha : (Xi ^ (2 * n + 1) + xi ^ (2 * n + 1)) / (2 * (xi * Xi) ^ (n + 1)) * (Xi + xi) = (cc Xi xi (n + 1) + cc Xi xi n) / 2 := by
    unfold cc
    field_simp
    ring
  have hb : (Xi ^ (2 * n + 1) - xi ^ (2 * n + 1)) / (2 * (xi * Xi) ^ (n + 1)) * (Xi - xi) = (cc Xi xi (n + 1) - cc Xi xi n) / 2 := by
    unfold cc
    field_simp
    ring
  have hc1 : t ^ 2 * (2 * Xi * xi) * cc Xi xi 1 = 2 * t ^ 2 * (Xi ^ 2 + xi ^ 2) := by
    unfold cc
    field_simp
  refine HasDerivAt.congr_deriv (f := gG n Xi xi) hall ?_
  rw [e1, e2]
  rw [Real.cosh_eq, Real.sinh_eq] at hS
  simp only [Pi.mul_apply]
  generalize Real.exp (-(t ^ 2 * (Xi ^ 2 + xi ^ 2))) = g
  generalize Real.exp (-(t ^ 2 * (2 * Xi * xi))) = em at *
  generalize Real.exp (t ^ 2 * (2 * Xi * xi)) = ep at *
  generalize sS (cc Xi xi) n (t ^ 2 * (2 * Xi * xi)) = S at *
  generalize bes n (t ^ 2 * (2 * Xi * xi)) = B at *
  generalize (Xi ^ (2 * n + 1) + xi ^ (2 * n + 1)) / (2 * (xi * Xi) ^ (n + 1)) = a at *
  generalize (Xi ^ (2 * n + 1) - xi ^ (2 * n + 1)) / (2 * (xi * Xi) ^ (n + 1)) = b at *
  generalize 2 / Real.sqrt Real.pi = k
  linear_combination (k * g) * hS - k * g * em * ha + k * g * ep * hb + k * g * S * hc1

/-! ### the multipole integral along rays -/

theorem pP_bound (n : Nat) : ∃ K : ℝ, 0 < K ∧ ∀ x ∈ Set.Icc (-1 : ℝ) 1, |(pP n).eval x| ≤ K := by
  obtain ⟨K, hK⟩ := isCompact_Icc.exists_bound_of_continuousOn (s := Set.Icc (-1 : ℝ) 1) (f := fun x => (pP n).eval x)
    (by fun_prop)
  refine ⟨max K 1, by positivity, fun x hx => ?_⟩
  exact (hK x hx).trans (le_max_left _ _)

theorem bes_bound (n : Nat) : ∃ K : ℝ, 0 < K ∧ ∀ u : ℝ, 0 < u → |bes n u| ≤ K * Real.exp u := by
  obtain ⟨K, hK, hb⟩ := pP_bound n
  refine ⟨K, hK, fun u hu => ?_⟩
  have h := intervalIntegral.norm_integral_le_of_norm_le_const (a := (-1 : ℝ)) (b := 1) (C := K * Real.exp u)
    (f := fun x => (pP n).eval x * Real.exp (u * x)) (by
      intro x hx
      rw [Set.uIoc_of_le (by norm_num)] at hx
      rw [norm_mul, Real.norm_eq_abs, Real.norm_eq_abs, Real.abs_exp]
      have : Real.exp (u * x) ≤ Real.exp u := Real.exp_le_exp.2 (by nlinarith [hx.2])
      exact mul_le_mul (hb x ⟨hx.1.le, hx.2⟩) this (Real.exp_pos _).le hK.le)
  rw [bes_integral n u hu.ne', Real.norm_eq_abs, abs_mul] at h
  norm_num at h
  linarith

theorem exp_gauss_tendsto (d : ℝ) (hd : 0 < d) : Tendsto (fun t : ℝ => t * Real.exp (-(t ^ 2 * d))) atTop (𝓝 0) := by
  have h : Tendsto (fun t : ℝ => (d * t)⁻¹) atTop (𝓝 0) :=
    tendsto_inv_atTop_zero.comp (Tendsto.const_mul_atTop hd tendsto_id)
  refine squeeze_zero' (by filter_upwards [eventually_gt_atTop 0] with t ht; positivity) ?_ h
  filter_upwards [eventually_gt_atTop 0] with t ht
  rw [Real.exp_neg, inv_eq_one_div, inv_eq_one_div, mul_one_div, div_le_div_iff₀ (Real.exp_pos _) (by positivity)]
  have := Real.add_one_le_exp (t ^ 2 * d)
  nlinarith

theorem gG_tendsto (n : Nat) (Xi xi : ℝ) (hx : 0 < xi) (h : xi < Xi) : Tendsto (gG n Xi xi) atTop (𝓝 0) := by
  have hX := hx.trans h
  have hd : 0 < (Xi - xi) ^ 2 := by have := sub_pos.2 h; positivity
  have hone : ∀ k : Nat, Tendsto (fun t : ℝ => t * Real.exp (-(t ^ 2 * (Xi ^ 2 + xi ^ 2))) * bes k (t ^ 2 * (2 * Xi * xi))) atTop (𝓝 0) := by
    intro k
    obtain ⟨K, hK, hb⟩ := bes_bound k
    have h2 := (exp_gauss_tendsto _ hd).const_mul K
    rw [mul_zero] at h2
    refine squeeze_zero_norm' ?_ h2
    filter_upwards [eventually_gt_atTop 0] with t ht
    rw [norm_mul, norm_mul, Real.norm_eq_abs, Real.norm_eq_abs, Real.norm_eq_abs, Real.abs_exp, abs_of_pos ht]
    have h3 := hb (t ^ 2 * (2 * Xi * xi)) (by positivity)
    have e : Real.exp (-(t ^ 2 * (Xi - xi) ^ 2)) = Real.exp (-(t ^ 2 * (Xi ^ 2 + xi ^ 2))) * Real.exp (t ^ 2 * (2 * Xi * xi)) := by
      rw [← Real.exp_add]; congr 1; ring
    rw [e]
    calc t * Real.exp (-(t ^ 2 * (Xi ^ 2 + xi ^ 2))) * |bes k (t ^ 2 * (2 * Xi * xi))|
        ≤ t * Real.exp (-(t ^ 2 * (Xi ^ 2 + xi ^ 2))) * (K * Real.exp (t ^ 2 * (2 * Xi * xi))) := by gcongr
      _ = K * (t * (Real.exp (-(t ^ 2 * (Xi ^ 2 + xi ^ 2))) * Real.exp (t ^ 2 * (2 * Xi * xi)))) := by ring
  have hS : Tendsto (fun t : ℝ => t * Real.exp (-(t ^ 2 * (Xi ^ 2 + xi ^ 2))) * sS (cc Xi xi) n (t ^ 2 * (2 * Xi * xi))) atTop (𝓝 0) := by
    have h1 := (hone n).add (tendsto_finsetSum (range n) fun m _ => (hone (n - (m + 1))).const_mul (cc Xi xi (m + 1)))
    simp only [mul_zero, sum_const_zero, add_zero] at h1
    refine h1.congr fun t => ?_
    unfold sS
    generalize t * Real.exp (-(t ^ 2 * (Xi ^ 2 + xi ^ 2))) = q
    rw [mul_add, mul_sum]
    congr 1
    apply sum_congr rfl
    intro m _
    ring
  have he : ∀ v : ℝ, 0 < v → Tendsto (fun t : ℝ => Spec.erfc (t * v)) atTop (𝓝 0) := fun v hv =>
    erfc_tendsto.comp (Tendsto.atTop_mul_const hv tendsto_id)
  have := (hS.const_mul (2 / Real.sqrt Real.pi)).add (((he (Xi + xi) (by linarith)).const_mul ((Xi ^ (2 * n + 1) + xi ^ (2 * n + 1)) / (2 * (xi * Xi) ^ (n + 1)))).sub
    ((he (Xi - xi) (by linarith)).const_mul ((Xi ^ (2 * n + 1) - xi ^ (2 * n + 1)) / (2 * (xi * Xi) ^ (n + 1)))))
  simp only [mul_zero, sub_zero, add_zero] at this
  exact this

noncomputable def jJ (n : Nat) (Xi xi t : ℝ) : ℝ :=
  ∫ x in (-1 : ℝ)..1, (pP n).eval x * (Spec.erfc (t * Spec.distance Xi xi x) / Spec.distance Xi xi x)

theorem distance_cont (Xi xi : ℝ) : Continuous (Spec.distance Xi xi) := by
  unfold Spec.distance
  fun_prop

theorem distance_ge (Xi xi x : ℝ) (hx : 0 ≤ xi) (h : xi ≤ Xi) (hx1 : x ≤ 1) : Xi - xi ≤ Spec.distance Xi xi x := by
  unfold Spec.distance
  apply Real.le_sqrt_of_sq_le
  nlinarith [mul_nonneg (mul_nonneg (hx.trans h) hx) (sub_nonneg.2 hx1)]

theorem jJ_integrand_cont (n : Nat) (Xi xi t : ℝ) (hx : 0 < xi) (h : xi < Xi) :
    ContinuousOn (fun x => (pP n).eval x * (Spec.erfc (t * Spec.distance Xi xi x) / Spec.distance Xi xi x)) (Set.Icc (-1) 1) := by
  have hd := distance_cont Xi xi
  have he := erfc_cont
  apply ContinuousOn.mul (by fun_prop)
  apply ContinuousOn.div (by fun_prop) (by fun_prop)
  intro x hx1
  have := distance_ge Xi xi x hx.le h.le hx1.2
  have := sub_pos.2 h
  linarith

theorem jJ_deriv (n : Nat) (Xi xi t : ℝ) (hx : 0 < xi) (h : xi < Xi) (ht : 0 < t) :
    HasDerivAt (jJ n Xi xi) (-(2 / Real.sqrt Real.pi * Real.exp (-(t ^ 2 * (Xi ^ 2 + xi ^ 2))) * (2 * bes n (t ^ 2 * (2 * Xi * xi))))) t := by
  obtain ⟨K, hK, hb⟩ := pP_bound n
  have hX := hx.trans h
  have hdc := distance_cont Xi xi
  have hec := erfc_cont
  have hu : Set.uIoc (-1 : ℝ) 1 = Set.Ioc (-1) 1 := Set.uIoc_of_le (by norm_num)
  have hint : ∀ t, IntervalIntegrable (fun x => (pP n).eval x * (Spec.erfc (t * Spec.distance Xi xi x) / Spec.distance Xi xi x)) MeasureTheory.volume (-1) 1 := by
    intro t
    apply ContinuousOn.intervalIntegrable
    rw [Set.uIcc_of_le (by norm_num)]
    exact jJ_integrand_cont n Xi xi t hx h
  have hF' : Continuous fun x => (pP n).eval x * -(2 / Real.sqrt Real.pi * Real.exp (-(t * Spec.distance Xi xi x) ^ 2)) := by fun_prop
  have key := (intervalIntegral.hasDerivAt_integral_of_dominated_loc_of_deriv_le (μ := MeasureTheory.volume) (a := -1) (b := 1) (x₀ := t) (s := Set.univ)
    (F := fun t x => (pP n).eval x * (Spec.erfc (t * Spec.distance Xi xi x) / Spec.distance Xi xi x))
    (F' := fun t x => (pP n).eval x * -(2 / Real.sqrt Real.pi * Real.exp (-(t * Spec.distance Xi xi x) ^ 2)))
    (bound := fun _ => K * (2 / Real.sqrt Real.pi)) Filter.univ_mem
    (Eventually.of_forall fun t => by
      have := (hint t).1.aestronglyMeasurable
      rw [hu]; exact this)
    (hint t) hF'.aestronglyMeasurable
    (Eventually.of_forall fun x hx' t _ => by
      rw [hu] at hx'
      rw [norm_mul, norm_neg, Real.norm_eq_abs, Real.norm_eq_abs]
      have h1 : |2 / Real.sqrt Real.pi * Real.exp (-(t * Spec.distance Xi xi x) ^ 2)| ≤ 2 / Real.sqrt Real.pi := by
        rw [abs_of_nonneg (by positivity)]
        have : Real.exp (-(t * Spec.distance Xi xi x) ^ 2) ≤ 1 := Real.exp_le_one_iff.2 (by nlinarith [sq_nonneg (t * Spec.distance Xi xi x)])
        have h2 : 0 ≤ 2 / Real.sqrt Real.pi := by positivity
        nlinarith
      exact mul_le_mul (hb x ⟨hx'.1.le, hx'.2⟩) h1 (abs_nonneg _) hK.le)
    intervalIntegrable_const
    (Eventually.of_forall fun x hx' t _ => by
      rw [hu] at hx'
      have hpos : Spec.distance Xi xi x ≠ 0 := by
        have := distance_ge Xi xi x hx.le h.le hx'.2
        have := sub_pos.2 h
        linarith
      have hv : HasDerivAt (fun t : ℝ => t * Spec.distance Xi xi x) (Spec.distance Xi xi x) t := by
        simpa using (hasDerivAt_id t).mul_const (Spec.distance Xi xi x)
      have := HasDerivAt.comp (h₂ := Spec.erfc) (h := fun t : ℝ => t * Spec.distance Xi xi x) t (erfc_deriv (t * Spec.distance Xi xi x)) hv
      refine ((this.div_const _).const_mul _).congr_deriv ?_
      field_simp)).2
  refine HasDerivAt.congr_deriv (f := jJ n Xi xi) key ?_
  have hw : t ^ 2 * (2 * Xi * xi) ≠ 0 := by positivity
  rw [← bes_integral n _ hw]
  rw [← neg_mul, ← intervalIntegral.integral_const_mul]
  apply intervalIntegral.integral_congr
  intro x hx'
  rw [Set.uIcc_of_le (by norm_num)] at hx'
  simp only
  have e : (t * Spec.distance Xi xi x) ^ 2 = t ^ 2 * (Xi ^ 2 + xi ^ 2) - t ^ 2 * (2 * Xi * xi) * x := by
    unfold Spec.distance
    rw [mul_pow, Real.sq_sqrt]
    · ring
    · nlinarith [mul_nonneg (mul_nonneg hX.le hx.le) (sub_nonneg.2 hx'.2), sq_nonneg (Xi - xi)]
  rw [e, neg_sub, sub_eq_neg_add, Real.exp_add]
  ring

theorem jJ_tendsto (n : Nat) (Xi xi : ℝ) (hx : 0 < xi) (h : xi < Xi) : Tendsto (jJ n Xi xi) atTop (𝓝 0) := by
  obtain ⟨K, hK, hb⟩ := pP_bound n
  have hd := sub_pos.2 h
  have h1 : Tendsto (fun t : ℝ => K * (Spec.erfc (t * (Xi - xi)) / (Xi - xi)) * 2) atTop (𝓝 0) := by
    have := ((((erfc_tendsto.comp (Tendsto.atTop_mul_const hd tendsto_id)).div_const (Xi - xi)).const_mul K).mul_const 2)
    simpa using this
  refine squeeze_zero_norm' ?_ h1
  filter_upwards [eventually_gt_atTop 0] with t ht
  have := intervalIntegral.norm_integral_le_of_norm_le_const (a := (-1 : ℝ)) (b := 1) (C := K * (Spec.erfc (t * (Xi - xi)) / (Xi - xi)))
    (f := fun x => (pP n).eval x * (Spec.erfc (t * Spec.distance Xi xi x) / Spec.distance Xi xi x)) (by
      intro x hx'
      rw [Set.uIoc_of_le (by norm_num)] at hx'
      have hge := distance_ge Xi xi x hx.le h.le hx'.2
      rw [norm_mul, Real.norm_eq_abs, Real.norm_eq_abs]
      have hp : 0 < Spec.distance Xi xi x := hd.trans_le hge
      rw [abs_of_nonneg (div_nonneg (erfc_nonneg _ (by positivity)) hp.le)]
      have h2 : Spec.erfc (t * Spec.distance Xi xi x) ≤ Spec.erfc (t * (Xi - xi)) := erfc_anti (by gcongr)
      have h3 : 0 ≤ Spec.erfc (t * (Xi - xi)) := erfc_nonneg _ (by positivity)
      exact mul_le_mul (hb x ⟨hx'.1.le, hx'.2⟩) (by gcongr) (div_nonneg (erfc_nonneg _ (by positivity)) hp.le) hK.le)
  refine this.trans (le_of_eq ?_)
  norm_num

theorem gG_eq_jJ (n : Nat) (Xi xi : ℝ) (hx : 0 < xi) (h : xi < Xi) : gG n Xi xi 1 = (2 * n + 1) / 2 * jJ n Xi xi 1 := by
  have hX := hx.trans h
  have hdiff : ∀ t : ℝ, 0 < t → HasDerivAt (fun t => gG n Xi xi t - (2 * n + 1) / 2 * jJ n Xi xi t) 0 t := by
    intro t ht
    refine ((gG_deriv n Xi xi t hx hX ht).sub ((jJ_deriv n Xi xi t hx h ht).const_mul _)).congr_deriv ?_
    ring
  have hconst : ∀ t : ℝ, 1 ≤ t → gG n Xi xi t - (2 * n + 1) / 2 * jJ n Xi xi t = gG n Xi xi 1 - (2 * n + 1) / 2 * jJ n Xi xi 1 := by
    intro t ht
    exact constant_of_has_deriv_right_zero (f := fun t => gG n Xi xi t - (2 * n + 1) / 2 * jJ n Xi xi t) (a := 1) (b := t)
      (fun y hy => (hdiff y (by linarith [hy.1])).continuousAt.continuousWithinAt)
      (fun y hy => (hdiff y (by linarith [hy.1])).hasDerivWithinAt) t ⟨ht, le_rfl⟩
  have hlim : Tendsto (fun t => gG n Xi xi t - (2 * n + 1) / 2 * jJ n Xi xi t) atTop (𝓝 0) := by
    have := (gG_tendsto n Xi xi hx h).sub ((jJ_tendsto n Xi xi hx h).const_mul ((2 * (n : ℝ) + 1) / 2))
    simpa using this
  have hlim2 : Tendsto (fun t => gG n Xi xi t - (2 * n + 1) / 2 * jJ n Xi xi t) atTop (𝓝 (gG n Xi xi 1 - (2 * n + 1) / 2 * jJ n Xi xi 1)) := by
    refine Tendsto.congr' ?_ tendsto_const_nhds
    filter_upwards [eventually_ge_atTop 1] with t ht
    exact (hconst t ht).symm
  have := tendsto_nhds_unique hlim hlim2
  linarith

theorem phiGeneralOrdered_gG (n : Nat) (Xi xi : ℝ) (hx : 0 < xi) (h : xi ≤ Xi) :
    phiGeneralOrdered Spec.erfc n Xi xi = .ok (gG n Xi xi 1) := by
  have hX := hx.trans_le h
  unfold phiGeneralOrdered hn
  rw [if_neg (not_lt.2 h)]
  simp only [Res.ok_bind, Res.pure_eq]
  congr 1
  rw [foldl_add_range' (fun m => fn (n - m) Xi xi * ((Xi ^ m * Xi ^ m + xi ^ m * xi ^ m) / (Xi ^ m * xi ^ m)))]
  have hne : Xi * xi ≠ 0 := by positivity
  simp only [fn_eq _ Xi xi hne]
  unfold gG sS cc
  simp only [one_pow, one_mul]
  rw [mul_add, mul_add, mul_sum, mul_sum]
  congr 1
  · congr 1
    · apply sum_congr rfl
      intro m _
      ring
  · ring

/-! ### equal arguments, by continuity -/

theorem bes_cont (n : Nat) (w : ℝ) (hw : w ≠ 0) : ContinuousAt (bes n) w := (bes_deriv n w hw).1.continuousAt

theorem gG_cont (n : Nat) (xi : ℝ) (hx : 0 < xi) : ContinuousAt (fun Xi => gG n Xi xi 1) xi := by
  have he := erfc_cont
  have hb : ∀ k, ContinuousAt (fun Xi : ℝ => bes k (1 ^ 2 * (2 * Xi * xi))) xi := by
    intro k
    apply ContinuousAt.comp (g := bes k) (f := fun Xi : ℝ => (1 : ℝ) ^ 2 * (2 * Xi * xi))
    · exact bes_cont k _ (by positivity)
    · fun_prop
  have hcc : ∀ m, ContinuousAt (fun Xi => cc Xi xi m) xi := by
    intro m
    unfold cc
    apply ContinuousAt.div (by fun_prop) (by fun_prop)
    positivity
  have hS : ContinuousAt (fun Xi : ℝ => sS (cc Xi xi) n (1 ^ 2 * (2 * Xi * xi))) xi := by
    unfold sS
    apply (hb n).add
    exact tendsto_finsetSum _ fun m _ => (hcc (m + 1)).mul (hb _)
  have hE : ContinuousAt (fun Xi : ℝ => (1 : ℝ) * Real.exp (-(1 ^ 2 * (Xi ^ 2 + xi ^ 2)))) xi := by fun_prop
  have hq : ∀ f : ℝ → ℝ, ContinuousAt f xi → ContinuousAt (fun Xi => f Xi / (2 * (xi * Xi) ^ (n + 1))) xi := by
    intro f hf
    apply ContinuousAt.div hf (by fun_prop)
    positivity
  unfold gG
  apply ContinuousAt.add
  · exact continuousAt_const.mul (hE.mul hS)
  · apply ContinuousAt.sub
    · apply ContinuousAt.mul
      · exact hq _ (by fun_prop)
      · fun_prop
    · apply ContinuousAt.mul
      · exact hq _ (by fun_prop)
      · fun_prop

theorem distance_sq_ge (Xi xi x : ℝ) (hx : 0 < xi) (h : xi ≤ Xi) (hx1 : x ≤ 1) : Real.sqrt (2 * xi ^ 2 * (1 - x)) ≤ Spec.distance Xi xi x := by
  unfold Spec.distance
  apply Real.sqrt_le_sqrt
  nlinarith [mul_nonneg (mul_nonneg (sub_nonneg.2 h) hx.le) (sub_nonneg.2 hx1), sq_nonneg (Xi - xi)]

theorem jJ_tendsto_equal (n : Nat) (xi : ℝ) (hx : 0 < xi) : Tendsto (fun Xi => jJ n Xi xi 1) (𝓝[>] xi) (𝓝 (jJ n xi xi 1)) := by
  obtain ⟨K, hK, hb⟩ := pP_bound n
  have hu : Set.uIoc (-1 : ℝ) 1 = Set.Ioc (-1) 1 := Set.uIoc_of_le (by norm_num)
  have hne : ∀ᵐ x : ℝ, x ≠ 1 := by
    rw [MeasureTheory.ae_iff]
    simp
  unfold jJ
  apply intervalIntegral.tendsto_integral_filter_of_dominated_convergence (fun x => K * (Real.sqrt (2 * xi ^ 2))⁻¹ * (1 - x) ^ (-(1 / 2) : ℝ))
  · filter_upwards [self_mem_nhdsWithin] with Xi hXi
    have := (ContinuousOn.intervalIntegrable (by rw [Set.uIcc_of_le (by norm_num)]; exact jJ_integrand_cont n Xi xi 1 hx hXi) :
      IntervalIntegrable (fun x => (pP n).eval x * (Spec.erfc (1 * Spec.distance Xi xi x) / Spec.distance Xi xi x)) MeasureTheory.volume (-1) 1).1.aestronglyMeasurable
    rw [hu]; exact this
  · filter_upwards [self_mem_nhdsWithin] with Xi hXi
    filter_upwards [hne] with x hx1 hx'
    rw [hu] at hx'
    have hlt : 0 < 1 - x := sub_pos.2 (lt_of_le_of_ne hx'.2 hx1)
    have hge := distance_sq_ge Xi xi x hx (le_of_lt hXi) hx'.2
    have hp : 0 < Real.sqrt (2 * xi ^ 2 * (1 - x)) := Real.sqrt_pos.2 (by positivity)
    have hd : 0 < Spec.distance Xi xi x := hp.trans_le hge
    rw [norm_mul, Real.norm_eq_abs, Real.norm_eq_abs, one_mul, mul_assoc]
    refine mul_le_mul (hb x ⟨hx'.1.le, hx'.2⟩) ?_ (abs_nonneg _) hK.le
    rw [abs_of_nonneg (div_nonneg (erfc_nonneg _ hd.le) hd.le), Real.rpow_neg hlt.le, ← Real.sqrt_eq_rpow, ← mul_inv, ← Real.sqrt_mul (by positivity), ← one_div]
    have h1 : Spec.erfc (Spec.distance Xi xi x) ≤ 1 := by
      have := Nucleus.erf_nonneg (Spec.distance Xi xi x) hd.le
      unfold Spec.erfc; linarith
    exact div_le_div₀ zero_le_one h1 hp hge
  · have h1 : IntervalIntegrable (fun x : ℝ => x ^ (-(1 / 2) : ℝ)) MeasureTheory.volume 0 2 := intervalIntegral.intervalIntegrable_rpow' (by norm_num)
    have h2 := (h1.comp_sub_left 1)
    norm_num at h2
    have h3 := h2.symm.const_mul (K * (Real.sqrt (2 * xi ^ 2))⁻¹)
    convert h3 using 2
  · filter_upwards [hne] with x hx1 hx'
    rw [hu] at hx'
    have hlt : 0 < 1 - x := sub_pos.2 (lt_of_le_of_ne hx'.2 hx1)
    have hge := distance_sq_ge xi xi x hx le_rfl hx'.2
    have hp : 0 < Real.sqrt (2 * xi ^ 2 * (1 - x)) := Real.sqrt_pos.2 (by positivity)
    have hd : Spec.distance xi xi x ≠ 0 := (hp.trans_le hge).ne'
    have hc : Continuous fun Xi => Spec.distance Xi xi x := by unfold Spec.distance; fun_prop
    have he := erfc_cont
    have : ContinuousAt (fun Xi => (pP n).eval x * (Spec.erfc (1 * Spec.distance Xi xi x) / Spec.distance Xi xi x)) xi := by
      apply ContinuousAt.mul continuousAt_const
      exact ContinuousAt.div (by fun_prop) (by fun_prop) hd
    exact this.tendsto.mono_left nhdsWithin_le_nhds

theorem gG_eq_jJ_le (n : Nat) (Xi xi : ℝ) (hx : 0 < xi) (h : xi ≤ Xi) : gG n Xi xi 1 = (2 * n + 1) / 2 * jJ n Xi xi 1 := by
  rcases lt_or_eq_of_le h with h | h
  · exact gG_eq_jJ n Xi xi hx h
  · subst h
    have h1 : Tendsto (fun Xi => gG n Xi xi 1) (𝓝[>] xi) (𝓝 (gG n xi xi 1)) := (gG_cont n xi hx).tendsto.mono_left nhdsWithin_le_nhds
    have h2 : Tendsto (fun Xi => (2 * (n : ℝ) + 1) / 2 * jJ n Xi xi 1) (𝓝[>] xi) (𝓝 ((2 * n + 1) / 2 * jJ n xi xi 1)) := (jJ_tendsto_equal n xi hx).const_mul _
    refine tendsto_nhds_unique h1 (h2.congr' ?_)
    filter_upwards [self_mem_nhdsWithin] with Xi hXi
    exact (gG_eq_jJ n Xi xi hx hXi).symm

end Erfc
end HelFEM
