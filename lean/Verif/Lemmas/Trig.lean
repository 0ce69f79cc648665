import Mathlib.Analysis.SpecialFunctions.Trigonometric.Deriv
import Mathlib.Analysis.SpecialFunctions.Complex.Log
import Mathlib.Algebra.Ring.GeomSum
import Verif.Lemmas.Lists

/-! Trigonometric sums over equally spaced points. -/

namespace HelFEM
namespace Quad
open Finset

theorem sum_exp (N m : Nat) (hN : 0 < N) (hm : ¬ N ∣ m) :
    ∑ j ∈ range N, Complex.exp (((m : ℝ) * ((j : ℝ) * (2 * Real.pi / N)) : ℝ) * Complex.I) = 0 := by
  have hN' : (N : ℂ) ≠ 0 := by exact_mod_cast hN.ne'
  set ζ := Complex.exp (2 * Real.pi * Complex.I * (m / N)) with hζ
  have hpow : ∀ j : Nat, Complex.exp (((m : ℝ) * ((j : ℝ) * (2 * Real.pi / N)) : ℝ) * Complex.I) = ζ ^ j := by
    intro j
    rw [hζ, ← Complex.exp_nat_mul]
    congr 1
    push_cast
    ring
  simp only [hpow]
  have h1 : ζ ^ N = 1 := by
    rw [hζ, ← Complex.exp_nat_mul]
    rw [show (N : ℂ) * (2 * Real.pi * Complex.I * (m / N)) = m * (2 * Real.pi * Complex.I) by field_simp]
    exact Complex.exp_nat_mul_two_pi_mul_I m
  have h2 : ζ ≠ 1 := by
    intro h
    rw [hζ, Complex.exp_eq_one_iff] at h
    obtain ⟨k, hk⟩ := h
    have hpi : (2 * (Real.pi : ℂ) * Complex.I) ≠ 0 := by
      simp [Real.pi_ne_zero]
    have h3 : (m : ℂ) / N = k := by
      have : (2 * (Real.pi : ℂ) * Complex.I) * (m / N) = (2 * (Real.pi : ℂ) * Complex.I) * k := by rw [hk]; ring
      exact mul_left_cancel₀ hpi this
    rw [div_eq_iff hN'] at h3
    have h4 : (m : ℤ) = k * N := by exact_mod_cast h3
    apply hm
    have : (N : ℤ) ∣ m := ⟨k, by rw [h4]; ring⟩
    exact_mod_cast this
  have := mul_neg_geom_sum ζ N
  rw [h1, sub_self] at this
  exact (mul_eq_zero.1 this).resolve_left (sub_ne_zero.2 (Ne.symm h2))

theorem sum_cos (N m : Nat) (hN : 0 < N) (hm : ¬ N ∣ m) :
    ∑ j ∈ range N, Real.cos ((m : ℝ) * ((j : ℝ) * (2 * Real.pi / N))) = 0 := by
  have := congrArg Complex.re (sum_exp N m hN hm)
  rw [Complex.re_sum] at this
  simpa only [Complex.exp_ofReal_mul_I_re, Complex.zero_re] using this

theorem sum_sin (N m : Nat) (hN : 0 < N) :
    ∑ j ∈ range N, Real.sin ((m : ℝ) * ((j : ℝ) * (2 * Real.pi / N))) = 0 := by
  by_cases hm : N ∣ m
  · obtain ⟨k, rfl⟩ := hm
    apply Finset.sum_eq_zero
    intro j _
    have hN' : (N : ℝ) ≠ 0 := by exact_mod_cast hN.ne'
    rw [show ((N * k : Nat) : ℝ) * ((j : ℝ) * (2 * Real.pi / N)) = ((2 * (k * j) : Nat) : ℝ) * Real.pi by
      push_cast; field_simp]
    exact Real.sin_nat_mul_pi _
  · have := congrArg Complex.im (sum_exp N m hN hm)
    rw [Complex.im_sum] at this
    simpa only [Complex.exp_ofReal_mul_I_im, Complex.zero_im] using this

end Quad
end HelFEM
