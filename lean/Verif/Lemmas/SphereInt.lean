import Verif.Spec.SphereInt
import Verif.Spec.Gaunt
import Verif.Lemmas.Harmonics

/-!
# Lemmas for C69: integrals of products of spherical harmonics
-/

namespace HelFEM
namespace Harm

open Polynomial

/-- the sign and norm of `Y_l^m` -/
noncomputable def yc (l : Nat) (m : Int) : ℝ := if m < 0 then nrm l m.natAbs else (-1) ^ m.natAbs * nrm l m.natAbs

theorem yv_eq (l : Nat) (m : Int) (θ : ℝ) : yv l m θ = yc l m * Real.sin θ ^ m.natAbs * dP l m.natAbs (Real.cos θ) := by
  unfold yv yc
  have h1 : ((-1 : ℝ)) ^ m.natAbs * (-1) ^ m.natAbs = 1 := by rw [← mul_pow]; simp
  split_ifs
  · rw [Int.toNat_natCast, sphLegendre_eq]
    linear_combination (nrm l m.natAbs * Real.sin θ ^ m.natAbs * dP l m.natAbs (Real.cos θ)) * h1
  · rw [Int.toNat_natCast, sphLegendre_eq]

/-- `Y_l^m` without its phase, over the cosine -/
noncomputable def yx (l : Nat) (m : Int) (c : ℝ) : ℝ := yv l m (Real.arccos c)

theorem yx_eq (l : Nat) (m : Int) (c : ℝ) (h0 : -1 ≤ c) (h1 : c ≤ 1) : yx l m c = yc l m * √(1 - c ^ 2) ^ m.natAbs * (derivative^[m.natAbs] (Poly.pP l)).eval c := by
  rw [yx, yv_eq, Real.sin_arccos, Real.cos_arccos h0 h1]; rfl

theorem yx_cont (l : Nat) (m : Int) : Continuous (yx l m) := by
  have : yx l m = fun c => yc l m * Real.sin (Real.arccos c) ^ m.natAbs * (derivative^[m.natAbs] (Poly.pP l)).eval (Real.cos (Real.arccos c)) := by
    funext c
    rw [yx, yv_eq]; rfl
  rw [this]
  have h1 := Real.continuous_arccos
  have h2 : Continuous fun c => (derivative^[m.natAbs] (Poly.pP l)).eval (Real.cos (Real.arccos c)) := (Polynomial.continuous _).comp (Real.continuous_cos.comp h1)
  fun_prop

theorem yx_range (l : Nat) (m : Int) (h : (l : Int) < |m|) (c : ℝ) : yx l m c = 0 := by
  rw [yx, yv_eq, dP_gt l _ (by rw [Int.abs_eq_natAbs] at h; exact_mod_cast h), mul_zero]

theorem yx_neg (l : Nat) (m : Int) (c : ℝ) : yx l (-m) c = (-1) ^ m.natAbs * yx l m c := yv_neg _ _ _

theorem sph_yx (l : Nat) (m : Int) (c φ : ℝ) : sph l m c φ = Complex.exp ((m * φ : ℝ) * Complex.I) * (yx l m c : ℝ) := sph_eq _ _ _ _

theorem conj_sph (l : Nat) (m : Int) (c φ : ℝ) : (starRingEnd ℂ) (sph l m c φ) = Complex.exp (((-m : Int) * φ : ℝ) * Complex.I) * (yx l m c : ℝ) := by
  rw [sph_yx, map_mul, Complex.conj_ofReal, ← Complex.exp_conj, map_mul, Complex.conj_I, Complex.conj_ofReal]
  congr 2
  push_cast
  ring

theorem exp_add' (a b : Int) (φ : ℝ) : Complex.exp ((a * φ : ℝ) * Complex.I) * Complex.exp ((b * φ : ℝ) * Complex.I) = Complex.exp (((a + b : Int) * φ : ℝ) * Complex.I) := by
  rw [← Complex.exp_add]
  congr 1
  push_cast
  ring

/-- a function with one Fourier component -/
theorem sphere_sep (k : Int) (g : ℝ → ℝ) : Spec.sphere (fun c φ => Complex.exp ((k * φ : ℝ) * Complex.I) * (g c : ℝ)) = ((if k = 0 then 2 * Real.pi * ∫ c in (-1 : ℝ)..1, g c else 0 : ℝ) : ℂ) := by
  unfold Spec.sphere
  simp only [intervalIntegral.integral_mul_const, exp_orth]
  split_ifs
  · rw [intervalIntegral.integral_const_mul, intervalIntegral.integral_ofReal]
    push_cast
    ring
  · simp

/-- three harmonics, the first conjugated -/
theorem sphere_triple (L : Nat) (M : Int) (l : Nat) (m : Int) (l' : Nat) (m' : Int) (g : ℝ → ℝ) :
    Spec.sphere (fun c φ => (starRingEnd ℂ) (sph L M c φ) * (g c : ℝ) * sph l m c φ * sph l' m' c φ) =
      ((if M = m + m' then 2 * Real.pi * ∫ c in (-1 : ℝ)..1, yx L M c * g c * yx l m c * yx l' m' c else 0 : ℝ) : ℂ) := by
  have e : (fun c φ => (starRingEnd ℂ) (sph L M c φ) * (g c : ℝ) * sph l m c φ * sph l' m' c φ) =
      fun c φ => Complex.exp (((-M + m + m' : Int) * φ : ℝ) * Complex.I) * ((yx L M c * g c * yx l m c * yx l' m' c : ℝ) : ℂ) := by
    funext c φ
    rw [conj_sph, sph_yx, sph_yx, ← exp_add', ← exp_add']
    push_cast
    ring
  rw [e, sphere_sep]
  by_cases h : M = m + m'
  · rw [if_pos h, if_pos (by omega)]
  · rw [if_neg h, if_neg (by omega)]

/-- two harmonics, the first conjugated -/
theorem sphere_pair (L : Nat) (M : Int) (l : Nat) (m : Int) (g : ℝ → ℝ) :
    Spec.sphere (fun c φ => (starRingEnd ℂ) (sph L M c φ) * (g c : ℝ) * sph l m c φ) =
      ((if M = m then 2 * Real.pi * ∫ c in (-1 : ℝ)..1, yx L M c * g c * yx l m c else 0 : ℝ) : ℂ) := by
  have e : (fun c φ => (starRingEnd ℂ) (sph L M c φ) * (g c : ℝ) * sph l m c φ) =
      fun c φ => Complex.exp (((-M + m : Int) * φ : ℝ) * Complex.I) * ((yx L M c * g c * yx l m c : ℝ) : ℂ) := by
    funext c φ
    rw [conj_sph, sph_yx, ← exp_add']
    push_cast
    ring
  rw [e, sphere_sep]
  by_cases h : M = m
  · rw [if_pos h, if_pos (by omega)]
  · rw [if_neg h, if_neg (by omega)]

theorem gaunt_complex (l1 : Nat) (m1 : Int) (l2 : Nat) (m2 : Int) (l3 : Nat) (m3 : Int) :
    Spec.sphere (fun c φ => sph l1 m1 c φ * sph l2 m2 c φ * sph l3 m3 c φ) =
      ((if m1 + m2 + m3 = 0 then 2 * Real.pi * ∫ c in (-1 : ℝ)..1, yx l1 m1 c * yx l2 m2 c * yx l3 m3 c else 0 : ℝ) : ℂ) := by
  rw [← sphere_sep]
  congr 1
  funext c φ
  rw [sph_yx, sph_yx, sph_yx, ← exp_add', ← exp_add']
  push_cast
  ring

theorem gaunt_eq (l1 : Nat) (m1 : Int) (l2 : Nat) (m2 : Int) (l3 : Nat) (m3 : Int) :
    Spec.gaunt l1 m1 l2 m2 l3 m3 = if m1 + m2 + m3 = 0 then 2 * Real.pi * ∫ c in (-1 : ℝ)..1, yx l1 m1 c * yx l2 m2 c * yx l3 m3 c else 0 := by
  rw [Spec.gaunt, gaunt_complex, Complex.ofReal_re]

/-! ### Polynomials -/

theorem natDegree_iter (l m : Nat) : (derivative^[m] (Poly.pP l)).natDegree ≤ l - m := by
  induction m with
  | zero => simpa using Poly.pP_natDegree_le l
  | succ m ih =>
    rw [Function.iterate_succ_apply']
    exact (natDegree_derivative_le _).trans (by omega)

/-- a derivative of a Legendre polynomial is orthogonal to polynomials of lower degree -/
theorem assoc_orth_low (l : Nat) : ∀ (m : Nat) (q : ℝ[X]), q.natDegree + m < l → Poly.refInt ((1 - X ^ 2) ^ m * derivative^[m] (Poly.pP l) * q) = 0
  | 0, q, h => by
    rw [pow_zero, one_mul]
    exact Poly.pP_orth_low l _ (by omega) q le_rfl
  | m + 1, q, h => by
    have hp := Poly.refInt_parts (derivative^[m] (Poly.pP l)) ((1 - X ^ 2) ^ (m + 1) * q)
    rw [show derivative (derivative^[m] (Poly.pP l)) * ((1 - X ^ 2) ^ (m + 1) * q) = (1 - X ^ 2) ^ (m + 1) * derivative^[m + 1] (Poly.pP l) * q by
      rw [Function.iterate_succ_apply']; ring] at hp
    rw [hp]
    have e0 : ((derivative^[m] (Poly.pP l)) * ((1 - X ^ 2) ^ (m + 1) * q)).eval 1 = 0 := by simp
    have e1 : ((derivative^[m] (Poly.pP l)) * ((1 - X ^ 2) ^ (m + 1) * q)).eval (-1) = 0 := by simp
    rw [e0, e1]
    have ed : derivative^[m] (Poly.pP l) * derivative ((1 - X ^ 2) ^ (m + 1) * q) =
        (1 - X ^ 2) ^ m * derivative^[m] (Poly.pP l) * ((1 - X ^ 2) * derivative q - C (2 * ((m : ℝ) + 1)) * (X * q)) := by
      rw [derivative_mul, derivative_pow_succ]
      simp only [derivative_sub, derivative_one, derivative_X_pow, map_mul, map_add, C_1, map_ofNat, map_natCast]
      push_cast
      ring
    rw [ed, assoc_orth_low l m _ ?_]
    · ring
    · by_cases hq : q = 0
      · subst hq; simp; omega
      have d1 : ((1 - X ^ 2 : ℝ[X]) * derivative q).natDegree ≤ q.natDegree + 1 := by
        by_cases h0 : q.natDegree = 0
        · rw [Polynomial.eq_C_of_natDegree_eq_zero h0]; simp
        refine natDegree_mul_le.trans ?_
        have : (1 - X ^ 2 : ℝ[X]).natDegree ≤ 2 := by compute_degree
        have := natDegree_derivative_le q
        omega
      have d2 : (C (2 * ((m : ℝ) + 1)) * (X * q)).natDegree ≤ q.natDegree + 1 := by
        refine (natDegree_C_mul_le _ _).trans (natDegree_mul_le.trans ?_)
        rw [natDegree_X]
        omega
      have := natDegree_sub_le_of_le d1 d2
      omega

/-- parity -/
theorem pP_refl : ∀ l : Nat, (Poly.pP l).comp (-X) = C ((-1) ^ l) * Poly.pP l
  | 0 => by simp [Poly.pP]
  | 1 => by simp [Poly.pP]
  | n + 2 => by
    rw [show Poly.pP (n + 2) = C (1 / ((n + 1 + 1 : Nat) : ℝ)) * (C ((2 * (n + 1 : Nat) + 1 : Nat) : ℝ) * (X * Poly.pP (n + 1)) - C ((n + 1 : Nat) : ℝ) * Poly.pP n) from rfl]
    simp only [mul_comp, sub_comp, C_comp, X_comp, pP_refl (n + 1), pP_refl n]
    simp only [pow_succ, map_mul, map_neg, C_1]
    ring

theorem iter_refl (l : Nat) : ∀ m : Nat, (derivative^[m] (Poly.pP l)).comp (-X) = C ((-1) ^ (l + m)) * derivative^[m] (Poly.pP l)
  | 0 => by simpa using pP_refl l
  | m + 1 => by
    have h := congrArg derivative (iter_refl l m)
    rw [derivative_comp, derivative_C_mul] at h
    simp only [Function.iterate_succ_apply'] at h ⊢
    simp only [derivative_neg, derivative_X] at h
    rw [show l + (m + 1) = l + m + 1 by ring, pow_succ, map_mul, map_neg, C_1]
    linear_combination -h

theorem refInt_refl (p : ℝ[X]) : Poly.refInt (p.comp (-X)) = Poly.refInt p := by
  unfold Poly.refInt
  have := intervalIntegral.integral_comp_neg (fun x => p.eval x) (a := -1) (b := 1)
  rw [neg_neg] at this
  rw [← this]
  simp

/-- the integral of three harmonics as an integral of a polynomial -/
theorem triple_poly (l1 : Nat) (m1 : Int) (l2 : Nat) (m2 : Int) (l3 : Nat) (m3 : Int) (g : ℝ[X]) (k : Nat) (hk : m1.natAbs + m2.natAbs + m3.natAbs = 2 * k) :
    ∫ c in (-1 : ℝ)..1, yx l1 m1 c * g.eval c * yx l2 m2 c * yx l3 m3 c = yc l1 m1 * yc l2 m2 * yc l3 m3 *
      Poly.refInt ((1 - X ^ 2) ^ k * (derivative^[m1.natAbs] (Poly.pP l1)) * (g * derivative^[m2.natAbs] (Poly.pP l2) * derivative^[m3.natAbs] (Poly.pP l3))) := by
  unfold Poly.refInt
  rw [← intervalIntegral.integral_const_mul]
  refine intervalIntegral.integral_congr fun c hc => ?_
  rw [Set.uIcc_of_le (by norm_num)] at hc
  rw [yx_eq l1 m1 c hc.1 hc.2, yx_eq l2 m2 c hc.1 hc.2, yx_eq l3 m3 c hc.1 hc.2]
  have hs : √(1 - c ^ 2) ^ m1.natAbs * √(1 - c ^ 2) ^ m2.natAbs * √(1 - c ^ 2) ^ m3.natAbs = (1 - c ^ 2) ^ k := by
    rw [← pow_add, ← pow_add, hk, pow_mul, Real.sq_sqrt (by nlinarith [hc.1, hc.2])]
  simp only [eval_mul, eval_pow, eval_sub, eval_one, eval_X]
  rw [← hs]
  ring

end Harm
end HelFEM
