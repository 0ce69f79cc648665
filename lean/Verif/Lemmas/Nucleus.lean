import Verif.Model.Nucleus
import Mathlib.MeasureTheory.Integral.IntervalIntegral.FundThmCalculus
import Mathlib.MeasureTheory.Integral.IntegralEqImproper
import Mathlib.Analysis.SpecialFunctions.Gaussian.GaussianIntegral
import Mathlib.Analysis.SpecialFunctions.Integrals.Basic
import Mathlib.Analysis.SpecialFunctions.ExpDeriv
import Mathlib.Analysis.Calculus.Deriv.MeanValue
import Mathlib.Analysis.Calculus.Deriv.Inv
import Mathlib.Analysis.Calculus.Deriv.Pow
import Mathlib.Analysis.Calculus.ContDiff.Operations
import Mathlib.Analysis.Calculus.ContDiff.Deriv
import Mathlib.MeasureTheory.Integral.Gamma
import Mathlib.Tactic.FieldSimp
import Mathlib.Tactic.Positivity
import Mathlib.Tactic.LinearCombination

namespace HelFEM
namespace Nucleus
open MeasureTheory Filter Topology Set

theorem hasDerivAt_erf (x : ℝ) : HasDerivAt erf (2 / Real.sqrt Real.pi * Real.exp (-x ^ 2)) x := by
  unfold erf
  refine HasDerivAt.const_mul _ ?_
  have hc : Continuous fun t : ℝ => Real.exp (-t ^ 2) := by fun_prop
  exact intervalIntegral.integral_hasDerivAt_right (hc.intervalIntegrable _ _) hc.aestronglyMeasurable.stronglyMeasurableAtFilter hc.continuousAt

theorem erf_zero : erf 0 = 0 := by simp [erf]

theorem nonneg_of_deriv (f f' : ℝ → ℝ) (h0 : f 0 = 0) (hd : ∀ u, HasDerivAt f (f' u) u) (hp : ∀ u, 0 ≤ u → 0 ≤ f' u) : ∀ u, 0 ≤ u → 0 ≤ f u := by
  intro u hu
  have hm : MonotoneOn f (Ici 0) := by
    refine monotoneOn_of_deriv_nonneg (convex_Ici 0) (fun x _ => (hd x).continuousAt.continuousWithinAt) (fun x _ => (hd x).differentiableAt.differentiableWithinAt) ?_
    intro x hx
    rw [interior_Ici] at hx
    rw [(hd x).deriv]; exact hp x (le_of_lt hx)
  have := hm (by simp : (0 : ℝ) ∈ Ici 0) (by simpa using hu) hu
  rwa [h0] at this

theorem hasDerivAt_exp_neg (u : ℝ) : HasDerivAt (fun u : ℝ => Real.exp (-u)) (-Real.exp (-u)) u := by
  exact ((Real.hasDerivAt_exp (-u)).comp u (hasDerivAt_neg u)).congr_deriv (by ring)

theorem exp_bounds (u : ℝ) (hu : 0 ≤ u) : 1 - u + u ^ 2 / 2 - u ^ 3 / 6 ≤ Real.exp (-u) ∧ Real.exp (-u) ≤ 1 - u + u ^ 2 / 2 - u ^ 3 / 6 + u ^ 4 / 24 := by
  have e := hasDerivAt_exp_neg
  have g1 := nonneg_of_deriv (fun u => Real.exp (-u) - 1 + u) (fun u => 1 - Real.exp (-u)) (by simp)
    (fun u => (((e u).sub_const 1).add (hasDerivAt_id u)).congr_deriv (by ring)) (fun u hu => by have := Real.exp_le_one_iff.2 (neg_nonpos.2 hu); linarith)
  have g2 := nonneg_of_deriv (fun u => 1 - u + u ^ 2 / 2 - Real.exp (-u)) (fun u => Real.exp (-u) - 1 + u) (by simp)
    (fun u => (((((hasDerivAt_id u).const_sub 1).add ((hasDerivAt_pow 2 u).div_const 2))).sub (e u)).congr_deriv (by simp; ring)) g1
  have g3 := nonneg_of_deriv (fun u => Real.exp (-u) - 1 + u - u ^ 2 / 2 + u ^ 3 / 6) (fun u => 1 - u + u ^ 2 / 2 - Real.exp (-u)) (by simp)
    (fun u => ((((((e u).sub_const 1).add (hasDerivAt_id u)).sub ((hasDerivAt_pow 2 u).div_const 2))).add ((hasDerivAt_pow 3 u).div_const 6)).congr_deriv (by simp; ring)) g2
  have g4 := nonneg_of_deriv (fun u => 1 - u + u ^ 2 / 2 - u ^ 3 / 6 + u ^ 4 / 24 - Real.exp (-u)) (fun u => Real.exp (-u) - 1 + u - u ^ 2 / 2 + u ^ 3 / 6) (by simp)
    (fun u => (((((((hasDerivAt_id u).const_sub 1).add ((hasDerivAt_pow 2 u).div_const 2))).sub ((hasDerivAt_pow 3 u).div_const 6)).add
      ((hasDerivAt_pow 4 u).div_const 24)).sub (e u)).congr_deriv (by simp; ring)) g3
  have h3 := g3 u hu
  have h4 := g4 u hu
  constructor <;> linarith

theorem hasDerivAt_int (x : ℝ) : HasDerivAt (fun x : ℝ => ∫ t in (0 : ℝ)..x, Real.exp (-t ^ 2)) (Real.exp (-x ^ 2)) x := by
  have hc : Continuous fun t : ℝ => Real.exp (-t ^ 2) := by fun_prop
  exact intervalIntegral.integral_hasDerivAt_right (hc.intervalIntegrable _ _) hc.aestronglyMeasurable.stronglyMeasurableAtFilter hc.continuousAt

/-- the series of the error function, with bounds -/
theorem int_bounds (x : ℝ) (hx : 0 ≤ x) : x - x ^ 3 / 3 + x ^ 5 / 10 - x ^ 7 / 42 ≤ (∫ t in (0 : ℝ)..x, Real.exp (-t ^ 2)) ∧
    (∫ t in (0 : ℝ)..x, Real.exp (-t ^ 2)) ≤ x - x ^ 3 / 3 + x ^ 5 / 10 - x ^ 7 / 42 + x ^ 9 / 216 := by
  have hp : ∀ x : ℝ, HasDerivAt (fun x : ℝ => x - x ^ 3 / 3 + x ^ 5 / 10 - x ^ 7 / 42) (1 - x ^ 2 + (x ^ 2) ^ 2 / 2 - (x ^ 2) ^ 3 / 6) x := fun x =>
    ((((hasDerivAt_id x).sub ((hasDerivAt_pow 3 x).div_const 3)).add ((hasDerivAt_pow 5 x).div_const 10)).sub ((hasDerivAt_pow 7 x).div_const 42)).congr_deriv (by simp; ring)
  have g1 := nonneg_of_deriv (fun x => (∫ t in (0 : ℝ)..x, Real.exp (-t ^ 2)) - (x - x ^ 3 / 3 + x ^ 5 / 10 - x ^ 7 / 42)) _ (by simp)
    (fun x => (hasDerivAt_int x).sub (hp x)) (fun u _ => by have := (exp_bounds (u ^ 2) (by positivity)).1; linarith)
  have g2 := nonneg_of_deriv (fun x => (x - x ^ 3 / 3 + x ^ 5 / 10 - x ^ 7 / 42) + x ^ 9 / 216 - (∫ t in (0 : ℝ)..x, Real.exp (-t ^ 2))) _ (by simp)
    (fun x => ((hp x).add ((hasDerivAt_pow 9 x).div_const 216)).sub (hasDerivAt_int x)) (fun u _ => by
      have := (exp_bounds (u ^ 2) (by positivity)).2
      norm_num
      linarith)
  have h1 := g1 x hx
  have h2 := g2 x hx
  constructor <;> linarith

theorem int_le (x : ℝ) (hx : 0 ≤ x) : (∫ t in (0 : ℝ)..x, Real.exp (-t ^ 2)) ≤ Real.sqrt Real.pi / 2 := by
  have h := integral_gaussian_Ioi 1
  simp only [div_one, neg_mul, one_mul] at h
  rw [← h, intervalIntegral.integral_of_le hx]
  have hi : Integrable fun t : ℝ => Real.exp (-t ^ 2) := by
    have := integrable_exp_neg_mul_sq (zero_lt_one : (0 : ℝ) < 1)
    simpa using this
  exact setIntegral_mono_set hi.integrableOn (Eventually.of_forall fun t => (Real.exp_pos _).le) (Ioc_subset_Ioi_self).eventuallyLE

theorem erf_le_one (x : ℝ) (hx : 0 ≤ x) : erf x ≤ 1 := by
  have h := int_le x hx
  have hs : 0 < Real.sqrt Real.pi := Real.sqrt_pos.2 Real.pi_pos
  unfold erf
  calc 2 / Real.sqrt Real.pi * ∫ t in (0 : ℝ)..x, Real.exp (-t ^ 2) ≤ 2 / Real.sqrt Real.pi * (Real.sqrt Real.pi / 2) := by gcongr
    _ = 1 := by field_simp

theorem erf_nonneg (x : ℝ) (hx : 0 ≤ x) : 0 ≤ erf x := by
  unfold erf
  refine mul_nonneg (by positivity) (intervalIntegral.integral_nonneg hx fun t _ => (Real.exp_pos _).le)

/-! ## The regularized nucleus -/

/-- remainder of the Taylor formula over `r ^ 8` -/
noncomputable def quot (a b w r x1 x2 x3 : ℝ) : ℝ :=
    (-496/105) * a ^ 8 * w ^ 2 + (-1/3) * a ^ 9 * w + (-2) * a ^ 9 * w * x3 + (-4) * a ^ 9 * w * x1 + (752/105) * a ^ 9 * b * w + (1793/3150) *
    a ^ 10 * r ^ 2 * w ^ 2 + (8) * a ^ 10 * r ^ 2 * w ^ 2 * x3 + (32) * a ^ 10 * r ^ 2 * w ^ 2 * x2 + (4) * a ^ 10 * r ^ 2 * w ^ 2 * x1 + (1/3)
    * a ^ 10 * b + (3) * a ^ 10 * b * x1 + (-8/3) * a ^ 10 * b ^ 2 + (2) * a ^ 11 * r ^ 2 * w * x1 + (-163/315) * a ^ 11 * b * r ^ 2 * w + (-4)
    * a ^ 11 * b * r ^ 2 * w * x3 + (-64) * a ^ 11 * b * r ^ 2 * w * x2 + (-4) * a ^ 11 * b * r ^ 2 * w * x1 + (-13/105) * a ^ 12 * r ^ 4 * w ^
    2 + (-16/3) * a ^ 12 * r ^ 4 * w ^ 2 * x3 + (-4/3) * a ^ 12 * r ^ 4 * w ^ 2 * x1 + (-2) * a ^ 12 * b * r ^ 2 * x1 + (32) * a ^ 12 * b ^ 2 *
    r ^ 2 * x2 + (4/35) * a ^ 13 * b * r ^ 4 * w + (4) * a ^ 13 * b * r ^ 4 * w * x3 + (4/3) * a ^ 13 * b * r ^ 4 * w * x1 + (5/294) * a ^ 14 *
    r ^ 6 * w ^ 2 + (12/5) * a ^ 14 * r ^ 6 * w ^ 2 * x3 + (2/5) * a ^ 14 * r ^ 6 * w ^ 2 * x1 + (-1/63) * a ^ 15 * b * r ^ 6 * w + (-2) * a ^
    15 * b * r ^ 6 * w * x3 + (-2/5) * a ^ 15 * b * r ^ 6 * w * x1 + (-16/21) * a ^ 16 * r ^ 8 * w ^ 2 * x3 + (-2/21) * a ^ 16 * r ^ 8 * w ^ 2 *
    x1 + (2/3) * a ^ 17 * b * r ^ 8 * w * x3 + (2/21) * a ^ 17 * b * r ^ 8 * w * x1 + (2) * a ^ 18 * r ^ 10 * w ^ 2 * x3 ^ 2 + (4) * a ^ 18 * r
    ^ 10 * w ^ 2 * x1 * x3 + (-4) * a ^ 19 * b * r ^ 10 * w * x1 * x3

theorem taylor_diff (a b r : ℝ) (ha : 0 < a) (hr : 0 < r) :
    ∃ x1 x2 x3 : ℝ, |x1| ≤ 1 ∧ |x2| ≤ 1 ∧ |x3| ≤ 1 ∧
      regAnalytic a b r - regTaylor a b r = r ^ 8 * quot a b (1 / Real.sqrt Real.pi) r x1 x2 x3 := by
  have hs : Real.sqrt Real.pi ≠ 0 := (Real.sqrt_pos.2 Real.pi_pos).ne'
  have hpi : Real.pi = Real.sqrt Real.pi * Real.sqrt Real.pi := (Real.mul_self_sqrt Real.pi_pos.le).symm
  have rem : ∀ u : ℝ, 0 < u → ∃ x, |x| ≤ 1 ∧ Real.exp (-u) = 1 - u + u ^ 2 / 2 - u ^ 3 / 6 + u ^ 4 * x := by
    intro u hu
    obtain ⟨h1, h2⟩ := exp_bounds u hu.le
    refine ⟨(Real.exp (-u) - (1 - u + u ^ 2 / 2 - u ^ 3 / 6)) / u ^ 4, ?_, by field_simp; ring⟩
    rw [abs_le]
    have h4 : 0 < u ^ 4 := by positivity
    constructor
    · rw [le_div_iff₀ h4]; nlinarith
    · rw [div_le_iff₀ h4]; nlinarith
  have remi : ∀ x : ℝ, 0 < x → ∃ t, |t| ≤ 1 ∧ (∫ t in (0 : ℝ)..x, Real.exp (-t ^ 2)) = x - x ^ 3 / 3 + x ^ 5 / 10 - x ^ 7 / 42 + x ^ 9 * t := by
    intro x hx
    obtain ⟨h1, h2⟩ := int_bounds x hx.le
    refine ⟨((∫ t in (0 : ℝ)..x, Real.exp (-t ^ 2)) - (x - x ^ 3 / 3 + x ^ 5 / 10 - x ^ 7 / 42)) / x ^ 9, ?_, by field_simp; ring⟩
    rw [abs_le]
    have h4 : 0 < x ^ 9 := by positivity
    constructor
    · rw [le_div_iff₀ h4]; nlinarith
    · rw [div_le_iff₀ h4]; nlinarith
  obtain ⟨x1, b1, e1⟩ := rem (a * a * (r * r)) (by positivity)
  obtain ⟨x2, b2, e2⟩ := rem (2 * (a * a * (r * r))) (by positivity)
  obtain ⟨x3, b3, e3⟩ := remi (a * r) (by positivity)
  refine ⟨x1, x2, x3, b1, b2, b3, ?_⟩
  have t6 : 1 / Real.exp (r * r * (a * a)) = Real.exp (-(a * a * (r * r))) := by rw [Real.exp_neg, one_div]; congr 2; ring
  have t37 : 1 / (Real.exp (r * r * (a * a)) * Real.exp (r * r * (a * a))) = Real.exp (-(2 * (a * a * (r * r)))) := by
    rw [Real.exp_neg, one_div, ← Real.exp_add]; congr 2; ring
  have t8 : erf (a * r) = 2 * (1 / Real.sqrt Real.pi) * (a * r - (a * r) ^ 3 / 3 + (a * r) ^ 5 / 10 - (a * r) ^ 7 / 42 + (a * r) ^ 9 * x3) := by
    unfold erf; rw [e3]; ring
  have t8r : erf (a * r) / r = 2 * (1 / Real.sqrt Real.pi) * (a - a * (a * r) ^ 2 / 3 + a * (a * r) ^ 4 / 10 - a * (a * r) ^ 6 / 42 + a * (a * r) ^ 8 * x3) := by
    rw [t8]; field_simp
  have tp : 1 / Real.pi = (1 / Real.sqrt Real.pi) ^ 2 := by
    rw [div_pow, Real.sq_sqrt Real.pi_pos.le, one_pow]
  obtain ⟨w, hw⟩ : ∃ w, w = 1 / Real.sqrt Real.pi := ⟨_, rfl⟩
  have hA : regAnalytic a b r = -2 * b * erf (a * r) * (1 / Real.exp (r * r * (a * a))) * (a * a) * r + 2 * erf (a * r) * (1 / Real.exp (r * r * (a * a))) * a * w * r
      + 2 * (1 / Real.exp (r * r * (a * a))) * (a * a * a) * (w * (r * r)) - 4 * (1 / Real.exp (r * r * (a * a))) * a * w
      - 2 * b * (1 / Real.exp (r * r * (a * a))) * (a * a * (a * a) * (r * r)) + 3 * b * (1 / Real.exp (r * r * (a * a))) * (a * a)
      + 2 * (b * b) * (1 / (Real.exp (r * r * (a * a)) * Real.exp (r * r * (a * a)))) * (a * a * (a * a) * (r * r))
      - 4 * b * (1 / (Real.exp (r * r * (a * a)) * Real.exp (r * r * (a * a)))) * (a * a * a) * (w * (r * r))
      + 2 * (1 / (Real.exp (r * r * (a * a)) * Real.exp (r * r * (a * a)))) * (a * a) * (1 / Real.pi) * (r * r) + erf (a * r) * erf (a * r) / 2 - 1 / 2 - erf (a * r) / r := by
    unfold regAnalytic; rw [hw]; ring
  have hT : regTaylor a b r = 4 * (-1 / 8 + a ^ 8 * (b - 3 / 8) * r ^ 6 * b - a ^ 6 * b * (b - 7 / 8) * r ^ 4 + a ^ 4 * (b - 5 / 2) * b * r ^ 2 / 2 + 3 / 4 * b * a ^ 2)
      - 176 / 15 * a * ((-47 / 66 * r ^ 6 * a ^ 5 + 10 / 11 * r ^ 4 * a ^ 3 - 15 / 22 * r ^ 2 * a) * w ^ 2
        + (45 / 88 + a ^ 6 * (b - 45 / 308) * r ^ 6 - 25 / 22 * a ^ 4 * r ^ 4 * (b - 63 / 200) + 15 / 22 * a ^ 2 * (b - 5 / 6) * r ^ 2) * w) := by
    unfold regTaylor
    simp only
    rw [hw, show Real.sqrt Real.pi * Real.pi = Real.sqrt Real.pi * (Real.sqrt Real.pi * Real.sqrt Real.pi) by rw [← hpi]]
    generalize hq : Real.sqrt Real.pi = s at *
    rw [hpi]
    field_simp
    ring
  rw [hA, hT, tp, ← hw, t8r, t8, t6, t37, e1, e2, ← hw]
  unfold quot
  ring

/-- derivative of the exponent of `phi` -/
theorem hasDerivAt_h (a b r : ℝ) : HasDerivAt (fun r : ℝ => -r * erf (a * r) - b * Real.exp (-(a * r) ^ 2))
    (-erf (a * r) - r * (2 / Real.sqrt Real.pi * Real.exp (-(a * r) ^ 2) * a) + b * (2 * a ^ 2 * r) * Real.exp (-(a * r) ^ 2)) r := by
  have l : HasDerivAt (fun r : ℝ => a * r) a r := by simpa using (hasDerivAt_id r).const_mul a
  have e : HasDerivAt (fun r : ℝ => erf (a * r)) (2 / Real.sqrt Real.pi * Real.exp (-(a * r) ^ 2) * a) r := (hasDerivAt_erf (a * r)).comp r l
  have g : HasDerivAt (fun r : ℝ => Real.exp (-(a * r) ^ 2)) (Real.exp (-(a * r) ^ 2) * -(2 * (a * r) * a)) r := by
    have := ((l.pow 2).neg).exp
    simpa using this
  have := ((hasDerivAt_neg r).mul e).sub (g.const_mul b)
  exact this.congr_deriv (by simp; ring)

theorem hasDerivAt_phi (a b r : ℝ) : HasDerivAt (phi a b)
    (phi a b r * (-erf (a * r) - r * (2 / Real.sqrt Real.pi * Real.exp (-(a * r) ^ 2) * a) + b * (2 * a ^ 2 * r) * Real.exp (-(a * r) ^ 2))) r := by
  have := ((hasDerivAt_h a b r).exp).div_const (Real.sqrt Real.pi)
  refine (show HasDerivAt (phi a b) _ r from this).congr_deriv ?_
  unfold phi; ring

/-- `r φ` has second derivative `2 (V + 1/2) r φ` -/
theorem radial_eq (a b r : ℝ) (hr : r ≠ 0) :
    ∃ d : ℝ → ℝ, (∀ x, HasDerivAt (fun x => x * phi a b x) (d x) x) ∧ HasDerivAt d (2 * (regAnalytic a b r + 1 / 2) * (r * phi a b r)) r := by
  have h1 : ∀ x, HasDerivAt (fun x => x * phi a b x) (phi a b x + x * (phi a b x * (-erf (a * x) - x * (2 / Real.sqrt Real.pi * Real.exp (-(a * x) ^ 2) * a)
      + b * (2 * a ^ 2 * x) * Real.exp (-(a * x) ^ 2)))) x := by
    intro x
    exact ((hasDerivAt_id x).mul (hasDerivAt_phi a b x)).congr_deriv (by simp)
  refine ⟨_, h1, ?_⟩
  have l : HasDerivAt (fun r : ℝ => a * r) a r := by simpa using (hasDerivAt_id r).const_mul a
  have e : HasDerivAt (fun r : ℝ => erf (a * r)) (2 / Real.sqrt Real.pi * Real.exp (-(a * r) ^ 2) * a) r := (hasDerivAt_erf (a * r)).comp r l
  have g : HasDerivAt (fun r : ℝ => Real.exp (-(a * r) ^ 2)) (Real.exp (-(a * r) ^ 2) * -(2 * (a * r) * a)) r := by
    have := ((l.pow 2).neg).exp
    simpa using this
  have hk : HasDerivAt (fun x : ℝ => -erf (a * x) - x * (2 / Real.sqrt Real.pi * Real.exp (-(a * x) ^ 2) * a) + b * (2 * a ^ 2 * x) * Real.exp (-(a * x) ^ 2)) _ r :=
    ((e.neg).sub ((hasDerivAt_id r).mul (((g.const_mul (2 / Real.sqrt Real.pi))).mul_const a))).add
      ((((hasDerivAt_id r).const_mul (2 * a ^ 2)).const_mul b).mul g)
  have := (hasDerivAt_phi a b r).add ((hasDerivAt_id r).mul ((hasDerivAt_phi a b r).mul hk))
  refine this.congr_deriv ?_
  have hs : Real.sqrt Real.pi ≠ 0 := (Real.sqrt_pos.2 Real.pi_pos).ne'
  have hpi : Real.pi = Real.sqrt Real.pi * Real.sqrt Real.pi := (Real.mul_self_sqrt Real.pi_pos.le).symm
  have t6 : 1 / Real.exp (r * r * (a * a)) = Real.exp (-(a * r) ^ 2) := by rw [Real.exp_neg, one_div]; congr 2; ring
  have t37 : 1 / (Real.exp (r * r * (a * a)) * Real.exp (r * r * (a * a))) = Real.exp (-(a * r) ^ 2) * Real.exp (-(a * r) ^ 2) := by
    rw [← t6]; field_simp
  unfold regAnalytic
  simp only [id, Pi.neg_apply, Pi.mul_apply, t6, t37]
  generalize erf (a * r) = E
  generalize Real.exp (-(a * r) ^ 2) = X
  generalize phi a b r = p
  generalize hq : Real.sqrt Real.pi = s at *
  rw [hpi]
  field_simp
  ring

/-! ## Piecewise potentials -/

theorem hasDerivAt_left {f g : ℝ → ℝ} {c d x : ℝ} (hf : HasDerivAt f c x) (hg : HasDerivAt g d x) (h : ∀ y, y ≤ x → f y = g y) : c = d :=
  UniqueDiffWithinAt.eq_deriv (Iic x) (uniqueDiffOn_Iic x x self_mem_Iic) hf.hasDerivWithinAt ((hg.hasDerivWithinAt).congr (fun y hy => h y hy) (h x le_rfl))

theorem hasDerivAt_right {f g : ℝ → ℝ} {c d x : ℝ} (hf : HasDerivAt f c x) (hg : HasDerivAt g d x) (h : ∀ y, x ≤ y → f y = g y) : c = d :=
  UniqueDiffWithinAt.eq_deriv (Ici x) (uniqueDiffOn_Ici x x self_mem_Ici) hf.hasDerivWithinAt ((hg.hasDerivWithinAt).congr (fun y hy => h y hy) (h x le_rfl))

theorem deriv_deriv_hasDerivAt {f : ℝ → ℝ} {x : ℝ} (h : ContDiffAt ℝ 2 f x) : HasDerivAt (deriv f) (deriv (deriv f) x) x := by
  have h1 : ContDiffAt ℝ 1 (deriv f) x := by
    have := h.fderiv_right (m := 1) (by norm_num)
    have h2 : deriv f = fun y => fderiv ℝ f y 1 := by funext y; exact (fderiv_apply_one_eq_deriv).symm
    rw [h2]
    exact this.clm_apply contDiffAt_const
  exact (h1.differentiableAt (by norm_num)).hasDerivAt

/-- second derivatives on the two sides of a point of smoothness agree -/
theorem second_agree {f g h g' h' : ℝ → ℝ} {x c d : ℝ} (hf : ContDiffAt ℝ 2 f x) (hl : ∀ y, y ≤ x → f y = g y) (hr : ∀ y, x ≤ y → f y = h y)
    (hg : ∀ y, HasDerivAt g (g' y) y) (hh : ∀ y, x ≤ y → HasDerivAt h (h' y) y) (hg' : HasDerivAt g' c x) (hh' : HasDerivAt h' d x) : c = d := by
  have h1 : HasDerivAt f (deriv f x) x := (hf.differentiableAt (by norm_num)).hasDerivAt
  have h2 := deriv_deriv_hasDerivAt hf
  have e1 : ∀ y, y ≤ x → deriv f y = g' y := by
    intro y hy
    rcases hy.eq_or_lt with rfl | hy
    · exact hasDerivAt_left h1 (hg y) hl
    · have : f =ᶠ[𝓝 y] g := by filter_upwards [Iio_mem_nhds hy] with z hz using hl z (le_of_lt hz)
      rw [this.deriv_eq, (hg y).deriv]
  have e2 : ∀ y, x ≤ y → deriv f y = h' y := by
    intro y hy
    rcases hy.eq_or_lt with rfl | hy
    · exact hasDerivAt_right h1 (hh x le_rfl) hr
    · have : f =ᶠ[𝓝 y] h := by filter_upwards [Ioi_mem_nhds hy] with z hz using hr z (le_of_lt hz)
      rw [this.deriv_eq, (hh y hy.le).deriv]
  rw [← hasDerivAt_left h2 hg' e1, ← hasDerivAt_right h2 hh' e2]

theorem hasDerivAt_point (Z r : ℝ) (hr : r ≠ 0) : HasDerivAt (fun r => -Z / r) (Z / r ^ 2) r := by
  have := (hasDerivAt_inv hr).const_mul (-Z)
  simp only [div_eq_mul_inv]
  exact this.congr_deriv (by field_simp)

theorem hasDerivAt_point2 (Z r : ℝ) (hr : r ≠ 0) : HasDerivAt (fun r => Z / r ^ 2) (-2 * Z / r ^ 3) r := by
  have := ((hasDerivAt_pow 2 r).inv (pow_ne_zero 2 hr)).const_mul Z
  simp only [div_eq_mul_inv]
  exact this.congr_deriv (by field_simp; norm_num; ring)

theorem hasDerivAt_inner (Z R r : ℝ) : HasDerivAt (fun r => -Z / (2 * R) * (3 - (r / R) ^ 2)) (Z / R ^ 3 * r) r := by
  have := ((((hasDerivAt_id r).div_const R).pow 2).const_sub 3).const_mul (-Z / (2 * R))
  refine this.congr_deriv ?_
  by_cases hR : R = 0
  · subst hR; simp
  · simp; field_simp

theorem spherical_left (Z R : ℝ) (hR : 0 < R) (y : ℝ) (hy : y ≤ R) : sphericalV Z R y = -Z / (2 * R) * (3 - (y / R) ^ 2) := by
  unfold sphericalV
  split
  · have : y = R := le_antisymm hy ‹_›
    subst this; field_simp; norm_num
  · rfl

theorem spherical_right (Z R y : ℝ) (hy : R ≤ y) : sphericalV Z R y = -Z / y := if_pos hy

theorem hollow_left (Z R y : ℝ) (hy : y ≤ R) : hollowV Z R y = -Z / R := by
  unfold hollowV
  split
  · rw [le_antisymm hy ‹_›]
  · rfl

theorem hollow_right (Z R y : ℝ) (hy : R ≤ y) : hollowV Z R y = -Z / y := if_pos hy

theorem contDiffAt_point (Z x : ℝ) (hx : x ≠ 0) (n : WithTop ℕ∞) : ContDiffAt ℝ n (fun r => -Z / r) x :=
  contDiffAt_const.div contDiffAt_id hx

theorem spherical_smooth (Z R x : ℝ) (hR : 0 < R) (hx : x ≠ R) (n : WithTop ℕ∞) : ContDiffAt ℝ n (sphericalV Z R) x := by
  rcases lt_or_gt_of_ne hx with h | h
  · have e : sphericalV Z R =ᶠ[𝓝 x] fun y => -Z / (2 * R) * (3 - (y / R) ^ 2) := by
      filter_upwards [Iio_mem_nhds h] with z hz using spherical_left Z R hR z (le_of_lt hz)
    refine ContDiffAt.congr_of_eventuallyEq ?_ e
    exact contDiffAt_const.mul (contDiffAt_const.sub ((contDiffAt_id.div_const R).pow 2))
  · have e : sphericalV Z R =ᶠ[𝓝 x] fun y => -Z / y := by
      filter_upwards [Ioi_mem_nhds h] with z hz using spherical_right Z R z (le_of_lt hz)
    exact (contDiffAt_point Z x (hR.trans h).ne' n).congr_of_eventuallyEq e

theorem hollow_smooth (Z R x : ℝ) (hR : 0 < R) (hx : x ≠ R) (n : WithTop ℕ∞) : ContDiffAt ℝ n (hollowV Z R) x := by
  rcases lt_or_gt_of_ne hx with h | h
  · have e : hollowV Z R =ᶠ[𝓝 x] fun _ => -Z / R := by
      filter_upwards [Iio_mem_nhds h] with z hz using hollow_left Z R z (le_of_lt hz)
    exact contDiffAt_const.congr_of_eventuallyEq e
  · have e : hollowV Z R =ᶠ[𝓝 x] fun y => -Z / y := by
      filter_upwards [Ioi_mem_nhds h] with z hz using hollow_right Z R z (le_of_lt hz)
    exact (contDiffAt_point Z x (hR.trans h).ne' n).congr_of_eventuallyEq e

theorem spherical_kink (Z R : ℝ) (hZ : Z ≠ 0) (hR : 0 < R) : ¬ ContDiffAt ℝ 2 (sphericalV Z R) R := by
  intro h
  have := second_agree h (spherical_left Z R hR) (spherical_right Z R) (hasDerivAt_inner Z R)
    (fun y hy => hasDerivAt_point Z y (hR.trans_le hy).ne') ((hasDerivAt_id R).const_mul (Z / R ^ 3)) (hasDerivAt_point2 Z R hR.ne')
  have h3 : R ^ 3 ≠ 0 := by positivity
  field_simp at this
  apply hZ; linarith

theorem hollow_kink (Z R : ℝ) (hZ : Z ≠ 0) (hR : 0 < R) : ¬ DifferentiableAt ℝ (hollowV Z R) R := by
  intro h
  have e1 := hasDerivAt_left h.hasDerivAt (hasDerivAt_const R (-Z / R)) (hollow_left Z R)
  have e2 := hasDerivAt_right h.hasDerivAt (hasDerivAt_point Z R hR.ne') (hollow_right Z R)
  rw [e1] at e2
  have : Z / R ^ 2 ≠ 0 := div_ne_zero hZ (by positivity)
  exact this e2.symm

theorem spherical_continuous (Z R : ℝ) (hR : 0 < R) : Continuous (sphericalV Z R) := by
  rw [continuous_iff_continuousAt]
  intro x
  by_cases hx : x = R
  · subst hx
    refine continuousAt_iff_continuous_left'_right'.2 ⟨?_, ?_⟩
    · exact ((hasDerivAt_inner Z x x).continuousAt.continuousWithinAt).congr (fun y hy => spherical_left Z x hR y (le_of_lt hy)) (spherical_left Z x hR x le_rfl)
    · exact ((hasDerivAt_point Z x hR.ne').continuousAt.continuousWithinAt).congr (fun y hy => spherical_right Z x y (le_of_lt hy)) (spherical_right Z x x le_rfl)
  · exact (spherical_smooth Z R x hR hx 1).continuousAt

theorem hollow_continuous (Z R : ℝ) (hR : 0 < R) : Continuous (hollowV Z R) := by
  rw [continuous_iff_continuousAt]
  intro x
  by_cases hx : x = R
  · subst hx
    refine continuousAt_iff_continuous_left'_right'.2 ⟨?_, ?_⟩
    · exact (continuousAt_const.continuousWithinAt).congr (fun y hy => hollow_left Z x y (le_of_lt hy)) (hollow_left Z x x le_rfl)
    · exact ((hasDerivAt_point Z x hR.ne').continuousAt.continuousWithinAt).congr (fun y hy => hollow_right Z x y (le_of_lt hy)) (hollow_right Z x x le_rfl)
  · exact (hollow_smooth Z R x hR hx 1).continuousAt

/-! ## Charge distributions -/

theorem ball_indicator (R : ℝ) : ball R = (Iic R).indicator fun s => 3 * s ^ 2 / R ^ 3 := by
  funext s; unfold ball indicator; simp

theorem ball_electrostatic (Z R r : ℝ) (hR : 0 < R) (hr : 0 < r) : electrostatic (ball R) Z r = sphericalV Z R r := by
  have key : ∀ m : ℝ, 0 ≤ m → (∫ s in (0 : ℝ)..m, 3 * s ^ 2 / R ^ 3) = m ^ 3 / R ^ 3 := by
    intro m _
    rw [intervalIntegral.integral_div, intervalIntegral.integral_const_mul, integral_pow]
    norm_num; ring
  have inner : (∫ s in (0 : ℝ)..r, ball R s) = (min r R) ^ 3 / R ^ 3 := by
    rw [← key _ (le_min hr.le hR.le), intervalIntegral.integral_of_le hr.le, intervalIntegral.integral_of_le (le_min hr.le hR.le), ball_indicator,
      setIntegral_indicator measurableSet_Iic]
    congr 2
    ext s; simp [and_assoc]
  have outer : (∫ s in Ioi r, ball R s / s) = if r ≤ R then 3 * (R ^ 2 - r ^ 2) / (2 * R ^ 3) else 0 := by
    have e : (fun s => ball R s / s) = (Iic R).indicator fun s => 3 * s ^ 2 / R ^ 3 / s := by
      funext s; rw [ball_indicator]; unfold indicator; split <;> simp
    rw [e, setIntegral_indicator measurableSet_Iic, Ioi_inter_Iic]
    split
    · rename_i h
      rw [← intervalIntegral.integral_of_le h]
      have : (∫ s in r..R, 3 * s ^ 2 / R ^ 3 / s) = ∫ s in r..R, 3 / R ^ 3 * s := by
        refine intervalIntegral.integral_congr fun s hs => ?_
        rw [uIcc_of_le h] at hs
        have : s ≠ 0 := (hr.trans_le hs.1).ne'
        field_simp
      rw [this, intervalIntegral.integral_const_mul, integral_id]
      field_simp
    · rename_i h
      rw [Ioc_eq_empty (by linarith), setIntegral_empty]
  unfold electrostatic
  rw [inner, outer]
  rcases le_total r R with h | h
  · rw [if_pos h, min_eq_left h, spherical_left Z R hR r h]
    field_simp; ring
  · rw [spherical_right Z R r h, min_eq_right h]
    have : (if r ≤ R then 3 * (R ^ 2 - r ^ 2) / (2 * R ^ 3) else 0) = 0 := by
      split
      · have : r = R := le_antisymm ‹_› h
        subst this; simp
      · rfl
    rw [this]
    have h3 : R ^ 3 ≠ 0 := by positivity
    rw [div_self h3]; ring

theorem ball_meanSquare (R : ℝ) (hR : 0 < R) : meanSquare (ball R) = 3 / 5 * R ^ 2 := by
  have e : (fun s => s ^ 2 * ball R s) = (Iic R).indicator fun s => 3 / R ^ 3 * s ^ 4 := by
    funext s; rw [ball_indicator]; unfold indicator; split
    · ring
    · simp
  unfold meanSquare
  rw [e, setIntegral_indicator measurableSet_Iic, Ioi_inter_Iic, ← intervalIntegral.integral_of_le hR.le, intervalIntegral.integral_const_mul, integral_pow]
  norm_num; field_simp

theorem tendsto_gauss (mu : ℝ) (hmu : 0 < mu) : Tendsto (fun s : ℝ => Real.exp (-(mu * s) ^ 2)) atTop (𝓝 0) := by
  refine Real.tendsto_exp_atBot.comp (tendsto_neg_atTop_atBot.comp ?_)
  exact (tendsto_pow_atTop (by norm_num)).comp (tendsto_id.const_mul_atTop hmu)

theorem hasDerivAt_gauss (mu s : ℝ) : HasDerivAt (fun r : ℝ => Real.exp (-(mu * r) ^ 2)) (Real.exp (-(mu * s) ^ 2) * -(2 * (mu * s) * mu)) s := by
  have l : HasDerivAt (fun r : ℝ => mu * r) mu s := by simpa using (hasDerivAt_id s).const_mul mu
  have := ((l.pow 2).neg).exp
  simpa using this

theorem gaussian_electrostatic (Z mu r : ℝ) (hmu : 0 < mu) (hr : 0 < r) : electrostatic (gaussian mu) Z r = -Z * erf (mu * r) / r := by
  have inner : (∫ s in (0 : ℝ)..r, gaussian mu s) = erf (mu * r) - 2 * mu * r / Real.sqrt Real.pi * Real.exp (-(mu * r) ^ 2) := by
    have hd : ∀ s, HasDerivAt (fun s => erf (mu * s) - 2 * mu / Real.sqrt Real.pi * (s * Real.exp (-(mu * s) ^ 2))) (gaussian mu s) s := by
      intro s
      have l : HasDerivAt (fun r : ℝ => mu * r) mu s := by simpa using (hasDerivAt_id s).const_mul mu
      have e : HasDerivAt (fun r : ℝ => erf (mu * r)) (2 / Real.sqrt Real.pi * Real.exp (-(mu * s) ^ 2) * mu) s := (hasDerivAt_erf (mu * s)).comp s l
      refine (e.sub (((hasDerivAt_id s).mul (hasDerivAt_gauss mu s)).const_mul (2 * mu / Real.sqrt Real.pi))).congr_deriv ?_
      unfold gaussian; simp only [id]; ring
    rw [intervalIntegral.integral_eq_sub_of_hasDerivAt (fun s _ => hd s)
      ((show Continuous (gaussian mu) by unfold gaussian; fun_prop).intervalIntegrable _ _)]
    simp [erf_zero]; ring
  have outer : (∫ s in Ioi r, gaussian mu s / s) = 2 * mu / Real.sqrt Real.pi * Real.exp (-(mu * r) ^ 2) := by
    have hd : ∀ s ∈ Ici r, HasDerivAt (fun s => -(2 * mu / Real.sqrt Real.pi) * Real.exp (-(mu * s) ^ 2)) (gaussian mu s / s) s := by
      intro s hs
      have : s ≠ 0 := (hr.trans_le hs).ne'
      refine ((hasDerivAt_gauss mu s).const_mul (-(2 * mu / Real.sqrt Real.pi))).congr_deriv ?_
      unfold gaussian; field_simp; ring
    rw [integral_Ioi_of_hasDerivAt_of_nonneg' hd (fun s hs => ?_) (l := 0) ?_]
    · ring
    · simpa using (tendsto_gauss mu hmu).const_mul (-(2 * mu / Real.sqrt Real.pi))
    · have : 0 < s := hr.trans hs
      unfold gaussian; positivity
  unfold electrostatic
  rw [inner, outer]
  field_simp; ring

theorem gaussian_meanSquare (mu : ℝ) (hmu : 0 < mu) : meanSquare (gaussian mu) = 3 / (2 * mu ^ 2) := by
  have h := integral_rpow_mul_exp_neg_mul_rpow (p := 2) (q := 4) (b := mu ^ 2) (by norm_num) (by norm_num) (by positivity)
  have hG : Real.Gamma ((4 + 1) / 2) = 3 / 4 * Real.sqrt Real.pi := by
    have := Real.Gamma_nat_add_half 2
    norm_num [Nat.doubleFactorial] at this
    rw [show ((4 : ℝ) + 1) / 2 = 5 / 2 by norm_num, this]; ring
  have hb : (mu ^ 2) ^ (-(4 + 1 : ℝ) / 2) = 1 / mu ^ 5 := by
    rw [← Real.rpow_natCast mu 2, ← Real.rpow_mul hmu.le, show ((2 : ℕ) : ℝ) * (-(4 + 1) / 2) = -((5 : ℕ) : ℝ) by norm_num, Real.rpow_neg hmu.le,
      Real.rpow_natCast, one_div]
  have e : (fun s : ℝ => s ^ 2 * gaussian mu s) = fun s => 4 * mu ^ 3 / Real.sqrt Real.pi * (s ^ (4 : ℝ) * Real.exp (-mu ^ 2 * s ^ (2 : ℝ))) := by
    funext s
    rw [show (4 : ℝ) = ((4 : ℕ) : ℝ) by norm_num, show (2 : ℝ) = ((2 : ℕ) : ℝ) by norm_num, Real.rpow_natCast, Real.rpow_natCast]
    unfold gaussian
    rw [show -mu ^ 2 * s ^ 2 = -(mu * s) ^ 2 by ring]
    push_cast
    ring
  unfold meanSquare
  rw [e, integral_const_mul, h, hG, hb]
  have hs : Real.sqrt Real.pi ≠ 0 := (Real.sqrt_pos.2 Real.pi_pos).ne'
  field_simp

/-! ## Far from the nucleus -/

theorem tendsto_erf : Tendsto erf atTop (𝓝 1) := by
  have hi : Integrable fun t : ℝ => Real.exp (-t ^ 2) := by
    have := integrable_exp_neg_mul_sq (zero_lt_one : (0 : ℝ) < 1)
    simpa using this
  have h := intervalIntegral_tendsto_integral_Ioi (μ := volume) (f := fun t : ℝ => Real.exp (-t ^ 2)) 0 hi.integrableOn tendsto_id
  have h1 := integral_gaussian_Ioi 1
  simp only [div_one, neg_mul, one_mul] at h1
  rw [h1] at h
  have := h.const_mul (2 / Real.sqrt Real.pi)
  have hs : Real.sqrt Real.pi ≠ 0 := (Real.sqrt_pos.2 Real.pi_pos).ne'
  rw [show 2 / Real.sqrt Real.pi * (Real.sqrt Real.pi / 2) = 1 by field_simp] at this
  exact this

theorem erf_tail (x : ℝ) (hx : 0 < x) : 1 - erf x ≤ Real.exp (-x ^ 2) / (Real.sqrt Real.pi * x) := by
  have hs : Real.sqrt Real.pi ≠ 0 := (Real.sqrt_pos.2 Real.pi_pos).ne'
  have hx' : ∀ y : ℝ, HasDerivAt (fun y : ℝ => Real.exp (-y ^ 2)) (Real.exp (-y ^ 2) * -(2 * y)) y := by
    intro y
    have := hasDerivAt_gauss 1 y
    simpa using this
  have hd : ∀ y : ℝ, 0 < y → HasDerivAt (fun y => erf y + Real.exp (-y ^ 2) * y⁻¹ / Real.sqrt Real.pi) (-(Real.exp (-y ^ 2) / (y ^ 2 * Real.sqrt Real.pi))) y := by
    intro y hy
    refine ((hasDerivAt_erf y).add (((hx' y).mul (hasDerivAt_inv hy.ne')).div_const _)).congr_deriv ?_
    have := hy.ne'
    field_simp
    ring
  have ht : Tendsto (fun y => erf y + Real.exp (-y ^ 2) * y⁻¹ / Real.sqrt Real.pi) atTop (𝓝 1) := by
    have h1 := tendsto_gauss 1 one_pos
    simp only [one_mul] at h1
    have := tendsto_erf.add ((h1.mul tendsto_inv_atTop_zero).div_const (Real.sqrt Real.pi))
    simpa using this
  have hanti : AntitoneOn (fun y => erf y + Real.exp (-y ^ 2) * y⁻¹ / Real.sqrt Real.pi) (Ici x) := by
    refine antitoneOn_of_deriv_nonpos (convex_Ici x) (fun y hy => (hd y (hx.trans_le hy)).continuousAt.continuousWithinAt)
      (fun y hy => ?_) (fun y hy => ?_)
    · rw [interior_Ici] at hy
      exact (hd y (hx.trans hy)).differentiableAt.differentiableWithinAt
    · rw [interior_Ici] at hy
      rw [(hd y (hx.trans hy)).deriv]
      have : 0 ≤ Real.exp (-y ^ 2) / (y ^ 2 * Real.sqrt Real.pi) := by positivity
      linarith
  have := le_of_tendsto ht (b := erf x + Real.exp (-x ^ 2) * x⁻¹ / Real.sqrt Real.pi) (by
    filter_upwards [eventually_ge_atTop x] with y hy using hanti self_mem_Ici hy hy)
  have e : Real.exp (-x ^ 2) / (Real.sqrt Real.pi * x) = Real.exp (-x ^ 2) * x⁻¹ / Real.sqrt Real.pi := by field_simp
  rw [e]; linarith

theorem tendsto_pow_gauss (a : ℝ) (ha : 0 < a) (k : ℕ) : Tendsto (fun r : ℝ => r ^ k * Real.exp (-(a * r) ^ 2)) atTop (𝓝 0) := by
  have h := (Real.tendsto_pow_mul_exp_neg_atTop_nhds_zero k).comp ((tendsto_pow_atTop (α := ℝ) (n := 2) (by norm_num)).comp (tendsto_id.const_mul_atTop ha))
  have h2 := h.const_mul (1 / a ^ (2 * k))
  rw [mul_zero] at h2
  refine squeeze_zero' ?_ ?_ h2
  · filter_upwards [eventually_ge_atTop (1 : ℝ)] with r hr
    have : 0 < r := by linarith
    positivity
  · filter_upwards [eventually_ge_atTop (1 : ℝ)] with r hr
    have h0 : 0 < r := by linarith
    simp only [Function.comp, id]
    rw [← mul_assoc]
    refine mul_le_mul_of_nonneg_right ?_ (Real.exp_pos _).le
    have : 1 / a ^ (2 * k) * ((a * r) ^ 2) ^ k = r ^ (2 * k) := by
      rw [← pow_mul, mul_pow]; field_simp
    rw [this]
    exact pow_le_pow_right₀ hr (by omega)

theorem tendsto_reg (a b : ℝ) (ha : 0 < a) : Tendsto (fun r => r * regAnalytic a b r) atTop (𝓝 (-1)) := by
  have hl : Tendsto (fun r : ℝ => a * r) atTop atTop := tendsto_id.const_mul_atTop ha
  have hE : Tendsto (fun r => erf (a * r)) atTop (𝓝 1) := tendsto_erf.comp hl
  have hX := tendsto_pow_gauss a ha 0
  have hX1 := tendsto_pow_gauss a ha 1
  have hX2 := tendsto_pow_gauss a ha 2
  have hX3 := tendsto_pow_gauss a ha 3
  simp only [pow_zero, one_mul, pow_one] at hX hX1
  have hs : 0 < Real.sqrt Real.pi := Real.sqrt_pos.2 Real.pi_pos
  have hT : Tendsto (fun r => r * (1 - erf (a * r))) atTop (𝓝 0) := by
    have h2 := hX.const_mul (1 / (Real.sqrt Real.pi * a))
    rw [mul_zero] at h2
    refine squeeze_zero' ?_ ?_ h2
    · filter_upwards [eventually_gt_atTop (0 : ℝ)] with r hr
      exact mul_nonneg hr.le (sub_nonneg.2 (erf_le_one _ (by positivity)))
    · filter_upwards [eventually_gt_atTop (0 : ℝ)] with r hr
      calc r * (1 - erf (a * r)) ≤ r * (Real.exp (-(a * r) ^ 2) / (Real.sqrt Real.pi * (a * r))) :=
            mul_le_mul_of_nonneg_left (erf_tail _ (by positivity)) hr.le
        _ = 1 / (Real.sqrt Real.pi * a) * Real.exp (-(a * r) ^ 2) := by field_simp
  have key : Tendsto (fun r : ℝ => (r ^ 2 * Real.exp (-(a * r) ^ 2)) * erf (a * r) * (-2 * b * a ^ 2 + 2 * a / Real.sqrt Real.pi)
      + (r ^ 3 * Real.exp (-(a * r) ^ 2)) * (2 * a ^ 3 / Real.sqrt Real.pi - 2 * b * a ^ 4) + (r * Real.exp (-(a * r) ^ 2)) * (3 * b * a ^ 2 - 4 * a / Real.sqrt Real.pi)
      + (r ^ 3 * Real.exp (-(a * r) ^ 2)) * Real.exp (-(a * r) ^ 2) * (2 * b ^ 2 * a ^ 4 - 4 * b * a ^ 3 / Real.sqrt Real.pi + 2 * a ^ 2 / Real.pi)
      + (r * (1 - erf (a * r))) * (-(1 + erf (a * r)) / 2) - erf (a * r)) atTop (𝓝 (-1)) := by
    have := (((((hX2.mul hE).mul_const (-2 * b * a ^ 2 + 2 * a / Real.sqrt Real.pi)).add (hX3.mul_const (2 * a ^ 3 / Real.sqrt Real.pi - 2 * b * a ^ 4))).add
      (hX1.mul_const (3 * b * a ^ 2 - 4 * a / Real.sqrt Real.pi))).add ((hX3.mul hX).mul_const (2 * b ^ 2 * a ^ 4 - 4 * b * a ^ 3 / Real.sqrt Real.pi + 2 * a ^ 2 / Real.pi))).add
      (hT.mul (((hE.const_add 1).neg).div_const 2))
    have := this.sub hE
    simpa using this
  refine key.congr' ?_
  filter_upwards [eventually_gt_atTop (0 : ℝ)] with r hr
  have t6 : 1 / Real.exp (r * r * (a * a)) = Real.exp (-(a * r) ^ 2) := by rw [Real.exp_neg, one_div]; congr 2; ring
  have t37 : 1 / (Real.exp (r * r * (a * a)) * Real.exp (r * r * (a * a))) = Real.exp (-(a * r) ^ 2) * Real.exp (-(a * r) ^ 2) := by
    rw [← t6]; field_simp
  unfold regAnalytic
  simp only [t6, t37]
  generalize Real.exp (-(a * r) ^ 2) = X
  generalize erf (a * r) = E
  field_simp
  ring

end Nucleus
end HelFEM
