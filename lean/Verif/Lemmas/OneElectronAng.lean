import Verif.Lemmas.OneElectron
import Verif.Lemmas.ErfcMultipole

/-!
# Lemmas for C70: angular integrals of potentials, multipole expansion of the inverse distance
-/

namespace HelFEM
namespace OneE

open Polynomial Finset Harm MeasureTheory

theorem sphere_const_mul (z : ℂ) (F : ℝ → ℝ → ℂ) : Harm.Spec.sphere (fun c p => z * F c p) = z * Harm.Spec.sphere F := by
  unfold Harm.Spec.sphere
  simp only [intervalIntegral.integral_const_mul]

/-- values at the poles do not matter -/
theorem sphere_congr (F G : ℝ → ℝ → ℂ) (h : ∀ c, -1 < c → c < 1 → ∀ p, F c p = G c p) : Harm.Spec.sphere F = Harm.Spec.sphere G := by
  unfold Harm.Spec.sphere
  refine intervalIntegral.integral_congr_ae ?_
  have h1 : ∀ᵐ c : ℝ, c ≠ 1 := compl_mem_ae_iff.2 (measure_singleton 1)
  filter_upwards [h1] with c hc hm
  rw [Set.uIoc_of_le (by norm_num)] at hm
  simp only [h c hm.1 (lt_of_le_of_ne hm.2 hc)]

/-- radial and angular parts of the matrix element of a potential -/
theorem potential_eq {A : Atom} {φ : Nat → Nat → ℝ[X]} (hF : Spec.Functions A.rad φ) (V : ℝ → ℝ → ℝ) (i a j b : Nat) (g : Nat → ℝ → ℝ) (x : ℝ)
    (h : ∀ e < A.rad.nel, ∀ r, A.rad.bnd e < r → r ≤ A.rad.bnd (e + 1) → r ≠ x →
      Harm.Spec.sphere (fun c p => (starRingEnd ℂ) (sph (A.l i) (A.m i) c p) * (V r c : ℝ) * sph (A.l j) (A.m j) c p) = (g e r : ℝ)) :
    Spec.potential A φ V i a j b = ((∑ e ∈ range A.rad.nel, ∫ r in (A.rad.bnd e)..(A.rad.bnd (e + 1)), (φ e a).eval r / r * ((φ e b).eval r / r) * (r ^ 2 * g e r) : ℝ) : ℂ) := by
  unfold Spec.potential Spec.ball
  rw [Complex.ofReal_sum]
  refine sum_congr rfl fun e he => ?_
  rw [mem_range] at he
  rw [← intervalIntegral.integral_ofReal]
  refine intervalIntegral.integral_congr_ae ?_
  have h1 : ∀ᵐ r : ℝ, r ≠ x := compl_mem_ae_iff.2 (measure_singleton x)
  filter_upwards [h1] with r hr hm
  rw [Set.uIoc_of_le (hF.inc e he).le] at hm
  have := h e he r hm.1 hm.2 hr
  have e1 : (fun c p => (starRingEnd ℂ) (Spec.wave (φ e a) (A.l i) (A.m i) r c p) * (V r c : ℝ) * Spec.wave (φ e b) (A.l j) (A.m j) r c p * ((r ^ 2 : ℝ) : ℂ)) =
      fun c p => (((φ e a).eval r / r * ((φ e b).eval r / r) * r ^ 2 : ℝ) : ℂ) * ((starRingEnd ℂ) (sph (A.l i) (A.m i) c p) * (V r c : ℝ) * sph (A.l j) (A.m j) c p) := by
    funext c p
    simp only [Spec.wave, map_mul, Complex.conj_ofReal]
    push_cast
    ring
  rw [e1, sphere_const_mul, this]
  push_cast
  ring

/-! ### The inverse distance -/

/-- `∫ P_L(x) / sqrt(1 - 2xt + t²) dx` -/
noncomputable def invDist (t : ℝ) (p : ℝ[X]) : ℝ := ∫ x in (-1 : ℝ)..1, p.eval x / √(1 - 2 * x * t + t ^ 2)

theorem dist_pos {t x : ℝ} (h0 : 0 < t) (h1 : t < 1) (hx0 : -1 ≤ x) (hx1 : x ≤ 1) : 0 < 1 - 2 * x * t + t ^ 2 := by nlinarith [sq_nonneg (1 - t), mul_pos h0 (sub_pos.2 h1)]

theorem invDist_int {t : ℝ} (h0 : 0 < t) (h1 : t < 1) (p : ℝ[X]) : IntervalIntegrable (fun x => p.eval x / √(1 - 2 * x * t + t ^ 2)) volume (-1) 1 := by
  refine ContinuousOn.intervalIntegrable ?_
  rw [Set.uIcc_of_le (by norm_num)]
  refine ContinuousOn.div (Polynomial.continuous p).continuousOn (by fun_prop) fun x hx => ?_
  exact (Real.sqrt_pos.2 (dist_pos h0 h1 hx.1 hx.2)).ne'

theorem dist_int {t : ℝ} (p : ℝ[X]) : IntervalIntegrable (fun x => p.eval x * √(1 - 2 * x * t + t ^ 2)) volume (-1) 1 := by
  have := Polynomial.continuous p
  exact Continuous.intervalIntegrable (by fun_prop) _ _

theorem invDist_add {t : ℝ} (h0 : 0 < t) (h1 : t < 1) (p q : ℝ[X]) : invDist t (p + q) = invDist t p + invDist t q := by
  unfold invDist
  rw [← intervalIntegral.integral_add (invDist_int h0 h1 p) (invDist_int h0 h1 q)]
  simp only [eval_add, add_div]

theorem invDist_C_mul (t : ℝ) (a : ℝ) (p : ℝ[X]) : invDist t (C a * p) = a * invDist t p := by
  unfold invDist
  rw [← intervalIntegral.integral_const_mul]
  simp only [eval_mul, eval_C, mul_div_assoc]

/-- integration by parts -/
theorem invDist_parts {t : ℝ} (h0 : 0 < t) (h1 : t < 1) (p : ℝ[X]) :
    t * invDist t p = -(p.eval 1 * (1 - t)) + p.eval (-1) * (1 + t) + ((1 + t ^ 2) * invDist t (derivative p) - 2 * t * invDist t (X * derivative p)) := by
  have hd : ∀ x ∈ Set.uIcc (-1 : ℝ) 1, HasDerivAt (fun x => p.eval x * √(1 - 2 * x * t + t ^ 2)) ((derivative p).eval x * √(1 - 2 * x * t + t ^ 2) - t * (p.eval x / √(1 - 2 * x * t + t ^ 2))) x := by
    intro x hx
    rw [Set.uIcc_of_le (by norm_num)] at hx
    have hp := dist_pos h0 h1 hx.1 hx.2
    have h2 : HasDerivAt (fun x : ℝ => 1 - 2 * x * t + t ^ 2) (-(2 * t)) x := by
      have := ((((hasDerivAt_id x).const_mul (2 : ℝ)).mul_const t).const_sub 1).add_const (t ^ 2)
      refine this.congr_deriv ?_
      ring
    have h3 := h2.sqrt hp.ne'
    refine ((p.hasDerivAt x).fun_mul h3).congr_deriv ?_
    have := (Real.sqrt_pos.2 hp).ne'
    field_simp
    ring
  have hi : IntervalIntegrable (fun x => (derivative p).eval x * √(1 - 2 * x * t + t ^ 2) - t * (p.eval x / √(1 - 2 * x * t + t ^ 2))) volume (-1) 1 :=
    (dist_int (derivative p)).sub ((invDist_int h0 h1 p).const_mul t)
  have hint := intervalIntegral.integral_eq_sub_of_hasDerivAt hd hi
  rw [intervalIntegral.integral_sub (dist_int (derivative p)) ((invDist_int h0 h1 p).const_mul t), intervalIntegral.integral_const_mul] at hint
  have e1 : √(1 - 2 * 1 * t + t ^ 2) = 1 - t := by
    rw [show 1 - 2 * 1 * t + t ^ 2 = (1 - t) ^ 2 by ring]; exact Real.sqrt_sq (by linarith)
  have e2 : √(1 - 2 * (-1) * t + t ^ 2) = 1 + t := by
    rw [show 1 - 2 * (-1) * t + t ^ 2 = (1 + t) ^ 2 by ring]; exact Real.sqrt_sq (by linarith)
  rw [e1, e2] at hint
  have e3 : ∫ x in (-1 : ℝ)..1, (derivative p).eval x * √(1 - 2 * x * t + t ^ 2) = (1 + t ^ 2) * invDist t (derivative p) - 2 * t * invDist t (X * derivative p) := by
    unfold invDist
    rw [← intervalIntegral.integral_const_mul, ← intervalIntegral.integral_const_mul, ← intervalIntegral.integral_sub ((invDist_int h0 h1 _).const_mul _) ((invDist_int h0 h1 _).const_mul _)]
    refine intervalIntegral.integral_congr fun x hx => ?_
    rw [Set.uIcc_of_le (by norm_num)] at hx
    have hp := dist_pos h0 h1 hx.1 hx.2
    have hs := (Real.sqrt_pos.2 hp).ne'
    have hq := Real.sq_sqrt hp.le
    simp only [eval_mul, eval_X]
    field_simp
    rw [hq]
    ring
  rw [e3] at hint
  unfold invDist at hint ⊢
  linarith

/-- each Legendre polynomial picks one power -/
theorem invDist_pP {t : ℝ} (h0 : 0 < t) (h1 : t < 1) : ∀ L : Nat, invDist t (Poly.pP L) = 2 * t ^ L / (2 * L + 1) ∧ invDist t (Poly.pP (L + 1)) = 2 * t ^ (L + 1) / (2 * (L + 1 : Nat) + 1)
  | 0 => by
    have a0 := invDist_parts h0 h1 1
    have a1 := invDist_parts h0 h1 X
    have z : invDist t 0 = 0 := by simp [invDist]
    simp only [derivative_one, mul_zero, z, eval_one, derivative_X, mul_one, eval_X] at a0 a1
    have b0 : invDist t 1 = 2 := by
      have : t * invDist t 1 = t * 2 := by linarith
      exact mul_left_cancel₀ h0.ne' this
    rw [b0] at a1
    have b1 : invDist t X = 2 * t / 3 := by
      have : t * invDist t X = t * (2 * t / 3) := by linarith
      exact mul_left_cancel₀ h0.ne' this
    refine ⟨?_, ?_⟩
    · simp only [Poly.pP, b0]; norm_num
    · simp only [Poly.pP, b1]; norm_num
  | L + 1 => by
    obtain ⟨i0, i1⟩ := invDist_pP h0 h1 L
    refine ⟨i1, ?_⟩
    have hD := Erfc.pP_diff L
    have hR := Poly.pP_rec L
    have e1 : (Poly.pP (L + 2)) = (Poly.pP (L + 2) + C (-1) * Poly.pP L) + Poly.pP L := by simp
    have hp := invDist_parts h0 h1 (Poly.pP (L + 2) + C (-1) * Poly.pP L)
    have hv : ∀ n, (Poly.pP n).eval (-1) = (-1) ^ n := by
      intro n
      have := congrArg (eval 1) (pP_refl n)
      simpa [Poly.pP_one] using this
    have hd : derivative (Poly.pP (L + 2) + C (-1) * Poly.pP L) = C (2 * (L : ℝ) + 3) * Poly.pP (L + 1) := by
      rw [← hD]; simp; ring
    have hx : X * (C (2 * (L : ℝ) + 3) * Poly.pP (L + 1)) = C ((L : ℝ) + 2) * Poly.pP (L + 2) + C ((L : ℝ) + 1) * Poly.pP L := by
      rw [hR]; ring
    rw [hd, hx, invDist_add h0 h1, invDist_add h0 h1, invDist_C_mul, invDist_C_mul, invDist_C_mul, invDist_C_mul, i0, i1] at hp
    simp only [eval_add, eval_mul, eval_C, Poly.pP_one, hv] at hp
    have hz : (-1 : ℝ) ^ (L + 2) = (-1) ^ L := by rw [pow_add]; norm_num
    rw [hz] at hp
    have h5 : (2 * (L : ℝ) + 5) ≠ 0 := by positivity
    have h3 : (2 * (L : ℝ) + 3) ≠ 0 := by positivity
    have h1' : (2 * (L : ℝ) + 1) ≠ 0 := by positivity
    rw [show L + 1 + 1 = L + 2 from rfl]
    push_cast at hp ⊢
    rw [show 2 * ((L : ℝ) + 1) + 1 = 2 * L + 3 by ring] at hp
    rw [show 2 * ((L : ℝ) + 2) + 1 = 2 * L + 5 by ring, eq_div_iff h5]
    have hc : (2 * (L : ℝ) + 3) * (2 * t ^ (L + 1) / (2 * L + 3)) = 2 * t ^ (L + 1) := by field_simp
    have hc' : (2 * (L : ℝ) + 1) * (2 * t ^ L / (2 * L + 1)) = 2 * t ^ L := by field_simp
    rw [hc] at hp
    refine mul_left_cancel₀ h0.ne' ?_
    have p1 : t ^ (L + 1) = t ^ L * t := pow_succ _ _
    have p2 : t ^ (L + 2) = t ^ L * t ^ 2 := pow_add _ _ _
    rw [p1] at hp
    rw [p2]
    linear_combination hp - t * hc'

/-- the integral of an angular distribution over the inverse distance -/
theorem invDist_expand {t : ℝ} (h0 : 0 < t) (h1 : t < 1) (f : ℝ → ℝ) (n : Nat) (a : Nat → ℝ) (hf : ∀ c, -1 ≤ c → c ≤ 1 → f c = ∑ L ∈ range n, a L * yx L 0 c) :
    2 * Real.pi * ∫ c in (-1 : ℝ)..1, f c / √(1 - 2 * c * t + t ^ 2) = ∑ L ∈ range n, a L * (√(4 * Real.pi / (2 * L + 1)) * t ^ L) := by
  have e : ∫ c in (-1 : ℝ)..1, f c / √(1 - 2 * c * t + t ^ 2) = ∫ c in (-1 : ℝ)..1, ∑ L ∈ range n, (a L * √((2 * L + 1) / (4 * Real.pi))) * ((Poly.pP L).eval c / √(1 - 2 * c * t + t ^ 2)) := by
    refine intervalIntegral.integral_congr fun c hc => ?_
    rw [Set.uIcc_of_le (by norm_num)] at hc
    simp only [hf c hc.1 hc.2, Finset.sum_div]
    refine sum_congr rfl fun L _ => ?_
    rw [yx_zero L c hc.1 hc.2]
    ring
  rw [e, intervalIntegral.integral_finsetSum fun L _ => (invDist_int h0 h1 _).const_mul _, mul_sum]
  refine sum_congr rfl fun L _ => ?_
  rw [intervalIntegral.integral_const_mul]
  have := (invDist_pP h0 h1 L).1
  unfold invDist at this
  rw [this]
  have hq : √((2 * (L : ℝ) + 1) / (4 * Real.pi)) * (4 * Real.pi / (2 * L + 1)) = √(4 * Real.pi / (2 * L + 1)) := by
    have hpos : 0 < 4 * Real.pi / (2 * (L : ℝ) + 1) := by positivity
    rw [show (2 * (L : ℝ) + 1) / (4 * Real.pi) = (4 * Real.pi / (2 * L + 1))⁻¹ by rw [inv_div], Real.sqrt_inv]
    rw [inv_mul_eq_div, Real.div_sqrt]
  rw [← hq]
  field_simp
  ring

/-- the product of two harmonics of equal `m` as a sum over multipoles -/
theorem yx_pair_expand (l : Nat) (m : Int) (l' : Nat) (c : ℝ) (h0 : -1 ≤ c) (h1 : c ≤ 1) :
    yx l m c * yx l' m c = ∑ L ∈ range (l + l' + 1), Gaunt.direct Harm.Spec.gaunt l m L 0 l' m * yx L 0 c := by
  have hs : ((-1 : ℝ)) ^ m.natAbs * (-1) ^ m.natAbs = 1 := by rw [← mul_pow]; simp
  have h := yx_mul_expand l m l' (-m) (l + l') le_rfl c h0 h1
  have e : yx l m c * yx l' m c = (-1) ^ m.natAbs * (yx l m c * yx l' (-m) c) := by
    rw [yx_neg]
    linear_combination -(yx l m c * yx l' m c) * hs
  rw [e, h, mul_sum]
  refine sum_congr rfl fun L _ => ?_
  rw [direct_eq, if_pos (by omega), show m + -m = 0 by omega]
  have e2 : ∫ c in (-1 : ℝ)..1, yx L 0 c * (yx l m c * yx l' (-m) c) = (-1) ^ m.natAbs * ∫ c in (-1 : ℝ)..1, yx l m c * yx L 0 c * yx l' m c := by
    rw [← intervalIntegral.integral_const_mul]
    refine intervalIntegral.integral_congr fun c _ => ?_
    beta_reduce
    rw [yx_neg]
    ring
  rw [e2]
  linear_combination (2 * Real.pi * (∫ c in (-1 : ℝ)..1, yx l m c * yx L 0 c * yx l' m c) * yx L 0 c) * hs

theorem yx_zero_neg (L : Nat) (c : ℝ) (h0 : -1 ≤ c) (h1 : c ≤ 1) : yx L 0 (-c) = (-1) ^ L * yx L 0 c := by
  rw [yx_zero L c h0 h1, yx_zero L (-c) (by linarith) (by linarith)]
  have := congrArg (eval c) (pP_refl L)
  simp only [eval_comp, eval_neg, eval_X, eval_mul, eval_C] at this
  rw [this]
  ring

/-- radial part of a multipole of the inverse distance -/
noncomputable def multi (R : ℝ) (L : Nat) (r : ℝ) : ℝ := if r < R then r ^ L * R ^ (-(L : Int) - 1) else R ^ L * r ^ (-(L : Int) - 1)

theorem zpow_neg_sub (x : ℝ) (L : Nat) : x ^ (-(L : Int) - 1) = (x ^ (L + 1))⁻¹ := by
  rw [show -(L : Int) - 1 = -((L + 1 : Nat) : Int) by push_cast; ring, zpow_neg, zpow_natCast]

theorem right_charge {r R : ℝ} (hr : 0 < r) (hR : 0 < R) (hne : r ≠ R) (f : ℝ → ℝ) (n : Nat) (a : Nat → ℝ) (hf : ∀ c, -1 ≤ c → c ≤ 1 → f c = ∑ L ∈ range n, a L * yx L 0 c) :
    2 * Real.pi * ∫ c in (-1 : ℝ)..1, f c * (1 / √(r ^ 2 + R ^ 2 - 2 * r * R * c)) = ∑ L ∈ range n, a L * (√(4 * Real.pi / (2 * L + 1)) * multi R L r) := by
  have key : ∀ x y : ℝ, 0 < x → x < y → 2 * Real.pi * ∫ c in (-1 : ℝ)..1, f c * (1 / √(x ^ 2 + y ^ 2 - 2 * x * y * c)) = ∑ L ∈ range n, a L * (√(4 * Real.pi / (2 * L + 1)) * (x ^ L * y ^ (-(L : Int) - 1))) := by
    intro x y hx hxy
    have hy : 0 < y := hx.trans hxy
    have := invDist_expand (t := x / y) (by positivity) ((div_lt_one hy).2 hxy) f n a hf
    have e : ∫ c in (-1 : ℝ)..1, f c * (1 / √(x ^ 2 + y ^ 2 - 2 * x * y * c)) = y⁻¹ * ∫ c in (-1 : ℝ)..1, f c / √(1 - 2 * c * (x / y) + (x / y) ^ 2) := by
      rw [← intervalIntegral.integral_const_mul]
      refine intervalIntegral.integral_congr fun c _ => ?_
      beta_reduce
      rw [show x ^ 2 + y ^ 2 - 2 * x * y * c = y ^ 2 * (1 - 2 * c * (x / y) + (x / y) ^ 2) by field_simp; ring, Real.sqrt_mul (by positivity), Real.sqrt_sq hy.le]
      by_cases hz : √(1 - 2 * c * (x / y) + (x / y) ^ 2) = 0
      · rw [hz]; simp
      · field_simp
    rw [e, show 2 * Real.pi * (y⁻¹ * ∫ c in (-1 : ℝ)..1, f c / √(1 - 2 * c * (x / y) + (x / y) ^ 2)) = y⁻¹ * (2 * Real.pi * ∫ c in (-1 : ℝ)..1, f c / √(1 - 2 * c * (x / y) + (x / y) ^ 2)) by ring, this, mul_sum]
    refine sum_congr rfl fun L _ => ?_
    rw [zpow_neg_sub, div_pow, pow_succ]
    field_simp
  rcases lt_or_gt_of_ne hne with h | h
  · rw [key r R hr h]
    simp only [multi, if_pos h]
  · have := key R r hR h
    simp only [multi, if_neg (not_lt.2 h.le)]
    rw [← this]
    congr 2
    funext c
    rw [show r ^ 2 + R ^ 2 - 2 * r * R * c = R ^ 2 + r ^ 2 - 2 * R * r * c by ring]

theorem left_charge {r R : ℝ} (hr : 0 < r) (hR : 0 < R) (hne : r ≠ R) (f : ℝ → ℝ) (n : Nat) (a : Nat → ℝ) (hf : ∀ c, -1 ≤ c → c ≤ 1 → f c = ∑ L ∈ range n, a L * yx L 0 c) :
    2 * Real.pi * ∫ c in (-1 : ℝ)..1, f c * (1 / √(r ^ 2 + R ^ 2 + 2 * r * R * c)) = ∑ L ∈ range n, a L * ((-1) ^ L * (√(4 * Real.pi / (2 * L + 1)) * multi R L r)) := by
  have h := right_charge hr hR hne (fun c => f (-c)) n (fun L => a L * (-1) ^ L) (by
    intro c h0 h1
    rw [hf (-c) (by linarith) (by linarith)]
    refine sum_congr rfl fun L _ => ?_
    rw [yx_zero_neg L c h0 h1]
    ring)
  have e : ∫ c in (-1 : ℝ)..1, f c * (1 / √(r ^ 2 + R ^ 2 + 2 * r * R * c)) = ∫ c in (-1 : ℝ)..1, f (-c) * (1 / √(r ^ 2 + R ^ 2 - 2 * r * R * c)) := by
    have := intervalIntegral.integral_comp_neg (a := (-1 : ℝ)) (b := 1) (fun c => f c * (1 / √(r ^ 2 + R ^ 2 + 2 * r * R * c)))
    rw [neg_neg] at this
    rw [← this]
    refine intervalIntegral.integral_congr fun c _ => ?_
    beta_reduce
    rw [show r ^ 2 + R ^ 2 + 2 * r * R * -c = r ^ 2 + R ^ 2 - 2 * r * R * c by ring]
  rw [e, h]
  refine sum_congr rfl fun L _ => ?_
  ring

/-- the angular integral of the attraction -/
theorem attraction_sphere {r R : ℝ} (hr : 0 < r) (hR : 0 < R) (hne : r ≠ R) (Z Zl Zr : Int) (l : Nat) (m : Int) (l' : Nat) (hm : m.natAbs ≤ l) (hm' : m.natAbs ≤ l') :
    2 * Real.pi * ∫ c in (-1 : ℝ)..1, yx l m c * Spec.attraction Z Zl Zr R r c * yx l' m c = (if l = l' then -(Z : ℝ) / r else 0) +
      ∑ L ∈ range (l + l' + 1), Gaunt.direct Harm.Spec.gaunt l m L 0 l' m * ((-1) ^ L * Zl + Zr) * (-√(4 * Real.pi / (2 * L + 1)) * multi R L r) := by
  obtain ⟨f, hf⟩ : ∃ f : ℝ → ℝ, f = fun c => yx l m c * yx l' m c := ⟨_, rfl⟩
  have hexp : ∀ c, -1 ≤ c → c ≤ 1 → f c = ∑ L ∈ range (l + l' + 1), Gaunt.direct Harm.Spec.gaunt l m L 0 l' m * yx L 0 c := by
    intro c h0 h1; rw [hf]; exact yx_pair_expand l m l' c h0 h1
  have hr1 := right_charge hr hR hne f _ _ hexp
  have hl1 := left_charge hr hR hne f _ _ hexp
  have ho := yx_orth l l' m hm hm'
  have hfc : Continuous f := by rw [hf]; exact (yx_cont l m).mul (yx_cont l' m)
  have hp1 : ∀ c, -1 ≤ c → c ≤ 1 → 0 < r ^ 2 + R ^ 2 - 2 * r * R * c := by
    intro c h0 h1
    have : 0 < (r - R) ^ 2 := by positivity [sub_ne_zero.2 hne]
    nlinarith [mul_pos hr hR]
  have hp2 : ∀ c, -1 ≤ c → c ≤ 1 → 0 < r ^ 2 + R ^ 2 + 2 * r * R * c := by
    intro c h0 h1
    have : 0 < (r - R) ^ 2 := by positivity [sub_ne_zero.2 hne]
    nlinarith [mul_pos hr hR]
  have i1 : IntervalIntegrable (fun c => f c * (1 / √(r ^ 2 + R ^ 2 - 2 * r * R * c))) volume (-1) 1 := by
    refine ContinuousOn.intervalIntegrable ?_
    rw [Set.uIcc_of_le (by norm_num)]
    refine hfc.continuousOn.mul (ContinuousOn.div continuousOn_const (by fun_prop) fun x hx => (Real.sqrt_pos.2 (hp1 x hx.1 hx.2)).ne')
  have i2 : IntervalIntegrable (fun c => f c * (1 / √(r ^ 2 + R ^ 2 + 2 * r * R * c))) volume (-1) 1 := by
    refine ContinuousOn.intervalIntegrable ?_
    rw [Set.uIcc_of_le (by norm_num)]
    refine hfc.continuousOn.mul (ContinuousOn.div continuousOn_const (by fun_prop) fun x hx => (Real.sqrt_pos.2 (hp2 x hx.1 hx.2)).ne')
  have i0 : IntervalIntegrable f volume (-1) 1 := hfc.intervalIntegrable _ _
  have e : ∫ c in (-1 : ℝ)..1, yx l m c * Spec.attraction Z Zl Zr R r c * yx l' m c =
      (-(Z : ℝ) / r) * (∫ c in (-1 : ℝ)..1, yx l m c * yx l' m c) - Zr * (∫ c in (-1 : ℝ)..1, f c * (1 / √(r ^ 2 + R ^ 2 - 2 * r * R * c))) -
        Zl * ∫ c in (-1 : ℝ)..1, f c * (1 / √(r ^ 2 + R ^ 2 + 2 * r * R * c)) := by
    rw [← intervalIntegral.integral_const_mul, ← intervalIntegral.integral_const_mul, ← intervalIntegral.integral_const_mul, ← intervalIntegral.integral_sub, ← intervalIntegral.integral_sub]
    · refine intervalIntegral.integral_congr fun c _ => ?_
      simp only [hf, Spec.attraction]
      ring
    · refine ((hf ▸ i0).const_mul _).sub (i1.const_mul _)
    · exact i2.const_mul _
    · exact (hf ▸ i0).const_mul _
    · exact i1.const_mul _
  rw [e, ho, show ∀ a b c d z w : ℝ, 2 * Real.pi * (a * b - z * c - w * d) = 2 * Real.pi * a * b - z * (2 * Real.pi * c) - w * (2 * Real.pi * d) from fun a b c d z w => by ring, hr1, hl1, mul_sum, mul_sum, sub_sub,
    ← sum_add_distrib, sub_eq_add_neg, ← sum_neg_distrib]
  congr 1
  · split_ifs
    · have := Real.pi_ne_zero
      field_simp
    · rw [mul_zero]
  · refine sum_congr rfl fun L _ => ?_
    ring

end OneE
end HelFEM
