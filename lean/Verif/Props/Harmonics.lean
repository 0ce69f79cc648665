import Verif.Lemmas.Harmonics
import Verif.Spec.Harmonics
import Verif.Spec.PureMXC

/-!
# C68: spherical harmonics, and derivatives of basis functions on angular grids

The angular functions are orthonormal on the sphere, and the derivatives and Laplacians `eval_df` and `eval_lf` hand out are those of the functions `eval_bf` hands out.
-/

namespace HelFEM
namespace Harm

open Set

/-! ### Spherical harmonics -/

/-- **C68, orthonormality.** The spherical harmonics are orthonormal on the unit sphere (cosine of the polar angle and azimuth as coordinates). -/
theorem C68_orthonormal (l m l' m' : Int) (h : |m| ≤ l) (h' : |m'| ≤ l') :
    ∫ c in (-1 : ℝ)..1, ∫ φ in (0 : ℝ)..2 * Real.pi, (starRingEnd ℂ) (sph l m c φ) * sph l' m' c φ = if l = l' ∧ m = m' then 1 else 0 := by
  have e : ∀ c φ : ℝ, (starRingEnd ℂ) (sph l m c φ) * sph l' m' c φ = ((yv l m (Real.arccos c) * yv l' m' (Real.arccos c) : ℝ) : ℂ) * Complex.exp (((m' - m : Int) * φ : ℝ) * Complex.I) := by
    intro c φ
    rw [sph_eq, sph_eq, map_mul, Complex.conj_ofReal, ← Complex.exp_conj, map_mul, Complex.conj_I, Complex.conj_ofReal]
    have : Complex.exp (((m' - m : Int) * φ : ℝ) * Complex.I) = Complex.exp ((m * φ : ℝ) * -Complex.I) * Complex.exp ((m' * φ : ℝ) * Complex.I) := by
      rw [← Complex.exp_add]; congr 1; push_cast; ring
    rw [this]
    push_cast
    ring
  simp only [e, intervalIntegral.integral_const_mul, exp_orth]
  by_cases hm : m = m'
  · subst hm
    simp only [sub_self, if_true, and_true]
    rw [intervalIntegral.integral_mul_const, intervalIntegral.integral_ofReal, yv_orth l l' m h h']
    split_ifs
    · have := Real.pi_pos.ne'
      push_cast
      field_simp
    · simp
  · have hm' : ¬ (m' - m = 0) := by omega
    simp [hm, hm']

example : ∫ c in (-1 : ℝ)..1, ∫ φ in (0 : ℝ)..2 * Real.pi, (starRingEnd ℂ) (sph 3 (-2) c φ) * sph 3 (-2) c φ = 1 := by
  rw [C68_orthonormal 3 (-2) 3 (-2) (by decide) (by decide)]; simp
example : ∫ c in (-1 : ℝ)..1, ∫ φ in (0 : ℝ)..2 * Real.pi, (starRingEnd ℂ) (sph 3 1 c φ) * sph 1 1 c φ = 0 := by
  rw [C68_orthonormal 3 1 1 1 (by decide) (by decide)]; simp

/-- **C68, sign of `m`.** `Y_l^{-m} = (-1)^m (Y_l^m)*`. -/
theorem C68_conj (l m : Int) (c φ : ℝ) : sph l (-m) c φ = (-1) ^ m.natAbs * (starRingEnd ℂ) (sph l m c φ) := by
  rw [sph_eq, sph_eq, yv_neg, map_mul, Complex.conj_ofReal, ← Complex.exp_conj, map_mul, Complex.conj_I, Complex.conj_ofReal]
  push_cast
  rw [show -(m : ℂ) * φ * Complex.I = m * φ * -Complex.I by ring]
  ring

example : sph 2 (-1) 0.3 0.7 = (-1) ^ 1 * (starRingEnd ℂ) (sph 2 1 0.3 0.7) := C68_conj 2 1 0.3 0.7

/-- **C68, lowest functions.** `Y_0^0 = 1/√(4π)`, and `Y_1^0`, `Y_1^1` carry the Condon-Shortley phase. -/
theorem C68_lowest (θ φ : ℝ) (h : θ ∈ Icc 0 Real.pi) : sph 0 0 (Real.cos θ) φ = (√(1 / (4 * Real.pi)) : ℝ) ∧ sph 1 0 (Real.cos θ) φ = (√(3 / (4 * Real.pi)) * Real.cos θ : ℝ) ∧
    sph 1 1 (Real.cos θ) φ = (-√(3 / (8 * Real.pi)) * Real.sin θ : ℝ) * Complex.exp (φ * Complex.I) := by
  have ha : Real.arccos (Real.cos θ) = θ := Real.arccos_cos h.1 h.2
  have e0 : yv 0 0 θ = √(1 / (4 * Real.pi)) := by
    simp [yv, sphLegendre, Poly.pP]
  have e1 : yv 1 0 θ = √(3 / (4 * Real.pi)) * Real.cos θ := by
    simp [yv, sphLegendre, Poly.pP]
    norm_num
  have e2 : yv 1 1 θ = -√(3 / (8 * Real.pi)) * Real.sin θ := by
    have hn : nrm 1 1 = √(3 / (8 * Real.pi)) := by
      have := Real.pi_pos.ne'
      unfold nrm
      congr 1
      simp
      field_simp
      norm_num
    have := yv_nat 1 1 θ
    rw [sphLegendre_eq, hn] at this
    simpa [dP, Poly.pP] using this
  refine ⟨?_, ?_, ?_⟩
  · rw [sph_eq, ha, e0]; simp
  · rw [sph_eq, ha, e1]; simp
  · rw [sph_eq, ha, e2]; simp; ring

example : (0.5 : ℝ) ∈ Icc 0 Real.pi := ⟨by norm_num, by have := Real.two_le_pi; linarith⟩

/-- **C68, real angular functions.** At azimuth zero the spherical harmonics are real and satisfy the relations assumed of them in C67: reflection, ladder and Legendre's equation. -/
theorem C68_harmonics : XC.Spec.Harmonics (fun l m ν => (sph l m (Real.cos ν) 0).re) ∧ ∀ l m c, (sph l m c 0).im = 0 := by
  have hre : ∀ l m ν, (sph l m (Real.cos ν) 0).re = yv l m (Real.arccos (Real.cos ν)) := by
    intro l m ν
    rw [sph_eq]
    simp
  have hloc : ∀ l m ν, 0 < ν → ν < Real.pi → (fun ν => (sph l m (Real.cos ν) 0).re) =ᶠ[nhds ν] yv l m := by
    intro l m ν h0 h1
    filter_upwards [Ioo_mem_nhds h0 h1] with t ht
    rw [hre, Real.arccos_cos ht.1.le ht.2.le]
  refine ⟨⟨?_, ?_, ?_⟩, ?_⟩
  · intro l m _ ν
    simp only [hre, yv_neg]
  · intro l m h ν h0 h1
    have hs : Real.sin ν ≠ 0 := (Real.sin_pos_of_pos_of_lt_pi h0 h1).ne'
    refine ((yv_up l m h ν hs).congr_of_eventuallyEq (hloc l m ν h0 h1)).congr_deriv ?_
    simp only [hre, Real.arccos_cos h0.le h1.le]
  · intro l m h ν h0 h1
    have hd := (hloc l m ν h0 h1).deriv
    refine ((yv_second l m h ν h0 h1).congr_of_eventuallyEq hd).congr_deriv ?_
    rw [hd.eq_of_nhds]
    simp only [hre, Real.arccos_cos h0.le h1.le]
  · intro l m c
    rw [sph_eq]
    simp

/-! ### Derivatives -/

theorem sinth_cos (θ : ℝ) (h : θ ∈ Icc 0 Real.pi) : sinth (Real.cos θ) = Real.sin θ := by
  unfold sinth
  have h1 : (1 - Real.cos θ) * (1 + Real.cos θ) = Real.sin θ ^ 2 := by have := Real.sin_sq_add_cos_sq θ; linarith
  rw [h1, max_eq_left (sq_nonneg _), Real.sqrt_sq (Real.sin_nonneg_of_nonneg_of_le_pi h.1 h.2)]

theorem cotth_cos (θ : ℝ) (h : θ ∈ Icc 0 Real.pi) : cotth (Real.cos θ) = Real.cos θ / Real.sin θ := by
  unfold cotth
  rw [sinth_cos θ h]
  have := Real.sin_nonneg_of_nonneg_of_le_pi h.1 h.2
  split_ifs with h0
  · rfl
  · rw [show Real.sin θ = 0 by linarith]; simp

/-- the angular factor in terms of the real functions -/
theorem angfac_eq (l m : Int) (h : |m| ≤ l) (θ φ : ℝ) (hθ : θ ∈ Icc 0 Real.pi) : angfac l m (Real.cos θ) φ =
    Complex.exp ((m * φ : ℝ) * Complex.I) * (m * (Real.cos θ / Real.sin θ) * yv l m θ + if m < l then √(((l : ℝ) - m) * (l + m + 1)) * yv l (m + 1) θ else 0 : ℝ) := by
  unfold angfac
  simp only [sph_eq, cotth_cos θ hθ, Real.arccos_cos hθ.1 hθ.2]
  have he : Complex.exp (((m + 1 : Int) * φ : ℝ) * Complex.I) = Complex.exp (φ * Complex.I) * Complex.exp ((m * φ : ℝ) * Complex.I) := by
    rw [← Complex.exp_add]; congr 1; push_cast; ring
  have h1 : Complex.exp (-φ * Complex.I) * Complex.exp (φ * Complex.I) = 1 := by rw [← Complex.exp_add]; simp
  split_ifs with hm
  · rw [he]
    push_cast
    linear_combination (√(((l : ℝ) - m) * (l + m + 1)) * Complex.exp (m * φ * Complex.I) * yv l (m + 1) θ) * h1
  · push_cast
    ring

theorem sph_cos (l m : Int) (θ φ : ℝ) (h : θ ∈ Icc 0 Real.pi) : sph l m (Real.cos θ) φ = Complex.exp ((m * φ : ℝ) * Complex.I) * (yv l m θ : ℝ) := by
  rw [sph_eq, Real.arccos_cos h.1 h.2]

/-- the derivative at the poles -/
theorem sphLegendre_pole (l m : Nat) (θ : ℝ) (hs : Real.sin θ = 0) : HasDerivAt (sphLegendre l m) (if m = 1 then -(nrm l 1 * Real.cos θ * dP l 1 (Real.cos θ)) else 0) θ := by
  have h1 : HasDerivAt (fun t => dP l m (Real.cos t)) (dP l (m + 1) (Real.cos θ) * -Real.sin θ) θ := (dP_deriv l m (Real.cos θ)).comp θ (Real.hasDerivAt_cos θ)
  have h2 : HasDerivAt (fun t => Real.sin t ^ m) (m * Real.sin θ ^ (m - 1) * Real.cos θ) θ := (Real.hasDerivAt_sin θ).fun_pow m
  refine ((h2.const_mul ((-1) ^ m * nrm l m)).mul h1).congr_deriv ?_
  rw [hs]
  rcases m with _ | _ | m
  · simp
  · simp
  · simp

theorem sphLegendre_pole_zero (l m : Nat) (θ : ℝ) (hs : Real.sin θ = 0) (hm : m ≠ 0) : sphLegendre l m θ = 0 := by
  rw [sphLegendre_eq, hs]
  simp [hm]

theorem yv_pole_zero (l m : Int) (θ : ℝ) (hs : Real.sin θ = 0) (hm : m ≠ 0) : yv l m θ = 0 := by
  unfold yv
  rw [sphLegendre_pole_zero _ _ θ hs (by omega)]
  simp

/-- the formula for the polar derivative is right off the poles, and at the poles unless `|m| = 1` -/
theorem yv_deriv (l m : Int) (h : |m| ≤ l) (θ : ℝ) (hp : Real.sin θ ≠ 0 ∨ |m| ≠ 1) :
    HasDerivAt (yv l m) (m * (Real.cos θ / Real.sin θ) * yv l m θ + if m < l then √(((l : ℝ) - m) * (l + m + 1)) * yv l (m + 1) θ else 0) θ := by
  by_cases hs : Real.sin θ = 0
  · have hm : |m| ≠ 1 := hp.resolve_left (by simpa using hs)
    have hm1 : m + 1 ≠ 0 := by rintro hh; exact hm (by rw [show m = -1 by omega]; rfl)
    rw [hs, yv_pole_zero l (m + 1) θ hs hm1]
    have hd := sphLegendre_pole l.toNat m.natAbs θ hs
    rw [if_neg (by rw [Int.abs_eq_natAbs] at hm; exact_mod_cast hm)] at hd
    simp only [div_zero, mul_zero, zero_mul, ite_self, add_zero]
    have hy : yv l m = fun t => (if m < 0 then (-1) ^ m.natAbs else 1) * sphLegendre l.toNat m.natAbs t := by
      funext t; unfold yv; split_ifs <;> simp
    rw [hy]
    simpa using hd.const_mul (if m < 0 then (-1 : ℝ) ^ m.natAbs else 1)
  · exact yv_up l m h θ hs

theorem idx_split {n i j : Nat} (h : j < n) : (i * n + j) / n = i ∧ (i * n + j) % n = j := by
  have hn : 0 < n := by omega
  constructor
  · rw [Nat.mul_comm, Nat.mul_add_div hn, Nat.div_eq_of_lt h, Nat.add_zero]
  · rw [Nat.mul_comm, Nat.mul_add_mod, Nat.mod_eq_of_lt h]

/-- **C68, derivatives.** Let `frad` and `drad` hold values and derivatives of radial functions at points `r`. Then `eval_bf` gives `R_j(r) Y_l^m(θ,φ)`, and `eval_df` its derivatives in `r`, `θ`
and `φ`. What is missing: at the poles `θ = 0, π` the polar derivative of functions with `|m| = 1` is wrong, see `C68_pole`. -/
theorem C68_derivatives_partial (lm : List (Int × Int)) (R : Nat → ℝ → ℝ) (r : Nat → ℝ) (frad drad : Mat ℝ) (hcols : drad.cols = frad.cols)
    (hf : ∀ g < frad.rows, ∀ j < frad.cols, frad.get g j = R j (r g)) (hd : ∀ g < frad.rows, ∀ j < frad.cols, HasDerivAt (R j) (drad.get g j) (r g))
    (g : Nat) (hg : g < frad.rows) (i : Nat) (hi : i < lm.length) (j : Nat) (hj : j < frad.cols) (l m : Int) (hlm : lm[i] = (l, m)) (h : |m| ≤ l) (θ φ : ℝ) (hθ : θ ∈ Icc 0 Real.pi) :
    (evalBf lm frad (Real.cos θ) φ).get g (i * frad.cols + j) = R j (r g) * sph l m (Real.cos θ) φ ∧
    HasDerivAt (fun s : ℝ => (R j s : ℂ) * sph l m (Real.cos θ) φ) ((evalDr lm drad (Real.cos θ) φ).get g (i * frad.cols + j)) (r g) ∧
    HasDerivAt (fun p : ℝ => (R j (r g) : ℂ) * sph l m (Real.cos θ) p) ((evalDphi lm frad (Real.cos θ) φ).get g (i * frad.cols + j)) φ ∧
    ((θ ≠ 0 ∧ θ ≠ Real.pi) ∨ |m| ≠ 1 → HasDerivWithinAt (fun t : ℝ => (R j (r g) : ℂ) * sph l m (Real.cos t) φ) ((evalDth lm frad (Real.cos θ) φ).get g (i * frad.cols + j)) (Icc 0 Real.pi) θ) := by
  obtain ⟨e1, e2⟩ := idx_split (i := i) hj
  have hget : lm.getD i (0, 0) = (l, m) := by rw [List.getD_eq_getElem?_getD, List.getElem?_eq_getElem hi, hlm]; rfl
  refine ⟨?_, ?_, ?_, fun hp => ?_⟩
  · simp only [evalBf, e1, e2, hget, hf g hg j hj]
    ring
  · simp only [evalDr, evalBf, hcols, e1, e2, hget]
    refine ((hd g hg j hj).ofReal_comp.mul_const _).congr_deriv ?_
    ring
  · simp only [evalDphi, e1, e2, hget, hf g hg j hj]
    simp only [sph_eq]
    have hl : HasDerivAt (fun p : ℝ => ((m * p : ℝ) : ℂ) * Complex.I) ((m : ℂ) * Complex.I) φ := by
      have := (((hasDerivAt_id φ).const_mul (m : ℝ)).ofReal_comp).mul_const Complex.I
      simpa using this
    refine ((hl.cexp.mul_const _).const_mul _).congr_deriv ?_
    rw [show (⟨0, (m : ℝ)⟩ : ℂ) = m * Complex.I by apply Complex.ext <;> simp]
    ring
  · simp only [evalDth, e1, e2, hget, hf g hg j hj, angfac_eq l m h θ φ hθ]
    have hs : Real.sin θ ≠ 0 ∨ |m| ≠ 1 := by
      rcases hp with ⟨h0, h1⟩ | h1
      · exact Or.inl (Real.sin_pos_of_pos_of_lt_pi (lt_of_le_of_ne hθ.1 (Ne.symm h0)) (lt_of_le_of_ne hθ.2 h1)).ne'
      · exact Or.inr h1
    have hy := ((((yv_deriv l m h θ hs).ofReal_comp).const_mul (Complex.exp ((m * φ : ℝ) * Complex.I))).const_mul (R j (r g) : ℂ)).hasDerivWithinAt (s := Icc 0 Real.pi)
    refine (hy.congr (fun t ht => ?_) ?_).congr_deriv ?_
    · rw [sph_cos l m t φ ht]
    · rw [sph_cos l m θ φ hθ]
    · ring

/-- **C68, the poles.** At `θ = 0` the polar derivative that `eval_df` gives is wrong for every function with `|m| = 1`: 0 for `m = 1`, twice the derivative for `m = -1`. -/
theorem C68_pole (l : Nat) (hl : 1 ≤ l) (φ : ℝ) :
    ∃ d : ℝ, d ≠ 0 ∧ HasDerivWithinAt (fun t : ℝ => sph l 1 (Real.cos t) φ) (d * Complex.exp (φ * Complex.I)) (Icc 0 Real.pi) 0 ∧ angfac l 1 (Real.cos 0) φ = 0 ∧
      HasDerivWithinAt (fun t : ℝ => sph l (-1) (Real.cos t) φ) (-d * Complex.exp (-φ * Complex.I)) (Icc 0 Real.pi) 0 ∧
      angfac l (-1) (Real.cos 0) φ = 2 * (-d * Complex.exp (-φ * Complex.I)) := by
  have h0 : (0 : ℝ) ∈ Icc 0 Real.pi := ⟨le_rfl, Real.pi_pos.le⟩
  have hl0 : (0 : ℝ) < l := by exact_mod_cast hl
  have hp0 : dP l 0 1 = 1 := by simpa [dP] using Poly.pP_one l
  have hp1 : dP l 1 1 = (l * (l + 1)) / 2 := by
    have := dP_recM l 0 1
    simp only [Nat.cast_zero, zero_add, hp0] at this
    linarith
  have hd := sphLegendre_pole l 1 0 Real.sin_zero
  rw [if_pos rfl, Real.cos_zero, mul_one, hp1] at hd
  have hn := nrm_pos l 1
  refine ⟨-(nrm l 1 * (l * (l + 1) / 2)), ?_, ?_, ?_, ?_, ?_⟩
  · exact neg_ne_zero.2 (by positivity)
  · refine (((hd.ofReal_comp.const_mul (Complex.exp (φ * Complex.I))).hasDerivWithinAt (s := Icc 0 Real.pi)).congr (fun t ht => ?_) ?_).congr_deriv ?_
    · have := yv_nat l 1 t
      rw [sph_cos _ _ t φ ht, ← this]; simp
    · have := yv_nat l 1 0
      rw [sph_cos _ _ 0 φ h0, ← this]; simp
    · ring
  · rw [angfac_eq _ _ (by rw [abs_one]; exact_mod_cast hl) 0 φ h0, yv_pole_zero _ (1 + 1) 0 Real.sin_zero (by norm_num)]
    simp
  · refine (((hd.ofReal_comp.const_mul (-Complex.exp (-φ * Complex.I))).hasDerivWithinAt (s := Icc 0 Real.pi)).congr (fun t ht => ?_) ?_).congr_deriv ?_
    · have := yv_neg_nat l 1 t
      rw [sph_cos _ _ t φ ht]
      rw [show (-1 : Int) = -((1 : Nat) : Int) from rfl, this]; simp
    · have := yv_neg_nat l 1 0
      rw [sph_cos _ _ 0 φ h0]
      rw [show (-1 : Int) = -((1 : Nat) : Int) from rfl, this]; simp
    · push_cast; ring
  · rw [angfac_eq _ _ (by rw [abs_neg, abs_one]; exact_mod_cast hl) 0 φ h0]
    have h1 : ((-1 : Int) < l) := by omega
    rw [if_pos h1, Real.sin_zero, div_zero, mul_zero, zero_mul, zero_add]
    have hy : yv l (-1 + 1) 0 = nrm l 0 := by
      have := yv_nat l 0 0
      rw [show (-1 + 1 : Int) = ((0 : Nat) : Int) from rfl, this, sphLegendre_eq, Real.cos_zero, hp0]
      simp
    have hup := nrm_up l 0 (by omega)
    simp only [Nat.cast_zero, sub_zero, add_zero] at hup
    have hq : √((l : ℝ) * (l + 1)) * √((l : ℝ) * (l + 1)) = l * (l + 1) := Real.mul_self_sqrt (by positivity)
    rw [hy, ← hup]
    have hc : √((((l : Int) : ℝ) - ((-1 : Int) : ℝ)) * (((l : Int) : ℝ) + ((-1 : Int) : ℝ) + 1)) = √((l : ℝ) * (l + 1)) := by
      congr 1; push_cast; ring
    rw [hc, ← mul_assoc, hq]
    push_cast
    rw [show (-1 : ℂ) * φ * Complex.I = -φ * Complex.I by ring]
    ring

example : ∃ d : ℝ, d ≠ 0 ∧ angfac 1 1 (Real.cos 0) 0 = 0 ∧ HasDerivWithinAt (fun t : ℝ => sph 1 1 (Real.cos t) 0) (d * Complex.exp ((0 : ℝ) * Complex.I)) (Icc 0 Real.pi) 0 := by
  obtain ⟨d, h, h1, h2, -⟩ := C68_pole 1 le_rfl 0
  exact ⟨d, h, h2, h1⟩

/-- radial functions `1` and `r²` at `r = 1` and `r = 2` -/
noncomputable def toyR (j : Nat) (r : ℝ) : ℝ := if j = 0 then 1 else r ^ 2

theorem toyR_deriv (j : Nat) (r : ℝ) : HasDerivAt (toyR j) (if j = 0 then 0 else 2 * r) r := by
  unfold toyR
  by_cases h : j = 0
  · simpa [h] using hasDerivAt_const r (1 : ℝ)
  · simpa [h] using hasDerivAt_pow 2 r

example : HasDerivWithinAt (fun t : ℝ => (toyR 1 2 : ℂ) * sph 2 (-1) (Real.cos t) 0.3)
    ((evalDth [(0, 0), (2, -1)] ⟨2, 2, fun g j => toyR j (g + 1)⟩ (Real.cos 1) 0.3).get 1 3) (Icc 0 Real.pi) 1 := by
  have hpi := Real.two_le_pi
  have := (C68_derivatives_partial [(0, 0), (2, -1)] toyR (fun g => g + 1) ⟨2, 2, fun g j => toyR j (g + 1)⟩ ⟨2, 2, fun g j => if j = 0 then 0 else 2 * ((g : ℝ) + 1)⟩ rfl
    (fun _ _ _ _ => rfl) (fun g _ j _ => toyR_deriv j _) 1 (by norm_num) 1 (by norm_num) 1 (by norm_num) 2 (-1) rfl (by decide) 1 0.3 ⟨by norm_num, by linarith⟩).2.2.2
    (Or.inl ⟨by norm_num, by linarith⟩)
  norm_num at this ⊢
  exact this

/-! ### Laplacians -/

theorem sph_loc (l m : Int) (a : ℂ) (θ φ : ℝ) (h0 : 0 < θ) (h1 : θ < Real.pi) :
    (fun t : ℝ => a * sph l m (Real.cos t) φ) =ᶠ[nhds θ] fun t : ℝ => a * (Complex.exp ((m * φ : ℝ) * Complex.I) * (yv l m t : ℝ)) := by
  filter_upwards [Ioo_mem_nhds h0 h1] with t ht
  rw [sph_cos l m t φ ⟨ht.1.le, ht.2.le⟩]

theorem ang_theta (l m : Int) (h : |m| ≤ l) (a : ℂ) (θ φ : ℝ) (h0 : 0 < θ) (h1 : θ < Real.pi) :
    deriv (fun t : ℝ => (Real.sin t : ℂ) * deriv (fun t' : ℝ => a * sph l m (Real.cos t') φ) t) θ =
      (-((l * (l + 1) - m ^ 2 / Real.sin θ ^ 2) * Real.sin θ) : ℝ) * (a * sph l m (Real.cos θ) φ) := by
  have hs : Real.sin θ ≠ 0 := (Real.sin_pos_of_pos_of_lt_pi h0 h1).ne'
  have e : (fun t : ℝ => (Real.sin t : ℂ) * deriv (fun t' : ℝ => a * sph l m (Real.cos t') φ) t) =ᶠ[nhds θ]
      fun t : ℝ => (a * Complex.exp ((m * φ : ℝ) * Complex.I)) * ((Real.sin t * deriv (yv l m) t : ℝ) : ℂ) := by
    filter_upwards [Ioo_mem_nhds h0 h1] with t ht
    rw [(sph_loc l m a t φ ht.1 ht.2).deriv_eq]
    have hy := yv_up l m h t (Real.sin_pos_of_pos_of_lt_pi ht.1 ht.2).ne'
    rw [((hy.ofReal_comp.const_mul (Complex.exp ((m * φ : ℝ) * Complex.I))).const_mul a).deriv, hy.deriv]
    push_cast
    ring
  rw [e.deriv_eq]
  have hd := (Real.hasDerivAt_sin θ).fun_mul (yv_second l m h θ h0 h1)
  rw [(hd.ofReal_comp.const_mul (a * Complex.exp ((m * φ : ℝ) * Complex.I))).deriv, sph_cos l m θ φ ⟨h0.le, h1.le⟩]
  rw [show Real.cos θ * deriv (yv l m) θ + Real.sin θ * (-(Real.cos θ / Real.sin θ * deriv (yv l m) θ) - (l * (l + 1) - m ^ 2 / Real.sin θ ^ 2) * yv l m θ) =
    -((l * (l + 1) - m ^ 2 / Real.sin θ ^ 2) * Real.sin θ) * yv l m θ by field_simp; ring]
  push_cast
  ring

theorem ang_phi (l m : Int) (a : ℂ) (c φ : ℝ) : deriv (fun p : ℝ => deriv (fun p' : ℝ => a * sph l m c p') p) φ = -(m : ℂ) ^ 2 * (a * sph l m c φ) := by
  have hl : ∀ φ : ℝ, HasDerivAt (fun p : ℝ => Complex.exp (((m * p : ℝ) : ℂ) * Complex.I)) (Complex.exp (((m * φ : ℝ) : ℂ) * Complex.I) * ((m : ℂ) * Complex.I)) φ := by
    intro φ
    have := (((hasDerivAt_id φ).const_mul (m : ℝ)).ofReal_comp).mul_const Complex.I
    refine HasDerivAt.cexp ?_
    simpa using this
  have e : (fun p : ℝ => deriv (fun p' : ℝ => a * sph l m c p') p) = fun p : ℝ => a * (Complex.exp (((m * p : ℝ) : ℂ) * Complex.I) * ((m : ℂ) * Complex.I) * (yv l m (Real.arccos c) : ℝ)) := by
    funext p
    simp only [sph_eq]
    exact (((hl p).mul_const _).const_mul a).deriv
  rw [e, ((((hl φ).mul_const _).mul_const _).const_mul a).deriv, sph_eq]
  linear_combination (a * Complex.exp (((m * φ : ℝ) : ℂ) * Complex.I) * (m : ℂ) ^ 2 * yv l m (Real.arccos c)) * Complex.I_sq

theorem rad_part (f w : ℝ → ℝ) (b : ℂ) (r w' : ℝ) (hf : ContDiffAt ℝ 2 f r) (hw : HasDerivAt w w' r) :
    deriv (fun s : ℝ => (w s : ℂ) * deriv (fun s' : ℝ => (f s' : ℂ) * b) s) r = ((w' * deriv f r + w r * deriv (deriv f) r : ℝ) : ℂ) * b := by
  have hd : ∀ᶠ s in nhds r, DifferentiableAt ℝ f s := by
    filter_upwards [hf.eventually (by simp)] with s hs
    exact hs.differentiableAt (by norm_num)
  have h2 : DifferentiableAt ℝ (deriv f) r := by
    have h1 : ContDiffAt ℝ 1 (deriv f) r := by
      have := (contDiffAt_succ_iff_hasFDerivAt (n := 1) (f := f) (x := r) (𝕜 := ℝ)).1 (by rw [show ((1 : ℕ) : WithTop ℕ∞) + 1 = 2 by rw [Nat.cast_one, one_add_one_eq_two]]; exact hf)
      obtain ⟨f', ⟨u, hu, hfu⟩, hc⟩ := this
      have : deriv f =ᶠ[nhds r] fun s => f' s 1 := by
        filter_upwards [hu] with s hs
        exact (hfu s hs).hasDerivAt.deriv
      refine ContDiffAt.congr_of_eventuallyEq ?_ this
      exact hc.clm_apply contDiffAt_const
    exact h1.differentiableAt (by norm_num)
  have e : (fun s : ℝ => (w s : ℂ) * deriv (fun s' : ℝ => (f s' : ℂ) * b) s) =ᶠ[nhds r] fun s => ((w s * deriv f s : ℝ) : ℂ) * b := by
    filter_upwards [hd] with s hs
    rw [(hs.hasDerivAt.ofReal_comp.mul_const b).deriv]
    push_cast
    ring
  rw [e.deriv_eq, ((hw.fun_mul h2.hasDerivAt).ofReal_comp.mul_const b).deriv]

/-- **C68, Laplacian.** `eval_lf` of the atomic basis gives the Laplacian of `R_j(r) Y_l^m(θ,φ)`, off the axis and the origin. -/
theorem C68_laplacian (lm : List (Int × Int)) (R : Nat → ℝ → ℝ) (r : Nat → ℝ) (frad drad lrad : Mat ℝ) (hf : ∀ g < frad.rows, ∀ j < frad.cols, frad.get g j = R j (r g))
    (hd : ∀ g < frad.rows, ∀ j < frad.cols, drad.get g j = deriv (R j) (r g)) (hl : ∀ g < frad.rows, ∀ j < frad.cols, lrad.get g j = deriv (deriv (R j)) (r g))
    (g : Nat) (hg : g < frad.rows) (i : Nat) (hi : i < lm.length) (j : Nat) (hj : j < frad.cols) (hR : ContDiffAt ℝ 2 (R j) (r g)) (hr : r g ≠ 0)
    (l m : Int) (hlm : lm[i] = (l, m)) (h : |m| ≤ l) (θ φ : ℝ) (h0 : 0 < θ) (h1 : θ < Real.pi) :
    (evalLf lm r frad drad lrad (Real.cos θ) φ).get g (i * frad.cols + j) = Spec.sphericalLaplacian (fun s t p => (R j s : ℂ) * sph l m (Real.cos t) p) (r g) θ φ := by
  obtain ⟨e1, e2⟩ := idx_split (i := i) hj
  have hget : lm.getD i (0, 0) = (l, m) := by rw [List.getD_eq_getElem?_getD, List.getElem?_eq_getElem hi, hlm]; rfl
  have hs : Real.sin θ ≠ 0 := (Real.sin_pos_of_pos_of_lt_pi h0 h1).ne'
  unfold Spec.sphericalLaplacian
  rw [rad_part (R j) (fun s => s ^ 2) (sph l m (Real.cos θ) φ) (r g) (2 * r g) hR (by simpa using hasDerivAt_pow 2 (r g)), ang_theta l m h _ θ φ h0 h1, ang_phi]
  simp only [evalLf, e1, e2, hget, hf g hg j hj, hd g hg j hj, hl g hg j hj]
  have hr' : (r g : ℂ) ≠ 0 := by exact_mod_cast hr
  have hs' : Complex.sin (θ : ℂ) ≠ 0 := by
    have := hs
    rw [← Complex.ofReal_sin]
    exact_mod_cast this
  push_cast
  field_simp
  ring

/-- **C68, one `m` of the diatomic basis.** `eval_bf`, `eval_df` and `eval_lf` for one `m` give the functions `R_j(μ) Y_l^m(ν,0)` of the basis with that `m`, which are real, their derivatives in `μ` and
`ν`, and the Laplacian of `R_j(μ) Y_l^m(ν,φ)` at azimuth zero, off the axis. -/
theorem C68_block (lm : List (Int × Int)) (m : Int) (R : Nat → ℝ → ℝ) (a μ : ℝ) (ha : 0 < a) (hμ : 0 < μ) (frad drad d2rad : Mat ℝ) (hcols : drad.cols = frad.cols)
    (hf : ∀ g < frad.rows, ∀ j < frad.cols, frad.get g j = R j μ) (hd : ∀ g < frad.rows, ∀ j < frad.cols, drad.get g j = deriv (R j) μ)
    (hl : ∀ g < frad.rows, ∀ j < frad.cols, d2rad.get g j = deriv (deriv (R j)) μ)
    (g : Nat) (hg : g < frad.rows) (i : Nat) (hi : i < (lm.filter fun p => p.2 = m).length) (j : Nat) (hj : j < frad.cols) (hR : ContDiffAt ℝ 2 (R j) μ)
    (l : Int) (hlm : ((lm.filter fun p => p.2 = m)[i]).1 = l) (h : |m| ≤ l) (ν : ℝ) (h0 : 0 < ν) (h1 : ν < Real.pi) :
    ((evalBfM lm frad (Real.cos ν) m).get g (i * frad.cols + j) : ℂ) = R j μ * sph l m (Real.cos ν) 0 ∧
    HasDerivAt (fun s : ℝ => (R j s : ℂ) * sph l m (Real.cos ν) 0) ((evalBfM lm drad (Real.cos ν) m).get g (i * frad.cols + j)) μ ∧
    HasDerivAt (fun t : ℝ => (R j μ : ℂ) * sph l m (Real.cos t) 0) ((evalDthM lm frad (Real.cos ν) m).get g (i * frad.cols + j)) ν ∧
    ((evalLfM lm a μ frad drad d2rad (Real.cos ν) m).get g (i * frad.cols + j) : ℂ) = Spec.prolateLaplacian a (fun s t p => (R j s : ℂ) * sph l m (Real.cos t) p) μ ν 0 := by
  obtain ⟨e1, e2⟩ := idx_split (i := i) hj
  have hm2 : ((lm.filter fun p => p.2 = m)[i]).2 = m := by
    have := (List.mem_filter.1 (List.getElem_mem hi)).2
    simpa using this
  have hget : (flist lm m).getD i (0, 0) = (l, m) := by
    rw [flist, List.getD_eq_getElem?_getD, List.getElem?_eq_getElem hi]
    exact Prod.ext hlm hm2
  have hs : Real.sin ν ≠ 0 := (Real.sin_pos_of_pos_of_lt_pi h0 h1).ne'
  have hsh : 0 < Real.sinh μ := Real.sinh_pos_iff.2 hμ
  have hmem : ν ∈ Icc 0 Real.pi := ⟨h0.le, h1.le⟩
  have hsr : ∀ k : Int, (((sph l k (Real.cos ν) 0).re : ℝ) : ℂ) = sph l k (Real.cos ν) 0 := by
    intro k
    rw [sph_cos _ _ _ _ hmem]; simp
  have hy : ∀ k : Int, (sph l k (Real.cos ν) 0).re = yv l k ν := by
    intro k
    rw [sph_cos _ _ _ _ hmem]; simp
  refine ⟨?_, ?_, ?_, ?_⟩
  · simp only [evalBfM, e1, e2, hget, hf g hg j hj]
    push_cast
    rw [hsr]
    ring
  · simp only [evalBfM, hcols, e1, e2, hget, hd g hg j hj]
    have := (hR.differentiableAt (by norm_num)).hasDerivAt
    refine (this.ofReal_comp.mul_const _).congr_deriv ?_
    push_cast
    rw [hsr]
    ring
  · simp only [evalDthM, e1, e2, hget, hf g hg j hj, hy, cotth_cos ν hmem]
    have hy' := ((((yv_up l m h ν hs).ofReal_comp).const_mul (Complex.exp ((m * (0 : ℝ) : ℝ) * Complex.I))).const_mul (R j μ : ℂ))
    refine (hy'.congr_of_eventuallyEq (sph_loc l m _ ν 0 h0 h1)).congr_deriv ?_
    split_ifs
    · push_cast
      simp
      ring
    · push_cast
      simp
      ring
  · unfold Spec.prolateLaplacian
    rw [rad_part (R j) Real.sinh (sph l m (Real.cos ν) 0) μ (Real.cosh μ) hR (Real.hasDerivAt_sinh μ), ang_theta l m h _ ν 0 h0 h1, ang_phi]
    have hmax : max ((1 - Real.cos ν) * (1 + Real.cos ν)) 0 = Real.sin ν ^ 2 := by
      have h1 : (1 - Real.cos ν) * (1 + Real.cos ν) = Real.sin ν ^ 2 := by have := Real.sin_sq_add_cos_sq ν; linarith
      rw [h1, max_eq_left (sq_nonneg _)]
    simp only [evalLfM, e1, e2, hget, hf g hg j hj, hd g hg j hj, hl g hg j hj, if_pos hsh, hmax]
    rw [← hsr m]
    have hq : (0 : ℝ) < Real.sinh μ ^ 2 + Real.sin ν ^ 2 := by positivity
    norm_cast
    obtain ⟨S, hS⟩ : ∃ S, S = Real.sinh μ := ⟨_, rfl⟩
    obtain ⟨T, hT⟩ : ∃ T, T = Real.sin ν := ⟨_, rfl⟩
    rw [← hS] at hsh hq ⊢
    rw [← hT] at hs hq ⊢
    have hS0 := hsh.ne'
    have hq0 := hq.ne'
    have hq1 : S * S + T ^ 2 ≠ 0 := by rw [← sq]; exact hq0
    push_cast
    field_simp
    ring

example : ((evalLfM [(0, 0), (1, 1), (2, 0)] 1 1 ⟨1, 1, fun _ _ => toyR 1 1⟩ ⟨1, 1, fun _ _ => 2⟩ ⟨1, 1, fun _ _ => 2⟩ (Real.cos 1) 0).get 0 1 : ℂ) =
    Spec.prolateLaplacian 1 (fun s t p => (toyR 1 s : ℂ) * sph 2 0 (Real.cos t) p) 1 1 0 := by
  have hpi := Real.two_le_pi
  have e : toyR 1 = fun r => r ^ 2 := by funext r; simp [toyR]
  have d1 : deriv (toyR 1) = fun r => 2 * r := by funext r; simpa using (toyR_deriv 1 r).deriv
  have := (C68_block [(0, 0), (1, 1), (2, 0)] 0 (fun _ => toyR 1) 1 1 one_pos one_pos ⟨1, 1, fun _ _ => toyR 1 1⟩ ⟨1, 1, fun _ _ => 2⟩ ⟨1, 1, fun _ _ => 2⟩ rfl
    (fun _ _ _ _ => rfl) (fun _ _ _ _ => by simp [d1]) (fun _ _ _ _ => by simp only [d1]; simp [deriv_const_mul_field]) 0 one_pos 1 (by decide) 0 one_pos (by rw [e]; fun_prop) 2 rfl (by decide) 1 one_pos (by linarith)).2.2.2
  exact this

example : (evalLf [(0, 0), (2, -1)] (fun _ => 3) ⟨1, 1, fun _ _ => toyR 1 3⟩ ⟨1, 1, fun _ _ => 6⟩ ⟨1, 1, fun _ _ => 2⟩ (Real.cos 1) 2).get 0 1 =
    Spec.sphericalLaplacian (fun s t p => (toyR 1 s : ℂ) * sph 2 (-1) (Real.cos t) p) 3 1 2 := by
  have hpi := Real.two_le_pi
  have e : toyR 1 = fun r => r ^ 2 := by funext r; simp [toyR]
  have d1 : deriv (toyR 1) = fun r => 2 * r := by funext r; simpa using (toyR_deriv 1 r).deriv
  exact C68_laplacian [(0, 0), (2, -1)] (fun _ => toyR 1) (fun _ => 3) ⟨1, 1, fun _ _ => toyR 1 3⟩ ⟨1, 1, fun _ _ => 6⟩ ⟨1, 1, fun _ _ => 2⟩
    (fun _ _ _ _ => rfl) (fun _ _ _ _ => by simp only [d1]; norm_num) (fun _ _ _ _ => by simp only [d1]; simp [deriv_const_mul_field]) 0 one_pos 1 (by decide) 0 one_pos (by rw [e]; fun_prop) (by norm_num) 2 (-1) rfl (by decide) 1 2 one_pos (by linarith)

end Harm
end HelFEM
