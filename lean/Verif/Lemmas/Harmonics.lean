import Verif.Model.Harmonics
import Verif.Lemmas.AssocLegendre
import Verif.Lemmas.LegendreOrtho
import Mathlib.Analysis.SpecialFunctions.Trigonometric.Deriv
import Mathlib.Analysis.SpecialFunctions.Integrals.Basic

/-!
# Spherical harmonics
-/

namespace HelFEM
namespace Harm

open Polynomial

/-- normalisation -/
noncomputable def nrm (l m : Nat) : ℝ := √((2 * l + 1) / (4 * Real.pi) * (Nat.factorial (l - m) / Nat.factorial (l + m)))

/-- `P_l^{(m)}` -/
noncomputable def dP (l m : Nat) (x : ℝ) : ℝ := (derivative^[m] (Poly.pP l)).eval x

theorem sphLegendre_eq (l m : Nat) (θ : ℝ) : sphLegendre l m θ = (-1) ^ m * nrm l m * Real.sin θ ^ m * dP l m (Real.cos θ) := rfl

theorem dP_gt (l m : Nat) (h : l < m) (x : ℝ) : dP l m x = 0 := by rw [dP, ALeg.pP_iter_zero l m h]; simp

theorem dP_deriv (l m : Nat) (x : ℝ) : HasDerivAt (dP l m) (dP l (m + 1) x) x := ALeg.jetP.der l m x (Set.mem_univ x)

theorem dP_recM (l m : Nat) (x : ℝ) : (1 - x ^ 2) * dP l (m + 2) x = 2 * (m + 1) * x * dP l (m + 1) x - (l + (m + 1)) * (l - (m + 1) + 1) * dP l m x :=
  ALeg.jetP.recM l m x (Set.mem_univ x)

theorem nrm_pos (l m : Nat) : 0 < nrm l m := by
  unfold nrm
  have := Real.pi_pos
  positivity

theorem nrm_sq (l m : Nat) : nrm l m ^ 2 = (2 * l + 1) / (4 * Real.pi) * (Nat.factorial (l - m) / Nat.factorial (l + m)) := by
  unfold nrm
  have := Real.pi_pos
  rw [Real.sq_sqrt (by positivity)]

/-- raising -/
theorem nrm_up (l m : Nat) (h : m < l) : √(((l : ℝ) - m) * (l + m + 1)) * nrm l (m + 1) = nrm l m := by
  have hlm : (0 : ℝ) < (l : ℝ) - m := by have : (m : ℝ) < l := by exact_mod_cast h
                                         linarith
  have hpos : (0 : ℝ) ≤ ((l : ℝ) - m) * (l + m + 1) := by positivity
  unfold nrm
  rw [← Real.sqrt_mul hpos]
  congr 1
  obtain ⟨d, rfl⟩ := Nat.exists_eq_add_of_lt h
  have e1 : m + d + 1 - m = d + 1 := by omega
  have e2 : m + d + 1 - (m + 1) = d := by omega
  have e3 : m + d + 1 + (m + 1) = (m + d + 1 + m) + 1 := by omega
  rw [e1, e2, e3, Nat.factorial_succ d, Nat.factorial_succ (m + d + 1 + m)]
  have := Real.pi_pos
  have f1 : ((m + d + 1 + m).factorial : ℝ) ≠ 0 := by positivity
  push_cast
  have g : (2 * (m : ℝ) + d + 2) ≠ 0 := by positivity
  field_simp
  ring

/-- the derivative in the angle, raising -/
theorem sphLegendre_up (l m : Nat) (θ : ℝ) (hs : Real.sin θ ≠ 0) :
    HasDerivAt (sphLegendre l m) (m * (Real.cos θ / Real.sin θ) * sphLegendre l m θ + if m < l then √(((l : ℝ) - m) * (l + m + 1)) * sphLegendre l (m + 1) θ else 0) θ := by
  have h1 : HasDerivAt (fun t => dP l m (Real.cos t)) (dP l (m + 1) (Real.cos θ) * -Real.sin θ) θ := (dP_deriv l m (Real.cos θ)).comp θ (Real.hasDerivAt_cos θ)
  have h2 : HasDerivAt (fun t => Real.sin t ^ m) (m * Real.sin θ ^ (m - 1) * Real.cos θ) θ := (Real.hasDerivAt_sin θ).fun_pow m
  have h3 := ((h2.const_mul ((-1) ^ m * nrm l m)).mul h1)
  refine h3.congr_deriv ?_
  have hm : (m : ℝ) * Real.sin θ ^ (m - 1) = m * (Real.sin θ ^ m / Real.sin θ) := by
    rcases m with _ | m
    · simp
    · rw [Nat.add_sub_cancel, pow_succ]; field_simp
  simp only [sphLegendre_eq]
  split_ifs with h
  · rw [← nrm_up l m h, hm]
    ring
  · have : dP l (m + 1) (Real.cos θ) = 0 := dP_gt l (m + 1) (by omega) _
    rw [this, hm]
    ring

/-- the derivative in the angle, lowering -/
theorem sphLegendre_down (l m : Nat) (hm : m + 1 ≤ l) (θ : ℝ) (hs : Real.sin θ ≠ 0) :
    HasDerivAt (sphLegendre l (m + 1)) (-(m + 1) * (Real.cos θ / Real.sin θ) * sphLegendre l (m + 1) θ - √(((l : ℝ) - m) * (l + m + 1)) * sphLegendre l m θ) θ := by
  refine (sphLegendre_up l (m + 1) θ hs).congr_deriv ?_
  have hr := dP_recM l m (Real.cos θ)
  have hsq : 1 - Real.cos θ ^ 2 = Real.sin θ ^ 2 := by have := Real.sin_sq_add_cos_sq θ; linarith
  rw [hsq] at hr
  have hlm : (0 : ℝ) < (l : ℝ) - m := by have : ((m + 1 : Nat) : ℝ) ≤ l := by exact_mod_cast hm
                                         push_cast at this; linarith
  have hn := nrm_up l m (by omega)
  have hq : √(((l : ℝ) - m) * (l + m + 1)) * √(((l : ℝ) - m) * (l + m + 1)) = ((l : ℝ) - m) * (l + m + 1) := Real.mul_self_sqrt (by positivity)
  have key : √(((l : ℝ) - m) * (l + m + 1)) * nrm l m = ((l : ℝ) - m) * (l + m + 1) * nrm l (m + 1) := by rw [← hn, ← mul_assoc, hq]
  have hup : (if m + 1 < l then √(((l : ℝ) - (m + 1 : Nat)) * (l + (m + 1 : Nat) + 1)) * sphLegendre l (m + 1 + 1) θ else 0) =
      (-1) ^ (m + 1 + 1) * nrm l (m + 1) * Real.sin θ ^ (m + 1 + 1) * dP l (m + 1 + 1) (Real.cos θ) := by
    split_ifs with h
    · rw [sphLegendre_eq, ← nrm_up l (m + 1) h]; ring
    · rw [dP_gt l (m + 1 + 1) (by omega)]; ring
  rw [hup]
  simp only [sphLegendre_eq]
  have e : √(((l : ℝ) - m) * (l + m + 1)) * ((-1) ^ m * nrm l m * Real.sin θ ^ m * dP l m (Real.cos θ)) =
      (-1) ^ m * (((l : ℝ) - m) * (l + m + 1) * nrm l (m + 1)) * Real.sin θ ^ m * dP l m (Real.cos θ) := by rw [← key]; ring
  rw [e]
  have hr' : Real.sin θ ^ 2 * dP l (m + 1 + 1) (Real.cos θ) = 2 * ((m : ℝ) + 1) * Real.cos θ * dP l (m + 1) (Real.cos θ) - (l + (m + 1)) * (l - (m + 1) + 1) * dP l m (Real.cos θ) := hr
  have e2 : Real.sin θ ^ (m + 1 + 1) * dP l (m + 1 + 1) (Real.cos θ) = Real.sin θ ^ m * (2 * ((m : ℝ) + 1) * Real.cos θ * dP l (m + 1) (Real.cos θ) - (l + (m + 1)) * (l - (m + 1) + 1) * dP l m (Real.cos θ)) := by
    rw [← hr']; ring
  have e3 : (-1 : ℝ) ^ (m + 1 + 1) * nrm l (m + 1) * Real.sin θ ^ (m + 1 + 1) * dP l (m + 1 + 1) (Real.cos θ) =
      (-1 : ℝ) ^ m * nrm l (m + 1) * (Real.sin θ ^ m * (2 * ((m : ℝ) + 1) * Real.cos θ * dP l (m + 1) (Real.cos θ) - (l + (m + 1)) * (l - (m + 1) + 1) * dP l m (Real.cos θ))) := by
    rw [← e2]; ring
  rw [e3]
  have e4 : Real.cos θ / Real.sin θ * Real.sin θ ^ (m + 1) = Real.cos θ * Real.sin θ ^ m := by rw [pow_succ]; field_simp
  push_cast
  linear_combination (2 * ((m : ℝ) + 1) * (-1) ^ (m + 1) * nrm l (m + 1) * dP l (m + 1) (Real.cos θ)) * e4

/-! ### Both signs of `m` -/

/-- the real angular function -/
noncomputable def yv (l m : Int) (θ : ℝ) : ℝ := if m < 0 then (-1) ^ m.natAbs * sphLegendre l.toNat m.natAbs θ else sphLegendre l.toNat m.natAbs θ

theorem yv_nat (l m : Nat) (θ : ℝ) : yv l m θ = sphLegendre l m θ := by
  rw [yv, if_neg (by omega)]; rfl

theorem yv_neg_nat (l m : Nat) (θ : ℝ) : yv l (-(m : Int)) θ = (-1) ^ m * sphLegendre l m θ := by
  rcases m with _ | m
  · simp [yv]
  · rw [yv, if_pos (by omega), Int.natAbs_neg, Int.natAbs_natCast]
    rfl

/-- the angular function times `e^{imφ}` -/
theorem sph_eq (l m : Int) (c φ : ℝ) : sph l m c φ = Complex.exp ((m * φ : ℝ) * Complex.I) * (yv l m (Real.arccos c) : ℝ) := by
  unfold sph yv sphPos
  split_ifs with h
  · have e1 : (-m).toNat = m.natAbs := by omega
    have e2 : ((-1 : ℂ)) ^ m = (((-1 : ℝ) ^ m.natAbs : ℝ) : ℂ) := by
      obtain ⟨k, rfl⟩ : ∃ k : Nat, m = -(k : Int) := ⟨m.natAbs, by omega⟩
      simp [← inv_pow, inv_neg_one]
    rw [e1, e2, map_mul, map_mul, Complex.conj_ofReal, Complex.conj_ofReal, ← Complex.exp_conj, map_mul, Complex.conj_I, Complex.conj_ofReal]
    push_cast
    rw [show (-(m : ℂ) * φ * -Complex.I) = m * φ * Complex.I by ring]
    ring
  · have e1 : m.toNat = m.natAbs := by omega
    rw [e1]

theorem yv_neg (l m : Int) (θ : ℝ) : yv l (-m) θ = (-1) ^ m.natAbs * yv l m θ := by
  have h1 : ((-1 : ℝ)) ^ m.natAbs * (-1) ^ m.natAbs = 1 := by rw [← mul_pow]; simp
  unfold yv
  rw [Int.natAbs_neg]
  by_cases h : m < 0
  · rw [if_neg (by omega), if_pos h, ← mul_assoc, h1, one_mul]
  · by_cases h0 : m = 0
    · subst h0; simp
    · rw [if_pos (by omega), if_neg h]

theorem yv_up (l m : Int) (h : |m| ≤ l) (θ : ℝ) (hs : Real.sin θ ≠ 0) :
    HasDerivAt (yv l m) (m * (Real.cos θ / Real.sin θ) * yv l m θ + if m < l then √(((l : ℝ) - m) * (l + m + 1)) * yv l (m + 1) θ else 0) θ := by
  rw [abs_le] at h
  obtain ⟨L, rfl⟩ := Int.eq_ofNat_of_zero_le (show 0 ≤ l by omega)
  by_cases h0 : 0 ≤ m
  · obtain ⟨M, rfl⟩ := Int.eq_ofNat_of_zero_le h0
    have e : yv (L : Int) (M : Int) = sphLegendre L M := funext fun t => yv_nat L M t
    have e2 : yv (L : Int) ((M : Int) + 1) = sphLegendre L (M + 1) := funext fun t => by exact_mod_cast yv_nat L (M + 1) t
    rw [e, e2]
    refine (sphLegendre_up L M θ hs).congr_deriv ?_
    simp only [Nat.cast_lt, Int.cast_natCast]
  · obtain ⟨k, rfl⟩ : ∃ k : Nat, m = -((k + 1 : Nat) : Int) := ⟨m.natAbs - 1, by omega⟩
    have e : yv (L : Int) (-((k + 1 : Nat) : Int)) = fun t => (-1) ^ (k + 1) * sphLegendre L (k + 1) t := funext fun t => yv_neg_nat L (k + 1) t
    have e2 : yv (L : Int) (-((k + 1 : Nat) : Int) + 1) = fun t => (-1) ^ k * sphLegendre L k t := by
      rw [show -((k + 1 : Nat) : Int) + 1 = -(k : Int) by push_cast; ring]
      exact funext fun t => yv_neg_nat L k t
    rw [e, e2, if_pos (by omega)]
    refine ((sphLegendre_down L k (by omega) θ hs).const_mul _).congr_deriv ?_
    push_cast
    rw [show ((L : ℝ) - -(k + 1)) * (L + -(k + 1) + 1) = ((L : ℝ) - k) * (L + k + 1) by ring]
    ring

theorem yv_down (l m : Int) (h : |m| ≤ l) (hm : m < l) (θ : ℝ) (hs : Real.sin θ ≠ 0) :
    HasDerivAt (yv l (m + 1)) (-(m + 1) * (Real.cos θ / Real.sin θ) * yv l (m + 1) θ - √(((l : ℝ) - m) * (l + m + 1)) * yv l m θ) θ := by
  rw [abs_le] at h
  obtain ⟨L, rfl⟩ := Int.eq_ofNat_of_zero_le (show 0 ≤ l by omega)
  by_cases h0 : 0 ≤ m
  · obtain ⟨M, rfl⟩ := Int.eq_ofNat_of_zero_le h0
    have e : yv (L : Int) (M : Int) = sphLegendre L M := funext fun t => yv_nat L M t
    have e2 : yv (L : Int) ((M : Int) + 1) = sphLegendre L (M + 1) := funext fun t => by exact_mod_cast yv_nat L (M + 1) t
    rw [e, e2]
    refine (sphLegendre_down L M (by omega) θ hs).congr_deriv ?_
    simp only [Int.cast_natCast]
  · obtain ⟨k, rfl⟩ : ∃ k : Nat, m = -((k + 1 : Nat) : Int) := ⟨m.natAbs - 1, by omega⟩
    have e : yv (L : Int) (-((k + 1 : Nat) : Int)) = fun t => (-1) ^ (k + 1) * sphLegendre L (k + 1) t := funext fun t => yv_neg_nat L (k + 1) t
    have e2 : yv (L : Int) (-((k + 1 : Nat) : Int) + 1) = fun t => (-1) ^ k * sphLegendre L k t := by
      rw [show -((k + 1 : Nat) : Int) + 1 = -(k : Int) by push_cast; ring]
      exact funext fun t => yv_neg_nat L k t
    rw [e, e2]
    refine ((sphLegendre_up L k θ hs).const_mul _).congr_deriv ?_
    rw [if_pos (by omega)]
    push_cast
    rw [show ((L : ℝ) - -(k + 1)) * (L + -(k + 1) + 1) = ((L : ℝ) - k) * (L + k + 1) by ring]
    ring

/-- Legendre's equation -/
theorem yv_second (l m : Int) (h : |m| ≤ l) (θ : ℝ) (h0 : 0 < θ) (h1 : θ < Real.pi) :
    HasDerivAt (deriv (yv l m)) (-(Real.cos θ / Real.sin θ * deriv (yv l m) θ) - (l * (l + 1) - m ^ 2 / Real.sin θ ^ 2) * yv l m θ) θ := by
  have hs : Real.sin θ ≠ 0 := (Real.sin_pos_of_pos_of_lt_pi h0 h1).ne'
  have hev : deriv (yv l m) =ᶠ[nhds θ] fun t => m * (Real.cos t / Real.sin t) * yv l m t + if m < l then √(((l : ℝ) - m) * (l + m + 1)) * yv l (m + 1) t else 0 := by
    filter_upwards [Ioo_mem_nhds h0 h1] with t ht
    exact (yv_up l m h t (Real.sin_pos_of_pos_of_lt_pi ht.1 ht.2).ne').deriv
  refine HasDerivAt.congr_of_eventuallyEq ?_ hev
  rw [(yv_up l m h θ hs).deriv]
  have hc : HasDerivAt (fun t => Real.cos t / Real.sin t) (-(1 / Real.sin θ ^ 2)) θ := by
    refine ((Real.hasDerivAt_cos θ).div (Real.hasDerivAt_sin θ) hs).congr_deriv ?_
    have := Real.sin_sq_add_cos_sq θ
    field_simp
    linarith
  have hsq : (Real.cos θ / Real.sin θ) ^ 2 = 1 / Real.sin θ ^ 2 - 1 := by
    have := Real.sin_sq_add_cos_sq θ
    field_simp
    linarith
  obtain ⟨k, hk⟩ : ∃ k, k = Real.cos θ / Real.sin θ := ⟨_, rfl⟩
  obtain ⟨q, hq⟩ : ∃ q, q = 1 / Real.sin θ ^ 2 := ⟨_, rfl⟩
  have hsq' : k ^ 2 = q - 1 := by rw [hk, hq]; exact hsq
  have hd := (hc.const_mul (m : ℝ)).mul (yv_up l m h θ hs)
  have hmq : (m : ℝ) ^ 2 / Real.sin θ ^ 2 = m ^ 2 * q := by rw [hq]; ring
  by_cases hm : m < l
  · simp only [hm, if_true] at hd ⊢
    refine (hd.add ((yv_down l m h hm θ hs).const_mul _)).congr_deriv ?_
    have hlm : (0 : ℝ) ≤ ((l : ℝ) - m) * (l + m + 1) := by
      rw [abs_le] at h
      have a1 : (m : ℝ) ≤ l := by exact_mod_cast h.2
      have a2 : (0 : ℝ) ≤ l + m + 1 := by have : 0 ≤ l + m + 1 := by omega
                                          exact_mod_cast this
      exact mul_nonneg (by linarith) a2
    have ha := Real.mul_self_sqrt hlm
    obtain ⟨a, hae⟩ : ∃ a, a = √(((l : ℝ) - m) * (l + m + 1)) := ⟨_, rfl⟩
    rw [← hae] at ha
    rw [hmq, ← hk, ← hq, ← hae]
    linear_combination (m * (m + 1) * yv l m θ) * hsq' - yv l m θ * ha
  · have hml : m = l := by rw [abs_le] at h; omega
    simp only [hm, if_false, add_zero] at hd ⊢
    refine hd.congr_deriv ?_
    rw [hmq, hml, ← hk, ← hq]
    linear_combination (l * (l + 1) * yv l l θ) * hsq'

/-! ### Orthonormality -/

theorem refInt_assoc (l l' m : Nat) : Poly.refInt ((1 - X ^ 2) ^ (m + 1) * derivative^[m + 1] (Poly.pP l) * derivative^[m + 1] (Poly.pP l')) =
    ((l : ℝ) - m) * (l + m + 1) * Poly.refInt ((1 - X ^ 2) ^ m * derivative^[m] (Poly.pP l) * derivative^[m] (Poly.pP l')) := by
  have h := Poly.refInt_parts (derivative^[m] (Poly.pP l')) ((1 - X ^ 2) ^ (m + 1) * derivative^[m + 1] (Poly.pP l))
  have e0 : ((derivative^[m] (Poly.pP l')) * ((1 - X ^ 2) ^ (m + 1) * derivative^[m + 1] (Poly.pP l))).eval 1 = 0 := by simp
  have e1 : ((derivative^[m] (Poly.pP l')) * ((1 - X ^ 2) ^ (m + 1) * derivative^[m + 1] (Poly.pP l))).eval (-1) = 0 := by simp
  have ed : derivative ((1 - X ^ 2) ^ (m + 1) * derivative^[m + 1] (Poly.pP l)) = C (-(((l : ℝ) - m) * (l + m + 1))) * ((1 - X ^ 2) ^ m * derivative^[m] (Poly.pP l)) := by
    refine Polynomial.funext fun x => ?_
    rw [derivative_mul, ← Function.iterate_succ_apply' derivative]
    have hr := dP_recM l m x
    simp only [dP] at hr
    have hp : (derivative ((1 - X ^ 2 : ℝ[X]) ^ (m + 1))).eval x = (m + 1) * (1 - x ^ 2) ^ m * (-(2 * x)) := by
      rw [derivative_pow_succ]
      simp
      exact Or.inl (Or.inl one_add_one_eq_two)
    simp only [eval_add, eval_mul, hp, eval_pow, eval_sub, eval_one, eval_X, eval_C]
    linear_combination (1 - x ^ 2) ^ m * hr
  rw [e0, e1, ed, ← Function.iterate_succ_apply' derivative, sub_zero, zero_sub] at h
  rw [show (1 - X ^ 2) ^ (m + 1) * derivative^[m + 1] (Poly.pP l) * derivative^[m + 1] (Poly.pP l') = derivative^[m + 1] (Poly.pP l') * ((1 - X ^ 2) ^ (m + 1) * derivative^[m + 1] (Poly.pP l)) by ring, h,
    show derivative^[m] (Poly.pP l') * (C (-(((l : ℝ) - m) * (l + m + 1))) * ((1 - X ^ 2) ^ m * derivative^[m] (Poly.pP l))) =
      C (-(((l : ℝ) - m) * (l + m + 1))) * ((1 - X ^ 2) ^ m * derivative^[m] (Poly.pP l) * derivative^[m] (Poly.pP l')) by ring, Poly.refInt_C_mul]
  ring

theorem refInt_assoc_ne (l l' : Nat) (h : l ≠ l') : ∀ m, Poly.refInt ((1 - X ^ 2) ^ m * derivative^[m] (Poly.pP l) * derivative^[m] (Poly.pP l')) = 0
  | 0 => by simpa using Poly.pP_orth l l' h
  | m + 1 => by rw [refInt_assoc, refInt_assoc_ne l l' h m, mul_zero]

theorem refInt_assoc_eq (l : Nat) : ∀ m, m ≤ l → Poly.refInt ((1 - X ^ 2) ^ m * derivative^[m] (Poly.pP l) * derivative^[m] (Poly.pP l)) =
    2 / (2 * l + 1) * (Nat.factorial (l + m) / Nat.factorial (l - m))
  | 0, _ => by
    have h0 : (l.factorial : ℝ) ≠ 0 := by positivity
    have := Poly.pP_norm l
    simp [this, h0]
  | m + 1, h => by
    rw [refInt_assoc, refInt_assoc_eq l m (by omega)]
    obtain ⟨d, rfl⟩ := Nat.exists_eq_add_of_lt (show m < l by omega)
    have e1 : m + d + 1 - m = d + 1 := by omega
    have e2 : m + d + 1 - (m + 1) = d := by omega
    have e3 : m + d + 1 + (m + 1) = (m + d + 1 + m) + 1 := by omega
    rw [e1, e2, e3, Nat.factorial_succ d, Nat.factorial_succ (m + d + 1 + m)]
    have f1 : (d.factorial : ℝ) ≠ 0 := by positivity
    push_cast
    have g : (d : ℝ) + 1 ≠ 0 := by positivity
    field_simp
    ring

/-- the angular functions are orthonormal up to the azimuth's `2π` -/
theorem yv_orth (l l' m : Int) (h : |m| ≤ l) (h' : |m| ≤ l') :
    ∫ c in (-1 : ℝ)..1, yv l m (Real.arccos c) * yv l' m (Real.arccos c) = if l = l' then 1 / (2 * Real.pi) else 0 := by
  rw [abs_le] at h h'
  obtain ⟨L, rfl⟩ := Int.eq_ofNat_of_zero_le (show 0 ≤ l by omega)
  obtain ⟨L', rfl⟩ := Int.eq_ofNat_of_zero_le (show 0 ≤ l' by omega)
  obtain ⟨k, hk⟩ : ∃ k, k = m.natAbs := ⟨_, rfl⟩
  have hsq : ((-1 : ℝ)) ^ k * (-1) ^ k = 1 := by rw [← mul_pow]; simp
  have e : ∀ c ∈ Set.uIcc (-1 : ℝ) 1, yv L m (Real.arccos c) * yv L' m (Real.arccos c) =
      nrm L k * nrm L' k * ((1 - X ^ 2) ^ k * derivative^[k] (Poly.pP L) * derivative^[k] (Poly.pP L')).eval c := by
    intro c hc
    rw [Set.uIcc_of_le (by norm_num)] at hc
    have h1 : yv L m (Real.arccos c) * yv L' m (Real.arccos c) = sphLegendre L k (Real.arccos c) * sphLegendre L' k (Real.arccos c) := by
      unfold yv
      rw [← hk]
      split_ifs
      · calc _ = ((-1 : ℝ) ^ k * (-1) ^ k) * (sphLegendre L k (Real.arccos c) * sphLegendre L' k (Real.arccos c)) := by simp only [Int.toNat_natCast]; ring
          _ = _ := by rw [hsq, one_mul]
      · rfl
    rw [h1, sphLegendre_eq, sphLegendre_eq, Real.cos_arccos hc.1 hc.2, Real.sin_arccos]
    simp only [eval_mul, eval_pow, eval_sub, eval_one, eval_X]
    have hs : √(1 - c ^ 2) ^ k * √(1 - c ^ 2) ^ k = (1 - c ^ 2) ^ k := by
      rw [← mul_pow, Real.mul_self_sqrt]
      nlinarith [hc.1, hc.2]
    rw [← hs]
    change _ = nrm L k * nrm L' k * (√(1 - c ^ 2) ^ k * √(1 - c ^ 2) ^ k * dP L k c * dP L' k c)
    linear_combination (nrm L k * nrm L' k * √(1 - c ^ 2) ^ k * √(1 - c ^ 2) ^ k * dP L k c * dP L' k c) * hsq
  rw [intervalIntegral.integral_congr e, intervalIntegral.integral_const_mul]
  change nrm L k * nrm L' k * Poly.refInt _ = _
  by_cases hll : L = L'
  · subst hll
    rw [if_pos rfl, refInt_assoc_eq L k (by omega), ← sq, nrm_sq]
    have := Real.pi_pos
    have f1 : ((L + k).factorial : ℝ) ≠ 0 := by positivity
    have f2 : ((L - k).factorial : ℝ) ≠ 0 := by positivity
    field_simp
    ring
  · rw [if_neg (by omega), refInt_assoc_ne L L' hll, mul_zero]

/-- the integral of `e^{ikφ}` -/
theorem exp_orth (k : Int) : ∫ φ in (0 : ℝ)..2 * Real.pi, Complex.exp ((k * φ : ℝ) * Complex.I) = if k = 0 then 2 * Real.pi else 0 := by
  by_cases hk : k = 0
  · subst hk; simp
  · rw [if_neg hk]
    have hk' : (k : ℂ) * Complex.I ≠ 0 := mul_ne_zero (by exact_mod_cast hk) Complex.I_ne_zero
    have e : ∀ φ : ℝ, Complex.exp ((k * φ : ℝ) * Complex.I) = Complex.exp ((k : ℂ) * Complex.I * φ) := by
      intro φ; congr 1; push_cast; ring
    simp only [e]
    rw [integral_exp_mul_complex hk']
    have : Complex.exp ((k : ℂ) * Complex.I * (2 * Real.pi : ℝ)) = 1 := by
      rw [show (k : ℂ) * Complex.I * (2 * Real.pi : ℝ) = k * (2 * Real.pi * Complex.I) by push_cast; ring]
      exact Complex.exp_int_mul_two_pi_mul_I k
    rw [this]
    simp

end Harm
end HelFEM
