import Verif.Lemmas.OneElectronAng
import Mathlib.Analysis.Calculus.Deriv.Inv
import Mathlib.MeasureTheory.Integral.IntervalIntegral.FundThmCalculus

/-!
# Lemmas for C70: the kinetic energy
-/

namespace HelFEM
namespace OneE

open Polynomial Finset Harm MeasureTheory

/-! ### Angular part -/

/-- derivative of the polar part with respect to the angle -/
noncomputable def yt (l : Nat) (m : Int) (c : ℝ) : ℝ :=
  yc l m * (m.natAbs * √(1 - c ^ 2) ^ (m.natAbs - 1) * c * dP l m.natAbs c - √(1 - c ^ 2) ^ (m.natAbs + 1) * dP l (m.natAbs + 1) c)

theorem yx_cos_deriv (l : Nat) (m : Int) (c : ℝ) (h0 : -1 < c) (h1 : c < 1) : HasDerivAt (fun t => yx l m (Real.cos t)) (yt l m c) (Real.arccos c) := by
  have hpos : 0 < Real.arccos c := Real.arccos_pos.2 h1
  have hlt : Real.arccos c < Real.pi := by
    refine lt_of_le_of_ne (Real.arccos_le_pi c) fun h => ?_
    have := Real.cos_arccos h0.le h1.le
    rw [h, Real.cos_pi] at this
    linarith
  have hev : (fun t => yx l m (Real.cos t)) =ᶠ[nhds (Real.arccos c)] fun t => yc l m * Real.sin t ^ m.natAbs * dP l m.natAbs (Real.cos t) := by
    filter_upwards [Ioo_mem_nhds hpos hlt] with t ht
    rw [yx, Real.arccos_cos ht.1.le ht.2.le, yv_eq]
  have hd : HasDerivAt (fun t => yc l m * Real.sin t ^ m.natAbs * dP l m.natAbs (Real.cos t)) (yt l m c) (Real.arccos c) := by
    have d1 := ((Real.hasDerivAt_sin (Real.arccos c)).fun_pow m.natAbs).const_mul (yc l m)
    have d2 := (dP_deriv l m.natAbs (Real.cos (Real.arccos c))).comp (Real.arccos c) (Real.hasDerivAt_cos (Real.arccos c))
    refine (d1.fun_mul d2).congr_deriv ?_
    simp only [Function.comp, Real.cos_arccos h0.le h1.le, Real.sin_arccos, yt]
    ring
  exact hd.congr_of_eventuallyEq hev

theorem refInt_angular (l l' k : Nat) :
    Poly.refInt ((1 - X ^ 2) ^ (k + 1) * derivative^[k + 1] (Poly.pP l) * derivative^[k + 1] (Poly.pP l') - C (k : ℝ) * (X * (1 - X ^ 2) ^ k * derivative (derivative^[k] (Poly.pP l) * derivative^[k] (Poly.pP l'))) +
      C ((k : ℝ) ^ 2) * ((1 + X ^ 2) * (1 - X ^ 2) ^ (k - 1) * (derivative^[k] (Poly.pP l) * derivative^[k] (Poly.pP l')))) =
    (l : ℝ) * (l + 1) * Poly.refInt ((1 - X ^ 2) ^ k * derivative^[k] (Poly.pP l) * derivative^[k] (Poly.pP l')) := by
  obtain ⟨D, hD⟩ : ∃ D, D = derivative^[k] (Poly.pP l) * derivative^[k] (Poly.pP l') := ⟨_, rfl⟩
  rw [mul_assoc ((1 - X ^ 2) ^ k), ← hD, Poly.refInt_add, Poly.refInt_sub, Poly.refInt_C_mul, Poly.refInt_C_mul, refInt_assoc, mul_assoc ((1 - X ^ 2) ^ k), ← hD]
  have hp := Poly.refInt_parts D (X * (1 - X ^ 2) ^ k)
  rw [show derivative D * (X * (1 - X ^ 2) ^ k) = X * (1 - X ^ 2) ^ k * derivative D by ring] at hp
  rw [hp]
  rcases Nat.eq_zero_or_pos k with rfl | hk
  · simp
  · obtain ⟨j, rfl⟩ : ∃ j, k = j + 1 := ⟨k - 1, by omega⟩
    have e1 : (D * (X * (1 - X ^ 2) ^ (j + 1))).eval 1 = 0 := by simp
    have e2 : (D * (X * (1 - X ^ 2) ^ (j + 1))).eval (-1) = 0 := by simp
    have e3 : D * derivative (X * (1 - X ^ 2) ^ (j + 1)) = (1 - X ^ 2) ^ (j + 1) * D - C (2 * ((j : ℝ) + 1)) * (X ^ 2 * (1 - X ^ 2) ^ j * D) := by
      simp only [derivative_mul, derivative_X, derivative_pow, derivative_sub, derivative_one]
      simp
      ring
    have e4 : (1 + X ^ 2) * (1 - X ^ 2) ^ j * D = (1 - X ^ 2) ^ (j + 1) * D + C 2 * (X ^ 2 * (1 - X ^ 2) ^ j * D) := by
      rw [pow_succ, show (C 2 : ℝ[X]) = 2 from rfl]
      ring
    rw [e1, e2, e3, Poly.refInt_sub, Poly.refInt_C_mul, Nat.add_sub_cancel, e4, Poly.refInt_add, Poly.refInt_C_mul]
    push_cast
    ring

/-- the polynomial of the angular kinetic energy -/
noncomputable def angQ (l l' k : Nat) : ℝ[X] :=
  (1 - X ^ 2) ^ (k + 1) * derivative^[k + 1] (Poly.pP l) * derivative^[k + 1] (Poly.pP l') - C (k : ℝ) * (X * (1 - X ^ 2) ^ k * derivative (derivative^[k] (Poly.pP l) * derivative^[k] (Poly.pP l'))) +
      C ((k : ℝ) ^ 2) * ((1 + X ^ 2) * (1 - X ^ 2) ^ (k - 1) * (derivative^[k] (Poly.pP l) * derivative^[k] (Poly.pP l')))

theorem ang_poly (l : Nat) (m : Int) (l' : Nat) (c : ℝ) (h0 : -1 < c) (h1 : c < 1) :
    yt l m c * yt l' m c + 1 / (1 - c ^ 2) * ((m : ℝ) * m * (yx l m c * yx l' m c)) = yc l m * yc l' m * (angQ l l' m.natAbs).eval c := by
  obtain ⟨k, hk⟩ : ∃ k, k = m.natAbs := ⟨_, rfl⟩
  have hmk : (m : ℝ) * m = (k : ℝ) ^ 2 := by
    rw [← sq, hk, ← sq_abs (m : ℝ), ← Int.cast_abs, Int.abs_eq_natAbs]; simp
  have hs : 0 < 1 - c ^ 2 := by nlinarith
  rw [yx_eq l m c h0.le h1.le, yx_eq l' m c h0.le h1.le, hmk]
  simp only [yt, ← hk, angQ]
  have hd : ∀ (n j : Nat), dP n j c = (derivative^[j] (Poly.pP n)).eval c := fun _ _ => rfl
  simp only [hd, derivative_mul, ← Function.iterate_succ_apply' (f := derivative), eval_add, eval_sub, eval_mul, eval_pow, eval_one, eval_X, eval_C]
  generalize (derivative^[k] (Poly.pP l)).eval c = a
  generalize (derivative^[k] (Poly.pP l')).eval c = a'
  generalize (derivative^[k.succ] (Poly.pP l)).eval c = b
  generalize (derivative^[k.succ] (Poly.pP l')).eval c = b'
  obtain ⟨s, hsd⟩ : ∃ s, s = √(1 - c ^ 2) := ⟨_, rfl⟩
  have hs2 : 1 - c ^ 2 = s ^ 2 := by rw [hsd, Real.sq_sqrt hs.le]
  have hs0 : s ≠ 0 := by rw [hsd]; exact (Real.sqrt_pos.2 hs).ne'
  rw [← hsd, hs2]
  rcases Nat.eq_zero_or_pos k with rfl | hk
  · simp; ring
  · obtain ⟨j, rfl⟩ : ∃ j, k = j + 1 := ⟨k - 1, by omega⟩
    rw [Nat.add_sub_cancel]
    push_cast
    field_simp
    ring

/-- the angular momentum operator has the eigenvalue `l (l + 1)` -/
theorem angular_kinetic (l : Nat) (m : Int) (l' : Nat) (hm : m.natAbs ≤ l) (hm' : m.natAbs ≤ l') :
    2 * Real.pi * ∫ c in (-1 : ℝ)..1, yc l m * yc l' m * (angQ l l' m.natAbs).eval c = if l = l' then (l : ℝ) * (l + 1) else 0 := by
  obtain ⟨k, hk⟩ : ∃ k, k = m.natAbs := ⟨_, rfl⟩
  have e : ∫ c in (-1 : ℝ)..1, yc l m * yc l' m * (angQ l l' m.natAbs).eval c = yc l m * yc l' m * Poly.refInt (angQ l l' k) := by
    rw [intervalIntegral.integral_const_mul, hk]; rfl
  rw [e, angQ, refInt_angular]
  have ho := yx_orth l l' m hm hm'
  have e2 : ∫ c in (-1 : ℝ)..1, yx l m c * yx l' m c = yc l m * yc l' m * Poly.refInt ((1 - X ^ 2) ^ k * derivative^[k] (Poly.pP l) * derivative^[k] (Poly.pP l')) := by
    unfold Poly.refInt
    rw [← intervalIntegral.integral_const_mul]
    refine intervalIntegral.integral_congr fun c hc => ?_
    rw [Set.uIcc_of_le (by norm_num)] at hc
    have hs : 0 ≤ 1 - c ^ 2 := by nlinarith [hc.1, hc.2]
    simp only [yx_eq l m c hc.1 hc.2, yx_eq l' m c hc.1 hc.2, ← hk, eval_mul, eval_pow, eval_sub, eval_one, eval_X]
    rw [show yc l m * √(1 - c ^ 2) ^ k * eval c (derivative^[k] (Poly.pP l)) * (yc l' m * √(1 - c ^ 2) ^ k * eval c (derivative^[k] (Poly.pP l'))) =
      yc l m * yc l' m * ((√(1 - c ^ 2) ^ 2) ^ k * eval c (derivative^[k] (Poly.pP l)) * eval c (derivative^[k] (Poly.pP l'))) by ring, Real.sq_sqrt hs]
  rw [show 2 * Real.pi * (yc l m * yc l' m * ((l : ℝ) * (l + 1) * Poly.refInt ((1 - X ^ 2) ^ k * derivative^[k] (Poly.pP l) * derivative^[k] (Poly.pP l')))) =
    2 * Real.pi * ((l : ℝ) * (l + 1)) * (yc l m * yc l' m * Poly.refInt ((1 - X ^ 2) ^ k * derivative^[k] (Poly.pP l) * derivative^[k] (Poly.pP l'))) by ring, ← e2, ho]
  split_ifs
  · have := Real.pi_ne_zero
    field_simp
  · rw [mul_zero]

/-! ### Radial part -/

theorem div_deriv (p : ℝ[X]) (r : ℝ) (hr : 0 < r) : HasDerivAt (fun s => p.eval s / s) (((derivative p).eval r * r - p.eval r) / r ^ 2) r := by
  refine ((p.hasDerivAt r).fun_div (hasDerivAt_id r) hr.ne').congr_deriv ?_
  simp

/-- one element of the radial kinetic energy -/
theorem radial_element (p q : ℝ[X]) (K a b : ℝ) (ha : 0 ≤ a) (hab : a < b) (h0 : a = 0 → p.eval 0 = 0 ∧ q.eval 0 = 0) :
    ∫ r in a..b, (r ^ 2 * (((derivative p).eval r * r - p.eval r) / r ^ 2 * (((derivative q).eval r * r - q.eval r) / r ^ 2)) + K * (p.eval r / r * (q.eval r / r) * 1)) =
      (∫ r in a..b, (derivative p).eval r * (derivative q).eval r * 1) - (p.eval b * q.eval b / b - p.eval a * q.eval a / a) + K * ∫ r in a..b, p.eval r / r * (q.eval r / r) * 1 := by
  rcases ha.eq_or_lt with h | h
  · subst h
    obtain ⟨p0, q0⟩ := h0 rfl
    obtain ⟨u, rfl⟩ : X ∣ p := by rw [X_dvd_iff, coeff_zero_eq_eval_zero, p0]
    obtain ⟨v, rfl⟩ : X ∣ q := by rw [X_dvd_iff, coeff_zero_eq_eval_zero, q0]
    have e1 : ∫ r in (0 : ℝ)..b, (r ^ 2 * (((derivative (X * u)).eval r * r - (X * u).eval r) / r ^ 2 * (((derivative (X * v)).eval r * r - (X * v).eval r) / r ^ 2)) + K * ((X * u).eval r / r * ((X * v).eval r / r) * 1)) =
        ∫ r in (0 : ℝ)..b, ((derivative (X * u) * derivative (X * v) - derivative (X * u * v) + C K * (u * v)).eval r) := by
      refine intervalIntegral.integral_congr_ae (Filter.Eventually.of_forall fun r hr => ?_)
      rw [Set.uIoc_of_le hab.le] at hr
      have := hr.1.ne'
      simp only [derivative_mul, derivative_X, eval_add, eval_sub, eval_mul, eval_X, eval_one, eval_C]
      field_simp
      ring
    have e2 : ∫ r in (0 : ℝ)..b, (X * u).eval r / r * ((X * v).eval r / r) * 1 = ∫ r in (0 : ℝ)..b, (u * v).eval r := by
      refine intervalIntegral.integral_congr_ae (Filter.Eventually.of_forall fun r hr => ?_)
      rw [Set.uIoc_of_le hab.le] at hr
      have := hr.1.ne'
      simp only [eval_mul, eval_X]
      field_simp
    have hi : ∀ w : ℝ[X], IntervalIntegrable (fun r => w.eval r) volume 0 b := fun w => (Polynomial.continuous w).intervalIntegrable _ _
    have e3 : ∫ r in (0 : ℝ)..b, (derivative (X * u * v)).eval r = (X * u * v).eval b - (X * u * v).eval 0 :=
      intervalIntegral.integral_eq_sub_of_hasDerivAt (fun x _ => (X * u * v).hasDerivAt x) (hi _)
    rw [e1, e2]
    simp only [eval_add, eval_sub, mul_one]
    have e4 : ∀ r : ℝ, (derivative (X * u) * derivative (X * v)).eval r = (derivative (X * u)).eval r * (derivative (X * v)).eval r := fun r => eval_mul
    have e5 : ∀ r : ℝ, (C K * (u * v)).eval r = K * (u * v).eval r := fun r => by rw [eval_mul, eval_C]
    rw [intervalIntegral.integral_add ((hi _).sub (hi _)) (hi _), intervalIntegral.integral_sub (hi _) (hi _), e3]
    simp only [e4, e5, intervalIntegral.integral_const_mul, eval_mul, eval_X]
    have := hab.ne'
    simp only [zero_mul, zero_div, sub_zero]
    field_simp
  · have hb : 0 < b := h.trans hab
    have hne : ∀ r ∈ Set.uIcc a b, r ≠ 0 := by
      intro r hr
      rw [Set.uIcc_of_le hab.le] at hr
      exact (h.trans_le hr.1).ne'
    have cp := Polynomial.continuous p
    have cq := Polynomial.continuous q
    have cp' := Polynomial.continuous (derivative p)
    have cq' := Polynomial.continuous (derivative q)
    have hd : ∀ r ∈ Set.uIcc a b, HasDerivAt (fun r => p.eval r * q.eval r / r) (((derivative p).eval r * q.eval r + p.eval r * (derivative q).eval r) / r - p.eval r * q.eval r / r ^ 2) r := by
      intro r hr
      have := hne r hr
      refine (((p.hasDerivAt r).fun_mul (q.hasDerivAt r)).fun_div (hasDerivAt_id r) this).congr_deriv ?_
      simp only [id]
      field_simp
    have hc : ContinuousOn (fun r => ((derivative p).eval r * q.eval r + p.eval r * (derivative q).eval r) / r - p.eval r * q.eval r / r ^ 2) (Set.uIcc a b) := by
      refine ContinuousOn.sub (ContinuousOn.div (by fun_prop) (by fun_prop) fun r hr => hne r hr) (ContinuousOn.div (by fun_prop) (by fun_prop) fun r hr => pow_ne_zero 2 (hne r hr))
    have hc2 : ContinuousOn (fun r => p.eval r / r * (q.eval r / r) * 1) (Set.uIcc a b) := by
      refine ContinuousOn.mul (ContinuousOn.mul (ContinuousOn.div (by fun_prop) (by fun_prop) fun r hr => hne r hr) (ContinuousOn.div (by fun_prop) (by fun_prop) fun r hr => hne r hr)) continuousOn_const
    have hc3 : ContinuousOn (fun r => (derivative p).eval r * (derivative q).eval r * 1) (Set.uIcc a b) := by fun_prop
    have hint := intervalIntegral.integral_eq_sub_of_hasDerivAt hd hc.intervalIntegrable
    rw [← hint, ← intervalIntegral.integral_const_mul, ← intervalIntegral.integral_sub hc3.intervalIntegrable hc.intervalIntegrable, ← intervalIntegral.integral_add (hc3.intervalIntegrable.sub hc.intervalIntegrable) (hc2.intervalIntegrable.const_mul K)]
    refine intervalIntegral.integral_congr fun r hr => ?_
    have := hne r hr
    field_simp
    ring

/-- the boundary terms cancel -/
theorem radial_telescope {R : Radial} {φ : Nat → Nat → ℝ[X]} (hF : Spec.Functions R φ) (a b : Nat) :
    ∑ e ∈ range R.nel, ((φ e a).eval (R.bnd (e + 1)) * (φ e b).eval (R.bnd (e + 1)) / R.bnd (e + 1) - (φ e a).eval (R.bnd e) * (φ e b).eval (R.bnd e) / R.bnd e) = 0 := by
  have key : ∀ n, n + 1 ≤ R.nel → ∑ e ∈ range (n + 1), ((φ e a).eval (R.bnd (e + 1)) * (φ e b).eval (R.bnd (e + 1)) / R.bnd (e + 1) - (φ e a).eval (R.bnd e) * (φ e b).eval (R.bnd e) / R.bnd e) =
      (φ n a).eval (R.bnd (n + 1)) * (φ n b).eval (R.bnd (n + 1)) / R.bnd (n + 1) := by
    intro n
    induction n with
    | zero =>
      intro _
      rw [sum_range_one, hF.left a]
      ring
    | succ n ih =>
      intro hn
      rw [sum_range_succ, ih (by omega), hF.continuous n (by omega) a, hF.continuous n (by omega) b]
      ring
  have hn := hF.nel
  have := key (R.nel - 1) (by omega)
  rw [show R.nel - 1 + 1 = R.nel by omega] at this
  rw [this, hF.right a]
  ring

theorem bnd_nonneg {R : Radial} {φ : Nat → Nat → ℝ[X]} (hF : Spec.Functions R φ) : ∀ e, e ≤ R.nel → 0 ≤ R.bnd e ∧ (0 < e → 0 < R.bnd e)
  | 0, _ => ⟨hF.origin.ge, fun h => absurd h (lt_irrefl 0)⟩
  | e + 1, h => by
    have := (bnd_nonneg hF e (by omega)).1
    have h2 := hF.inc e (by omega)
    exact ⟨by linarith, fun _ => by linarith⟩

/-- radial and angular parts of the kinetic energy -/
theorem kinetic_eq {A : Atom} {φ : Nat → Nat → ℝ[X]} (hF : Spec.Functions A.rad φ) (i a j b : Nat) (hi : (A.m i).natAbs ≤ A.l i) (hj : (A.m j).natAbs ≤ A.l j) :
    Spec.kinetic A φ i a j b = ((if A.l i = A.l j ∧ A.m i = A.m j then
      (∑ e ∈ range A.rad.nel, 1 / 2 * ∫ r in (A.rad.bnd e)..(A.rad.bnd (e + 1)), (derivative (φ e a)).eval r * (derivative (φ e b)).eval r * 1) +
        (A.l i : ℝ) * (A.l i + 1) * ∑ e ∈ range A.rad.nel, 1 / 2 * ∫ r in (A.rad.bnd e)..(A.rad.bnd (e + 1)), (φ e a).eval r / r * ((φ e b).eval r / r) * 1 else 0 : ℝ) : ℂ) := by
  have hin : ∀ e < A.rad.nel, ∀ r, A.rad.bnd e < r → Harm.Spec.sphere (fun c p =>
      (let f := Spec.wave (φ e a) (A.l i) (A.m i)
       let g := Spec.wave (φ e b) (A.l j) (A.m j)
       1 / 2 * ((starRingEnd ℂ) (deriv (fun s => f s c p) r) * deriv (fun s => g s c p) r +
        ((1 / r ^ 2 : ℝ) : ℂ) * ((starRingEnd ℂ) (deriv (fun t => f r (Real.cos t) p) (Real.arccos c)) * deriv (fun t => g r (Real.cos t) p) (Real.arccos c) +
          ((1 / Real.sin (Real.arccos c) ^ 2 : ℝ) : ℂ) * ((starRingEnd ℂ) (deriv (fun q => f r c q) p) * deriv (fun q => g r c q) p)))) * ((r ^ 2 : ℝ) : ℂ)) =
      ((if A.l i = A.l j ∧ A.m i = A.m j then 1 / 2 * (r ^ 2 * (((derivative (φ e a)).eval r * r - (φ e a).eval r) / r ^ 2 * (((derivative (φ e b)).eval r * r - (φ e b).eval r) / r ^ 2)) +
        (A.l i : ℝ) * (A.l i + 1) * ((φ e a).eval r / r * ((φ e b).eval r / r) * 1)) else 0 : ℝ) : ℂ) := by
    intro e he r hr
    have hr0 : 0 < r := lt_of_le_of_lt (bnd_nonneg hF e he.le).1 hr
    obtain ⟨da, hda⟩ : ∃ x : ℝ, x = ((derivative (φ e a)).eval r * r - (φ e a).eval r) / r ^ 2 := ⟨_, rfl⟩
    obtain ⟨db, hdb⟩ : ∃ x : ℝ, x = ((derivative (φ e b)).eval r * r - (φ e b).eval r) / r ^ 2 := ⟨_, rfl⟩
    obtain ⟨va, hva⟩ : ∃ x : ℝ, x = (φ e a).eval r / r := ⟨_, rfl⟩
    obtain ⟨vb, hvb⟩ : ∃ x : ℝ, x = (φ e b).eval r / r := ⟨_, rfl⟩
    obtain ⟨M, hM⟩ : ∃ M : Int, M = -A.m i + A.m j := ⟨_, rfl⟩
    obtain ⟨P, hP⟩ : ∃ P : ℝ → ℝ, P = fun c => 1 / 2 * (r ^ 2 * (da * db) * (yx (A.l i) (A.m i) c * yx (A.l j) (A.m j) c) + va * vb * (yt (A.l i) (A.m i) c * yt (A.l j) (A.m j) c + 1 / (1 - c ^ 2) * ((A.m i : ℝ) * A.m j * (yx (A.l i) (A.m i) c * yx (A.l j) (A.m j) c)))) := ⟨_, rfl⟩
    have hd1 : ∀ (p : ℝ[X]) (l : Nat) (m : Int) (c q : ℝ), deriv (fun s => Spec.wave p l m s c q) r = (((derivative p).eval r * r - p.eval r) / r ^ 2 : ℝ) * sph l m c q := by
      intro p l m c q
      exact ((div_deriv p r hr0).ofReal_comp.mul_const _).deriv
    have hd2 : ∀ (p : ℝ[X]) (l : Nat) (m : Int) (c q : ℝ), -1 < c → c < 1 → deriv (fun t => Spec.wave p l m r (Real.cos t) q) (Real.arccos c) = (p.eval r / r : ℝ) * (Complex.exp ((m * q : ℝ) * Complex.I) * (yt l m c : ℝ)) := by
      intro p l m c q h0 h1
      have := ((yx_cos_deriv l m c h0 h1).ofReal_comp.const_mul (Complex.exp ((m * q : ℝ) * Complex.I))).const_mul ((p.eval r / r : ℝ) : ℂ)
      rw [← this.deriv]
      congr 1
      funext t
      rw [Spec.wave, sph_yx]
    have hd3 : ∀ (p : ℝ[X]) (l : Nat) (m : Int) (c q : ℝ), deriv (fun x => Spec.wave p l m r c x) q = (p.eval r / r : ℝ) * ((m : ℂ) * Complex.I * sph l m c q) := by
      intro p l m c q
      have h1 : HasDerivAt (fun x : ℝ => ((m * x : ℝ) : ℂ) * Complex.I) ((m : ℂ) * Complex.I) q := by
        have := (((hasDerivAt_id q).const_mul (m : ℝ)).ofReal_comp).mul_const Complex.I
        simpa using this
      have := (h1.cexp.mul_const ((yx l m c : ℝ) : ℂ)).const_mul ((p.eval r / r : ℝ) : ℂ)
      have e : (fun x => Spec.wave p l m r c x) = fun x => ((p.eval r / r : ℝ) : ℂ) * (Complex.exp (((m * x : ℝ) : ℂ) * Complex.I) * ((yx l m c : ℝ) : ℂ)) := by
        funext x; rw [Spec.wave, sph_yx]
      rw [e, this.deriv, sph_yx]
      ring
    have e1 : Harm.Spec.sphere (fun c p =>
      (let f := Spec.wave (φ e a) (A.l i) (A.m i)
       let g := Spec.wave (φ e b) (A.l j) (A.m j)
       1 / 2 * ((starRingEnd ℂ) (deriv (fun s => f s c p) r) * deriv (fun s => g s c p) r +
        ((1 / r ^ 2 : ℝ) : ℂ) * ((starRingEnd ℂ) (deriv (fun t => f r (Real.cos t) p) (Real.arccos c)) * deriv (fun t => g r (Real.cos t) p) (Real.arccos c) +
          ((1 / Real.sin (Real.arccos c) ^ 2 : ℝ) : ℂ) * ((starRingEnd ℂ) (deriv (fun q => f r c q) p) * deriv (fun q => g r c q) p)))) * ((r ^ 2 : ℝ) : ℂ)) =
        Harm.Spec.sphere (fun c p => Complex.exp (((M : Int) * p : ℝ) * Complex.I) * ((P c : ℝ) : ℂ)) := by
      refine sphere_congr _ _ fun c h0 h1 p => ?_
      have hs : 0 < 1 - c ^ 2 := by nlinarith
      simp only []
      rw [hd1, hd1, hd2 _ _ _ _ _ h0 h1, hd2 _ _ _ _ _ h0 h1, hd3, hd3, Real.sin_arccos, Real.sq_sqrt hs.le, ← hda, ← hdb, ← hva, ← hvb]
      have hE : Complex.exp ((M * p : ℝ) * Complex.I) = (starRingEnd ℂ) (Complex.exp ((A.m i * p : ℝ) * Complex.I)) * Complex.exp ((A.m j * p : ℝ) * Complex.I) := by
        rw [← Complex.exp_conj, map_mul, Complex.conj_I, Complex.conj_ofReal, ← Complex.exp_add, hM]
        congr 1
        push_cast
        ring
      have hI : (starRingEnd ℂ) Complex.I = -Complex.I := Complex.conj_I
      have hI2 : Complex.I * Complex.I = -1 := Complex.I_mul_I
      have hmi : (starRingEnd ℂ) ((A.m i : Int) : ℂ) = (A.m i : ℂ) := by
        rw [← Complex.ofReal_intCast, Complex.conj_ofReal]
      have hrc : (r : ℂ) ≠ 0 := by exact_mod_cast hr0.ne'
      rw [hE]
      simp only [sph_yx, map_mul, Complex.conj_ofReal, hI, hmi, hP]
      generalize (starRingEnd ℂ) (Complex.exp ((A.m i * p : ℝ) * Complex.I)) = E1
      generalize Complex.exp ((A.m j * p : ℝ) * Complex.I) = E2
      push_cast
      have hsc : (1 - (c : ℂ) ^ 2) ≠ 0 := by
        rw [← Complex.ofReal_pow, ← Complex.ofReal_one, ← Complex.ofReal_sub]
        exact_mod_cast hs.ne'
      field_simp
      linear_combination (-(va * vb * (A.m i * A.m j) * yx (A.l i) (A.m i) c * yx (A.l j) (A.m j) c * E1 * E2) : ℂ) * hI2
    rw [e1, sphere_sep]
    by_cases hm : A.m i = A.m j
    swap
    · rw [if_neg (by omega), if_neg fun h => hm h.2]
    rw [if_pos (by omega)]
    have e2 : ∫ c in (-1 : ℝ)..1, P c = ∫ c in (-1 : ℝ)..1, (1 / 2 * (r ^ 2 * (da * db)) * (yx (A.l i) (A.m i) c * yx (A.l j) (A.m i) c) +
        1 / 2 * (va * vb) * (yc (A.l i) (A.m i) * yc (A.l j) (A.m i) * (angQ (A.l i) (A.l j) (A.m i).natAbs).eval c)) := by
      refine intervalIntegral.integral_congr_ae ?_
      have h1 : ∀ᵐ c : ℝ, c ≠ 1 := compl_mem_ae_iff.2 (measure_singleton 1)
      filter_upwards [h1] with c hc hcm
      rw [Set.uIoc_of_le (by norm_num)] at hcm
      rw [← ang_poly (A.l i) (A.m i) (A.l j) c hcm.1 (lt_of_le_of_ne hcm.2 hc), hP, ← hm]
      ring
    have c1 : Continuous fun c => yx (A.l i) (A.m i) c * yx (A.l j) (A.m i) c := (yx_cont _ _).mul (yx_cont _ _)
    have c2 : Continuous fun c => yc (A.l i) (A.m i) * yc (A.l j) (A.m i) * (angQ (A.l i) (A.l j) (A.m i).natAbs).eval c := (Polynomial.continuous _).const_mul _
    have hj' : (A.m i).natAbs ≤ A.l j := by rw [hm]; exact hj
    have ha := angular_kinetic (A.l i) (A.m i) (A.l j) hi hj'
    have ho := yx_orth (A.l i) (A.l j) (A.m i) hi hj'
    rw [e2, intervalIntegral.integral_add ((c1.const_mul _).intervalIntegrable _ _) ((c2.const_mul _).intervalIntegrable _ _), intervalIntegral.integral_const_mul, ho,
      intervalIntegral.integral_const_mul, Complex.ofReal_inj]
    by_cases hl : A.l i = A.l j
    · rw [if_pos hl, if_pos ⟨hl, hm⟩]
      rw [if_pos hl] at ha
      rw [← hda, ← hdb, ← hva, ← hvb]
      have := Real.pi_ne_zero
      rw [mul_add, show 2 * Real.pi * (1 / 2 * (va * vb) * ∫ c in (-1 : ℝ)..1, yc (A.l i) (A.m i) * yc (A.l j) (A.m i) * (angQ (A.l i) (A.l j) (A.m i).natAbs).eval c) =
        1 / 2 * (va * vb) * (2 * Real.pi * ∫ c in (-1 : ℝ)..1, yc (A.l i) (A.m i) * yc (A.l j) (A.m i) * (angQ (A.l i) (A.l j) (A.m i).natAbs).eval c) by ring, ha]
      field_simp
    · rw [if_neg hl, if_neg fun h => hl h.1]
      rw [if_neg hl] at ha
      rw [mul_add, show 2 * Real.pi * (1 / 2 * (va * vb) * ∫ c in (-1 : ℝ)..1, yc (A.l i) (A.m i) * yc (A.l j) (A.m i) * (angQ (A.l i) (A.l j) (A.m i).natAbs).eval c) =
        1 / 2 * (va * vb) * (2 * Real.pi * ∫ c in (-1 : ℝ)..1, yc (A.l i) (A.m i) * yc (A.l j) (A.m i) * (angQ (A.l i) (A.l j) (A.m i).natAbs).eval c) by ring, ha]
      ring
  have hsum : Spec.kinetic A φ i a j b = ((∑ e ∈ range A.rad.nel, ∫ r in (A.rad.bnd e)..(A.rad.bnd (e + 1)), (if A.l i = A.l j ∧ A.m i = A.m j then 1 / 2 * (r ^ 2 * (((derivative (φ e a)).eval r * r - (φ e a).eval r) / r ^ 2 * (((derivative (φ e b)).eval r * r - (φ e b).eval r) / r ^ 2)) +
        (A.l i : ℝ) * (A.l i + 1) * ((φ e a).eval r / r * ((φ e b).eval r / r) * 1)) else 0) : ℝ) : ℂ) := by
    unfold Spec.kinetic Spec.ball
    rw [Complex.ofReal_sum]
    refine sum_congr rfl fun e he => ?_
    rw [mem_range] at he
    rw [← intervalIntegral.integral_ofReal]
    refine intervalIntegral.integral_congr_ae (Filter.Eventually.of_forall fun r hr => ?_)
    rw [Set.uIoc_of_le (hF.inc e he).le] at hr
    exact hin e he r hr.1
  rw [hsum, Complex.ofReal_inj]
  split_ifs with h
  · have ht := radial_telescope hF a b
    have he : ∀ e ∈ range A.rad.nel, ∫ r in (A.rad.bnd e)..(A.rad.bnd (e + 1)), (1 / 2 * (r ^ 2 * (((derivative (φ e a)).eval r * r - (φ e a).eval r) / r ^ 2 * (((derivative (φ e b)).eval r * r - (φ e b).eval r) / r ^ 2)) +
        (A.l i : ℝ) * (A.l i + 1) * ((φ e a).eval r / r * ((φ e b).eval r / r) * 1))) =
        1 / 2 * (∫ r in (A.rad.bnd e)..(A.rad.bnd (e + 1)), (derivative (φ e a)).eval r * (derivative (φ e b)).eval r * 1) -
        1 / 2 * ((φ e a).eval (A.rad.bnd (e + 1)) * (φ e b).eval (A.rad.bnd (e + 1)) / A.rad.bnd (e + 1) - (φ e a).eval (A.rad.bnd e) * (φ e b).eval (A.rad.bnd e) / A.rad.bnd e) +
        (A.l i : ℝ) * (A.l i + 1) * (1 / 2 * ∫ r in (A.rad.bnd e)..(A.rad.bnd (e + 1)), (φ e a).eval r / r * ((φ e b).eval r / r) * 1) := by
      intro e he
      rw [mem_range] at he
      rw [intervalIntegral.integral_const_mul, radial_element (φ e a) (φ e b) _ _ _ (bnd_nonneg hF e he.le).1 (hF.inc e he)]
      · ring
      · intro hz
        have : e = 0 := by
          by_contra hne
          exact absurd hz ((bnd_nonneg hF e he.le).2 (by omega)).ne'
        subst this
        have := hF.left
        rw [hF.origin] at this
        exact ⟨this a, this b⟩
    rw [sum_congr rfl he, sum_add_distrib, sum_sub_distrib, ← mul_sum _ _ (1 / 2 : ℝ), ← mul_sum _ _ (1 / 2 : ℝ), ht, ← mul_sum]
    rw [mul_sum, mul_zero, sub_zero]
  · simp

end OneE
end HelFEM
