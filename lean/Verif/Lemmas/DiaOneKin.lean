import Verif.Lemmas.DiaOne
import Verif.Lemmas.OneElectronKin

/-!
# Lemmas for C72: the kinetic energy in prolate spheroidal coordinates
-/

namespace HelFEM
namespace DiaOne

open Polynomial Finset Harm MeasureTheory OneE

/-- `x² / sinh x` is continuous, also at zero -/
theorem sq_div_sinh_cont : Continuous fun x : ℝ => x ^ 2 / Real.sinh x := by
  rw [continuous_iff_continuousAt]
  intro x
  by_cases hx : x = 0
  · subst hx
    have hb : ∀ x : ℝ, ‖x ^ 2 / Real.sinh x‖ ≤ |x| := by
      intro x
      rw [Real.norm_eq_abs, abs_div, abs_pow, Real.abs_sinh]
      by_cases h : x = 0
      · subst h; simp
      · have h1 : 0 < |x| := abs_pos.2 h
        have h2 : |x| ≤ Real.sinh |x| := Real.self_le_sinh_iff.2 h1.le
        rw [div_le_iff₀ (h1.trans_le h2), sq]
        exact mul_le_mul_of_nonneg_left h2 h1.le
    have h0 : (0 : ℝ) ^ 2 / Real.sinh 0 = 0 := by simp
    rw [ContinuousAt, h0]
    refine squeeze_zero_norm hb ?_
    have : Filter.Tendsto (fun x : ℝ => |x|) (nhds 0) (nhds |0|) := continuous_abs.continuousAt
    rwa [abs_zero] at this
  · refine ContinuousAt.div (by fun_prop) Real.continuous_sinh.continuousAt ?_
    rwa [Ne, Real.sinh_eq_zero]

/-- a product of two functions over `sinh` is integrable when both vanish on the axis -/
theorem over_sinh (p q : ℝ[X]) (a b : ℝ) (ha : 0 ≤ a) (hab : a < b) (h0 : a = 0 → p.eval 0 = 0 ∧ q.eval 0 = 0) :
    IntervalIntegrable (fun μ => p.eval μ * q.eval μ / Real.sinh μ) volume a b := by
  rcases ha.eq_or_lt with h | h
  · subst h
    obtain ⟨p0, q0⟩ := h0 rfl
    obtain ⟨u, rfl⟩ : X ∣ p := by rw [X_dvd_iff, coeff_zero_eq_eval_zero, p0]
    obtain ⟨v, rfl⟩ : X ∣ q := by rw [X_dvd_iff, coeff_zero_eq_eval_zero, q0]
    have e : (fun μ => (X * u).eval μ * (X * v).eval μ / Real.sinh μ) = fun μ => μ ^ 2 / Real.sinh μ * (u * v).eval μ := by
      funext μ
      simp only [eval_mul, eval_X]
      ring
    rw [e]
    exact (sq_div_sinh_cont.mul (Polynomial.continuous _)).intervalIntegrable _ _
  · refine ContinuousOn.intervalIntegrable (ContinuousOn.div ?_ Real.continuous_sinh.continuousOn ?_)
    · have := Polynomial.continuous p
      have := Polynomial.continuous q
      fun_prop
    · intro r hr
      rw [Set.uIcc_of_le hab.le] at hr
      rw [Ne, Real.sinh_eq_zero]
      exact (h.trans_le hr.1).ne'

/-- the angular integral of the kinetic energy -/
theorem kinetic_shell {D : Diatom} (φ : Nat → Nat → ℝ[X]) (e i a j b : Nat) (hR : 0 < D.Rhalf) (hi : (D.m i).natAbs ≤ (D.l i).toNat) (hj : (D.m j).natAbs ≤ (D.l j).toNat) (μ : ℝ) (hμ : 0 < μ) :
    Harm.Spec.sphere (fun c p =>
      (let f := Spec.wave (φ e a) (D.l i).toNat (D.m i)
       let g := Spec.wave (φ e b) (D.l j).toNat (D.m j)
       1 / 2 * (((1 / (D.Rhalf ^ 2 * (Real.cosh μ ^ 2 - c ^ 2)) : ℝ) : ℂ) * ((starRingEnd ℂ) (deriv (fun s => f s c p) μ) * deriv (fun s => g s c p) μ +
        (starRingEnd ℂ) (deriv (fun t => f μ (Real.cos t) p) (Real.arccos c)) * deriv (fun t => g μ (Real.cos t) p) (Real.arccos c)) +
      ((1 / Spec.rho D.Rhalf μ c ^ 2 : ℝ) : ℂ) * ((starRingEnd ℂ) (deriv (fun q => f μ c q) p) * deriv (fun q => g μ c q) p))) *
        ((D.Rhalf ^ 3 * Real.sinh μ * (Real.cosh μ ^ 2 - c ^ 2) : ℝ) : ℂ)) =
      ((if (D.l i).toNat = (D.l j).toNat ∧ D.m i = D.m j then D.Rhalf / 2 * ((derivative (φ e a)).eval μ * (derivative (φ e b)).eval μ * Real.sinh μ +
        ((D.l i).toNat : ℝ) * ((D.l i).toNat + 1) * ((φ e a).eval μ * (φ e b).eval μ * Real.sinh μ) + (D.m i : ℝ) ^ 2 * ((φ e a).eval μ * (φ e b).eval μ / Real.sinh μ)) else 0 : ℝ) : ℂ) := by
  obtain ⟨li, hli⟩ : ∃ l, l = (D.l i).toNat := ⟨_, rfl⟩
  obtain ⟨lj, hlj⟩ : ∃ l, l = (D.l j).toNat := ⟨_, rfl⟩
  obtain ⟨mi, hmi⟩ : ∃ m, m = D.m i := ⟨_, rfl⟩
  obtain ⟨mj, hmj⟩ : ∃ m, m = D.m j := ⟨_, rfl⟩
  obtain ⟨R, hRd⟩ : ∃ R, R = D.Rhalf := ⟨_, rfl⟩
  rw [← hli, ← hmi] at hi
  rw [← hlj, ← hmj] at hj
  simp only [← hli, ← hlj, ← hmi, ← hmj, ← hRd]
  rw [← hRd] at hR
  have hS : 0 < Real.sinh μ := Real.sinh_pos_iff.2 hμ
  obtain ⟨S, hSd⟩ : ∃ S, S = Real.sinh μ := ⟨_, rfl⟩
  rw [← hSd] at hS
  obtain ⟨da, hda⟩ : ∃ x : ℝ, x = (derivative (φ e a)).eval μ := ⟨_, rfl⟩
  obtain ⟨db, hdb⟩ : ∃ x : ℝ, x = (derivative (φ e b)).eval μ := ⟨_, rfl⟩
  obtain ⟨va, hva⟩ : ∃ x : ℝ, x = (φ e a).eval μ := ⟨_, rfl⟩
  obtain ⟨vb, hvb⟩ : ∃ x : ℝ, x = (φ e b).eval μ := ⟨_, rfl⟩
  obtain ⟨M, hM⟩ : ∃ M : Int, M = -mi + mj := ⟨_, rfl⟩
  obtain ⟨P, hP⟩ : ∃ P : ℝ → ℝ, P = fun c => R / 2 * ((S * (da * db) + mi * mj * (va * vb) / S) * (yx li mi c * yx lj mj c) +
    S * (va * vb) * (yt li mi c * yt lj mj c + 1 / (1 - c ^ 2) * ((mi : ℝ) * mj * (yx li mi c * yx lj mj c)))) := ⟨_, rfl⟩
  have hd1 : ∀ (p : ℝ[X]) (l : Nat) (m : Int) (c q : ℝ), deriv (fun s => Spec.wave p l m s c q) μ = ((derivative p).eval μ : ℝ) * sph l m c q := by
    intro p l m c q
    exact ((p.hasDerivAt μ).ofReal_comp.mul_const _).deriv
  have hd2 : ∀ (p : ℝ[X]) (l : Nat) (m : Int) (c q : ℝ), -1 < c → c < 1 → deriv (fun t => Spec.wave p l m μ (Real.cos t) q) (Real.arccos c) = (p.eval μ : ℝ) * (Complex.exp ((m * q : ℝ) * Complex.I) * (yt l m c : ℝ)) := by
    intro p l m c q h0 h1
    have := ((yx_cos_deriv l m c h0 h1).ofReal_comp.const_mul (Complex.exp ((m * q : ℝ) * Complex.I))).const_mul ((p.eval μ : ℝ) : ℂ)
    rw [← this.deriv]
    congr 1
    funext t
    rw [Spec.wave, sph_yx]
  have hd3 : ∀ (p : ℝ[X]) (l : Nat) (m : Int) (c q : ℝ), deriv (fun x => Spec.wave p l m μ c x) q = (p.eval μ : ℝ) * ((m : ℂ) * Complex.I * sph l m c q) := by
    intro p l m c q
    have h1 : HasDerivAt (fun x : ℝ => ((m * x : ℝ) : ℂ) * Complex.I) ((m : ℂ) * Complex.I) q := by
      have := (((hasDerivAt_id q).const_mul (m : ℝ)).ofReal_comp).mul_const Complex.I
      simpa using this
    have := (h1.cexp.mul_const ((yx l m c : ℝ) : ℂ)).const_mul ((p.eval μ : ℝ) : ℂ)
    have e : (fun x => Spec.wave p l m μ c x) = fun x => ((p.eval μ : ℝ) : ℂ) * (Complex.exp (((m * x : ℝ) : ℂ) * Complex.I) * ((yx l m c : ℝ) : ℂ)) := by
      funext x; rw [Spec.wave, sph_yx]
    rw [e, this.deriv, sph_yx]
    ring
  rw [sphere_congr _ (fun c p => Complex.exp (((M : Int) * p : ℝ) * Complex.I) * ((P c : ℝ) : ℂ))]
  swap
  · intro c h0 h1 p
    have hs : 0 < 1 - c ^ 2 := by nlinarith
    rw [hd1, hd1, hd2 _ _ _ _ _ h0 h1, hd2 _ _ _ _ _ h0 h1, hd3, hd3, rho_sq R μ c h0 h1, Real.cosh_sq, ← hSd, ← hda, ← hdb, ← hva, ← hvb]
    have hE : Complex.exp ((M * p : ℝ) * Complex.I) = (starRingEnd ℂ) (Complex.exp ((mi * p : ℝ) * Complex.I)) * Complex.exp ((mj * p : ℝ) * Complex.I) := by
      rw [← Complex.exp_conj, map_mul, Complex.conj_I, Complex.conj_ofReal, ← Complex.exp_add, hM]
      congr 1
      push_cast
      ring
    have hI : (starRingEnd ℂ) Complex.I = -Complex.I := Complex.conj_I
    have hI2 : Complex.I * Complex.I = -1 := Complex.I_mul_I
    have hmi : (starRingEnd ℂ) ((mi : Int) : ℂ) = (mi : ℂ) := by
      rw [← Complex.ofReal_intCast, Complex.conj_ofReal]
    have hRc : (R : ℂ) ≠ 0 := by exact_mod_cast hR.ne'
    have hSc : (S : ℂ) ≠ 0 := by exact_mod_cast hS.ne'
    rw [hE]
    simp only [sph_yx, map_mul, Complex.conj_ofReal, hI, hmi, hP]
    generalize (starRingEnd ℂ) (Complex.exp ((mi * p : ℝ) * Complex.I)) = E1
    generalize Complex.exp ((mj * p : ℝ) * Complex.I) = E2
    rw [add_sub_cancel_right]
    push_cast
    have hsc : (1 - (c : ℂ) ^ 2) ≠ 0 := by
      rw [← Complex.ofReal_pow, ← Complex.ofReal_one, ← Complex.ofReal_sub]
      exact_mod_cast hs.ne'
    have hkc : ((S : ℂ) ^ 2 + 1 - (c : ℂ) ^ 2) ≠ 0 := by
      rw [← Complex.ofReal_pow, ← Complex.ofReal_pow, ← Complex.ofReal_one, ← Complex.ofReal_add, ← Complex.ofReal_sub]
      have : S ^ 2 + 1 - c ^ 2 ≠ 0 := by nlinarith [sq_nonneg S]
      exact_mod_cast this
    field_simp
    linear_combination (-((S ^ 2 + 1 - c ^ 2) * va * vb * (mi * mj) * yx li mi c * yx lj mj c * E1 * E2) : ℂ) * hI2
  rw [sphere_sep]
  by_cases hm : mi = mj
  swap
  · rw [if_neg (by omega), if_neg fun h => hm h.2]
  rw [if_pos (by omega)]
  have e2 : ∫ c in (-1 : ℝ)..1, P c = ∫ c in (-1 : ℝ)..1, (R / 2 * (S * (da * db) + (mi : ℝ) ^ 2 * (va * vb) / S) * (yx li mi c * yx lj mi c) +
      R / 2 * (S * (va * vb)) * (yc li mi * yc lj mi * (angQ li lj mi.natAbs).eval c)) := by
    refine intervalIntegral.integral_congr_ae ?_
    have h1 : ∀ᵐ c : ℝ, c ≠ 1 := compl_mem_ae_iff.2 (measure_singleton 1)
    filter_upwards [h1] with c hc hcm
    rw [Set.uIoc_of_le (by norm_num)] at hcm
    rw [← ang_poly li mi lj c hcm.1 (lt_of_le_of_ne hcm.2 hc), hP, ← hm]
    ring
  have c1 : Continuous fun c => yx li mi c * yx lj mi c := (yx_cont _ _).mul (yx_cont _ _)
  have c2 : Continuous fun c => yc li mi * yc lj mi * (angQ li lj mi.natAbs).eval c := (Polynomial.continuous _).const_mul _
  have hj' : mi.natAbs ≤ lj := by rw [hm]; exact hj
  have ha := angular_kinetic li mi lj hi hj'
  have ho := yx_orth li lj mi hi hj'
  rw [e2, intervalIntegral.integral_add ((c1.const_mul _).intervalIntegrable _ _) ((c2.const_mul _).intervalIntegrable _ _), intervalIntegral.integral_const_mul, ho,
    intervalIntegral.integral_const_mul, Complex.ofReal_inj, mul_add, show 2 * Real.pi * (R / 2 * (S * (va * vb)) * ∫ c in (-1 : ℝ)..1, yc li mi * yc lj mi * (angQ li lj mi.natAbs).eval c) =
      R / 2 * (S * (va * vb)) * (2 * Real.pi * ∫ c in (-1 : ℝ)..1, yc li mi * yc lj mi * (angQ li lj mi.natAbs).eval c) by ring, ha]
  by_cases hl : li = lj
  · rw [if_pos hl, if_pos hl, if_pos ⟨hl, hm⟩]
    rw [← hda, ← hdb, ← hva, ← hvb, ← hSd]
    have := Real.pi_ne_zero
    field_simp
    ring
  · rw [if_neg hl, if_neg hl, if_neg fun h => hl h.1]
    ring

/-- the kinetic energy from the radial matrices -/
theorem kinetic_eq {D : Diatom} {φ : Nat → Nat → ℝ[X]} (hF : Spec.Functions D.rad φ) (hE : Spec.Exact D.rad φ) (hR : 0 < D.Rhalf) (i a j b : Nat)
    (hi : (D.m i).natAbs ≤ (D.l i).toNat) (hj : (D.m j).natAbs ≤ (D.l j).toNat) (ha : a < D.rad.nbf) (hb : b < D.rad.nbf) (hma : D.m i = 0 ∨ a ≠ 0) (hmb : D.m j = 0 ∨ b ≠ 0) :
    Spec.kinetic D φ i a j b = ((if (D.l i).toNat = (D.l j).toNat ∧ D.m i = D.m j then
      D.Rhalf / 2 * (D.rad.kin.get a b + ((D.l i).toNat : ℝ) * ((D.l i).toNat + 1) * (D.rad.integral 1 0).get a b + (D.m i : ℝ) ^ 2 * (D.rad.integral (-1) 0).get a b) else 0 : ℝ) : ℂ) := by
  have hsum : Spec.kinetic D φ i a j b = ((∑ e ∈ range D.rad.nel, ∫ μ in (D.rad.bnd e)..(D.rad.bnd (e + 1)),
      (if (D.l i).toNat = (D.l j).toNat ∧ D.m i = D.m j then D.Rhalf / 2 * ((derivative (φ e a)).eval μ * (derivative (φ e b)).eval μ * Real.sinh μ +
        ((D.l i).toNat : ℝ) * ((D.l i).toNat + 1) * ((φ e a).eval μ * (φ e b).eval μ * Real.sinh μ) + (D.m i : ℝ) ^ 2 * ((φ e a).eval μ * (φ e b).eval μ / Real.sinh μ)) else 0) : ℝ) : ℂ) := by
    unfold Spec.kinetic Spec.volume
    rw [Complex.ofReal_sum]
    refine sum_congr rfl fun e he => ?_
    rw [mem_range] at he
    rw [← intervalIntegral.integral_ofReal]
    refine intervalIntegral.integral_congr_ae (Filter.Eventually.of_forall fun μ hμ => ?_)
    rw [Set.uIoc_of_le (hF.inc e he).le] at hμ
    exact kinetic_shell φ e i a j b hR hi hj μ (lt_of_le_of_lt (bnd_nonneg hF e he.le) hμ.1)
  rw [hsum, Complex.ofReal_inj]
  by_cases h : (D.l i).toNat = (D.l j).toNat ∧ D.m i = D.m j
  swap
  · simp only [if_neg h, intervalIntegral.integral_zero, sum_const_zero]
  simp only [if_pos h]
  rw [hE.kin a ha b hb, hE.entry 1 0 a b ha hb (Or.inl (by norm_num))]
  have hc := Real.continuous_sinh
  have i1 : ∀ e, IntervalIntegrable (fun μ => (derivative (φ e a)).eval μ * (derivative (φ e b)).eval μ * Real.sinh μ) volume (D.rad.bnd e) (D.rad.bnd (e + 1)) := fun e =>
    (((Polynomial.continuous _).mul (Polynomial.continuous _)).mul hc).intervalIntegrable _ _
  have i2 : ∀ e, IntervalIntegrable (fun μ => (φ e a).eval μ * (φ e b).eval μ * Real.sinh μ) volume (D.rad.bnd e) (D.rad.bnd (e + 1)) := fun e =>
    (((Polynomial.continuous _).mul (Polynomial.continuous _)).mul hc).intervalIntegrable _ _
  by_cases hm : D.m i = 0
  · have e0 : ∀ e ∈ range D.rad.nel, ∫ μ in (D.rad.bnd e)..(D.rad.bnd (e + 1)), D.Rhalf / 2 * ((derivative (φ e a)).eval μ * (derivative (φ e b)).eval μ * Real.sinh μ +
        ((D.l i).toNat : ℝ) * ((D.l i).toNat + 1) * ((φ e a).eval μ * (φ e b).eval μ * Real.sinh μ) + (D.m i : ℝ) ^ 2 * ((φ e a).eval μ * (φ e b).eval μ / Real.sinh μ)) =
        D.Rhalf / 2 * ((∫ μ in (D.rad.bnd e)..(D.rad.bnd (e + 1)), (derivative (φ e a)).eval μ * (derivative (φ e b)).eval μ * Real.sinh μ) +
          ((D.l i).toNat : ℝ) * ((D.l i).toNat + 1) * ∫ μ in (D.rad.bnd e)..(D.rad.bnd (e + 1)), (φ e a).eval μ * (φ e b).eval μ * (Real.sinh μ ^ (1 : ℤ) * Real.cosh μ ^ 0)) := by
      intro e _
      simp only [hm, Int.cast_zero, zpow_one, pow_zero, mul_one, ne_eq, OfNat.ofNat_ne_zero, not_false_eq_true, zero_pow, zero_mul, add_zero]
      rw [intervalIntegral.integral_const_mul, intervalIntegral.integral_add (i1 e) ((i2 e).const_mul _), intervalIntegral.integral_const_mul]
    rw [sum_congr rfl e0, ← mul_sum, sum_add_distrib, ← mul_sum, hm]
    simp
  · have hmj : D.m j ≠ 0 := by rw [← h.2]; exact hm
    have a0 : a ≠ 0 := hma.resolve_left hm
    have b0 : b ≠ 0 := hmb.resolve_left hmj
    rw [hE.entry (-1) 0 a b ha hb (Or.inr ⟨rfl, a0, b0⟩)]
    have e0 : ∀ e ∈ range D.rad.nel, ∫ μ in (D.rad.bnd e)..(D.rad.bnd (e + 1)), D.Rhalf / 2 * ((derivative (φ e a)).eval μ * (derivative (φ e b)).eval μ * Real.sinh μ +
        ((D.l i).toNat : ℝ) * ((D.l i).toNat + 1) * ((φ e a).eval μ * (φ e b).eval μ * Real.sinh μ) + (D.m i : ℝ) ^ 2 * ((φ e a).eval μ * (φ e b).eval μ / Real.sinh μ)) =
        D.Rhalf / 2 * ((∫ μ in (D.rad.bnd e)..(D.rad.bnd (e + 1)), (derivative (φ e a)).eval μ * (derivative (φ e b)).eval μ * Real.sinh μ) +
          ((D.l i).toNat : ℝ) * ((D.l i).toNat + 1) * (∫ μ in (D.rad.bnd e)..(D.rad.bnd (e + 1)), (φ e a).eval μ * (φ e b).eval μ * (Real.sinh μ ^ (1 : ℤ) * Real.cosh μ ^ 0)) +
          (D.m i : ℝ) ^ 2 * ∫ μ in (D.rad.bnd e)..(D.rad.bnd (e + 1)), (φ e a).eval μ * (φ e b).eval μ * (Real.sinh μ ^ (-1 : ℤ) * Real.cosh μ ^ 0)) := by
      intro e he
      rw [mem_range] at he
      simp only [zpow_one, pow_zero, mul_one, zpow_neg_one, ← div_eq_mul_inv]
      have i3 := over_sinh (φ e a) (φ e b) (D.rad.bnd e) (D.rad.bnd (e + 1)) (bnd_nonneg hF e he.le) (hF.inc e he) (by
        intro hz
        have : e = 0 := by
          by_contra hne
          obtain ⟨e', rfl⟩ : ∃ e', e = e' + 1 := ⟨e - 1, by omega⟩
          have h1 := hF.inc e' (by omega)
          have h2 := bnd_nonneg hF e' (by omega)
          linarith
        subst this
        exact ⟨hF.left a a0, hF.left b b0⟩)
      rw [intervalIntegral.integral_const_mul, intervalIntegral.integral_add ((i1 e).add ((i2 e).const_mul _)) (i3.const_mul _), intervalIntegral.integral_add (i1 e) ((i2 e).const_mul _),
        intervalIntegral.integral_const_mul, intervalIntegral.integral_const_mul]
    rw [sum_congr rfl e0, ← mul_sum, sum_add_distrib, sum_add_distrib, ← mul_sum, ← mul_sum]

end DiaOne
end HelFEM
