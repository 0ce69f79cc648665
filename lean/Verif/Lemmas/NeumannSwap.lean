import Verif.Lemmas.NestedQuad
import Verif.Spec.DiaQuad
import Mathlib.MeasureTheory.Integral.IntervalIntegral.FundThmCalculus

/-!
# The double integral as two nested integrals
-/

namespace HelFEM
namespace DiaQuad
open Finset intervalIntegral Filter Topology Quad MeasureTheory

/-- An inner function `g` and an outer function `q` that is singular at the lower end at most as `1/G`, where `G` bounds `g`. -/
structure Pair (a b : ℝ) (q g : ℝ → ℝ) : Prop where
  cg : ContinuousOn g (Set.Icc a b)
  cq : ContinuousOn q (Set.Ioc a b)
  bound : ∃ (G : ℝ → ℝ) (K : ℝ), MonotoneOn G (Set.Icc a b) ∧ (∀ x ∈ Set.Icc a b, |g x| ≤ G x) ∧ ∀ x ∈ Set.Ioc a b, |q x| * G x ≤ K

theorem Pair.lim {a b : ℝ} {q G : ℝ → ℝ} {K : ℝ} (hab : a < b) (hG : ∀ x ∈ Set.Icc a b, 0 ≤ G x) (hK : ∀ x ∈ Set.Ioc a b, |q x| * G x ≤ K) :
    Tendsto (fun t => q t * ((t - a) * G t)) (𝓝[>] a) (𝓝 0) := by
  have h0 : Tendsto (fun t => K * (t - a)) (𝓝[>] a) (𝓝 0) := by
    have : Tendsto (fun t => K * (t - a)) (𝓝 a) (𝓝 (K * (a - a))) := by
      apply Continuous.tendsto; fun_prop
    rw [sub_self, mul_zero] at this
    exact this.mono_left nhdsWithin_le_nhds
  rw [tendsto_zero_iff_norm_tendsto_zero]
  refine squeeze_zero' (Eventually.of_forall fun t => norm_nonneg _) ?_ h0
  filter_upwards [Ioc_mem_nhdsGT hab] with t ht
  have hG' := hG t ⟨ht.1.le, ht.2⟩
  have hta : 0 ≤ t - a := by linarith [ht.1]
  rw [Real.norm_eq_abs, abs_mul, abs_of_nonneg (mul_nonneg hta hG')]
  have := mul_le_mul_of_nonneg_right (hK t ht) hta
  calc _ = |q t| * G t * (t - a) := by ring
    _ ≤ _ := this

theorem Pair.nested {a b : ℝ} {q g : ℝ → ℝ} (hab : a < b) (h : Pair a b q g) :
    Tendsto (fun n : Nat => ∑ ip ∈ range n, lenOf a b * nodeW n ip * (q (pt a b n (ip + 1)) * acc g a b n ip)) atTop (𝓝 (∫ t in a..b, q t * ∫ x in a..t, g x)) := by
  obtain ⟨G, K, h1, h2, h3⟩ := h.bound
  exact DiaQuad.nested hab h.cg h.cq h1 h2 (Pair.lim hab (fun x hx => le_trans (abs_nonneg _) (h2 x hx)) h3)

theorem Pair.continuous {a b : ℝ} {q g : ℝ → ℝ} (hab : a < b) (h : Pair a b q g) : ContinuousOn (fun t => q t * ∫ x in a..t, g x) (Set.Icc a b) := by
  obtain ⟨G, K, h1, h2, h3⟩ := h.bound
  exact outer_continuous hab h.cg h.cq h1 h2 (Pair.lim hab (fun x hx => le_trans (abs_nonneg _) (h2 x hx)) h3)

theorem tail_integrable {a b : ℝ} {q : ℝ → ℝ} (hq : ContinuousOn q (Set.Ioc a b)) {s t : ℝ} (hs : a < s) (hst : s ≤ t) (ht : t ≤ b) : IntervalIntegrable q volume s t := by
  apply ContinuousOn.intervalIntegrable
  rw [Set.uIcc_of_le hst]
  exact hq.mono fun x hx => ⟨lt_of_lt_of_le hs hx.1, le_trans hx.2 ht⟩

theorem tail_continuous {a b : ℝ} {q : ℝ → ℝ} (hq : ContinuousOn q (Set.Ioc a b)) {s : ℝ} (hs : a < s) (hsb : s ≤ b) : ContinuousOn (fun t => ∫ x in t..b, q x) (Set.Icc s b) := by
  have := continuousOn_primitive_interval_left (μ := volume) (f := q) (a := s) (b := b) (by
    have := tail_integrable hq hs hsb le_rfl
    rw [intervalIntegrable_iff_integrableOn_Icc_of_le hsb] at this
    rwa [Set.uIcc_of_le hsb])
  rwa [Set.uIcc_of_le hsb] at this

/-- Exchange of the order of integration over the triangle. -/
theorem Pair.swap {a b : ℝ} {q g : ℝ → ℝ} (hab : a < b) (h : Pair a b q g) :
    IntervalIntegrable (fun t => g t * ∫ s in t..b, q s) volume a b ∧ ∫ t in a..b, (g t * ∫ s in t..b, q s) = ∫ t in a..b, (q t * ∫ s in a..t, g s) := by
  obtain ⟨G, K, h1, h2, h3⟩ := h.bound
  have hG0 : ∀ x ∈ Set.Icc a b, 0 ≤ G x := fun x hx => le_trans (abs_nonneg _) (h2 x hx)
  have hK0 : 0 ≤ K := le_trans (mul_nonneg (abs_nonneg _) (hG0 b ⟨hab.le, le_rfl⟩)) (h3 b ⟨hab, le_rfl⟩)
  -- the tail times the bound
  have hGR : ∀ t ∈ Set.Ioc a b, G t * |∫ s in t..b, q s| ≤ K * (b - a) := by
    intro t ht
    have hG' := hG0 t ⟨ht.1.le, ht.2⟩
    have : ‖∫ s in t..b, G t * q s‖ ≤ K * |b - t| := norm_integral_le_of_norm_le_const (by
      intro s hs
      rw [Set.uIoc_of_le ht.2] at hs
      have hs' : s ∈ Set.Ioc a b := ⟨lt_trans ht.1 hs.1, hs.2⟩
      rw [Real.norm_eq_abs, abs_mul, abs_of_nonneg hG', mul_comm]
      exact le_trans (mul_le_mul_of_nonneg_left (h1 ⟨ht.1.le, ht.2⟩ ⟨hs'.1.le, hs'.2⟩ hs.1.le) (abs_nonneg _)) (h3 s hs'))
    rw [intervalIntegral.integral_const_mul, Real.norm_eq_abs, abs_mul, abs_of_nonneg hG', abs_of_nonneg (by linarith [ht.2] : 0 ≤ b - t)] at this
    refine le_trans this (mul_le_mul_of_nonneg_left (by linarith [ht.1]) hK0)
  have hcont : ContinuousOn (fun t => g t * ∫ s in t..b, q s) (Set.Ioc a b) := by
    intro t ht
    obtain ⟨s, hs1, hs2⟩ := exists_between ht.1
    have hc : ContinuousOn (fun t => g t * ∫ s in t..b, q s) (Set.Icc s b) :=
      (h.cg.mono (Set.Icc_subset_Icc hs1.le le_rfl)).mul (tail_continuous h.cq hs1 (le_trans hs2.le ht.2))
    refine (hc t ⟨hs2.le, ht.2⟩).mono_of_mem_nhdsWithin ?_
    rw [mem_nhdsWithin]
    exact ⟨Set.Ioi s, isOpen_Ioi, hs2, fun x hx => ⟨le_of_lt hx.1, hx.2.2⟩⟩
  have hint : IntervalIntegrable (fun t => g t * ∫ s in t..b, q s) volume a b := by
    rw [intervalIntegrable_iff_integrableOn_Ioc_of_le hab.le]
    refine IntegrableOn.of_bound (by simp) (hcont.aestronglyMeasurable measurableSet_Ioc) (K * (b - a)) ?_
    rw [ae_restrict_iff' measurableSet_Ioc]
    refine Eventually.of_forall fun t ht => ?_
    rw [Real.norm_eq_abs, abs_mul]
    exact le_trans (mul_le_mul_of_nonneg_right (h2 t ⟨ht.1.le, ht.2⟩) (abs_nonneg _)) (hGR t ht)
  refine ⟨hint, ?_⟩
  have hF := h.continuous hab
  have hFint : IntervalIntegrable (fun t => q t * ∫ x in a..t, g x) volume a b := intervalIntegrable_sub hF le_rfl hab.le le_rfl
  have hA := ContinuousOn.primitive hab.le h.cg
  -- by parts on [s, b]
  have hparts : ∀ s ∈ Set.Ioo a b, (∫ t in s..b, (g t * ∫ x in t..b, q x)) - (∫ t in s..b, (q t * ∫ x in a..t, g x)) = -((∫ x in a..s, g x) * ∫ x in s..b, q x) := by
    intro s hs
    have hi1 : IntervalIntegrable (fun t => g t * ∫ x in t..b, q x) volume s b := hint.mono_set (by rw [Set.uIcc_of_le hs.2.le, Set.uIcc_of_le hab.le]; exact Set.Icc_subset_Icc hs.1.le le_rfl)
    have hi2 : IntervalIntegrable (fun t => q t * ∫ x in a..t, g x) volume s b := hFint.mono_set (by rw [Set.uIcc_of_le hs.2.le, Set.uIcc_of_le hab.le]; exact Set.Icc_subset_Icc hs.1.le le_rfl)
    rw [← integral_sub hi1 hi2]
    have key := integral_eq_sub_of_hasDerivAt_of_le (f := fun t => (∫ x in a..t, g x) * ∫ x in t..b, q x) (f' := fun t => g t * (∫ x in t..b, q x) - q t * ∫ x in a..t, g x) (a := s) (b := b) hs.2.le
      ((hA.mono (Set.Icc_subset_Icc hs.1.le le_rfl)).mul (tail_continuous h.cq hs.1 hs.2.le)) (by
        intro t ht
        have hta : a < t := lt_trans hs.1 ht.1
        have d1 : HasDerivAt (fun t => ∫ x in a..t, g x) (g t) t := integral_hasDerivAt_right (intervalIntegrable_sub h.cg le_rfl hta.le ht.2.le)
          ((h.cg.mono Set.Ioo_subset_Icc_self).stronglyMeasurableAtFilter isOpen_Ioo t ⟨hta, ht.2⟩) ((h.cg t ⟨hta.le, ht.2.le⟩).continuousAt (Icc_mem_nhds hta ht.2))
        have d2 : HasDerivAt (fun t => ∫ x in t..b, q x) (-q t) t := integral_hasDerivAt_left (tail_integrable h.cq hta ht.2.le le_rfl)
          ((h.cq.mono Set.Ioo_subset_Ioc_self).stronglyMeasurableAtFilter isOpen_Ioo t ⟨hta, ht.2⟩) ((h.cq t ⟨hta, ht.2.le⟩).continuousAt (Ioc_mem_nhds hta ht.2))
        refine (d1.mul d2).congr_deriv ?_
        ring) (hi1.sub hi2)
    rw [key]
    simp
  -- limit s → a
  have hl1 : Tendsto (fun s => ∫ t in s..b, (g t * ∫ x in t..b, q x)) (𝓝[>] a) (𝓝 (∫ t in a..b, (g t * ∫ x in t..b, q x))) := by
    have := continuousOn_primitive_interval_left (μ := volume) (a := a) (b := b) (by
      have := hint
      rw [intervalIntegrable_iff_integrableOn_Icc_of_le hab.le] at this
      rwa [Set.uIcc_of_le hab.le])
    rw [Set.uIcc_of_le hab.le] at this
    have := this a ⟨le_rfl, hab.le⟩
    exact this.mono_left (nhdsWithin_le_of_mem (Filter.mem_of_superset (Ioc_mem_nhdsGT hab) fun x hx => ⟨hx.1.le, hx.2⟩))
  have hl2 : Tendsto (fun s => ∫ t in s..b, (q t * ∫ x in a..t, g x)) (𝓝[>] a) (𝓝 (∫ t in a..b, (q t * ∫ x in a..t, g x))) := by
    have := continuousOn_primitive_interval_left (μ := volume) (a := a) (b := b) (by
      have := hFint
      rw [intervalIntegrable_iff_integrableOn_Icc_of_le hab.le] at this
      rwa [Set.uIcc_of_le hab.le])
    rw [Set.uIcc_of_le hab.le] at this
    have := this a ⟨le_rfl, hab.le⟩
    exact this.mono_left (nhdsWithin_le_of_mem (Filter.mem_of_superset (Ioc_mem_nhdsGT hab) fun x hx => ⟨hx.1.le, hx.2⟩))
  have hl3 : Tendsto (fun s => -((∫ x in a..s, g x) * ∫ x in s..b, q x)) (𝓝[>] a) (𝓝 0) := by
    have h0 : Tendsto (fun s => K * (b - a) * (s - a)) (𝓝[>] a) (𝓝 0) := by
      have : Tendsto (fun s => K * (b - a) * (s - a)) (𝓝 a) (𝓝 (K * (b - a) * (a - a))) := by
        apply Continuous.tendsto; fun_prop
      rw [sub_self, mul_zero] at this
      exact this.mono_left nhdsWithin_le_nhds
    rw [tendsto_zero_iff_norm_tendsto_zero]
    refine squeeze_zero' (Eventually.of_forall fun t => norm_nonneg _) ?_ h0
    filter_upwards [Ioc_mem_nhdsGT hab] with s hs
    rw [norm_neg, norm_mul, Real.norm_eq_abs, Real.norm_eq_abs]
    have hb := integral_bound h1 h2 (t := s) ⟨hs.1.le, hs.2⟩
    have hsa : 0 ≤ s - a := by linarith [hs.1]
    calc _ ≤ (s - a) * G s * |∫ x in s..b, q x| := mul_le_mul_of_nonneg_right hb (abs_nonneg _)
      _ = (s - a) * (G s * |∫ x in s..b, q x|) := by ring
      _ ≤ (s - a) * (K * (b - a)) := mul_le_mul_of_nonneg_left (hGR s hs) hsa
      _ = _ := by ring
  have hl := hl1.sub hl2
  have heq : (fun s => (∫ t in s..b, (g t * ∫ x in t..b, q x)) - ∫ t in s..b, (q t * ∫ x in a..t, g x)) =ᶠ[𝓝[>] a] fun s => -((∫ x in a..s, g x) * ∫ x in s..b, q x) := by
    filter_upwards [Ioo_mem_nhdsGT hab] with s hs
    exact hparts s hs
  have := tendsto_nhds_unique (hl.congr' heq) hl3
  linarith

/-- The double integral over the square. `f1`, `f2` are the inner functions of the two electrons, `q1`, `q2` the outer ones. -/
theorem square {a b : ℝ} (hab : a < b) {q1 g1 q2 g2 : ℝ → ℝ} (h12 : Pair a b q1 g2) (h21 : Pair a b q2 g1) :
    ∫ t in a..b, ∫ s in a..b, (if s ≤ t then q1 t * g2 s else g1 t * q2 s) =
      (∫ t in a..b, q1 t * ∫ s in a..t, g2 s) + ∫ t in a..b, q2 t * ∫ s in a..t, g1 s := by
  obtain ⟨s1, s2⟩ := h21.swap hab
  have hF := h12.continuous hab
  have hFint : IntervalIntegrable (fun t => q1 t * ∫ x in a..t, g2 x) volume a b := intervalIntegrable_sub hF le_rfl hab.le le_rfl
  rw [← s2, ← integral_add hFint s1]
  rw [integral_of_le hab.le, integral_of_le hab.le]
  refine setIntegral_congr_fun measurableSet_Ioc ?_
  intro t ht
  simp only
  have hi1 : IntervalIntegrable (fun s => if s ≤ t then q1 t * g2 s else g1 t * q2 s) volume a t := by
    refine ((intervalIntegrable_sub h12.cg le_rfl ht.1.le ht.2).const_mul (q1 t)).congr ?_
    intro s hs
    rw [Set.uIoc_of_le ht.1.le] at hs
    simp only
    rw [if_pos hs.2]
  have hi2 : IntervalIntegrable (fun s => if s ≤ t then q1 t * g2 s else g1 t * q2 s) volume t b := by
    refine ((tail_integrable h21.cq ht.1 ht.2 le_rfl).const_mul (g1 t)).congr ?_
    intro s hs
    rw [Set.uIoc_of_le ht.2] at hs
    simp only
    rw [if_neg (not_le.2 hs.1)]
  rw [← integral_add_adjacent_intervals hi1 hi2]
  congr 1
  · rw [← intervalIntegral.integral_const_mul, integral_of_le ht.1.le, integral_of_le ht.1.le]
    refine setIntegral_congr_fun measurableSet_Ioc ?_
    intro s hs
    simp only
    rw [if_pos hs.2]
  · rw [← intervalIntegral.integral_const_mul, integral_of_le ht.2, integral_of_le ht.2]
    refine setIntegral_congr_fun measurableSet_Ioc ?_
    intro s hs
    simp only
    rw [if_neg (not_le.2 hs.1)]

end DiaQuad
end HelFEM
