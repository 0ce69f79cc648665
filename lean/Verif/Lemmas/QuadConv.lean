import Verif.Props.Angular
import Mathlib.Topology.UniformSpace.HeineCantor
import Mathlib.MeasureTheory.Integral.IntervalIntegral.IntegrationByParts
import Mathlib.Topology.MetricSpace.Pseudo.Basic

/-!
# Convergence of quadrature rules on refined partitions
-/

namespace HelFEM
namespace Quad
open Finset intervalIntegral Filter Topology

/-- sub-interval of an interval -/
theorem intervalIntegrable_sub {g : ℝ → ℝ} {a b s t : ℝ} (hg : ContinuousOn g (Set.Icc a b)) (hs : a ≤ s) (hst : s ≤ t) (ht : t ≤ b) :
    IntervalIntegrable g MeasureTheory.volume s t := by
  apply ContinuousOn.intervalIntegrable
  rw [Set.uIcc_of_le hst]
  exact hg.mono (Set.Icc_subset_Icc hs ht)

/-- A rule with nonnegative weights of sum `t - s` and nodes in `[s, t]` differs from the integral by the oscillation of the integrand. -/
theorem rule_osc {g : ℝ → ℝ} {s t : ℝ} (hst : s ≤ t) (hg : ContinuousOn g (Set.Icc s t)) (N : Nat) (w u : Nat → ℝ) (hw : ∀ i < N, 0 ≤ w i) (hsum : ∑ i ∈ range N, w i = t - s)
    (hu : ∀ i < N, u i ∈ Set.Icc s t) (η : ℝ) (hη : ∀ x ∈ Set.Icc s t, ∀ y ∈ Set.Icc s t, |g x - g y| ≤ η) :
    |∑ i ∈ range N, w i * g (u i) - ∫ x in s..t, g x| ≤ 2 * η * (t - s) := by
  have hs : s ∈ Set.Icc s t := ⟨le_rfl, hst⟩
  have hi : IntervalIntegrable g MeasureTheory.volume s t := intervalIntegrable_sub hg le_rfl hst le_rfl
  have e1 : ∑ i ∈ range N, w i * g (u i) = ∑ i ∈ range N, w i * (g (u i) - g s) + (t - s) * g s := by
    rw [← hsum, sum_mul, ← sum_add_distrib]
    apply sum_congr rfl; intro i _; ring
  have e2 : (∫ x in s..t, g x) = (∫ x in s..t, (g x - g s)) + (t - s) * g s := by
    rw [integral_sub hi intervalIntegrable_const]; simp
  rw [e1, e2, add_sub_add_right_eq_sub]
  have b1 : |∑ i ∈ range N, w i * (g (u i) - g s)| ≤ η * (t - s) := by
    refine le_trans (abs_sum_le_sum_abs _ _) ?_
    rw [← hsum, mul_sum]
    apply sum_le_sum; intro i hi
    have hi := Finset.mem_range.1 hi
    rw [abs_mul, abs_of_nonneg (hw i hi), mul_comm]
    exact mul_le_mul_of_nonneg_right (hη _ (hu i hi) _ hs) (hw i hi)
  have b2 : |∫ x in s..t, (g x - g s)| ≤ η * (t - s) := by
    have := norm_integral_le_of_norm_le_const (a := s) (b := t) (f := fun x => g x - g s) (C := η) (by
      intro x hx
      rw [Set.uIoc_of_le hst] at hx
      exact hη x ⟨hx.1.le, hx.2⟩ s hs)
    rwa [abs_of_nonneg (sub_nonneg.2 hst), Real.norm_eq_abs] at this
  calc _ ≤ |∑ i ∈ range N, w i * (g (u i) - g s)| + |∫ x in s..t, (g x - g s)| := abs_sub _ _
    _ ≤ _ := by linarith

/-- Sums of rules over consecutive intervals. `S j` approximates the integral over `[p j, p (j+1)]`. -/
theorem pieces {g : ℝ → ℝ} {a b : ℝ} (hg : ContinuousOn g (Set.Icc a b)) (p : Nat → ℝ) (N : Nat) (h0 : p 0 = a) (hmono : ∀ j < N, p j ≤ p (j + 1)) (hb : p N ≤ b) (S : Nat → ℝ) (η : ℝ)
    (hS : ∀ j < N, |S j - ∫ x in p j..p (j + 1), g x| ≤ η * (p (j + 1) - p j)) : |∑ j ∈ range N, S j - ∫ x in a..p N, g x| ≤ η * (p N - a) := by
  have hle : ∀ j ≤ N, ∀ i ≤ j, p i ≤ p j := by
    intro j
    induction j with
    | zero => intro _ i hi; obtain rfl : i = 0 := by omega
              exact le_rfl
    | succ j ih =>
      intro hj i hi
      rcases Nat.lt_or_ge i (j + 1) with h | h
      · exact le_trans (ih (by omega) i (by omega)) (hmono j (by omega))
      · obtain rfl : i = j + 1 := by omega
        exact le_rfl
  rw [← h0, ← sum_integral_adjacent_intervals (a := p) (n := N) (fun k hk => intervalIntegrable_sub hg (h0 ▸ hle k (by omega) 0 (by omega)) (hmono k hk) (le_trans (hle N le_rfl (k + 1) hk) hb)),
    ← sum_sub_distrib]
  refine le_trans (abs_sum_le_sum_abs _ _) ?_
  rw [← sum_range_sub, mul_sum]
  exact sum_le_sum fun j hj => hS j (Finset.mem_range.1 hj)

/-- uniform continuity on a closed interval -/
theorem osc_small {g : ℝ → ℝ} {a b : ℝ} (hg : ContinuousOn g (Set.Icc a b)) {η : ℝ} (hη : 0 < η) :
    ∃ δ > 0, ∀ x ∈ Set.Icc a b, ∀ y ∈ Set.Icc a b, |x - y| ≤ δ → |g x - g y| ≤ η := by
  have h := isCompact_Icc.uniformContinuousOn_of_continuous hg
  rw [Metric.uniformContinuousOn_iff] at h
  obtain ⟨δ, hδ, h⟩ := h η hη
  refine ⟨δ / 2, by positivity, ?_⟩
  intro x hx y hy hxy
  have := h x hx y hy (by rw [Real.dist_eq]; linarith)
  rw [Real.dist_eq] at this
  exact this.le

/-! ### the Chebyshev rule -/

/-- node and weight by their place in the rule -/
noncomputable def nodeX (n k : Nat) : ℝ := ((chebyshev n).getD k (0, 0)).1
noncomputable def nodeW (n k : Nat) : ℝ := ((chebyshev n).getD k (0, 0)).2

theorem node_eq {n k : Nat} (hk : k < n) : nodeX n k = subst (angle n (n - k)) ∧ nodeW n k = 16 / (3 * ((n : ℝ) + 1)) * Real.sin (angle n (n - k)) ^ 4 := by
  unfold nodeX nodeW
  rw [List.getD_eq_getElem?_getD, cheb_get n k hk]
  exact ⟨rfl, rfl⟩

theorem node_mem {n k : Nat} (hk : k < n) : -1 < nodeX n k ∧ nodeX n k < 1 ∧ 0 < nodeW n k := by
  have h := (C46_chebyshev_points n).2.2.1 ((chebyshev n).getD k (0, 0)) (by
    rw [List.getD_eq_getElem?_getD, List.getElem?_eq_getElem (by rw [cheb_length]; exact hk)]
    exact List.getElem_mem _)
  exact h

theorem node_lt {n i j : Nat} (hij : i < j) (hj : j < n) : nodeX n i < nodeX n j := by
  rw [(node_eq (lt_trans hij hj)).1, (node_eq hj).1]
  have hi := angle_mem n (n - i) (by omega) (by omega)
  have hj' := angle_mem n (n - j) (by omega) (by omega)
  refine subst_anti ⟨hj'.1.le, hj'.2.le⟩ ⟨hi.1.le, hi.2.le⟩ ?_
  unfold angle
  have hn : (0 : ℝ) < (n : ℝ) + 1 := by positivity
  rw [div_lt_div_iff_of_pos_right hn]
  apply mul_lt_mul_of_pos_right _ Real.pi_pos
  have : n - j < n - i := by omega
  exact_mod_cast this

theorem nodeW_sum {n : Nat} (hn : 2 ≤ n) : ∑ k ∈ range n, nodeW n k = 2 := by
  rw [← C46_chebyshev_weight_sum_partial n hn]
  unfold weightSum nodeW
  have e : (chebyshev n).map Prod.snd = (List.range n).map fun k => ((chebyshev n).getD k (0, 0)).2 := by
    apply List.ext_getElem?
    intro i
    rw [List.getElem?_map, List.getElem?_map]
    by_cases h : i < n
    · rw [List.getElem?_range h, cheb_get n i h, Option.map_some, Option.map_some, List.getD_eq_getElem?_getD, cheb_get n i h]; rfl
    · rw [List.getElem?_eq_none (by rw [cheb_length]; omega), List.getElem?_eq_none (by rw [List.length_range]; omega)]; rfl
  rw [e]
  rfl

theorem subst_lip (s t : ℝ) : |subst s - subst t| ≤ 16 / (3 * Real.pi) * |s - t| := by
  have := Convex.norm_image_sub_le_of_norm_hasDerivWithin_le (f := subst) (f' := fun θ => -(16 / (3 * Real.pi)) * Real.sin θ ^ 4) (s := Set.univ) (C := 16 / (3 * Real.pi)) (x := t) (y := s)
    (fun θ _ => (subst_deriv θ).hasDerivWithinAt) (by
      intro θ _
      have hpi := Real.pi_pos
      rw [Real.norm_eq_abs, abs_mul, abs_neg, abs_of_pos (by positivity : 0 < 16 / (3 * Real.pi))]
      have h1 : |Real.sin θ ^ 4| ≤ 1 := by
        rw [abs_pow]
        exact pow_le_one₀ (abs_nonneg _) (Real.abs_sin_le_one θ)
      exact mul_le_of_le_one_right (by positivity) h1) convex_univ (Set.mem_univ _) (Set.mem_univ _)
  simpa [Real.norm_eq_abs] using this

/-- ends of the pieces: the left end, then the nodes -/
noncomputable def edge (n : Nat) : Nat → ℝ
  | 0 => -1
  | j + 1 => nodeX n j

theorem edge_gap {n j : Nat} (hj : j < n) : edge n j < edge n (j + 1) ∧ edge n (j + 1) - edge n j ≤ 16 / (3 * ((n : ℝ) + 1)) := by
  have hpi := Real.pi_pos
  have hn : (0 : ℝ) < (n : ℝ) + 1 := by positivity
  have hlip : ∀ i, 1 ≤ i → i ≤ n → subst (angle n i) - subst (angle n (i + 1)) ≤ 16 / (3 * ((n : ℝ) + 1)) := by
    intro i _ _
    refine le_trans (le_abs_self _) (le_trans (subst_lip _ _) ?_)
    have : angle n i - angle n (i + 1) = -(Real.pi / ((n : ℝ) + 1)) := by unfold angle; push_cast; ring
    rw [this, abs_neg, abs_of_pos (by positivity)]
    apply le_of_eq; field_simp
  cases j with
  | zero =>
    refine ⟨(node_mem hj).1, ?_⟩
    show nodeX n 0 - -1 ≤ _
    have e := hlip n (by omega) le_rfl
    have e2 : angle n (n + 1) = Real.pi := by unfold angle; push_cast; field_simp
    rw [e2, subst_pi] at e
    rw [(node_eq hj).1]
    exact e
  | succ j =>
    refine ⟨node_lt (Nat.lt_succ_self j) hj, ?_⟩
    show nodeX n (j + 1) - nodeX n j ≤ _
    rw [(node_eq hj).1, (node_eq (by omega : j < n)).1]
    have := hlip (n - (j + 1)) (by omega) (by omega)
    rw [show n - (j + 1) + 1 = n - j by omega] at this
    exact this

/-- Integrals of continuous functions are the limits of the rule. -/
theorem cheb_tendsto {f : ℝ → ℝ} (hf : ContinuousOn f (Set.Icc (-1) 1)) :
    Tendsto (fun n : Nat => ∑ k ∈ range n, nodeW n k * f (nodeX n k)) atTop (𝓝 (∫ x in (-1)..1, f x)) := by
  have hpi := Real.pi_pos
  obtain ⟨g, hg⟩ : ∃ g : ℝ → ℝ, g = fun θ => f (subst θ) * (16 / (3 * Real.pi) * Real.sin θ ^ 4) := ⟨_, rfl⟩
  have hmaps : ∀ θ ∈ Set.Icc 0 Real.pi, subst θ ∈ Set.Icc (-1 : ℝ) 1 := by
    intro θ hθ
    constructor
    · rw [← subst_pi]; exact subst_anti.antitoneOn hθ ⟨hpi.le, le_rfl⟩ hθ.2
    · rw [← subst_zero]; exact subst_anti.antitoneOn ⟨le_rfl, hpi.le⟩ hθ hθ.1
  have hsc : Continuous subst := continuous_iff_continuousAt.2 fun θ => (subst_deriv θ).continuousAt
  have hgc : ContinuousOn g (Set.Icc 0 Real.pi) := by
    rw [hg]
    exact (hf.comp hsc.continuousOn hmaps).mul (by fun_prop)
  have hint : (∫ x in (-1)..1, f x) = ∫ θ in (0 : ℝ)..Real.pi, g θ := by
    have := integral_comp_mul_deriv'' (f := subst) (f' := fun θ => -(16 / (3 * Real.pi)) * Real.sin θ ^ 4) (g := f) (a := 0) (b := Real.pi) hsc.continuousOn
      (fun θ _ => (subst_deriv θ).hasDerivWithinAt) (by fun_prop) (by
        rw [Set.uIcc_of_le hpi.le]
        exact hf.mono (by rintro _ ⟨θ, hθ, rfl⟩; exact hmaps θ hθ))
    rw [subst_zero, subst_pi, integral_symm (-1) 1] at this
    have e : (∫ x in (-1)..1, f x) = -∫ θ in (0 : ℝ)..Real.pi, (f ∘ subst) θ * (-(16 / (3 * Real.pi)) * Real.sin θ ^ 4) := by rw [this]; ring
    rw [e, ← integral_neg, hg]
    congr 1
    funext θ
    simp only [Function.comp]; ring
  rw [hint, Metric.tendsto_atTop]
  intro ε hε
  obtain ⟨δ, hδ, hosc⟩ := osc_small hgc (η := ε / (4 * Real.pi)) (by positivity)
  obtain ⟨N, hN⟩ := exists_nat_gt (Real.pi / δ)
  refine ⟨N, ?_⟩
  intro n hn
  have hn1 : (0 : ℝ) < (n : ℝ) + 1 := by positivity
  have hh : Real.pi / ((n : ℝ) + 1) ≤ δ := by
    rw [div_le_iff₀ hn1]
    rw [div_lt_iff₀ hδ] at hN
    have : (N : ℝ) ≤ n := by exact_mod_cast hn
    nlinarith
  obtain ⟨p, hp⟩ : ∃ p : Nat → ℝ, p = fun (j : Nat) => (j : ℝ) * Real.pi / ((n : ℝ) + 1) := ⟨_, rfl⟩
  have hpn : p (n + 1) = Real.pi := by rw [hp]; push_cast; field_simp
  have hps : ∀ j, p (j + 1) - p j = Real.pi / ((n : ℝ) + 1) := by intro j; rw [hp]; push_cast; ring
  have hpm : ∀ j, p j ≤ p (j + 1) := by intro j; have := hps j; have h2 : 0 < Real.pi / ((n : ℝ) + 1) := by positivity
                                        linarith
  have hmono : Monotone p := monotone_nat_of_le_succ hpm
  have hp0 : p 0 = 0 := by rw [hp]; simp
  have key := pieces hgc p (n + 1) hp0 (fun j _ => hpm j) hpn.le (fun j => (p (j + 1) - p j) * g (p (j + 1))) (2 * (ε / (4 * Real.pi))) (by
    intro j hj
    have hin : Set.Icc (p j) (p (j + 1)) ⊆ Set.Icc 0 Real.pi := Set.Icc_subset_Icc (hp0 ▸ hmono (Nat.zero_le j)) (hpn ▸ hmono (by omega))
    have := rule_osc (hpm j) (hgc.mono hin) 1 (fun _ => p (j + 1) - p j) (fun _ => p (j + 1)) (fun _ _ => sub_nonneg.2 (hpm j)) (by simp)
      (fun _ _ => ⟨hpm j, le_rfl⟩) (ε / (4 * Real.pi)) (by
        intro x hx y hy
        apply hosc x (hin hx) y (hin hy)
        have := hps j
        rw [abs_le]; constructor <;> linarith [hx.1, hx.2, hy.1, hy.2])
    simpa using this)
  have esum : ∑ k ∈ range n, nodeW n k * f (nodeX n k) = ∑ j ∈ range (n + 1), (p (j + 1) - p j) * g (p (j + 1)) := by
    rw [sum_range_succ, hpn]
    have h0 : g Real.pi = 0 := by rw [hg]; simp
    rw [h0, mul_zero, add_zero, ← sum_range_reflect]
    apply sum_congr rfl; intro k hk
    have hk := Finset.mem_range.1 hk
    rw [(node_eq (by omega : n - 1 - k < n)).1, (node_eq (by omega : n - 1 - k < n)).2, hps, hg, hp, show n - (n - 1 - k) = k + 1 by omega]
    unfold angle
    simp only
    push_cast
    field_simp
  rw [Real.dist_eq, esum]
  rw [hpn, sub_zero] at key
  refine lt_of_le_of_lt key ?_
  have : 2 * (ε / (4 * Real.pi)) * Real.pi = ε / 2 := by field_simp; ring
  rw [this]; linarith

end Quad
end HelFEM
