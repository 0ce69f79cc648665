import Verif.Lemmas.QuadConv
import Verif.Model.DiaQuad

/-!
# Convergence of nested quadrature
-/

namespace HelFEM
namespace DiaQuad
open Finset intervalIntegral Filter Topology Quad

/-- ends of the subintervals of `[a, b]` -/
noncomputable def pt (a b : ℝ) (n j : Nat) : ℝ := midOf a b + lenOf a b * edge n j

theorem pt_zero (a b : ℝ) (n : Nat) : pt a b n 0 = a := by unfold pt midOf lenOf edge; ring

theorem pt_succ (a b : ℝ) (n j : Nat) : pt a b n (j + 1) = midOf a b + lenOf a b * nodeX n j := rfl

theorem pt_gap {a b : ℝ} (hab : a < b) {n j : Nat} (hj : j < n) : pt a b n j < pt a b n (j + 1) ∧ pt a b n (j + 1) - pt a b n j ≤ (b - a) * (3 / ((n : ℝ) + 1)) := by
  have h := edge_gap hj
  have hl : 0 < lenOf a b := by unfold lenOf; linarith
  have hn : (0 : ℝ) < (n : ℝ) + 1 := by positivity
  unfold pt
  constructor
  · have := mul_lt_mul_of_pos_left h.1 hl; linarith
  · have e : midOf a b + lenOf a b * edge n (j + 1) - (midOf a b + lenOf a b * edge n j) = lenOf a b * (edge n (j + 1) - edge n j) := by ring
    rw [e]
    refine le_trans (mul_le_mul_of_nonneg_left h.2 hl.le) ?_
    have e2 : lenOf a b * (16 / (3 * ((n : ℝ) + 1))) = (b - a) * (8 / 3 / ((n : ℝ) + 1)) := by unfold lenOf; field_simp; ring
    rw [e2]
    apply mul_le_mul_of_nonneg_left _ (by linarith)
    exact div_le_div_of_nonneg_right (by norm_num) hn.le

theorem pt_mono {a b : ℝ} (hab : a < b) {n i j : Nat} (hij : i ≤ j) (hj : j ≤ n) : pt a b n i ≤ pt a b n j := by
  induction j with
  | zero => obtain rfl : i = 0 := by omega
            exact le_rfl
  | succ j ih =>
    rcases Nat.lt_or_ge i (j + 1) with h | h
    · exact le_trans (ih (by omega) (by omega)) (pt_gap hab (by omega : j < n)).1.le
    · obtain rfl : i = j + 1 := by omega
      exact le_rfl

theorem pt_lt {a b : ℝ} (hab : a < b) {n j : Nat} (hj : j < n) : a < pt a b n (j + 1) ∧ pt a b n (j + 1) < b := by
  have hl : 0 < lenOf a b := by unfold lenOf; linarith
  have h := node_mem hj
  rw [pt_succ]
  have h1 := mul_lt_mul_of_pos_left h.1 hl
  have h2 := mul_lt_mul_of_pos_left h.2.1 hl
  unfold midOf lenOf at *
  constructor <;> linarith

/-- the rule on a subinterval -/
noncomputable def piece (g : ℝ → ℝ) (s t : ℝ) (n : Nat) : ℝ := ∑ q ∈ range n, lenOf s t * nodeW n q * g (midOf s t + lenOf s t * nodeX n q)

/-- the integral up to node `ip` -/
noncomputable def acc (g : ℝ → ℝ) (a b : ℝ) (n ip : Nat) : ℝ := ∑ j ∈ range (ip + 1), piece g (pt a b n j) (pt a b n (j + 1)) n

theorem sub_mem {s t : ℝ} (hst : s ≤ t) {n q : Nat} (hq : q < n) : midOf s t + lenOf s t * nodeX n q ∈ Set.Icc s t := by
  have h := node_mem hq
  have hl : 0 ≤ lenOf s t := by unfold lenOf; linarith
  have h1 := mul_le_mul_of_nonneg_left h.1.le hl
  have h2 := mul_le_mul_of_nonneg_left h.2.1.le hl
  unfold midOf lenOf at *
  constructor <;> linarith

theorem sub_weight (s t : ℝ) {n : Nat} (hn : 2 ≤ n) : ∑ q ∈ range n, lenOf s t * nodeW n q = t - s := by
  rw [← mul_sum, nodeW_sum hn]; unfold lenOf; ring

theorem acc_err {g : ℝ → ℝ} {a b : ℝ} (hab : a < b) (hg : ContinuousOn g (Set.Icc a b)) {η : ℝ} (hη : 0 < η) :
    ∃ N : Nat, ∀ n ≥ N, 2 ≤ n ∧ ∀ ip < n, |acc g a b n ip - ∫ x in a..pt a b n (ip + 1), g x| ≤ 2 * η * (b - a) := by
  obtain ⟨δ, hδ, hosc⟩ := osc_small hg hη
  obtain ⟨N, hN⟩ := exists_nat_gt ((b - a) * 3 / δ)
  refine ⟨max N 2, ?_⟩
  intro n hn
  have hn2 : 2 ≤ n := by omega
  refine ⟨hn2, ?_⟩
  intro ip hip
  have hn1 : (0 : ℝ) < (n : ℝ) + 1 := by positivity
  have hmesh : (b - a) * (3 / ((n : ℝ) + 1)) ≤ δ := by
    rw [← mul_div_assoc, div_le_iff₀ hn1]
    rw [div_lt_iff₀ hδ] at hN
    have : (N : ℝ) ≤ n := by exact_mod_cast (by omega : N ≤ n)
    nlinarith
  have hb := (pt_lt hab hip).2.le
  have key := pieces hg (pt a b n) (ip + 1) (pt_zero a b n) (fun j hj => (pt_gap hab (by omega : j < n)).1.le) hb
    (fun j => piece g (pt a b n j) (pt a b n (j + 1)) n) (2 * η) (by
      intro j hj
      have hjn : j < n := by omega
      have hst := (pt_gap hab hjn)
      have hin : Set.Icc (pt a b n j) (pt a b n (j + 1)) ⊆ Set.Icc a b :=
        Set.Icc_subset_Icc ((pt_zero a b n).symm.le.trans (pt_mono hab (Nat.zero_le j) (by omega))) (pt_lt hab hjn).2.le
      refine rule_osc hst.1.le (hg.mono hin) n (fun q => lenOf (pt a b n j) (pt a b n (j + 1)) * nodeW n q) (fun q => midOf (pt a b n j) (pt a b n (j + 1)) + lenOf (pt a b n j) (pt a b n (j + 1)) * nodeX n q)
        ?_ (sub_weight _ _ hn2) (fun q hq => sub_mem hst.1.le hq) η ?_
      · intro q hq
        have : 0 ≤ lenOf (pt a b n j) (pt a b n (j + 1)) := by unfold lenOf; linarith
        exact mul_nonneg this (node_mem hq).2.2.le
      · intro x hx y hy
        apply hosc x (hin hx) y (hin hy)
        rw [abs_le]
        constructor <;> linarith [hx.1, hx.2, hy.1, hy.2])
  refine le_trans key ?_
  have := (pt_lt hab hip).1
  nlinarith

theorem acc_bound {g G : ℝ → ℝ} {a b : ℝ} (hab : a < b) (hG : MonotoneOn G (Set.Icc a b)) (hgG : ∀ x ∈ Set.Icc a b, |g x| ≤ G x) {n ip : Nat} (hn : 2 ≤ n) (hip : ip < n) :
    |acc g a b n ip| ≤ (pt a b n (ip + 1) - a) * G (pt a b n (ip + 1)) := by
  have hin : ∀ j ≤ ip + 1, pt a b n j ∈ Set.Icc a b := by
    intro j hj
    constructor
    · exact (pt_zero a b n).symm.le.trans (pt_mono hab (Nat.zero_le j) (by omega))
    · exact le_trans (pt_mono hab hj (by omega)) (pt_lt hab hip).2.le
  unfold acc
  refine le_trans (abs_sum_le_sum_abs _ _) ?_
  have e : pt a b n (ip + 1) - a = ∑ j ∈ range (ip + 1), (pt a b n (j + 1) - pt a b n j) := by rw [sum_range_sub, pt_zero]
  rw [e, sum_mul]
  apply sum_le_sum; intro j hj
  have hj := Finset.mem_range.1 hj
  have hst := (pt_gap hab (by omega : j < n)).1.le
  unfold piece
  refine le_trans (abs_sum_le_sum_abs _ _) ?_
  rw [← sub_weight (pt a b n j) (pt a b n (j + 1)) hn, sum_mul]
  apply sum_le_sum; intro q hq
  have hq := Finset.mem_range.1 hq
  have hl : 0 ≤ lenOf (pt a b n j) (pt a b n (j + 1)) := by unfold lenOf; linarith
  have hw : 0 ≤ lenOf (pt a b n j) (pt a b n (j + 1)) * nodeW n q := mul_nonneg hl (node_mem hq).2.2.le
  rw [abs_mul, abs_of_nonneg hw]
  apply mul_le_mul_of_nonneg_left _ hw
  have hm := sub_mem hst hq
  have hm' : midOf (pt a b n j) (pt a b n (j + 1)) + lenOf (pt a b n j) (pt a b n (j + 1)) * nodeX n q ∈ Set.Icc a b :=
    ⟨le_trans (hin j (by omega)).1 hm.1, le_trans hm.2 (hin (j + 1) (by omega)).2⟩
  refine le_trans (hgG _ hm') (hG hm' (hin _ le_rfl) ?_)
  exact le_trans hm.2 (pt_mono hab (by omega) (by omega))

theorem integral_bound {g G : ℝ → ℝ} {a b : ℝ} (hG : MonotoneOn G (Set.Icc a b)) (hgG : ∀ x ∈ Set.Icc a b, |g x| ≤ G x) {t : ℝ} (ht : t ∈ Set.Icc a b) :
    |∫ x in a..t, g x| ≤ (t - a) * G t := by
  have := norm_integral_le_of_norm_le_const (a := a) (b := t) (f := g) (C := G t) (by
    intro x hx
    rw [Set.uIoc_of_le ht.1] at hx
    have hx' : x ∈ Set.Icc a b := ⟨hx.1.le, le_trans hx.2 ht.2⟩
    exact le_trans (hgG x hx') (hG hx' ht hx.2))
  rw [abs_of_nonneg (sub_nonneg.2 ht.1), Real.norm_eq_abs] at this
  linarith

/-- The rule on `[a, b]` converges for continuous functions. -/
theorem rule_tendsto {f : ℝ → ℝ} {a b : ℝ} (hab : a < b) (hf : ContinuousOn f (Set.Icc a b)) :
    Tendsto (fun n : Nat => ∑ k ∈ range n, lenOf a b * nodeW n k * f (pt a b n (k + 1))) atTop (𝓝 (∫ x in a..b, f x)) := by
  have hl : 0 < lenOf a b := by unfold lenOf; linarith
  have h := cheb_tendsto (f := fun x => f (lenOf a b * x + midOf a b)) (by
    apply hf.comp (by fun_prop)
    intro x hx
    have h1 := mul_le_mul_of_nonneg_left hx.1 hl.le
    have h2 := mul_le_mul_of_nonneg_left hx.2 hl.le
    unfold midOf lenOf at *
    constructor <;> linarith)
  have h2 := h.const_mul (lenOf a b)
  have e : lenOf a b * (∫ x in (-1)..1, f (lenOf a b * x + midOf a b)) = ∫ x in a..b, f x := by
    rw [mul_integral_comp_mul_add]
    congr 1 <;> unfold midOf lenOf <;> ring
  rw [e] at h2
  refine h2.congr ?_
  intro n
  rw [mul_sum]
  apply sum_congr rfl; intro k _
  rw [pt_succ, add_comm (midOf a b)]; ring

theorem ContinuousOn.primitive {g : ℝ → ℝ} {a b : ℝ} (hab : a ≤ b) (hg : ContinuousOn g (Set.Icc a b)) : ContinuousOn (fun t => ∫ x in a..t, g x) (Set.Icc a b) := by
  have := continuousOn_primitive_interval' (μ := MeasureTheory.volume) (f := g) (a := a) (b₁ := a) (b₂ := b) (intervalIntegrable_sub hg le_rfl hab le_rfl) (by rw [Set.uIcc_of_le hab]; exact ⟨le_rfl, hab⟩)
  rwa [Set.uIcc_of_le hab] at this

/-- Outer function times primitive, continuous up to the lower end. -/
theorem outer_continuous {q g G : ℝ → ℝ} {a b : ℝ} (hab : a < b) (hg : ContinuousOn g (Set.Icc a b)) (hq : ContinuousOn q (Set.Ioc a b)) (hG : MonotoneOn G (Set.Icc a b))
    (hgG : ∀ x ∈ Set.Icc a b, |g x| ≤ G x) (hlim : Tendsto (fun t => q t * ((t - a) * G t)) (𝓝[>] a) (𝓝 0)) :
    ContinuousOn (fun t => q t * ∫ x in a..t, g x) (Set.Icc a b) := by
  have hprim := ContinuousOn.primitive hab.le hg
  intro t ht
  rcases eq_or_lt_of_le ht.1 with h | h
  · subst h
    unfold ContinuousWithinAt
    simp only [integral_same, mul_zero]
    rw [tendsto_zero_iff_norm_tendsto_zero] at hlim ⊢
    have h1 : Tendsto (fun t => ‖q t * ∫ x in a..t, g x‖) (𝓝[Set.Ioc a b] a) (𝓝 0) := by
      have h0 : Tendsto (fun t => ‖q t * ((t - a) * G t)‖) (𝓝[Set.Ioc a b] a) (𝓝 0) := hlim.mono_left (nhdsWithin_mono _ fun x hx => hx.1)
      refine squeeze_zero' (Eventually.of_forall fun t => norm_nonneg _) ?_ h0
      filter_upwards [self_mem_nhdsWithin] with t ht
      rw [norm_mul, norm_mul]
      apply mul_le_mul_of_nonneg_left _ (norm_nonneg _)
      rw [Real.norm_eq_abs, Real.norm_eq_abs]
      exact le_trans (integral_bound hG hgG ⟨ht.1.le, ht.2⟩) (le_abs_self _)
    have h2 : Set.Icc a b = insert a (Set.Ioc a b) := (Set.insert_eq_of_mem (Set.left_mem_Icc.2 hab.le) ▸ by
      ext x; simp only [Set.mem_Icc, Set.mem_insert_iff, Set.mem_Ioc]
      constructor
      · rintro (rfl | h)
        · exact Or.inl rfl
        · rcases eq_or_lt_of_le h.1 with h' | h'
          · exact Or.inl h'.symm
          · exact Or.inr ⟨h', h.2⟩
      · rintro (rfl | h)
        · exact Or.inl rfl
        · exact Or.inr ⟨h.1.le, h.2⟩)
    rw [h2, nhdsWithin_insert, tendsto_sup]
    refine ⟨?_, h1⟩
    rw [tendsto_pure_left]
    intro s hs
    simpa using mem_of_mem_nhds hs
  · have h1 : ContinuousWithinAt q (Set.Icc a b) t := by
      have := hq t ⟨h, ht.2⟩
      refine this.mono_of_mem_nhdsWithin ?_
      rw [mem_nhdsWithin]
      exact ⟨Set.Ioi a, isOpen_Ioi, h, fun x hx => ⟨hx.1, hx.2.2⟩⟩
    exact h1.mul (hprim t ht)

/-- **Nested quadrature.** The outer function may be singular at the lower end if the bound `G` on the inner function compensates for it. -/
theorem nested {q g G : ℝ → ℝ} {a b : ℝ} (hab : a < b) (hg : ContinuousOn g (Set.Icc a b)) (hq : ContinuousOn q (Set.Ioc a b)) (hG : MonotoneOn G (Set.Icc a b))
    (hgG : ∀ x ∈ Set.Icc a b, |g x| ≤ G x) (hlim : Tendsto (fun t => q t * ((t - a) * G t)) (𝓝[>] a) (𝓝 0)) :
    Tendsto (fun n : Nat => ∑ ip ∈ range n, lenOf a b * nodeW n ip * (q (pt a b n (ip + 1)) * acc g a b n ip)) atTop (𝓝 (∫ t in a..b, q t * ∫ x in a..t, g x)) := by
  have hF := rule_tendsto hab (outer_continuous hab hg hq hG hgG hlim)
  have hba : 0 < b - a := by linarith
  have hrest : Tendsto (fun n : Nat => ∑ ip ∈ range n, lenOf a b * nodeW n ip * (q (pt a b n (ip + 1)) * (acc g a b n ip - ∫ x in a..pt a b n (ip + 1), g x))) atTop (𝓝 0) := by
    rw [Metric.tendsto_atTop]
    intro ε hε
    -- near the lower end
    have hε1 : 0 < ε / (8 * (b - a)) := by positivity
    have hnear := (Metric.tendsto_nhdsWithin_nhds.1 hlim) (ε / (8 * (b - a))) hε1
    obtain ⟨δ, hδ, hnear⟩ := hnear
    -- away from it `q` is bounded
    obtain ⟨δ', hδ', hδδ⟩ : ∃ δ' > 0, δ' < δ := ⟨δ / 2, by positivity, by linarith⟩
    obtain ⟨C, hC⟩ : ∃ C, ∀ t ∈ Set.Icc (a + δ') b, |q t| ≤ C := by
      obtain ⟨C, hC⟩ := isCompact_Icc.exists_bound_of_continuousOn (hq.mono (fun t (ht : t ∈ Set.Icc (a + δ') b) => ⟨by linarith [ht.1], ht.2⟩))
      exact ⟨C, fun t ht => hC t ht⟩
    have hC0 : 0 < |C| + 1 := by positivity
    obtain ⟨N, hN⟩ := acc_err hab hg (η := ε / (8 * (b - a) * (b - a) * (|C| + 1))) (by positivity)
    refine ⟨N, ?_⟩
    intro n hn
    obtain ⟨hn2, herr⟩ := hN n hn
    rw [Real.dist_eq, sub_zero]
    have hterm : ∀ ip ∈ range n, |lenOf a b * nodeW n ip * (q (pt a b n (ip + 1)) * (acc g a b n ip - ∫ x in a..pt a b n (ip + 1), g x))| ≤ lenOf a b * nodeW n ip * (ε / (4 * (b - a))) := by
      intro ip hip
      have hip := Finset.mem_range.1 hip
      have hw : 0 ≤ lenOf a b * nodeW n ip := mul_nonneg (by unfold lenOf; linarith) (node_mem hip).2.2.le
      rw [abs_mul, abs_of_nonneg hw]
      apply mul_le_mul_of_nonneg_left _ hw
      rw [abs_mul]
      obtain ⟨t1, t2⟩ := pt_lt hab hip
      rcases lt_or_ge (pt a b n (ip + 1)) (a + δ') with h | h
      · have hs := hnear (x := pt a b n (ip + 1)) t1 (by rw [Real.dist_eq, abs_of_pos (by linarith)]; linarith)
        rw [Real.dist_eq, sub_zero, abs_mul] at hs
        have hmem : pt a b n (ip + 1) ∈ Set.Icc a b := ⟨t1.le, t2.le⟩
        have b1 := acc_bound hab hG hgG hn2 hip
        have b2 := integral_bound hG hgG hmem
        have b3 : |acc g a b n ip - ∫ x in a..pt a b n (ip + 1), g x| ≤ 2 * |(pt a b n (ip + 1) - a) * G (pt a b n (ip + 1))| := by
          have := le_abs_self ((pt a b n (ip + 1) - a) * G (pt a b n (ip + 1)))
          refine le_trans (abs_sub _ _) ?_
          linarith
        calc _ ≤ |q (pt a b n (ip + 1))| * (2 * |(pt a b n (ip + 1) - a) * G (pt a b n (ip + 1))|) := mul_le_mul_of_nonneg_left b3 (abs_nonneg _)
          _ = 2 * (|q (pt a b n (ip + 1))| * |(pt a b n (ip + 1) - a) * G (pt a b n (ip + 1))|) := by ring
          _ ≤ 2 * (ε / (8 * (b - a))) := by linarith
          _ = _ := by field_simp; ring
      · have hc := hC _ ⟨h, t2.le⟩
        have he := herr ip hip
        have hc' : |q (pt a b n (ip + 1))| ≤ |C| + 1 := by have := le_abs_self C; linarith
        calc _ ≤ (|C| + 1) * (2 * (ε / (8 * (b - a) * (b - a) * (|C| + 1))) * (b - a)) := mul_le_mul hc' he (abs_nonneg _) hC0.le
          _ = _ := by field_simp; ring
    refine lt_of_le_of_lt (le_trans (abs_sum_le_sum_abs _ _) (sum_le_sum hterm)) ?_
    rw [← sum_mul, sub_weight a b hn2]
    have : (b - a) * (ε / (4 * (b - a))) = ε / 4 := by field_simp
    rw [this]; linarith
  have := hF.add hrest
  rw [add_zero] at this
  refine this.congr ?_
  intro n
  rw [← sum_add_distrib]
  apply sum_congr rfl; intro ip _
  ring

end DiaQuad
end HelFEM
