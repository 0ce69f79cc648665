import Verif.Model.Radii
import Verif.Lemmas.AtomDB
import Mathlib.Topology.Order.IntermediateValue
import Mathlib.Topology.Algebra.Order.LiminfLimsup
import Mathlib.Analysis.SpecificLimits.Basic

/-! Lemmas for the radii read off a density. -/

namespace HelFEM
namespace Radii
open Grid Poly Finset Polynomial Spec Assembly AtomDB

/-! ## Largest and smallest entries -/

theorem bestFrom_spec (l : List ℝ) : ∀ (xs : List ℝ) (idx : Nat) (best : ℝ) (i : Nat), xs = l.drop i → i ≤ l.length →
    idx < i → l.getD idx 0 = best → (∀ j < i, l.getD j 0 ≤ best) → (∀ j < idx, l.getD j 0 < best) →
    (bestFrom idx best i xs).1 < l.length ∧ l.getD (bestFrom idx best i xs).1 0 = (bestFrom idx best i xs).2 ∧
      (∀ j < l.length, l.getD j 0 ≤ (bestFrom idx best i xs).2) ∧ ∀ j < (bestFrom idx best i xs).1, l.getD j 0 < (bestFrom idx best i xs).2 := by
  intro xs
  induction xs with
  | nil =>
    intro idx best i h1 h2 h3 h4 h5 h6
    have : l.length ≤ i := by
      have := congrArg List.length h1
      simp at this; omega
    exact ⟨by simp only [bestFrom]; omega, h4, fun j hj => h5 j (by omega), h6⟩
  | cons x xs ih =>
    intro idx best i h1 h2 h3 h4 h5 h6
    have hi : i < l.length := by
      have := congrArg List.length h1
      simp at this; omega
    have hx : l.getD i 0 = x := by
      have : (l.drop i)[0]? = some x := by rw [← h1]; rfl
      rw [List.getElem?_drop] at this
      simp [List.getD_eq_getElem?_getD] at this ⊢
      simp [this]
    have hxs : xs = l.drop (i + 1) := by
      have : (l.drop i).tail = xs := by rw [← h1]; rfl
      rw [← this, List.tail_drop]
    unfold bestFrom
    split
    · rename_i hlt
      refine ih i x (i + 1) hxs hi (by omega) hx ?_ ?_
      · intro j hj
        rcases Nat.lt_succ_iff_lt_or_eq.1 hj with h | h
        · exact (h5 j h).trans hlt.le
        · rw [h, hx]
      · intro j hj
        exact (h5 j hj).trans_lt hlt
    · rename_i hlt
      refine ih idx best (i + 1) hxs hi (by omega) h4 ?_ h6
      intro j hj
      rcases Nat.lt_succ_iff_lt_or_eq.1 hj with h | h
      · exact h5 j h
      · rw [h, hx]; exact not_lt.1 hlt

theorem maxCoeff_spec (l : List ℝ) (hl : l ≠ []) : ∃ i v, maxCoeff l = .ok (i, v) ∧ i < l.length ∧ l.getD i 0 = v ∧ (∀ j < l.length, l.getD j 0 ≤ v) ∧
    ∀ j < i, l.getD j 0 < v := by
  cases l with
  | nil => exact absurd rfl hl
  | cons x xs =>
    have := bestFrom_spec (x :: xs) xs 0 x 1 rfl (by simp) (by omega) rfl (fun j hj => by rw [show j = 0 by omega]; simp) (fun j hj => by omega)
    exact ⟨_, _, rfl, this⟩

theorem minPlace_spec (l : List ℝ) (hl : l ≠ []) : ∃ i, minPlace l = .ok i ∧ i < l.length ∧ (∀ j < l.length, l.getD i 0 ≤ l.getD j 0) ∧
    ∀ j < i, l.getD i 0 < l.getD j 0 := by
  obtain ⟨i, v, h1, h2, h3, h4, h5⟩ := maxCoeff_spec (l.map fun x => -x) (by simpa using hl)
  have e : ∀ j < l.length, (l.map fun x => -x).getD j 0 = -l.getD j 0 := by
    intro j hj; simp [List.getD_eq_getElem?_getD, hj]
  simp only [List.length_map] at h2 h4
  refine ⟨i, ?_, h2, ?_, ?_⟩
  · unfold minPlace; rw [h1]; rfl
  · intro j hj
    have := h4 j hj
    rw [← h3, e j hj, e i h2] at this; linarith
  · intro j hj
    have := h5 j hj
    rw [← h3, e j (by omega), e i h2] at this; linarith

/-! ## Search intervals -/

/-- quadrature points: increasing, in [-1, 1], at least two -/
structure GoodPoints (x : List ℝ) : Prop where
  inc : x.Pairwise (· < ·)
  mem : ∀ t ∈ x, -1 ≤ t ∧ t ≤ 1
  two : 2 ≤ x.length

theorem GoodPoints.lt {x : List ℝ} (h : GoodPoints x) (i j : Nat) (hij : i < j) (hj : j < x.length) : x.getD i 0 < x.getD j 0 := by
  have := List.pairwise_iff_getElem.1 h.inc i j (by omega) hj hij
  simpa [List.getD_eq_getElem?_getD, hj, show i < x.length by omega] using this

theorem GoodPoints.bounds {x : List ℝ} (h : GoodPoints x) (i : Nat) (hi : i < x.length) : -1 ≤ x.getD i 0 ∧ x.getD i 0 ≤ 1 := by
  have := h.mem (x[i]) (List.getElem_mem hi)
  simpa [List.getD_eq_getElem?_getD, hi] using this

theorem readAt_getD (x : List ℝ) (i : Nat) (hi : i < x.length) : readAt x i = .ok (x.getD i 0) := by
  simp [readAt, List.getD_eq_getElem?_getD, hi]

theorem bracket_spec {x : List ℝ} (h : GoodPoints x) (i : Nat) (hi : i < x.length) :
    ∃ a b, bracket x i = .ok (a, b) ∧ -1 ≤ a ∧ a < b ∧ b ≤ 1 ∧ a ≤ x.getD i 0 ∧ x.getD i 0 ≤ b ∧
      ((i = 0 ∧ a = -1) ∨ (0 < i ∧ a = x.getD (i - 1) 0)) ∧ ((i + 1 = x.length ∧ b = 1) ∨ (i + 1 < x.length ∧ b = x.getD (i + 1) 0)) := by
  have h2 := h.two
  have hb := h.bounds i hi
  unfold bracket
  split
  · rename_i h0
    subst h0
    rw [readAt_getD x _ (by omega)]
    have := h.lt 0 1 (by omega) (by omega)
    have := h.bounds 1 (by omega)
    exact ⟨_, _, rfl, le_rfl, by simp only [zero_add]; linarith, by simp only [zero_add]; linarith, hb.1, by simp only [zero_add]; linarith, Or.inl ⟨rfl, rfl⟩, Or.inr ⟨by omega, rfl⟩⟩
  · rename_i h0
    split
    · rename_i h1
      rw [readAt_getD x _ (by omega)]
      have := h.lt (i - 1) i (by omega) (by omega)
      have := h.bounds (i - 1) (by omega)
      exact ⟨_, _, rfl, by linarith, by linarith, le_rfl, by linarith, hb.2, Or.inr ⟨by omega, rfl⟩, Or.inl ⟨by omega, rfl⟩⟩
    · rename_i h1
      rw [readAt_getD x _ (by omega), readAt_getD x _ (by omega)]
      have := h.lt (i - 1) i (by omega) (by omega)
      have := h.lt i (i + 1) (by omega) (by omega)
      have := h.bounds (i - 1) (by omega)
      have := h.bounds (i + 1) (by omega)
      exact ⟨_, _, rfl, by linarith, by linarith, by linarith, by linarith, by linarith, Or.inr ⟨by omega, rfl⟩, Or.inr ⟨by omega, rfl⟩⟩

/-! ## Golden section search -/

theorem golden_facts : 1 < goldenRatio ∧ goldenRatio < 2 ∧ goldenRatio * goldenRatio = goldenRatio + 1 := by
  have h5 : Real.sqrt 5 * Real.sqrt 5 = 5 := Real.mul_self_sqrt (by norm_num)
  have h0 := Real.sqrt_nonneg 5
  unfold goldenRatio
  refine ⟨by nlinarith, by nlinarith, by nlinarith⟩

theorem golden_spec (den : ℝ → Res ℝ) (d : ℝ → ℝ) (eps lo hi : ℝ) (hd : ∀ x, lo ≤ x → x ≤ hi → den x = .ok (d x)) : ∀ (fuel : Nat) (a b : ℝ), lo ≤ a → a ≤ b → b ≤ hi →
    b - a < eps * goldenRatio ^ fuel →
    ∃ a' b', golden den eps (fuel + 1) a b = .ok (some (a', b')) ∧ a ≤ a' ∧ a' ≤ b' ∧ b' ≤ b ∧ b' - a' < eps ∧
      ∀ z, a ≤ z → z ≤ b → StrictMonoOn d (Set.Icc lo z) → StrictAntiOn d (Set.Icc z hi) → a' ≤ z ∧ z ≤ b' := by
  obtain ⟨g1, g2, g3⟩ := golden_facts
  intro fuel
  induction fuel with
  | zero =>
    intro a b h1 h2 h3 h4
    rw [pow_zero, mul_one] at h4
    refine ⟨a, b, ?_, le_rfl, h2, le_rfl, h4, fun z hz1 hz2 _ _ => ⟨hz1, hz2⟩⟩
    rw [golden, if_neg]
    rw [abs_sub_comm, abs_of_nonneg (by linarith)]; linarith
  | succ fuel ih =>
    intro a b h1 h2 h3 h4
    by_cases hlt : b - a < eps
    · refine ⟨a, b, ?_, le_rfl, h2, le_rfl, hlt, fun z hz1 hz2 _ _ => ⟨hz1, hz2⟩⟩
      rw [golden, if_neg]
      rw [abs_sub_comm, abs_of_nonneg (by linarith)]; linarith
    · have hg : 0 < goldenRatio := by linarith
      have q1 : 0 ≤ (b - a) / goldenRatio := by apply div_nonneg <;> linarith
      have q2 : (b - a) / goldenRatio ≤ b - a := div_le_self (by linarith) g1.le
      have q3 : (b - a) / goldenRatio < eps * goldenRatio ^ fuel := by
        rw [div_lt_iff₀ hg, mul_assoc, ← pow_succ]; exact h4
      have q4 : b - (b - a) / goldenRatio ≤ a + (b - a) / goldenRatio := by
        have : b - a ≤ 2 * ((b - a) / goldenRatio) := by
          rw [← mul_div_assoc, le_div_iff₀ hg]; nlinarith
        linarith
      have e1 : golden den eps (fuel + 1 + 1) a b = if d (a + (b - a) / goldenRatio) < d (b - (b - a) / goldenRatio) then golden den eps (fuel + 1) a (a + (b - a) / goldenRatio)
          else golden den eps (fuel + 1) (b - (b - a) / goldenRatio) b := by
        rw [golden, if_pos (by rw [abs_sub_comm, abs_of_nonneg (by linarith)]; linarith), hd _ (by linarith) (by linarith), hd _ (by linarith) (by linarith)]
        rfl
      rw [e1]
      split
      · rename_i hc
        obtain ⟨a', b', r1, r2, r3, r4, r5, r6⟩ := ih a (a + (b - a) / goldenRatio) h1 (by linarith) (by linarith) (by linarith)
        refine ⟨a', b', r1, r2, r3, by linarith, r5, fun z z1 z2 z3 z4 => r6 z z1 ?_ z3 z4⟩
        by_contra hz
        rw [not_le] at hz
        have := z3.monotoneOn (a := b - (b - a) / goldenRatio) (b := a + (b - a) / goldenRatio) ⟨by linarith, by linarith⟩ ⟨by linarith, hz.le⟩ q4
        linarith
      · rename_i hc
        obtain ⟨a', b', r1, r2, r3, r4, r5, r6⟩ := ih (b - (b - a) / goldenRatio) b (by linarith) (by linarith) h3 (by linarith)
        refine ⟨a', b', r1, by linarith, r3, r4, r5, fun z z1 z2 z3 z4 => r6 z ?_ z2 z3 z4⟩
        by_contra hz
        rw [not_le] at hz
        rcases q4.eq_or_lt with q | q
        · have hba : b = a := by
            have : b - a = 2 * ((b - a) / goldenRatio) := by linarith
            have : (b - a) * goldenRatio = 2 * (b - a) := by
              field_simp at this; linarith
            nlinarith
          subst hba
          simp only [sub_self, zero_div, sub_zero] at hz
          linarith
        · have := z4 (a := b - (b - a) / goldenRatio) (b := a + (b - a) / goldenRatio) ⟨hz.le, by linarith⟩ ⟨by linarith, by linarith⟩ q
          exact hc this

theorem golden_fuel (L eps : ℝ) (he : 0 < eps) : ∃ k, ∀ k' ≥ k, L < eps * goldenRatio ^ k' := by
  obtain ⟨g1, _, _⟩ := golden_facts
  obtain ⟨k, hk⟩ := pow_unbounded_of_one_lt (L / eps) g1
  refine ⟨k, fun k' h => ?_⟩
  have := pow_le_pow_right₀ g1.le h
  rw [div_lt_iff₀ he] at hk
  nlinarith

/-! ## Bisection -/

theorem vdwBisect_spec (den : ℝ → Res ℝ) (d : ℝ → ℝ) (eps lo hi : ℝ) (he : 0 < eps) (hd : ∀ x, lo ≤ x → x ≤ hi → den x = .ok (d x)) (hc : ContinuousOn d (Set.Icc lo hi)) :
    ∀ (k left : Nat) (a b : ℝ), lo ≤ a → a ≤ b → b ≤ hi → eps ≤ d a → d b ≤ eps → b - a < eps * 2 ^ k → k + 1 ≤ left →
    ∃ a' b' z, vdwBisect den eps left a b = .ok (a', b') ∧ lo ≤ (a' + b') / 2 ∧ (a' + b') / 2 ≤ hi ∧ lo ≤ z ∧ z ≤ hi ∧ d z = eps ∧ |(a' + b') / 2 - z| ≤ eps / 2 := by
  have stop : ∀ a b : ℝ, lo ≤ a → a ≤ b → b ≤ hi → eps ≤ d a → d b ≤ eps → b - a < eps →
      ∃ z, lo ≤ (a + b) / 2 ∧ (a + b) / 2 ≤ hi ∧ lo ≤ z ∧ z ≤ hi ∧ d z = eps ∧ |(a + b) / 2 - z| ≤ eps / 2 := by
    intro a b h1 h2 h3 h4 h5 h6
    obtain ⟨z, hz, e⟩ := intermediate_value_Icc' h2 (hc.mono (Set.Icc_subset_Icc h1 h3)) ⟨h5, h4⟩
    refine ⟨z, by linarith, by linarith, by linarith [hz.1], by linarith [hz.2], e, ?_⟩
    rw [abs_le]; constructor <;> linarith [hz.1, hz.2]
  intro k
  induction k with
  | zero =>
    intro left a b h1 h2 h3 h4 h5 h6 h7
    obtain ⟨l, rfl⟩ : ∃ l, left = l + 1 := ⟨left - 1, by omega⟩
    rw [pow_zero, mul_one] at h6
    obtain ⟨z, hz⟩ := stop a b h1 h2 h3 h4 h5 h6
    refine ⟨a, b, z, ?_, hz⟩
    rw [vdwBisect, if_neg]
    rw [abs_sub_comm, abs_of_nonneg (by linarith)]; linarith
  | succ k ih =>
    intro left a b h1 h2 h3 h4 h5 h6 h7
    obtain ⟨l, rfl⟩ : ∃ l, left = l + 1 := ⟨left - 1, by omega⟩
    by_cases hlt : b - a < eps
    · obtain ⟨z, hz⟩ := stop a b h1 h2 h3 h4 h5 hlt
      refine ⟨a, b, z, ?_, hz⟩
      rw [vdwBisect, if_neg]
      rw [abs_sub_comm, abs_of_nonneg (by linarith)]; linarith
    · have h6' : (b - a) / 2 < eps * 2 ^ k := by rw [pow_succ] at h6; linarith
      have e1 : vdwBisect den eps (l + 1) a b = if d (a + (b - a) / 2) < eps then vdwBisect den eps l a (a + (b - a) / 2)
          else if eps < d (a + (b - a) / 2) then vdwBisect den eps l (a + (b - a) / 2) b else .ok (a, b) := by
        rw [vdwBisect, if_pos (by rw [abs_sub_comm, abs_of_nonneg (by linarith)]; linarith), hd _ (by linarith) (by linarith)]
        rfl
      rw [e1]
      split
      · rename_i hm
        exact ih l a (a + (b - a) / 2) h1 (by linarith) (by linarith) h4 hm.le (by linarith) (by omega)
      · split
        · rename_i hm
          exact ih l (a + (b - a) / 2) b (by linarith) (by linarith) h3 hm.le h5 (by linarith) (by omega)
        · have e : d (a + (b - a) / 2) = eps := by linarith
          have em : (a + b) / 2 = a + (b - a) / 2 := by ring
          refine ⟨a, b, (a + b) / 2, rfl, by linarith, by linarith, by linarith, by linarith, by rw [em]; exact e, ?_⟩
          rw [sub_self, abs_zero]
          linarith

theorem countBisect_spec (outside : ℝ → Res ℝ) (d : ℝ → ℝ) (s thr lo hi : ℝ) (hthr : 0 ≤ thr) (hd : ∀ x, lo ≤ x → x < hi → outside x = .ok (d x))
    (hc : ContinuousOn d (Set.Icc lo hi)) :
    ∀ (k : Nat) (a b m : ℝ), lo ≤ a → a < b → b ≤ hi → s ≤ d a → d b ≤ s → a ≤ m → m ≤ b → b - a < thr * 2 ^ k →
    ∃ m' z, countBisect outside s thr (k + 1) a b m = .ok (some m') ∧ lo ≤ m' ∧ m' ≤ hi ∧ lo ≤ z ∧ z ≤ hi ∧ d z = s ∧ |m' - z| ≤ thr := by
  have stop : ∀ a b m : ℝ, lo ≤ a → a < b → b ≤ hi → s ≤ d a → d b ≤ s → a ≤ m → m ≤ b → b - a < thr →
      ∃ z, lo ≤ m ∧ m ≤ hi ∧ lo ≤ z ∧ z ≤ hi ∧ d z = s ∧ |m - z| ≤ thr := by
    intro a b m h1 h2 h3 h4 h5 h6 h7 h8
    obtain ⟨z, hz, e⟩ := intermediate_value_Icc' h2.le (hc.mono (Set.Icc_subset_Icc h1 h3)) ⟨h5, h4⟩
    refine ⟨z, by linarith, by linarith, by linarith [hz.1], by linarith [hz.2], e, ?_⟩
    rw [abs_le]; constructor <;> linarith [hz.1, hz.2]
  intro k
  induction k with
  | zero =>
    intro a b m h1 h2 h3 h4 h5 h6 h7 h8
    rw [pow_zero, mul_one] at h8
    obtain ⟨z, hz⟩ := stop a b m h1 h2 h3 h4 h5 h6 h7 h8
    exact ⟨m, z, by rw [countBisect, if_neg (by linarith)], hz⟩
  | succ k ih =>
    intro a b m h1 h2 h3 h4 h5 h6 h7 h8
    by_cases hlt : b - a < thr
    · obtain ⟨z, hz⟩ := stop a b m h1 h2 h3 h4 h5 h6 h7 hlt
      exact ⟨m, z, by rw [countBisect, if_neg (by linarith)], hz⟩
    · have h8' : (b - a) / 2 < thr * 2 ^ k := by rw [pow_succ] at h8; linarith
      have e1 : countBisect outside s thr (k + 1 + 1) a b m = if d (a + (b - a) / 2) < s then countBisect outside s thr (k + 1) a (a + (b - a) / 2) (a + (b - a) / 2)
          else if s < d (a + (b - a) / 2) then countBisect outside s thr (k + 1) (a + (b - a) / 2) b (a + (b - a) / 2) else .ok (some (a + (b - a) / 2)) := by
        rw [countBisect, if_pos (by linarith), hd _ (by linarith) (by linarith)]
        rfl
      rw [e1]
      split
      · rename_i hm
        exact ih a (a + (b - a) / 2) _ h1 (by linarith) (by linarith) h4 hm.le (by linarith) (by linarith) (by linarith)
      · split
        · rename_i hm
          exact ih (a + (b - a) / 2) b _ (by linarith) (by linarith) h3 hm.le h5 (by linarith) (by linarith) (by linarith)
        · have e : d (a + (b - a) / 2) = s := by linarith
          exact ⟨_, a + (b - a) / 2, rfl, by linarith, by linarith, by linarith, by linarith, e, by rw [sub_self, abs_zero]; exact hthr⟩

theorem two_fuel (L eps : ℝ) (he : 0 < eps) : ∃ k, ∀ k' ≥ k, L < eps * 2 ^ k' := by
  obtain ⟨k, hk⟩ := pow_unbounded_of_one_lt (L / eps) (one_lt_two : (1 : ℝ) < 2)
  refine ⟨k, fun k' h => ?_⟩
  have := pow_le_pow_right₀ (one_le_two : (1 : ℝ) ≤ 2) h
  rw [div_lt_iff₀ he] at hk
  nlinarith

/-! ## The element of the electron count -/

theorem countElement_spec (c : Nat → ℝ) (n : Nat) : ∀ k ≤ n, ∀ s, 0 ≤ s →
    (countElement ((List.range n).map c) k s = none ∧ ∑ j ∈ range k, c j ≤ s ∧ (1 ≤ k → ∑ j ∈ range k, c j < s)) ∨
    ∃ e s', countElement ((List.range n).map c) k s = some (e, s') ∧ e < k ∧ s' = s - ∑ j ∈ Ico (e + 1) k, c j ∧ s' ≤ c e ∧ 0 ≤ s' := by
  intro k
  induction k with
  | zero => intro _ s hs; left; exact ⟨rfl, by simpa using hs, fun h => absurd h (by omega)⟩
  | succ k ih =>
    intro hk s hs
    have hg : ((List.range n).map c).getD k 0 = c k := by simp [List.getD_eq_getElem?_getD, show k < n by omega]
    rw [countElement, hg]
    by_cases hc : c k < s
    · rw [if_pos hc]
      rcases ih (by omega) (s - c k) (by linarith) with ⟨h1, h2, h3⟩ | ⟨e, s', h1, h2, h3, h4, h5⟩
      · left
        rw [sum_range_succ]
        refine ⟨h1, by linarith, fun _ => ?_⟩
        by_cases hk0 : 1 ≤ k
        · have := h3 hk0; linarith
        · obtain rfl : k = 0 := by omega
          simpa using hc
      · right
        refine ⟨e, s', h1, by omega, ?_, h4, h5⟩
        rw [h3, sum_Ico_succ_top (by omega)]
        ring
    · rw [if_neg hc]
      right
      exact ⟨k, s, rfl, by omega, by simp, by linarith, hs⟩

/-! ## Bisection above the tolerance -/

theorem vdwBisect_above (den : ℝ → Res ℝ) (d : ℝ → ℝ) (eps lo hi : ℝ) (hd : ∀ x, lo ≤ x → x ≤ hi → den x = .ok (d x))
    (b : ℝ) (hb : b ≤ hi) (habove : ∀ x, lo ≤ x → x ≤ b → eps < d x) :
    ∀ (k left : Nat) (a : ℝ), lo ≤ a → a ≤ b → b - a < eps * 2 ^ k → k + 1 ≤ left →
    ∃ a', vdwBisect den eps left a b = .ok (a', b) ∧ lo ≤ a' ∧ a' ≤ b ∧ b - a' < eps := by
  intro k
  induction k with
  | zero =>
    intro left a h1 h2 h6 h7
    obtain ⟨l, rfl⟩ : ∃ l, left = l + 1 := ⟨left - 1, by omega⟩
    rw [pow_zero, mul_one] at h6
    refine ⟨a, ?_, h1, h2, h6⟩
    rw [vdwBisect, if_neg]
    rw [abs_sub_comm, abs_of_nonneg (by linarith)]; linarith
  | succ k ih =>
    intro left a h1 h2 h6 h7
    obtain ⟨l, rfl⟩ : ∃ l, left = l + 1 := ⟨left - 1, by omega⟩
    by_cases hlt : b - a < eps
    · refine ⟨a, ?_, h1, h2, hlt⟩
      rw [vdwBisect, if_neg]
      rw [abs_sub_comm, abs_of_nonneg (by linarith)]; linarith
    · have h6' : (b - a) / 2 < eps * 2 ^ k := by rw [pow_succ] at h6; linarith
      have hm := habove (a + (b - a) / 2) (by linarith) (by linarith)
      have e1 : vdwBisect den eps (l + 1) a b = vdwBisect den eps l (a + (b - a) / 2) b := by
        rw [vdwBisect, if_pos (by rw [abs_sub_comm, abs_of_nonneg (by linarith)]; linarith), hd _ (by linarith) (by linarith), Res.ok_bind,
          if_neg (by linarith), if_pos hm]
      rw [e1]
      exact ih l (a + (b - a) / 2) (by linarith) (by linarith) (by linarith) (by omega)

/-! ## Densities -/

/-- a finite element basis that starts at the nucleus, a density matrix of its size and quadrature points -/
structure Setting (f : Family) (n ne : Nat) (zdl zfr zdr : Bool) (x0 : Nat → ℝ) (bval : List ℝ) (o : FEObj ℝ) (N : Nat) (first last : Nat → Nat)
    (φ : Nat → Nat → ℝ[X]) (rule : List (ℝ × ℝ)) (P : Mat ℝ) : Prop where
  basis : Basis f n ne true zdl zfr zdr x0 bval o N first last
  pieces : IsPieces o x0 ne first φ
  origin : bval.getD 0 0 = 0
  inner : first 0 ≤ last 0
  points : GoodPoints (rule.map Prod.fst)
  rows : P.rows = N
  cols : P.cols = N

variable {f : Family} {n ne : Nat} {zdl zfr zdr : Bool} {x0 : Nat → ℝ} {bval : List ℝ} {o : FEObj ℝ} {N : Nat} {first last : Nat → Nat}
  {φ : Nat → Nat → ℝ[X]} {rule : List (ℝ × ℝ)} {P : Mat ℝ}

theorem Setting.nel (S : Setting f n ne zdl zfr zdr x0 bval o N first last φ rule P) : Radii.nel ⟨o, x0, rule⟩ = ne := by
  unfold Radii.nel
  rw [S.basis.shape.2, S.basis.len]; rfl

theorem Setting.block (S : Setting f n ne zdl zfr zdr x0 bval o N first last φ rule P) (e : Nat) (he : e < ne) :
    ∃ B, elementBlock o P e = .ok B ∧ IsBlock P.get (first e) (last e + 1 - first e) B := by
  obtain ⟨l1, l2, l3, l4, l5⟩ := layout f n ne true zdl zfr zdr S.basis.nodes.two S.basis.nelem bval S.basis.len o S.basis.built N S.basis.nbf S.basis.pos first last S.basis.idx
  have a := l4 e he
  have b := (S.basis.count e he 0).2
  have hr := S.rows
  have hc := S.cols
  refine ⟨⟨last e + 1 - first e, last e + 1 - first e, fun i j => P.get (first e + i) (first e + j)⟩, ?_, rfl, rfl, fun i _ j _ => rfl⟩
  unfold elementBlock
  rw [S.basis.idx e he]
  simp only [Res.ok_bind]
  unfold Mat.block
  rw [if_pos ⟨by omega, by omega⟩]

theorem coord_cont (bval : List ℝ) (e : Nat) : Continuous (coord bval e) := by unfold coord; fun_prop

/-- basis functions over `r`, as continuous functions on the element -/
theorem Setting.bf (S : Setting f n ne zdl zfr zdr x0 bval o N first last φ rule P) (e : Nat) (he : e < ne) :
    ∃ w : Nat → ℝ → ℝ, (∀ i, ContinuousOn (w i) (Set.Icc (-1) 1)) ∧ (∀ x, ∃ v, getBf ⟨o, x0, rule⟩ x e = .ok v ∧ v.length = last e + 1 - first e ∧
      ∀ i < last e + 1 - first e, v.getD i 0 = w i x) ∧ ∀ x, -1 ≤ x → ∀ i < last e + 1 - first e, coord bval e x * w i x = (φ e (first e + i)).eval (coord bval e x) := by
  have hl := S.basis.len
  by_cases hz : e = 0
  · subst hz
    obtain ⟨R, r1, r2⟩ := rowOver S.basis φ S.pieces S.origin S.inner
    refine ⟨fun i x => (R i).eval (coord bval 0 x), ?_, ?_, ?_⟩
    · intro i
      have := coord_cont bval 0
      fun_prop
    · intro x
      obtain ⟨v, v1, v2, v3⟩ := r2 x 0 (by omega)
      exact ⟨v, by unfold getBf; rw [if_pos rfl]; exact v1, v2, fun i hi => by rw [v3 i hi]; rfl⟩
    · intro x _ i hi
      simp only [r1 i hi, eval_mul, eval_X]
  · refine ⟨fun i x => (φ e (first e + i)).eval (coord bval e x) / coord bval e x, ?_, ?_, ?_⟩
    · intro i
      have := coord_cont bval e
      apply ContinuousOn.div (by fun_prop) this.continuousOn
      intro x hx
      obtain ⟨p1, p2, p3⟩ := coord_pos S.basis S.origin e he x hx.1
      have := p3 hz
      linarith
    · intro x
      obtain ⟨v, v1, v2, v3⟩ := row S.basis φ S.pieces e he 0 (Nat.zero_le _) x
      have v1' : feEvalDnf o.shape o.bval x0 x 0 e = .ok v := v1
      refine ⟨v.map (· / coord bval e x), ?_, by simpa using v2, ?_⟩
      · unfold getBf
        rw [if_neg hz]
        simp only
        rw [v1', S.basis.shape.2, evalCoord_one bval e (by omega)]
        rfl
      · intro i hi
        have e1 : (v.map (· / coord bval e x)).getD i 0 = v.getD i 0 / coord bval e x := by
          simp [List.getD_eq_getElem?_getD, show i < v.length by omega]
        rw [e1, v3 i]
        rfl
    · intro x hx i hi
      obtain ⟨p1, p2, p3⟩ := coord_pos S.basis S.origin e he x hx
      have := p3 hz
      rw [mul_div_cancel₀]
      linarith

theorem Setting.density (S : Setting f n ne zdl zfr zdr x0 bval o N first last φ rule P) (e : Nat) (he : e < ne) :
    ∃ g : ℝ → ℝ, ContinuousOn g (Set.Icc (-1) 1) ∧ ∀ x, electronDensity ⟨o, x0, rule⟩ P false e x = .ok (g x) ∧
      electronDensity ⟨o, x0, rule⟩ P true e x = .ok (g x * coord bval e x ^ 2) ∧
      (-1 ≤ x → coord bval e x ^ 2 * g x = (rho N P.get φ e).eval (coord bval e x)) := by
  have hl := S.basis.len
  obtain ⟨w, w1, w2, w3⟩ := S.bf e he
  obtain ⟨B, b1, b2⟩ := S.block e he
  refine ⟨fun x => ∑ i ∈ range (last e + 1 - first e), ∑ j ∈ range (last e + 1 - first e), w i x * B.get i j * w j x, ?_, ?_⟩
  · refine continuousOn_finsetSum _ fun i _ => continuousOn_finsetSum _ fun j _ => ?_
    exact ((w1 i).mul continuousOn_const).mul (w1 j)
  · intro x
    obtain ⟨v, v1, v2, v3⟩ := w2 x
    have hc : contract v B v = .ok (∑ i ∈ range (last e + 1 - first e), ∑ j ∈ range (last e + 1 - first e), w i x * B.get i j * w j x) := by
      rw [contract_eq v v _ B ⟨b2.1, b2.2.1⟩ v2 v2]
      congr 1
      refine sum_congr rfl fun i hi => sum_congr rfl fun j hj => ?_
      rw [mem_range] at hi hj
      rw [v3 i hi, v3 j hj]
    refine ⟨?_, ?_, ?_⟩
    · unfold electronDensity
      simp only [b1, v1, hc, Res.ok_bind, Bool.false_eq_true, if_false, Res.pure_eq]
    · unfold electronDensity
      simp only [b1, v1, hc, Res.ok_bind, if_true, S.basis.shape.2, evalCoord_one bval e (by omega), readAt, List.getElem?_cons_zero, Res.pure_eq]
    · intro hx
      rw [rho_window S.basis φ S.pieces P.get e he, eval_finsetSum, mul_sum]
      refine sum_congr rfl fun i hi => ?_
      rw [eval_finsetSum, mul_sum]
      refine sum_congr rfl fun j hj => ?_
      rw [mem_range] at hi hj
      rw [eval_mul, eval_mul, eval_C, ← w3 x hx i hi, ← w3 x hx j hj, b2.2.2 i hi j hj]
      ring

theorem Setting.getR (S : Setting f n ne zdl zfr zdr x0 bval o N first last φ rule P) (e : Nat) (he : e < ne) (x : ℝ) :
    Radii.getR ⟨o, x0, rule⟩ e x = .ok (coord bval e x) := by
  have hl := S.basis.len
  unfold Radii.getR
  simp only [S.basis.shape.2, evalCoord_one bval e (show e + 1 < bval.length by omega), Res.ok_bind, readAt, List.getElem?_cons_zero]

/-! ## Matrix elements over a part of an element -/

theorem panels_trivial (bval : List ℝ) (e : Nat) (he : e + 1 < bval.length) (xl xr : ℝ) (h : xl < xr) :
    ∃ xb, panelEdges bval e [] xl xr = .ok xb ∧ panels xb xl xr = [(xl, xr)] := by
  obtain ⟨xb, d, q1, q2, q3, ⟨b, d'', q4⟩, q5, q6⟩ := panels_edges bval e he [] xl xr h
  refine ⟨xb, q1, ?_⟩
  rw [q2, q4]
  subst q4
  have hd : ∀ x ∈ b :: d'', x = xr := by
    intro x hx
    rcases (q6 x).1 (by simp only [List.mem_cons]; exact Or.inr (by simpa using hx)) with h1 | h1 | ⟨_, _, bp, hbp, _⟩
    · have := (List.pairwise_cons.1 q3).1 x hx
      rw [h1] at this
      exact absurd this (lt_irrefl _)
    · exact h1
    · simp at hbp
  have hb := hd b (by simp)
  have : d'' = [] := by
    cases d'' with
    | nil => rfl
    | cons y d3 =>
      have hy := hd y (by simp)
      have := (List.pairwise_cons.1 (List.pairwise_cons.1 q3).2).1 y (by simp)
      rw [hb, hy] at this
      exact absurd this (lt_irrefl _)
  subst this
  rw [hb]
  rfl

/-- Lobatto rules: order `m` is exact to degree `2m - 3` and has its nodes in [-1, 1] -/
def GoodLobatto (lob : Nat → List (ℝ × ℝ)) : Prop := ∀ m, 2 ≤ m → ExactTo (lob m) (2 * m - 3) ∧ ∀ q ∈ lob m, -1 ≤ q.1 ∧ q.1 ≤ 1

theorem auto_range (h : Basis f n ne true zdl zfr zdr x0 bval o N first last) (e : Nat) (he : e < ne) (L : Evaluator ℝ) (lrow : ℝ → List ℝ)
    (hL : ∀ x, L.row x e = .ok (lrow x)) (c : Nat) (hc : L.ncols e = c) (W : Option (ℝ → Option ℝ)) (Q : Nat → Nat → ℝ[X])
    (hQd : ∀ i < c, ∀ j < c, (Q i j).natDegree ≤ 2 * ((PolyBasis.mk' f n).noverlap * n - 1))
    (hQ : ∀ x, -1 ≤ x → ∀ w, ∀ i < c, ∀ j < c, weightAt W (coord bval e x) w * (lrow x).getD i 0 * (lrow x).getD j 0 = w * (Q i j).eval (coord bval e x))
    (lob : Nat → List (ℝ × ℝ)) (hlob : GoodLobatto lob) (hdeg : 2 * ((PolyBasis.mk' f n).noverlap * n - 1) ≤ 1021)
    (meps sqrteps : ℝ) (heps : 0 < meps) (pd : Int) (hpd : pd ≤ 0) (xl xr : ℝ) (h1 : -1 ≤ xl) (hx : xl < xr) (h2 : xr ≤ 1) :
    ∃ M, matElAuto meps sqrteps lob o.shape.poly o.bval e (some L) (some L) W [] pd xl xr = .ok M ∧ M.rows = c ∧ M.cols = c ∧
      ∀ i < c, ∀ j < c, M.get i j = ∫ r in (coord bval e xl)..(coord bval e xr), (Q i j).eval r := by
  have hl := h.len
  have hb : e + 1 < bval.length := by omega
  obtain ⟨xb, q1, q2⟩ := panels_trivial bval e hb xl xr hx
  have hpoly : o.shape.poly = PolyBasis.mk' f n := by rw [h.shape.1]
  have hnn : (PolyBasis.mk' f n).nnodes = n := by cases f <;> rfl
  have hst : 2 ≤ autoStart (PolyBasis.mk' f n).noverlap (PolyBasis.mk' f n).nnodes pd ∧
      autoStart (PolyBasis.mk' f n).noverlap (PolyBasis.mk' f n).nnodes pd ≤ 512 ∧
      2 * ((PolyBasis.mk' f n).noverlap * n - 1) ≤ 2 * autoStart (PolyBasis.mk' f n).noverlap (PolyBasis.mk' f n).nnodes pd - 3 := by
    rw [hnn]
    generalize hdd : (PolyBasis.mk' f n).noverlap * n - 1 = bd at *
    unfold autoStart
    rw [hdd]
    simp only
    split_ifs <;> omega
  obtain ⟨hs1, hs2, hs3⟩ := hst
  obtain ⟨B, l, r1, r2, r3, r4⟩ := converge_exact (fun B : Mat ℝ => B.rows = c ∧ B.cols = c ∧
      ∀ i < c, ∀ j < c, B.get i j = ∫ r in (coord bval e xl)..(coord bval e xr), (Q i j).eval r) meps sqrteps heps maxDiff maxAbs
    (by
      rintro A B ⟨a1, a2, a3⟩ ⟨b1, b2, b3⟩
      apply maxDiff_same
      intro i hi j hj
      rw [a3 i (by omega) j (by omega), b3 i (by omega) j (by omega)])
    maxAbs_nonneg
    (fun m => matElRange o.bval e (some L) (some L) (lob m) W xl xr)
    (autoStart (PolyBasis.mk' f n).noverlap (PolyBasis.mk' f n).nnodes pd) 512 hs1 hs2
    (by
      intro m hm
      obtain ⟨B, b1, b2, b3, b4⟩ := matElRange_eq bval e hb L L (lob m) W xl xr lrow lrow hL hL
      rw [h.shape.2]
      refine ⟨B, b1, by omega, by omega, fun i hi j hj => ?_⟩
      rw [b4 i j]
      have := rule_range (lob m) (2 * m - 3) (hlob m (by omega)).1 (Q i j) ((hQd i hi j hj).trans (by omega)) (1 / 2 * (bval.getD e 0 + bval.getD (e + 1) 0))
        ((bval.getD (e + 1) 0 - bval.getD e 0) / 2) xl xr
      have g1 : bval[e]'(by omega) = bval.getD e 0 := by simp [show e < bval.length by omega]
      have g2 : bval[e + 1]'hb = bval.getD (e + 1) 0 := by simp [hb]
      unfold coord
      rw [← this]
      congr 1
      apply List.map_congr_left
      intro q hq
      have hn := (hlob m (by omega)).2 q hq
      have hxx : -1 ≤ (xr - xl) / 2 * q.1 + (xr + xl) / 2 := by nlinarith
      have := hQ _ hxx (q.2 * ((bval.getD (e + 1) 0 - bval.getD e 0) / 2) * ((xr - xl) / 2)) i hi j hj
      rw [g1, g2]
      unfold coord at this
      rw [this])
  refine ⟨B, ?_, r2, r3, r4⟩
  unfold matElAuto
  rw [h.shape.2] at r1 ⊢
  rw [q1]
  simp only [Res.ok_bind]
  rw [q2, sumPanels]
  unfold convergePanel
  simp only
  rw [hpoly, r1]
  rfl

theorem trace_eq (c : Nat) (A B : Mat ℝ) (hA : A.rows = c ∧ A.cols = c) (hB : B.rows = c ∧ B.cols = c) :
    traceProduct A B = .ok (∑ i ∈ range c, ∑ j ∈ range c, A.get i j * B.get j i) := by
  unfold traceProduct
  rw [hA.1, hA.2, hB.1, hB.2, if_pos ⟨rfl, rfl⟩]

theorem rho_integral (S : Setting f n ne zdl zfr zdr x0 bval o N first last φ rule P) (e : Nat) (he : e < ne) (B M : Mat ℝ)
    (hB : IsBlock P.get (first e) (last e + 1 - first e) B) (a b : ℝ)
    (hM : ∀ i < last e + 1 - first e, ∀ j < last e + 1 - first e, M.get i j = ∫ r in a..b, (φ e (first e + i) * φ e (first e + j)).eval r) :
    ∑ i ∈ range (last e + 1 - first e), ∑ j ∈ range (last e + 1 - first e), B.get i j * M.get j i = ∫ r in a..b, (rho N P.get φ e).eval r := by
  rw [rho_window S.basis φ S.pieces P.get e he]
  simp only [eval_finsetSum]
  rw [intervalIntegral.integral_finsetSum (fun i _ => by apply Continuous.intervalIntegrable; fun_prop)]
  refine sum_congr rfl fun i hi => ?_
  rw [intervalIntegral.integral_finsetSum (fun i _ => by apply Continuous.intervalIntegrable; fun_prop)]
  refine sum_congr rfl fun j hj => ?_
  rw [mem_range] at hi hj
  rw [hB.2.2 i hi j hj, hM j hj i hi, ← intervalIntegral.integral_const_mul]
  congr 1
  funext r
  simp only [eval_mul, eval_C]
  ring

theorem Setting.prod_deg (S : Setting f n ne zdl zfr zdr x0 bval o N first last φ rule P) (e : Nat) (he : e < ne) (a b : Nat) :
    (φ e a * φ e b).natDegree ≤ 2 * ((PolyBasis.mk' f n).noverlap * n - 1) := by
  refine natDegree_mul_le.trans ?_
  have := piece_deg S.basis φ S.pieces e he a
  have := piece_deg S.basis φ S.pieces e he b
  omega

theorem Setting.count (S : Setting f n ne zdl zfr zdr x0 bval o N first last φ rule P) (lob : Nat → List (ℝ × ℝ)) (hlob : GoodLobatto lob)
    (hdeg : 2 * ((PolyBasis.mk' f n).noverlap * n - 1) ≤ 1021) (meps sqrteps : ℝ) (heps : 0 < meps) (e : Nat) (he : e < ne) :
    elementCount meps sqrteps lob ⟨o, x0, rule⟩ P e = .ok (∫ r in (bval.getD e 0)..(bval.getD (e + 1) 0), (rho N P.get φ e).eval r) := by
  obtain ⟨B, b1, b2⟩ := S.block e he
  choose v v1 v2 v3 using fun x => row S.basis φ S.pieces e he 0 (Nat.zero_le _) x
  obtain ⟨M, m1, m2, m3, m4⟩ := auto_range S.basis e he (dnfEvaluator o.shape o.bval x0 0) v v1 _ (S.basis.count e he 0).1 none
    (fun i j => φ e (first e + i) * φ e (first e + j)) (fun i _ j _ => S.prod_deg e he _ _)
    (by
      intro x _ w i _ j _
      rw [v3, v3]
      simp only [weightAt, Function.iterate_zero, id, eval_mul]
      ring)
    lob hlob hdeg meps sqrteps heps 0 le_rfl (-1) 1 le_rfl (by norm_num) le_rfl
  unfold elementCount overlapElement
  simp only [b1, m1, Res.ok_bind]
  rw [trace_eq _ B M ⟨b2.1, b2.2.1⟩ ⟨m2, m3⟩, rho_integral S e he B M b2 _ _ m4, coord_left, coord_right]

theorem Setting.outside (S : Setting f n ne zdl zfr zdr x0 bval o N first last φ rule P) (lob : Nat → List (ℝ × ℝ)) (hlob : GoodLobatto lob)
    (hdeg : 2 * ((PolyBasis.mk' f n).noverlap * n - 1) ≤ 1021) (meps sqrteps : ℝ) (heps : 0 < meps) (e : Nat) (he : e < ne) (B : Mat ℝ)
    (hB : IsBlock P.get (first e) (last e + 1 - first e) B) (x : ℝ) (h1 : -1 ≤ x) (h2 : x < 1) :
    (do let M ← radialIntegral meps sqrteps lob ⟨o, x0, rule⟩ 0 e x 1
        traceProduct B M) = .ok (∫ r in (coord bval e x)..(bval.getD (e + 1) 0), (rho N P.get φ e).eval r) := by
  obtain ⟨w, w1, w2, w3⟩ := S.bf e he
  choose v v1 v2 v3 using w2
  obtain ⟨M, m1, m2, m3, m4⟩ := auto_range S.basis e he (bfEvaluator ⟨o, x0, rule⟩) v v1 _ (S.basis.count e he 0).1 (some (powWeight 0))
    (fun i j => φ e (first e + i) * φ e (first e + j)) (fun i _ j _ => S.prod_deg e he _ _)
    (by
      intro x hx w' i hi j hj
      rw [v3 x i hi, v3 x j hj, eval_mul, ← w3 x hx i hi, ← w3 x hx j hj]
      simp only [weightAt, powWeight, zero_add, show ¬ ((2 : Int) < 0) by decide, and_false, if_false]
      norm_cast
      ring)
    lob hlob hdeg meps sqrteps heps (-1) (by decide) x 1 h1 h2 le_rfl
  unfold radialIntegral
  simp only [m1, Res.ok_bind]
  rw [trace_eq _ B M ⟨hB.1, hB.2.1⟩ ⟨m2, m3⟩, rho_integral S e he B M hB _ _ m4, coord_right]

end Radii
end HelFEM
