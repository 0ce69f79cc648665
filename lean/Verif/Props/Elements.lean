import Verif.Model.Elements
import Verif.Props.FEIndex
import Mathlib.Data.Finset.Sort
import Mathlib.Algebra.BigOperators.Ring.List
import Mathlib.Tactic.FieldSimp
import Mathlib.Tactic.NormNum

/-!
# C03, C04, C05: point location, coordinate maps, boundary insertion
-/

namespace HelFEM
namespace Grid

theorem begin_eq {K : Type _} (b : List K) (i : Nat) (h : i + 1 < b.length) : elementBegin b i = .ok b[i] := by
  have : ¬ (i ≥ nelem b) := by unfold nelem; split <;> omega
  have h' : i < b.length := by omega
  simp [elementBegin, this, readAt, h']

theorem end_eq {K : Type _} (b : List K) (i : Nat) (h : i + 1 < b.length) : elementEnd b i = .ok b[i + 1] := by
  have : ¬ (i ≥ nelem b) := by unfold nelem; split <;> omega
  simp [elementEnd, this, readAt, h]


section find
variable {K : Type _} [LinearOrder K]


theorem ofLinear_le (a b : K) : (Cmp.ofLinear K).le a b = decide (a ≤ b) := rfl
theorem ofLinear_lt (a b : K) : (Cmp.ofLinear K).lt a b = decide (a < b) := rfl

theorem findLoop_spec (b : List K) (x : K) : ∀ (fuel l r : Nat) (hr : r + 1 < b.length)
    (_ : l < r) (_ : r - l ≤ fuel + 1) (_ : b[l + 1]'(by omega) < x) (_ : x < b[r]'(by omega)),
    ∃ i, ∃ (hi : i + 1 < b.length), findLoop (Cmp.ofLinear K) b x fuel l r = .ok (some i) ∧
      b[i]'(by omega) ≤ x ∧ x ≤ b[i + 1]'hi := by
  intro fuel
  induction fuel with
  | zero =>
    intro l r hr hlr hf h1 h2
    have : r = l + 1 := by omega
    subst this
    exact absurd (lt_trans h1 h2) (lt_irrefl _)
  | succ fuel ih =>
    intro l r hr hlr hf h1 h2
    have hne : r ≠ l + 1 := by
      intro h; subst h; exact absurd (lt_trans h1 h2) (lt_irrefl _)
    have hm1 : l < (r + l) / 2 := by omega
    have hm2 : (r + l) / 2 < r := by omega
    rw [findLoop]
    simp only [begin_eq b ((r + l) / 2) (by omega), end_eq b ((r + l) / 2) (by omega), Res.ok_bind]
    by_cases hc : b[(r + l) / 2] ≤ x ∧ x ≤ b[(r + l) / 2 + 1]
    · refine ⟨(r + l) / 2, by omega, ?_, hc.1, hc.2⟩
      simp [ofLinear_le, hc.1, hc.2]
    · rw [if_neg (by simpa [ofLinear_le] using hc)]
      by_cases hlt : x < b[(r + l) / 2]
      · rw [if_pos (by simpa [ofLinear_lt] using hlt)]
        exact ih l ((r + l) / 2) (by omega) hm1 (by omega) h1 hlt
      · rw [if_neg (by simpa [ofLinear_lt] using hlt)]
        refine ih ((r + l) / 2) r hr hm2 (by omega) ?_ h2
        by_contra hh
        exact hc ⟨not_lt.mp hlt, not_lt.mp hh⟩

/-- **C03.** On every strictly increasing grid of at least one element and for every ordered coordinate `x`,
`find_element` returns after at most `nelem` iterations of its loop; the returned element
exists and contains `x`, unless `x` lies below the grid (element 0 is returned) or above it (the last element
is returned). -/
theorem C03_find_element_returns_partial (b : List K) (hb : 2 ≤ b.length) (hs : b.Pairwise (· < ·)) (x : K) :
    ∃ i, ∃ (hi : i + 1 < b.length),
      findElement (Cmp.ofLinear K) b (b.length - 1) x = .ok (some i) ∧
      ((b[i]'(by omega) ≤ x ∧ x ≤ b[i + 1]'hi) ∨ (i = 0 ∧ x < b[0]) ∨
        (i + 2 = b.length ∧ b[b.length - 1]'(by omega) < x)) := by
  have hne : nelem b = b.length - 1 := by unfold nelem; split <;> omega
  have hs' := List.pairwise_iff_getElem.mp hs
  unfold findElement
  simp only [end_eq b 0 (by omega), Res.ok_bind, hne, show b.length - 1 ≠ 0 by omega, if_false,
    begin_eq b (b.length - 1 - 1) (by omega)]
  by_cases h0 : x ≤ b[0 + 1]
  · refine ⟨0, by omega, by simp [ofLinear_le, h0], ?_⟩
    rcases le_or_gt b[0] x with h | h
    · exact Or.inl ⟨h, h0⟩
    · exact Or.inr (Or.inl ⟨rfl, h⟩)
  · rw [if_neg (by simpa [ofLinear_le] using h0)]
    by_cases h1 : b[b.length - 1 - 1] ≤ x
    · rw [if_pos (by simpa [ofLinear_le] using h1)]
      refine ⟨b.length - 1 - 1, by omega, rfl, ?_⟩
      rcases le_or_gt x b[b.length - 1] with h | h
      · refine Or.inl ⟨h1, ?_⟩
        have e : b.length - 1 - 1 + 1 = b.length - 1 := by omega
        simpa only [e] using h
      · exact Or.inr (Or.inr ⟨by omega, h⟩)
    · rw [if_neg (by simpa [ofLinear_le] using h1)]
      have hlt : 0 < b.length - 1 - 1 := by
        rcases Nat.eq_zero_or_pos (b.length - 1 - 1) with h | h
        · exfalso
          have h3 := hs' 0 1 (by omega) (by omega) (by omega)
          simp only [h] at h1
          exact absurd (lt_trans (lt_trans h3 (not_le.mp h0)) (not_le.mp h1)) (lt_irrefl _)
        · exact h
      obtain ⟨i, hi, h2, h3, h4⟩ := findLoop_spec b x (b.length - 1) 0 (b.length - 1 - 1) (by omega) hlt
        (by omega) (not_le.mp h0) (not_le.mp h1)
      exact ⟨i, hi, h2, Or.inl ⟨h3, h4⟩⟩

example : ([0, 1, 3, 7, 9] : List Int).Pairwise (· < ·) ∧
    findElement (Cmp.ofLinear Int) [0, 1, 3, 7, 9] 4 4 = .ok (some 2) := by decide

/-- More loop iterations never change a result that has been reached: the fuel bound of
`C03_find_element_returns_partial` is only a counter. -/
theorem C03_find_element_fuel_irrelevant {α : Type _} (c : Cmp α) (b : List α) (x : α) (fuel i : Nat)
    (h : findElement c b fuel x = .ok (some i)) (k : Nat) : findElement c b (fuel + k) x = .ok (some i) := by
  have loop : ∀ (fuel l r : Nat), findLoop c b x fuel l r = .ok (some i) →
      findLoop c b x (fuel + k) l r = .ok (some i) := by
    intro fuel
    induction fuel with
    | zero => intro l r h; simp [findLoop] at h
    | succ fuel ih =>
      intro l r h
      have e : fuel + 1 + k = fuel + k + 1 := by omega
      rw [e]
      rw [findLoop] at h ⊢
      cases hb : elementBegin b ((r + l) / 2) with
      | ok bg =>
        cases he : elementEnd b ((r + l) / 2) with
        | ok en =>
          simp only [hb, he, Res.ok_bind] at h ⊢
          split
          · next hc => simpa [hc] using h
          · next hc =>
            rw [if_neg hc] at h
            split
            · next hd => rw [if_pos hd] at h; exact ih _ _ h
            · next hd => rw [if_neg hd] at h; exact ih _ _ h
        | throw e => simp [hb, he] at h
        | ub => simp [hb, he] at h
      | throw e => simp [hb] at h
      | ub => simp [hb] at h
  unfold findElement at h ⊢
  cases he : elementEnd b 0 with
  | ok e0 =>
    simp only [he, Res.ok_bind] at h ⊢
    split
    · next hc => simpa [hc] using h
    · next hc =>
      rw [if_neg hc] at h
      cases hb : elementBegin b (if nelem b = 0 then 2 ^ 64 - 1 else nelem b - 1) with
      | ok bl =>
        simp only [hb, Res.ok_bind] at h ⊢
        split
        · next hd => simpa [hd] using h
        · next hd => rw [if_neg hd] at h; exact loop _ _ _ h
      | throw e => rw [hb] at h; simp at h
      | ub => rw [hb] at h; simp at h
  | throw e => simp [he] at h
  | ub => simp [he] at h

/-- **C03 (negative part).** For a NaN coordinate the loop never returns, whatever the grid and however
many iterations are allowed. -/
theorem C03_nan_never_returns (b : List (Option K)) (hb : 2 ≤ b.length) (fuel : Nat) :
    findElement (Cmp.withNaN K) b fuel none = .ok none := by
  have loop : ∀ fuel l r, l ≤ r → r + 1 < b.length → findLoop (Cmp.withNaN K) b none fuel l r = .ok none := by
    intro fuel
    induction fuel with
    | zero => intro l r _ _; rfl
    | succ fuel ih =>
      intro l r hlr hr
      rw [findLoop]
      simp only [begin_eq b ((r + l) / 2) (by omega), end_eq b ((r + l) / 2) (by omega), Res.ok_bind]
      have h1 : ∀ a, (Cmp.withNaN K).le a none = false := by intro a; cases a <;> rfl
      have h2 : ∀ a, (Cmp.withNaN K).lt none a = false := fun a => rfl
      rw [h1, h2]
      simp only [Bool.false_and, Bool.false_eq_true, if_false]
      exact ih _ _ (by omega) hr
  have hne : nelem b = b.length - 1 := by unfold nelem; split <;> omega
  unfold findElement
  simp only [end_eq b 0 (by omega), Res.ok_bind, hne, show b.length - 1 ≠ 0 by omega, if_false,
    begin_eq b (b.length - 1 - 1) (by omega)]
  have h1 : ∀ a, (Cmp.withNaN K).le a none = false := by intro a; cases a <;> rfl
  have h2 : ∀ a, (Cmp.withNaN K).le none a = false := fun a => rfl
  rw [h1, h2]
  simp only [Bool.false_eq_true, if_false]
  exact loop _ _ _ (by omega) (by omega)

example : findElement (Cmp.withNaN Int) [some 0, some 1, some 3] 1000 (none : Option Int) = .ok none := 
  C03_nan_never_returns _ (by simp) _

end find

section coord
variable {K : Type _} [Field K] [LinearOrder K] [IsStrictOrderedRing K]

theorem len_eq (b : List K) (i : Nat) (h : i + 1 < b.length) :
    elementLength b i = .ok (b[i + 1] - b[i]) := by
  have : ¬ (i ≥ nelem b) := by unfold nelem; split <;> omega
  have h' : i < b.length := by omega
  simp [elementLength, this, readAt, h', h]

theorem sf_eq (b : List K) (i : Nat) (h : i + 1 < b.length) :
    scalingFactor b i = .ok ((b[i + 1] - b[i]) / 2) := by
  simp [scalingFactor, len_eq b i h]

theorem mid_eq (b : List K) (i : Nat) (h : i + 1 < b.length) :
    elementMidpoint b i = .ok ((1 / 2) * (b[i] + b[i + 1])) := by
  simp [elementMidpoint, begin_eq b i h, end_eq b i h]

theorem coord_eq (b : List K) (i : Nat) (h : i + 1 < b.length) (x : List K) :
    evalCoord b x i = .ok (x.map fun t => (1 / 2) * (b[i] + b[i + 1]) + (b[i + 1] - b[i]) / 2 * t) := by
  simp only [evalCoord, mid_eq b i h, sf_eq b i h, Res.ok_bind, Res.pure_eq]

theorem coord_mem {s e t : K} (h : s < e) (h1 : -1 ≤ t) (h2 : t ≤ 1) :
    s ≤ (1 / 2) * (s + e) + (e - s) / 2 * t ∧ (1 / 2) * (s + e) + (e - s) / 2 * t ≤ e := by
  constructor <;> nlinarith

/-- **C04.** Within an element of a strictly increasing grid, mapping reference coordinates in `[-1,1]` to the
element and back is the identity, and the map lands inside the element. -/
theorem C04_prim_coord (b : List K) (hs : b.Pairwise (· < ·)) (i : Nat) (h : i + 1 < b.length)
    (x : List K) (hx : x ≠ []) (hx1 : ∀ t ∈ x, -1 ≤ t ∧ t ≤ 1) :
    ∃ r, evalCoord b x i = .ok r ∧ evalPrim b r i = .ok x ∧ ∀ t ∈ r, b[i] ≤ t ∧ t ≤ b[i + 1] := by
  have hlt := List.pairwise_iff_getElem.mp hs i (i + 1) (by omega) h (by omega)
  have hmem : ∀ t ∈ (x.map fun t => (1 / 2) * (b[i] + b[i + 1]) + (b[i + 1] - b[i]) / 2 * t),
      b[i] ≤ t ∧ t ≤ b[i + 1] := by
    intro t ht
    obtain ⟨u, hu, rfl⟩ := List.mem_map.mp ht
    exact coord_mem hlt (hx1 u hu).1 (hx1 u hu).2
  refine ⟨_, coord_eq b i h x, ?_, hmem⟩
  unfold evalPrim
  simp only [begin_eq b i h, end_eq b i h, Res.ok_bind, mid_eq b i h, sf_eq b i h, Res.pure_eq]
  rw [if_neg (by simpa using hx), if_neg]
  · rw [List.map_map]
    congr 1
    conv_rhs => rw [← List.map_id x]
    apply List.map_congr_left
    intro t _
    have : (b[i + 1] - b[i]) / 2 ≠ 0 := by
      have : b[i + 1] - b[i] > 0 := sub_pos.mpr hlt
      positivity
    simp only [Function.comp, id]
    rw [add_sub_cancel_left, mul_div_cancel_left₀ _ this]
  · simp only [Bool.or_eq_true, List.any_eq_true, decide_eq_true_eq, not_or, not_exists, not_and, not_lt]
    exact ⟨fun t ht => (hmem t ht).1, fun t ht => (hmem t ht).2⟩

/-- **C04.** Whenever `eval_prim` accepts a batch, mapping its result back gives the original coordinates, and the
reference coordinates lie in `[-1,1]`. -/
theorem C04_coord_prim (b : List K) (hs : b.Pairwise (· < ·)) (i : Nat) (h : i + 1 < b.length)
    (y x : List K) (hy : evalPrim b y i = .ok x) :
    evalCoord b x i = .ok y ∧ ∀ t ∈ x, -1 ≤ t ∧ t ≤ 1 := by
  have hlt := List.pairwise_iff_getElem.mp hs i (i + 1) (by omega) h (by omega)
  have hpos : 0 < (b[i + 1] - b[i]) / 2 := by
    have : b[i + 1] - b[i] > 0 := sub_pos.mpr hlt
    positivity
  unfold evalPrim at hy
  simp only [begin_eq b i h, end_eq b i h, Res.ok_bind, mid_eq b i h, sf_eq b i h, Res.pure_eq] at hy
  split at hy
  · simp at hy
  · split at hy
    · simp at hy
    · next hc =>
      simp only [Bool.or_eq_true, List.any_eq_true, decide_eq_true_eq, not_or, not_exists, not_and, not_lt] at hc
      injection hy with hy
      subst hy
      constructor
      · rw [coord_eq b i h, List.map_map]
        congr 1
        conv_rhs => rw [← List.map_id y]
        apply List.map_congr_left
        intro t _
        simp only [Function.comp, id]
        field_simp
        ring
      · intro t ht
        obtain ⟨u, hu, rfl⟩ := List.mem_map.mp ht
        have h1 := hc.1 u hu
        have h2 := hc.2 u hu
        rw [le_div_iff₀ hpos, div_le_iff₀ hpos]
        constructor <;> linarith

/-- **C04.** `eval_prim` throws exactly when some coordinate of a (nonempty) batch lies outside the element. -/
theorem C04_prim_rejects (b : List K) (i : Nat) (h : i + 1 < b.length) (y : List K) (hy : y ≠ []) :
    evalPrim b y i = .throw .logicError ↔ ∃ t ∈ y, t < b[i] ∨ b[i + 1] < t := by
  unfold evalPrim
  simp only [begin_eq b i h, end_eq b i h, Res.ok_bind, mid_eq b i h, sf_eq b i h, Res.pure_eq, if_neg hy]
  by_cases hc : ∃ t ∈ y, t < b[i] ∨ b[i + 1] < t
  · simp only [hc, iff_true]
    rw [if_pos]
    obtain ⟨t, ht, h1 | h1⟩ := hc
    · simp only [Bool.or_eq_true, List.any_eq_true, decide_eq_true_eq]
      exact Or.inl ⟨t, ht, h1⟩
    · simp only [Bool.or_eq_true, List.any_eq_true, decide_eq_true_eq]
      exact Or.inr ⟨t, ht, h1⟩
  · simp only [hc, iff_false]
    rw [if_neg]
    · simp
    · simp only [Bool.or_eq_true, List.any_eq_true, decide_eq_true_eq]
      rintro (⟨t, ht, h1⟩ | ⟨t, ht, h1⟩)
      · exact hc ⟨t, ht, Or.inl h1⟩
      · exact hc ⟨t, ht, Or.inr h1⟩

/-- **C04.** The ends of the reference element go to the ends of the element, so neighbouring elements agree at
their common boundary; an element number outside the grid is rejected. -/
theorem C04_ends (b : List K) (i : Nat) (h : i + 1 < b.length) :
    evalCoord b [-1, 1] i = .ok [b[i], b[i + 1]] := by
  rw [coord_eq b i h]
  simp only [List.map_cons, List.map_nil]
  congr 2
  · ring
  · congr 1; ring

theorem C04_gluing (b : List K) (i : Nat) (h : i + 2 < b.length) :
    evalCoord b [1] i = evalCoord b [-1] (i + 1) := by
  rw [coord_eq b i (by omega), coord_eq b (i + 1) (by omega)]
  simp only [List.map_cons, List.map_nil]
  congr 2
  ring

theorem C04_bad_element (b : List K) (hb : b ≠ []) (i : Nat) (h : b.length ≤ i + 1) (x : List K) :
    evalCoord b x i = .throw .logicError := by
  have : i ≥ nelem b := by
    unfold nelem
    have : b.length ≠ 0 := by simpa using hb
    rw [if_neg this]; omega
  simp [evalCoord, elementMidpoint, elementBegin, this]

theorem concatElements_sum (b : List K) (w : List K) : ∀ (rem iel : Nat) (h : iel + rem + 1 = b.length),
    ∃ r, concatElements (fun iel => do let f ← scalingFactor b iel; pure (w.map (· * f))) rem iel = .ok r ∧
      r.sum = w.sum * ((b[iel + rem]'(by omega) - b[iel]'(by omega)) / 2) ∧ r.length = rem * w.length := by
  intro rem
  induction rem with
  | zero => intro iel h; exact ⟨[], rfl, by simp, by simp⟩
  | succ rem ih =>
    intro iel h
    obtain ⟨r, h1, h2, h3⟩ := ih (iel + 1) (by omega)
    refine ⟨w.map (· * ((b[iel + 1]'(by omega) - b[iel]'(by omega)) / 2)) ++ r, ?_, ?_, ?_⟩
    · rw [concatElements]
      simp only [Res.pure_eq] at h1
      simp only [sf_eq b iel (by omega), Res.ok_bind, Res.pure_eq, h1]
    · rw [List.sum_append, h2, List.sum_map_mul_right]
      have e : iel + 1 + rem = iel + (rem + 1) := by omega
      simp only [e, List.map_id']
      ring
    · simp [h3]; ring

/-- **C04.** If the reference weights integrate the constant one over `[-1,1]` exactly (their sum is 2), the
weights over all elements sum to the length of the grid. -/
theorem C04_weights (b : List K) (hb : 1 ≤ b.length) (w : List K) (hw : w.sum = 2) :
    ∃ r, evalWeights b w = .ok r ∧ r.sum = b[b.length - 1]'(by omega) - b[0]'(by omega) ∧
      r.length = (b.length - 1) * w.length := by
  have hne : nelem b = b.length - 1 := by unfold nelem; split <;> omega
  obtain ⟨r, h1, h2, h3⟩ := concatElements_sum b w (b.length - 1) 0 (by omega)
  refine ⟨r, by rw [evalWeights, hne]; exact h1, ?_, h3⟩
  rw [h2, hw]
  simp only [Nat.zero_add]
  ring

example : ([0, 1, 3] : List ℚ).Pairwise (· < ·) ∧ ([1, 1] : List ℚ).sum = 2 ∧
    evalWeights ([0, 1, 3] : List ℚ) [1, 1] = .ok [1/2, 1/2, 1, 1] := by
  refine ⟨by decide, by norm_num, ?_⟩
  simp [evalWeights, concatElements, scalingFactor, elementLength, readAt, nelem]
  norm_num

end coord

section add
variable {K : Type _} [LinearOrder K]

theorem stdSort_perm (l : List K) : (stdSort l).Perm l := List.mergeSort_perm l _
theorem stdSort_sorted (l : List K) : (stdSort l).Pairwise (· ≤ ·) := by
  have := List.pairwise_mergeSort (le := fun a b : K => decide (a ≤ b))
    (by intro a b c; simpa using le_trans) (by intro a b; simpa using le_total a b) l
  simpa [stdSort] using this

theorem stdSort_strict (l : List K) (h : l.Nodup) : (stdSort l).Pairwise (· < ·) := by
  have h1 := stdSort_sorted l
  have h2 : (stdSort l).Nodup := (stdSort_perm l).nodup_iff.mpr h
  exact (h1.and h2).imp fun ⟨a, b⟩ => lt_of_le_of_ne a b

/-- A well-formed object: strictly increasing boundaries, table as rebuilt by `update_bf_list`. -/
structure FEObj.WF (o : FEObj K) : Prop where
  sorted : o.bval.Pairwise (· < ·)
  nb : o.shape.nbval = o.bval.length
  tab : o.shape.updateBfList = .ok o.tab

theorem updateBfList_ok (s : FEShape) (f : Family) (n : Nat) (hn : 2 ≤ n) (hp : s.poly = PolyBasis.mk' f n)
    (hb : 1 ≤ s.nbval) : ∃ tab, s.updateBfList = .ok tab := by
  obtain ⟨p, nb, a, b, c, d⟩ := s
  simp only at hp hb
  subst hp
  obtain ⟨m, rfl⟩ : ∃ m, n = m + 2 := ⟨n - 2, by omega⟩
  obtain ⟨ne, rfl⟩ : ∃ ne, nb = ne + 1 := ⟨nb - 1, by omega⟩
  exact ⟨_, updateBfList_eq f m ne a b c d⟩

theorem strict_ext {l1 l2 : List K} (h1 : l1.Pairwise (· < ·)) (h2 : l2.Pairwise (· < ·))
    (h : ∀ x, x ∈ l1 ↔ x ∈ l2) : l1 = l2 := by
  have n1 : l1.Nodup := h1.imp fun h => ne_of_lt h
  have n2 : l2.Nodup := h2.imp fun h => ne_of_lt h
  have hp : l1.Perm l2 := (List.perm_ext_iff_of_nodup n1 n2).mpr h
  exact hp.eq_of_pairwise (fun a b _ _ hab hba => absurd (lt_trans hab hba) (lt_irrefl _)) h1 h2

/-- **C05 (one insertion).** On a well-formed basis of any family, `add_boundary r` succeeds, the new grid is
strictly increasing, contains exactly the old points and `r`, and the function table is rebuilt; a point that is
already a boundary changes nothing. -/
theorem C05_add_boundary (o : FEObj K) (f : Family) (n : Nat) (hn : 2 ≤ n)
    (hp : o.shape.poly = PolyBasis.mk' f n) (hwf : o.WF) (r : K) :
    ∃ o', addBoundary o r = .ok o' ∧ o'.WF ∧ (∀ x, x ∈ o'.bval ↔ x ∈ o.bval ∨ x = r) ∧
      o'.shape = { o.shape with nbval := o'.bval.length } ∧ (r ∈ o.bval → o' = o) := by
  unfold addBoundary
  by_cases hr : r ∈ o.bval
  · refine ⟨o, by rw [if_pos hr], hwf, ?_, ?_, fun _ => rfl⟩
    · intro x
      constructor
      · exact Or.inl
      · rintro (h | rfl)
        · exact h
        · exact hr
    · rw [← hwf.nb]
  · rw [if_neg hr]
    have hnd : (o.bval ++ [r]).Nodup := by
      rw [List.nodup_append]
      refine ⟨hwf.sorted.imp fun h => ne_of_lt h, by simp, ?_⟩
      intro a ha b hb
      simp at hb
      subst hb
      rintro rfl
      exact hr ha
    obtain ⟨tab, ht⟩ := updateBfList_ok { o.shape with nbval := (stdSort (o.bval ++ [r])).length } f n hn hp
      (by simp [(stdSort_perm (o.bval ++ [r])).length_eq])
    refine ⟨⟨{ o.shape with nbval := (stdSort (o.bval ++ [r])).length }, stdSort (o.bval ++ [r]), tab⟩,
      ?_, ⟨stdSort_strict _ hnd, rfl, ht⟩, ?_, rfl, fun h => absurd h hr⟩
    · simp only [ht, Res.ok_bind, Res.pure_eq]
    · intro x
      simp only [(stdSort_perm (o.bval ++ [r])).mem_iff, List.mem_append, List.mem_singleton]

/-- **C05 (any history).** After any sequence of insertions the basis is well formed and its boundaries are exactly
the original ones together with the inserted points. -/
theorem C05_history (f : Family) (n : Nat) (hn : 2 ≤ n) (rs : List K) : ∀ (o : FEObj K)
    (_ : o.shape.poly = PolyBasis.mk' f n) (_ : o.WF),
    ∃ o', addBoundaries o rs = .ok o' ∧ o'.WF ∧ (∀ x, x ∈ o'.bval ↔ x ∈ o.bval ∨ x ∈ rs) ∧
      o'.shape = { o.shape with nbval := o'.bval.length } := by
  induction rs with
  | nil =>
    intro o hp hwf
    refine ⟨o, rfl, hwf, by simp, ?_⟩
    rw [← hwf.nb]
  | cons r rs ih =>
    intro o hp hwf
    obtain ⟨o1, h1, h2, h3, h4, _⟩ := C05_add_boundary o f n hn hp hwf r
    obtain ⟨o2, g1, g2, g3, g4⟩ := ih o1 (by rw [h4]; exact hp) h2
    refine ⟨o2, by simp [addBoundaries, h1, g1], g2, ?_, ?_⟩
    · intro x
      rw [g3, h3, List.mem_cons]
      tauto
    · rw [g4, h4]

/-- **C05 (order independence).** Two insertion histories with the same set of points end in the same basis: same
grid, same function table. -/
theorem C05_order_independent (f : Family) (n : Nat) (hn : 2 ≤ n) (o : FEObj K)
    (hp : o.shape.poly = PolyBasis.mk' f n) (hwf : o.WF) (rs rs' : List K)
    (hset : ∀ x, x ∈ rs ↔ x ∈ rs') : addBoundaries o rs = addBoundaries o rs' := by
  obtain ⟨o1, h1, h2, h3, h4⟩ := C05_history f n hn rs o hp hwf
  obtain ⟨o2, g1, g2, g3, g4⟩ := C05_history f n hn rs' o hp hwf
  rw [h1, g1]
  have hb : o1.bval = o2.bval := strict_ext h2.sorted g2.sorted (by intro x; rw [h3, g3, hset])
  have hs : o1.shape = o2.shape := by rw [h4, g4, hb]
  have ht : o1.tab = o2.tab := by
    have a := h2.tab
    have b := g2.tab
    rw [hs, b] at a
    injection a with a
    exact a.symm
  obtain ⟨_, _, _⟩ := o1
  obtain ⟨_, _, _⟩ := o2
  simp only at hb hs ht
  subst hb hs ht
  rfl

/-- non-vacuity: a constructed two-element Lagrange basis is well formed -/
example : ∃ o, construct (PolyBasis.mk' .lip 3) [(0 : Int), 4, 9] true false true false = .ok o ∧ o.WF ∧
    o.shape.poly = PolyBasis.mk' .lip 3 ∧ o.bval ≠ [] := by
  refine ⟨_, rfl, ⟨by decide, rfl, rfl⟩, rfl, by decide⟩

end add
end Grid
end HelFEM
