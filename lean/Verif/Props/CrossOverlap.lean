import Verif.Lemmas.CrossOverlap
import Verif.Props.FEEval
import Mathlib.Analysis.SpecialFunctions.Integrals.Basic
import Mathlib.MeasureTheory.Integral.Bochner.Set
import Mathlib.MeasureTheory.Integral.IntervalIntegral.Basic

/-!
# C91: matrix elements between two radial bases
-/

namespace HelFEM
namespace Cross
open Finset Grid MeasureTheory

variable {A B : Basis} {R Q : Spec.FE} {bra ket : Kind} {d d' : Nat} {f : Option (ℝ → Option ℝ)} {w : ℝ → ℝ} {rule : List (ℝ × ℝ)}

/-! ### element pairs -/

theorem sorted_lt (hR : R.Sorted) : ∀ {i j : Nat}, i < j → j ≤ R.ne → R.b i < R.b j := by
  intro i j hij
  induction j with
  | zero => omega
  | succ j ih =>
    intro hj
    rcases Nat.lt_succ_iff_lt_or_eq.1 hij with h | rfl
    · exact (ih h (by omega)).trans (hR j (by omega))
    · exact hR i (by omega)

theorem sorted_le (hR : R.Sorted) {i j : Nat} (hij : i ≤ j) (hj : j ≤ R.ne) : R.b i ≤ R.b j := by
  rcases hij.eq_or_lt with rfl | h
  · exact le_rfl
  · exact (sorted_lt hR h hj).le

theorem elem_unique (hR : R.Sorted) {e g : Nat} (he : e < R.ne) (hg : g < R.ne) {r : ℝ} (h1 : R.b e < r) (h2 : r < R.b (e + 1)) (h3 : R.b g < r) (h4 : r < R.b (g + 1)) : e = g := by
  by_contra hne
  rcases Nat.lt_or_gt_of_ne hne with h | h
  · exact absurd (sorted_le hR (show e + 1 ≤ g by omega) (by omega)) (by linarith)
  · exact absurd (sorted_le hR (show g + 1 ≤ e by omega) (by omega)) (by linarith)

theorem elem_exists {r : ℝ} (h1 : R.b 0 < r) (h2 : r < R.b R.ne) (h3 : ∀ i ≤ R.ne, r ≠ R.b i) : ∃ e < R.ne, R.b e < r ∧ r < R.b (e + 1) := by
  have key : ∀ n ≤ R.ne, r < R.b n → ∃ e < n, R.b e < r ∧ r < R.b (e + 1) := by
    intro n
    induction n with
    | zero => intro _ h; linarith
    | succ n ih =>
      intro hn h
      rcases lt_or_gt_of_ne (h3 n (by omega)) with h4 | h4
      · obtain ⟨e, he, h5⟩ := ih (by omega) h4
        exact ⟨e, by omega, h5⟩
      · exact ⟨n, by omega, h4, h⟩
  exact key R.ne le_rfl h2

open Classical in
/-- **C91, pairs.** The element pairs gone through are listed without exception, each at most once; they are exactly those sharing a range of positive length, and the shared
ranges tile what the two bases have in common: every point inside both bases that is no boundary lies in the shared range of exactly one pair. -/
theorem C91_pairs (hA : Fits A R) (hB : Fits B Q) (hR : R.Sorted) (hQ : Q.Sorted) :
    ∃ t : List (List Nat), table A.fe.bval B.fe.bval = .ok t ∧ t.length = R.ne ∧
      (∀ e < R.ne, (t.getD e []).Nodup ∧ ∀ g, g ∈ t.getD e [] ↔ g < Q.ne ∧ ∃ r, (R.b e < r ∧ r < R.b (e + 1)) ∧ Q.b g < r ∧ r < Q.b (g + 1)) ∧
      ∀ r, R.b 0 < r → r < R.b R.ne → Q.b 0 < r → r < Q.b Q.ne → (∀ i ≤ R.ne, r ≠ R.b i) → (∀ i ≤ Q.ne, r ≠ Q.b i) →
        ∃! p : Nat × Nat, p.1 < R.ne ∧ p.2 ∈ t.getD p.1 [] ∧ Spec.lo R Q p.1 p.2 < r ∧ r < Spec.hi R Q p.1 p.2 := by
  have hget : ∀ e < R.ne, ((List.range R.ne).map (partners R Q)).getD e [] = partners R Q e := by
    intro e he; simp [List.getD_eq_getElem?_getD, he]
  have hmem : ∀ e g, g ∈ partners R Q e ↔ g < Q.ne ∧ ∃ r, (R.b e < r ∧ r < R.b (e + 1)) ∧ Q.b g < r ∧ r < Q.b (g + 1) := by
    intro e g
    simp only [partners, List.mem_filter, List.mem_range, decide_eq_true_eq]
    refine and_congr_right fun _ => ⟨fun h => ?_, fun ⟨r, h1, h2⟩ => (max_lt h1.1 h2.1).trans (lt_min h1.2 h2.2)⟩
    obtain ⟨r, h1, h2⟩ := exists_between h
    exact ⟨r, ⟨(max_lt_iff.1 h1).1, (lt_min_iff.1 h2).1⟩, (max_lt_iff.1 h1).2, (lt_min_iff.1 h2).2⟩
  refine ⟨_, table_ok hA hB hR hQ, by simp, ?_, ?_⟩
  · intro e he
    rw [hget e he]
    exact ⟨List.Nodup.filter _ List.nodup_range, hmem e⟩
  · intro r h1 h2 h3 h4 h5 h6
    obtain ⟨e, he, e1, e2⟩ := elem_exists h1 h2 h5
    obtain ⟨g, hg, g1, g2⟩ := elem_exists h3 h4 h6
    refine ⟨(e, g), ⟨he, ?_, max_lt e1 g1, lt_min e2 g2⟩, ?_⟩
    · dsimp only
      rw [hget e he, hmem]
      exact ⟨hg, r, ⟨e1, e2⟩, g1, g2⟩
    · rintro ⟨e', g'⟩ ⟨he', hg', l, h⟩
      dsimp only at he' hg' l h
      rw [hget e' he', hmem] at hg'
      obtain ⟨l1, l2⟩ := max_lt_iff.1 l
      obtain ⟨u1, u2⟩ := lt_min_iff.1 h
      rw [elem_unique hR he' he l1 u1 e1 e2, elem_unique hQ hg'.1 hg l2 u2 g1 g2]

/-! ### one order of the rule -/

/-- **C91, assembly.** At every order with nodes in `[-1, 1]` the projection returns a finite matrix of the sizes of the two bases; entry `(i, j)` is the sum over the element
pairs containing both functions of the quadrature over the shared range. The clamping of points has no effect and no coordinate is rejected. -/
theorem C91_assembly (hA : Fits A R) (hB : Fits B Q) (hR : R.Sorted) (hQ : Q.Sorted) (hbra : bra.order = some d) (hket : ket.order = some d') (hr : Usable rule)
    (hw : ∀ e < R.ne, ∀ g < Q.ne, ∀ r, Spec.lo R Q e g ≤ r → r ≤ Spec.hi R Q e g → WeightIs f w r) :
    ∃ M, crossAt A B bra ket f rule = .ok (some M) ∧ M.rows = R.N ∧ M.cols = Q.N ∧
      ∀ i j, M.get i j = ∑ e ∈ range R.ne, ∑ g ∈ range Q.ne, Spec.pairSum rule R Q d d' w i j e g :=
  crossAt_ok hA hB hR hQ hbra hket hr hw

/-- inside an element the function is the local one -/
theorem fn_inside (hR : R.Sorted) {e : Nat} (he : e < R.ne) {r : ℝ} (h1 : R.b e < r) (h2 : r < R.b (e + 1)) (i : Nat) :
    R.fn d i r = if R.first e ≤ i ∧ i ≤ R.last e then R.phi d e (i - R.first e) (R.ref e r) else 0 := by
  unfold Spec.FE.fn
  rw [sum_eq_single_of_mem e (mem_range.2 he), if_pos ⟨h1, h2⟩]
  intro g hg hne
  rw [if_neg]
  rintro ⟨h3, h4⟩
  exact hne (elem_unique hR (mem_range.1 hg) he h3 h4 h1 h2)

/-- integrand of the pair `(e, g)` -/
noncomputable def part (R Q : Spec.FE) (d d' : Nat) (w : ℝ → ℝ) (i j e g : Nat) : ℝ → ℝ :=
  Set.indicator (Set.Ioo (Spec.lo R Q e g) (Spec.hi R Q e g)) fun r =>
    if (R.first e ≤ i ∧ i ≤ R.last e) ∧ (Q.first g ≤ j ∧ j ≤ Q.last g) then Spec.prod R Q d d' w e g (i - R.first e) (j - Q.first g) r else 0

theorem split_ite (p1 p2 p3 p4 : Prop) [Decidable p1] [Decidable p2] [Decidable p3] [Decidable p4] [Decidable (p1 ∧ p2)] [Decidable (p3 ∧ p4)] (x y z : ℝ) :
    ((if p1 then (if p3 then x else 0) else 0) * if p2 then (if p4 then y else 0) else 0) * z = if p1 ∧ p2 then (if p3 ∧ p4 then x * y * z else 0) else 0 := by
  by_cases h1 : p1 <;> by_cases h2 : p2 <;> by_cases h3 : p3 <;> by_cases h4 : p4 <;> simp [h1, h2, h3, h4]

theorem split (i j : Nat) (r : ℝ) : R.fn d i r * Q.fn d' j r * w r = ∑ e ∈ range R.ne, ∑ g ∈ range Q.ne, part R Q d d' w i j e g r := by
  unfold Spec.FE.fn
  rw [sum_mul_sum, sum_mul]
  apply sum_congr rfl; intro e _
  rw [sum_mul]
  apply sum_congr rfl; intro g _
  unfold part Set.indicator
  have hm : r ∈ Set.Ioo (Spec.lo R Q e g) (Spec.hi R Q e g) ↔ (R.b e < r ∧ r < R.b (e + 1)) ∧ (Q.b g < r ∧ r < Q.b (g + 1)) := by
    simp only [Set.mem_Ioo, Spec.lo, Spec.hi, max_lt_iff, lt_min_iff]; tauto
  simp only [hm, Spec.prod]
  exact split_ite _ _ _ _ _ _ _

theorem phi_cont (hR : R.Sorted) (cR : R.Cont d) {e : Nat} (he : e < R.ne) {a : Nat} (ha : R.first e + a ≤ R.last e) :
    ContinuousOn (fun r => R.phi d e a (R.ref e r)) (Set.Icc (R.b e) (R.b (e + 1))) := by
  have hc : Continuous (R.ref e) := by unfold Spec.FE.ref; exact (continuous_id.sub continuous_const).div_const _
  refine (cR e he a ha).comp hc.continuousOn ?_
  intro r hr
  exact ref_mem hR he hr.1 hr.2

theorem prod_cont (hR : R.Sorted) (hQ : Q.Sorted) (cR : R.Cont d) (cQ : Q.Cont d') {e g : Nat} (he : e < R.ne) (hg : g < Q.ne)
    (cw : ContinuousOn w (Set.Icc (Spec.lo R Q e g) (Spec.hi R Q e g))) {a b : Nat} (ha : R.first e + a ≤ R.last e) (hb : Q.first g + b ≤ Q.last g) :
    ContinuousOn (Spec.prod R Q d d' w e g a b) (Set.Icc (Spec.lo R Q e g) (Spec.hi R Q e g)) := by
  unfold Spec.prod
  exact (((phi_cont hR cR he ha).mono (Set.Icc_subset_Icc (le_max_left _ _) (min_le_left _ _))).mul
    ((phi_cont hQ cQ hg hb).mono (Set.Icc_subset_Icc (le_max_right _ _) (min_le_right _ _)))).mul cw

theorem part_integrable (hR : R.Sorted) (hQ : Q.Sorted) (cR : R.Cont d) (cQ : Q.Cont d') {e g : Nat} (he : e < R.ne) (hg : g < Q.ne)
    (cw : ContinuousOn w (Set.Icc (Spec.lo R Q e g) (Spec.hi R Q e g))) (i j : Nat) : Integrable (part R Q d d' w i j e g) := by
  unfold part
  rw [integrable_indicator_iff measurableSet_Ioo]
  by_cases h : (R.first e ≤ i ∧ i ≤ R.last e) ∧ (Q.first g ≤ j ∧ j ≤ Q.last g)
  · simp only [if_pos h]
    exact ((prod_cont hR hQ cR cQ he hg cw (by omega) (by omega)).integrableOn_Icc).mono_set Set.Ioo_subset_Icc_self
  · simp only [if_neg h]
    exact integrableOn_zero

theorem part_integral (hx : Spec.Exact rule R Q d d' w) {e g : Nat} (he : e < R.ne) (hg : g < Q.ne) (i j : Nat) :
    ∫ r, part R Q d d' w i j e g r = Spec.pairSum rule R Q d d' w i j e g := by
  unfold part
  rw [integral_indicator measurableSet_Ioo]
  by_cases hlt : Spec.lo R Q e g < Spec.hi R Q e g
  · by_cases h : (R.first e ≤ i ∧ i ≤ R.last e) ∧ (Q.first g ≤ j ∧ j ≤ Q.last g)
    · simp only [if_pos h]
      rw [Spec.pairSum, if_pos ⟨hlt, h⟩, hx e he g hg hlt _ (by omega) _ (by omega), ← integral_Ioc_eq_integral_Ioo, ← intervalIntegral.integral_of_le hlt.le]
      unfold Spec.at_
      rw [intervalIntegral.mul_integral_comp_add_mul]
      congr 1 <;> ring
    · simp only [if_neg h]
      rw [Spec.pairSum, if_neg (by tauto), integral_zero]
  · rw [Set.Ioo_eq_empty hlt, Spec.pairSum, if_neg (by tauto)]
    simp

/-- **C91, integral.** If the rule is exact for the products on the shared ranges, the projection at that order is the matrix of integrals over the whole line of function `i` of one
basis, function `j` of the other, and the weight: no shared range is missed or counted twice, whatever the two grids. -/
theorem C91_integral (hA : Fits A R) (hB : Fits B Q) (hR : R.Sorted) (hQ : Q.Sorted) (cR : R.Cont d) (cQ : Q.Cont d') (hbra : bra.order = some d) (hket : ket.order = some d')
    (hr : Usable rule) (hw : ∀ e < R.ne, ∀ g < Q.ne, ∀ r, Spec.lo R Q e g ≤ r → r ≤ Spec.hi R Q e g → WeightIs f w r)
    (cw : ∀ e < R.ne, ∀ g < Q.ne, ContinuousOn w (Set.Icc (Spec.lo R Q e g) (Spec.hi R Q e g))) (hx : Spec.Exact rule R Q d d' w) :
    ∃ M, crossAt A B bra ket f rule = .ok (some M) ∧ M.rows = R.N ∧ M.cols = Q.N ∧ ∀ i j, M.get i j = Spec.element R Q d d' w i j := by
  obtain ⟨M, m1, m2, m3, m4⟩ := C91_assembly hA hB hR hQ hbra hket hr hw
  refine ⟨M, m1, m2, m3, fun i j => ?_⟩
  rw [m4]
  unfold Spec.element
  simp only [split]
  rw [integral_finsetSum _ fun e he => integrable_finsetSum _ fun g hg =>
    part_integrable hR hQ cR cQ (mem_range.1 he) (mem_range.1 hg) (cw e (mem_range.1 he) g (mem_range.1 hg)) i j]
  apply sum_congr rfl; intro e he
  rw [integral_finsetSum _ fun g hg => part_integrable hR hQ cR cQ (mem_range.1 he) (mem_range.1 hg) (cw e (mem_range.1 he) g (mem_range.1 hg)) i j]
  apply sum_congr rfl; intro g hg
  exact (part_integral hx (mem_range.1 he) (mem_range.1 hg) i j).symm

/-! ### consequences -/

theorem pairSum_swap (i j e g : Nat) : Spec.pairSum rule Q R d' d w j i g e = Spec.pairSum rule R Q d d' w i j e g := by
  have h1 : Spec.lo Q R g e = Spec.lo R Q e g := max_comm _ _
  have h2 : Spec.hi Q R g e = Spec.hi R Q e g := min_comm _ _
  unfold Spec.pairSum Spec.at_
  rw [h1, h2]
  have hp : ∀ a b r, Spec.prod Q R d' d w g e b a r = Spec.prod R Q d d' w e g a b r := by
    intro a b r; unfold Spec.prod; ring
  simp only [hp]
  by_cases hc : Spec.lo R Q e g < Spec.hi R Q e g ∧ (R.first e ≤ i ∧ i ≤ R.last e) ∧ (Q.first g ≤ j ∧ j ≤ Q.last g)
  · rw [if_pos hc, if_pos ⟨hc.1, hc.2.2, hc.2.1⟩]
  · rw [if_neg hc, if_neg fun h => hc ⟨h.1, h.2.2, h.2.1⟩]

/-- **C91, adjoint.** Exchanging the two bases (and the kinds) transposes the projection. -/
theorem C91_swap (hA : Fits A R) (hB : Fits B Q) (hR : R.Sorted) (hQ : Q.Sorted) (hbra : bra.order = some d) (hket : ket.order = some d') (hr : Usable rule)
    (hw : ∀ e < R.ne, ∀ g < Q.ne, ∀ r, Spec.lo R Q e g ≤ r → r ≤ Spec.hi R Q e g → WeightIs f w r) :
    ∃ M M', crossAt A B bra ket f rule = .ok (some M) ∧ crossAt B A ket bra f rule = .ok (some M') ∧ M.Same M'.transpose := by
  obtain ⟨M, m1, m2, m3, m4⟩ := C91_assembly hA hB hR hQ hbra hket hr hw
  obtain ⟨M', n1, n2, n3, n4⟩ := C91_assembly hB hA hQ hR hket hbra hr (fun g hg e he r h1 h2 => hw e he g hg r (by rwa [Spec.lo, max_comm]) (by rwa [Spec.hi, min_comm]))
  refine ⟨M, M', m1, n1, m2.trans n3.symm, m3.trans n2.symm, fun i _ j _ => ?_⟩
  show M.get i j = M'.get j i
  rw [m4, n4, sum_comm]
  exact sum_congr rfl fun g _ => sum_congr rfl fun e _ => (pairSum_swap i j e g).symm

/-- **C91, disjoint bases.** If one basis ends where the other begins, or before, the projection is the zero matrix, for every kind, weight and rule; nothing is evaluated and
nothing is reported. -/
theorem C91_disjoint (hA : Fits A R) (hB : Fits B Q) (hR : R.Sorted) (hQ : Q.Sorted) (h : R.b R.ne ≤ Q.b 0 ∨ Q.b Q.ne ≤ R.b 0) :
    crossAt A B bra ket f rule = .ok (some (Mat.zero R.N Q.N)) := by
  rw [crossAt_eq hA hB hR hQ]
  have : pairList R Q = [] := by
    rw [List.eq_nil_iff_forall_not_mem]
    intro p hp
    obtain ⟨he, hg, hlt⟩ := mem_pairList.1 hp
    obtain ⟨h1, h2⟩ := max_lt_iff.1 hlt
    have h3 := (lt_min_iff.1 h1).2
    have h4 := (lt_min_iff.1 h2).1
    have a1 := sorted_le hR (Nat.zero_le p.1) he.le
    have a2 := sorted_le hR (show p.1 + 1 ≤ R.ne by omega) le_rfl
    have a3 := sorted_le hQ (Nat.zero_le p.2) hg.le
    have a4 := sorted_le hQ (show p.2 + 1 ≤ Q.ne by omega) le_rfl
    rcases h with h | h <;> linarith
  rw [this]
  rfl

/-- **C91, kinds.** As soon as the bases share a range, asking for functions divided by the radius is an error. -/
theorem C91_kinds (hA : Fits A R) (hB : Fits B Q) (hR : R.Sorted) (hQ : Q.Sorted) (hr : Usable rule) (hk : bra.order = none) (h : pairList R Q ≠ []) :
    crossAt A B bra ket f rule = .throw .logicError := by
  rw [crossAt_eq hA hB hR hQ]
  obtain ⟨p, l, hl⟩ := List.exists_cons_of_ne_nil h
  have hp : p ∈ pairList R Q := by rw [hl]; simp
  obtain ⟨he, hg, hlt⟩ := mem_pairList.1 hp
  rw [hl, List.foldlM_cons]
  have hm : ∀ q ∈ rule, (R.b p.1 ≤ Spec.at_ R Q p.1 p.2 q.1 ∧ Spec.at_ R Q p.1 p.2 q.1 ≤ R.b (p.1 + 1)) ∧ (Q.b p.2 ≤ Spec.at_ R Q p.1 p.2 q.1 ∧ Spec.at_ R Q p.1 p.2 q.1 ≤ Q.b (p.2 + 1)) := by
    intro q hq
    obtain ⟨h1, h2⟩ := at_mem hlt (hr.2 q hq).1 (hr.2 q hq).2
    exact ⟨⟨(le_max_left _ _).trans h1, h2.trans (min_le_left _ _)⟩, (le_max_right _ _).trans h1, h2.trans (min_le_right _ _)⟩
  have hne : (rule.map fun q => Spec.at_ R Q p.1 p.2 q.1) ≠ [] := by simpa using hr.1
  have hpc : piece A B bra ket f rule p.1 p.2 = .throw .logicError := by
    unfold piece
    rw [begin_ok hA he, Res.ok_bind, begin_ok hB hg, Res.ok_bind, end_ok hA he, Res.ok_bind, end_ok hB hg, Res.ok_bind]
    dsimp only
    rw [show max (R.b p.1) (Q.b p.2) = Spec.lo R Q p.1 p.2 from rfl, show min (R.b (p.1 + 1)) (Q.b (p.2 + 1)) = Spec.hi R Q p.1 p.2 from rfl, clamp_map hlt hr]
    rw [prim_ok hA he hne (List.forall_mem_map.2 fun q hq => (hm q hq).1), Res.ok_bind, prim_ok hB hg hne (List.forall_mem_map.2 fun q hq => (hm q hq).2), Res.ok_bind]
    obtain ⟨q, rs, hrs⟩ := List.exists_cons_of_ne_nil hr.1
    rw [hrs, List.map_cons, List.map_cons, List.mapM_cons]
    have : ∀ x, evalB A x p.1 bra = .throw .logicError := by
      intro x; cases bra <;> simp only [Kind.order, reduceCtorEq] at hk <;> rfl
    rw [this]
    rfl
  unfold crossStep
  rw [hpc]
  rfl

theorem fold_none (l : List (Nat × Nat)) (h : ∀ p ∈ l, p ∈ pairList R Q) (hA : Fits A R) (hB : Fits B Q) (hR : R.Sorted) (hQ : Q.Sorted) (hbra : bra.order = some d)
    (hket : ket.order = some d') (hr : Usable rule) : l.foldlM (crossStep A B bra ket f rule) none = .ok none := by
  induction l with
  | nil => rfl
  | cons p l ih =>
    obtain ⟨he, hg, hlt⟩ := mem_pairList.1 (h p (by simp))
    rw [List.foldlM_cons]
    unfold crossStep
    rw [piece_eq hA hB hR hQ hbra hket hr he hg hlt, Res.ok_bind, hA.idx _ he, Res.ok_bind]
    dsimp only
    rw [hB.idx _ hg, Res.ok_bind]
    exact ih fun q hq => h q (by simp [hq])

/-- **C91, singular weight (finding).** If both bases start at the same point, the weight is not finite there and the rule contains the end `-1` (as every Lobatto rule does), then
the projection is not finite, although every function vanishes at that point and the integral exists: the guard of the single-basis matrix elements is missing. -/
theorem C91_singular (hA : Fits A R) (hB : Fits B Q) (hR : R.Sorted) (hQ : Q.Sorted) (hbra : bra.order = some d) (hket : ket.order = some d') (hr : Usable rule)
    {v : ℝ → Option ℝ} (h0 : R.b 0 = Q.b 0) (hv : v (R.b 0) = none) (hend : ∃ p ∈ rule, p.1 = -1) : crossAt A B bra ket (some v) rule = .ok none := by
  rw [crossAt_eq hA hB hR hQ]
  have hb0 := hR 0 hA.pos
  have hc0 := hQ 0 hB.pos
  have hlt : Spec.lo R Q 0 0 < Spec.hi R Q 0 0 := by
    unfold Spec.lo Spec.hi
    rw [h0, max_self]
    exact lt_min (by rw [← h0]; exact hb0) hc0
  have hmem : ((0, 0) : Nat × Nat) ∈ pairList R Q := mem_pairList.2 ⟨hA.pos, hB.pos, hlt⟩
  have hlo : Spec.lo R Q 0 0 = R.b 0 := by unfold Spec.lo; rw [h0, max_self]
  have hpc : piece A B bra ket (some v) rule 0 0 = .ok none := by
    rw [piece_eq hA hB hR hQ hbra hket hr hA.pos hB.pos hlt, weights_none (fun p => Spec.at_ R Q 0 0 p.1)]
    · rfl
    · obtain ⟨p, hp, h1⟩ := hend
      refine ⟨p, hp, ?_⟩
      rw [h1, show Spec.at_ R Q 0 0 (-1) = Spec.lo R Q 0 0 by unfold Spec.at_; ring, hlo, hv]
  have key : ∀ (l : List (Nat × Nat)) (S : Option (Mat ℝ)), (∀ p ∈ l, p ∈ pairList R Q) → (0, 0) ∈ l → (∀ M, S = some M → M.rows = R.N ∧ M.cols = Q.N) →
      l.foldlM (crossStep A B bra ket (some v) rule) S = .ok none := by
    intro l
    induction l with
    | nil => intro S _ h; simp at h
    | cons p l ih =>
      intro S hl h0 hS
      by_cases hp : p = (0, 0)
      · subst hp
        rw [List.foldlM_cons]
        conv_lhs => arg 1; unfold crossStep
        rw [hpc, Res.ok_bind, hA.idx _ hA.pos, Res.ok_bind]
        dsimp only
        rw [hB.idx _ hB.pos, Res.ok_bind]
        have hn := fold_none (f := some v) l (fun q hq => hl q (by simp [hq])) hA hB hR hQ hbra hket hr
        cases S <;> exact hn
      · have hin : (0, 0) ∈ l := by
          rcases List.mem_cons.1 h0 with h | h
          · exact absurd h.symm hp
          · exact h
        obtain ⟨he, hg, hlt'⟩ := mem_pairList.1 (hl p (by simp))
        have c1 := hA.cols _ he
        have c2 := hB.cols _ hg
        have b1 := hA.bound _ he
        have b2 := hB.bound _ hg
        have hstep : ∃ S', crossStep A B bra ket (some v) rule S p = .ok S' ∧ ∀ M, S' = some M → M.rows = R.N ∧ M.cols = Q.N := by
          unfold crossStep
          rw [piece_eq hA hB hR hQ hbra hket hr he hg hlt', Res.ok_bind, hA.idx _ he, Res.ok_bind]
          dsimp only
          rw [hB.idx _ hg, Res.ok_bind]
          cases S with
          | none => exact ⟨none, rfl, by simp⟩
          | some M =>
            obtain ⟨r1, r2⟩ := hS M rfl
            cases weights (some v) ((Spec.hi R Q p.1 p.2 - Spec.lo R Q p.1 p.2) / 2) rule (rule.map fun q => Spec.at_ R Q p.1 p.2 q.1) with
            | none => exact ⟨none, rfl, by simp⟩
            | some ws =>
              dsimp only [Option.map_some]
              rw [Mat.addBlock, if_pos (by refine ⟨?_, ?_, ?_, ?_⟩ <;> (try dsimp only) <;> omega), Res.ok_bind, Res.pure_eq]
              refine ⟨_, rfl, ?_⟩
              rintro M' h
              rw [← Option.some.inj h]
              exact ⟨r1, r2⟩
        obtain ⟨S', s1, s2⟩ := hstep
        rw [List.foldlM_cons, s1, Res.ok_bind]
        exact ih S' (fun q hq => hl q (by simp [hq])) hin s2
  refine key _ _ (fun _ h => h) hmem ?_
  rintro M h
  rw [← Option.some.inj h]
  exact ⟨rfl, rfl⟩

/-! ### limits and the refinement -/

/-- The rules `lob n` integrate every continuous function in the limit. -/
def Convergent (lob : Nat → List (ℝ × ℝ)) : Prop :=
  ∀ g : ℝ → ℝ, ContinuousOn g (Set.Icc (-1) 1) → Filter.Tendsto (fun n => Spec.quad (lob n) g) Filter.atTop (nhds (∫ x in (-1 : ℝ)..1, g x))

theorem part_value {e g : Nat} (i j : Nat) :
    ∫ r, part R Q d d' w i j e g r = if Spec.lo R Q e g < Spec.hi R Q e g ∧ (R.first e ≤ i ∧ i ≤ R.last e) ∧ (Q.first g ≤ j ∧ j ≤ Q.last g) then
      (Spec.hi R Q e g - Spec.lo R Q e g) / 2 * ∫ x in (-1 : ℝ)..1, Spec.prod R Q d d' w e g (i - R.first e) (j - Q.first g) (Spec.at_ R Q e g x) else 0 := by
  unfold part
  rw [integral_indicator measurableSet_Ioo]
  by_cases hlt : Spec.lo R Q e g < Spec.hi R Q e g
  · by_cases h : (R.first e ≤ i ∧ i ≤ R.last e) ∧ (Q.first g ≤ j ∧ j ≤ Q.last g)
    · simp only [if_pos h]
      rw [if_pos ⟨hlt, h⟩, ← integral_Ioc_eq_integral_Ioo, ← intervalIntegral.integral_of_le hlt.le]
      unfold Spec.at_
      rw [intervalIntegral.mul_integral_comp_add_mul]
      congr 1 <;> ring
    · simp only [if_neg h]
      rw [if_neg (by tauto), integral_zero]
  · rw [Set.Ioo_eq_empty hlt, if_neg (by tauto)]
    simp

theorem element_sum (hR : R.Sorted) (hQ : Q.Sorted) (cR : R.Cont d) (cQ : Q.Cont d')
    (cw : ∀ e < R.ne, ∀ g < Q.ne, ContinuousOn w (Set.Icc (Spec.lo R Q e g) (Spec.hi R Q e g))) (i j : Nat) :
    Spec.element R Q d d' w i j = ∑ e ∈ range R.ne, ∑ g ∈ range Q.ne, ∫ r, part R Q d d' w i j e g r := by
  unfold Spec.element
  simp only [split]
  rw [integral_finsetSum _ fun e he => integrable_finsetSum _ fun g hg =>
    part_integrable hR hQ cR cQ (mem_range.1 he) (mem_range.1 hg) (cw e (mem_range.1 he) g (mem_range.1 hg)) i j]
  apply sum_congr rfl; intro e he
  rw [integral_finsetSum _ fun g hg => part_integrable hR hQ cR cQ (mem_range.1 he) (mem_range.1 hg) (cw e (mem_range.1 he) g (mem_range.1 hg)) i j]

/-- **C91, limit.** With rules that converge for continuous functions the projections converge, entry by entry, to the integrals over the whole line as the order grows. -/
theorem C91_limit (hA : Fits A R) (hB : Fits B Q) (hR : R.Sorted) (hQ : Q.Sorted) (cR : R.Cont d) (cQ : Q.Cont d') (hbra : bra.order = some d) (hket : ket.order = some d')
    {lob : Nat → List (ℝ × ℝ)} (hr : ∀ n, 2 ≤ n → Usable (lob n)) (hc : Convergent lob)
    (hw : ∀ e < R.ne, ∀ g < Q.ne, ∀ r, Spec.lo R Q e g ≤ r → r ≤ Spec.hi R Q e g → WeightIs f w r)
    (cw : ∀ e < R.ne, ∀ g < Q.ne, ContinuousOn w (Set.Icc (Spec.lo R Q e g) (Spec.hi R Q e g))) :
    ∃ M : Nat → Mat ℝ, (∀ n, 2 ≤ n → crossAt A B bra ket f (lob n) = .ok (some (M n)) ∧ (M n).rows = R.N ∧ (M n).cols = Q.N) ∧
      ∀ i j, Filter.Tendsto (fun n => (M n).get i j) Filter.atTop (nhds (Spec.element R Q d d' w i j)) := by
  have h : ∀ n, ∃ M, 2 ≤ n → crossAt A B bra ket f (lob n) = .ok (some M) ∧ M.rows = R.N ∧ M.cols = Q.N ∧
      ∀ i j, M.get i j = ∑ e ∈ range R.ne, ∑ g ∈ range Q.ne, Spec.pairSum (lob n) R Q d d' w i j e g := by
    intro n
    by_cases hn : 2 ≤ n
    · obtain ⟨M, hM⟩ := C91_assembly hA hB hR hQ hbra hket (hr n hn) hw
      exact ⟨M, fun _ => hM⟩
    · exact ⟨Mat.zero 0 0, fun h => absurd h hn⟩
  choose M hM using h
  refine ⟨M, fun n hn => ⟨(hM n hn).1, (hM n hn).2.1, (hM n hn).2.2.1⟩, fun i j => ?_⟩
  rw [element_sum hR hQ cR cQ cw]
  have : Filter.Tendsto (fun n => ∑ e ∈ range R.ne, ∑ g ∈ range Q.ne, Spec.pairSum (lob n) R Q d d' w i j e g) Filter.atTop
      (nhds (∑ e ∈ range R.ne, ∑ g ∈ range Q.ne, ∫ r, part R Q d d' w i j e g r)) := by
    refine tendsto_finsetSum _ fun e he => tendsto_finsetSum _ fun g hg => ?_
    rw [part_value]
    unfold Spec.pairSum
    by_cases h : Spec.lo R Q e g < Spec.hi R Q e g ∧ (R.first e ≤ i ∧ i ≤ R.last e) ∧ (Q.first g ≤ j ∧ j ≤ Q.last g)
    · simp only [if_pos h]
      refine (hc _ ?_).const_mul _
      refine (prod_cont hR hQ cR cQ (mem_range.1 he) (mem_range.1 hg) (cw e (mem_range.1 he) g (mem_range.1 hg)) (by omega) (by omega)).comp ?_ fun x hx => at_mem h.1 hx.1 hx.2
      unfold Spec.at_
      fun_prop
    · simp only [if_neg h]
      exact tendsto_const_nhds
  refine this.congr' ?_
  filter_upwards [Filter.eventually_ge_atTop 2] with n hn
  exact ((hM n hn).2.2.2 i j).symm

/-- **C91, overlap in the atomic programs.** With rules exact for the products of the functions at all orders from `max(nquad, nquad', 5)` on, `overlap(rh)` returns the matrix of
overlap integrals between the two bases over the whole line. -/
theorem C91_overlap (eps sqrteps : ℝ) (hA : Fits A R) (hB : Fits B Q) (hR : R.Sorted) (hQ : Q.Sorted) (cR : R.Cont 0) (cQ : Q.Cont 0) {lob : Nat → List (ℝ × ℝ)}
    (hr : ∀ n, Usable (lob n)) (hx : ∀ n, max (max A.nquad B.nquad) 5 ≤ n → Spec.Exact (lob n) R Q 0 0 fun _ => 1) :
    ∃ M, overlap eps sqrteps lob A B = .ok (some M) ∧ M.rows = R.N ∧ M.cols = Q.N ∧ ∀ i j, M.get i j = ∫ r, R.fn 0 i r * Q.fn 0 j r := by
  have hw : ∀ e < R.ne, ∀ g < Q.ne, ∀ r, Spec.lo R Q e g ≤ r → r ≤ Spec.hi R Q e g → WeightIs (some (radialPower 0)) (fun _ => 1) r := by
    intro e _ g _ r _ _
    simp [WeightIs, radialPower]
  have h : ∀ n, ∃ M, crossAt A B .B0 .B0 (some (radialPower 0)) (lob n) = .ok (some M) ∧ (startOrder A B ≤ n → M.rows = R.N ∧ M.cols = Q.N ∧ ∀ i j, M.get i j = ∫ r, R.fn 0 i r * Q.fn 0 j r) := by
    intro n
    by_cases hn : startOrder A B ≤ n
    · obtain ⟨M, m1, m2, m3, m4⟩ := C91_integral hA hB hR hQ cR cQ (bra := .B0) (ket := .B0) rfl rfl (hr n) hw (fun _ _ _ _ => continuousOn_const) (hx n hn)
      exact ⟨M, m1, fun _ => ⟨m2, m3, fun i j => by rw [m4]; unfold Spec.element; simp⟩⟩
    · obtain ⟨M, m1, _⟩ := C91_assembly hA hB hR hQ (bra := .B0) (ket := .B0) rfl rfl (hr n) hw
      exact ⟨M, m1, fun h => absurd h hn⟩
  choose M m1 m2 using h
  obtain ⟨a, orders, k, t1, _, _, t4, _, t6, t7, _⟩ := Assembly.C16_terminates eps sqrteps diffN scaleN (fun n => some (M n)) (startOrder A B) 512
  have hk : startOrder A B ≤ k := (le_max_left _ _).trans (t4 k (List.mem_of_getLast? t6)).1
  refine ⟨M k, ?_, m2 k hk⟩
  unfold overlap radialIntegral modelPotential matrixElement
  simp only [Bool.false_eq_true, if_false]
  simp only [m1]
  rw [t1, Res.ok_bind]
  simp [t7]

/-- **C91, potentials.** `model_potential(rh, V, lhder, rhder)` with a potential finite on all shared ranges returns the projection at one of the orders tried, at least
`max(nquad, nquad', 5)`, with first derivatives of the functions on the sides where they are asked for. -/
theorem C91_potential (eps sqrteps : ℝ) (hA : Fits A R) (hB : Fits B Q) (hR : R.Sorted) (hQ : Q.Sorted) {lob : Nat → List (ℝ × ℝ)} (hr : ∀ k, Usable (lob k)) {V : ℝ → Option ℝ}
    (hw : ∀ e < R.ne, ∀ g < Q.ne, ∀ r, Spec.lo R Q e g ≤ r → r ≤ Spec.hi R Q e g → V r = some (w r)) (lhder rhder : Bool) :
    ∃ M k, max (max A.nquad B.nquad) 5 ≤ k ∧ modelPotential eps sqrteps lob A B V lhder rhder = .ok (some M) ∧ M.rows = R.N ∧ M.cols = Q.N ∧
      ∀ i j, M.get i j = ∑ e ∈ range R.ne, ∑ g ∈ range Q.ne, Spec.pairSum (lob k) R Q (if lhder then 1 else 0) (if rhder then 1 else 0) w i j e g := by
  have h1 : ∀ b : Bool, (if b then Kind.B1 else Kind.B0).order = some (if b then 1 else 0) := by decide
  choose M m1 m2 m3 m4 using fun k => C91_assembly (f := some V) hA hB hR hQ (h1 lhder) (h1 rhder) (hr k) hw
  obtain ⟨a, orders, k, t1, _, _, t4, _, t6, t7, _⟩ := Assembly.C16_terminates eps sqrteps diffN scaleN (fun n => some (M n)) (startOrder A B) 512
  refine ⟨M k, k, (le_max_left _ _).trans (t4 k (List.mem_of_getLast? t6)).1, ?_, m2 k, m3 k, m4 k⟩
  unfold modelPotential matrixElement
  simp only [m1]
  rw [t1, Res.ok_bind]
  simp [t7]

/-- **C91, powers.** The integrals of `rⁿ` are those of the potential `rⁿ`, infinite at the origin exactly for negative `n`. -/
theorem C91_powers (eps sqrteps : ℝ) (lob : Nat → List (ℝ × ℝ)) (n : Int) (lhder rhder : Bool) : ∃ V, radialIntegral eps sqrteps lob A B n lhder rhder = modelPotential eps sqrteps lob A B V lhder rhder ∧
    (∀ r ≠ 0, V r = some (r ^ n)) ∧ (V 0 = none ↔ n < 0) :=
  ⟨radialPower n, rfl, fun r hr => by simp [radialPower, hr], by unfold radialPower; by_cases h : n < 0 <;> simp [h]⟩

theorem tryOrder_ge {nmax n0 : Nat} : ∀ m, (∀ j < m, DiaQuad.tryOrder nmax n0 j < nmax) → n0 ≤ DiaQuad.tryOrder nmax n0 m
  | 0, _ => le_rfl
  | m + 1, h => by
    have h1 := tryOrder_ge m fun j hj => h j (by omega)
    have h2 := h m (by omega)
    simp only [DiaQuad.tryOrder]
    omega

/-- **C91, overlap in the diatomic program.** `overlap(rh, n)` always returns a finite matrix of the sizes of the two bases: the projection with the volume element `sinh μ coshⁿ μ`
at one of the orders tried, which is at least `max(nquad, nquad', 5)`. -/
theorem C91_diatomic (eps sqrteps : ℝ) (hA : Fits A R) (hB : Fits B Q) (hR : R.Sorted) (hQ : Q.Sorted) {lob : Nat → List (ℝ × ℝ)} (n : Int) (hr : ∀ k, Usable (lob k)) :
    ∃ M k, max (max A.nquad B.nquad) 5 ≤ k ∧ diaOverlap eps sqrteps lob A B n = .ok (some M) ∧ M.rows = R.N ∧ M.cols = Q.N ∧
      ∀ i j, M.get i j = ∑ e ∈ range R.ne, ∑ g ∈ range Q.ne, Spec.pairSum (lob k) R Q 0 0 (fun mu => Real.sinh mu * Real.cosh mu ^ n) i j e g := by
  have hv : ∀ mu, volume n mu = Real.sinh mu * Real.cosh mu ^ n := by
    intro mu
    unfold volume
    by_cases h : n = 0
    · simp [h]
    · rw [if_pos h]
  have hw : ∀ e < R.ne, ∀ g < Q.ne, ∀ r, Spec.lo R Q e g ≤ r → r ≤ Spec.hi R Q e g → WeightIs (some fun mu => some (volume n mu)) (fun mu => Real.sinh mu * Real.cosh mu ^ n) r := by
    intro e _ g _ r _ _
    simp only [WeightIs, hv]
  choose M m1 m2 m3 m4 using fun k => C91_assembly hA hB hR hQ (bra := .B0) (ket := .B0) rfl rfl (hr k) hw
  obtain ⟨m, c, t1, _, t3, t4⟩ := DiaQuad.C74_refinement eps sqrteps diffN scaleN (fun n => some (M n)) 512 (startOrder A B) false
  have hk : startOrder A B ≤ DiaQuad.tryOrder 512 (max (startOrder A B) 2) m := (le_max_left _ _).trans (tryOrder_ge m fun j hj => (t3 j hj).1)
  have hc : c.block = some (M (DiaQuad.tryOrder 512 (max (startOrder A B) 2) m)) := by
    rcases t4 with h | h
    · exact h.2.2.1
    · simpa using h.2.2.1
  refine ⟨_, _, hk, ?_, m2 _, m3 _, m4 _⟩
  unfold diaOverlap
  simp only [m1]
  rw [t1, Res.ok_bind]
  simp [hc]

/-! ### the same basis twice -/

theorem self_pair (hR : R.Sorted) {e g : Nat} (he : e < R.ne) (hg : g < R.ne) (hne : e ≠ g) : ¬Spec.lo R R e g < Spec.hi R R e g := by
  intro h
  obtain ⟨r, h1, h2⟩ := exists_between h
  exact hne (elem_unique hR he hg (max_lt_iff.1 h1).1 (lt_min_iff.1 h2).1 (max_lt_iff.1 h1).2 (lt_min_iff.1 h2).2)

/-- **C91, one basis.** Between a basis and itself only the diagonal element pairs contribute, each over the whole element: the projection is the matrix of `radial_integral` at the same
order, here for the weights `sinhᵐ μ coshⁿ μ` of the diatomic program, whatever the order in which threads take the elements. -/
theorem C91_self (m : Nat) (hA : Fits A R) (hR : R.Sorted) (hr : Usable rule) (hne : A.fe.shape.nelem = R.ne) (n : Int) (sched : List Nat) (hs : sched.Perm (List.range R.ne)) :
    ∃ M M', crossAt A A .B0 .B0 (some fun mu => some (Real.sinh mu ^ m * Real.cosh mu ^ n)) rule = .ok (some M) ∧ diaIntegralAt A m n sched rule = .ok M' ∧ M.Same M' := by
  set W : ℝ → ℝ := fun mu => Real.sinh mu ^ m * Real.cosh mu ^ n with hW
  obtain ⟨M, m1, m2, m3, m4⟩ := C91_assembly hA hA hR hR (bra := .B0) (ket := .B0) (d := 0) (d' := 0) (f := some fun mu => some (Real.sinh mu ^ m * Real.cosh mu ^ n)) (w := W) rfl rfl hr
    (fun _ _ _ _ _ _ _ => rfl)
  have hch : ∀ r, ∀ wt : ℝ, Assembly.weightAt (chsh m n) r wt = wt * W r := by
    intro r wt
    simp only [hW]
    have hm : ¬(m : Int) < 0 := by omega
    unfold chsh
    by_cases h : n = 0 <;> by_cases h' : m = 0
    · simp [h, h', Assembly.weightAt]
    · simp [h, h', Assembly.weightAt, powN, hm]
    · simp [h, h', Assembly.weightAt, powN, (Real.cosh_pos r).ne']
    · simp [h, h', Assembly.weightAt, powN, hm, (Real.cosh_pos r).ne']
  have hbody : ∀ e < R.ne, ∃ P, Assembly.matElRange A.fe.bval e (some (value A)) (some (value A)) rule (chsh m n) (-1) 1 = .ok P ∧ P.rows = A.ncols e ∧ P.cols = A.ncols e ∧
      ∀ a < A.ncols e, ∀ b < A.ncols e, P.get a b =
        (R.b (e + 1) - R.b e) / 2 * Spec.quad rule fun x => R.phi 0 e a x * R.phi 0 e b x * W ((R.b e + R.b (e + 1)) / 2 + (R.b (e + 1) - R.b e) / 2 * x) := by
    intro e he
    have hmid : elementMidpoint A.fe.bval e = .ok (1 / 2 * (R.b e + R.b (e + 1))) := by
      unfold elementMidpoint; rw [begin_ok hA he, Res.ok_bind, end_ok hA he, Res.ok_bind]; rfl
    have hsf : scalingFactor A.fe.bval e = .ok ((R.b (e + 1) - R.b e) / 2) := by
      unfold scalingFactor elementLength
      simp only [nelem_eq hA, ge_iff_le, if_neg (not_le.mpr he), readAt_eq hA he.le, readAt_eq hA (Nat.succ_le_of_lt he), Res.ok_bind, Res.pure_eq]
    have hrow : (rule.map fun p => p.1).mapM (fun x => (value A).row x e) = .ok (rule.map fun p => (List.range (A.ncols e)).map fun a => R.phi 0 e a p.1) := by
      rw [Res.mapM_ok (g := fun x => (List.range (A.ncols e)).map fun a => R.phi 0 e a x), List.map_map]
      · rfl
      · intro x hx
        obtain ⟨p, hp, rfl⟩ := List.mem_map.1 hx
        exact hA.dnf 0 (by omega) e he p.1 (hr.2 p hp).1 (hr.2 p hp).2
    unfold Assembly.matElRange
    have hxs : (rule.map fun p => (1 - (-1 : ℝ)) / 2 * p.1 + (1 + -1) / 2) = rule.map fun p => p.1 := by
      apply List.map_congr_left; intro p _; ring
    dsimp only
    rw [hxs]
    unfold evalCoord
    rw [hmid, Res.ok_bind, hsf, Res.ok_bind, Res.pure_eq, Res.ok_bind, Res.ok_bind, hrow, Res.ok_bind, Res.ok_bind, Res.pure_eq]
    refine ⟨_, rfl, rfl, rfl, ?_⟩
    intro a ha b hb
    dsimp only
    have hz : List.zipWith (fun (p : ℝ × ℝ) ri => Assembly.weightAt (chsh m n) ri (p.2 * ((R.b (e + 1) - R.b e) / 2) * ((1 - (-1 : ℝ)) / 2))) rule
        ((rule.map fun p => p.1).map fun t => 1 / 2 * (R.b e + R.b (e + 1)) + (R.b (e + 1) - R.b e) / 2 * t) =
        rule.map fun p => p.2 * ((R.b (e + 1) - R.b e) / 2) * W ((R.b e + R.b (e + 1)) / 2 + (R.b (e + 1) - R.b e) / 2 * p.1) := by
      rw [List.map_map, List.zipWith_map_right, List.zipWith_self]
      apply List.map_congr_left; intro p _
      rw [hch]
      simp only [Function.comp]
      rw [show 1 / 2 * (R.b e + R.b (e + 1)) = (R.b e + R.b (e + 1)) / 2 by ring]
      ring
    rw [hz]
    have hcomm : (fun (wl : ℝ × List ℝ) (rr : List ℝ) => wl.1 * wl.2.getD a 0 * rr.getD b 0) = fun wl rr => wl.2.getD a 0 * wl.1 * rr.getD b 0 := by
      funext wl rr; ring
    rw [hcomm, sum_zip _ (fun _ => 0) (fun _ => 0) (fun p a => R.phi 0 e a p.1) (fun p b => R.phi 0 e b p.1) ha hb]
    unfold Spec.quad
    rw [← List.sum_map_mul_left]
    congr 1
    apply List.map_congr_left; intro p _
    ring
  have hP : ∀ e, ∃ P, e < R.ne → Assembly.matElRange A.fe.bval e (some (value A)) (some (value A)) rule (chsh m n) (-1) 1 = .ok P ∧ P.rows = A.ncols e ∧ P.cols = A.ncols e ∧
      ∀ a < A.ncols e, ∀ b < A.ncols e, P.get a b =
        (R.b (e + 1) - R.b e) / 2 * Spec.quad rule fun x => R.phi 0 e a x * R.phi 0 e b x * W ((R.b e + R.b (e + 1)) / 2 + (R.b (e + 1) - R.b e) / 2 * x) := by
    intro e
    by_cases he : e < R.ne
    · obtain ⟨P, hP⟩ := hbody e he; exact ⟨P, fun _ => hP⟩
    · exact ⟨Mat.zero 0 0, fun h => absurd h he⟩
  choose P hP using hP
  obtain ⟨t, t1, t2⟩ := Assembly.ompFill_ok (fun e => Assembly.matElRange A.fe.bval e (some (value A)) (some (value A)) rule (chsh m n) (-1) 1) P sched (fun _ => none)
    (fun e he => (hP e (List.mem_range.1 (hs.mem_iff.1 he))).1)
  obtain ⟨M', n1, n2, n3, n4⟩ := Assembly.accumulate_ok A.fe.tab t R.first R.last P R.N R.ne 0 (Mat.zero R.N R.N) rfl rfl (by
    intro e _ he
    have he : e < R.ne := by omega
    have hc := hA.cols e he
    have hp := hP e he
    refine ⟨hA.idx e he, ?_, by omega, by omega, hA.bound e he, by omega⟩
    rw [t2 e, if_pos (hs.mem_iff.2 (List.mem_range.2 he))])
  refine ⟨M, M', m1, ?_, m2.trans n2.symm, m3.trans n3.symm, ?_⟩
  · unfold diaIntegralAt Assembly.globalMatrix
    rw [t1, Res.ok_bind, hA.nbf, Res.ok_bind, hne, n1]
  · intro i _ j _
    rw [m4, n4]
    simp only [Mat.zero, zero_add, ← range_eq_Ico]
    apply sum_congr rfl; intro e he
    have he := mem_range.1 he
    rw [sum_eq_single_of_mem e (mem_range.2 he)]
    · have hlo : Spec.lo R R e e = R.b e := max_self _
      have hhi : Spec.hi R R e e = R.b (e + 1) := min_self _
      have hb := hR e he
      unfold Spec.pairSum Assembly.contrib
      rw [hlo, hhi]
      by_cases h : (R.first e ≤ i ∧ i ≤ R.last e) ∧ (R.first e ≤ j ∧ j ≤ R.last e)
      · have hc := hA.cols e he
        rw [if_pos ⟨hb, h⟩, if_pos h, (hP e he).2.2.2 _ (by omega) _ (by omega)]
        congr 2
        funext x
        have hat : Spec.at_ R R e e x = (R.b e + R.b (e + 1)) / 2 + (R.b (e + 1) - R.b e) / 2 * x := by unfold Spec.at_; rw [hlo, hhi]
        have href : R.ref e (Spec.at_ R R e e x) = x := by
          rw [hat]
          unfold Spec.FE.ref
          have : (R.b (e + 1) - R.b e) / 2 ≠ 0 := (show 0 < (R.b (e + 1) - R.b e) / 2 by linarith).ne'
          rw [add_sub_cancel_left, mul_div_cancel_left₀ _ this]
        unfold Spec.prod
        rw [href, hat]
      · rw [if_neg (by tauto), if_neg h]
    · intro g hg hge
      rw [Spec.pairSum, if_neg]
      intro h
      exact self_pair hR he (mem_range.1 hg) hge.symm h.1

/-- **C91, weights of the diatomic program.** `overlap(rh, n)` and `radial_integral(1, n)` use the same weight. -/
theorem C91_volume (n : Int) (mu : ℝ) : some (volume n mu) = (chsh 1 n).bind fun g => g mu := by
  unfold volume chsh powN
  by_cases h : n = 0
  · simp [h]
  · simp [h, (Real.cosh_pos mu).ne']

/-- **C91, refined integrals.** The diatomic `radial_integral(m, n)` returns the matrix at one of the orders tried, at least `max(nquad, 5)`. -/
theorem C91_refined (eps sqrteps : ℝ) (m n : Int) (sched : List Nat) {lob : Nat → List (ℝ × ℝ)} {M : Nat → Mat ℝ} (hM : ∀ k, diaIntegralAt A m n sched (lob k) = .ok (M k)) :
    ∃ k, max A.nquad 5 ≤ k ∧ diaIntegral eps sqrteps lob A m n sched = .ok (M k) := by
  obtain ⟨q, c, t1, _, t3, t4⟩ := DiaQuad.C74_refinement eps sqrteps Assembly.maxDiff Assembly.maxAbs M 512 (max A.nquad 5) false
  have hk : max A.nquad 5 ≤ DiaQuad.tryOrder 512 (max (max A.nquad 5) 2) q := (le_max_left _ _).trans (tryOrder_ge q fun j hj => (t3 j hj).1)
  have hc : c.block = M (DiaQuad.tryOrder 512 (max (max A.nquad 5) 2) q) := by
    rcases t4 with h | h
    · exact h.2.2.1
    · simpa using h.2.2.1
  refine ⟨_, hk, ?_⟩
  unfold diaIntegral DiaQuad.convergeMat
  simp only [hM]
  rw [t1, Res.ok_bind, Res.ok_bind, Res.pure_eq, hc]

/-! ### constructed bases -/

/-- the local functions of order `d` are polynomials of degree at most `D` -/
def PolyUpTo (R : Spec.FE) (d D : Nat) : Prop :=
  ∀ e < R.ne, ∀ a, R.first e + a ≤ R.last e → ∃ p : Polynomial ℝ, p.natDegree ≤ D ∧ ∀ x, R.phi d e a x = p.eval x

theorem PolyUpTo.cont {D : Nat} (h : PolyUpTo R d D) : R.Cont d := by
  intro e he a ha
  obtain ⟨p, _, hp⟩ := h e he a ha
  exact (p.continuous.congr fun x => (hp x).symm).continuousOn

/-- **C91, exactness.** A rule exact for polynomials up to the sum of the degrees of the two bases is exact for their overlaps on all shared ranges, whatever the two grids. -/
theorem C91_exact {D D' : Nat} (h : PolyUpTo R d D) (h' : PolyUpTo Q d' D')
    (hrule : ∀ p : Polynomial ℝ, p.natDegree ≤ D + D' → Spec.quad rule (fun x => p.eval x) = ∫ x in (-1 : ℝ)..1, p.eval x) : Spec.Exact rule R Q d d' fun _ => 1 := by
  intro e he g hg _ a ha b hb
  obtain ⟨p, p1, p2⟩ := h e he a ha
  obtain ⟨q, q1, q2⟩ := h' g hg b hb
  have lin : ∀ (T : Spec.FE) (k : Nat), ∃ l : Polynomial ℝ, l.natDegree ≤ 1 ∧ ∀ x, T.ref k (Spec.at_ R Q e g x) = l.eval x := by
    intro T k
    refine ⟨Polynomial.C ((Spec.hi R Q e g - Spec.lo R Q e g) / 2 / ((T.b (k + 1) - T.b k) / 2)) * Polynomial.X +
      Polynomial.C (((Spec.lo R Q e g + Spec.hi R Q e g) / 2 - (T.b k + T.b (k + 1)) / 2) / ((T.b (k + 1) - T.b k) / 2)), Polynomial.natDegree_linear_le, fun x => ?_⟩
    simp only [Polynomial.eval_add, Polynomial.eval_mul, Polynomial.eval_C, Polynomial.eval_X]
    unfold Spec.FE.ref Spec.at_
    ring
  obtain ⟨l, l1, l2⟩ := lin R e
  obtain ⟨k, k1, k2⟩ := lin Q g
  have hx : ∀ x, Spec.prod R Q d d' (fun _ => 1) e g a b (Spec.at_ R Q e g x) = (p.comp l * q.comp k).eval x := by
    intro x
    unfold Spec.prod
    rw [p2, q2, l2, k2, Polynomial.eval_mul, Polynomial.eval_comp, Polynomial.eval_comp, mul_one]
  simp only [hx]
  apply hrule
  refine Polynomial.natDegree_mul_le.trans (Nat.add_le_add ?_ ?_)
  · exact Polynomial.natDegree_comp_le.trans ((Nat.mul_le_mul p1 l1).trans_eq (mul_one _))
  · exact Polynomial.natDegree_comp_le.trans ((Nat.mul_le_mul q1 k1).trans_eq (mul_one _))

/-- **C91, all bases.** Every constructed finite element basis with at least one function, of every family, number of nodes, increasing grid and boundary conditions, is covered: it implements
a list of elements in increasing order whose local functions and derivatives up to the second are polynomials. -/
theorem C91_constructed (fam : Family) (n ne : Nat) (zfl zdl zfr zdr : Bool) (hn : 2 ≤ n) (hne : 1 ≤ ne) (x0 : Nat → ℝ) (bval : List ℝ) (hb : bval.length = ne + 1)
    (hs : bval.Pairwise (· < ·)) (o : FEObj ℝ) (ho : construct (PolyBasis.mk' fam n) bval zfl zdl zfr zdr = .ok o) (N : Nat) (hN : FEShape.getNbf o.tab = .ok N) (hpos : 0 < N) (nquad : Nat) :
    ∃ ncols R, Fits ⟨o, ncols, fun d x e => Poly.feEvalDnf o.shape o.bval x0 x d e, nquad⟩ R ∧ R.ne = ne ∧ R.N = N ∧ o.shape.nelem = R.ne ∧ R.Sorted ∧
      (∀ i (hi : i < bval.length), R.b i = bval[i]) ∧ ∃ D, ∀ d ≤ 2, PolyUpTo R d D := by
  obtain ⟨tab, N', g1, g2, g3, g4⟩ := C01_numbering fam n ne zfl zdl zfr zdr hn hne
  have ho' : o = ⟨feShape fam n ne zfl zdl zfr zdr, bval, tab⟩ := by
    unfold construct at ho
    rw [hb] at ho
    simp only [feShape] at g1
    simp only [g1, Res.ok_bind, Res.pure_eq, Res.ok.injEq] at ho
    exact ho.symm
  subst ho'
  simp only at hN
  rw [g3] at hN
  obtain rfl := Res.ok.inj hN
  obtain ⟨first, last, count, k1, k2, k3⟩ := g4 hpos
  obtain ⟨m, rfl⟩ : ∃ m, n = m + 2 := ⟨n - 2, by omega⟩
  have hcount : ∀ e < ne, (enBlocks fam m e ne zfl zdl zfr zdr).length = count e := by
    intro e he
    obtain ⟨en, h1, h2⟩ := k2 e he
    rw [feShape, basisIndices_eq] at h1
    rw [Res.ok.inj h1, h2]
  let len : Nat → ℝ := fun e => (bval.getD (e + 1) 0 - bval.getD e 0) / 2
  let pol : Nat → Nat → Nat → Polynomial ℝ := fun d e a =>
    Polynomial.C (1 / len e ^ d) * (Polynomial.derivative^[d] (Poly.primPoly fam (m + 2) x0 (len e) ((enBlocks fam m e ne zfl zdl zfr zdr).getD a 0)))
  have hlt : ∀ i, (h : i + 1 < bval.length) → bval[i] < bval[i + 1] := fun i h => List.pairwise_iff_getElem.1 hs i (i + 1) (by omega) h (by omega)
  refine ⟨count, ⟨ne, fun i => bval.getD i 0, N', first, last, fun d e a x => (pol d e a).eval x⟩, ⟨hne, hb, ?_, g3, k1, k3.bound, ?_, ?_⟩, rfl, rfl, rfl, ?_, ?_, ?_⟩
  · intro i hi
    dsimp only at hi ⊢
    rw [List.getElem?_eq_getElem (show i < bval.length by omega), List.getD_eq_getElem?_getD, List.getElem?_eq_getElem (show i < bval.length by omega)]
    rfl
  · intro e he
    exact k3.size e he
  · intro d hd e he x _ _
    dsimp only at he ⊢
    have hmax : d ≤ Poly.maxN fam := by cases fam <;> simp only [Poly.maxN] <;> omega
    have hle : (bval[e + 1]'(by omega) - bval[e]'(by omega)) / 2 = len e := by
      simp only [len]
      rw [List.getD_eq_getElem?_getD, List.getD_eq_getElem?_getD, List.getElem?_eq_getElem (show e < bval.length by omega), List.getElem?_eq_getElem (show e + 1 < bval.length by omega)]
      rfl
    rw [feShape, Poly.feEvalDnf_eq fam m ne e zfl zdl zfr zdr bval hb x0 x d hmax he, hle, ← hcount e he]
    congr 1
    apply List.ext_getElem (by simp)
    intro a h1 h2
    simp only [List.length_map] at h1
    simp only [List.getElem_map, List.getElem_range, pol, Polynomial.eval_mul, Polynomial.eval_C, Poly.dv]
    rw [List.getD_eq_getElem?_getD, List.getElem?_eq_getElem h1]
    simp only [Option.getD_some]
    ring
  · intro e he
    dsimp only at he ⊢
    rw [List.getD_eq_getElem?_getD, List.getD_eq_getElem?_getD, List.getElem?_eq_getElem (show e < bval.length by omega), List.getElem?_eq_getElem (show e + 1 < bval.length by omega)]
    exact hlt e (by omega)
  · intro i hi
    dsimp only
    rw [List.getD_eq_getElem?_getD, List.getElem?_eq_getElem hi]
    rfl
  · refine ⟨∑ d ∈ range 3, ∑ e ∈ range ne, ∑ a ∈ range N', (pol d e a).natDegree, fun d hd e he a ha => ⟨pol d e a, ?_, fun _ => rfl⟩⟩
    have hl := k3.bound e he
    dsimp only at ha he
    calc (pol d e a).natDegree ≤ ∑ a ∈ range N', (pol d e a).natDegree := single_le_sum (f := fun a => (pol d e a).natDegree) (fun _ _ => Nat.zero_le _) (mem_range.2 (by omega))
      _ ≤ ∑ e ∈ range ne, ∑ a ∈ range N', (pol d e a).natDegree := single_le_sum (f := fun e => ∑ a ∈ range N', (pol d e a).natDegree) (fun _ _ => Nat.zero_le _) (mem_range.2 he)
      _ ≤ _ := single_le_sum (f := fun d => ∑ e ∈ range ne, ∑ a ∈ range N', (pol d e a).natDegree) (fun _ _ => Nat.zero_le _) (mem_range.2 (by omega))

/-! ### a case meeting the hypotheses -/

/-- piecewise linear functions on `ne` elements -/
noncomputable def hat (ne : Nat) (b : Nat → ℝ) : Spec.FE := ⟨ne, b, ne + 1, fun e => e, fun e => e + 1, fun d _ a x =>
  if d = 0 then (if a = 0 then (1 - x) / 2 else (1 + x) / 2) else 0⟩

/-- a basis object for them on two elements -/
noncomputable def hatObj (b0 b1 b2 : ℝ) : Basis := ⟨⟨⟨PolyBasis.mk' .lip 2, 3, false, false, false, false⟩, [b0, b1, b2], [(0, 1), (1, 2)]⟩, fun _ => 2,
  fun d x _ => .ok ((List.range 2).map fun a => if d = 0 then (if a = 0 then (1 - x) / 2 else (1 + x) / 2) else 0), 3⟩

noncomputable def hat3 (b0 b1 b2 : ℝ) : Spec.FE := hat 2 fun i => if i = 0 then b0 else if i = 1 then b1 else b2

theorem hat_fits (b0 b1 b2 : ℝ) : Fits (hatObj b0 b1 b2) (hat3 b0 b1 b2) := by
  refine ⟨show 1 ≤ 2 by omega, rfl, ?_, rfl, ?_, ?_, fun _ _ => rfl, fun _ _ _ _ _ _ _ => rfl⟩
  · intro i hi
    have : i ≤ 2 := hi
    interval_cases i <;> simp [hatObj, hat3, hat]
  · intro e he
    have : e < 2 := he
    interval_cases e <;> rfl
  · intro e he
    have he : e < 2 := he
    show e + 1 < 2 + 1
    omega

theorem hat_sorted {b0 b1 b2 : ℝ} (h1 : b0 < b1) (h2 : b1 < b2) : (hat3 b0 b1 b2).Sorted := by
  intro e he
  have : e < 2 := he
  interval_cases e <;> simpa [hat3, hat]

theorem hat_poly (b0 b1 b2 : ℝ) : PolyUpTo (hat3 b0 b1 b2) 0 1 := by
  intro e _ a _
  by_cases ha : a = 0
  · refine ⟨Polynomial.C (-1 / 2) * Polynomial.X + Polynomial.C (1 / 2), Polynomial.natDegree_linear_le, fun x => ?_⟩
    simp only [hat3, hat, ha, if_true, Polynomial.eval_add, Polynomial.eval_mul, Polynomial.eval_C, Polynomial.eval_X]; ring
  · refine ⟨Polynomial.C (1 / 2) * Polynomial.X + Polynomial.C (1 / 2), Polynomial.natDegree_linear_le, fun x => ?_⟩
    simp only [hat3, hat, ha, if_true, if_false, Polynomial.eval_add, Polynomial.eval_mul, Polynomial.eval_C, Polynomial.eval_X]; ring

/-- the three-point Lobatto rule -/
noncomputable def simpson : List (ℝ × ℝ) := [(-1, 1 / 3), (0, 4 / 3), (1, 1 / 3)]

theorem simpson_usable : Usable simpson := by
  refine ⟨by simp [simpson], fun p hp => ?_⟩
  simp only [simpson, List.mem_cons, List.not_mem_nil, or_false] at hp
  rcases hp with rfl | rfl | rfl <;> norm_num

theorem simpson_exact (p : Polynomial ℝ) (hp : p.natDegree ≤ 1 + 1) : Spec.quad simpson (fun x => p.eval x) = ∫ x in (-1 : ℝ)..1, p.eval x := by
  have h : ∀ x, p.eval x = p.coeff 0 + p.coeff 1 * x + p.coeff 2 * x ^ 2 := by
    intro x
    rw [Polynomial.eval_eq_sum_range' (show p.natDegree < 3 by omega)]
    simp [sum_range_succ]
  simp only [h, Spec.quad, simpson, List.map_cons, List.map_nil, List.sum_cons, List.sum_nil]
  rw [intervalIntegral.integral_add ((show Continuous fun x : ℝ => p.coeff 0 + p.coeff 1 * x by fun_prop).intervalIntegrable _ _) ((show Continuous fun x : ℝ => p.coeff 2 * x ^ 2 by fun_prop).intervalIntegrable _ _),
    intervalIntegral.integral_add ((show Continuous fun _ : ℝ => p.coeff 0 by fun_prop).intervalIntegrable _ _) ((show Continuous fun x : ℝ => p.coeff 1 * x by fun_prop).intervalIntegrable _ _),
    intervalIntegral.integral_const_mul, intervalIntegral.integral_const_mul, integral_pow, integral_id, intervalIntegral.integral_const]
  norm_num
  ring

/-- Grids `0, 1, 2` and `0, 3/2, 4` in which boundaries do not match: all hypotheses hold, and the overlap is the matrix of integrals. -/
example (eps sqrteps : ℝ) : ∃ M, overlap eps sqrteps (fun _ => simpson) (hatObj 0 1 2) (hatObj 0 (3 / 2) 4) = .ok (some M) ∧ M.rows = 3 ∧ M.cols = 3 ∧
    ∀ i j, M.get i j = ∫ r, (hat3 0 1 2).fn 0 i r * (hat3 0 (3 / 2) 4).fn 0 j r :=
  C91_overlap eps sqrteps (hat_fits _ _ _) (hat_fits _ _ _) (hat_sorted (by norm_num) (by norm_num)) (hat_sorted (by norm_num) (by norm_num)) (hat_poly _ _ _).cont (hat_poly _ _ _).cont
    (fun _ => simpson_usable) (fun _ _ => C91_exact (hat_poly _ _ _) (hat_poly _ _ _) simpson_exact)

/-- Witness of the finding: the potential `1/r` between these bases is not finite. -/
example : crossAt (hatObj 0 1 2) (hatObj 0 (3 / 2) 4) .B0 .B0 (some (radialPower (-1))) simpson = .ok none :=
  C91_singular (hat_fits _ _ _) (hat_fits _ _ _) (hat_sorted (by norm_num) (by norm_num)) (hat_sorted (by norm_num) (by norm_num)) rfl rfl simpson_usable rfl
    (by simp [radialPower, hat3, hat]) ⟨(-1, 1 / 3), by simp [simpson], rfl⟩

example : crossAt (hatObj 0 1 2) (hatObj 3 4 5) .B0 .B0 none simpson = .ok (some (Mat.zero 3 3)) :=
  C91_disjoint (hat_fits _ _ _) (hat_fits _ _ _) (hat_sorted (by norm_num) (by norm_num)) (hat_sorted (by norm_num) (by norm_num)) (Or.inl (show (2 : ℝ) ≤ 3 by norm_num))

end Cross
end HelFEM
