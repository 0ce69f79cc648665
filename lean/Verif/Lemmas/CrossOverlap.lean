import Verif.Model.CrossOverlap
import Verif.Spec.CrossOverlap
import Verif.Props.Elements
import Verif.Props.Assembly
import Verif.Props.DiaQuad
import Mathlib.Tactic.Positivity
import Mathlib.Tactic.FieldSimp

/-!
# Lemmas for the matrix elements between two radial bases
-/

namespace HelFEM
namespace Cross
open Finset Grid

/-- The basis object `A` implements the finite element basis `R`. -/
structure Fits (A : Basis) (R : Spec.FE) : Prop where
  pos : 1 ≤ R.ne
  len : A.fe.bval.length = R.ne + 1
  val : ∀ i ≤ R.ne, A.fe.bval[i]? = some (R.b i)
  nbf : FEShape.getNbf A.fe.tab = .ok R.N
  idx : ∀ e < R.ne, FEShape.getIdx A.fe.tab e = .ok (R.first e, R.last e)
  bound : ∀ e < R.ne, R.last e < R.N
  cols : ∀ e < R.ne, R.first e + A.ncols e = R.last e + 1
  dnf : ∀ d ≤ 2, ∀ e < R.ne, ∀ x, -1 ≤ x → x ≤ 1 → A.dnf d x e = .ok ((List.range (A.ncols e)).map fun a => R.phi d e a x)

/-- derivative order of a kind -/
def Kind.order : Kind → Option Nat
  | .B0 => some 0
  | .B1 => some 1
  | .B2 => some 2
  | _ => none

theorem order_le {k : Kind} {d : Nat} (h : k.order = some d) : d ≤ 2 := by
  cases k <;> simp only [Kind.order, Option.some.injEq, reduceCtorEq] at h <;> omega

theorem evalB_ok {A : Basis} {R : Spec.FE} (hA : Fits A R) {k : Kind} {d : Nat} (hk : k.order = some d) {e : Nat} (he : e < R.ne) {x : ℝ} (h1 : -1 ≤ x) (h2 : x ≤ 1) :
    evalB A x e k = .ok ((List.range (A.ncols e)).map fun a => R.phi d e a x) := by
  rw [← hA.dnf d (order_le hk) e he x h1 h2]
  cases k <;> simp only [Kind.order, Option.some.injEq, reduceCtorEq] at hk <;> subst hk <;> rfl

section
variable {A B : Basis} {R Q : Spec.FE}

theorem nelem_eq (hA : Fits A R) : nelem A.fe.bval = R.ne := by
  unfold nelem; rw [hA.len, if_neg (by omega)]; omega

theorem readAt_eq (hA : Fits A R) {i : Nat} (hi : i ≤ R.ne) : readAt A.fe.bval i = .ok (R.b i) := by
  unfold readAt; rw [hA.val i hi]

theorem begin_ok (hA : Fits A R) {e : Nat} (he : e < R.ne) : elementBegin A.fe.bval e = .ok (R.b e) := by
  unfold elementBegin; rw [nelem_eq hA, if_neg (by omega), readAt_eq hA he.le]

theorem end_ok (hA : Fits A R) {e : Nat} (he : e < R.ne) : elementEnd A.fe.bval e = .ok (R.b (e + 1)) := by
  unfold elementEnd; rw [nelem_eq hA, if_neg (by omega), readAt_eq hA he]

theorem prim_ok (hA : Fits A R) {e : Nat} (he : e < R.ne) {y : List ℝ} (hy : y ≠ []) (h : ∀ t ∈ y, R.b e ≤ t ∧ t ≤ R.b (e + 1)) :
    evalPrim A.fe.bval y e = .ok (y.map (R.ref e)) := by
  unfold evalPrim elementMidpoint scalingFactor elementLength
  simp only [begin_ok hA he, end_ok hA he, Res.ok_bind, if_neg hy, nelem_eq hA, ge_iff_le, if_neg (not_le.mpr he), readAt_eq hA he.le, readAt_eq hA (Nat.succ_le_of_lt he), Res.pure_eq]
  rw [if_neg]
  · congr 1
    apply List.map_congr_left
    intro t _
    unfold Spec.FE.ref
    congr 1
    ring
  · simp only [Bool.or_eq_true, List.any_eq_true, decide_eq_true_eq, not_or, not_exists, not_and, not_lt]
    exact ⟨fun t ht => (h t ht).1, fun t ht => (h t ht).2⟩

theorem shares_iff {a b c d : ℝ} (h1 : a < b) (h2 : c < d) : shares a b c d = true ↔ max a c < min b d := by
  unfold shares
  simp only [Bool.or_eq_true, decide_eq_true_eq, max_lt_iff, lt_min_iff]
  constructor
  · rintro (⟨h3, h4⟩ | ⟨h3, h4⟩)
    · exact ⟨⟨h1, h4⟩, lt_of_le_of_lt h3 h2, h2⟩
    · exact ⟨⟨h1, lt_of_le_of_lt h3 h1⟩, h4, h2⟩
  · rintro ⟨⟨_, h5⟩, h4, _⟩
    rcases le_total a c with h | h
    · exact Or.inl ⟨h, h5⟩
    · exact Or.inr ⟨h, h4⟩

theorem fold_filter {p : Nat → Bool} {f : List Nat → Nat → Res (List Nat)} : ∀ (l acc : List Nat), (∀ j ∈ l, ∀ acc, f acc j = .ok (if p j then acc ++ [j] else acc)) →
    l.foldlM f acc = .ok (acc ++ l.filter p)
  | [], acc, _ => by simp
  | j :: l, acc, h => by
    rw [List.foldlM_cons, h j (by simp), Res.ok_bind, fold_filter l _ (fun k hk => h k (by simp [hk]))]
    by_cases hp : p j
    · simp [hp]
    · simp [hp]

open Classical in
/-- elements of the second basis sharing a range with element `e` -/
noncomputable def partners (R Q : Spec.FE) (e : Nat) : List Nat := (List.range Q.ne).filter fun f => decide (Spec.lo R Q e f < Spec.hi R Q e f)

theorem listed_ok (hA : Fits A R) (hB : Fits B Q) (hR : R.Sorted) (hQ : Q.Sorted) {e : Nat} (he : e < R.ne) : listed A.fe.bval B.fe.bval e = .ok (partners R Q e) := by
  unfold listed partners
  rw [begin_ok hA he, Res.ok_bind, end_ok hA he, Res.ok_bind, nelem_eq hB]
  rw [fold_filter (p := fun f => decide (Spec.lo R Q e f < Spec.hi R Q e f)), List.nil_append]
  intro f hf acc
  have hf := List.mem_range.1 hf
  rw [begin_ok hB hf, Res.ok_bind, end_ok hB hf, Res.ok_bind, Res.pure_eq]
  congr 1
  have := shares_iff (hR e he) (hQ f hf)
  by_cases hs : shares (R.b e) (R.b (e + 1)) (Q.b f) (Q.b (f + 1)) = true
  · rw [if_pos hs, if_pos (by exact decide_eq_true (this.1 hs))]
  · rw [if_neg hs, if_neg]
    intro h
    exact hs (this.2 (of_decide_eq_true h))

theorem table_ok (hA : Fits A R) (hB : Fits B Q) (hR : R.Sorted) (hQ : Q.Sorted) : table A.fe.bval B.fe.bval = .ok ((List.range R.ne).map (partners R Q)) := by
  unfold table
  rw [nelem_eq hA]
  exact Res.mapM_ok _ _ _ fun e he => listed_ok hA hB hR hQ (List.mem_range.1 he)

/-- the weight function `f` of the code has value `w r` at `r`; an empty function stands for 1 -/
def WeightIs (f : Option (ℝ → Option ℝ)) (w : ℝ → ℝ) (r : ℝ) : Prop := match f with
  | none => w r = 1
  | some g => g r = some (w r)

theorem weights_ok {f : Option (ℝ → Option ℝ)} {w : ℝ → ℝ} {len : ℝ} (pt : ℝ × ℝ → ℝ) : ∀ (rule : List (ℝ × ℝ)), (∀ p ∈ rule, WeightIs f w (pt p)) →
    weights f len rule (rule.map pt) = some (rule.map fun p => p.2 * len * w (pt p))
  | [], _ => rfl
  | p :: rule, h => by
    have ih := weights_ok (len := len) pt rule fun q hq => h q (by simp [hq])
    unfold weights at ih ⊢
    rw [List.map_cons, List.zipWith_cons_cons, List.mapM_cons, ih]
    have h0 := h p (by simp)
    unfold WeightIs at h0
    cases f with
    | none => simp only at h0; simp [h0]
    | some g => simp only at h0; simp [h0]

theorem weights_none {g : ℝ → Option ℝ} {len : ℝ} (pt : ℝ × ℝ → ℝ) : ∀ (rule : List (ℝ × ℝ)), (∃ p ∈ rule, g (pt p) = none) →
    weights (some g) len rule (rule.map pt) = none
  | [], h => by simp at h
  | p :: rule, h => by
    unfold weights
    rw [List.map_cons, List.zipWith_cons_cons, List.mapM_cons]
    by_cases h0 : g (pt p) = none
    · simp [h0]
    · have ih := weights_none (g := g) (len := len) pt rule (by
        obtain ⟨q, hq, h1⟩ := h
        rcases List.mem_cons.1 hq with rfl | hq
        · exact absurd h1 h0
        · exact ⟨q, hq, h1⟩)
      unfold weights at ih
      obtain ⟨v, hv⟩ := Option.ne_none_iff_exists'.1 h0
      simp only [hv, Option.map_some, id]
      simp [ih]

/-- a usable rule: not empty, nodes in `[-1, 1]` -/
def Usable (rule : List (ℝ × ℝ)) : Prop := rule ≠ [] ∧ ∀ p ∈ rule, -1 ≤ p.1 ∧ p.1 ≤ 1

theorem at_mem {e f : Nat} (h : Spec.lo R Q e f < Spec.hi R Q e f) {x : ℝ} (h1 : -1 ≤ x) (h2 : x ≤ 1) :
    Spec.lo R Q e f ≤ Spec.at_ R Q e f x ∧ Spec.at_ R Q e f x ≤ Spec.hi R Q e f := by
  unfold Spec.at_
  constructor <;> nlinarith

theorem ref_mem (hR : R.Sorted) {e : Nat} (he : e < R.ne) {r : ℝ} (h1 : R.b e ≤ r) (h2 : r ≤ R.b (e + 1)) : -1 ≤ R.ref e r ∧ R.ref e r ≤ 1 := by
  have h := hR e he
  unfold Spec.FE.ref
  have hp : 0 < (R.b (e + 1) - R.b e) / 2 := by linarith
  rw [le_div_iff₀ hp, div_le_iff₀ hp]
  constructor <;> linarith

theorem sum_zip {n m : Nat} (W U V : ℝ × ℝ → ℝ) (I : ℝ × ℝ → Nat → ℝ) (J : ℝ × ℝ → Nat → ℝ) {a b : Nat} (ha : a < n) (hb : b < m) : ∀ rule : List (ℝ × ℝ),
    (List.zipWith (fun (wi : ℝ × List ℝ) (rj : List ℝ) => wi.2.getD a 0 * wi.1 * rj.getD b 0)
      (List.zip (rule.map W) (rule.map fun p => (List.range n).map (I p))) (rule.map fun p => (List.range m).map (J p))).sum =
    (rule.map fun p => I p a * W p * J p b).sum
  | [] => rfl
  | p :: rule => by
    simp only [List.map_cons, List.zip_cons_cons, List.zipWith_cons_cons, List.sum_cons]
    rw [sum_zip W U V I J ha hb rule]
    congr 1
    simp [List.getD_eq_getElem?_getD, ha, hb]

variable {bra ket : Kind} {d d' : Nat} {f : Option (ℝ → Option ℝ)} {w : ℝ → ℝ} {rule : List (ℝ × ℝ)}

/-- points of the rule on a shared range: clamping changes nothing -/
theorem clamp_map {e g : Nat} (h : Spec.lo R Q e g < Spec.hi R Q e g) (hr : Usable rule) :
    (rule.map fun p => min (max (1 / 2 * (Spec.hi R Q e g + Spec.lo R Q e g) + 1 / 2 * (Spec.hi R Q e g - Spec.lo R Q e g) * p.1) (Spec.lo R Q e g)) (Spec.hi R Q e g)) =
      rule.map fun p => Spec.at_ R Q e g p.1 := by
  apply List.map_congr_left
  intro p hp
  obtain ⟨h1, h2⟩ := at_mem h (hr.2 p hp).1 (hr.2 p hp).2
  have : 1 / 2 * (Spec.hi R Q e g + Spec.lo R Q e g) + 1 / 2 * (Spec.hi R Q e g - Spec.lo R Q e g) * p.1 = Spec.at_ R Q e g p.1 := by
    unfold Spec.at_; ring
  rw [this, max_eq_left h1, min_eq_left h2]

/-- everything up to the weights -/
theorem piece_eq (hA : Fits A R) (hB : Fits B Q) (hR : R.Sorted) (hQ : Q.Sorted) (hbra : bra.order = some d) (hket : ket.order = some d') (hr : Usable rule) {e g : Nat}
    (he : e < R.ne) (hg : g < Q.ne) (h : Spec.lo R Q e g < Spec.hi R Q e g) :
    piece A B bra ket f rule e g = .ok ((weights f ((Spec.hi R Q e g - Spec.lo R Q e g) / 2) rule (rule.map fun p => Spec.at_ R Q e g p.1)).map fun w =>
      ⟨A.ncols e, B.ncols g, fun a b =>
        (List.zipWith (fun (wi : ℝ × List ℝ) (rj : List ℝ) => wi.2.getD a 0 * wi.1 * rj.getD b 0)
          (List.zip w (rule.map fun p => (List.range (A.ncols e)).map fun a => R.phi d e a (R.ref e (Spec.at_ R Q e g p.1))))
          (rule.map fun p => (List.range (B.ncols g)).map fun b => Q.phi d' g b (Q.ref g (Spec.at_ R Q e g p.1)))).sum⟩) := by
  have hne : (rule.map fun p => Spec.at_ R Q e g p.1) ≠ [] := by simpa using hr.1
  have hm : ∀ p ∈ rule, (R.b e ≤ Spec.at_ R Q e g p.1 ∧ Spec.at_ R Q e g p.1 ≤ R.b (e + 1)) ∧ (Q.b g ≤ Spec.at_ R Q e g p.1 ∧ Spec.at_ R Q e g p.1 ≤ Q.b (g + 1)) := by
    intro p hp
    obtain ⟨h1, h2⟩ := at_mem h (hr.2 p hp).1 (hr.2 p hp).2
    exact ⟨⟨(le_max_left _ _).trans h1, h2.trans (min_le_left _ _)⟩, (le_max_right _ _).trans h1, h2.trans (min_le_right _ _)⟩
  unfold piece
  rw [begin_ok hA he, Res.ok_bind, begin_ok hB hg, Res.ok_bind, end_ok hA he, Res.ok_bind, end_ok hB hg, Res.ok_bind]
  dsimp only
  rw [show max (R.b e) (Q.b g) = Spec.lo R Q e g from rfl, show min (R.b (e + 1)) (Q.b (g + 1)) = Spec.hi R Q e g from rfl, clamp_map h hr]
  rw [prim_ok hA he hne (List.forall_mem_map.2 fun p hp => (hm p hp).1), Res.ok_bind, prim_ok hB hg hne (List.forall_mem_map.2 fun p hp => (hm p hp).2), Res.ok_bind]
  rw [List.map_map, List.map_map]
  rw [Res.mapM_ok (g := fun x => (List.range (A.ncols e)).map fun a => R.phi d e a x) (h := ?_), Res.ok_bind,
    Res.mapM_ok (g := fun x => (List.range (B.ncols g)).map fun b => Q.phi d' g b x) (h := ?_), Res.ok_bind, Res.pure_eq]
  · rw [show 1 / 2 * (Spec.hi R Q e g - Spec.lo R Q e g) = (Spec.hi R Q e g - Spec.lo R Q e g) / 2 by ring, List.map_map, List.map_map]
    rfl
  · intro x hx
    obtain ⟨p, hp, rfl⟩ := List.mem_map.1 hx
    have := ref_mem hQ hg (hm p hp).2.1 (hm p hp).2.2
    exact evalB_ok hB hket hg this.1 this.2
  · intro x hx
    obtain ⟨p, hp, rfl⟩ := List.mem_map.1 hx
    have := ref_mem hR he (hm p hp).1.1 (hm p hp).1.2
    exact evalB_ok hA hbra he this.1 this.2

theorem piece_ok (hA : Fits A R) (hB : Fits B Q) (hR : R.Sorted) (hQ : Q.Sorted) (hbra : bra.order = some d) (hket : ket.order = some d') (hr : Usable rule) {e g : Nat}
    (he : e < R.ne) (hg : g < Q.ne) (h : Spec.lo R Q e g < Spec.hi R Q e g) (hw : ∀ r, Spec.lo R Q e g ≤ r → r ≤ Spec.hi R Q e g → WeightIs f w r) :
    ∃ M, piece A B bra ket f rule e g = .ok (some M) ∧ M.rows = A.ncols e ∧ M.cols = B.ncols g ∧ ∀ a < A.ncols e, ∀ b < B.ncols g, M.get a b =
      (Spec.hi R Q e g - Spec.lo R Q e g) / 2 * Spec.quad rule (fun x => Spec.prod R Q d d' w e g a b (Spec.at_ R Q e g x)) := by
  rw [piece_eq hA hB hR hQ hbra hket hr he hg h]
  rw [weights_ok (w := w) (fun p => Spec.at_ R Q e g p.1) rule (fun p hp => hw _ (at_mem h (hr.2 p hp).1 (hr.2 p hp).2).1 (at_mem h (hr.2 p hp).1 (hr.2 p hp).2).2)]
  refine ⟨_, rfl, rfl, rfl, ?_⟩
  intro a ha b hb
  dsimp only
  rw [sum_zip _ (fun _ => 0) (fun _ => 0) (fun p a => R.phi d e a (R.ref e (Spec.at_ R Q e g p.1))) (fun p b => Q.phi d' g b (Q.ref g (Spec.at_ R Q e g p.1))) ha hb]
  unfold Spec.quad
  rw [← List.sum_map_mul_left]
  congr 1
  apply List.map_congr_left
  intro p _
  unfold Spec.prod
  ring

/-- loop adding to a finite matrix -/
theorem fold_some {ι : Type _} (N N' : Nat) (body : Option (Mat ℝ) → ι → Res (Option (Mat ℝ))) (c : ι → Nat → Nat → ℝ) :
    ∀ (l : List ι) (M : Mat ℝ), M.rows = N → M.cols = N' →
      (∀ e ∈ l, ∀ M : Mat ℝ, M.rows = N → M.cols = N' → ∃ M', body (some M) e = .ok (some M') ∧ M'.rows = N ∧ M'.cols = N' ∧ ∀ i j, M'.get i j = M.get i j + c e i j) →
      ∃ M', l.foldlM body (some M) = .ok (some M') ∧ M'.rows = N ∧ M'.cols = N' ∧ ∀ i j, M'.get i j = M.get i j + (l.map fun e => c e i j).sum
  | [], M, h1, h2, _ => ⟨M, rfl, h1, h2, by simp⟩
  | e :: l, M, h1, h2, h => by
    obtain ⟨M1, a1, a2, a3, a4⟩ := h e (by simp) M h1 h2
    obtain ⟨M2, b1, b2, b3, b4⟩ := fold_some N N' body c l M1 a2 a3 (fun e' he' => h e' (by simp [he']))
    refine ⟨M2, ?_, b2, b3, ?_⟩
    · rw [List.foldlM_cons, a1]; exact b1
    · intro i j
      rw [b4, a4, List.map_cons, List.sum_cons, add_assoc]

/-- list of the element pairs in the order of the loops -/
noncomputable def pairList (R Q : Spec.FE) : List (Nat × Nat) := (List.range R.ne).flatMap fun e => (partners R Q e).map fun g => (e, g)

theorem mem_pairList {p : Nat × Nat} : p ∈ pairList R Q ↔ p.1 < R.ne ∧ p.2 < Q.ne ∧ Spec.lo R Q p.1 p.2 < Spec.hi R Q p.1 p.2 := by
  obtain ⟨e, g⟩ := p
  simp only [pairList, partners, List.mem_flatMap, List.mem_range, List.mem_map, List.mem_filter, decide_eq_true_eq, Prod.mk.injEq]
  constructor
  · rintro ⟨e', he, g', ⟨hg, h⟩, rfl, rfl⟩; exact ⟨he, hg, h⟩
  · rintro ⟨he, hg, h⟩; exact ⟨e, he, g, ⟨hg, h⟩, rfl, rfl⟩

theorem sum_filter_range (p : Nat → Bool) (c : Nat → ℝ) : ∀ n, (((List.range n).filter p).map c).sum = ∑ g ∈ range n, if p g then c g else 0
  | 0 => rfl
  | n + 1 => by
    rw [List.range_succ, List.filter_append, List.map_append, List.sum_append, sum_filter_range p c n, sum_range_succ]
    by_cases h : p n <;> simp [h]

theorem sum_flat_range (c : Nat → List (Nat × Nat)) (F : Nat × Nat → ℝ) : ∀ n, (((List.range n).flatMap c).map F).sum = ∑ e ∈ range n, ((c e).map F).sum
  | 0 => rfl
  | n + 1 => by
    rw [List.range_succ, List.flatMap_append, List.map_append, List.sum_append, sum_flat_range c F n, sum_range_succ]
    simp

open Classical in
theorem sum_pairList (c : Nat × Nat → ℝ) : ((pairList R Q).map c).sum = ∑ e ∈ range R.ne, ∑ g ∈ range Q.ne, if Spec.lo R Q e g < Spec.hi R Q e g then c (e, g) else 0 := by
  unfold pairList
  rw [sum_flat_range]
  apply sum_congr rfl
  intro e _
  rw [List.map_map]
  unfold partners
  rw [sum_filter_range]
  apply sum_congr rfl
  intro g _
  by_cases h : Spec.lo R Q e g < Spec.hi R Q e g <;> simp [h]

theorem crossAt_eq (hA : Fits A R) (hB : Fits B Q) (hR : R.Sorted) (hQ : Q.Sorted) :
    crossAt A B bra ket f rule = (pairList R Q).foldlM (crossStep A B bra ket f rule) (some (Mat.zero R.N Q.N)) := by
  unfold crossAt
  rw [table_ok hA hB hR hQ, Res.ok_bind, hA.nbf, Res.ok_bind, hB.nbf, Res.ok_bind, nelem_eq hA]
  congr 1
  unfold pairList
  rw [List.flatMap_def, List.flatMap_def]
  congr 1
  apply List.map_congr_left
  intro e he
  have he := List.mem_range.1 he
  simp [List.getD_eq_getElem?_getD, he]

theorem crossAt_ok (hA : Fits A R) (hB : Fits B Q) (hR : R.Sorted) (hQ : Q.Sorted) (hbra : bra.order = some d) (hket : ket.order = some d') (hr : Usable rule)
    (hw : ∀ e < R.ne, ∀ g < Q.ne, ∀ r, Spec.lo R Q e g ≤ r → r ≤ Spec.hi R Q e g → WeightIs f w r) :
    ∃ M, crossAt A B bra ket f rule = .ok (some M) ∧ M.rows = R.N ∧ M.cols = Q.N ∧
      ∀ i j, M.get i j = ∑ e ∈ range R.ne, ∑ g ∈ range Q.ne, Spec.pairSum rule R Q d d' w i j e g := by
  rw [crossAt_eq hA hB hR hQ]
  obtain ⟨M, m1, m2, m3, m4⟩ := fold_some R.N Q.N (crossStep A B bra ket f rule) (fun p i j => Spec.pairSum rule R Q d d' w i j p.1 p.2) (pairList R Q) (Mat.zero R.N Q.N) rfl rfl (by
    rintro ⟨e, g⟩ hp M h1 h2
    obtain ⟨he, hg, hlt⟩ := mem_pairList.1 hp
    obtain ⟨P, p1, p2, p3, p4⟩ := piece_ok hA hB hR hQ hbra hket hr he hg hlt (hw e he g hg)
    have c1 := hA.cols e he
    have c2 := hB.cols g hg
    have b1 := hA.bound e he
    have b2 := hB.bound g hg
    unfold crossStep
    dsimp only at he hg hlt p1 p2 p3 p4 ⊢
    rw [p1, Res.ok_bind, hA.idx e he, Res.ok_bind]
    dsimp only
    rw [hB.idx g hg, Res.ok_bind]
    dsimp only
    rw [Mat.addBlock, if_pos (by refine ⟨?_, ?_, ?_, ?_⟩ <;> omega), Res.ok_bind, Res.pure_eq]
    refine ⟨_, rfl, h1, h2, ?_⟩
    intro i j
    dsimp only
    unfold Spec.pairSum
    by_cases hin : (R.first e ≤ i ∧ i ≤ R.last e) ∧ (Q.first g ≤ j ∧ j ≤ Q.last g)
    · rw [if_pos (by omega), if_pos ⟨hlt, hin⟩, p4 _ (by omega) _ (by omega)]
    · rw [if_neg (by omega), if_neg (by tauto), add_zero])
  refine ⟨M, m1, m2, m3, ?_⟩
  intro i j
  rw [m4, sum_pairList]
  simp only [Mat.zero, zero_add]
  apply sum_congr rfl; intro e _
  apply sum_congr rfl; intro g _
  by_cases h : Spec.lo R Q e g < Spec.hi R Q e g
  · rw [if_pos h]
  · rw [if_neg h, Spec.pairSum, if_neg (by tauto)]

end
end Cross
end HelFEM
