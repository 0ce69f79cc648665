import Verif.Model.SadGrid
import Verif.Spec.SadGrid
import Verif.Lemmas.Lists
import Verif.Lemmas.TwoElectron
import Verif.Props.Radii

/-! Lemmas for the arrays on the grid of the spherically averaged atom. -/

namespace HelFEM
namespace SadGrid
open Grid Poly Finset Polynomial Spec Assembly AtomDB Radii Screening TwoE

theorem sumN_some {α : Type _} (l : List α) (f : α → ℝ) : sumN (l.map fun a => some (f a)) = some (l.map f).sum := by
  induction l with
  | nil => rfl
  | cons a l ih =>
    have : sumN ((a :: l).map fun a => some (f a)) = addN (some (f a)) (sumN (l.map fun a => some (f a))) := rfl
    rw [this, ih]; rfl

theorem sumN_some' {α : Type _} (l : List α) (g : α → Option ℝ) (f : α → ℝ) (h : ∀ a ∈ l, g a = some (f a)) : sumN (l.map g) = some (l.map f).sum := by
  rw [List.map_congr_left h, sumN_some]

theorem sumN_none {α : Type _} (l : List α) (g : α → Option ℝ) (a : α) (ha : a ∈ l) (h : g a = none) : sumN (l.map g) = none := by
  induction l with
  | nil => simp at ha
  | cons b l ih =>
    have e : sumN ((b :: l).map g) = addN (g b) (sumN (l.map g)) := rfl
    rw [e]
    rcases List.mem_cons.1 ha with rfl | ha
    · rw [h]; rfl
    · rw [ih ha]; cases g b <;> rfl

theorem panel_sum {ι : Type _} (rule : List (ℝ × ℝ)) (s : Finset ι) (c : ι → ℝ) (g : ι → ℝ → ℝ) (a b : ℝ) :
    panel rule (fun t => ∑ i ∈ s, c i * g i t) a b = ∑ i ∈ s, c i * panel rule (g i) a b := by
  unfold panel
  simp only [mul_sum]
  induction rule with
  | nil => simp
  | cons q rule ih =>
    simp only [List.map_cons, List.sum_cons, mul_add, sum_add_distrib] at ih ⊢
    rw [ih, mul_sum]
    congr 1
    exact sum_congr rfl fun i _ => by ring

theorem panel_congr (rule : List (ℝ × ℝ)) (g h : ℝ → ℝ) (a b : ℝ) (e : ∀ q ∈ rule, g ((a + b) / 2 + (b - a) / 2 * q.1) = h ((a + b) / 2 + (b - a) / 2 * q.1)) :
    panel rule g a b = panel rule h a b := by
  unfold panel
  congr 2
  exact List.map_congr_left fun q hq => by rw [e q hq]

theorem panel_smul (rule : List (ℝ × ℝ)) (c : ℝ) (g : ℝ → ℝ) (a b : ℝ) : panel rule (fun t => c * g t) a b = c * panel rule g a b := by
  have := panel_sum rule (range 1) (fun _ => c) (fun _ => g) a b
  simpa using this

theorem panel_nonneg (rule : List (ℝ × ℝ)) (hw : ∀ q ∈ rule, 0 ≤ q.2) (g : ℝ → ℝ) (a b : ℝ) (hab : a ≤ b)
    (hg : ∀ q ∈ rule, 0 ≤ g ((a + b) / 2 + (b - a) / 2 * q.1)) : 0 ≤ panel rule g a b := by
  unfold panel
  apply mul_nonneg (by linarith)
  apply List.sum_nonneg
  intro x hx
  obtain ⟨q, hq, rfl⟩ := List.mem_map.1 hx
  exact mul_nonneg (hw q hq) (hg q hq)

variable {f : Family} {n ne : Nat} {zdl zfr zdr : Bool} {x0 : Nat → ℝ} {bval : List ℝ} {o : FEObj ℝ} {N : Nat} {first last : Nat → Nat}
  {φ : Nat → Nat → ℝ[X]} {rule : List (ℝ × ℝ)} {P : Mat ℝ}

theorem ends (S : Setting f n ne zdl zfr zdr x0 bval o N first last φ rule P) (e : Nat) (he : e < ne) :
    elementBegin o.bval e = .ok (bval.getD e 0) ∧ elementEnd o.bval e = .ok (bval.getD (e + 1) 0) := by
  have hl := S.basis.len
  have hn : nelem bval = bval.length - 1 := by unfold nelem; rw [if_neg (by omega)]
  unfold elementBegin elementEnd
  rw [S.basis.shape.2, hn, if_neg (by omega), if_neg (by omega)]
  exact ⟨Radii.readAt_getD _ _ (by omega), Radii.readAt_getD _ _ (by omega)⟩

theorem nbfOf_eq (S : Setting f n ne zdl zfr zdr x0 bval o N first last φ rule P) (e : Nat) (he : e < ne) : nbfOf ⟨o, x0, rule⟩ e = last e + 1 - first e :=
  (S.basis.count e he 0).1

theorem segment_eq (S : Setting f n ne zdl zfr zdr x0 bval o N first last φ rule P) (e : Nat) (he : e < ne) (kern : ℝ → ℝ → Option ℝ) (k : ℝ → ℝ) (low high : ℝ)
    (hk : ∀ q ∈ rule, kern ((low + high) / 2 + (high - low) / 2 * q.1) high = some (k ((low + high) / 2 + (high - low) / 2 * q.1))) :
    segment ⟨o, x0, rule⟩ e kern low high = .ok ((List.range ((last e + 1 - first e) * (last e + 1 - first e))).map fun c =>
      some (panel rule (fun s => k s * (φ e (first e + c % (last e + 1 - first e))).eval s * (φ e (first e + c / (last e + 1 - first e))).eval s) low high)) := by
  have hl := S.basis.len
  have hlt := getD_lt S.basis.inc e (by omega)
  obtain ⟨h1, h2⟩ := ends S e he
  choose v v1 v2 v3 using fun x => row S.basis φ S.pieces e he 0 (Nat.zero_le _) x
  have v1' : ∀ x, feEvalDnf o.shape o.bval x0 x 0 e = .ok (v x) := v1
  unfold segment
  simp only [h1, h2, Res.ok_bind, v1', Res.pure_eq]
  rw [Res.mapM_ok _ _ _ fun q _ => rfl]
  simp only [Res.ok_bind, nbfOf_eq S e he, Res.ok.injEq]
  apply List.map_congr_left
  intro c hc
  rw [List.map_map, sumN_some' _ _ (fun q : ℝ × ℝ => (high - low) / 2 * (q.2 * (k ((low + high) / 2 + (high - low) / 2 * q.1) *
      (φ e (first e + c % (last e + 1 - first e))).eval ((low + high) / 2 + (high - low) / 2 * q.1) *
      (φ e (first e + c / (last e + 1 - first e))).eval ((low + high) / 2 + (high - low) / 2 * q.1))))]
  · unfold panel
    rw [← List.sum_map_mul_left]
  · intro q hq
    have er : 1 / 2 * (high + low) + 1 / 2 * (high - low) * q.1 = (low + high) / 2 + (high - low) / 2 * q.1 := by ring
    simp only [Function.comp, er, hk q hq, v3, Function.iterate_zero, id]
    have ec : ∀ s, coord bval e ((s - 1 / 2 * (bval.getD (e + 1) 0 + bval.getD e 0)) / (1 / 2 * (bval.getD (e + 1) 0 - bval.getD e 0))) = s := by
      intro s
      have : bval.getD (e + 1) 0 - bval.getD e 0 ≠ 0 := by linarith
      unfold coord
      field_simp
      ring
    simp only [ec, mulN, Option.some.injEq]
    ring

/-- the points of an element -/
noncomputable def pt (bval : List ℝ) (rule : List (ℝ × ℝ)) (e i : Nat) : ℝ := coord bval e ((rule.map Prod.fst).getD i 0)

/-- the ends of the segments of an element -/
noncomputable def cutE (bval : List ℝ) (rule : List (ℝ × ℝ)) (e : Nat) : Nat → ℝ := cut (bval.getD e 0) (bval.getD (e + 1) 0) (pt bval rule e) rule.length

/-- a rule without the end points -/
def Open (rule : List (ℝ × ℝ)) : Prop := ∀ q ∈ rule, -1 < q.1 ∧ q.1 < 1

theorem Open.getD (h : Open rule) (i : Nat) (hi : i < rule.length) : -1 < (rule.map Prod.fst).getD i 0 ∧ (rule.map Prod.fst).getD i 0 < 1 := by
  have e : (rule.map Prod.fst).getD i 0 = rule[i].1 := by simp [List.getD_eq_getElem?_getD, hi]
  rw [e]
  exact h _ (List.getElem_mem hi)

theorem pt_mem (S : Setting f n ne zdl zfr zdr x0 bval o N first last φ rule P) (ho : Open rule) (e : Nat) (he : e < ne) (i : Nat) (hi : i < rule.length) :
    bval.getD e 0 < pt bval rule e i ∧ pt bval rule e i < bval.getD (e + 1) 0 := by
  have h := ho.getD i hi
  have a := S.coord_lt e he _ _ h.1
  have b := S.coord_lt e he _ _ h.2
  rw [coord_left] at a
  rw [coord_right] at b
  exact ⟨a, b⟩

theorem begin_nonneg (S : Setting f n ne zdl zfr zdr x0 bval o N first last φ rule P) (e : Nat) (he : e < ne) : 0 ≤ bval.getD e 0 :=
  (coord_pos S.basis S.origin e he (-1) le_rfl).2.1

theorem pt_pos (S : Setting f n ne zdl zfr zdr x0 bval o N first last φ rule P) (ho : Open rule) (e : Nat) (he : e < ne) (i : Nat) (hi : i < rule.length) :
    0 < pt bval rule e i := (begin_nonneg S e he).trans_lt (pt_mem S ho e he i hi).1

theorem cut_lt (S : Setting f n ne zdl zfr zdr x0 bval o N first last φ rule P) (ho : Open rule) (e : Nat) (he : e < ne) (k : Nat) (hk : k ≤ rule.length) :
    cutE bval rule e k < cutE bval rule e (k + 1) := by
  have hl := S.basis.len
  have hlt := getD_lt S.basis.inc e (by omega)
  unfold cutE
  cases k with
  | zero =>
    simp only [cut]
    split
    · rename_i h; exact (pt_mem S ho e he 0 h).1
    · exact hlt
  | succ k =>
    simp only [cut]
    rw [if_pos (by omega)]
    split
    · rename_i h
      exact S.coord_lt e he _ _ (S.points.lt k (k + 1) (by omega) (by simpa using h))
    · exact (pt_mem S ho e he k (by omega)).2

theorem cut_ge (S : Setting f n ne zdl zfr zdr x0 bval o N first last φ rule P) (ho : Open rule) (e : Nat) (he : e < ne) (k : Nat) :
    bval.getD e 0 ≤ cutE bval rule e k ∧ cutE bval rule e k ≤ bval.getD (e + 1) 0 := by
  have hl := S.basis.len
  have hlt := getD_lt S.basis.inc e (by omega)
  unfold cutE
  cases k with
  | zero => exact ⟨le_rfl, hlt.le⟩
  | succ k =>
    simp only [cut]
    split
    · rename_i h
      have := pt_mem S ho e he k h
      exact ⟨this.1.le, this.2.le⟩
    · exact ⟨hlt.le, le_rfl⟩

theorem cut_pt (e k : Nat) (hk : k < rule.length) : cutE bval rule e (k + 1) = pt bval rule e k := by
  unfold cutE; simp only [cut]; rw [if_pos hk]

/-- nodes lie inside their segment -/
theorem node_mem (ho : Open rule) (a b : ℝ) (hab : a < b) (q : ℝ × ℝ) (hq : q ∈ rule) :
    a < (a + b) / 2 + (b - a) / 2 * q.1 ∧ (a + b) / 2 + (b - a) / 2 * q.1 < b := by
  have := ho q hq
  constructor <;> nlinarith

theorem spherical_eq (S : Setting f n ne zdl zfr zdr x0 bval o N first last φ rule P) (ho : Open rule) (e : Nat) (he : e < ne) :
    sphericalPotential ⟨o, x0, rule⟩ e = .ok ((List.range rule.length).map fun ip => (List.range ((last e + 1 - first e) * (last e + 1 - first e))).map fun c => some (
      (∑ jp ∈ range (ip + 1), panel rule (fun s => (φ e (first e + c % (last e + 1 - first e))).eval s * (φ e (first e + c / (last e + 1 - first e))).eval s)
          (cutE bval rule e jp) (cutE bval rule e (jp + 1))) / pt bval rule e ip +
      ∑ jp ∈ Ico ip rule.length, panel rule (fun s => (φ e (first e + c % (last e + 1 - first e))).eval s * (φ e (first e + c / (last e + 1 - first e))).eval s / s)
          (cutE bval rule e (jp + 1)) (cutE bval rule e (jp + 2)))) := by
  obtain ⟨h1, h2⟩ := ends S e he
  unfold sphericalPotential
  simp only [h1, h2, Res.ok_bind, Res.pure_eq, nbfOf_eq S e he]
  have hr : ((xq ⟨o, x0, rule⟩).map fun x => 1 / 2 * (bval.getD (e + 1) 0 + bval.getD e 0) + 1 / 2 * (bval.getD (e + 1) 0 - bval.getD e 0) * x) =
      (List.range rule.length).map (pt bval rule e) := by
    apply List.ext_getElem
    · simp [xq]
    · intro i h1 h2
      have hi : i < rule.length := by simpa using h2
      simp only [xq, List.map_map, List.getElem_map, List.getElem_range, Function.comp, pt]
      simp only [List.getD_eq_getElem?_getD, List.getElem?_map, List.getElem?_eq_getElem hi, Option.map_some, Option.getD_some, coord]
      ring
  have hg : ∀ i < rule.length, ((List.range rule.length).map (pt bval rule e)).getD i 0 = pt bval rule e i := by
    intro i hi; simp [List.getD_eq_getElem?_getD, hi]
  rw [hr]
  simp only [List.length_map, List.length_range]
  have hz : ∀ ip ∈ List.range rule.length, segment ⟨o, x0, rule⟩ e (fun _ R => invN R)
      (if ip = 0 then bval.getD e 0 else ((List.range rule.length).map (pt bval rule e)).getD (ip - 1) 0) (((List.range rule.length).map (pt bval rule e)).getD ip 0) =
      .ok ((List.range ((last e + 1 - first e) * (last e + 1 - first e))).map fun c =>
      some (panel rule (fun s => 1 / pt bval rule e ip * (φ e (first e + c % (last e + 1 - first e))).eval s * (φ e (first e + c / (last e + 1 - first e))).eval s)
        (cutE bval rule e ip) (cutE bval rule e (ip + 1)))) := by
    intro ip hip
    have hip := List.mem_range.1 hip
    have e1 : (if ip = 0 then bval.getD e 0 else ((List.range rule.length).map (pt bval rule e)).getD (ip - 1) 0) = cutE bval rule e ip := by
      cases ip with
      | zero => rfl
      | succ k =>
        rw [if_neg (by omega), Nat.add_sub_cancel, hg k (by omega), cut_pt e k (by omega)]
    rw [e1, hg ip hip, cut_pt e ip hip]
    exact segment_eq S e he _ (fun _ => 1 / pt bval rule e ip) _ _ (fun q _ => by unfold invN; rw [if_neg (pt_pos S ho e he ip hip).ne'])
  have hm : ∀ ip ∈ List.range rule.length, segment ⟨o, x0, rule⟩ e (fun s _ => invN s)
      (((List.range rule.length).map (pt bval rule e)).getD ip 0) (if ip = rule.length - 1 then bval.getD (e + 1) 0 else ((List.range rule.length).map (pt bval rule e)).getD (ip + 1) 0) =
      .ok ((List.range ((last e + 1 - first e) * (last e + 1 - first e))).map fun c =>
      some (panel rule (fun s => 1 / s * (φ e (first e + c % (last e + 1 - first e))).eval s * (φ e (first e + c / (last e + 1 - first e))).eval s)
        (cutE bval rule e (ip + 1)) (cutE bval rule e (ip + 2)))) := by
    intro ip hip
    have hip := List.mem_range.1 hip
    have e1 : (if ip = rule.length - 1 then bval.getD (e + 1) 0 else ((List.range rule.length).map (pt bval rule e)).getD (ip + 1) 0) = cutE bval rule e (ip + 2) := by
      split
      · rename_i h
        unfold cutE
        simp only [cut]
        rw [if_neg (by omega)]
      · rw [hg (ip + 1) (by omega), cut_pt e (ip + 1) (by omega)]
    rw [e1, hg ip hip, ← cut_pt e ip hip]
    refine segment_eq S e he _ (fun s => 1 / s) _ _ fun q hq => ?_
    have := (node_mem ho _ _ (cut_lt S ho e he (ip + 1) (by omega)) q hq).1
    have h3 := pt_pos S ho e he ip hip
    rw [cut_pt e ip hip] at this ⊢
    unfold invN
    rw [if_neg (by linarith)]
  rw [Res.mapM_ok _ _ _ hz, Res.ok_bind, Res.mapM_ok _ _ _ hm, Res.ok_bind, Res.ok.injEq]
  apply List.map_congr_left
  intro ip hip
  have hip := List.mem_range.1 hip
  apply List.map_congr_left
  intro c hc
  have hc := List.mem_range.1 hc
  rw [sumN_some' _ _ (fun jp => panel rule (fun s => (φ e (first e + c % (last e + 1 - first e))).eval s * (φ e (first e + c / (last e + 1 - first e))).eval s)
          (cutE bval rule e jp) (cutE bval rule e (jp + 1)))]
  · rw [sumN_some' _ _ (fun k => panel rule (fun s => (φ e (first e + c % (last e + 1 - first e))).eval s * (φ e (first e + c / (last e + 1 - first e))).eval s / s)
          (cutE bval rule e (ip + k + 1)) (cutE bval rule e (ip + k + 2)))]
    · have h3 := pt_pos S ho e he ip hip
      rw [hg ip hip]
      simp only [divN, if_neg h3.ne', addN]
      rw [sum_map_range, sum_map_range, sum_Ico_eq_sum_range]
    · intro k hk
      have hk := List.mem_range.1 hk
      have e1 : ∀ (g : Nat → List (Option ℝ)), ((List.range rule.length).map g).getD (ip + k) [] = g (ip + k) := by
        intro g; simp [List.getD_eq_getElem?_getD, show ip + k < rule.length by omega]
      rw [e1]
      rw [List.getD_eq_getElem?_getD, List.getElem?_map, List.getElem?_range hc]
      simp only [Option.map_some, Option.getD_some, Option.some.injEq]
      congr 1
      funext s
      ring
  · intro jp hjp
    have hjp := List.mem_range.1 hjp
    have e1 : ∀ (g : Nat → List (Option ℝ)), ((List.range rule.length).map g).getD jp [] = g jp := by
      intro g; simp [List.getD_eq_getElem?_getD, show jp < rule.length by omega]
    have h3 := pt_pos S ho e he jp (by omega)
    rw [e1]
    rw [List.getD_eq_getElem?_getD, List.getElem?_map, List.getElem?_range hc, hg jp (by omega)]
    simp only [Option.map_some, Option.getD_some, mulN, Option.some.injEq, mul_assoc]
    rw [panel_smul]
    field_simp

theorem rho_flat (S : Setting f n ne zdl zfr zdr x0 bval o N first last φ rule P) (e : Nat) (he : e < ne) (B : Mat ℝ)
    (hB : IsBlock P.get (first e) (last e + 1 - first e) B) (s : ℝ) :
    (rho N P.get φ e).eval s = ∑ c ∈ range ((last e + 1 - first e) * (last e + 1 - first e)), B.get (c % (last e + 1 - first e)) (c / (last e + 1 - first e)) *
      ((φ e (first e + c % (last e + 1 - first e))).eval s * (φ e (first e + c / (last e + 1 - first e))).eval s) := by
  rw [rho_window S.basis φ S.pieces P.get e he,
    TwoE.sum_flat (last e + 1 - first e) (last e + 1 - first e) (fun i j => B.get i j * ((φ e (first e + i)).eval s * (φ e (first e + j)).eval s)), sum_comm]
  simp only [eval_finsetSum]
  refine sum_congr rfl fun i hi => sum_congr rfl fun j hj => ?_
  rw [mem_range] at hi hj
  rw [hB.2.2 j hj i hi, eval_mul, eval_mul, eval_C]

theorem inElement_eq (S : Setting f n ne zdl zfr zdr x0 bval o N first last φ rule P) (ho : Open rule) (e : Nat) (he : e < ne) :
    inElement ⟨o, x0, rule⟩ P e = .ok ((List.range rule.length).map fun ip => some (
      (∑ jp ∈ range (ip + 1), panel rule (fun s => (rho N P.get φ e).eval s) (cutE bval rule e jp) (cutE bval rule e (jp + 1))) / pt bval rule e ip +
      ∑ jp ∈ Ico ip rule.length, panel rule (fun s => (rho N P.get φ e).eval s / s) (cutE bval rule e (jp + 1)) (cutE bval rule e (jp + 2)))) := by
  obtain ⟨B, b1, b2⟩ := S.block e he
  unfold inElement
  simp only [b1, Res.ok_bind, spherical_eq S ho e he, nbfOf_eq S e he, b2.1, b2.2.1, if_true, Res.pure_eq, List.map_map, Res.ok.injEq]
  apply List.map_congr_left
  intro ip hip
  simp only [Function.comp]
  rw [sumN_some' _ _ (fun c => B.get (c % (last e + 1 - first e)) (c / (last e + 1 - first e)) *
      ((∑ jp ∈ range (ip + 1), panel rule (fun s => (φ e (first e + c % (last e + 1 - first e))).eval s * (φ e (first e + c / (last e + 1 - first e))).eval s)
          (cutE bval rule e jp) (cutE bval rule e (jp + 1))) / pt bval rule e ip +
      ∑ jp ∈ Ico ip rule.length, panel rule (fun s => (φ e (first e + c % (last e + 1 - first e))).eval s * (φ e (first e + c / (last e + 1 - first e))).eval s / s)
          (cutE bval rule e (jp + 1)) (cutE bval rule e (jp + 2))))]
  · rw [sum_map_range]
    congr 1
    simp only [rho_flat S e he B b2, sum_div, mul_div_assoc, panel_sum, mul_add, sum_add_distrib, mul_sum]
    congr 1
    · rw [sum_comm]
    · rw [sum_comm]
  · intro c hc
    have hc := List.mem_range.1 hc
    rw [List.getD_eq_getElem?_getD, List.getElem?_map, List.getElem?_range hc]
    simp only [Option.map_some, Option.getD_some, mulN, Option.some.injEq]
    ring

theorem prefixSum_eq (q : Nat → ℝ) (m : Nat) : ∀ k < m, prefixSum ((List.range m).map q) k = ∑ e ∈ range (k + 1), q e := by
  intro k
  induction k with
  | zero => intro h; simp [prefixSum, List.getD_eq_getElem?_getD, h]
  | succ k ih =>
    intro h
    rw [prefixSum, ih (by omega), sum_range_succ _ (k + 1), add_comm]
    congr 1
    simp [List.getD_eq_getElem?_getD, h]

theorem suffixSum_eq (q : Nat → ℝ) (m : Nat) : ∀ k < m, suffixSum ((List.range m).map q) m k = ∑ e ∈ Ico (m - 1 - k) m, q e := by
  intro k
  induction k with
  | zero =>
    intro h
    obtain ⟨m, rfl⟩ : ∃ j, m = j + 1 := ⟨m - 1, by omega⟩
    simp [suffixSum, List.getD_eq_getElem?_getD]
  | succ k ih =>
    intro h
    rw [suffixSum, ih (by omega), sum_eq_sum_Ico_succ_bot (show m - 1 - (k + 1) < m by omega), show m - 1 - (k + 1) + 1 = m - 1 - k by omega]
    congr 1
    simp [List.getD_eq_getElem?_getD, show m - 1 - (k + 1) < m by omega]

/-- `rint k e` holds the matrix elements of `r^k` over the functions of element `e` -/
structure IsRadialIntegral (rint : Int → Nat → Res (Mat ℝ)) (ne : Nat) (bval : List ℝ) (first last : Nat → Nat) (φ : Nat → Nat → ℝ[X]) : Prop where
  zero : ∀ e < ne, ∃ M, rint 0 e = .ok M ∧ M.rows = last e + 1 - first e ∧ M.cols = last e + 1 - first e ∧ ∀ i < last e + 1 - first e, ∀ j < last e + 1 - first e,
    M.get i j = ∫ s in (bval.getD e 0)..(bval.getD (e + 1) 0), (φ e (first e + i)).eval s * (φ e (first e + j)).eval s
  minusone : ∀ e < ne, ∃ M, rint (-1) e = .ok M ∧ M.rows = last e + 1 - first e ∧ M.cols = last e + 1 - first e ∧ ∀ i < last e + 1 - first e, ∀ j < last e + 1 - first e,
    M.get i j = ∫ s in (bval.getD e 0)..(bval.getD (e + 1) 0), (φ e (first e + i)).eval s * (φ e (first e + j)).eval s / s

/-- functions that vanish at the origin over `r` -/
theorem piece_zero (S : Setting f n ne zdl zfr zdr x0 bval o N first last φ rule P) (e : Nat) (he : e < ne) (hz : bval.getD e 0 = 0) (i : Nat) (hi : i < last e + 1 - first e) :
    ∃ R : ℝ[X], φ e (first e + i) = X * R := by
  have h0 : e = 0 := by
    by_contra hne
    have := (coord_pos S.basis S.origin e he (-1) le_rfl).2.2 hne
    linarith
  subst h0
  obtain ⟨R, r1, r2⟩ := rowOver S.basis φ S.pieces S.origin S.inner
  exact ⟨R i, r1 i hi⟩

theorem over_integrable (S : Setting f n ne zdl zfr zdr x0 bval o N first last φ rule P) (e : Nat) (he : e < ne) (i j : Nat) (hi : i < last e + 1 - first e) (a b : ℝ)
    (ha : bval.getD e 0 ≤ a) (hab : a ≤ b) : IntervalIntegrable (fun s => (φ e (first e + i)).eval s * (φ e (first e + j)).eval s / s) MeasureTheory.volume a b := by
  by_cases hz : bval.getD e 0 = 0
  · obtain ⟨R, hR⟩ := piece_zero S e he hz i hi
    have : Set.EqOn (fun s => R.eval s * (φ e (first e + j)).eval s) (fun s => (φ e (first e + i)).eval s * (φ e (first e + j)).eval s / s) (Set.uIoo a b) := by
      intro s hs
      rw [Set.uIoo_of_le hab] at hs
      have : s ≠ 0 := by linarith [hs.1]
      simp only [hR, eval_mul, eval_X]
      field_simp
    have hc : IntervalIntegrable (fun s => R.eval s * (φ e (first e + j)).eval s) MeasureTheory.volume a b := by
      apply Continuous.intervalIntegrable
      fun_prop
    exact hc.congr_uIoo this
  · have h0 := begin_nonneg S e he
    have hp : 0 < bval.getD e 0 := lt_of_le_of_ne h0 (Ne.symm hz)
    apply ContinuousOn.intervalIntegrable
    apply ContinuousOn.div
    · fun_prop
    · fun_prop
    · intro s hs
      rw [Set.uIcc_of_le hab] at hs
      linarith [hs.1]

theorem sum_integrable {ι : Type _} (s : Finset ι) (g : ι → ℝ → ℝ) (a b : ℝ) (h : ∀ i ∈ s, IntervalIntegrable (g i) MeasureTheory.volume a b) :
    IntervalIntegrable (fun t => ∑ i ∈ s, g i t) MeasureTheory.volume a b := by
  have e : (fun t => ∑ i ∈ s, g i t) = ∑ i ∈ s, g i := by funext t; simp
  rw [e]
  exact IntervalIntegrable.sum s h

theorem rho_over_integrable (S : Setting f n ne zdl zfr zdr x0 bval o N first last φ rule P) (e : Nat) (he : e < ne) (a b : ℝ) (ha : bval.getD e 0 ≤ a) (hab : a ≤ b) :
    IntervalIntegrable (fun s => (rho N P.get φ e).eval s / s) MeasureTheory.volume a b := by
  obtain ⟨B, b1, b2⟩ := S.block e he
  rw [rho_window S.basis φ S.pieces P.get e he]
  simp only [eval_finsetSum, eval_mul, eval_C, sum_div]
  refine sum_integrable _ _ _ _ fun i hi => ?_
  refine sum_integrable _ _ _ _ fun j hj => ?_
  rw [mem_range] at hi
  simp only [mul_div_assoc]
  have := (over_integrable S e he i j hi a b ha hab).const_mul (P.get (first e + i) (first e + j))
  simpa only [mul_div_assoc] using this

theorem trace_zero (S : Setting f n ne zdl zfr zdr x0 bval o N first last φ rule P) (rint : Int → Nat → Res (Mat ℝ)) (hr : IsRadialIntegral rint ne bval first last φ) (e : Nat) (he : e < ne) :
    (do let B ← elementBlock o P e
        let M ← rint 0 e
        traceProduct B M) = .ok (∫ s in (bval.getD e 0)..(bval.getD (e + 1) 0), (rho N P.get φ e).eval s) := by
  obtain ⟨B, b1, b2⟩ := S.block e he
  obtain ⟨M, m1, m2, m3, m4⟩ := hr.zero e he
  rw [b1, Res.ok_bind, m1, Res.ok_bind, trace_eq _ B M ⟨b2.1, b2.2.1⟩ ⟨m2, m3⟩,
    rho_integral S e he B M b2 (bval.getD e 0) (bval.getD (e + 1) 0) (fun i hi j hj => by rw [m4 i hi j hj]; simp only [eval_mul])]

theorem trace_minusone (S : Setting f n ne zdl zfr zdr x0 bval o N first last φ rule P) (rint : Int → Nat → Res (Mat ℝ)) (hr : IsRadialIntegral rint ne bval first last φ) (e : Nat) (he : e < ne) :
    (do let B ← elementBlock o P e
        let M ← rint (-1) e
        traceProduct B M) = .ok (∫ s in (bval.getD e 0)..(bval.getD (e + 1) 0), (rho N P.get φ e).eval s / s) := by
  have hl := S.basis.len
  have hlt := getD_lt S.basis.inc e (by omega)
  obtain ⟨B, b1, b2⟩ := S.block e he
  obtain ⟨M, m1, m2, m3, m4⟩ := hr.minusone e he
  rw [b1, Res.ok_bind, m1, Res.ok_bind, trace_eq _ B M ⟨b2.1, b2.2.1⟩ ⟨m2, m3⟩, rho_window S.basis φ S.pieces P.get e he]
  congr 1
  simp only [eval_finsetSum, eval_mul, eval_C, sum_div]
  have key : ∀ i < last e + 1 - first e, ∀ j, IntervalIntegrable (fun s => P.get (first e + i) (first e + j) * ((φ e (first e + i)).eval s * (φ e (first e + j)).eval s) / s)
      MeasureTheory.volume (bval.getD e 0) (bval.getD (e + 1) 0) := by
    intro i hi j
    have := (over_integrable S e he i j hi _ _ le_rfl hlt.le).const_mul (P.get (first e + i) (first e + j))
    simpa only [mul_div_assoc] using this
  rw [intervalIntegral.integral_finsetSum (fun i hi => sum_integrable _ _ _ _ fun j _ => key i (mem_range.1 hi) j)]
  refine sum_congr rfl fun i hi => ?_
  rw [mem_range] at hi
  rw [intervalIntegral.integral_finsetSum (fun j _ => key i hi j)]
  refine sum_congr rfl fun j hj => ?_
  rw [mem_range] at hj
  rw [b2.2.2 i hi j hj, m4 j hj i hi, ← intervalIntegral.integral_const_mul]
  congr 1
  funext s
  ring

/-- what the code computes, with the segments as they are -/
theorem coulomb_panels (S : Setting f n ne zdl zfr zdr x0 bval o N first last φ rule P) (ho : Open rule) (rint : Int → Nat → Res (Mat ℝ))
    (hr : IsRadialIntegral rint ne bval first last φ) :
    coulombScreening rint ⟨o, x0, rule⟩ P = .ok (some 0 :: (List.range ne).flatMap fun e => (List.range rule.length).map fun ip => some (
      (∑ j ∈ range e, ∫ s in (bval.getD j 0)..(bval.getD (j + 1) 0), (rho N P.get φ j).eval s) +
      (∑ jp ∈ range (ip + 1), panel rule (fun s => (rho N P.get φ e).eval s) (cutE bval rule e jp) (cutE bval rule e (jp + 1))) +
      pt bval rule e ip * ((∑ jp ∈ Ico ip rule.length, panel rule (fun s => (rho N P.get φ e).eval s / s) (cutE bval rule e (jp + 1)) (cutE bval rule e (jp + 2))) +
        ∑ j ∈ Ico (e + 1) ne, ∫ s in (bval.getD j 0)..(bval.getD (j + 1) 0), (rho N P.get φ j).eval s / s))) := by
  have hne := S.basis.nelem
  unfold coulombScreening
  rw [S.nel, if_neg (by omega), Res.mapM_ok _ _ _ (fun e he => trace_zero S rint hr e (List.mem_range.1 he)), Res.ok_bind,
    Res.mapM_ok _ _ _ (fun e he => trace_minusone S rint hr e (List.mem_range.1 he)), Res.ok_bind]
  rw [Res.mapM_ok _ (fun e => (List.range rule.length).map fun ip => some (
      (∑ j ∈ range e, ∫ s in (bval.getD j 0)..(bval.getD (j + 1) 0), (rho N P.get φ j).eval s) +
      (∑ jp ∈ range (ip + 1), panel rule (fun s => (rho N P.get φ e).eval s) (cutE bval rule e jp) (cutE bval rule e (jp + 1))) +
      pt bval rule e ip * ((∑ jp ∈ Ico ip rule.length, panel rule (fun s => (rho N P.get φ e).eval s / s) (cutE bval rule e (jp + 1)) (cutE bval rule e (jp + 2))) +
        ∑ j ∈ Ico (e + 1) ne, ∫ s in (bval.getD j 0)..(bval.getD (j + 1) 0), (rho N P.get φ j).eval s / s)))]
  · rw [Res.ok_bind, Res.pure_eq, List.flatMap_def]
  · intro e he
    have he := List.mem_range.1 he
    rw [Res.mapM_ok _ _ _ (fun x _ => S.getR e he x), Res.ok_bind, inElement_eq S ho e he, Res.ok_bind, Res.pure_eq, Res.ok.injEq]
    simp only [xq, List.length_map]
    apply List.map_congr_left
    intro ip hip
    have hip := List.mem_range.1 hip
    have hr : ((rule.map Prod.fst).map fun x => coord bval e x).getD ip 0 = pt bval rule e ip := by
      unfold pt
      simp [List.getD_eq_getElem?_getD, hip]
    have h3 := pt_pos S ho e he ip hip
    rw [hr, List.getD_eq_getElem?_getD, List.getElem?_map, List.getElem?_range hip]
    simp only [Option.map_some, Option.getD_some]
    have c1 : 0 < e → prefixSum ((List.range ne).map fun j => ∫ s in (bval.getD j 0)..(bval.getD (j + 1) 0), (rho N P.get φ j).eval s) (e - 1) =
        ∑ j ∈ range e, ∫ s in (bval.getD j 0)..(bval.getD (j + 1) 0), (rho N P.get φ j).eval s := by
      intro h
      rw [prefixSum_eq _ _ _ (by omega), show e - 1 + 1 = e by omega]
    have c2 : e ≠ ne - 1 → suffixSum ((List.range ne).map fun j => ∫ s in (bval.getD j 0)..(bval.getD (j + 1) 0), (rho N P.get φ j).eval s / s) ne (ne - 1 - (e + 1)) =
        ∑ j ∈ Ico (e + 1) ne, ∫ s in (bval.getD j 0)..(bval.getD (j + 1) 0), (rho N P.get φ j).eval s / s := by
      intro h
      rw [suffixSum_eq _ _ _ (by omega), show ne - 1 - (ne - 1 - (e + 1)) = e + 1 by omega]
    have d1 : ¬ 0 < e → ∑ j ∈ range e, ∫ s in (bval.getD j 0)..(bval.getD (j + 1) 0), (rho N P.get φ j).eval s = 0 := by
      intro h; rw [show e = 0 by omega]; simp
    have d2 : ¬ e ≠ ne - 1 → ∑ j ∈ Ico (e + 1) ne, ∫ s in (bval.getD j 0)..(bval.getD (j + 1) 0), (rho N P.get φ j).eval s / s = 0 := by
      intro h; rw [show e + 1 = ne by omega]; simp
    by_cases g1 : 0 < e <;> by_cases g2 : e ≠ ne - 1
    · rw [if_pos g1, if_pos g2, c1 g1, c2 g2]
      simp only [divN, if_neg h3.ne', addN, mulN, Option.some.injEq]
      field_simp
      ring
    · rw [if_pos g1, if_neg g2, c1 g1, d2 g2]
      simp only [divN, if_neg h3.ne', addN, mulN, Option.some.injEq]
      field_simp
      ring
    · rw [if_neg g1, if_pos g2, d1 g1, c2 g2]
      simp only [addN, mulN, Option.some.injEq]
      field_simp
      ring
    · rw [if_neg g1, if_neg g2, d1 g1, d2 g2]
      simp only [mulN, Option.some.injEq]
      field_simp
      ring

end SadGrid
end HelFEM
