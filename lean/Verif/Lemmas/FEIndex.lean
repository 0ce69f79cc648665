import Verif.Model.FEIndex
import Verif.Spec.FEIndex
import Mathlib.Tactic.Ring
import Mathlib.Tactic.Linarith
import Mathlib.Data.List.Basic
import Mathlib.Algebra.BigOperators.Group.Finset.Basic

namespace HelFEM

/-- functions per node -/
def nov : Family → Nat
  | .lip => 1 | .hip => 2 | .hip2 => 3 | .hip3 => 4 | .legendre => 1

theorem nov_pos (f : Family) : 0 < nov f := by cases f <;> decide

theorem mk'_noverlap (f n) : (PolyBasis.mk' f n).noverlap = nov f := by cases f <;> rfl
theorem mk'_nprim (f n) : (PolyBasis.mk' f n).nprim = nov f * n := by cases f <;> rfl
theorem mk'_family (f n) : (PolyBasis.mk' f n).family = f := by cases f <;> rfl
theorem mk'_enabled (f n) : (PolyBasis.mk' f n).enabled = List.range (nov f * n) := by
  cases f <;> rfl

/-- selection inside one node block -/
def sel (func deriv : Bool) : List Nat → List Nat
  | [] => []
  | v :: ds => (if func then [] else [v]) ++ (if deriv then [] else ds)

theorem segment_zero_append {α} (a b : List α) (len : Int) (h : len = a.length) :
    segment (a ++ b) 0 len = .ok a := by
  subst h
  simp [segment]

theorem segment_append_right {α} (a b : List α) (st len : Int) (h1 : st = a.length)
    (h2 : len = b.length) : segment (a ++ b) st len = .ok b := by
  subst h1 h2
  simp [segment]

theorem segment_cons1 {α} (a : α) (b : List α) (len : Int) (h2 : len = b.length) :
    segment (a :: b) 1 len = .ok b :=
  segment_append_right [a] b 1 len (by simp) h2

theorem segment_cons2 {α} (a c : α) (b : List α) (len : Int) (h2 : len = b.length) :
    segment (a :: c :: b) 2 len = .ok b :=
  segment_append_right [a, c] b 2 len (by simp) h2

theorem dropFirst_block (f : Family) (blk rest : List Nat) (hb : blk.length = nov f)
    (fu de : Bool) : dropFirstEnabled f (blk ++ rest) fu de = .ok (sel fu de blk ++ rest) := by
  cases f
  case lip =>
    match blk, hb with
    | [v], _ =>
      cases fu <;> cases de <;> simp [dropFirstEnabled, sel, segment_cons1]
  case legendre =>
    match blk, hb with
    | [v], _ =>
      cases fu <;> cases de <;> simp [dropFirstEnabled, sel, segment_cons1]
  case hip =>
    match blk, hb with
    | [v, d], _ =>
      have h2 : segment (v :: d :: rest) 2 (((v :: d :: rest).length : Int) - 2) = .ok rest :=
        segment_cons2 _ _ _ _ (by simp; omega)
      have h1 : segment (v :: d :: rest) 1 (((v :: d :: rest).length : Int) - 1) = .ok (d :: rest) :=
        segment_cons1 _ _ _ (by simp)
      simp only [List.cons_append, List.nil_append] at *
      cases fu <;> cases de <;> simp only [dropFirstEnabled, sel, h1, h2] <;> simp [readAt]
  case hip2 =>
    match blk, hb with
    | [v, d, e], _ =>
      have h1 : segment ([v, d, e] ++ rest) 0 3 = .ok [v, d, e] :=
        segment_zero_append _ _ _ (by simp)
      have h2 : segment ([v, d, e] ++ rest) 3 ((([v, d, e] ++ rest).length : Int) - 3) = .ok rest :=
        segment_append_right _ _ _ _ (by simp) (by simp; omega)
      have h3 : segment [v, d, e] 0 1 = .ok [v] := rfl
      have h4 : segment [v, d, e] 1 2 = .ok [d, e] := rfl
      cases fu <;> cases de <;> simp only [dropFirstEnabled, sel, h1, h2] <;> simp [h3, h4]
  case hip3 =>
    match blk, hb with
    | [v, d, e, g], _ =>
      have h1 : segment ([v, d, e, g] ++ rest) 0 4 = .ok [v, d, e, g] :=
        segment_zero_append _ _ _ (by simp)
      have h2 : segment ([v, d, e, g] ++ rest) 4 ((([v, d, e, g] ++ rest).length : Int) - 4) = .ok rest :=
        segment_append_right _ _ _ _ (by simp) (by simp; omega)
      have h3 : segment [v, d, e, g] 0 1 = .ok [v] := rfl
      have h4 : segment [v, d, e, g] 1 3 = .ok [d, e, g] := rfl
      cases fu <;> cases de <;> simp only [dropFirstEnabled, sel, h1, h2] <;> simp [h3, h4]

theorem dropLast_block (f : Family) (blk rest : List Nat) (hb : blk.length = nov f)
    (fu de : Bool) (hf : f = .hip → fu = true ∨ de = true) :
    dropLastEnabled f (rest ++ blk) fu de = .ok (rest ++ sel fu de blk) := by
  cases f
  case lip =>
    match blk, hb with
    | [v], _ =>
      have h1 : segment (rest ++ [v]) 0 (((rest ++ [v]).length : Int) - 1) = .ok rest :=
        segment_zero_append _ _ _ (by simp)
      cases fu <;> cases de <;> simp only [dropLastEnabled, sel, h1] <;> simp
  case legendre =>
    match blk, hb with
    | [v], _ =>
      have h1 : segment (rest ++ [v]) 0 (((rest ++ [v]).length : Int) - 1) = .ok rest :=
        segment_zero_append _ _ _ (by simp)
      cases fu <;> cases de <;> simp only [dropLastEnabled, sel, h1] <;> simp
  case hip =>
    match blk, hb with
    | [v, d], _ =>
      have h2 : segment (rest ++ [v, d]) 0 (((rest ++ [v, d]).length : Int) - 2) = .ok rest :=
        segment_zero_append _ _ _ (by simp)
      have h1 : segment (rest ++ [v, d]) 0 (((rest ++ [v, d]).length : Int) - 1) = .ok (rest ++ [v]) := by
        have : rest ++ [v, d] = (rest ++ [v]) ++ [d] := by simp
        rw [this]
        exact segment_zero_append _ _ _ (by simp; omega)
      have h3 : readAt (rest ++ [v, d]) ((rest ++ [v, d]).length - 1) = .ok d := by
        simp [readAt]
      have := hf rfl
      cases fu <;> cases de <;> simp only [dropLastEnabled, sel, h1, h2, h3] <;> simp at *
  case hip2 =>
    match blk, hb with
    | [v, d, e], _ =>
      have h1 : segment (rest ++ [v, d, e]) 0 (((rest ++ [v, d, e]).length : Int) - 3) = .ok rest :=
        segment_zero_append _ _ _ (by simp)
      have h2 : segment (rest ++ [v, d, e]) (((rest ++ [v, d, e]).length : Int) - 3) 3 = .ok [v, d, e] :=
        segment_append_right _ _ _ _ (by simp) (by simp)
      have h3 : segment [v, d, e] 0 1 = .ok [v] := rfl
      have h4 : segment [v, d, e] 1 2 = .ok [d, e] := rfl
      cases fu <;> cases de <;> simp only [dropLastEnabled, sel, h1, h2] <;> simp [h3, h4]
  case hip3 =>
    match blk, hb with
    | [v, d, e, g], _ =>
      have h1 : segment (rest ++ [v, d, e, g]) 0 (((rest ++ [v, d, e, g]).length : Int) - 4) = .ok rest :=
        segment_zero_append _ _ _ (by simp)
      have h2 : segment (rest ++ [v, d, e, g]) (((rest ++ [v, d, e, g]).length : Int) - 4) 4 = .ok [v, d, e, g] :=
        segment_append_right _ _ _ _ (by simp) (by simp)
      have h3 : segment [v, d, e, g] 0 1 = .ok [v] := rfl
      have h4 : segment [v, d, e, g] 1 3 = .ok [d, e, g] := rfl
      cases fu <;> cases de <;> simp only [dropLastEnabled, sel, h1, h2] <;> simp [h3, h4]

/-- The no-flag branch of the Hermite `drop_last` removes the value function. -/
theorem dropLast_hip_none (v d : Nat) (rest : List Nat) :
    dropLastEnabled .hip (rest ++ [v, d]) false false = .ok (rest ++ [d]) := by
  have h2 : segment (rest ++ [v, d]) 0 (((rest ++ [v, d]).length : Int) - 2) = .ok rest :=
    segment_zero_append _ _ _ (by simp)
  have h3 : readAt (rest ++ [v, d]) ((rest ++ [v, d]).length - 1) = .ok d := by
    simp [readAt]
  simp only [dropLastEnabled, h2, h3]
  simp

/-- node block `k` -/
def blk (nv k : Nat) : List Nat := (List.range nv).map (· + nv * k)

theorem range_split (nv m : Nat) :
    List.range (nv * (m + 2)) = blk nv 0 ++ (((List.range (nv * m)).map (· + nv)) ++ blk nv (m + 1)) := by
  have e : nv * (m + 2) = nv + (nv * m + nv) := by ring
  rw [e, List.range_add, List.range_add]
  simp only [blk, List.map_append, List.map_map]
  congr 1
  · simp
  · congr 1
    · apply List.map_congr_left; intro a _; simp [Nat.add_comm]
    · apply List.map_congr_left; intro a _; simp; ring

theorem blk_div {nv k i : Nat} (h : i ∈ blk nv k) : i / nv = k := by
  simp only [blk, List.mem_map, List.mem_range] at h
  obtain ⟨a, ha, rfl⟩ := h
  rw [Nat.add_mul_div_left _ _ (by omega), Nat.div_eq_of_lt ha]; omega

theorem filter_blk_sel (f : Family) (k : Nat) (fu de : Bool) :
    (blk (nov f) k).filter (fun i => !Spec.removedAt (nov f) k fu de i) = sel fu de (blk (nov f) k) := by
  have e : ∀ i ∈ blk (nov f) k, (!Spec.removedAt (nov f) k fu de i) =
      !((i % nov f == 0 && fu) || (i % nov f != 0 && de)) := by
    intro i hi
    simp [Spec.removedAt, blk_div hi]
  rw [List.filter_congr e]
  cases f <;> simp only [nov, blk] <;> simp [List.range_succ] <;>
    cases fu <;> cases de <;> simp [List.filter, sel, Nat.add_mul_mod_self_left, Nat.mod_one]

theorem filter_blk_other (nv k node : Nat) (fu de : Bool) (h : k ≠ node) (l : List Nat)
    (hl : ∀ i ∈ l, i / nv = k) :
    l.filter (fun i => !Spec.removedAt nv node fu de i) = l := by
  rw [List.filter_eq_self]
  intro i hi
  simp [Spec.removedAt, hl i hi, h]

theorem filter_mid (nv m node : Nat) (fu de : Bool) (h : node = 0 ∨ node = m + 1) (hnv : 0 < nv) :
    ((List.range (nv * m)).map (· + nv)).filter (fun i => !Spec.removedAt nv node fu de i)
      = (List.range (nv * m)).map (· + nv) := by
  rw [List.filter_eq_self]
  intro i hi
  simp only [List.mem_map, List.mem_range] at hi
  obtain ⟨a, ha, rfl⟩ := hi
  have h1 : (a + nv) / nv = a / nv + 1 := Nat.add_div_right _ hnv
  have h2 : a / nv < m := Nat.div_lt_of_lt_mul ha
  have : ((a + nv) / nv == node) = false := by
    rw [h1, beq_eq_false_iff_ne]
    generalize a / nv = q at h2
    clear ha h1
    omega
  simp [Spec.removedAt, this]

/-- what an element keeps, in block form -/
def keptBlocks (f : Family) (m : Nat) (left right : Option (Bool × Bool)) : List Nat :=
  (match left with | some (fu, de) => sel fu de (blk (nov f) 0) | none => blk (nov f) 0) ++
  (((List.range (nov f * m)).map (· + nov f)) ++
  (match right with | some (fu, de) => sel fu de (blk (nov f) (m + 1)) | none => blk (nov f) (m + 1)))

theorem sel_sub (fu de : Bool) (l : List Nat) : ∀ i ∈ sel fu de l, i ∈ l := by
  intro i hi
  cases l with
  | nil => simp [sel] at hi
  | cons v ds => cases fu <;> cases de <;> simp [sel] at hi ⊢ <;> tauto

theorem kept_eq_keptBlocks (f : Family) (m : Nat) (left right : Option (Bool × Bool)) :
    Spec.kept (nov f) (m + 2) left right = keptBlocks f m left right := by
  unfold Spec.kept
  rw [range_split, ← List.filter_filter]
  simp only [List.filter_append]
  have hm : m + 2 - 1 = m + 1 := rfl
  have hnv := nov_pos f
  rcases left with _ | ⟨fu, de⟩ <;> rcases right with _ | ⟨fu', de'⟩ <;>
    simp only [keptBlocks, List.filter_true, hm]
  · rw [filter_blk_other _ 0 (m+1) _ _ (by omega) _ (fun i hi => blk_div hi),
      filter_mid _ _ _ _ _ (Or.inr rfl) hnv, filter_blk_sel]
  · rw [filter_blk_sel, filter_mid _ _ _ _ _ (Or.inl rfl) hnv,
      filter_blk_other _ (m+1) 0 _ _ (by omega) _ (fun i hi => blk_div hi)]
  · rw [filter_blk_other _ 0 (m+1) _ _ (by omega) (blk (nov f) 0) (fun i hi => blk_div hi),
      filter_mid _ _ _ _ _ (Or.inr rfl) hnv,
      filter_blk_sel, filter_mid _ _ _ _ _ (Or.inl rfl) hnv, filter_blk_sel,
      filter_blk_other _ (m+1) 0 _ _ (by omega) (sel _ _ _) 
        (fun i hi => blk_div (sel_sub _ _ _ i hi))]

/-- The flags that act on element `iel` of `ne` from the left / right outer edge. -/
def edgeLeft (iel : Nat) (fu de : Bool) : Option (Bool × Bool) := if iel = 0 then some (fu, de) else none
def edgeRight (iel ne : Nat) (fu de : Bool) : Option (Bool × Bool) :=
  if iel + 1 = ne then some (fu, de) else none

theorem blk_length (nv k : Nat) : (blk nv k).length = nv := by simp [blk]

/-- Right-edge flags, or the edge where the Hermite family misbehaves. -/
def rightSel (f : Family) (m : Nat) (fu de : Bool) : List Nat :=
  if f = .hip ∧ fu = false ∧ de = false then [2 * (m + 1) + 1] else sel fu de (blk (nov f) (m + 1))

theorem dropLast_rightSel (f : Family) (rest : List Nat) (m : Nat) (fu de : Bool) :
    dropLastEnabled f (rest ++ blk (nov f) (m + 1)) fu de = .ok (rest ++ rightSel f m fu de) := by
  by_cases h : f = .hip ∧ fu = false ∧ de = false
  · obtain ⟨rfl, rfl, rfl⟩ := h
    have : blk (nov .hip) (m + 1) = [2 * (m + 1), 2 * (m + 1) + 1] := by
      simp [blk, nov, List.range_succ]; ring
    rw [this, dropLast_hip_none]
    simp [rightSel]
  · rw [dropLast_block _ _ _ (blk_length _ _)]
    · simp [rightSel, h]
    · intro hf
      by_contra hc
      apply h
      refine ⟨hf, ?_, ?_⟩ <;> simp_all

/-- The enabled list of element `iel` in block form. -/
def enBlocks (f : Family) (m iel ne : Nat) (a b c d : Bool) : List Nat :=
  (if iel = 0 then sel a b (blk (nov f) 0) else blk (nov f) 0) ++
  (((List.range (nov f * m)).map (· + nov f)) ++
  (if iel + 1 = ne then rightSel f m c d else blk (nov f) (m + 1)))

theorem basisIndices_eq (f : Family) (m ne iel : Nat) (a b c d : Bool) :
    (FEShape.mk (PolyBasis.mk' f (m + 2)) (ne + 1) a b c d).basisIndices iel
      = .ok (enBlocks f m iel ne a b c d) := by
  have h1 : dropFirstEnabled f (List.range (nov f * (m + 2))) a b =
      .ok ((sel a b (blk (nov f) 0) ++ ((List.range (nov f * m)).map (· + nov f))) ++ blk (nov f) (m + 1)) := by
    rw [range_split, dropFirst_block _ _ _ (blk_length _ _)]
    simp
  have h2 : List.range (nov f * (m + 2)) =
      (blk (nov f) 0 ++ ((List.range (nov f * m)).map (· + nov f))) ++ blk (nov f) (m + 1) := by
    rw [range_split]; simp
  have e : (iel + 2 = ne + 1) ↔ (iel + 1 = ne) := by omega
  unfold FEShape.basisIndices FEShape.getBasis enBlocks
  by_cases hi : iel = 0 <;> by_cases hl : iel + 1 = ne
  · simp only [hi, if_true, PolyBasis.dropFirst, mk'_family, mk'_enabled, h1, Res.ok_bind, Res.pure_eq]
    have : (0 + 2 = ne + 1) := by omega
    have h' : 0 + 1 = ne := by omega
    simp only [this, h', if_true, PolyBasis.dropLast, mk'_family, dropLast_rightSel, Res.ok_bind,
      Res.pure_eq]
    simp
  · simp only [hi, if_true, PolyBasis.dropFirst, mk'_family, mk'_enabled, h1, Res.ok_bind, Res.pure_eq]
    have : ¬ (0 + 2 = ne + 1) := by omega
    have h' : ¬ (0 + 1 = ne) := by omega
    simp only [this, h', if_false, Res.ok_bind, Res.pure_eq]
    simp
  · have : (iel + 2 = ne + 1) := by omega
    simp only [hi, hl, this, if_false, if_true, Res.ok_bind, PolyBasis.dropLast, mk'_family, mk'_enabled, h2,
      dropLast_rightSel, Res.pure_eq]
    simp
  · have : ¬ (iel + 2 = ne + 1) := by omega
    simp only [hi, hl, this, if_false, Res.ok_bind, mk'_enabled, h2, Res.pure_eq]
    simp

/-- number of functions removed at the left edge -/
def remL (f : Family) (fu de : Bool) : Nat := (if fu then 1 else 0) + (if de then nov f - 1 else 0)
/-- number of functions removed at the right edge -/
def remR (f : Family) (fu de : Bool) : Nat :=
  if f = .hip ∧ fu = false ∧ de = false then 1 else remL f fu de

theorem sel_length (f : Family) (k : Nat) (fu de : Bool) :
    (sel fu de (blk (nov f) k)).length = nov f - remL f fu de := by
  cases f <;> cases fu <;> cases de <;> simp [blk, nov, sel, remL, List.range_succ]

theorem rightSel_length (f : Family) (m : Nat) (fu de : Bool) :
    (rightSel f m fu de).length = nov f - remR f fu de := by
  unfold rightSel remR
  split
  · next h => simp [h.1, nov]
  · exact sel_length ..

theorem remL_le (f fu de) : remL f fu de ≤ nov f := by
  cases f <;> cases fu <;> cases de <;> decide
theorem remR_le (f fu de) : remR f fu de ≤ nov f := by
  cases f <;> cases fu <;> cases de <;> decide

theorem enBlocks_length (f : Family) (m iel ne : Nat) (a b c d : Bool) :
    (enBlocks f m iel ne a b c d).length + (if iel = 0 then remL f a b else 0)
      + (if iel + 1 = ne then remR f c d else 0) = nov f * (m + 2) := by
  have h1 := remL_le f a b
  have h2 := remR_le f c d
  unfold enBlocks
  simp only [List.length_append, List.length_map, List.length_range]
  have : nov f * (m + 2) = nov f * m + 2 * nov f := by ring
  split <;> split <;> simp only [sel_length, rightSel_length, blk_length] <;> omega

/-- closed form of the table -/
def tabEntry (f : Family) (m ne : Nat) (a b c d : Bool) (i : Nat) : Int × Int :=
  ((i : Int) * (nov f * (m + 1)) - (if i = 0 then 0 else remL f a b : Nat),
   (i : Int) * (nov f * (m + 1)) - remL f a b + nov f * (m + 2) - 1
     - (if i + 1 = ne then remR f c d else 0 : Nat))

theorem updateLoop_eq (f : Family) (m ne : Nat) (a b c d : Bool) :
    ∀ (rem iel : Nat) (prev : Int), rem + iel = ne →
      (iel ≠ 0 → prev = (tabEntry f m ne a b c d (iel - 1)).2) →
      (FEShape.mk (PolyBasis.mk' f (m + 2)) (ne + 1) a b c d).updateLoop rem iel prev
        = .ok ((List.range rem).map fun k => tabEntry f m ne a b c d (iel + k)) := by
  intro rem
  induction rem with
  | zero => intro iel prev _ _; simp [FEShape.updateLoop]
  | succ rem ih =>
    intro iel prev hne hprev
    have hlen := enBlocks_length f m iel ne a b c d
    have hf : (if iel = 0 then (0 : Int) else prev - ((PolyBasis.mk' f (m + 2)).noverlap : Int) + 1)
        = (tabEntry f m ne a b c d iel).1 := by
      by_cases h0 : iel = 0
      · simp [h0, tabEntry]
      · have hp := hprev h0
        simp only [h0, if_false, mk'_noverlap, hp, tabEntry]
        have e1 : ¬ (iel - 1 + 1 = ne) := by omega
        have e2 : ((iel - 1 : Nat) : Int) = (iel : Int) - 1 := by omega
        simp only [e1, if_false, e2]
        push_cast
        ring
    have hl : (tabEntry f m ne a b c d iel).1 + ((enBlocks f m iel ne a b c d).length : Int) - 1
        = (tabEntry f m ne a b c d iel).2 := by
      have hlen' : ((enBlocks f m iel ne a b c d).length : Int) + ((if iel = 0 then remL f a b else 0 : Nat) : Int)
        + ((if iel + 1 = ne then remR f c d else 0 : Nat) : Int) = (nov f : Int) * (m + 2) := by
        exact_mod_cast hlen
      simp only [tabEntry]
      by_cases h0 : iel = 0
      · simp only [h0, if_true] at hlen' ⊢
        simp only [Nat.cast_zero, zero_mul] at *
        linarith
      · simp only [h0, if_false] at hlen' ⊢
        simp only [Nat.cast_zero, add_zero] at hlen'
        linarith
    rw [FEShape.updateLoop]
    simp only [basisIndices_eq, Res.ok_bind, Res.pure_eq]
    rw [hf, hl, ih (iel + 1) _ (by omega) (by intro _; simp)]
    simp only [Res.ok_bind, List.range_succ_eq_map, List.map_cons, List.map_map, Nat.add_zero]
    congr 2
    apply List.map_congr_left
    intro k _
    simp only [Function.comp]
    congr 1
    omega

theorem updateBfList_eq (f : Family) (m ne : Nat) (a b c d : Bool) :
    (FEShape.mk (PolyBasis.mk' f (m + 2)) (ne + 1) a b c d).updateBfList
      = .ok ((List.range ne).map (tabEntry f m ne a b c d)) := by
  unfold FEShape.updateBfList FEShape.nelem
  simp only [Nat.add_sub_cancel, Nat.add_one_ne_zero, if_false]
  rw [updateLoop_eq f m ne a b c d ne 0 0 (by omega) (by simp)]
  simp

end HelFEM
