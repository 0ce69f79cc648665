import Verif.Spec.PureMXC
import Verif.Props.DiaIndex
import Verif.Lemmas.SadXC

/-!
# Blocks of the grid without azimuthal quadrature: indices and sums
-/

namespace HelFEM
namespace XC

open Matrix

/-! ### Rows -/

theorem flatMap_const_get {α β : Type} (l : List α) (n : Nat) (hn : 0 < n) (g : α → Nat → β) (a : Nat) (ha : a < (l.flatMap fun x => (List.range n).map (g x)).length) :
    ∃ h : a / n < l.length, (l.flatMap fun x => (List.range n).map (g x))[a] = g l[a / n] (a % n) := by
  induction l generalizing a with
  | nil => simp at ha
  | cons x r ih =>
    simp only [List.flatMap_cons] at ha ⊢
    by_cases h : a < n
    · refine ⟨by simp [Nat.div_eq_of_lt h], ?_⟩
      rw [List.getElem_append_left (by simpa using h)]
      simp [Nat.div_eq_of_lt h, Nat.mod_eq_of_lt h]
    · push Not at h
      have hlen : ((List.range n).map (g x)).length = n := by simp
      rw [List.length_append, hlen] at ha
      obtain ⟨h1, h2⟩ := ih (a - n) (by omega)
      have e1 : a / n = (a - n) / n + 1 := by
        rw [Nat.div_eq a n, if_pos ⟨hn, h⟩]
      have e2 : a % n = (a - n) % n := Nat.mod_eq_sub_mod h
      refine ⟨by rw [e1, List.length_cons]; omega, ?_⟩
      rw [List.getElem_append_right (by rw [hlen]; exact h)]
      simp only [hlen, h2, e1, e2, List.getElem_cons_succ]

/-- angular functions with a given `m` -/
def angs (lm : List (Int × Int)) (m : Int) : List Nat := (List.range lm.length).filter fun i => (lm.getD i (0, 0)).2 = m

theorem bfListDummyM_eq (lm : List (Int × Int)) (nrad ifirst ilast : Nat) (m : Int) :
    Dia.bfListDummyM lm nrad ifirst ilast m = (angs lm m).flatMap fun iam => (List.range (ilast - ifirst + 1)).map fun j => nrad * iam + ifirst + j := by
  unfold Dia.bfListDummyM angs
  have key : ∀ (l acc : List Nat), l.foldl (fun acc iam =>
      if (lm.getD iam (0, 0)).2 = m then acc ++ (List.range (ilast - ifirst + 1)).map (fun j => nrad * iam + ifirst + j) else acc) acc =
      acc ++ (l.filter fun i => (lm.getD i (0, 0)).2 = m).flatMap fun iam => (List.range (ilast - ifirst + 1)).map fun j => nrad * iam + ifirst + j := by
    intro l
    induction l with
    | nil => intro acc; simp
    | cons a l ih =>
      intro acc
      rw [List.foldl_cons, ih]
      by_cases hm : (lm.getD a (0, 0)).2 = m
      · rw [if_pos hm, List.filter_cons_of_pos (by simpa using hm), List.flatMap_cons, List.append_assoc]
      · rw [if_neg hm, List.filter_cons_of_neg (by simpa using hm)]
  rw [key, List.nil_append]

/-- a row of a block: the shell and radial function it stands for -/
theorem block_row (lm : List (Int × Int)) (nrad ifirst ilast : Nat) (m : Int) (h : ifirst ≤ ilast) (hl : ilast < nrad) (a : Nat)
    (ha : a < (Dia.bfListDummyM lm nrad ifirst ilast m).length) :
    Spec.lOf lm nrad (Dia.bfListDummyM lm nrad ifirst ilast m)[a] = (pmShells lm m).getD (a / (ilast - ifirst + 1)) 0 ∧
    Spec.mOf lm nrad (Dia.bfListDummyM lm nrad ifirst ilast m)[a] = m ∧
    (Dia.bfListDummyM lm nrad ifirst ilast m)[a] % nrad = ifirst + a % (ilast - ifirst + 1) ∧
    (lm.getD ((Dia.bfListDummyM lm nrad ifirst ilast m)[a] / nrad) (0, 0)) ∈ lm := by
  have e := bfListDummyM_eq lm nrad ifirst ilast m
  have ha' := ha
  rw [e] at ha'
  obtain ⟨h1, h2⟩ := flatMap_const_get (angs lm m) (ilast - ifirst + 1) (by omega) (fun iam j => nrad * iam + ifirst + j) a ha'
  have hg : (Dia.bfListDummyM lm nrad ifirst ilast m)[a] = nrad * (angs lm m)[a / (ilast - ifirst + 1)] + ifirst + a % (ilast - ifirst + 1) := by
    rw [← h2]
    congr 1
  have hmod : a % (ilast - ifirst + 1) < ilast - ifirst + 1 := Nat.mod_lt _ (by omega)
  have hd : (Dia.bfListDummyM lm nrad ifirst ilast m)[a] / nrad = (angs lm m)[a / (ilast - ifirst + 1)] := by
    have hz : (ifirst + a % (ilast - ifirst + 1)) / nrad = 0 := Nat.div_eq_of_lt (by omega)
    rw [hg, add_assoc, Nat.mul_add_div (by omega), hz, add_zero]
  have hmem : (angs lm m)[a / (ilast - ifirst + 1)] ∈ angs lm m := List.getElem_mem _
  have hmem' := List.mem_filter.1 hmem
  have hlt := List.mem_range.1 hmem'.1
  refine ⟨?_, ?_, ?_, ?_⟩
  · rw [Spec.lOf, hd]
    have : pmShells lm m = (angs lm m).map fun i => (lm.getD i (0, 0)).1 := rfl
    rw [this, List.getD_eq_getElem?_getD (l := (angs lm m).map _), List.getElem?_map, List.getElem?_eq_getElem h1]
    rfl
  · rw [Spec.mOf, hd]
    simpa using hmem'.2
  · rw [hg, add_assoc, Nat.mul_add_mod, Nat.mod_eq_of_lt (by omega)]
  · rw [hd, List.getD_eq_getElem?_getD, List.getElem?_eq_getElem hlt]
    exact List.getElem_mem _

theorem pmShells_eq (lm : List (Int × Int)) (m : Int) : pmShells lm m = Spec.lsOf lm m := by
  unfold pmShells Spec.lsOf
  have h : lm = (List.range lm.length).map fun i => lm.getD i (0, 0) := by
    apply List.ext_getElem
    · simp
    · intro i h1 h2
      simp [List.getD_eq_getElem?_getD, h1]
  conv_rhs => rw [h, List.filter_map, List.map_map]
  rfl

theorem block_length (lm : List (Int × Int)) (nrad ifirst ilast : Nat) (m : Int) :
    (Dia.bfListDummyM lm nrad ifirst ilast m).length = (Spec.lsOf lm m).length * (ilast - ifirst + 1) := by
  rw [bfListDummyM_eq, ← pmShells_eq, pmShells, List.length_map, List.length_flatMap]
  have : angs lm m = (List.range lm.length).filter fun i => (lm.getD i (0, 0)).2 = m := rfl
  simp [this]

/-! ### Sums over blocks -/

theorem sum_getElem {α : Type} (l : List α) (F : α → ℝ) : ∑ a : Fin l.length, F l[a] = (l.map F).sum := by
  rw [Fin.sum_univ_def]
  congr 1
  apply List.ext_getElem
  · simp
  · intro i h1 h2; simp

theorem sum_filter {α : Type} (l : List α) (p : α → Bool) (F : α → ℝ) : ((l.filter p).map F).sum = (l.map fun a => if p a then F a else 0).sum := by
  induction l with
  | nil => rfl
  | cons a r ih =>
    by_cases h : p a = true
    · rw [List.filter_cons_of_pos h, List.map_cons, List.sum_cons, List.map_cons, List.sum_cons, ih, if_pos h]
    · rw [List.filter_cons_of_neg h, List.map_cons, List.sum_cons, ih, if_neg h, zero_add]

theorem list_sum_comm {α β : Type} (l : List α) (r : List β) (T : α → β → ℝ) : (l.map fun a => (r.map fun b => T a b).sum).sum = (r.map fun b => (l.map fun a => T a b).sum).sum := by
  induction l with
  | nil => simp
  | cons a l ih =>
    simp only [List.map_cons, List.sum_cons, ih]
    rw [← List.sum_map_add]

/-- the block-diagonal part -/
def bd (lm : List (Int × Int)) (nrad : Nat) (D : Nat → Nat → ℝ) (a b : Nat) : ℝ := if Spec.mOf lm nrad a = Spec.mOf lm nrad b then D a b else 0

/-- a sum over pairs of functions with the same `m`, block by block -/
theorem sum_blocks (mf : Nat → Int) (all : List Nat) (ms : List Int) (hnd : ms.Nodup) (hms : ∀ k ∈ all, mf k ∈ ms) (G : Nat → Nat → ℝ) :
    ∑ a : Fin all.length, ∑ b : Fin all.length, (if mf all[a] = mf all[b] then G all[a] all[b] else 0) =
      (ms.map fun m => ∑ a : Fin (all.filter fun k => mf k = m).length, ∑ b : Fin (all.filter fun k => mf k = m).length,
        G (all.filter fun k => mf k = m)[a] (all.filter fun k => mf k = m)[b]).sum := by
  have e1 : ∀ m, ∑ a : Fin (all.filter fun k => mf k = m).length, ∑ b : Fin (all.filter fun k => mf k = m).length,
      G (all.filter fun k => mf k = m)[a] (all.filter fun k => mf k = m)[b] = (all.map fun k => if mf k = m then (all.map fun k' => if mf k' = m then G k k' else 0).sum else 0).sum := by
    intro m
    rw [sum_getElem (all.filter fun k => mf k = m) fun k => ∑ b : Fin (all.filter fun k => mf k = m).length, G k (all.filter fun k => mf k = m)[b], sum_filter]
    congr 2
    funext k
    rw [sum_getElem (all.filter fun k => mf k = m) fun k' => G k k', sum_filter]
    simp
  simp only [e1]
  rw [sum_getElem all fun k => ∑ b : Fin all.length, if mf k = mf all[b] then G k all[b] else 0]
  have e2 : ∀ k ∈ all, (∑ b : Fin all.length, if mf k = mf all[b] then G k all[b] else 0) =
      (ms.map fun m => if mf k = m then (all.map fun k' => if mf k' = m then G k k' else 0).sum else 0).sum := by
    intro k hk
    rw [sum_getElem all fun k' => if mf k = mf k' then G k k' else 0]
    have : ∀ (l : List Int), l.Nodup → mf k ∈ l → (l.map fun m => if mf k = m then (all.map fun k' => if mf k' = m then G k k' else 0).sum else 0).sum =
        (all.map fun k' => if mf k' = mf k then G k k' else 0).sum := by
      intro l
      induction l with
      | nil => intro _ h; simp at h
      | cons m r ih =>
        intro hnd hmem
        rw [List.map_cons, List.sum_cons]
        by_cases h : mf k = m
        · have hnr : mf k ∉ r := by rw [h]; exact (List.nodup_cons.1 hnd).1
          have hz : (r.map fun m => if mf k = m then (all.map fun k' => if mf k' = m then G k k' else 0).sum else 0).sum = 0 := by
            apply List.sum_eq_zero
            intro x hx
            obtain ⟨m', hm', rfl⟩ := List.mem_map.1 hx
            rw [if_neg]
            rintro rfl
            exact hnr hm'
          rw [hz, add_zero, if_pos h, h]
        · rw [if_neg h, zero_add]
          refine ih (List.nodup_cons.1 hnd).2 ?_
          rcases List.mem_cons.1 hmem with h' | h'
          · exact absurd h' h
          · exact h'
    rw [this ms hnd (hms k hk)]
    congr 2
    funext k'
    simp only [eq_comm]
  rw [List.map_congr_left e2]
  clear e1 e2
  exact list_sum_comm all ms fun (k : Nat) (m : Int) => if mf k = m then (all.map fun k' => if mf k' = m then G k k' else 0).sum else 0

end XC
end HelFEM
