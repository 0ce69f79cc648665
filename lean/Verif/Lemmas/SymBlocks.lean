import Verif.Model.SymBlocks
import Verif.Props.Elements
import Mathlib.Data.List.Nodup
import Mathlib.Tactic.Linarith
import Mathlib.Tactic.Ring
import Mathlib.Tactic.SplitIfs
import Mathlib.Data.List.Perm.Lattice

/-!
# Lemmas about symmetry blocks
-/

namespace HelFEM
namespace Sym

theorem mem_intRange (a b x : Int) : x ∈ intRange a b ↔ a ≤ x ∧ x ≤ b := by
  simp only [intRange, List.mem_map, List.mem_range]
  constructor
  · rintro ⟨k, hk, rfl⟩; omega
  · intro h; exact ⟨(x - a).toNat, by omega, by omega⟩

theorem nodup_intRange (a b : Int) : (intRange a b).Nodup := by
  refine List.Nodup.map ?_ List.nodup_range
  intro x y h
  simp only at h
  omega

theorem intRange_length (a b : Int) : (intRange a b).length = (b + 1 - a).toNat := by simp [intRange]

/-- the shell of each function -/
def shells (n : Nat) (size : Nat → Nat) : List Nat := (List.range n).flatMap fun i => List.replicate (size i) i

theorem shells_succ (n : Nat) (size : Nat → Nat) : shells (n + 1) size = shells n size ++ List.replicate (size n) n := by
  simp [shells, List.range_succ, List.flatMap_append]

theorem collect_state (size : Nat → Nat) (mt : Nat → Bool) (n : Nat) :
    (List.range n).foldl (fun (st : List Nat × Nat) i =>
      (if mt i then st.1 ++ (List.range (size i)).map (st.2 + ·) else st.1, st.2 + size i)) ([], 0) =
      (collect n size mt, (shells n size).length) := by
  refine Prod.ext rfl ?_
  induction n with
  | zero => simp [shells]
  | succ n ih => rw [List.range_succ, List.foldl_append, shells_succ]; simp [ih]

theorem collect_succ (n : Nat) (size : Nat → Nat) (mt : Nat → Bool) : collect (n + 1) size mt =
    if mt n then collect n size mt ++ (List.range (size n)).map ((shells n size).length + ·) else collect n size mt := by
  conv_lhs => rw [collect, List.range_succ, List.foldl_append, collect_state]
  simp

theorem mem_collect (size : Nat → Nat) (mt : Nat → Bool) (n k : Nat) :
    k ∈ collect n size mt ↔ ∃ i, (shells n size)[k]? = some i ∧ mt i = true := by
  induction n with
  | zero => simp [collect, shells]
  | succ n ih =>
    rw [collect_succ, shells_succ]
    by_cases hk : k < (shells n size).length
    · rw [List.getElem?_append_left hk]
      split_ifs
      · rw [List.mem_append, ih, or_iff_left]
        simp only [List.mem_map, List.mem_range]
        rintro ⟨j, _, h⟩
        omega
      · exact ih
    · have hno : k ∉ collect n size mt := by
        rw [ih]; rintro ⟨i, h, _⟩
        rw [List.getElem?_eq_none (by omega)] at h
        cases h
      rw [List.getElem?_append_right (by omega)]
      by_cases hs : k - (shells n size).length < size n
      · rw [List.getElem?_replicate, if_pos hs]
        split_ifs with hm
        · simp only [List.mem_append, List.mem_map, List.mem_range, Option.some.injEq]
          constructor
          · intro _; exact ⟨n, rfl, hm⟩
          · intro _; exact Or.inr ⟨k - (shells n size).length, hs, by omega⟩
        · simp only [hno, Option.some.injEq, false_iff]
          rintro ⟨i, rfl, h⟩
          exact hm h
      · rw [List.getElem?_replicate, if_neg hs]
        split_ifs with hm
        · simp only [List.mem_append, List.mem_map, List.mem_range, hno, false_or]
          constructor
          · rintro ⟨j, hj, h⟩; omega
          · rintro ⟨i, h, _⟩; cases h
        · simp [hno]

theorem collect_sorted (size : Nat → Nat) (mt : Nat → Bool) (n : Nat) : (collect n size mt).Pairwise (· < ·) := by
  induction n with
  | zero => simp [collect]
  | succ n ih =>
    rw [collect_succ]
    split_ifs
    · rw [List.pairwise_append]
      refine ⟨ih, ?_, ?_⟩
      · rw [List.pairwise_map]
        exact List.pairwise_lt_range.imp (by intro a b h; omega)
      · intro a ha b hb
        obtain ⟨i, hi, _⟩ := (mem_collect size mt n a).1 ha
        have := (List.getElem?_eq_some_iff.1 hi).1
        simp only [List.mem_map] at hb
        obtain ⟨j, _, rfl⟩ := hb
        omega
    · exact ih

theorem shells_lt (n : Nat) (size : Nat → Nat) (k i : Nat) (h : (shells n size)[k]? = some i) : i < n := by
  have := List.mem_of_getElem? h
  simp only [shells, List.mem_flatMap, List.mem_range, List.mem_replicate] at this
  obtain ⟨j, hj, _, rfl⟩ := this
  exact hj

/-- equal shells: function `k` is in shell `k / nrad` -/
theorem shells_const (n nrad : Nat) : ∀ k, (shells n fun _ => nrad)[k]? = if k < n * nrad then some (k / nrad) else none := by
  have hl : ∀ n, (shells n fun _ => nrad).length = n * nrad := by
    intro n
    induction n with
    | zero => simp [shells]
    | succ n ih => rw [shells_succ, List.length_append, ih, List.length_replicate]; ring
  induction n with
  | zero => intro k; simp [shells]
  | succ n ih =>
    intro k
    rw [shells_succ]
    have e : (n + 1) * nrad = n * nrad + nrad := by ring
    by_cases hk : k < n * nrad
    · rw [List.getElem?_append_left (by rw [hl]; exact hk), ih, if_pos hk, if_pos (by omega)]
    · rw [List.getElem?_append_right (by rw [hl]; omega), List.getElem?_replicate, hl]
      by_cases h2 : k - n * nrad < nrad
      · rw [if_pos h2, if_pos (by omega)]
        congr 1
        refine (Nat.div_eq_of_lt_le ?_ ?_).symm
        · omega
        · rw [e]; omega
      · rw [if_neg h2, if_neg (by omega)]

theorem pureIndices_eq (lm : List (Int × Int)) (nrad : Nat) : ∀ n, (List.range n).foldl (fun acc i =>
    if (lm.getD i (0, 0)).2 = 0 then acc ++ (List.range nrad).map (fun j => i * nrad + j)
    else acc ++ (List.range (nrad - 1)).map (fun j => i * nrad + 1 + j)) [] =
    (List.range n).flatMap fun i => if (lm.getD i (0, 0)).2 = 0 then (List.range nrad).map (fun j => i * nrad + j)
      else (List.range (nrad - 1)).map (fun j => i * nrad + 1 + j) := by
  intro n
  induction n with
  | zero => rfl
  | succ n ih =>
    rw [List.range_succ, List.foldl_append, ih, List.flatMap_append]
    simp only [List.foldl_cons, List.foldl_nil, List.flatMap_cons, List.flatMap_nil, List.append_nil]
    split_ifs <;> rfl

/-- the shell of a diatomic function is the one its dummy index belongs to -/
theorem shells_dia (lm : List (Int × Int)) (nrad : Nat) : shells lm.length (diaSize lm nrad) = (pureIndices lm nrad).map (· / nrad) := by
  rw [pureIndices, pureIndices_eq, List.map_flatMap, shells]
  congr 1
  funext i
  unfold diaSize
  split_ifs
  · rw [List.map_map]
    refine List.ext_getElem (by simp) ?_
    intro j h1 h2
    simp only [List.getElem_replicate, List.getElem_map, List.getElem_range, Function.comp]
    have hj : j < nrad := by simpa using h2
    refine (Nat.div_eq_of_lt_le ?_ ?_).symm
    · omega
    · have : (i + 1) * nrad = i * nrad + nrad := by ring
      omega
  · rw [List.map_map]
    refine List.ext_getElem (by simp) ?_
    intro j h1 h2
    simp only [List.getElem_replicate, List.getElem_map, List.getElem_range, Function.comp]
    have hj : j < nrad - 1 := by simpa using h2
    refine (Nat.div_eq_of_lt_le ?_ ?_).symm
    · omega
    · have : (i + 1) * nrad = i * nrad + nrad := by ring
      omega

theorem diaNbf_eq (lm : List (Int × Int)) (nrad : Nat) (h : 1 ≤ nrad) : diaNbf lm nrad = (pureIndices lm nrad).length := by
  have : ∀ n, (List.range n).foldl (fun n i => n + nrad - (if (lm.getD i (0, 0)).2 = 0 then 0 else 1)) 0 =
      ((List.range n).flatMap fun i => if (lm.getD i (0, 0)).2 = 0 then (List.range nrad).map (fun j => i * nrad + j)
      else (List.range (nrad - 1)).map (fun j => i * nrad + 1 + j)).length := by
    intro n
    induction n with
    | zero => rfl
    | succ n ih =>
      rw [List.range_succ, List.foldl_append, ih, List.flatMap_append, List.length_append]
      simp only [List.foldl_cons, List.foldl_nil, List.flatMap_cons, List.flatMap_nil, List.append_nil]
      split_ifs <;> simp <;> omega
  rw [diaNbf, this, pureIndices, pureIndices_eq]

theorem mem_unique (lm : List (Int × Int)) (x : Int) : x ∈ uniqueM lm ↔ ∃ p ∈ lm, p.2 = x := by
  rw [uniqueM, (Grid.stdSort_perm _).mem_iff]
  have : ∀ (acc : List Int), x ∈ lm.foldl (fun acc p => if p.2 ∈ acc then acc else acc ++ [p.2]) acc ↔ x ∈ acc ∨ ∃ p ∈ lm, p.2 = x := by
    induction lm with
    | nil => intro acc; simp
    | cons p r ih =>
      intro acc
      rw [List.foldl_cons, ih]
      split_ifs with h
      · constructor
        · rintro (h1 | ⟨q, hq, rfl⟩)
          · exact Or.inl h1
          · exact Or.inr ⟨q, by simp [hq], rfl⟩
        · rintro (h1 | ⟨q, hq, rfl⟩)
          · exact Or.inl h1
          · rcases List.mem_cons.1 hq with rfl | hq
            · exact Or.inl h
            · exact Or.inr ⟨q, hq, rfl⟩
      · constructor
        · rintro (h1 | ⟨q, hq, rfl⟩)
          · rcases List.mem_append.1 h1 with h1 | h1
            · exact Or.inl h1
            · exact Or.inr ⟨p, by simp, (List.mem_singleton.1 h1).symm⟩
          · exact Or.inr ⟨q, by simp [hq], rfl⟩
        · rintro (h1 | ⟨q, hq, rfl⟩)
          · exact Or.inl (by simp [h1])
          · rcases List.mem_cons.1 hq with rfl | hq
            · exact Or.inl (by simp)
            · exact Or.inr ⟨q, hq, rfl⟩
  simpa using this []

theorem unique_sorted (lm : List (Int × Int)) : (uniqueM lm).Pairwise (· < ·) := by
  refine Grid.stdSort_strict _ ?_
  have : ∀ (acc : List Int), acc.Nodup → (lm.foldl (fun acc p => if p.2 ∈ acc then acc else acc ++ [p.2]) acc).Nodup := by
    induction lm with
    | nil => intro acc h; simpa using h
    | cons p r ih =>
      intro acc h
      rw [List.foldl_cons]
      refine ih _ ?_
      split_ifs with h'
      · exact h
      · rw [List.nodup_append]
        refine ⟨h, by simp, ?_⟩
        intro a ha b hb
        rw [List.mem_singleton.1 hb]
        rintro rfl
        exact h' ha
  exact this [] List.nodup_nil

end Sym
end HelFEM
