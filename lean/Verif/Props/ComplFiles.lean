import Verif.Model.ComplFiles
import Mathlib.Data.Nat.Digits.Defs

/-!
# C92: every shell is scanned once, and no file is written twice
-/

namespace HelFEM
namespace Compl

theorem uniq_mem (a : Int) : ∀ l : List Int, a ∈ uniq l ↔ a ∈ l
  | [] => by simp [uniq]
  | [b] => by simp [uniq]
  | b :: c :: t => by
    have ih := uniq_mem a (c :: t)
    unfold uniq
    split_ifs with h
    · rw [ih, h]; simp
    · rw [List.mem_cons, ih]; simp

theorem uniq_lt : ∀ l : List Int, l.Pairwise (· ≤ ·) → (uniq l).Pairwise (· < ·)
  | [], _ => by simp [uniq]
  | [b], _ => by simp [uniq]
  | b :: c :: t, h => by
    have ih := uniq_lt (c :: t) (List.Pairwise.of_cons h)
    unfold uniq
    split_ifs with e
    · exact ih
    · refine List.pairwise_cons.2 ⟨fun x hx => ?_, ih⟩
      rw [uniq_mem] at hx
      have hb := (List.pairwise_cons.1 h).1
      have hc := (List.pairwise_cons.1 (List.Pairwise.of_cons h)).1
      have h1 := hb c (by simp)
      rcases List.mem_cons.1 hx with rfl | hx'
      · omega
      · have := hc x hx'; omega

theorem mvals_mem (a : Int) (mval : List Int) : a ∈ mvals mval ↔ a ∈ mval := by
  unfold mvals
  rw [uniq_mem, List.mem_mergeSort]

theorem mvals_lt (mval : List Int) : (mvals mval).Pairwise (· < ·) := by
  apply uniq_lt
  have := List.pairwise_mergeSort (le := fun a b : Int => decide (a ≤ b)) (fun a b c h1 h2 => by simp at *; omega) (fun a b => by simp; omega) mval
  simpa using this

/-- The scan goes through every shell of an `m` of the basis with `|m| ≤ l ≤ lmax`, at each of the three places, exactly once and in order of `m`; whatever the order and
repetition of the shells of the basis. -/
theorem C92_shells (mval : List Int) (lmax : Int) :
    (∀ m l c, (m, l, c) ∈ shells mval lmax ↔ m ∈ mval ∧ |m| ≤ (l : Int) ∧ (l : Int) ≤ lmax) ∧ (shells mval lmax).Nodup ∧
    (shells mval lmax).Pairwise fun s t => s.1 < t.1 ∨ (s.1 = t.1 ∧ s.2.1 ≤ t.2.1) := by
  have hl : ∀ m : Int, (List.range' m.natAbs (lmax + 1 - m.natAbs).toNat).Pairwise (· < ·) := fun m => List.pairwise_lt_range'
  refine ⟨?_, ?_, ?_⟩
  · intro m l c
    rw [← Int.natCast_natAbs]
    simp only [shells, List.mem_flatMap, List.mem_map, Prod.mk.injEq, mvals_mem, List.mem_range'_1]
    constructor
    · rintro ⟨m', hm', l', hl', c', hc', rfl, rfl, rfl⟩
      exact ⟨hm', by omega, by omega⟩
    · rintro ⟨hm, h1, h2⟩
      exact ⟨m, hm, l, by omega, c, by cases c <;> simp, rfl, rfl, rfl⟩
  · refine List.nodup_flatMap.2 ⟨fun m _ => List.nodup_flatMap.2 ⟨fun l _ => by simp, ?_⟩, ?_⟩
    · refine (hl m).imp fun {a b} hab x hx hy => ?_
      simp only [List.mem_map] at hx hy
      obtain ⟨_, _, rfl⟩ := hx
      obtain ⟨_, _, e⟩ := hy
      simp only [Prod.mk.injEq] at e
      omega
    · refine (mvals_lt mval).imp fun {a b} hab x hx hy => ?_
      simp only [List.mem_flatMap, List.mem_map] at hx hy
      obtain ⟨_, _, _, _, rfl⟩ := hx
      obtain ⟨_, _, _, _, e⟩ := hy
      simp only [Prod.mk.injEq] at e
      omega
  · unfold shells
    refine List.pairwise_flatMap.2 ⟨fun m _ => List.pairwise_flatMap.2 ⟨fun l _ => by simp, ?_⟩, ?_⟩
    · refine (hl m).imp fun {a b} hab x hx y hy => ?_
      simp only [List.mem_map] at hx hy
      obtain ⟨_, _, rfl⟩ := hx
      obtain ⟨_, _, rfl⟩ := hy
      exact Or.inr ⟨rfl, hab.le⟩
    · refine (mvals_lt mval).imp fun {a b} hab x hx y hy => ?_
      simp only [List.mem_flatMap, List.mem_map] at hx hy
      obtain ⟨_, _, _, _, rfl⟩ := hx
      obtain ⟨_, _, _, _, rfl⟩ := hy
      exact Or.inl hab

theorem split_sep {s : Char} : ∀ {a b x y : List Char}, s ∉ a → s ∉ b → a ++ s :: x = b ++ s :: y → a = b ∧ x = y
  | [], [], _, _, _, _, h => by simpa using h
  | [], c :: b, _, _, _, hb, h => by simp at h; exact absurd (by simp [h.1]) hb
  | c :: a, [], _, _, ha, _, h => by simp at h; exact absurd (by simp [h.1]) ha
  | c :: a, d :: b, x, y, ha, hb, h => by
    simp only [List.cons_append, List.cons.injEq] at h
    obtain ⟨rfl, h⟩ := h
    have := split_sep (fun h => ha (List.mem_cons_of_mem _ h)) (fun h => hb (List.mem_cons_of_mem _ h)) h
    exact ⟨by rw [this.1], this.2⟩

theorem digits_not {s : Char} (hs : s.isDigit = false) (k : Nat) : s ∉ Nat.toDigits 10 k := by
  intro h
  have := Nat.isDigit_of_mem_toDigits (by norm_num) (by norm_num) h
  rw [hs] at this
  exact absurd this (by simp)

theorem toDigits_inj {a b : Nat} (h : Nat.toDigits 10 a = Nat.toDigits 10 b) : a = b := by
  have := congrArg (fun l => Nat.ofDigitChars 10 l 0) h
  simpa using this

theorem showInt_inj {a b : Int} (h : showInt a = showInt b) : a = b := by
  have hm := fun k => digits_not (s := '-') (by decide) k
  unfold showInt at h
  split_ifs at h with h1 h2 h2
  · have := toDigits_inj (List.cons.inj h).2; omega
  · exact absurd (h ▸ List.mem_cons_self) (hm b.natAbs)
  · exact absurd (h.symm ▸ List.mem_cons_self) (hm a.natAbs)
  · have := toDigits_inj h; omega

theorem showInt_not {s : Char} (hs : s.isDigit = false) (hs' : s ≠ '-') (m : Int) : s ∉ showInt m := by
  unfold showInt
  split_ifs
  · simp [hs', digits_not hs]
  · exact digits_not hs _

/-- Different profiles, probes, centres or shells never share a file. -/
theorem C92_names (p p' : Prof) (s s' : Bool) (c c' : Cen) (l l' : Nat) (m m' : Int) (h : fileName p s c l m = fileName p' s' c' l' m') :
    p = p' ∧ s = s' ∧ c = c' ∧ l = l' ∧ m = m' := by
  have hp : ∀ p : Prof, '_' ∉ p.name := by intro p; cases p <;> decide
  have hs : ∀ s : Bool, '_' ∉ (if s then "sto".toList else "gto".toList) := by intro s; cases s <;> decide
  have hc : ∀ c : Cen, '_' ∉ c.name := by intro c; cases c <;> decide
  have hd := fun k => digits_not (s := '_') (by decide) k
  unfold fileName at h
  obtain ⟨e1, h⟩ := split_sep (hp p) (hp p') h
  obtain ⟨e2, h⟩ := split_sep (hs s) (hs s') h
  obtain ⟨e3, h⟩ := split_sep (hc c) (hc c') h
  obtain ⟨e4, h⟩ := split_sep (hd l) (hd l') h
  refine ⟨?_, ?_, ?_, toDigits_inj e4, showInt_inj (List.append_cancel_right h)⟩
  · revert e1; cases p <;> cases p' <;> decide
  · revert e2; cases s <;> cases s' <;> decide
  · revert e3; cases c <;> cases c' <;> decide

/-- A run writes no file twice, and runs with different probes write different files. -/
theorem C92_files (mval : List Int) (lmax : Int) :
    (∀ sto, (files sto mval lmax).Nodup ∧ (files sto mval lmax).length = 3 * (shells mval lmax).length) ∧
    List.Disjoint (files false mval lmax) (files true mval lmax) := by
  refine ⟨fun sto => ⟨?_, ?_⟩, ?_⟩
  · refine List.nodup_flatMap.2 ⟨fun t _ => ?_, ?_⟩
    · refine List.Nodup.map (fun a b e => (C92_names _ _ _ _ _ _ _ _ _ _ e).1) (by decide)
    · refine (C92_shells mval lmax).2.1.imp fun {a b} hab x hx hy => ?_
      simp only [List.mem_map] at hx hy
      obtain ⟨_, _, rfl⟩ := hx
      obtain ⟨_, _, e⟩ := hy
      have := C92_names _ _ _ _ _ _ _ _ _ _ e
      exact hab (Prod.ext this.2.2.2.2.symm (Prod.ext this.2.2.2.1.symm this.2.2.1.symm))
  · unfold files
    induction shells mval lmax with
    | nil => simp
    | cons a t ih => simp only [List.flatMap_cons, List.length_append, ih]; simp; ring
  · intro x hx hy
    simp only [files, List.mem_flatMap, List.mem_map] at hx hy
    obtain ⟨_, _, _, _, rfl⟩ := hx
    obtain ⟨_, _, _, _, e⟩ := hy
    exact absurd (C92_names _ _ _ _ _ _ _ _ _ _ e).2.1 (by simp)

/-- Shells of a basis with repeated values of `m`; a name with a negative one. -/
example : (∀ m l c, (m, l, c) ∈ shells [0, 0, 1, -1, 1] 2 ↔ m ∈ [(0 : Int), 0, 1, -1, 1] ∧ |m| ≤ (l : Int) ∧ (l : Int) ≤ 2) ∧
    fileName .importance false .mid 12 (-3) = "importance_gto_mid_12_-3.dat".toList := ⟨(C92_shells _ _).1, by decide⟩

end Compl
end HelFEM
