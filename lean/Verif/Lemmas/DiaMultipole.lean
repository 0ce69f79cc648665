import Verif.Model.DiaMultipole
import Verif.Lemmas.SymBlocks
import Verif.Lemmas.Lists

namespace HelFEM
namespace Dia
open Sym

/-- a strict total order -/
structure Order {α : Type _} (lt : α → α → Bool) : Prop where
  irr : ∀ a, lt a a = false
  tr : ∀ a b c, lt a b = true → lt b c = true → lt a c = true
  tri : ∀ a b, lt a b = false → lt b a = false → a = b

theorem lmLess_iff (a b : Int × Int) : lmLess a b = true ↔ a.2 < b.2 ∨ (a.2 = b.2 ∧ a.1 < b.1) := by
  unfold lmLess
  split_ifs with h
  · rw [decide_eq_true_eq]; omega
  · rw [decide_eq_true_eq]; omega

theorem LMLess_iff (a b : Int × Int) : LMLess a b = true ↔ a.1 < b.1 ∨ (a.1 = b.1 ∧ a.2 < b.2) := by
  unfold LMLess
  split_ifs <;> simp <;> omega

theorem order_lm : Order lmLess := by
  refine ⟨fun a => ?_, fun a b c => ?_, fun a b h1 h2 => ?_⟩
  · rw [Bool.eq_false_iff, Ne, lmLess_iff]; omega
  · rw [lmLess_iff, lmLess_iff, lmLess_iff]; omega
  · rw [Bool.eq_false_iff, Ne, lmLess_iff] at h1 h2
    exact Prod.ext (by omega) (by omega)

theorem order_LM : Order LMLess := by
  refine ⟨fun a => ?_, fun a b c => ?_, fun a b h1 h2 => ?_⟩
  · rw [Bool.eq_false_iff, Ne, LMLess_iff]; omega
  · rw [LMLess_iff, LMLess_iff, LMLess_iff]; omega
  · rw [Bool.eq_false_iff, Ne, LMLess_iff] at h1 h2
    exact Prod.ext (by omega) (by omega)

section
variable {α : Type _} {lt : α → α → Bool}

theorem lowerBoundLoop_spec (ho : Order lt) (l : List α) (hl : l.Pairwise fun a b => lt a b = true) (p : α) :
    ∀ (fuel first len : Nat), len ≤ fuel → first + len ≤ l.length → (∀ (i : Nat) x, i < first → l[i]? = some x → lt x p = true) →
      (∀ (i : Nat) x, first + len ≤ i → l[i]? = some x → lt x p = false) →
      ∃ k, lowerBoundLoop lt l p fuel first len = .ok k ∧ k ≤ l.length ∧ (∀ (i : Nat) x, i < k → l[i]? = some x → lt x p = true) ∧
        ∀ (i : Nat) x, k ≤ i → l[i]? = some x → lt x p = false := by
  intro fuel
  induction fuel with
  | zero =>
    intro first len h1 h2 h3 h4
    obtain rfl : len = 0 := by omega
    exact ⟨first, rfl, by omega, h3, fun i x hi => h4 i x (by omega)⟩
  | succ fuel ih =>
    intro first len h1 h2 h3 h4
    rw [lowerBoundLoop]
    by_cases hz : len = 0
    · subst hz
      exact ⟨first, by rw [if_pos rfl], by omega, h3, fun i x hi => h4 i x (by omega)⟩
    rw [if_neg hz]
    have hlt : first + len / 2 < l.length := by omega
    rw [List.getElem?_eq_getElem hlt]
    simp only
    have hpw := List.pairwise_iff_getElem.1 hl
    by_cases hc : lt l[first + len / 2] p = true
    · rw [if_pos hc]
      refine ih _ _ (by omega) (by omega) ?_ ?_
      · intro i x hi hx
        obtain ⟨hi', rfl⟩ := List.getElem?_eq_some_iff.1 hx
        rcases Nat.lt_or_eq_of_le (Nat.le_of_lt_succ hi) with h | h
        · exact ho.tr _ _ _ (hpw i _ hi' hlt h) hc
        · subst h; exact hc
      · intro i x hi; exact h4 i x (by omega)
    · rw [if_neg hc]
      refine ih _ _ (by omega) (by omega) h3 ?_
      intro i x hi hx
      obtain ⟨hi', rfl⟩ := List.getElem?_eq_some_iff.1 hx
      rw [Bool.eq_false_iff]
      intro h
      rcases Nat.lt_or_eq_of_le hi with h5 | h5
      · exact hc (ho.tr _ _ _ (hpw _ i hlt hi' h5) h)
      · exact hc (by simpa [h5] using h)

theorem lowerBound_spec (ho : Order lt) (l : List α) (hl : l.Pairwise fun a b => lt a b = true) (p : α) :
    ∃ k, lowerBound lt l p = .ok k ∧ k ≤ l.length ∧ (∀ (i : Nat) x, i < k → l[i]? = some x → lt x p = true) ∧
        ∀ (i : Nat) x, k ≤ i → l[i]? = some x → lt x p = false :=
  lowerBoundLoop_spec ho l hl p l.length 0 l.length le_rfl (by omega) (fun i x hi => by omega) (fun i x hi hx => by
    rw [List.getElem?_eq_none (by omega)] at hx; cases hx)

/-- position of an entry -/
theorem lowerBound_mem (ho : Order lt) (l : List α) (hl : l.Pairwise fun a b => lt a b = true) (k : Nat) (p : α) (h : l[k]? = some p) :
    lowerBound lt l p = .ok k := by
  obtain ⟨k', e, _, h1, h2⟩ := lowerBound_spec ho l hl p
  rw [e]
  obtain ⟨hk, hp⟩ := List.getElem?_eq_some_iff.1 h
  have a : k' ≤ k := by
    by_contra hc
    have := h1 k p (by omega) h
    rw [ho.irr] at this; cases this
  have b : ¬k' < k := by
    intro hc
    have := h2 k' l[k'] le_rfl (List.getElem?_eq_getElem (by omega))
    have h3 := List.pairwise_iff_getElem.1 hl k' k (by omega) hk hc
    rw [hp, this] at h3; cases h3
  rw [show k' = k by omega]

theorem lowerBound_not_mem (ho : Order lt) (l : List α) (hl : l.Pairwise fun a b => lt a b = true) (p : α) (h : p ∉ l) :
    ∃ k, lowerBound lt l p = .ok k ∧ k ≤ l.length ∧ (∀ x ∈ l.take k, lt x p = true) ∧ ∀ x ∈ l.drop k, lt p x = true := by
  obtain ⟨k, e, hk, h1, h2⟩ := lowerBound_spec ho l hl p
  refine ⟨k, e, hk, ?_, ?_⟩
  · intro x hx
    obtain ⟨i, hi, rfl⟩ := List.getElem_of_mem hx
    rw [List.length_take] at hi
    rw [List.getElem_take]
    exact h1 i _ (by omega) (List.getElem?_eq_getElem (by omega))
  · intro x hx
    obtain ⟨i, hi, rfl⟩ := List.getElem_of_mem hx
    rw [List.length_drop] at hi
    rw [List.getElem_drop]
    have h3 := h2 (k + i) _ (by omega) (List.getElem?_eq_getElem (by omega))
    rcases Bool.eq_false_or_eq_true (lt p l[k + i]) with h4 | h4
    · exact h4
    · exact absurd (ho.tri _ _ h3 h4 ▸ List.getElem_mem _) h

end

theorem readAt_some {α : Type _} {l : List α} {k : Nat} {a : α} (h : l[k]? = some a) : readAt l k = .ok a := by
  unfold readAt; rw [h]

/-- A checked lookup finds the position of an entry and fails for anything else. -/
theorem lookup_check {lt : (Int × Int) → (Int × Int) → Bool} (ho : Order lt) (tab : List (Int × Int)) (hl : tab.Pairwise fun a b => lt a b = true)
    (p : Int × Int) : (∀ k : Nat, tab[k]? = some p → lookup lt tab p true = .ok k) ∧ (p ∉ tab → lookup lt tab p true = .throw .logicError) := by
  constructor
  · intro k hk
    obtain ⟨hlt, _⟩ := List.getElem?_eq_some_iff.1 hk
    unfold lookup
    rw [lowerBound_mem ho tab hl k p hk, Res.ok_bind]
    have hne : (k == tab.length) = false := by rw [Bool.eq_false_iff, Ne, beq_iff_eq]; omega
    simp only [hne, Bool.and_false, Bool.false_eq_true, if_false, readAt_some hk, Res.ok_bind]
    simp
  · intro hp
    obtain ⟨k, e, hk, _, _⟩ := lowerBound_not_mem ho tab hl p hp
    unfold lookup
    rw [e, Res.ok_bind]
    by_cases hkl : k = tab.length
    · simp [hkl]
    · have hne : (k == tab.length) = false := by rw [Bool.eq_false_iff, Ne, beq_iff_eq]; omega
      have hlt : k < tab.length := by omega
      simp only [hne, Bool.and_false, Bool.false_eq_true, if_false, readAt_some (List.getElem?_eq_getElem hlt), Res.ok_bind]
      have : (tab[k] != p) = true := by
        rw [bne_iff_ne]; intro h; exact hp (h ▸ List.getElem_mem hlt)
      simp [this]

theorem addEntry_ok {lt : (Int × Int) → (Int × Int) → Bool} (ho : Order lt) (tab : List (Int × Int)) (hl : tab.Pairwise fun a b => lt a b = true)
    (p : Int × Int) :
    ∃ tab', addEntry (fun tab => lookup lt tab p false) tab p = .ok tab' ∧ (tab'.Pairwise fun a b => lt a b = true) ∧ ∀ q, q ∈ tab' ↔ q = p ∨ q ∈ tab := by
  unfold addEntry
  by_cases hz : tab.length = 0
  · rw [if_pos hz]
    obtain rfl : tab = [] := List.length_eq_zero_iff.1 hz
    exact ⟨[p], rfl, by simp, by simp⟩
  rw [if_neg hz]
  by_cases hp : p ∈ tab
  · obtain ⟨k, hk⟩ := List.getElem?_of_mem hp
    obtain ⟨hlt, _⟩ := List.getElem?_eq_some_iff.1 hk
    have hne : (k == tab.length) = false := by rw [Bool.eq_false_iff, Ne, beq_iff_eq]; omega
    have e : lookup lt tab p false = .ok k := by
      unfold lookup
      rw [lowerBound_mem ho tab hl k p hk, Res.ok_bind]
      simp [hne, readAt_some hk]
    refine ⟨tab, ?_, hl, fun q => ⟨Or.inr, fun h => h.elim (fun h => h ▸ hp) id⟩⟩
    simp only [e, Res.ok_bind, insertAt]
    rw [if_neg (by omega), readAt_some hk, Res.ok_bind, if_pos rfl]
  · obtain ⟨k, e, hk, h1, h2⟩ := lowerBound_not_mem ho tab hl p hp
    have ek : lookup lt tab p false = .ok k := by
      unfold lookup
      rw [e, Res.ok_bind]
      by_cases hkl : k = tab.length
      · simp [hkl]
      · have hne : (k == tab.length) = false := by rw [Bool.eq_false_iff, Ne, beq_iff_eq]; omega
        simp [hne, readAt_some (List.getElem?_eq_getElem (show k < tab.length by omega))]
    have hpw : (tab.take k ++ p :: tab.drop k).Pairwise fun a b => lt a b = true := by
      have h3 : (tab.take k ++ tab.drop k).Pairwise fun a b => lt a b = true := by rw [List.take_append_drop]; exact hl
      rw [List.pairwise_append] at h3 ⊢
      refine ⟨h3.1, List.pairwise_cons.2 ⟨h2, h3.2.1⟩, ?_⟩
      intro a ha b hb
      rcases List.mem_cons.1 hb with rfl | hb
      · exact h1 a ha
      · exact h3.2.2 a ha b hb
    have hmem : ∀ q, q ∈ tab.take k ++ p :: tab.drop k ↔ q = p ∨ q ∈ tab := by
      intro q
      have : q ∈ tab ↔ q ∈ tab.take k ++ tab.drop k := by rw [List.take_append_drop]
      rw [this, List.mem_append, List.mem_append, List.mem_cons]; tauto
    by_cases hkl : k = tab.length
    · refine ⟨tab ++ [p], ?_, ?_, ?_⟩
      · simp only [ek, Res.ok_bind, insertAt]; rw [if_pos hkl]
      · rw [hkl] at hpw; simpa using hpw
      · intro q; rw [hkl] at hmem; simpa using hmem q
    · refine ⟨_, ?_, hpw, hmem⟩
      simp only [ek, Res.ok_bind, insertAt]
      rw [if_neg hkl, readAt_some (List.getElem?_eq_getElem (show k < tab.length by omega)), Res.ok_bind, if_neg]
      intro h; exact hp (h ▸ List.getElem_mem _)

/-- what is true of the tables once the multipoles in `S` have been added -/
structure Built (S : Int × Int → Prop) (t : Multipoles) : Prop where
  lmSorted : t.lm.Pairwise fun a b => lmLess a b = true
  LMSorted : t.LM.Pairwise fun a b => LMLess a b = true
  LMmem : ∀ p, p ∈ t.LM ↔ S p
  lmmem : ∀ p, p ∈ t.lm ↔ ∃ M, S (p.1, M) ∧ p.2 = |M|
  top : (∀ p, S p → p.1 ≤ t.Lmax ∧ |p.2| ≤ t.Mmax) ∧ 0 ≤ t.Lmax ∧ 0 ≤ t.Mmax

theorem addMultipole_ok (S : Int × Int → Prop) (t : Multipoles) (h : Built S t) (L M : Int) :
    ∃ t', addMultipole M t L = .ok t' ∧ Built (fun p => p = (L, M) ∨ S p) t' := by
  obtain ⟨lm', e1, s1, m1⟩ := addEntry_ok order_lm t.lm h.lmSorted (L, |M|)
  obtain ⟨LM', e2, s2, m2⟩ := addEntry_ok order_LM t.LM h.LMSorted (L, M)
  refine ⟨⟨lm', LM', max t.Lmax L, max t.Mmax |M|⟩, ?_, s1, s2, ?_, ?_, ?_, ?_, ?_⟩
  · unfold addMultipole
    simp only [lmind, LMind]
    rw [e1, Res.ok_bind, e2]; rfl
  · intro p; rw [m2, h.LMmem]
  · intro p
    rw [m1, h.lmmem]
    constructor
    · rintro (rfl | ⟨M', h1, h2⟩)
      · exact ⟨M, Or.inl rfl, rfl⟩
      · exact ⟨M', Or.inr h1, h2⟩
    · rintro ⟨M', h1 | h1, h2⟩
      · obtain ⟨h3, h4⟩ := Prod.mk.inj h1
        exact Or.inl (Prod.ext h3 (by rw [h2, h4]))
      · exact Or.inr ⟨M', h1, h2⟩
  · intro p hp
    simp only
    rcases hp with rfl | hp
    · exact ⟨le_max_right _ _, le_max_right _ _⟩
    · obtain ⟨a, b⟩ := h.top.1 p hp
      exact ⟨le_max_of_le_left a, le_max_of_le_left b⟩
  · exact le_max_of_le_left h.top.2.1
  · exact le_max_of_le_left h.top.2.2

theorem built_congr {S T : Int × Int → Prop} {t : Multipoles} (h : Built S t) (e : ∀ p, S p ↔ T p) : Built T t := by
  have : S = T := funext fun p => propext (e p)
  rwa [← this]

theorem foldl_built {α : Type _} (f : Multipoles → α → Res Multipoles) (T : α → Int × Int → Prop)
    (hf : ∀ (S : Int × Int → Prop) t a, Built S t → ∃ t', f t a = .ok t' ∧ Built (fun p => T a p ∨ S p) t') :
    ∀ (l : List α) (S : Int × Int → Prop) t, Built S t → ∃ t', l.foldlM f t = .ok t' ∧ Built (fun p => (∃ a ∈ l, T a p) ∨ S p) t' := by
  intro l
  induction l with
  | nil => intro S t h; exact ⟨t, rfl, built_congr h fun p => by simp⟩
  | cons a l ih =>
    intro S t h
    obtain ⟨t1, e1, h1⟩ := hf S t a h
    obtain ⟨t2, e2, h2⟩ := ih _ t1 h1
    refine ⟨t2, ?_, built_congr h2 fun p => ?_⟩
    · rw [List.foldlM_cons, e1, Res.ok_bind, e2]
    · simp only [List.mem_cons, exists_eq_or_imp]; rw [or_assoc, or_left_comm]

theorem multipoles_ok (lm : List (Int × Int)) :
    ∃ t, multipoles lm = .ok t ∧ Built (fun p => ∃ a ∈ lm, ∃ b ∈ lm, p.2 = b.2 - a.2 ∧ p.1 ∈ coupledL a b (b.2 - a.2)) t := by
  have h0 : Built (fun _ => False) ⟨[], [], 0, 0⟩ := ⟨by simp, by simp, by simp, by simp, by simp⟩
  obtain ⟨t, e, h⟩ := foldl_built (fun t a => lm.foldlM (fun t b => (coupledL a b (b.2 - a.2)).foldlM (addMultipole (b.2 - a.2)) t) t)
    (fun a p => ∃ b ∈ lm, p.2 = b.2 - a.2 ∧ p.1 ∈ coupledL a b (b.2 - a.2)) (fun S t a h => by
      refine foldl_built (fun t b => (coupledL a b (b.2 - a.2)).foldlM (addMultipole (b.2 - a.2)) t)
        (fun b p => p.2 = b.2 - a.2 ∧ p.1 ∈ coupledL a b (b.2 - a.2)) (fun S t b h => ?_) lm S t h
      obtain ⟨t', e', h'⟩ := foldl_built (addMultipole (b.2 - a.2)) (fun L p => p = (L, b.2 - a.2)) (fun S t L h => addMultipole_ok S t h L _)
        (coupledL a b (b.2 - a.2)) S t h
      refine ⟨t', e', built_congr h' fun p => or_congr ?_ Iff.rfl⟩
      constructor
      · rintro ⟨L, hL, rfl⟩; exact ⟨rfl, hL⟩
      · rintro ⟨h1, h2⟩; exact ⟨p.1, h2, Prod.ext rfl h1⟩) lm _ _ h0
  exact ⟨t, e, built_congr h fun p => by simp⟩

theorem runEnd_spec (tab : List (Int × Int)) (m : Int) : ∀ (fuel j : Nat), j + fuel = tab.length →
    j ≤ runEnd tab m fuel j ∧ runEnd tab m fuel j ≤ tab.length ∧ (∀ i, j ≤ i → i < runEnd tab m fuel j → (tab.getD i (0, 0)).2 = m) ∧
      (j < tab.length → (tab.getD j (0, 0)).2 = m → j < runEnd tab m fuel j) := by
  intro fuel
  induction fuel with
  | zero => intro j h; simp only [runEnd]; exact ⟨le_rfl, by omega, fun i _ _ => by omega, fun h _ => by omega⟩
  | succ fuel ih =>
    intro j h
    rw [runEnd]
    by_cases hc : j < tab.length ∧ (tab.getD j (0, 0)).2 = m
    · rw [if_pos hc]
      obtain ⟨a, b, c, _⟩ := ih (j + 1) (by omega)
      refine ⟨by omega, b, ?_, fun _ _ => by omega⟩
      intro i h1 h2
      rcases Nat.lt_or_eq_of_le h1 with h3 | h3
      · exact c i h3 h2
      · rw [← h3]; exact hc.2
    · rw [if_neg hc]
      exact ⟨le_rfl, by omega, fun i _ _ => by omega, fun h1 h2 => absurd ⟨h1, h2⟩ hc⟩

theorem mruns_spec (tab : List (Int × Int)) : ∀ (fuel i : Nat), tab.length ≤ i + fuel →
    (mruns tab fuel i).Pairwise (fun g h => g.2 ≤ h.1) ∧ (∀ g ∈ mruns tab fuel i, i ≤ g.1 ∧ g.1 < g.2 ∧ g.2 ≤ tab.length ∧
      ∀ k, g.1 ≤ k → k < g.2 → (tab.getD k (0, 0)).2 = (tab.getD g.1 (0, 0)).2) ∧
      ∀ k, i ≤ k → k < tab.length → ∃ g ∈ mruns tab fuel i, g.1 ≤ k ∧ k < g.2 := by
  intro fuel
  induction fuel with
  | zero => intro i h; simp only [mruns]; exact ⟨by simp, by simp, fun k _ _ => by omega⟩
  | succ fuel ih =>
    intro i h
    rw [mruns]
    by_cases hi : i < tab.length
    · rw [if_pos hi]
      simp only
      obtain ⟨a, b, c, d⟩ := runEnd_spec tab (tab.getD i (0, 0)).2 (tab.length - i) i (by omega)
      have d := d hi rfl
      generalize runEnd tab (tab.getD i (0, 0)).2 (tab.length - i) i = j at *
      obtain ⟨p1, p2, p3⟩ := ih j (by omega)
      refine ⟨List.pairwise_cons.2 ⟨fun g hg => (p2 g hg).1, p1⟩, ?_, ?_⟩
      · intro g hg
        rcases List.mem_cons.1 hg with rfl | hg
        · exact ⟨le_rfl, d, b, c⟩
        · obtain ⟨q1, q2⟩ := p2 g hg
          exact ⟨by omega, q2⟩
      · intro k h1 h2
        by_cases hk : k < j
        · exact ⟨(i, j), by simp, h1, hk⟩
        · obtain ⟨g, hg, h3⟩ := p3 k (by omega) h2
          exact ⟨g, by simp [hg], h3⟩
    · rw [if_neg hi]
      exact ⟨by simp, by simp, fun k _ _ => by omega⟩

theorem foldl_max_mem {α : Type _} (f : α → Int) (l : List α) : ∀ (a : Int), a ≤ l.foldl (fun a x => max a (f x)) a ∧
    (∀ x ∈ l, f x ≤ l.foldl (fun a x => max a (f x)) a) := by
  induction l with
  | nil => intro a; simp
  | cons y l ih =>
    intro a
    obtain ⟨h1, h2⟩ := ih (max a (f y))
    rw [List.foldl_cons]
    refine ⟨(le_max_left _ _).trans h1, fun x hx => ?_⟩
    rcases List.mem_cons.1 hx with rfl | hx
    · exact (le_max_right _ _).trans h1
    · exact h2 x hx

end Dia
end HelFEM
