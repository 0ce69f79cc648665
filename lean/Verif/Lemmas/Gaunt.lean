import Verif.Model.Gaunt
import Verif.Spec.Gaunt
import Mathlib.Algebra.BigOperators.Intervals
import Mathlib.Algebra.Order.BigOperators.Group.Finset
import Mathlib.Tactic.Linarith
import Mathlib.Tactic.Ring
import Mathlib.Tactic.SplitIfs
import Verif.Lemmas.Lists

/-!
# Lemmas about the packed Gaunt table
-/

namespace HelFEM
namespace Gaunt

open Finset

/-- prefix sum of the run offsets -/
def off (ms l1 l2 m3 : Nat) : Nat := ∑ mm ∈ range m3, m2Count ms l1 l2 mm

theorem off_mono (ms l1 l2 : Nat) {a b : Nat} (h : a ≤ b) : off ms l1 l2 a ≤ off ms l1 l2 b :=
  Finset.sum_le_sum_of_subset (Finset.range_mono h)

theorem off_succ (ms l1 l2 m3 : Nat) : off ms l1 l2 (m3 + 1) = off ms l1 l2 m3 + m2Count ms l1 l2 m3 := Finset.sum_range_succ _ _

theorem list_off (ms l1 l2 m3 : Nat) : ((List.range m3).map fun mm => m2Count ms l1 l2 mm).sum = off ms l1 l2 m3 := by
  induction m3 with
  | zero => simp [off]
  | succ n ih => rw [List.range_succ, List.map_append, List.sum_append, ih, off_succ]; simp

theorem runSize_eq (ms : Nat) (t : Nat × Nat × Nat) : runSize ms t = off ms t.1 t.2.1 (min t.2.2 ms + 1) := list_off _ _ _ _

/-- offset inside a run -/
def place (ms l1 l2 m3 : Nat) (m2 : Int) : Nat := off ms l1 l2 m3 + (m2 - m2lo ms l2).toNat

theorem place_lt {ms l1 l2 m3 : Nat} {m2 : Int} (h1 : m2lo ms l2 ≤ m2) (h2 : m2 ≤ m2hi ms l1 l2 m3) :
    place ms l1 l2 m3 m2 < off ms l1 l2 (m3 + 1) := by
  rw [off_succ, place, m2Count, if_pos (by omega)]
  omega

theorem place_lt_run {ms l1 l2 l3 m3 : Nat} {m2 : Int} (h1 : m2lo ms l2 ≤ m2) (h2 : m2 ≤ m2hi ms l1 l2 m3) (h3 : m3 ≤ min l3 ms) :
    place ms l1 l2 m3 m2 < runSize ms (l1, l2, l3) := by
  rw [runSize_eq]
  exact lt_of_lt_of_le (place_lt h1 h2) (off_mono _ _ _ (by simpa using h3))

theorem place_inj {ms l1 l2 m3 n3 : Nat} {m2 n2 : Int} (h1 : m2lo ms l2 ≤ m2) (h2 : m2 ≤ m2hi ms l1 l2 m3)
    (g1 : m2lo ms l2 ≤ n2) (g2 : n2 ≤ m2hi ms l1 l2 n3) (h : place ms l1 l2 m3 m2 = place ms l1 l2 n3 n2) : m3 = n3 ∧ m2 = n2 := by
  have key : m3 = n3 := by
    by_contra hne
    rcases lt_or_gt_of_ne hne with h' | h'
    · have := place_lt h1 h2
      have := off_mono ms l1 l2 (show m3 + 1 ≤ n3 from h')
      have : off ms l1 l2 n3 ≤ place ms l1 l2 n3 n2 := Nat.le_add_right _ _
      omega
    · have := place_lt g1 g2
      have := off_mono ms l1 l2 (show n3 + 1 ≤ m3 from h')
      have : off ms l1 l2 m3 ≤ place ms l1 l2 m3 m2 := Nat.le_add_right _ _
      omega
  subst key
  refine ⟨rfl, ?_⟩
  unfold place at h
  omega

theorem mem_triplesAt (lall l1 : Nat) (h1 : l1 ≤ lall) (t : Nat × Nat × Nat) :
    t ∈ triplesAt lall l1 ↔ t.1 = l1 ∧ t.2.2 ≤ t.2.1 ∧ t.2.1 ≤ t.1 ∧ t.1 ≤ t.2.1 + t.2.2 ∧ (t.1 + t.2.1 + t.2.2) % 2 = 0 := by
  obtain ⟨a, b, c⟩ := t
  simp only [triplesAt, List.mem_flatMap, List.mem_range'_1, List.mem_map, List.mem_filter, decide_eq_true_eq, Prod.mk.injEq]
  constructor
  · rintro ⟨l2, h2, l3, ⟨h3, h4⟩, rfl, rfl, rfl⟩
    refine ⟨rfl, ?_, ?_, ?_, h4⟩ <;> omega
  · rintro ⟨rfl, h2, h3, h4, h5⟩
    exact ⟨b, by omega, c, ⟨by omega, h5⟩, rfl, rfl, rfl⟩

/-- the triples that are stored -/
def Stored (lall : Nat) (t : Nat × Nat × Nat) : Prop :=
  t.1 ≤ lall ∧ t.2.2 ≤ t.2.1 ∧ t.2.1 ≤ t.1 ∧ t.1 ≤ t.2.1 + t.2.2 ∧ (t.1 + t.2.1 + t.2.2) % 2 = 0

theorem mem_triples (lall : Nat) (sched : List Nat) (hs : ∀ l1, l1 ∈ sched ↔ l1 ≤ lall) (t : Nat × Nat × Nat) :
    t ∈ sched.flatMap (triplesAt lall) ↔ Stored lall t := by
  simp only [List.mem_flatMap]
  constructor
  · rintro ⟨l1, h, ht⟩
    have h' := (hs l1).1 h
    obtain ⟨rfl, h2⟩ := (mem_triplesAt lall l1 h' t).1 ht
    exact ⟨h', h2⟩
  · rintro ⟨h, h2⟩
    exact ⟨t.1, (hs _).2 h, (mem_triplesAt lall t.1 h t).2 ⟨rfl, h2⟩⟩

theorem tripleIndex_inj {lall a b c a' b' c' : Nat} (hb : b ≤ lall) (hc : c ≤ lall) (hb' : b' ≤ lall) (hc' : c' ≤ lall)
    (h : tripleIndex lall a b c = tripleIndex lall a' b' c') : a = a' ∧ b = b' ∧ c = c' := by
  unfold tripleIndex at h
  have h1 : a * (lall + 1) + b = a' * (lall + 1) + b' ∧ c = c' := by
    have e1 := congrArg (· / (lall + 1)) h
    have e2 := congrArg (· % (lall + 1)) h
    simp only [Nat.mul_add_mod_self_right, Nat.mod_eq_of_lt (Nat.lt_succ_of_le hc), Nat.mod_eq_of_lt (Nat.lt_succ_of_le hc')] at e2
    simp only [Nat.add_comm _ c, Nat.add_comm _ c', Nat.add_mul_div_right _ _ (Nat.succ_pos lall),
      Nat.div_eq_of_lt (Nat.lt_succ_of_le hc), Nat.div_eq_of_lt (Nat.lt_succ_of_le hc'), Nat.zero_add] at e1
    exact ⟨e1, e2⟩
  obtain ⟨h1, h2⟩ := h1
  have e1 := congrArg (· / (lall + 1)) h1
  have e2 := congrArg (· % (lall + 1)) h1
  simp only [Nat.mul_add_mod_self_right, Nat.mod_eq_of_lt (Nat.lt_succ_of_le hb), Nat.mod_eq_of_lt (Nat.lt_succ_of_le hb')] at e2
  simp only [Nat.add_comm _ b, Nat.add_comm _ b', Nat.add_mul_div_right _ _ (Nat.succ_pos lall),
    Nat.div_eq_of_lt (Nat.lt_succ_of_le hb), Nat.div_eq_of_lt (Nat.lt_succ_of_le hb'), Nat.zero_add] at e1
  exact ⟨e1, e2, h2⟩

theorem tripleIndex_lt {lall a b c : Nat} (ha : a ≤ lall) (hb : b ≤ lall) (hc : c ≤ lall) :
    tripleIndex lall a b c < (lall + 1) * (lall + 1) * (lall + 1) := by
  unfold tripleIndex
  have h1 : a * (lall + 1) + b + 1 ≤ (lall + 1) * (lall + 1) := by
    have : a * (lall + 1) ≤ lall * (lall + 1) := Nat.mul_le_mul_right _ ha
    have e : (lall + 1) * (lall + 1) = lall * (lall + 1) + (lall + 1) := by ring
    omega
  have h2 := Nat.mul_le_mul_right (lall + 1) h1
  have e : (a * (lall + 1) + b + 1) * (lall + 1) = (a * (lall + 1) + b) * (lall + 1) + (lall + 1) := by ring
  omega

/-- the layout after processing the triples in `done` -/
structure LayInv (ms lall : Nat) (done : List (Nat × Nat × Nat)) (st : (Nat → Option Nat) × Nat) : Prop where
  none : ∀ i, (∀ t ∈ done, i ≠ tripleIndex lall t.1 t.2.1 t.2.2) → st.1 i = none
  some : ∀ t ∈ done, ∃ b, st.1 (tripleIndex lall t.1 t.2.1 t.2.2) = some b ∧ b + runSize ms t ≤ st.2
  disj : ∀ t ∈ done, ∀ u ∈ done, t ≠ u → ∀ b c, st.1 (tripleIndex lall t.1 t.2.1 t.2.2) = Option.some b →
    st.1 (tripleIndex lall u.1 u.2.1 u.2.2) = Option.some c → b + runSize ms t ≤ c ∨ c + runSize ms u ≤ b

theorem Stored.idx {lall : Nat} {t u : Nat × Nat × Nat} (ht : Stored lall t) (hu : Stored lall u)
    (h : tripleIndex lall t.1 t.2.1 t.2.2 = tripleIndex lall u.1 u.2.1 u.2.2) : t = u := by
  obtain ⟨a, b, c⟩ := t
  obtain ⟨a', b', c'⟩ := u
  obtain ⟨h1, h2, h3, _⟩ := ht
  obtain ⟨g1, g2, g3, _⟩ := hu
  simp only at *
  obtain ⟨rfl, rfl, rfl⟩ := tripleIndex_inj (by omega) (by omega) (by omega) (by omega) h
  rfl

theorem layout_inv (ms lall : Nat) : ∀ (todo done : List (Nat × Nat × Nat)) (st : (Nat → Option Nat) × Nat),
    (∀ t ∈ done ++ todo, Stored lall t) → (done ++ todo).Nodup → LayInv ms lall done st →
    LayInv ms lall (done ++ todo) (todo.foldl (layoutStep ms lall) st) := by
  intro todo
  induction todo with
  | nil => intro done st _ _ h; simpa using h
  | cons x r ih =>
    intro done st hS hN h
    have e : done ++ x :: r = (done ++ [x]) ++ r := by simp
    rw [e] at hS hN ⊢
    rw [List.foldl_cons]
    refine ih (done ++ [x]) _ hS hN ?_
    have hx : Stored lall x := hS x (by simp)
    have hd : ∀ t ∈ done, Stored lall t := fun t ht => hS t (by simp [ht])
    have hxd : x ∉ done := by
      intro hm
      rw [List.nodup_append] at hN
      have := hN.1
      rw [List.nodup_append] at this
      exact this.2.2 x hm x (by simp) rfl
    have hne : ∀ t ∈ done, tripleIndex lall t.1 t.2.1 t.2.2 ≠ tripleIndex lall x.1 x.2.1 x.2.2 := by
      intro t ht he
      exact hxd ((hd t ht).idx hx he ▸ ht)
    refine ⟨?_, ?_, ?_⟩
    · intro i hi
      simp only [layoutStep]
      rw [if_neg (hi x (by simp))]
      exact h.none i fun t ht => hi t (by simp [ht])
    · intro t ht
      simp only [layoutStep]
      rcases List.mem_append.1 ht with ht | ht
      · rw [if_neg (hne t ht)]
        obtain ⟨b, hb, hb'⟩ := h.some t ht
        exact ⟨b, hb, by omega⟩
      · obtain rfl := List.mem_singleton.1 ht
        exact ⟨st.2, by simp, le_rfl⟩
    · intro t ht u hu htu b c
      simp only [layoutStep]
      rcases List.mem_append.1 ht with ht' | ht' <;> rcases List.mem_append.1 hu with hu' | hu'
      · rw [if_neg (hne t ht'), if_neg (hne u hu')]
        exact h.disj t ht' u hu' htu b c
      · obtain rfl := List.mem_singleton.1 hu'
        rw [if_neg (hne t ht'), if_pos rfl]
        intro hb hc
        obtain ⟨b', hb', hle⟩ := h.some t ht'
        rw [hb'] at hb
        simp only [Option.some.injEq] at hb hc
        left; omega
      · obtain rfl := List.mem_singleton.1 ht'
        rw [if_neg (hne u hu'), if_pos rfl]
        intro hb hc
        obtain ⟨b', hb', hle⟩ := h.some u hu'
        rw [hb'] at hc
        simp only [Option.some.injEq] at hb hc
        right; omega
      · obtain rfl := List.mem_singleton.1 ht'
        obtain rfl := List.mem_singleton.1 hu'
        exact absurd rfl htu

theorem triples_nodup (lall : Nat) : ((List.range (lall + 1)).flatMap (triplesAt lall)).Nodup := by
  rw [List.nodup_flatMap]
  refine ⟨?_, ?_⟩
  · intro l1 _
    unfold triplesAt
    rw [List.nodup_flatMap]
    refine ⟨?_, ?_⟩
    · intro l2 _
      refine List.Nodup.map ?_ (List.Nodup.filter _ List.nodup_range')
      intro a b h
      simpa using h
    · refine List.Pairwise.imp_of_mem ?_ (List.nodup_range' (n := _))
      intro a b _ _ hab t ht ht'
      simp only [List.mem_map] at ht ht'
      obtain ⟨c, _, rfl⟩ := ht
      obtain ⟨c', _, h⟩ := ht'
      simp only [Prod.mk.injEq] at h
      exact hab h.2.1.symm
  · refine List.Pairwise.imp_of_mem ?_ (List.nodup_range (n := lall + 1))
    intro a b ha hb hab t ht ht'
    rw [List.mem_range] at ha hb
    have h1 := ((mem_triplesAt lall a (by omega) t).1 ht).1
    have h2 := ((mem_triplesAt lall b (by omega) t).1 ht').1
    exact hab (h1.symm.trans h2)

theorem mem_lay (lall : Nat) (t : Nat × Nat × Nat) : t ∈ (List.range (lall + 1)).flatMap (triplesAt lall) ↔ Stored lall t :=
  mem_triples lall _ (by simp [Nat.lt_succ_iff]) t

theorem layout_spec (ms lall : Nat) : LayInv ms lall ((List.range (lall + 1)).flatMap (triplesAt lall)) (layout ms lall) := by
  have h0 : LayInv ms lall [] ((fun _ => none, 0) : (Nat → Option Nat) × Nat) := by
    refine ⟨fun _ _ => rfl, ?_, ?_⟩ <;> intro t ht <;> cases ht
  have := layout_inv ms lall ((List.range (lall + 1)).flatMap (triplesAt lall)) [] _ ?_ (by simpa using triples_nodup lall) h0
  · rw [List.nil_append] at this; exact this
  · intro t ht
    exact (mem_lay lall t).1 (by rwa [List.nil_append] at ht)

/-- the admissible `(m3, m2)` of a stored triple -/
def Adm (ms : Nat) (t : Nat × Nat × Nat) (m3 : Nat) (m2 : Int) : Prop :=
  m3 ≤ min t.2.2 ms ∧ m2lo ms t.2.1 ≤ m2 ∧ m2 ≤ m2hi ms t.1 t.2.1 m3

theorem slot_stored (ms lall : Nat) (t : Nat × Nat × Nat) (ht : Stored lall t) (m3 : Nat) (m2 : Int) (h : Adm ms t m3 m2) :
    ∃ b, (layout ms lall).1 (tripleIndex lall t.1 t.2.1 t.2.2) = some b ∧
      slot ms lall (layout ms lall).1 t.1 t.2.1 t.2.2 m3 m2 = some (b + place ms t.1 t.2.1 m3 m2) ∧
      b + place ms t.1 t.2.1 m3 m2 < b + runSize ms t ∧ b + runSize ms t ≤ (layout ms lall).2 := by
  obtain ⟨b, hb, hle⟩ := (layout_spec ms lall).some t ((mem_lay lall t).2 ht)
  obtain ⟨h1, h2, h3⟩ := h
  have hs := ht
  obtain ⟨g1, g2, g3, g4, g5⟩ := ht
  refine ⟨b, hb, ?_, ?_, hle⟩
  · rw [slot, if_neg (by omega), if_neg (not_le.2 (tripleIndex_lt g1 (by omega) (by omega)))]
    rw [hb]
    simp only
    rw [if_neg (by omega), if_neg (by omega), list_off, Int.toNat_natCast, place, Nat.add_assoc]
  · have := place_lt_run (l3 := t.2.2) h2 h3 h1
    simpa using this

theorem slot_inj (ms lall : Nat) (t u : Nat × Nat × Nat) (ht : Stored lall t) (hu : Stored lall u) (m3 n3 : Nat) (m2 n2 : Int)
    (h : Adm ms t m3 m2) (g : Adm ms u n3 n2) (a : Nat) (h1 : slot ms lall (layout ms lall).1 t.1 t.2.1 t.2.2 m3 m2 = some a)
    (h2 : slot ms lall (layout ms lall).1 u.1 u.2.1 u.2.2 n3 n2 = some a) : t = u ∧ m3 = n3 ∧ m2 = n2 := by
  obtain ⟨b, hb, hs, hlt, _⟩ := slot_stored ms lall t ht m3 m2 h
  obtain ⟨c, hc, hs', hlt', _⟩ := slot_stored ms lall u hu n3 n2 g
  rw [hs] at h1
  rw [hs'] at h2
  simp only [Option.some.injEq] at h1 h2
  have htu : t = u := by
    by_contra hne
    rcases (layout_spec ms lall).disj t ((mem_lay lall t).2 ht) u ((mem_lay lall u).2 hu) hne b c hb hc with h' | h' <;> omega
  subst htu
  rw [hb] at hc
  simp only [Option.some.injEq] at hc
  obtain ⟨_, h3⟩ := h
  obtain ⟨_, g3⟩ := g
  exact ⟨rfl, place_inj h3.1 h3.2 g3.1 g3.2 (by omega)⟩

theorem mem_entriesOf (ms : Nat) (t : Nat × Nat × Nat) (e : Entry) : e ∈ entriesOf ms t ↔ e.1 = t ∧ Adm ms t e.2.1 e.2.2 := by
  obtain ⟨u, m3, m2⟩ := e
  simp only [entriesOf, List.mem_flatMap, List.mem_range, List.mem_map, Prod.mk.injEq, Adm]
  constructor
  · rintro ⟨a, ha, k, hk, rfl, rfl, rfl⟩
    unfold m2Count at hk
    split_ifs at hk
    · exact ⟨rfl, by omega, by omega, by omega⟩
    · omega
  · rintro ⟨rfl, h1, h2, h3⟩
    refine ⟨m3, by omega, (m2 - m2lo ms u.2.1).toNat, ?_, rfl, rfl, by omega⟩
    unfold m2Count
    rw [if_pos (by omega)]
    omega

end Gaunt
end HelFEM
