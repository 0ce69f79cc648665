import Verif.Spec.CoreBasis
import Mathlib.Algebra.BigOperators.Group.Finset.Piecewise
import Mathlib.Algebra.Order.BigOperators.Group.Finset
import Mathlib.Algebra.Order.Archimedean.Basic
import Mathlib.Algebra.Order.Archimedean.Real.Basic
import Mathlib.Data.List.Nodup
import Mathlib.Tactic.Linarith
import Mathlib.Tactic.Positivity
import Mathlib.Tactic.NormNum

/-!
# Runs of the search for a basis set
-/

namespace HelFEM
namespace Core

open Spec

theorem Run.bind_ok {α β : Type _} (a : α) (g : α → Run β) : Run.bind (some (.ok a)) g = g a := rfl

theorem Run.bind_inv {α β : Type _} {r : Run α} {g : α → Run β} {b : β} (h : Run.bind r g = some (.ok b)) : ∃ a, r = some (.ok a) ∧ g a = some (.ok b) := by
  cases r with
  | none => cases h
  | some r =>
    cases r with
    | ok a => exact ⟨a, rfl, h⟩
    | throw e => cases h
    | ub => cases h

/-! ### Two runs that correspond -/

/-- the same kind of end, and results that are related -/
def Rel {α β : Type _} (P : α → β → Prop) : Run α → Run β → Prop
  | none, none => True
  | some (.ok a), some (.ok b) => P a b
  | some (.throw e), some (.throw e') => e = e'
  | some .ub, some .ub => True
  | _, _ => False

theorem Rel.bind {α β γ δ : Type _} {P : α → β → Prop} {Q : γ → δ → Prop} {r : Run α} {r' : Run β} {g : α → Run γ} {g' : β → Run δ} (h : Rel P r r') (hg : ∀ a b, P a b → Rel Q (g a) (g' b)) :
    Rel Q (Run.bind r g) (Run.bind r' g') := by
  match r, r', h with
  | none, none, _ => trivial
  | some (.ok a), some (.ok b), h => exact hg a b h
  | some (.throw e), some (.throw e'), h => exact h
  | some .ub, some .ub, _ => trivial

theorem Rel.refl {α : Type _} {P : α → α → Prop} (h : ∀ a, P a a) (r : Run α) : Rel P r r := by
  match r with
  | none => trivial
  | some (.ok a) => exact h a
  | some (.throw e) => exact rfl
  | some .ub => trivial

/-- what is in the memory is right, each basis is there once, and was built once -/
structure Good (build : Key → Res Value) (c : Memo) : Prop where
  right : ∀ k v, (k, v) ∈ c.entries → build k = .ok v
  once : (c.entries.map Prod.fst).Nodup
  count : c.misses = c.entries.length

theorem lookup_mem {k : Key} {v : Value} {l : List (Key × Value)} (h : l.lookup k = some v) : (k, v) ∈ l := by
  induction l with
  | nil => cases h
  | cons p l ih =>
    rw [List.lookup_cons] at h
    split at h
    · rename_i hk
      cases h
      have : k = p.1 := by simpa using hk
      subst this
      simp
    · exact List.mem_cons_of_mem _ (ih h)

theorem lookup_none {k : Key} {l : List (Key × Value)} (h : l.lookup k = none) : k ∉ l.map Prod.fst := by
  induction l with
  | nil => simp
  | cons p l ih =>
    rw [List.lookup_cons] at h
    split at h
    · cases h
    · rename_i hk
      simp only [List.map_cons, List.mem_cons, not_or]
      exact ⟨by simpa using hk, ih h⟩

theorem eval_sim (build : Key → Res Value) {c : Memo} (hc : Good build c) (k : Key) (norb : Nat) :
    Rel (fun (a : Out × Memo) (b : Out × Unit) => a.1 = b.1 ∧ Good build a.2) (some (eval build c k norb)) (some (evalPure build () k norb)) := by
  unfold eval evalPure
  cases h : c.entries.lookup k with
  | some v =>
    rw [hc.right k v (lookup_mem h)]
    exact ⟨rfl, ⟨hc.right, hc.once, hc.count⟩⟩
  | none =>
    cases hb : build k with
    | throw e => exact rfl
    | ub => trivial
    | ok v =>
      refine ⟨rfl, ⟨?_, ?_, ?_⟩⟩
      · intro k' v' hm
        rcases List.mem_cons.1 hm with h' | h'
        · cases h'
          exact hb
        · exact hc.right k' v' h'
      · rw [List.map_cons, List.nodup_cons]
        exact ⟨lookup_none h, hc.once⟩
      · simp only [List.length_cons, hc.count]

/-- the same variables, and a good memory -/
def SimL (build : Key → Res Value) (a : Loop Memo) (b : Loop Unit) : Prop := a.N = b.N ∧ a.l = b.l ∧ a.E = b.E ∧ a.cvd = b.cvd ∧ Good build a.st

/-- the same variables, and a good memory -/
def SimP (build : Key → Res Value) (a : Prog Memo) (b : Prog Unit) : Prop := a.N = b.N ∧ a.lmgrid = b.lmgrid ∧ a.init = b.init ∧ a.cvd = b.cvd ∧ Good build a.st

theorem angular_sim (build : Key → Res Value) (m norb : Nat) (nadd : Int) (thr : ℝ) (f : Nat) (a : Loop Memo) (b : Loop Unit) (h : SimL build a b) :
    Rel (SimL build) (angular (eval build) m norb nadd thr f a) (angular (evalPure build) m norb nadd thr f b) := by
  induction f generalizing a b with
  | zero => trivial
  | succ f ih =>
    obtain ⟨sa, N, l, E, cvd⟩ := a
    obtain ⟨sb, N', l', E', cvd'⟩ := b
    obtain ⟨rfl, rfl, rfl, rfl, hg⟩ := h
    unfold angular
    refine Rel.bind (eval_sim build hg _ norb) ?_
    rintro ⟨o, c⟩ ⟨o', u⟩ ⟨rfl, hc⟩
    dsimp only
    split
    · exact ⟨rfl, rfl, rfl, rfl, hc⟩
    · exact ih _ _ ⟨rfl, rfl, rfl, rfl, hc⟩

theorem channel_sim (build : Key → Res Value) (m norb : Nat) (nadd : Int) (thr : ℝ) (f : Nat) (a : Loop Memo) (b : Loop Unit) (h : SimL build a b) :
    Rel (SimL build) (channel (eval build) m norb nadd thr f a) (channel (evalPure build) m norb nadd thr f b) := by
  induction f generalizing a b with
  | zero => trivial
  | succ f ih =>
    unfold channel
    refine Rel.bind (angular_sim build m norb nadd thr f a b h) ?_
    rintro ⟨sa, N, l, E, cvd⟩ ⟨sb, N', l', E', cvd'⟩ ⟨rfl, rfl, rfl, rfl, hg⟩
    refine Rel.bind (eval_sim build hg _ norb) ?_
    rintro ⟨o, c⟩ ⟨o', u⟩ ⟨rfl, hc⟩
    dsimp only
    split
    · exact ⟨rfl, rfl, rfl, rfl, hc⟩
    · exact ih _ _ ⟨rfl, rfl, rfl, rfl, hc⟩

theorem symmetry_sim (build : Key → Res Value) (norbs : List Nat) (nadd : Int) (thr : ℝ) (f m : Nat) (a : Prog Memo) (b : Prog Unit) (h : SimP build a b) :
    Rel (SimP build) (symmetry (eval build) norbs nadd thr f m a) (symmetry (evalPure build) norbs nadd thr f m b) := by
  obtain ⟨sa, N, lm, ini, cvd⟩ := a
  obtain ⟨sb, N', lm', ini', cvd'⟩ := b
  obtain ⟨rfl, rfl, rfl, rfl, hg⟩ := h
  dsimp only at hg
  unfold symmetry
  refine Rel.bind (P := fun x y => x = y) ?_ ?_
  · rw [show start norbs.length m (⟨sa, N, lm, ini, cvd⟩ : Prog Memo) = start norbs.length m (⟨sb, N, lm, ini, cvd⟩ : Prog Unit) from rfl]
    exact Rel.refl (fun _ => rfl) _
  · rintro l _ rfl
    refine Rel.bind (eval_sim build hg _ _) ?_
    rintro ⟨o, c⟩ ⟨o', u⟩ ⟨rfl, hc⟩
    refine Rel.bind (channel_sim build m _ nadd thr f _ _ ⟨rfl, rfl, rfl, rfl, hc⟩) ?_
    rintro ⟨sa, N, l, E, cvd⟩ ⟨sb, N', l', E', cvd'⟩ ⟨rfl, rfl, rfl, rfl, hg⟩
    exact ⟨rfl, rfl, rfl, rfl, hg⟩

theorem pass_sim (build : Key → Res Value) (norbs : List Nat) (nadd : Int) (thr : ℝ) (f m : Nat) (a : Prog Memo) (b : Prog Unit) (h : SimP build a b) :
    Rel (SimP build) (pass (eval build) norbs nadd thr f m a) (pass (evalPure build) norbs nadd thr f m b) := by
  induction m generalizing a b with
  | zero => exact h
  | succ m ih => exact Rel.bind (symmetry_sim build norbs nadd thr f m a b h) fun a b h => ih a b h

theorem search_sim (build : Key → Res Value) (norbs : List Nat) (nadd thresh : Int) (f ithr : Nat) (a : Prog Memo) (b : Prog Unit) (out : List Report) (h : SimP build a b) :
    Rel (fun x y => x.1 = y.1 ∧ Good build x.2) (search (eval build) norbs nadd thresh f ithr a out) (search (evalPure build) norbs nadd thresh f ithr b out) := by
  induction f generalizing ithr a b out with
  | zero => trivial
  | succ f ih =>
    unfold search
    split
    · have h' : SimP build { a with cvd := true } { b with cvd := true } := ⟨h.1, h.2.1, h.2.2.1, rfl, h.2.2.2.2⟩
      refine Rel.bind (pass_sim build norbs nadd _ f _ _ _ h') ?_
      rintro ⟨sa, N, lm, ini, cvd⟩ ⟨sb, N', lm', ini', cvd'⟩ ⟨rfl, rfl, rfl, rfl, hg⟩
      dsimp only
      split
      · exact ih _ _ _ _ ⟨rfl, rfl, rfl, rfl, hg⟩
      · exact ih _ _ _ _ ⟨rfl, rfl, rfl, rfl, hg⟩
    · exact ⟨rfl, h.2.2.2.2⟩

/-! ### What holds at the end -/

theorem outOf_energy (v : Value) (n : Nat) : (outOf v n).E = (v.ev.take n).sum := by
  unfold outOf
  dsimp only
  rw [Nat.min_comm, ← List.take_take, List.take_length]

section post

variable {build : Key → Res Value} {b : Key → Value} {norbs : List Nat} {nadd : Int} {thr : ℝ} {m : Nat}

theorem evalPure_inv (hb : ∀ k v, build k = .ok v → b k = v) {N l : Int} {r : Out × Unit} (h : some (evalPure build () (N, lmOf m l) (norbs.getD m 0)) = some (.ok r)) : r.1.E = energy b norbs m N l := by
  unfold evalPure at h
  cases hk : build (N, lmOf m l) with
  | throw e => rw [hk] at h; cases h
  | ub => rw [hk] at h; cases h
  | ok v =>
    rw [hk] at h
    cases h
    have := hb _ _ hk
    rw [outOf_energy]
    unfold energy
    unfold lmOf at this
    rw [this]

theorem angular_post (hb : ∀ k v, build k = .ok v → b k = v) (f : Nat) (s s' : Loop Unit) (hE : s.E = energy b norbs m s.N s.l) (h : angular (evalPure build) m (norbs.getD m 0) nadd thr f s = some (.ok s')) :
    s'.N = s.N ∧ s'.E = energy b norbs m s'.N s'.l ∧ energy b norbs m s'.N s'.l - thr < energy b norbs m s'.N (s'.l + nadd) ∧ (s'.cvd = true → s'.l = s.l ∧ s.cvd = true) := by
  induction f generalizing s with
  | zero => cases h
  | succ f ih =>
    unfold angular at h
    obtain ⟨r, h1, h2⟩ := Run.bind_inv h
    have hr := evalPure_inv hb h1
    split at h2
    · rename_i ht
      cases h2
      dsimp only
      refine ⟨rfl, hE, ?_, fun hc => ⟨rfl, hc⟩⟩
      rw [← hr, ← hE]
      linarith
    · obtain ⟨k1, k2, k3, k4⟩ := ih _ hr h2
      exact ⟨k1, k2, k3, fun hc => absurd (k4 hc).2 (by simp)⟩

theorem channel_post (hb : ∀ k v, build k = .ok v → b k = v) (f : Nat) (s s' : Loop Unit) (hE : s.E = energy b norbs m s.N s.l) (h : channel (evalPure build) m (norbs.getD m 0) nadd thr f s = some (.ok s')) :
    energy b norbs m s'.N s'.l - thr < energy b norbs m s'.N (s'.l + nadd) ∧ energy b norbs m s'.N s'.l - thr < energy b norbs m (s'.N + nadd) s'.l ∧ (s'.cvd = true → s'.N = s.N ∧ s'.l = s.l ∧ s.cvd = true) := by
  induction f generalizing s with
  | zero => cases h
  | succ f ih =>
    unfold channel at h
    obtain ⟨t, h1, h2⟩ := Run.bind_inv h
    obtain ⟨r, h3, h4⟩ := Run.bind_inv h2
    obtain ⟨k1, k2, k3, k4⟩ := angular_post hb f s t hE h1
    have hr := evalPure_inv hb h3
    split at h4
    · rename_i ht
      cases h4
      dsimp only
      refine ⟨k3, ?_, fun hc => ⟨k1, k4 hc⟩⟩
      rw [← hr, ← k2]
      linarith
    · obtain ⟨j1, j2, j3⟩ := ih _ hr h4
      exact ⟨j1, j2, fun hc => absurd (j3 hc).2.2 (by simp)⟩

theorem symmetry_post (hb : ∀ k v, build k = .ok v → b k = v) (f : Nat) (p p' : Prog Unit) (h : symmetry (evalPure build) norbs nadd thr f m p = some (.ok p')) :
    (∃ l, p'.lmgrid m = some l ∧ energy b norbs m p'.N l - thr < energy b norbs m p'.N (l + nadd) ∧ energy b norbs m p'.N l - thr < energy b norbs m (p'.N + nadd) l) ∧
      (∀ k, k ≠ m → p'.lmgrid k = p.lmgrid k ∧ p'.init k = p.init k) ∧ (p'.cvd = true → p'.N = p.N ∧ p.cvd = true) ∧ p'.init m = false := by
  unfold symmetry at h
  obtain ⟨l, -, h2⟩ := Run.bind_inv h
  obtain ⟨r, h3, h4⟩ := Run.bind_inv h2
  obtain ⟨s, h5, h6⟩ := Run.bind_inv h4
  have hr := evalPure_inv hb h3
  obtain ⟨j1, j2, j3⟩ := channel_post hb f _ s hr h5
  cases h6
  dsimp only
  exact ⟨⟨s.l, if_pos rfl, j1, j2⟩, fun k hk => ⟨if_neg hk, if_neg hk⟩, fun hc => ⟨(j3 hc).1, (j3 hc).2.2⟩, if_pos rfl⟩

theorem pass_post (hb : ∀ k v, build k = .ok v → b k = v) (f j : Nat) (p p' : Prog Unit) (h : pass (evalPure build) norbs nadd thr f j p = some (.ok p')) (hc : p'.cvd = true) :
    p.cvd = true ∧ p'.N = p.N ∧ (∀ k, j ≤ k → p'.lmgrid k = p.lmgrid k) ∧
      ∀ k < j, ∃ l, p'.lmgrid k = some l ∧ energy b norbs k p'.N l - thr < energy b norbs k p'.N (l + nadd) ∧ energy b norbs k p'.N l - thr < energy b norbs k (p'.N + nadd) l := by
  induction j generalizing p with
  | zero =>
    unfold pass at h
    cases h
    exact ⟨hc, rfl, fun _ _ => rfl, fun k hk => absurd hk (Nat.not_lt_zero k)⟩
  | succ j ih =>
    unfold pass at h
    obtain ⟨q, h1, h2⟩ := Run.bind_inv h
    obtain ⟨k1, k2, k3, k4⟩ := ih q h2
    obtain ⟨j1, j2, j3, -⟩ := symmetry_post hb f p q h1
    refine ⟨(j3 k1).2, k2.trans (j3 k1).1, fun k hk => (k3 k (by omega)).trans (j2 k (by omega)).1, fun k hk => ?_⟩
    rcases Nat.lt_succ_iff_lt_or_eq.1 hk with h' | rfl
    · exact k4 k h'
    · obtain ⟨l, a1, a2, a3⟩ := j1
      rw [k2]
      exact ⟨l, (k3 k le_rfl).trans a1, a2, a3⟩

theorem search_post (hb : ∀ k v, build k = .ok v → b k = v) (thresh : Int) (f ithr : Nat) (p : Prog Unit) (out : List Report) (res : List Report × Unit)
    (h : search (evalPure build) norbs nadd thresh f ithr p out = some (.ok res)) :
    ∃ new, res.1 = out ++ new ∧ new.map Report.thr = (List.range ((thresh + 1).toNat - ithr)).map (ithr + ·) ∧
      ∀ r ∈ new, ∃ lm : Nat → Int, r.lmgrid = (List.range norbs.length).map (fun m => some (lm m)) ∧ Converged b norbs nadd (1 / 10 ^ r.thr) r.N lm := by
  induction f generalizing ithr p out with
  | zero => cases h
  | succ f ih =>
    unfold search at h
    split at h
    · rename_i ht
      obtain ⟨q, h1, h2⟩ := Run.bind_inv h
      split at h2
      · rename_i hc
        obtain ⟨new, k1, k2, k3⟩ := ih _ _ _ h2
        refine ⟨⟨ithr, q.N, (List.range norbs.length).map q.lmgrid⟩ :: new, ?_, ?_, ?_⟩
        · rw [k1, List.append_assoc]
          rfl
        · rw [List.map_cons, k2, show (thresh + 1).toNat - ithr = ((thresh + 1).toNat - (ithr + 1)) + 1 by omega, List.range_succ_eq_map, List.map_cons, List.map_map]
          congr 1
          apply List.map_congr_left
          intro i _
          simp only [Function.comp]
          omega
        · intro r hr
          rcases List.mem_cons.1 hr with rfl | hr
          · obtain ⟨-, -, -, a4⟩ := pass_post hb f norbs.length _ q h1 hc
            refine ⟨fun k => (q.lmgrid k).getD 0, ?_, ?_⟩
            · apply List.map_congr_left
              intro k hk
              obtain ⟨l, hl, -⟩ := a4 k (List.mem_range.1 hk)
              simp only [hl, Option.getD_some]
            · intro k hk
              obtain ⟨l, hl, h3, h4⟩ := a4 k hk
              simp only [hl, Option.getD_some]
              exact ⟨h3, h4⟩
          · exact k3 r hr
      · exact ih _ _ _ h2
    · rename_i ht
      cases h
      refine ⟨[], by simp, ?_, by simp⟩
      rw [show (thresh + 1).toNat - ithr = 0 by omega]
      rfl

end post

/-! ### No undefined behaviour -/

/-- the partial waves that are read have been set: those with `k ≥ j` and those no longer initial -/
def Set' {σ : Type} (n j : Nat) (p : Prog σ) : Prop := ∀ k < n, j ≤ k ∨ p.init k = false → ∃ l, p.lmgrid k = some l

theorem bind_ub {α β : Type _} {r : Run α} {g : α → Run β} (hr : r ≠ some .ub) (hg : ∀ a, r = some (.ok a) → g a ≠ some .ub) : Run.bind r g ≠ some .ub := by
  match r, hr, hg with
  | none, _, _ => simp [Run.bind]
  | some (.ok a), _, hg => exact hg a rfl
  | some (.throw e), _, _ => simp [Run.bind]
  | some .ub, hr, _ => exact absurd rfl hr

section ub

variable {build : Key → Res Value}

theorem evalPure_ub (hb : ∀ k, build k ≠ .ub) (k : Key) (n : Nat) : (some (evalPure build () k n) : Run _) ≠ some .ub := by
  unfold evalPure
  have := hb k
  cases h : build k with
  | ok v => simp
  | throw e => simp
  | ub => exact absurd h this

theorem angular_ub (hb : ∀ k, build k ≠ .ub) (m n : Nat) (nadd : Int) (thr : ℝ) (f : Nat) (s : Loop Unit) : angular (evalPure build) m n nadd thr f s ≠ some .ub := by
  induction f generalizing s with
  | zero => simp [angular]
  | succ f ih =>
    unfold angular
    refine bind_ub (evalPure_ub hb _ _) fun a _ => ?_
    split
    · simp
    · exact ih _

theorem channel_ub (hb : ∀ k, build k ≠ .ub) (m n : Nat) (nadd : Int) (thr : ℝ) (f : Nat) (s : Loop Unit) : channel (evalPure build) m n nadd thr f s ≠ some .ub := by
  induction f generalizing s with
  | zero => simp [channel]
  | succ f ih =>
    unfold channel
    refine bind_ub (angular_ub hb _ _ _ _ _ _) fun s _ => bind_ub (evalPure_ub hb _ _) fun a _ => ?_
    split
    · simp
    · exact ih _

theorem start_ok {σ : Type} {n m : Nat} {p : Prog σ} (hm : m < n) (h : Set' n (m + 1) p) : ∃ l, start n m p = .ok l := by
  unfold start
  by_cases hi : p.init m = true
  · rw [if_pos hi]
    by_cases hn : m + 1 < n
    · obtain ⟨l, hl⟩ := h (m + 1) hn (Or.inl le_rfl)
      rw [if_pos hn, hl]
      exact ⟨l, rfl⟩
    · rw [if_neg hn]
      exact ⟨_, rfl⟩
  · obtain ⟨l, hl⟩ := h m hm (Or.inr (by simpa using hi))
    rw [if_neg hi, hl]
    exact ⟨l, rfl⟩

theorem symmetry_set {σ : Type} {ev : Ev σ} {norbs : List Nat} {nadd : Int} {thr : ℝ} {f m : Nat} {p p' : Prog σ} (h : Set' norbs.length (m + 1) p) (hs : symmetry ev norbs nadd thr f m p = some (.ok p')) :
    Set' norbs.length m p' := by
  unfold symmetry at hs
  obtain ⟨l, -, h2⟩ := Run.bind_inv hs
  obtain ⟨r, -, h4⟩ := Run.bind_inv h2
  obtain ⟨s, -, h6⟩ := Run.bind_inv h4
  cases h6
  intro k hk hor
  dsimp only at hor ⊢
  by_cases hkm : k = m
  · exact ⟨_, if_pos hkm⟩
  · rw [if_neg hkm] at hor ⊢
    exact h k hk (hor.imp (fun h => by omega) id)

theorem pass_ub (hb : ∀ k, build k ≠ .ub) (norbs : List Nat) (nadd : Int) (thr : ℝ) (f j : Nat) (hj : j ≤ norbs.length) (p : Prog Unit) (h : Set' norbs.length j p) :
    pass (evalPure build) norbs nadd thr f j p ≠ some .ub ∧ ∀ p', pass (evalPure build) norbs nadd thr f j p = some (.ok p') → Set' norbs.length 0 p' := by
  induction j generalizing p with
  | zero =>
    unfold pass
    refine ⟨by simp, fun p' hp => ?_⟩
    cases hp
    exact h
  | succ j ih =>
    obtain ⟨l, hl⟩ := start_ok (by omega) h
    unfold pass
    constructor
    · refine bind_ub ?_ fun q hq => (ih (by omega) q (symmetry_set h hq)).1
      unfold symmetry
      rw [hl, Run.bind_ok]
      exact bind_ub (evalPure_ub hb _ _) fun r _ => bind_ub (channel_ub hb _ _ _ _ _ _) fun s _ => by simp
    · intro p' hp
      obtain ⟨q, h1, h2⟩ := Run.bind_inv hp
      exact (ih (by omega) q (symmetry_set h h1)).2 p' h2

theorem search_ub (hb : ∀ k, build k ≠ .ub) (norbs : List Nat) (nadd thresh : Int) (f ithr : Nat) (p : Prog Unit) (out : List Report) (h : Set' norbs.length norbs.length p) :
    search (evalPure build) norbs nadd thresh f ithr p out ≠ some .ub := by
  induction f generalizing ithr p out with
  | zero => simp [search]
  | succ f ih =>
    unfold search
    split
    · have hp := pass_ub hb norbs nadd (1 / 10 ^ ithr) f norbs.length le_rfl { p with cvd := true } h
      refine bind_ub hp.1 fun q hq => ?_
      have hs : Set' norbs.length norbs.length q := fun k hk _ => hp.2 q hq k hk (Or.inl (Nat.zero_le k))
      split
      · exact ih _ _ _ hs
      · exact ih _ _ _ hs
    · simp

end ub

/-! ### The search ends -/

/-- with enough fuel the run ends with this result -/
def Ends {α : Type _} (x : Nat → Run α) (a : α) : Prop := ∃ F, ∀ f, F ≤ f → x f = some (.ok a)

theorem Ends.bind {α β : Type _} {x : Nat → Run α} {a : α} {y : α → Nat → Run β} {b : β} (h : Ends x a) (h' : Ends (y a) b) : Ends (fun f => Run.bind (x f) fun a => y a f) b := by
  obtain ⟨F, hF⟩ := h
  obtain ⟨G, hG⟩ := h'
  refine ⟨max F G, fun f hf => ?_⟩
  dsimp only
  rw [hF f (le_trans (le_max_left _ _) hf), Run.bind_ok, hG f (le_trans (le_max_right _ _) hf)]

theorem Ends.shift {α : Type _} {x : Nat → Run α} {a : α} (h : Ends (fun f => x (f + 1)) a) : Ends x a := by
  obtain ⟨F, hF⟩ := h
  refine ⟨F + 1, fun f hf => ?_⟩
  obtain ⟨g, rfl⟩ : ∃ g, f = g + 1 := ⟨f - 1, by omega⟩
  exact hF g (by omega)

theorem Ends.const {α : Type _} {r : Run α} {a : α} (h : r = some (.ok a)) : Ends (fun _ => r) a := ⟨0, fun _ _ => h⟩

section ends

variable {b : Key → Value} {norbs : List Nat} {nadd : Int} {thr : ℝ} {m : Nat}

/-- an evaluation that always succeeds -/
noncomputable abbrev evb (b : Key → Value) : Ev Unit := evalPure fun k => .ok (b k)

theorem evb_ok (N l : Int) : ∃ r, (evb b) () (N, lmOf m l) (norbs.getD m 0) = .ok r ∧ r.1.E = energy b norbs m N l := ⟨_, rfl, outOf_energy _ _⟩

theorem angular_ends (ht : 0 < thr) {B : ℝ} (hB : ∀ N l, B ≤ energy b norbs m N l) (n : Nat) (s : Loop Unit) (hE : s.E = energy b norbs m s.N s.l) (hn : s.E - B < n * thr) :
    ∃ s', Ends (fun f => angular (evb b) m (norbs.getD m 0) nadd thr f s) s' ∧ s'.N = s.N ∧ s'.E = energy b norbs m s'.N s'.l ∧ s'.E ≤ s.E ∧ (s'.cvd = false → s.cvd = false ∨ s'.E ≤ s.E - thr) := by
  induction n generalizing s with
  | zero =>
    have := hB s.N s.l
    rw [← hE] at this
    simp only [Nat.cast_zero, zero_mul] at hn
    linarith
  | succ n ih =>
    obtain ⟨r, hr, hrE⟩ := evb_ok (b := b) (norbs := norbs) (m := m) s.N (s.l + nadd)
    by_cases hc : r.1.E - s.E > -thr
    · refine ⟨{ s with st := r.2 }, Ends.shift ?_, rfl, hE, le_rfl, fun h => Or.inl h⟩
      refine ⟨0, fun f _ => ?_⟩
      dsimp only
      unfold angular
      rw [hr, Run.bind_ok, if_pos hc]
    · have hle : r.1.E ≤ s.E - thr := by linarith
      obtain ⟨s', h1, h2, h3, h4, h5⟩ := ih ⟨r.2, s.N, s.l + nadd, r.1.E, false⟩ hrE (by push_cast at hn; dsimp only; linarith)
      refine ⟨s', Ends.shift ?_, h2, h3, ?_, fun _ => Or.inr ?_⟩
      · obtain ⟨F, hF⟩ := h1
        refine ⟨F, fun f hf => ?_⟩
        dsimp only
        unfold angular
        rw [hr, Run.bind_ok, if_neg hc]
        exact hF f hf
      · dsimp only at h4
        linarith
      · dsimp only at h4
        linarith

theorem channel_ends (ht : 0 < thr) {B : ℝ} (hB : ∀ N l, B ≤ energy b norbs m N l) (hanti : ∀ k N l, energy b norbs k (N + nadd) l ≤ energy b norbs k N l) (n : Nat) (s : Loop Unit)
    (hE : s.E = energy b norbs m s.N s.l) (hn : s.E - B < n * thr) :
    ∃ s', Ends (fun f => channel (evb b) m (norbs.getD m 0) nadd thr f s) s' ∧ (∀ k l, energy b norbs k s'.N l ≤ energy b norbs k s.N l) ∧ s'.E = energy b norbs m s'.N s'.l ∧ s'.E ≤ s.E ∧
      (s'.cvd = false → s.cvd = false ∨ s'.E ≤ s.E - thr) := by
  induction n generalizing s with
  | zero =>
    have := hB s.N s.l
    rw [← hE] at this
    simp only [Nat.cast_zero, zero_mul] at hn
    linarith
  | succ n ih =>
    obtain ⟨t, h1, h2, h3, h4, h5⟩ := angular_ends (nadd := nadd) ht hB (n + 1) s hE hn
    obtain ⟨r, hr, hrE⟩ := evb_ok (b := b) (norbs := norbs) (m := m) (t.N + nadd) t.l
    by_cases hc : r.1.E - t.E > -thr
    · refine ⟨{ t with st := r.2 }, Ends.shift ?_, fun k l => ?_, h3, h4, h5⟩
      · obtain ⟨F, hF⟩ := h1
        dsimp only at hF
        refine ⟨F, fun f hf => ?_⟩
        dsimp only
        unfold channel
        rw [hF f hf, Run.bind_ok, hr, Run.bind_ok, if_pos hc]
      · dsimp only
        rw [h2]
    · have hle : r.1.E ≤ t.E - thr := by linarith
      obtain ⟨s', k1, k2, k3, k4, k5⟩ := ih ⟨r.2, t.N + nadd, t.l, r.1.E, false⟩ hrE (by push_cast at hn; dsimp only; linarith)
      dsimp only at k2 k4
      refine ⟨s', Ends.shift ?_, fun k l => ?_, k3, by linarith, fun _ => Or.inr (by linarith)⟩
      · obtain ⟨F, hF⟩ := h1
        obtain ⟨G, hG⟩ := k1
        dsimp only at hF
        refine ⟨max F G, fun f hf => ?_⟩
        dsimp only
        unfold channel
        rw [hF f (le_trans (le_max_left _ _) hf), Run.bind_ok, hr, Run.bind_ok, if_neg hc]
        exact hG f (le_trans (le_max_right _ _) hf)
      · refine (k2 k l).trans ?_
        rw [h2]
        exact hanti k s.N l

theorem symmetry_ends (ht : 0 < thr) {B : Nat → ℝ} (hB : ∀ k N l, B k ≤ energy b norbs k N l) (hanti : ∀ k N l, energy b norbs k (N + nadd) l ≤ energy b norbs k N l) (hm : m < norbs.length) (p : Prog Unit)
    (hp : Set' norbs.length (m + 1) p) : ∃ p' l l', start norbs.length m p = .ok l ∧ Ends (fun f => symmetry (evb b) norbs nadd thr f m p) p' ∧ (∀ k l, energy b norbs k p'.N l ≤ energy b norbs k p.N l) ∧
      p'.lmgrid m = some l' ∧ (∀ k, k ≠ m → p'.lmgrid k = p.lmgrid k ∧ p'.init k = p.init k) ∧ p'.init m = false ∧ energy b norbs m p'.N l' ≤ energy b norbs m p.N l ∧
      (p'.cvd = false → p.cvd = false ∨ energy b norbs m p'.N l' ≤ energy b norbs m p.N l - thr) := by
  obtain ⟨l, hl⟩ := start_ok hm hp
  obtain ⟨r, hr, hrE⟩ := evb_ok (b := b) (norbs := norbs) (m := m) p.N l
  obtain ⟨n, hn⟩ := exists_nat_gt ((r.1.E - B m) / thr)
  obtain ⟨s, h1, h2, h3, h4, h5⟩ := channel_ends ht (hB m) hanti n ⟨r.2, p.N, l, r.1.E, p.cvd⟩ hrE (by rw [div_lt_iff₀ ht] at hn; exact hn)
  dsimp only at h2 h4 h5
  rw [hrE, h3] at h4 h5
  refine ⟨⟨s.st, s.N, fun k => if k = m then some s.l else p.lmgrid k, fun k => if k = m then false else p.init k, s.cvd⟩, l, s.l, hl, ?_, h2, if_pos rfl, fun k hk => ⟨if_neg hk, if_neg hk⟩, if_pos rfl, h4, h5⟩
  obtain ⟨F, hF⟩ := h1
  dsimp only at hF
  refine ⟨F, fun f hf => ?_⟩
  dsimp only
  unfold symmetry
  rw [hl, Run.bind_ok, hr, Run.bind_ok, hF f hf, Run.bind_ok]

/-- no symmetry is at its start any more, and these are the partial waves -/
def Ready {σ : Type} (n : Nat) (p : Prog σ) (L : Nat → Int) : Prop := ∀ k < n, p.init k = false ∧ p.lmgrid k = some (L k)

theorem Ready.set {σ : Type} {n j : Nat} {p : Prog σ} {L : Nat → Int} (h : Ready n p L) : Set' n j p := fun k hk _ => ⟨L k, (h k hk).2⟩

theorem pass_ends (ht : 0 < thr) {B : Nat → ℝ} (hB : ∀ k N l, B k ≤ energy b norbs k N l) (hanti : ∀ k N l, energy b norbs k (N + nadd) l ≤ energy b norbs k N l) (j : Nat) (hj : j ≤ norbs.length) (p : Prog Unit)
    (hp : Set' norbs.length j p) : ∃ p', Ends (fun f => pass (evb b) norbs nadd thr f j p) p' ∧ (∀ k < j, p'.init k = false) ∧ (∀ k, j ≤ k → p'.init k = p.init k) ∧ Set' norbs.length 0 p' ∧
      ∀ L, Ready norbs.length p L → ∃ L', Ready norbs.length p' L' ∧ ∑ k ∈ Finset.range norbs.length, energy b norbs k p'.N (L' k) ≤ ∑ k ∈ Finset.range norbs.length, energy b norbs k p.N (L k) ∧
        (p'.cvd = false → p.cvd = false ∨ ∑ k ∈ Finset.range norbs.length, energy b norbs k p'.N (L' k) ≤ (∑ k ∈ Finset.range norbs.length, energy b norbs k p.N (L k)) - thr) := by
  induction j generalizing p with
  | zero => exact ⟨p, Ends.const rfl, fun k hk => absurd hk (Nat.not_lt_zero k), fun _ _ => rfl, hp, fun L hL => ⟨L, hL, le_rfl, fun h => Or.inl h⟩⟩
  | succ j ih =>
    obtain ⟨q, l, l', h1, h2, h3, h4, h5, h6, h7, h8⟩ := symmetry_ends (m := j) ht hB hanti (by omega) p hp
    have hq : Set' norbs.length j q := by
      intro k hk hor
      by_cases hkj : k = j
      · exact ⟨l', hkj ▸ h4⟩
      · rw [(h5 k hkj).1]
        refine hp k hk ?_
        rw [(h5 k hkj).2] at hor
        exact hor.imp (fun h => by omega) id
    obtain ⟨p', k1, k2, k3, k4, k5⟩ := ih (by omega) q hq
    refine ⟨p', ?_, ?_, ?_, k4, ?_⟩
    · have := Ends.bind (y := fun q f => pass (evb b) norbs nadd thr f j q) h2 k1
      exact this
    · intro k hk
      by_cases hkj : k = j
      · rw [hkj, k3 j le_rfl, h6]
      · exact k2 k (by omega)
    · intro k hk
      rw [k3 k (by omega), (h5 k (by omega)).2]
    · intro L hL
      have hl : l = L j := by
        unfold start at h1
        rw [(hL j (by omega)).1, (hL j (by omega)).2] at h1
        simpa using h1.symm
      have hLq : Ready norbs.length q (Function.update L j l') := by
        intro k hk
        by_cases hkj : k = j
        · subst hkj
          exact ⟨h6, by rw [h4, Function.update_self]⟩
        · rw [(h5 k hkj).1, (h5 k hkj).2, Function.update_of_ne hkj]
          exact hL k hk
      obtain ⟨L', a1, a2, a3⟩ := k5 _ hLq
      have hjr : j ∈ Finset.range norbs.length := Finset.mem_range.2 (by omega)
      have hrest : ∑ k ∈ (Finset.range norbs.length).erase j, energy b norbs k q.N (Function.update L j l' k) ≤ ∑ k ∈ (Finset.range norbs.length).erase j, energy b norbs k p.N (L k) := by
        refine Finset.sum_le_sum fun k hk => ?_
        rw [Function.update_of_ne (Finset.ne_of_mem_erase hk)]
        exact h3 k (L k)
      have e1 := Finset.add_sum_erase (Finset.range norbs.length) (fun k => energy b norbs k q.N (Function.update L j l' k)) hjr
      have e2 := Finset.add_sum_erase (Finset.range norbs.length) (fun k => energy b norbs k p.N (L k)) hjr
      simp only [Function.update_self] at e1
      subst hl
      refine ⟨L', a1, by linarith, fun hc => ?_⟩
      rcases a3 hc with hqc | hq'
      · rcases h8 hqc with hpc | hdec
        · exact Or.inl hpc
        · exact Or.inr (by linarith)
      · exact Or.inr (by linarith)

theorem search_ends {B : Nat → ℝ} (hB : ∀ k N l, B k ≤ energy b norbs k N l) (hanti : ∀ k N l, energy b norbs k (N + nadd) l ≤ energy b norbs k N l) (thresh : Int) (d : Nat) :
    ∀ ithr : Nat, (thresh + 1).toNat ≤ ithr + d → ∀ (p : Prog Unit) (out : List Report), Set' norbs.length norbs.length p → ∃ res, Ends (fun f => search (evb b) norbs nadd thresh f ithr p out) res := by
  induction d with
  | zero =>
    intro ithr hd p out _
    refine ⟨(out, p.st), Ends.shift ⟨0, fun f _ => ?_⟩⟩
    dsimp only
    unfold search
    rw [if_neg (by omega)]
  | succ d ih =>
    intro ithr hd
    have ht : (0 : ℝ) < 1 / 10 ^ ithr := by positivity
    by_cases hi : (ithr : Int) ≤ thresh
    swap
    · intro p out _
      refine ⟨(out, p.st), Ends.shift ⟨0, fun f _ => ?_⟩⟩
      dsimp only
      unfold search
      rw [if_neg hi]
    -- one pass and then the rest
    have key : ∀ (p : Prog Unit) (out : List Report), Set' norbs.length norbs.length p → (∀ p', Ends (fun f => pass (evb b) norbs nadd (1 / 10 ^ ithr) f norbs.length { p with cvd := true }) p' → p'.cvd = false →
        ∃ res, Ends (fun f => search (evb b) norbs nadd thresh f ithr p' out) res) → ∃ res, Ends (fun f => search (evb b) norbs nadd thresh f ithr p out) res := by
      intro p out hp hnext
      obtain ⟨p', h1, h2, h3, h4, h5⟩ := pass_ends ht hB hanti norbs.length le_rfl { p with cvd := true } hp
      have hset : Set' norbs.length norbs.length p' := fun k hk _ => h4 k hk (Or.inl (Nat.zero_le k))
      have hstep : ∀ res, Ends (fun f => if p'.cvd then search (evb b) norbs nadd thresh f (ithr + 1) p' (out ++ [⟨ithr, p'.N, (List.range norbs.length).map p'.lmgrid⟩])
          else search (evb b) norbs nadd thresh f ithr p' out) res → Ends (fun f => search (evb b) norbs nadd thresh f ithr p out) res := by
        intro res hr
        refine Ends.shift ?_
        have := Ends.bind (y := fun (p' : Prog Unit) f => if p'.cvd then search (evb b) norbs nadd thresh f (ithr + 1) p' (out ++ [⟨ithr, p'.N, (List.range norbs.length).map p'.lmgrid⟩])
          else search (evb b) norbs nadd thresh f ithr p' out) h1 hr
        obtain ⟨F, hF⟩ := this
        refine ⟨F, fun f hf => ?_⟩
        dsimp only
        unfold search
        rw [if_pos hi]
        exact hF f hf
      cases hc : p'.cvd with
      | true =>
        obtain ⟨res, hres⟩ := ih (ithr + 1) (by omega) p' (out ++ [⟨ithr, p'.N, (List.range norbs.length).map p'.lmgrid⟩]) hset
        refine ⟨res, hstep res ?_⟩
        rw [hc]
        exact hres
      | false =>
        obtain ⟨res, hres⟩ := hnext p' h1 hc
        refine ⟨res, hstep res ?_⟩
        rw [hc]
        exact hres
    -- passes from a state that is ready
    have ready : ∀ (n : Nat) (p : Prog Unit) (out : List Report) (L : Nat → Int), Ready norbs.length p L →
        (∑ k ∈ Finset.range norbs.length, energy b norbs k p.N (L k)) - ∑ k ∈ Finset.range norbs.length, B k < n * (1 / 10 ^ ithr) → ∃ res, Ends (fun f => search (evb b) norbs nadd thresh f ithr p out) res := by
      intro n
      induction n with
      | zero =>
        intro p out L _ hn
        have := Finset.sum_le_sum (s := Finset.range norbs.length) fun k _ => hB k p.N (L k)
        simp only [Nat.cast_zero, zero_mul] at hn
        linarith
      | succ n ihn =>
        intro p out L hL hn
        refine key p out hL.set fun p' h1 hc => ?_
        obtain ⟨p'', k1, -, -, -, k5⟩ := pass_ends ht hB hanti norbs.length le_rfl { p with cvd := true } hL.set
        have : p' = p'' := by
          obtain ⟨F, hF⟩ := h1
          obtain ⟨G, hG⟩ := k1
          have e1 := hF (max F G) (le_max_left _ _)
          have e2 := hG (max F G) (le_max_right _ _)
          dsimp only at e1 e2
          rw [e1] at e2
          simpa using e2
        subst this
        obtain ⟨L', a1, a2, a3⟩ := k5 L hL
        rcases a3 hc with h' | h'
        · exact absurd h' (by simp)
        · refine ihn p' out L' a1 ?_
          push_cast at hn
          dsimp only at h'
          linarith
    intro p out hp
    refine key p out hp fun p' h1 _ => ?_
    obtain ⟨p'', k1, k2, -, k4, -⟩ := pass_ends ht hB hanti norbs.length le_rfl { p with cvd := true } hp
    have : p' = p'' := by
      obtain ⟨F, hF⟩ := h1
      obtain ⟨G, hG⟩ := k1
      have e1 := hF (max F G) (le_max_left _ _)
      have e2 := hG (max F G) (le_max_right _ _)
      dsimp only at e1 e2
      rw [e1] at e2
      simpa using e2
    subst this
    have hL : Ready norbs.length p' fun k => (p'.lmgrid k).getD 0 := by
      intro k hk
      obtain ⟨l, hl⟩ := k4 k hk (Or.inl (Nat.zero_le k))
      exact ⟨k2 k hk, by simp only [hl, Option.getD_some]⟩
    obtain ⟨n, hn⟩ := exists_nat_gt (((∑ k ∈ Finset.range norbs.length, energy b norbs k p'.N ((p'.lmgrid k).getD 0)) - ∑ k ∈ Finset.range norbs.length, B k) / (1 / 10 ^ ithr))
    rw [div_lt_iff₀ ht] at hn
    exact ready n p' out _ hL hn

end ends

end Core
end HelFEM
