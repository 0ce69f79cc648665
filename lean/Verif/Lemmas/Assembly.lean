import Verif.Model.Assembly
import Verif.Props.Elements
import Mathlib.Tactic.Linarith
import Mathlib.Tactic.Ring

/-! Lemmas on the assembly of global matrices. -/

namespace HelFEM
namespace Assembly
open Grid Finset

variable {K : Type _} [Field K] [LinearOrder K]

theorem ompFill_ok {α : Type _} (body : Nat → Res α) (B : Nat → α) :
    ∀ (s : List Nat) (t : Nat → Option α), (∀ i ∈ s, body i = .ok (B i)) →
      ∃ t', ompFill body s t = .ok t' ∧ ∀ i, t' i = if i ∈ s then some (B i) else t i := by
  intro s
  induction s with
  | nil => intro t _; exact ⟨t, rfl, by simp⟩
  | cons a s ih =>
    intro t h
    obtain ⟨t', h1, h2⟩ := ih (Function.update t a (some (B a))) (fun i hi => h i (by simp [hi]))
    refine ⟨t', ?_, ?_⟩
    · simp only [ompFill, h a (by simp), Res.ok_bind, h1]
    · intro i
      rw [h2 i]
      by_cases hi : i ∈ s
      · simp [hi]
      · by_cases hia : i = a
        · subst hia; simp [hi]
        · simp [hi, hia]

/-- contribution of element `e` to entry `(i, j)` -/
def contrib (first last : Nat → Nat) (B : Nat → Mat K) (i j e : Nat) : K :=
  if (first e ≤ i ∧ i ≤ last e) ∧ (first e ≤ j ∧ j ≤ last e) then (B e).get (i - first e) (j - first e) else 0

theorem accumulate_ok (tab : List (Int × Int)) (t : Nat → Option (Mat K)) (first last : Nat → Nat) (B : Nat → Mat K) (N : Nat) :
    ∀ (rem iel : Nat) (M : Mat K), M.rows = N → M.cols = N →
      (∀ e, iel ≤ e → e < iel + rem → FEShape.getIdx tab e = .ok (first e, last e) ∧ t e = some (B e) ∧
        (B e).rows = last e + 1 - first e ∧ (B e).cols = last e + 1 - first e ∧ last e < N ∧ first e ≤ last e + 1) →
      ∃ M', accumulate tab t rem iel M = .ok M' ∧ M'.rows = N ∧ M'.cols = N ∧
        ∀ i j, M'.get i j = M.get i j + ∑ e ∈ Ico iel (iel + rem), contrib first last B i j e := by
  intro rem
  induction rem with
  | zero => intro iel M h1 h2 _; exact ⟨M, rfl, h1, h2, by simp⟩
  | succ rem ih =>
    intro iel M h1 h2 h
    obtain ⟨g1, g2, g3, g4, g5, g6⟩ := h iel le_rfl (by omega)
    rw [accumulate]
    simp only [g1, Res.ok_bind, slot, g2]
    rw [Mat.addBlock, if_pos (by omega)]
    simp only [Res.ok_bind]
    obtain ⟨M', k1, k2, k3, k4⟩ := ih (iel + 1) ⟨M.rows, M.cols, fun i j =>
      if first iel ≤ i ∧ i < first iel + (last iel + 1 - first iel) ∧ first iel ≤ j ∧ j < first iel + (last iel + 1 - first iel) then
        M.get i j + (B iel).get (i - first iel) (j - first iel) else M.get i j⟩ h1 h2
        (fun e he1 he2 => h e (by omega) (by omega))
    refine ⟨M', k1, k2, k3, ?_⟩
    intro i j
    rw [k4 i j, Finset.sum_eq_sum_Ico_succ_bot (show iel < iel + (rem + 1) by omega),
      show iel + 1 + rem = iel + (rem + 1) by omega, ← add_assoc (M.get _ _)]
    congr 1
    simp only [contrib]
    by_cases hc : (first iel ≤ i ∧ i ≤ last iel) ∧ (first iel ≤ j ∧ j ≤ last iel)
    · rw [if_pos hc, if_pos (by omega)]
    · rw [if_neg hc, if_neg (by omega), add_zero]

/-- contribution of element `e` to entry `i` of a vector -/
def contribV (first last : Nat → Nat) (B : Nat → Vect K) (i e : Nat) : K :=
  if first e ≤ i ∧ i ≤ last e then (B e).get (i - first e) else 0

theorem accumulateVec_ok (tab : List (Int × Int)) (t : Nat → Option (Vect K)) (first last : Nat → Nat) (B : Nat → Vect K) (N : Nat) :
    ∀ (rem iel : Nat) (M : Vect K), M.size = N →
      (∀ e, iel ≤ e → e < iel + rem → FEShape.getIdx tab e = .ok (first e, last e) ∧ t e = some (B e) ∧
        (B e).size = last e + 1 - first e ∧ last e < N ∧ first e ≤ last e + 1) →
      ∃ M', accumulateVec tab t rem iel M = .ok M' ∧ M'.size = N ∧
        ∀ i, M'.get i = M.get i + ∑ e ∈ Ico iel (iel + rem), contribV first last B i e := by
  intro rem
  induction rem with
  | zero => intro iel M h1 _; exact ⟨M, rfl, h1, by simp⟩
  | succ rem ih =>
    intro iel M h1 h
    obtain ⟨g1, g2, g3, g5, g6⟩ := h iel le_rfl (by omega)
    rw [accumulateVec]
    simp only [g1, Res.ok_bind, slot, g2]
    rw [Vect.addSegment, if_pos (by omega)]
    simp only [Res.ok_bind]
    obtain ⟨M', k1, k2, k4⟩ := ih (iel + 1) ⟨M.size, fun i =>
      if first iel ≤ i ∧ i < first iel + (last iel + 1 - first iel) then
        M.get i + (B iel).get (i - first iel) else M.get i⟩ h1
        (fun e he1 he2 => h e (by omega) (by omega))
    refine ⟨M', k1, k2, ?_⟩
    intro i
    rw [k4 i, Finset.sum_eq_sum_Ico_succ_bot (show iel < iel + (rem + 1) by omega),
      show iel + 1 + rem = iel + (rem + 1) by omega, ← add_assoc (M.get _)]
    congr 1
    simp only [contribV]
    by_cases hc : first iel ≤ i ∧ i ≤ last iel
    · rw [if_pos hc, if_pos (by omega)]
    · rw [if_neg hc, if_neg (by omega), add_zero]

/-! ### refinement loop -/

theorem convergeLoop_spec {A : Type _} (eps sqrteps : K) (diff : A → A → Option K) (scale : A → K) (cur : Nat → A) (nmax : Nat) :
    ∀ (fuel : Nat) (prev : Option (Nat × A)) (pd ppd : Option K) (n : Nat) (orders : List Nat), 1 ≤ n → nmax + 1 - n < fuel →
      (∀ q, prev = some q → q.2 = cur q.1 ∧ orders.getLast? = some q.1 ∧ n = min (2 * q.1) nmax) →
      ∃ a l, convergeLoop eps sqrteps diff scale (fun k => .ok (cur k)) nmax fuel (prev.map Prod.snd) pd ppd n orders =
          .ok (some (a, orders ++ n :: l)) ∧
        (∀ k ∈ n :: l, n ≤ k ∧ (k = n ∨ k ≤ nmax)) ∧
        (n :: l).IsChain (fun u v => v = min (2 * u) nmax) ∧ (∀ k ∈ (n :: l).dropLast, k < nmax) ∧
        ∃ k, (n :: l).getLast? = some k ∧ a = cur k ∧
          (nmax ≤ k ∨ ∃ k' pd' ppd', k = min (2 * k') nmax ∧
            ((orders ++ n :: l).dropLast.getLast? = some k') ∧ stopTest eps sqrteps (diff (cur k) (cur k')) (scale (cur k)) pd' ppd' = true) := by
  intro fuel
  induction fuel with
  | zero => intro _ _ _ _ _ _ h; omega
  | succ fuel ih =>
    intro prev pd ppd n orders hn hf hp
    rw [convergeLoop]
    simp only [Res.ok_bind]
    -- continuation
    have cont : ∀ pd2 ppd2 : Option K, ¬ nmax ≤ n →
        ∃ a l, convergeLoop eps sqrteps diff scale (fun k => .ok (cur k)) nmax fuel (some (cur n)) pd2 ppd2 (min (2 * n) nmax) (orders ++ [n]) =
          .ok (some (a, orders ++ n :: l)) ∧
        (∀ k ∈ n :: l, n ≤ k ∧ (k = n ∨ k ≤ nmax)) ∧
        (n :: l).IsChain (fun u v => v = min (2 * u) nmax) ∧ (∀ k ∈ (n :: l).dropLast, k < nmax) ∧
        ∃ k, (n :: l).getLast? = some k ∧ a = cur k ∧
          (nmax ≤ k ∨ ∃ k' pd' ppd', k = min (2 * k') nmax ∧
            ((orders ++ n :: l).dropLast.getLast? = some k') ∧ stopTest eps sqrteps (diff (cur k) (cur k')) (scale (cur k)) pd' ppd' = true) := by
      intro pd2 ppd2 hlt
      obtain ⟨a, l, e1, e2, e3, e7, k, e4, e5, e6⟩ := ih (some (n, cur n)) pd2 ppd2 (min (2 * n) nmax) (orders ++ [n]) (by omega) (by omega)
        (by rintro q hq; obtain rfl := Option.some.inj hq; simp)
      refine ⟨a, min (2 * n) nmax :: l, ?_, ?_, ?_, ?_, k, ?_, e5, ?_⟩
      · simpa using e1
      · intro k hk
        rcases List.mem_cons.1 hk with rfl | hk
        · omega
        · have := e2 k hk
          omega
      · exact List.IsChain.cons_cons rfl e3
      · intro k hk
        rw [List.dropLast_cons_cons] at hk
        rcases List.mem_cons.1 hk with rfl | hk
        · omega
        · exact e7 k hk
      · rw [List.getLast?_cons_cons]; exact e4
      · simpa using e6
    cases prev with
    | none =>
      simp only [Option.map_none]
      by_cases hc : nmax ≤ n
      · rw [if_pos hc]
        exact ⟨cur n, [], rfl, by simp, by simp, by simp, n, by simp, rfl, Or.inl hc⟩
      · rw [if_neg hc]; exact cont _ _ hc
    | some q =>
      obtain ⟨h1, h2, h3⟩ := hp q rfl
      simp only [Option.map_some]
      by_cases hs : stopTest eps sqrteps (diff (cur n) q.2) (scale (cur n)) pd ppd = true
      · rw [if_pos hs]
        refine ⟨cur n, [], rfl, by simp, by simp, by simp, n, by simp, rfl, Or.inr ⟨q.1, pd, ppd, h3, ?_, ?_⟩⟩
        · simp [h2]
        · rw [← h1]; exact hs
      · rw [if_neg hs]
        by_cases hc : nmax ≤ n
        · rw [if_pos hc]
          exact ⟨cur n, [], rfl, by simp, by simp, by simp, n, by simp, rfl, Or.inl hc⟩
        · rw [if_neg hc]; exact cont _ _ hc

theorem chain_length (nmax : Nat) : ∀ (l : List Nat) (n : Nat), (n :: l).IsChain (fun u v => v = min (2 * u) nmax) →
    (∀ k ∈ (n :: l).dropLast, k < nmax) → l ≠ [] → 2 ^ (l.length - 1) * n < nmax := by
  intro l
  induction l with
  | nil => intro _ _ _ h; exact absurd rfl h
  | cons a l ih =>
    intro n h1 h2 _
    rw [List.isChain_cons_cons] at h1
    rw [List.dropLast_cons_cons] at h2
    have hn : n < nmax := h2 n (by simp)
    cases l with
    | nil => simpa using hn
    | cons b l =>
      have ha : a < nmax := h2 a (by simp)
      have := ih a h1.2 (fun k hk => h2 k (List.mem_cons_of_mem _ hk)) (by simp)
      have e : a = 2 * n := by have := h1.1; omega
      rw [e] at this
      simp only [List.length_cons, Nat.add_sub_cancel] at this ⊢
      rw [pow_succ]
      calc 2 ^ l.length * 2 * n = 2 ^ l.length * (2 * n) := by ring
        _ < nmax := this

/-! ### panels -/

/-- consecutive pairs with nonempty interior -/
def pairs (l : List K) : List (K × K) := (List.zip l l.tail).filter fun p => decide (p.1 < p.2)

/-- drop repeated neighbours -/
def squeeze : List K → List K
  | [] => []
  | [a] => [a]
  | a :: b :: l => if a < b then a :: squeeze (b :: l) else squeeze (b :: l)

theorem squeeze_spec : ∀ (l : List K) (a : K), (a :: l).Pairwise (· ≤ ·) →
    ∃ d, squeeze (a :: l) = a :: d ∧ (a :: d).Pairwise (· < ·) ∧ (∀ x, x ∈ a :: d ↔ x ∈ a :: l) ∧
      pairs (a :: l) = List.zip (a :: d) d := by
  intro l
  induction l with
  | nil => intro a _; exact ⟨[], rfl, by simp, by simp, by simp [pairs]⟩
  | cons b l ih =>
    intro a h
    obtain ⟨d, h1, h2, h3, h4⟩ := ih b (List.pairwise_cons.1 h).2
    have hab : a ≤ b := (List.pairwise_cons.1 h).1 b (by simp)
    have hp : pairs (a :: b :: l) = if a < b then (a, b) :: pairs (b :: l) else pairs (b :: l) := by
      simp only [pairs, List.tail_cons, List.zip_cons_cons, List.filter_cons]
      simp
    rw [squeeze, h1, hp, h4]
    by_cases hc : a < b
    · rw [if_pos hc, if_pos hc]
      refine ⟨b :: d, rfl, ?_, ?_, rfl⟩
      · refine List.pairwise_cons.2 ⟨?_, h2⟩
        intro x hx
        rcases List.mem_cons.1 hx with rfl | hx
        · exact hc
        · exact lt_trans hc ((List.pairwise_cons.1 h2).1 x hx)
      · intro x
        rw [List.mem_cons, h3 x, ← List.mem_cons]
    · have : a = b := le_antisymm hab (not_lt.1 hc)
      subst this
      rw [if_neg hc, if_neg hc]
      exact ⟨d, rfl, h2, fun x => by rw [h3 x]; simp, rfl⟩

theorem zip_chain : ∀ (d : List K) (a : K), (a :: d).Pairwise (· < ·) →
    (List.zip (a :: d) d).IsChain (fun p q => p.2 = q.1) ∧ (∀ p ∈ List.zip (a :: d) d, p.1 < p.2) ∧
    (∀ b d', d = b :: d' → (List.zip (a :: d) d).head? = some (a, b)) ∧
    (∀ x ∈ d, ∃ p ∈ List.zip (a :: d) d, p.2 = x) ∧
    (∀ p ∈ List.zip (a :: d) d, p.1 ∈ a :: d ∧ p.2 ∈ d) ∧
    ((List.zip (a :: d) d).getLast?.map Prod.snd = d.getLast?) := by
  intro d
  induction d with
  | nil => intro a _; simp
  | cons b d ih =>
    intro a h
    obtain ⟨h1, h2, h3, h4, h5, h6⟩ := ih b (List.pairwise_cons.1 h).2
    have hab : a < b := (List.pairwise_cons.1 h).1 b (by simp)
    rw [List.zip_cons_cons]
    refine ⟨?_, ?_, ?_, ?_, ?_, ?_⟩
    · cases d with
      | nil => simp
      | cons c d =>
        rw [List.zip_cons_cons] at h1 ⊢
        exact List.IsChain.cons_cons rfl h1
    · intro p hp
      rcases List.mem_cons.1 hp with rfl | hp
      · exact hab
      · exact h2 p hp
    · rintro b' d' hd
      simp only [List.cons.injEq] at hd
      simp [hd.1]
    · intro x hx
      rcases List.mem_cons.1 hx with rfl | hx
      · exact ⟨(a, x), by simp, rfl⟩
      · obtain ⟨p, hp, e⟩ := h4 x hx
        exact ⟨p, List.mem_cons_of_mem _ hp, e⟩
    · intro p hp
      rcases List.mem_cons.1 hp with rfl | hp
      · simp
      · exact ⟨List.mem_cons_of_mem _ (h5 p hp).1, List.mem_cons_of_mem _ (h5 p hp).2⟩
    · cases d with
      | nil => simp
      | cons c d =>
        rw [List.zip_cons_cons] at h6 ⊢
        rw [List.getLast?_cons_cons, List.getLast?_cons_cons, h6]

end Assembly
end HelFEM
