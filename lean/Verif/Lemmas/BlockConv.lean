import Verif.Spec.DiaQuad
import Verif.Lemmas.DiaTei

/-! The refinement of a block of integrals. -/

namespace HelFEM
namespace DiaQuad
open Assembly

section
variable {K : Type _} [Field K] [LinearOrder K] [IsStrictOrderedRing K] {A : Type _}

/-- the previous difference as the loop carries it -/
def carried (diff : A → A → Option K) (b : Nat → A) (m : Nat) : Option K := if m ≤ 1 then some (-1) else diff (b (m - 1)) (b (m - 2))

theorem blockStop_iff (eps sqrteps : K) (diff : A → A → Option K) (scale : A → K) (b : Nat → A) (j : Nat) :
    blockStop eps sqrteps (diff (b j) (b (j - 1))) (scale (b j)) (carried diff b j) = true ↔ Settled eps sqrteps diff scale b j := by
  unfold Settled blockStop carried
  cases hd : diff (b j) (b (j - 1)) with
  | none => simp [leN]
  | some δ =>
    simp only [leN, Bool.or_eq_true, Bool.and_eq_true, decide_eq_true_eq, Option.some.injEq, exists_eq_left']
    refine or_congr Iff.rfl (and_congr Iff.rfl (or_congr Iff.rfl ?_))
    by_cases hj : j ≤ 1
    · rw [if_pos hj]
      have : ¬(0 : K) ≤ -1 := by have := zero_lt_one (α := K); intro h; linarith
      simp only [geN, this, decide_false, Bool.false_eq_true, false_and, false_iff, not_and]
      intro h; omega
    · rw [if_neg hj]
      cases hp : diff (b (j - 1)) (b (j - 2)) with
      | none => simp [geN]
      | some δ' => simp [geN, gtN]; omega

theorem tryOrder_grow (nmax n0 : Nat) (h0 : 2 ≤ n0) : ∀ m, (∀ j < m, tryOrder nmax n0 j < nmax) → min (m + 2) nmax ≤ tryOrder nmax n0 m ∨ m = 0 := by
  intro m
  induction m with
  | zero => intro _; exact Or.inr rfl
  | succ m ih =>
    intro h
    left
    have h1 := h m (by omega)
    show _ ≤ min (2 * tryOrder nmax n0 m) nmax
    rcases ih (fun j hj => h j (by omega)) with h2 | h2
    · rcases Nat.lt_or_ge (m + 2) nmax with h3 | h3
      · rw [min_eq_left h3.le] at h2; omega
      · rw [min_eq_right h3] at h2; omega
    · subst h2
      have : tryOrder nmax n0 0 = n0 := rfl
      omega

/-- the result of the refinement that ends at the `m`th order -/
def Ends (eps sqrteps : K) (diff : A → A → Option K) (scale : A → K) (cur : Nat → A) (nmax n0 : Nat) (fallback : Bool) (m : Nat) (c : Conv A) : Prop :=
  (1 ≤ m ∧ Settled eps sqrteps diff scale (fun j => cur (tryOrder nmax n0 j)) m ∧ c.block = cur (tryOrder nmax n0 m) ∧ c.nconv = tryOrder nmax n0 m) ∨
  ((m = 0 ∨ ¬Settled eps sqrteps diff scale (fun j => cur (tryOrder nmax n0 j)) m) ∧ nmax ≤ tryOrder nmax n0 m ∧
    c.block = cur (if fallback then n0 else tryOrder nmax n0 m) ∧ c.nconv = if fallback then n0 else tryOrder nmax n0 m)

theorem blockLoop_spec (eps sqrteps : K) (diff : A → A → Option K) (scale : A → K) (cur : Nat → A) (nmax n0 : Nat) (h0 : 2 ≤ n0) (fallback : Bool) (fuel m : Nat)
    (hf : fuel + m = nmax + 1) (hlt : ∀ j < m, tryOrder nmax n0 j < nmax) (hns : ∀ j < m, 1 ≤ j → ¬Settled eps sqrteps diff scale (fun j => cur (tryOrder nmax n0 j)) j) :
    ∃ M c, blockLoop eps sqrteps diff scale (fun n => .ok (cur n)) nmax n0 fallback fuel
        (if m = 0 then none else some (cur n0, cur (tryOrder nmax n0 (m - 1)))) (carried diff (fun j => cur (tryOrder nmax n0 j)) m) (tryOrder nmax n0 m)
        ((List.range m).map (tryOrder nmax n0)) = .ok (some c) ∧
      c.orders = (List.range (M + 1)).map (tryOrder nmax n0) ∧ (∀ j < M, tryOrder nmax n0 j < nmax) ∧
      (∀ j < M, 1 ≤ j → ¬Settled eps sqrteps diff scale (fun j => cur (tryOrder nmax n0 j)) j) ∧ Ends eps sqrteps diff scale cur nmax n0 fallback M c := by
  induction fuel generalizing m with
  | zero =>
    exfalso
    rcases Nat.eq_zero_or_pos m with h | h
    · omega
    · have h1 := hlt (m - 1) (by omega)
      rcases tryOrder_grow nmax n0 h0 (m - 1) (fun j hj => hlt j (by omega)) with h2 | h2
      · rw [min_eq_right (by omega)] at h2; omega
      · rw [h2] at h1
        have : tryOrder nmax n0 0 = n0 := rfl
        omega
  | succ fuel ih =>
    have hord : (List.range m).map (tryOrder nmax n0) ++ [tryOrder nmax n0 m] = (List.range (m + 1)).map (tryOrder nmax n0) := by
      rw [List.range_succ, List.map_append]; rfl
    rcases Nat.eq_zero_or_pos m with hm | hm
    · subst hm
      rw [if_pos rfl]
      by_cases hcap : nmax ≤ tryOrder nmax n0 0
      · refine ⟨0, if fallback then ⟨cur n0, n0, [] ++ [n0]⟩ else ⟨cur n0, n0, [] ++ [n0]⟩, ?_, ?_, by omega, by omega, Or.inr ⟨Or.inl rfl, hcap, ?_, ?_⟩⟩
        · show (Res.ok (cur n0) >>= fun cur => if nmax ≤ n0 then _ else _) = _
          rw [Res.ok_bind, if_pos (show nmax ≤ n0 from hcap)]
          rfl
        · cases fallback <;> rfl
        · cases fallback <;> rfl
        · cases fallback <;> rfl
      · obtain ⟨M, c, e1, e2⟩ := ih 1 (by omega) (by intro j hj; obtain rfl : j = 0 := by omega
                                                     omega) (by omega)
        refine ⟨M, c, ?_, e2⟩
        rw [← e1]
        show (Res.ok (cur n0) >>= fun cur => if nmax ≤ n0 then _ else _) = _
        rw [Res.ok_bind, if_neg (show ¬nmax ≤ n0 from hcap)]
        rfl
    · rw [if_neg (by omega)]
      by_cases hst : Settled eps sqrteps diff scale (fun j => cur (tryOrder nmax n0 j)) m
      · refine ⟨m, ⟨cur (tryOrder nmax n0 m), tryOrder nmax n0 m, (List.range m).map (tryOrder nmax n0) ++ [tryOrder nmax n0 m]⟩, ?_, hord, hlt, hns, Or.inl ⟨hm, hst, rfl, rfl⟩⟩
        unfold blockLoop
        rw [Res.ok_bind]
        simp only
        rw [if_pos ((blockStop_iff eps sqrteps diff scale (fun j => cur (tryOrder nmax n0 j)) m).2 hst)]
      · have hst' : ¬blockStop eps sqrteps (diff (cur (tryOrder nmax n0 m)) (cur (tryOrder nmax n0 (m - 1)))) (scale (cur (tryOrder nmax n0 m)))
            (carried diff (fun j => cur (tryOrder nmax n0 j)) m) = true := fun h => hst ((blockStop_iff eps sqrteps diff scale (fun j => cur (tryOrder nmax n0 j)) m).1 h)
        by_cases hcap : nmax ≤ tryOrder nmax n0 m
        · refine ⟨m, if fallback then ⟨cur n0, n0, (List.range m).map (tryOrder nmax n0) ++ [tryOrder nmax n0 m]⟩ else
            ⟨cur (tryOrder nmax n0 m), tryOrder nmax n0 m, (List.range m).map (tryOrder nmax n0) ++ [tryOrder nmax n0 m]⟩, ?_, ?_, hlt, hns, Or.inr ⟨Or.inr hst, hcap, ?_, ?_⟩⟩
          · unfold blockLoop
            rw [Res.ok_bind]
            simp only
            rw [if_neg hst', if_pos hcap]
          · cases fallback <;> exact hord
          · cases fallback <;> rfl
          · cases fallback <;> rfl
        · obtain ⟨M, c, e1, e2⟩ := ih (m + 1) (by omega) (by
            intro j hj
            rcases Nat.lt_or_ge j m with h | h
            · exact hlt j h
            · obtain rfl : j = m := by omega
              omega) (by
            intro j hj
            rcases Nat.lt_or_ge j m with h | h
            · exact hns j h
            · obtain rfl : j = m := by omega
              exact fun _ => hst)
          refine ⟨M, c, ?_, e2⟩
          rw [← e1, if_neg (by omega), ← hord]
          conv_lhs => unfold blockLoop
          rw [Res.ok_bind]
          simp only
          rw [if_neg hst', if_neg hcap]
          have hc : carried diff (fun j => cur (tryOrder nmax n0 j)) (m + 1) = diff (cur (tryOrder nmax n0 m)) (cur (tryOrder nmax n0 (m - 1))) := by
            unfold carried
            rw [if_neg (by omega)]
            rfl
          rw [hc]
          rfl

theorem tryOrder_bounds (nmax n0 : Nat) (h : n0 ≤ nmax) : ∀ m, n0 ≤ tryOrder nmax n0 m ∧ tryOrder nmax n0 m ≤ nmax := by
  intro m
  induction m with
  | zero => exact ⟨le_rfl, h⟩
  | succ m ih => show _ ≤ min (2 * tryOrder nmax n0 m) nmax ∧ min (2 * tryOrder nmax n0 m) nmax ≤ _; omega

end

/-! ### matrices -/

theorem convergeMat_ok (eps sqrteps : ℝ) (cur : Nat → Mat ℝ) (nstart : Nat) (fallback : Bool) :
    ∃ c n, convergeMat eps sqrteps (fun n => .ok (cur n)) nstart fallback = .ok c ∧ c.block = cur n ∧ c.nconv = n ∧
      max nstart 2 ≤ n ∧ n ≤ max 512 (max nstart 2) := by
  obtain ⟨M, c, e1, e2, e3, e4, e5⟩ := blockLoop_spec eps sqrteps maxDiff maxAbs cur 512 (max nstart 2) (by omega) fallback 513 0 rfl (by omega) (by omega)
  have e1 : convergeBlock eps sqrteps maxDiff maxAbs (fun n => .ok (cur n)) 512 nstart fallback = .ok (some c) := e1
  have hb : max nstart 2 ≤ tryOrder 512 (max nstart 2) M ∧ tryOrder 512 (max nstart 2) M ≤ max 512 (max nstart 2) := by
    rcases Nat.lt_or_ge (max nstart 2) 512 with h | h
    · have := tryOrder_bounds 512 (max nstart 2) h.le M; omega
    · have : M = 0 := by
        by_contra hM
        have h1 : max nstart 2 < 512 := e3 0 (by omega)
        omega
      subst this
      exact ⟨le_rfl, by show max nstart 2 ≤ _; omega⟩
  unfold convergeMat
  rw [e1, Res.ok_bind]
  rcases e5 with ⟨_, _, h3, h4⟩ | ⟨_, _, h3, h4⟩
  · exact ⟨c, _, rfl, by rw [h4]; exact h3, rfl, by rw [h4]; exact hb.1, by rw [h4]; exact hb.2⟩
  · refine ⟨c, _, rfl, by rw [h4]; exact h3, rfl, ?_, ?_⟩
    · rw [h4]; cases fallback
      · exact hb.1
      · exact le_rfl
    · rw [h4]; cases fallback
      · exact hb.2
      · show max nstart 2 ≤ _; omega

/-- the hardest of the table -/
theorem hardest_spec (tab : List (Int × Int)) (h : tab ≠ []) : ∃ p, hardest tab = .ok p ∧ p ∈ tab ∧ ∀ e ∈ tab, e.1 < p.1 ∨ (e.1 = p.1 ∧ e.2 ≤ p.2) := by
  have key : ∀ (l : List (Int × Int)) (b : Int × Int), ((l.foldl (fun b e => if b.1 < e.1 ∨ (e.1 = b.1 ∧ b.2 < e.2) then e else b) b = b) ∨
      l.foldl (fun b e => if b.1 < e.1 ∨ (e.1 = b.1 ∧ b.2 < e.2) then e else b) b ∈ l) ∧
      (∀ e, e ∈ b :: l → e.1 < (l.foldl (fun b e => if b.1 < e.1 ∨ (e.1 = b.1 ∧ b.2 < e.2) then e else b) b).1 ∨
        (e.1 = (l.foldl (fun b e => if b.1 < e.1 ∨ (e.1 = b.1 ∧ b.2 < e.2) then e else b) b).1 ∧
          e.2 ≤ (l.foldl (fun b e => if b.1 < e.1 ∨ (e.1 = b.1 ∧ b.2 < e.2) then e else b) b).2)) := by
    intro l
    induction l with
    | nil => intro b; exact ⟨Or.inl rfl, fun e he => by rw [List.mem_singleton] at he; subst he; exact Or.inr ⟨rfl, le_rfl⟩⟩
    | cons x l ih =>
      intro b
      rw [List.foldl_cons]
      by_cases hc : b.1 < x.1 ∨ (x.1 = b.1 ∧ b.2 < x.2)
      · rw [if_pos hc]
        obtain ⟨h1, h2⟩ := ih x
        refine ⟨Or.inr ?_, ?_⟩
        · rcases h1 with h1 | h1
          · rw [h1]; exact List.mem_cons_self
          · exact List.mem_cons_of_mem _ h1
        · intro e he
          rcases List.mem_cons.1 he with rfl | he
          · have := h2 x List.mem_cons_self
            omega
          · exact h2 e he
      · rw [if_neg hc]
        obtain ⟨h1, h2⟩ := ih b
        refine ⟨?_, ?_⟩
        · rcases h1 with h1 | h1
          · exact Or.inl h1
          · exact Or.inr (List.mem_cons_of_mem _ h1)
        · intro e he
          rcases List.mem_cons.1 he with rfl | he
          · exact h2 _ List.mem_cons_self
          · rcases List.mem_cons.1 he with rfl | he
            · have := h2 b List.mem_cons_self
              omega
            · exact h2 e (List.mem_cons_of_mem _ he)
  cases tab with
  | nil => exact absurd rfl h
  | cons p t =>
    obtain ⟨h1, h2⟩ := key (p :: t) p
    refine ⟨_, rfl, ?_, fun e he => h2 e (List.mem_cons_of_mem _ he)⟩
    rcases h1 with h1 | h1
    · rw [h1]; exact List.mem_cons_self
    · exact h1

end DiaQuad
end HelFEM
