import Verif.Model.LIP
import Mathlib.LinearAlgebra.Lagrange
import Mathlib.Algebra.Polynomial.Derivative
import Mathlib.Tactic.Ring
import Mathlib.Tactic.LinearCombination

/-! Lemmas about the nested loops of the Lagrange evaluator. -/

namespace HelFEM
namespace Poly
open Finset Polynomial

variable {K : Type _} [Field K]

/-- linear factor value and its slope -/
def lf (x0 : Nat → K) (x : K) (fi ip : Nat) : K := if ip = fi then 1 else (x - x0 ip) / (x0 fi - x0 ip)
def sl (x0 : Nat → K) (fi ip : Nat) : K := if ip = fi then 0 else (x0 fi - x0 ip)⁻¹

/-- elementary symmetric-like sums: replace `n` of the first `b` factors by their slopes -/
def E (x0 : Nat → K) (x : K) (fi : Nat) : Nat → Nat → K
  | 0, b => ∏ ip ∈ range b, lf x0 x fi ip
  | _ + 1, 0 => 0
  | n + 1, b + 1 => E x0 x fi (n + 1) b * lf x0 x fi b + E x0 x fi n b * sl x0 fi b

theorem E_zero_succ (x0 : Nat → K) (x : K) (fi b : Nat) :
    E x0 x fi 0 (b + 1) = E x0 x fi 0 b * lf x0 x fi b := by
  simp [E, Finset.prod_range_succ]

/-- explicit sum form of `E (n+1)` -/
theorem E_sum (x0 : Nat → K) (x : K) (fi n b : Nat) :
    E x0 x fi (n + 1) b = ∑ d ∈ range b, E x0 x fi n d * sl x0 fi d * ∏ ip ∈ Ico (d + 1) b, lf x0 x fi ip := by
  induction b with
  | zero => simp [E]
  | succ b ih =>
    rw [E, ih, Finset.sum_range_succ, Finset.sum_mul]
    congr 1
    · apply Finset.sum_congr rfl
      intro d hd
      rw [Finset.mem_range] at hd
      rw [Finset.prod_Ico_succ_top (by omega)]
      ring
    · simp

theorem prod_skip (N b : Nat) (f : Nat → K) (ds : List Nat) (hb : b ≤ N) (hds : ∀ d ∈ ds, b ≤ d) :
    (∏ ip ∈ range N, if ip ∈ ds then 1 else f ip) =
      (∏ ip ∈ range b, f ip) * ∏ ip ∈ Ico b N, if ip ∈ ds then 1 else f ip := by
  rw [← Finset.prod_range_mul_prod_Ico _ hb]
  congr 1
  apply Finset.prod_congr rfl
  intro i hi
  rw [Finset.mem_range] at hi
  rw [if_neg]
  intro h
  have := hds i h
  omega

theorem lipNest_eq (N : Nat) (x0 : Nat → K) (x : K) (fi : Nat) (n : Nat) :
    ∀ (b : Nat) (ds : List Nat), b ≤ N → (∀ d ∈ ds, b ≤ d) → (∀ d ∈ ds, d ≠ fi) →
      lipNest N x0 x fi n b ds =
        E x0 x fi n b * (∏ ip ∈ Ico b N, if ip ∈ ds then 1 else lf x0 x fi ip) * (ds.map (sl x0 fi)).prod := by
  induction n with
  | zero =>
    intro b ds hb hds hfi
    simp only [lipNest, lipTerm, E]
    have h1 := prod_skip N b (lf x0 x fi) ds hb hds
    simp only [lf] at h1 ⊢
    rw [h1, div_eq_mul_inv]
    congr 1
    clear h1 hds
    induction ds with
    | nil => simp
    | cons d ds ih =>
      have := ih (fun d hd => hfi d (List.mem_cons_of_mem _ hd))
      have hd : d ≠ fi := hfi d (List.mem_cons_self)
      simp only [List.map_cons, List.prod_cons, mul_inv, this, sl, if_neg hd]
  | succ n ih =>
    intro b ds hb hds hfi
    rw [lipNest, E_sum, Finset.sum_mul, Finset.sum_mul]
    apply Finset.sum_congr rfl
    intro d hd
    rw [Finset.mem_range] at hd
    by_cases h : d = fi
    · simp [h, sl]
    · rw [if_neg h, ih d (d :: ds) (by omega)]
      · rw [List.map_cons, List.prod_cons]
        have hsplit : (∏ ip ∈ Ico d N, if ip ∈ d :: ds then 1 else lf x0 x fi ip) =
            (∏ ip ∈ Ico (d + 1) b, lf x0 x fi ip) * ∏ ip ∈ Ico b N, if ip ∈ ds then 1 else lf x0 x fi ip := by
          rw [Finset.prod_eq_prod_Ico_succ_bot (by omega), if_pos (by simp), one_mul,
            ← Finset.prod_Ico_consecutive _ (show d + 1 ≤ b by omega) hb]
          congr 1
          · apply Finset.prod_congr rfl
            intro i hi
            rw [Finset.mem_Ico] at hi
            rw [if_neg]
            simp only [List.mem_cons, not_or]
            refine ⟨by omega, fun h => ?_⟩
            have := hds i h
            omega
          · apply Finset.prod_congr rfl
            intro i hi
            rw [Finset.mem_Ico] at hi
            have : i ≠ d := by omega
            simp [this]
        rw [hsplit]
        ring
      · intro e he
        rcases List.mem_cons.mp he with rfl | he
        · exact le_refl _
        · have := hds e he; omega
      · intro e he
        rcases List.mem_cons.mp he with rfl | he
        · exact h
        · exact hfi e he

/-- partial products of the Lagrange basis -/
noncomputable def partialBasis (x0 : Nat → K) (fi b : Nat) : K[X] :=
  ∏ j ∈ range b, if j = fi then 1 else Lagrange.basisDivisor (x0 fi) (x0 j)

theorem partialBasis_eq (x0 : Nat → K) (fi N : Nat) :
    partialBasis x0 fi N = Lagrange.basis (range N) x0 fi := by
  unfold partialBasis Lagrange.basis
  rw [← Finset.filter_ne', Finset.prod_filter]
  apply Finset.prod_congr rfl
  intro j _
  by_cases h : j = fi <;> simp [h]

theorem iterate_derivative_mul_linear (p q : K[X]) (s : K) (hq : derivative q = C s) (n : Nat) :
    derivative^[n + 1] (p * q) = derivative^[n + 1] p * q + (n + 1 : ℕ) • (derivative^[n] p * C s) := by
  induction n with
  | zero => simp [hq]
  | succ n ih =>
    rw [Function.iterate_succ_apply', ih]
    have e1 : derivative (derivative^[n + 1] p) = derivative^[n + 1 + 1] p := (Function.iterate_succ_apply' _ _ _).symm
    have e2 : derivative (derivative^[n] p) = derivative^[n + 1] p := (Function.iterate_succ_apply' _ _ _).symm
    rw [derivative_add, derivative_mul, derivative_smul, derivative_mul, e1, e2, hq, derivative_C, mul_zero, add_zero]
    simp only [nsmul_eq_mul]
    push_cast
    ring

theorem derivative_partial (x0 : Nat → K) (x : K) (fi : Nat) (b : Nat) :
    ∀ n, (derivative^[n] (partialBasis x0 fi b)).eval x = (n.factorial : K) * E x0 x fi n b := by
  induction b with
  | zero =>
    intro n
    cases n with
    | zero => simp [partialBasis, E]
    | succ n =>
      rw [Function.iterate_succ_apply]
      simp [partialBasis, E]
  | succ b ih =>
    intro n
    have hsucc : partialBasis x0 fi (b + 1) = partialBasis x0 fi b *
        (if b = fi then 1 else Lagrange.basisDivisor (x0 fi) (x0 b)) := by
      simp [partialBasis, Finset.prod_range_succ]
    have hq : derivative (if b = fi then (1 : K[X]) else Lagrange.basisDivisor (x0 fi) (x0 b)) = C (sl x0 fi b) := by
      by_cases h : b = fi
      · simp [h, sl]
      · simp [h, sl, Lagrange.basisDivisor]
    have he : (if b = fi then (1 : K[X]) else Lagrange.basisDivisor (x0 fi) (x0 b)).eval x = lf x0 x fi b := by
      by_cases h : b = fi
      · simp [h, lf]
      · simp [h, lf, Lagrange.basisDivisor, div_eq_inv_mul]
    rw [hsucc]
    cases n with
    | zero =>
      have := ih 0
      simp only [Function.iterate_zero, id_eq] at this
      rw [Function.iterate_zero, id_eq, eval_mul, he, this, E_zero_succ]
      ring
    | succ n =>
      rw [iterate_derivative_mul_linear _ _ _ hq, E]
      simp only [eval_add, eval_mul, eval_C, he, ih, nsmul_eq_mul, eval_natCast, Nat.factorial_succ]
      push_cast
      ring

theorem prefactor_eq : ∀ n < 21, lipPrefactor.getD n 0 = n.factorial := by decide

theorem lipVal_eq (N : Nat) (x0 : Nat → K) (x : K) (k : Nat) (fi : Nat) (hk : k ≤ 20) :
    lipVal N x0 x k fi = (derivative^[k] (Lagrange.basis (range N) x0 fi)).eval x := by
  unfold lipVal
  rw [prefactor_eq k (by omega), ← partialBasis_eq, derivative_partial,
    lipNest_eq N x0 x fi k N [] (le_refl _) (by simp) (by simp)]
  simp

theorem lipPrimDnf_eq (N : Nat) (x0 : Nat → K) (x : K) (n : Nat) (fi : Nat) (hn : n ≤ 20) :
    lipPrimDnf N x0 x n fi = .ok ((derivative^[n] (Lagrange.basis (range N) x0 fi)).eval x) := by
  unfold lipPrimDnf
  rw [if_pos ⟨by omega, by simp [lipPrefactor]; omega⟩, Int.toNat_natCast, lipVal_eq _ _ _ _ _ hn]

end Poly
end HelFEM
