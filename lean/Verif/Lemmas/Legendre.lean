import Verif.Model.Legendre
import Verif.Lemmas.Interp
import Verif.Spec.Legendre

/-! Lemmas relating the Legendre tables to polynomials. -/

namespace HelFEM
namespace Poly
open Finset Polynomial Spec

noncomputable def pQ : Nat → ℝ[X]
  | 0 => 0
  | 1 => 1
  | n + 2 => C (1 / ((n + 1 + 1 : Nat) : ℝ)) * (C ((2 * (n + 1 : Nat) + 1 : Nat) : ℝ) * (X * pQ (n + 1))
      - C ((n + 1 : Nat) : ℝ) * pQ n + C ((-1) ^ (n + 1) * ((2 * (n + 1 : Nat) + 1 : Nat) : ℝ)))

theorem two_step {P : Nat → Prop} (h0 : P 0) (h1 : P 1) (h : ∀ n, P n → P (n + 1) → P (n + 2)) (n : Nat) : P n := by
  have : P n ∧ P (n + 1) := by
    induction n with
    | zero => exact ⟨h0, h1⟩
    | succ n ih => exact ⟨ih.2, h n ih.1 ih.2⟩
  exact this.1

theorem legP_eq (x : ℝ) (n : Nat) : legP x n = (pP n).eval x := by
  induction n using two_step with
  | h0 => simp [legP, pP]
  | h1 => simp [legP, pP]
  | h n h1 h2 => simp only [legP, pP, h1, h2, eval_mul, eval_C, eval_sub, eval_X]; ring

theorem legDP_eq (x : ℝ) (n : Nat) : legDP x n = (derivative (pP n)).eval x := by
  induction n using two_step with
  | h0 => simp [legDP, pP]
  | h1 => simp [legDP, pP]
  | h n h1 h2 =>
    simp only [legDP, pP, h1, h2, legP_eq, derivative_C_mul, derivative_sub, derivative_mul, derivative_X, eval_mul, eval_C,
      eval_sub, eval_X, eval_add, eval_one, derivative_C, eval_zero]
    ring

theorem legD2P_eq (x : ℝ) (n : Nat) : legD2P x n = (derivative (derivative (pP n))).eval x := by
  induction n using two_step with
  | h0 => simp [legD2P, pP]
  | h1 => simp [legD2P, pP]
  | h n h1 h2 =>
    simp only [legD2P, pP, h1, h2, legDP_eq, derivative_C_mul, derivative_sub, derivative_mul, derivative_X, eval_mul, eval_C,
      eval_sub, eval_X, eval_add, eval_one, derivative_add, derivative_one, derivative_C, derivative_zero, eval_zero, zero_mul, zero_add, one_mul]
    push_cast
    ring

theorem sgn (n : Nat) : (if n % 2 = 0 then (1 : ℝ) else -1) = (-1) ^ n := by
  split
  · next h => rw [Even.neg_one_pow (Nat.even_iff.2 h)]
  · next h => rw [Odd.neg_one_pow (Nat.odd_iff.2 (by omega))]

theorem legQ_eq (x : ℝ) (n : Nat) : legQ x n = (pQ n).eval x := by
  induction n using two_step with
  | h0 => simp [legQ, pQ]
  | h1 => simp [legQ, pQ]
  | h n h1 h2 => simp only [legQ, pQ, h1, h2, sgn, eval_mul, eval_C, eval_sub, eval_X, eval_add]; ring

theorem legQp_eq (x : ℝ) (n : Nat) : legQp x n = (derivative (pQ n)).eval x := by
  induction n using two_step with
  | h0 => simp [legQp, pQ]
  | h1 => simp [legQp, pQ]
  | h n h1 h2 =>
    simp only [legQp, pQ, h1, h2, legQ_eq, derivative_C_mul, derivative_sub, derivative_mul, derivative_X, eval_mul, eval_C,
      eval_sub, eval_X, eval_add, eval_one, derivative_add, derivative_C, eval_zero]
    ring

theorem legQpp_eq (x : ℝ) (n : Nat) : legQpp x n = (derivative (derivative (pQ n))).eval x := by
  induction n using two_step with
  | h0 => simp [legQpp, pQ]
  | h1 => simp [legQpp, pQ]
  | h n h1 h2 =>
    simp only [legQpp, pQ, h1, h2, legQp_eq, derivative_C_mul, derivative_sub, derivative_mul, derivative_X, eval_mul, eval_C,
      eval_sub, eval_X, eval_add, eval_one, derivative_add, derivative_C, eval_zero, derivative_one, derivative_zero]
    ring

/-- deflation at `-1` -/
theorem pP_pQ (n : Nat) : pP n = C ((-1) ^ n) + (X + 1) * pQ n := by
  induction n using two_step with
  | h0 => simp [pP, pQ]
  | h1 => simp [pP, pQ]
  | h n h1 h2 =>
    simp only [pP, pQ, h1, h2]
    have h3 : (C (1 / ((n + 1 + 1 : Nat) : ℝ)) : ℝ[X]) * C ((n + 1 + 1 : Nat) : ℝ) = 1 := by
      rw [← C_mul, one_div_mul_cancel (by positivity), C_1]
    have h4 : (C ((n + 1 + 1 : Nat) : ℝ) : ℝ[X]) = C ((n : ℝ)) + 2 := by
      push_cast; simp only [map_add, map_natCast, map_one]; ring
    have h5 : (C ((2 * (n + 1 : Nat) + 1 : Nat) : ℝ) : ℝ[X]) = 2 * C ((n : ℝ)) + 3 := by
      push_cast; simp only [map_add, map_mul, map_natCast, map_one, map_ofNat]; ring
    have h6 : (C ((n + 1 : Nat) : ℝ) : ℝ[X]) = C ((n : ℝ)) + 1 := by
      push_cast; simp only [map_add, map_natCast, map_one]
    have h7 : (C ((-1) ^ (n + 1) * ((2 * (n + 1 : Nat) + 1 : Nat) : ℝ)) : ℝ[X]) = - C ((-1) ^ n) * (2 * C ((n : ℝ)) + 3) := by
      rw [C_mul, h5, pow_succ, C_mul]; simp
    have h8 : (C ((-1 : ℝ) ^ (n + 2)) : ℝ[X]) = C ((-1) ^ n) := by rw [pow_add]; simp
    have h9 : (C ((-1 : ℝ) ^ (n + 1)) : ℝ[X]) = - C ((-1) ^ n) := by rw [pow_succ]; simp
    rw [h4] at h3
    rw [h5, h6, h7, h8, h9]
    linear_combination (C ((-1) ^ n)) * h3

theorem pP_one (n : Nat) : (pP n).eval 1 = 1 := by
  induction n using two_step with
  | h0 => simp [pP]
  | h1 => simp [pP]
  | h n h1 h2 =>
    simp only [pP, h1, h2, eval_mul, eval_C, eval_sub, eval_X]
    have : ((n + 1 + 1 : Nat) : ℝ) ≠ 0 := by positivity
    field_simp
    push_cast; ring

theorem pP_neg_one (n : Nat) : (pP n).eval (-1) = (-1) ^ n := by rw [pP_pQ]; simp

/-- the shape functions -/
noncomputable def legShape (lmax j : Nat) : ℝ[X] := ∑ l ∈ range (lmax + 1), C (legT lmax l j) * pP l

theorem legPrimDnf_eq (lmax : Nat) (x : ℝ) (n j : Nat) (hn : n ≤ 2) :
    legPrimDnf lmax x n j = .ok (dv (legShape lmax j) x n) := by
  unfold legPrimDnf legShape dv
  interval_cases n
  · simp only [Nat.cast_zero, if_true, Function.iterate_zero, id_eq, eval_finsetSum, eval_mul, eval_C, legP_eq]
    congr 1; apply sum_congr rfl; intros; ring
  · simp only [Nat.cast_one, one_ne_zero, if_false, if_true, Function.iterate_one, derivative_sum, derivative_C_mul,
      eval_finsetSum, eval_mul, eval_C, legDP_eq]
    congr 1; apply sum_congr rfl; intros; ring
  · rw [if_neg (by norm_num), if_neg (by norm_num), if_pos (by norm_num)]
    simp only [Function.iterate_succ_apply, Function.iterate_zero, id_eq, derivative_sum, derivative_C_mul,
      eval_finsetSum, eval_mul, eval_C, legD2P_eq]
    congr 1; apply sum_congr rfl; intros; ring

theorem legShape_first (lmax : Nat) (h : 1 ≤ lmax) : legShape lmax 0 = C (1/2) * (1 - X) := by
  unfold legShape
  obtain ⟨m, rfl⟩ : ∃ m, lmax = m + 1 := ⟨lmax - 1, by omega⟩
  rw [sum_range_succ', sum_range_succ', sum_eq_zero]
  · simp [legT, pP]
    have : (C (-1 / 2 : ℝ) : ℝ[X]) = - C (1/2) := by rw [← C_neg]; norm_num
    rw [this]
    have : (C (2 : ℝ)⁻¹ : ℝ[X]) = C (1/2) := by norm_num
    rw [this]
    ring
  · intro l _
    simp [legT]

theorem legShape_last (lmax : Nat) (h : 1 ≤ lmax) : legShape lmax lmax = C (1/2) * (1 + X) := by
  unfold legShape
  obtain ⟨m, rfl⟩ : ∃ m, lmax = m + 1 := ⟨lmax - 1, by omega⟩
  rw [sum_range_succ', sum_range_succ', sum_eq_zero]
  · simp [legT, pP]
    ring
  · intro l _
    simp [legT]

theorem legShape_mid (lmax j : Nat) (h1 : 1 ≤ j) (h2 : j < lmax) :
    legShape lmax j = C (1 / Real.sqrt ((4 * j + 2 : Nat) : ℝ)) * (pP (j + 1) - pP (j - 1)) := by
  unfold legShape
  have h : ∀ l ∈ range (lmax + 1), C (legT lmax l j) * pP l =
      (if l = j + 1 then C (1 / Real.sqrt ((4 * j + 2 : Nat) : ℝ)) * pP l else 0) +
      (if l = j - 1 then - C (1 / Real.sqrt ((4 * j + 2 : Nat) : ℝ)) * pP l else 0) := by
    intro l _
    unfold legT
    by_cases ha : l = j + 1
    · rw [if_pos ⟨h1, h2, ha⟩, if_pos ha, if_neg (by omega), add_zero]
    · rw [if_neg (by omega), if_neg ha]
      by_cases hb : l + 1 = j
      · rw [if_pos ⟨h1, h2, hb⟩, if_pos (by omega), C_neg]; ring
      · rw [if_neg (by omega), if_neg (by omega), if_neg (by omega), if_neg (by omega), if_neg (by omega), if_neg (by omega)]
        simp
  rw [sum_congr rfl h, sum_add_distrib, sum_ite_eq' , sum_ite_eq', if_pos (by rw [mem_range]; omega),
    if_pos (by rw [mem_range]; omega)]
  ring

/-- `B/(x+1)` -/
noncomputable def legRed (lmax j : Nat) : ℝ[X] :=
  if j = lmax then C (1/2) else C (1 / Real.sqrt ((4 * j + 2 : Nat) : ℝ)) * (pQ (j + 1) - pQ (j - 1))

theorem legShape_red (lmax j : Nat) (h1 : 1 ≤ j) (h2 : j ≤ lmax) : legShape lmax j = (X + 1) * legRed lmax j := by
  unfold legRed
  split
  · next h => rw [h, legShape_last _ (by omega)]; ring
  · next h =>
    rw [legShape_mid _ _ h1 (by omega), pP_pQ (j + 1), pP_pQ (j - 1)]
    have : (-1 : ℝ) ^ (j + 1) = (-1) ^ (j - 1) := by
      rw [show j + 1 = (j - 1) + 2 by omega, pow_add]; simp
    rw [this]; ring

theorem legOverR_eq (lmax f : Nat) (x : ℝ) (n j : Nat) (len : ℝ) (hn : n ≤ 2) :
    legOverR lmax (some (f + 1)) x n len j = .ok (dv (legRed lmax j) x n / len ^ (n + 1)) := by
  unfold legOverR legRed
  rw [if_neg (by omega)]
  simp only
  split
  · unfold dv
    interval_cases n
    · simp; field_simp
    · simp
    · simp
  · have h4 : 4 * (j : ℝ) + 2 = ((4 * j + 2 : Nat) : ℝ) := by push_cast; ring
    rw [h4]
    unfold dv
    interval_cases n
    · simp [legQ_eq]; ring
    · simp [legQp_eq]; ring
    · simp [legQpp_eq]; ring

theorem pP_natDegree_le (n : Nat) : (pP n).natDegree ≤ n := by
  induction n using two_step with
  | h0 => simp [pP]
  | h1 => simp [pP]
  | h n h1 h2 =>
    unfold pP
    refine le_trans (natDegree_C_mul_le _ _) (le_trans (natDegree_sub_le _ _) (max_le ?_ ?_))
    · refine le_trans (natDegree_C_mul_le _ _) (le_trans natDegree_mul_le ?_)
      rw [natDegree_X]; omega
    · exact le_trans (natDegree_C_mul_le _ _) (by omega)

theorem pP_coeff_pos (n : Nat) : 0 < (pP n).coeff n := by
  induction n using two_step with
  | h0 => simp [pP]
  | h1 => simp [pP]
  | h n h1 h2 =>
    unfold pP
    rw [coeff_C_mul, coeff_sub, coeff_C_mul, coeff_C_mul, coeff_X_mul,
      coeff_eq_zero_of_natDegree_lt (lt_of_le_of_lt (pP_natDegree_le n) (by omega)), mul_zero, sub_zero]
    positivity

theorem legShape_degree (lmax j : Nat) : (legShape lmax j).degree ≤ lmax := by
  unfold legShape
  refine le_trans (degree_sum_le _ _) (Finset.sup_le fun l hl => ?_)
  rw [mem_range] at hl
  refine le_trans degree_le_natDegree ?_
  exact_mod_cast le_trans (natDegree_C_mul_le _ _) (le_trans (pP_natDegree_le l) (by omega))

theorem legShape_indep (lmax : Nat) (h : 1 ≤ lmax) (c : Nat → ℝ)
    (hc : ∑ j ∈ range (lmax + 1), C (c j) * legShape lmax j = 0) : ∀ j ≤ lmax, c j = 0 := by
  -- end values give the first and last coefficient
  have hend (t : ℝ) : ∑ j ∈ range (lmax + 1), c j * (legShape lmax j).eval t = 0 := by
    have := congrArg (eval t) hc
    simpa [eval_finsetSum] using this
  have hmidL : ∀ j, 1 ≤ j → j ≤ lmax → (legShape lmax j).eval (-1) = 0 := by
    intro j h1 h2; rw [legShape_red lmax j h1 h2]; simp
  have hmidR : ∀ j, j < lmax → (legShape lmax j).eval 1 = 0 := by
    intro j h1
    by_cases h0 : j = 0
    · rw [h0, legShape_first lmax h]; simp
    · rw [legShape_mid lmax j (by omega) h1]; simp [pP_one]
  have c0 : c 0 = 0 := by
    have := hend (-1)
    rw [Finset.sum_eq_single 0] at this
    · rw [legShape_first lmax h] at this; norm_num at this; exact this
    · intro j hj h0; rw [mem_range] at hj; rw [hmidL j (by omega) (by omega), mul_zero]
    · intro h'; simp at h'
  have cl : c lmax = 0 := by
    have := hend 1
    rw [Finset.sum_eq_single lmax] at this
    · rw [legShape_last lmax h] at this; norm_num at this; exact this
    · intro j hj h0; rw [mem_range] at hj; rw [hmidR j (by omega), mul_zero]
    · intro h'; simp at h'
  -- the others by downward induction on the degree
  have key : ∀ k, ∀ j, j + k = lmax → c j = 0 := by
    intro k
    induction k using Nat.strong_induction_on with
    | _ k ih =>
      intro j hj
      by_cases hk : k = 0
      · have : j = lmax := by omega
        rw [this, cl]
      by_cases hj0 : j = 0
      · rw [hj0, c0]
      have h1 := congrArg (fun p => coeff p (j + 1)) hc
      simp only [finsetSum_coeff, coeff_C_mul, coeff_zero] at h1
      rw [Finset.sum_eq_single j] at h1
      · rw [legShape_mid lmax j (by omega) (by omega), coeff_C_mul, coeff_sub,
          coeff_eq_zero_of_natDegree_lt (lt_of_le_of_lt (pP_natDegree_le (j - 1)) (by omega)), sub_zero] at h1
        have h2 := pP_coeff_pos (j + 1)
        have h3 : 0 < 1 / Real.sqrt ((4 * j + 2 : Nat) : ℝ) := by positivity
        have : 1 / Real.sqrt ((4 * j + 2 : Nat) : ℝ) * (pP (j + 1)).coeff (j + 1) ≠ 0 := (mul_pos h3 h2).ne'
        exact (mul_eq_zero.1 h1).resolve_right this
      · intro i hi hij
        rw [mem_range] at hi
        by_cases hlt : j < i
        · rw [ih (lmax - i) (by omega) i (by omega), zero_mul]
        · by_cases hi0 : i = 0
          · rw [hi0, c0, zero_mul]
          · rw [legShape_mid lmax i (by omega) (by omega), coeff_C_mul, coeff_sub,
              coeff_eq_zero_of_natDegree_lt (lt_of_le_of_lt (pP_natDegree_le (i - 1)) (by omega)),
              coeff_eq_zero_of_natDegree_lt (lt_of_le_of_lt (pP_natDegree_le (i + 1)) (by omega))]
            simp
      · intro h'; rw [mem_range] at h'; omega
  intro j hj
  exact key (lmax - j) j (by omega)

end Poly
end HelFEM
