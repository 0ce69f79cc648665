import Verif.Lemmas.Cholesky
import Verif.Lemmas.Lists
import Mathlib.Tactic.IntervalCases

/-!
# C23: pivoted Cholesky factorisation
-/

namespace HelFEM
namespace Chol
open Finset

/-- A symmetric positive semidefinite `n × n` matrix. -/
def PSD (n : Nat) (A : Nat → Nat → ℝ) : Prop :=
  (∀ i < n, ∀ j < n, A i j = A j i) ∧ ∀ v : Nat → ℝ, 0 ≤ ∑ i ∈ range n, ∑ j ∈ range n, v i * A i j * v j

theorem map_sum_getD (cols : List (Nat → ℝ)) (i j : Nat) : (cols.map fun c => c i * c j).sum =
    ∑ p ∈ range cols.length, (cols.getD p fun _ => 0) i * (cols.getD p fun _ => 0) j := by
  rw [← sum_map_range]
  congr 1
  apply List.ext_getElem (by simp)
  intro k h1 h2
  simp only [List.length_map] at h1
  simp [List.getD_eq_getElem?_getD, h1]

/-- **C23.** For every positive semidefinite matrix and every threshold `tol ≥ 0` the factorisation succeeds with at most `n` columns, and every
entry of `A - L Lᵀ` is at most `tol` in magnitude. -/
theorem C23_residual (A : Mat ℝ) (hsq : A.cols = A.rows) (hA : PSD A.rows A.get) (tol : ℝ) (ht : 0 ≤ tol) :
    ∃ L, pivotedCholesky A tol = .ok L ∧ L.rows = A.rows ∧ L.cols ≤ A.rows ∧
      ∀ i < A.rows, ∀ j < A.rows, |A.get i j - ∑ p ∈ range L.cols, L.get i p * L.get j p| ≤ tol := by
  have h0 : Inv A.rows A.get ⟨fun i => A.get i i, fun _ => false, []⟩ := by
    refine ⟨?_, ?_, ?_, ?_⟩
    · intro v
      have := hA.2 v
      simpa [quad, resid] using this
    · intro i _ h; exact absurd h (by simp)
    · intro i _ _; simp [resid]
    · simp
  obtain ⟨h1, h2⟩ := loop_spec A.rows A.get hA.1 tol ht A.rows _ h0 (by simp)
  refine ⟨_, if_neg (not_not.2 hsq), rfl, ?_, ?_⟩
  · have := loop_length A.rows A.get tol A.rows ⟨fun i => A.get i i, fun _ => false, []⟩
    simpa using this
  · intro i hi j hj
    simp only
    rw [← map_sum_getD]
    apply psd_entry A.rows _ (fun i hi j hj => resid_symm A.get _ i j (hA.1 i hi j hj)) h1.psd tol _ i j hi hj
    intro k hk
    cases hd : (loop A.rows A.get tol A.rows ⟨fun i => A.get i i, fun _ => false, []⟩).done k with
    | true => rw [h1.zero k hk hd k hk]; exact ht
    | false => rw [← h1.diag k hk hd]; exact h2 k hk hd

/-- With threshold 0 the factor is exact, which is the hypothesis of C22. -/
theorem C23_exact (A : Mat ℝ) (hsq : A.cols = A.rows) (hA : PSD A.rows A.get) :
    ∃ L, pivotedCholesky A 0 = .ok L ∧ L.rows = A.rows ∧
      ∀ i < A.rows, ∀ j < A.rows, ∑ p ∈ range L.cols, L.get i p * L.get j p = A.get i j := by
  obtain ⟨L, h1, h2, _, h3⟩ := C23_residual A hsq hA 0 le_rfl
  refine ⟨L, h1, h2, fun i hi j hj => ?_⟩
  have := abs_nonpos_iff.1 (h3 i hi j hj)
  linarith

/-- For any square matrix at all, the factor has at most `n` columns. A matrix that is not square is rejected. -/
theorem C23_terminates (A : Mat ℝ) (tol : ℝ) :
    (A.cols ≠ A.rows → pivotedCholesky A tol = .throw .logicError) ∧
    (A.cols = A.rows → ∃ L, pivotedCholesky A tol = .ok L ∧ L.cols ≤ A.rows) := by
  constructor
  · intro h; exact if_pos h
  · intro h
    refine ⟨_, if_neg (not_not.2 h), ?_⟩
    simpa using loop_length A.rows A.get tol A.rows ⟨fun i => A.get i i, fun _ => false, []⟩

/-- **C23, sign-aware variant, positive semidefinite blocks.** The factor has at most `n` columns, all signs are `+1`, and every entry of
the residual is at most the threshold times the largest initial diagonal element. -/
theorem C23_signed_psd (n : Nat) (hn : 0 < n) (W : Nat → Nat → ℝ) (hW : PSD n W) (thresh : ℝ) (ht : 0 ≤ thresh) (B : ℝ) (hB : ∀ i < n, W i i ≤ B) :
    (signedCholesky n W thresh).length ≤ n ∧ (∀ c ∈ signedCholesky n W thresh, c.2 = 1) ∧
      ∀ i < n, ∀ j < n, |W i j - ((signedCholesky n W thresh).map fun c => c.2 * (c.1 i * c.1 j)).sum| ≤ thresh * B := by
  unfold signedCholesky
  obtain ⟨m1, m2, m3⟩ := maxAbs_spec n hn (fun i => W i i)
  have hquad : ∀ v, 0 ≤ quad n (sresid W []) v := by
    intro v
    have := hW.2 v
    simpa [quad, sresid] using this
  have hB0 : 0 ≤ B := by
    have := psd_diag n (sresid W []) hquad 0 hn
    simp [sresid] at this
    linarith [hB 0 hn]
  have hmB : (maxAbs n (fun i => W i i) (0, |W 0 0|)).2 ≤ B := by
    rw [m2]
    have := psd_diag n (sresid W []) hquad _ m1
    simp only [sresid, List.map_nil, List.sum_nil, sub_zero] at this
    rw [abs_of_nonneg this]
    exact hB _ m1
  obtain ⟨a, b, c, d⟩ := sloop_spec n hn W hW.1 thresh (maxAbs n (fun i => W i i) (0, |W 0 0|)).2 ht (fun R => ∀ v, 0 ≤ quad n R v) (fun l => ∀ x ∈ l, x = 1)
    (by
      intro cols R' p hp hne h1 h2 h3
      have hsym : ∀ i < n, ∀ j < n, sresid W cols i j = sresid W cols j i := fun i hi j hj => sresid_symm W cols i j (hW.1 i hi j hj)
      have hd := psd_diag n _ h1 p hp
      constructor
      · intro v
        have := schur_psd n _ hsym h1 p hp (lt_of_le_of_ne hd (Ne.symm hne)) v
        have he : quad n R' v = quad n (fun i j => sresid W cols i j - (sresid W cols p p)⁻¹ * (sresid W cols p i * sresid W cols p j)) v := by
          unfold quad
          apply sum_congr rfl; intro i hi
          apply sum_congr rfl; intro j hj
          rw [h3 i (mem_range.1 hi) j (mem_range.1 hj)]
        rw [he]; exact this
      · intro x hx
        rcases List.mem_append.1 hx with h | h
        · exact h2 x h
        · rw [List.mem_singleton.1 h, if_pos hd])
    n ⟨fun i => W i i, []⟩ ∅ ⟨fun i _ => by simp [sresid], by simp, by simp, by simp⟩ hquad (by simp) (by simp)
  refine ⟨a, ?_, ?_⟩
  · intro x hx; exact c _ (List.mem_map_of_mem hx)
  · intro i hi j hj
    apply psd_entry n _ (fun i hi j hj => sresid_symm W _ i j (hW.1 i hi j hj)) b _ _ i j hi hj
    intro k hk
    rcases d with ⟨d1, d2⟩ | d
    · rw [d2]
      simp only [sresid, List.map_nil, List.sum_nil, sub_zero]
      have := m3 k hk
      have h0 := le_abs_self (W k k)
      have := mul_nonneg ht hB0
      linarith
    · refine (le_abs_self _).trans ((d k hk).trans (mul_le_mul_of_nonneg_left (max_le hmB hB0) ht))

/-- **C23, sign-aware variant, negative semidefinite blocks.** The factor has at most `n` columns, all signs are `-1`, and every entry of
the residual is at most the threshold times the largest initial diagonal element, by magnitude. -/
theorem C23_signed_nsd (n : Nat) (hn : 0 < n) (W : Nat → Nat → ℝ) (hW : PSD n fun i j => -W i j) (thresh : ℝ) (ht : 0 ≤ thresh) (B : ℝ) (hB : ∀ i < n, -W i i ≤ B) :
    (signedCholesky n W thresh).length ≤ n ∧ (∀ c ∈ signedCholesky n W thresh, c.2 = -1) ∧
      ∀ i < n, ∀ j < n, |W i j - ((signedCholesky n W thresh).map fun c => c.2 * (c.1 i * c.1 j)).sum| ≤ thresh * B := by
  unfold signedCholesky
  obtain ⟨m1, m2, m3⟩ := maxAbs_spec n hn (fun i => W i i)
  have hWs : ∀ i < n, ∀ j < n, W i j = W j i := fun i hi j hj => neg_injective (hW.1 i hi j hj)
  have hquad : ∀ v, 0 ≤ quad n (fun i j => -sresid W [] i j) v := by
    intro v
    have := hW.2 v
    simpa [quad, sresid] using this
  have hB0 : 0 ≤ B := by
    have := psd_diag n _ hquad 0 hn
    simp only [sresid, List.map_nil, List.sum_nil, sub_zero] at this
    linarith [hB 0 hn]
  have hmB : (maxAbs n (fun i => W i i) (0, |W 0 0|)).2 ≤ B := by
    rw [m2]
    have := psd_diag n _ hquad _ m1
    simp only [sresid, List.map_nil, List.sum_nil, sub_zero] at this
    rw [abs_of_nonpos (by linarith)]
    exact hB _ m1
  obtain ⟨a, b, c, d⟩ := sloop_spec n hn W hWs thresh (maxAbs n (fun i => W i i) (0, |W 0 0|)).2 ht (fun R => ∀ v, 0 ≤ quad n (fun i j => -R i j) v) (fun l => ∀ x ∈ l, x = -1)
    (by
      intro cols R' p hp hne h1 h2 h3
      have hsym : ∀ i < n, ∀ j < n, -sresid W cols i j = -sresid W cols j i := fun i hi j hj => congrArg Neg.neg (sresid_symm W cols i j (hWs i hi j hj))
      have hd : 0 ≤ -sresid W cols p p := psd_diag n _ h1 p hp
      have hlt : 0 < -sresid W cols p p := lt_of_le_of_ne hd (fun h => hne (by linarith))
      constructor
      · intro v
        have := schur_psd n (fun i j => -sresid W cols i j) hsym h1 p hp hlt v
        have he : quad n (fun i j => -R' i j) v = quad n (fun i j => -sresid W cols i j - (-sresid W cols p p)⁻¹ * (-sresid W cols p i * -sresid W cols p j)) v := by
          unfold quad
          apply sum_congr rfl; intro i hi
          apply sum_congr rfl; intro j hj
          beta_reduce
          rw [h3 i (mem_range.1 hi) j (mem_range.1 hj), inv_neg]
          ring
        rw [he]; exact this
      · intro x hx
        rcases List.mem_append.1 hx with h | h
        · exact h2 x h
        · rw [List.mem_singleton.1 h, if_neg (by linarith)])
    n ⟨fun i => W i i, []⟩ ∅ ⟨fun i _ => by simp [sresid], by simp, by simp, by simp⟩ hquad (by simp) (by simp)
  refine ⟨a, ?_, ?_⟩
  · intro x hx; exact c _ (List.mem_map_of_mem hx)
  · intro i hi j hj
    rw [← abs_neg]
    apply psd_entry n (fun i j => -sresid W _ i j) (fun i hi j hj => congrArg Neg.neg (sresid_symm W _ i j (hWs i hi j hj))) b _ _ i j hi hj
    intro k hk
    rcases d with ⟨d1, d2⟩ | d
    · rw [d2]
      simp only [sresid, List.map_nil, List.sum_nil, sub_zero]
      have := m3 k hk
      have h0 := neg_abs_le (W k k)
      have := mul_nonneg ht hB0
      linarith
    · refine (neg_le_abs _).trans ((d k hk).trans (mul_le_mul_of_nonneg_left (max_le hmB hB0) ht))

/-- **C23, sign-aware variant, any symmetric block (partial).** For an indefinite block the factor has at most `n` columns and the *diagonal*
of the residual is small. The off-diagonal entries are not bounded: see `C23_indefinite_fails`. -/
theorem C23_signed_diagonal_partial (n : Nat) (hn : 0 < n) (W : Nat → Nat → ℝ) (hW : ∀ i < n, ∀ j < n, W i j = W j i) (thresh : ℝ) (ht : 0 ≤ thresh)
    (B : ℝ) (hB : ∀ i < n, |W i i| ≤ B) :
    (signedCholesky n W thresh).length ≤ n ∧
      ∀ i < n, |W i i - ((signedCholesky n W thresh).map fun c => c.2 * (c.1 i * c.1 i)).sum| ≤ thresh * B := by
  unfold signedCholesky
  obtain ⟨m1, m2, m3⟩ := maxAbs_spec n hn (fun i => W i i)
  have hB0 : 0 ≤ B := (abs_nonneg _).trans (hB 0 hn)
  obtain ⟨a, _, _, d⟩ := sloop_spec n hn W hW thresh (maxAbs n (fun i => W i i) (0, |W 0 0|)).2 ht (fun _ => True) (fun _ => True)
    (fun _ _ _ _ _ _ _ _ => ⟨trivial, trivial⟩)
    n ⟨fun i => W i i, []⟩ ∅ ⟨fun i _ => by simp [sresid], by simp, by simp, by simp⟩ trivial trivial (by simp)
  refine ⟨a, ?_⟩
  intro i hi
  rcases d with ⟨d1, d2⟩ | d
  · rw [d2]
    simp only [List.map_nil, List.sum_nil, sub_zero]
    have := m3 i hi
    have := mul_nonneg ht hB0
    linarith
  · exact (d i hi).trans (mul_le_mul_of_nonneg_left (max_le (by rw [m2]; exact hB _ m1) hB0) ht)

/-- the indefinite block with zero diagonal -/
def flip (i j : Nat) : ℝ := if i = j then 0 else 1

/-- The claim fails for indefinite blocks: with a zero diagonal the pivot search stops at once, the factor is empty and the off-diagonal entry 1 is
lost, whatever the threshold. -/
theorem C23_indefinite_fails (thresh : ℝ) : (∀ i < 2, ∀ j < 2, flip i j = flip j i) ∧ signedCholesky 2 flip thresh = [] ∧
    flip 0 1 - ((signedCholesky 2 flip thresh).map fun c => c.2 * (c.1 0 * c.1 1)).sum = 1 := by
  have h : signedCholesky 2 flip thresh = [] := by
    have : (maxAbs 2 (fun i => flip i i) (0, |flip 0 0|)).2 = 0 := by simp [maxAbs, flip, List.range_succ]
    unfold signedCholesky
    rw [this]
    simp [sloop, sstep]
  refine ⟨?_, h, ?_⟩
  · intro i _ j _; simp [flip, eq_comm]
  · rw [h]; simp [flip]

/-- a rank-one block with a zero row -/
theorem psd_example : PSD 3 (fun i j => (i : ℝ) * j) := by
  refine ⟨fun i _ j _ => mul_comm _ _, fun v => ?_⟩
  have : ∑ i ∈ range 3, ∑ j ∈ range 3, v i * ((i : ℝ) * j) * v j = (v 1 + 2 * v 2) * (v 1 + 2 * v 2) := by
    simp [sum_range_succ]; ring
  rw [this]; exact mul_self_nonneg _

example : ∃ L, pivotedCholesky ⟨3, 3, fun i j => (i : ℝ) * j⟩ 0 = .ok L ∧ ∑ p ∈ range L.cols, L.get 1 p * L.get 2 p = 2 := by
  obtain ⟨L, h1, _, h2⟩ := C23_exact ⟨3, 3, fun i j => (i : ℝ) * j⟩ rfl psd_example
  exact ⟨L, h1, by rw [h2 1 (by decide) 2 (by decide)]; norm_num⟩

example : (signedCholesky 3 (fun i j => (i : ℝ) * j) (1 / 2)).length ≤ 3 :=
  (C23_signed_psd 3 (by decide) _ psd_example (1 / 2) (by norm_num) 4 (by intro i hi; interval_cases i <;> norm_num)).1

/-- Reachable: the negative of the matrix above is factored with negative signs. -/
example : ∀ c ∈ signedCholesky 3 (fun i j => -((i : ℝ) * j)) (1 / 2), c.2 = -1 :=
  (C23_signed_nsd 3 (by decide) _ (by simp only [neg_neg]; exact psd_example) (1 / 2) (by norm_num) 4 (by intro i hi; interval_cases i <;> norm_num)).2.1

end Chol
end HelFEM
