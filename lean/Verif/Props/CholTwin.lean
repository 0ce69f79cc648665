import Verif.Props.Cholesky

/-!
# C23: equal rows keep equal factor rows

The packed pairs `(a,b)` and `(b,a)` have the same row in the matrix of two-electron integrals. The truncated factor treats them alike.
-/

namespace HelFEM
namespace Chol
open Finset

theorem step_twin (n : Nat) (A : Nat → Nat → ℝ) (hA : ∀ i < n, ∀ j < n, A i j = A j i) (tol : ℝ) (ht : 0 ≤ tol) (s s' : State) (h : Inv n A s)
    (hs : step n A tol s = some s') (i i' : Nat) (hi : i < n) (hi' : i' < n) (he : ∀ j < n, A i j = A i' j) (hc : ∀ c ∈ s.cols, c i = c i') :
    ∀ c ∈ s'.cols, c i = c i' := by
  unfold step at hs
  rcases pivot_spec n tol s with ⟨h1, _⟩ | ⟨h1, h2, h3, h4, _⟩
  · simp [h1] at hs
  · simp only [if_neg (show ¬ (pivot n tol s).1 = n by omega)] at hs
    injection hs with hs
    rw [h3] at hs
    generalize (pivot n tol s).1 = p at *
    have hpos : 0 < s.D p := by linarith
    have hpp : resid A s.cols p p = s.D p := (h.diag p h1 h2).symm
    have hsq : Real.sqrt (s.D p) * Real.sqrt (s.D p) = s.D p := Real.mul_self_sqrt hpos.le
    have hsq0 : Real.sqrt (s.D p) ≠ 0 := (Real.sqrt_pos.2 hpos).ne'
    subst hs
    have hcol : ∀ k < n, newCol A p (Real.sqrt (s.D p)) (fun i => if i = p then true else s.done i) s.cols k = resid A s.cols k p / Real.sqrt (s.D p) := by
      intro k hk
      rw [newCol]
      by_cases hip : k = p
      · subst hip
        rw [if_pos rfl, hpp, eq_div_iff hsq0, hsq]
      · rw [if_neg hip]
        simp only [if_neg hip]
        by_cases hdn : s.done k = true
        · rw [if_pos hdn, h.zero k hk hdn p h1, zero_div]
        · rw [if_neg hdn, foldl_sub s.cols (fun c => c k * c p)]; rfl
    intro c hcm
    simp only [List.mem_append, List.mem_singleton] at hcm
    rcases hcm with hcm | rfl
    · exact hc c hcm
    · rw [hcol i hi, hcol i' hi']
      congr 1
      unfold resid
      rw [he p h1]
      congr 2
      apply List.map_congr_left
      intro c hcc
      rw [hc c hcc]

theorem loop_twin (n : Nat) (A : Nat → Nat → ℝ) (hA : ∀ i < n, ∀ j < n, A i j = A j i) (tol : ℝ) (ht : 0 ≤ tol) (i i' : Nat) (hi : i < n) (hi' : i' < n)
    (he : ∀ j < n, A i j = A i' j) : ∀ (k : Nat) (s : State), Inv n A s → (∀ c ∈ s.cols, c i = c i') → ∀ c ∈ (loop n A tol k s).cols, c i = c i' := by
  intro k
  induction k with
  | zero => intro s _ hc; exact hc
  | succ k ih =>
    intro s h hc
    unfold loop
    cases hst : step n A tol s with
    | none => exact hc
    | some s' => exact ih s' (step_inv n A hA tol ht s s' h hst).1 (step_twin n A hA tol ht s s' h hst i i' hi hi' he hc)

/-- **C23.** Rows that are equal in the matrix are equal in the factor, whatever the threshold. -/
theorem C23_equal_rows (A : Mat ℝ) (hA : PSD A.rows A.get) (tol : ℝ) (ht : 0 ≤ tol) (L : Mat ℝ) (hL : pivotedCholesky A tol = .ok L)
    (i i' : Nat) (hi : i < A.rows) (hi' : i' < A.rows) (he : ∀ j < A.rows, A.get i j = A.get i' j) (p : Nat) (hp : p < L.cols) : L.get i p = L.get i' p := by
  have h0 : Inv A.rows A.get ⟨fun i => A.get i i, fun _ => false, []⟩ := by
    refine ⟨?_, ?_, ?_, ?_⟩
    · intro v
      have := hA.2 v
      simpa [quad, resid] using this
    · intro i _ h; exact absurd h (by simp)
    · intro i _ _; simp [resid]
    · simp
  have h1 := loop_twin A.rows A.get hA.1 tol ht i i' hi hi' he A.rows _ h0 (by simp)
  unfold pivotedCholesky at hL
  split at hL
  · exact absurd hL (by simp)
  · injection hL with hL
    subst hL
    simp only at hp ⊢
    rw [List.getD_eq_getElem?_getD, List.getElem?_eq_getElem hp]
    exact h1 _ (List.getElem_mem hp)

/-- a matrix with two equal rows, cut off at a positive threshold -/
example : ∃ L, pivotedCholesky ⟨3, 3, fun i j => ((i % 2 + 1 : Nat) : ℝ) * ((j % 2 + 1 : Nat) : ℝ)⟩ (1 / 2) = .ok L ∧ ∀ p < L.cols, L.get 0 p = L.get 2 p := by
  have hpsd : PSD 3 (fun i j => ((i % 2 + 1 : Nat) : ℝ) * ((j % 2 + 1 : Nat) : ℝ)) := by
    refine ⟨fun i _ j _ => mul_comm _ _, fun v => ?_⟩
    have : ∑ i ∈ range 3, ∑ j ∈ range 3, v i * (((i % 2 + 1 : Nat) : ℝ) * ((j % 2 + 1 : Nat) : ℝ)) * v j = (v 0 + 2 * v 1 + v 2) * (v 0 + 2 * v 1 + v 2) := by
      simp [sum_range_succ]; ring
    rw [this]; exact mul_self_nonneg _
  obtain ⟨L, h1, _⟩ := C23_residual ⟨3, 3, fun i j => ((i % 2 + 1 : Nat) : ℝ) * ((j % 2 + 1 : Nat) : ℝ)⟩ rfl hpsd (1 / 2) (by norm_num)
  exact ⟨L, h1, fun p hp => C23_equal_rows _ hpsd (1 / 2) (by norm_num) L h1 0 2 (by norm_num) (by norm_num) (fun j _ => rfl) p hp⟩

end Chol
end HelFEM
