import Mathlib.Analysis.InnerProductSpace.Basic

/-!
# What a completeness profile should say

In a real inner product space: squared length of the part of a vector within a subspace.
-/

namespace HelFEM
namespace ComplSpec
open scoped RealInnerProductSpace

variable {H : Type*} [NormedAddCommGroup H] [InnerProductSpace ℝ H]

/-- `v` is the squared length of the orthogonal projection of `x` on `W` -/
def SqProj (W : Submodule ℝ H) (x : H) (v : ℝ) : Prop := ∃ p ∈ W, (∀ w ∈ W, ⟪x - p, w⟫ = 0) ∧ v = ‖p‖ ^ 2

/-- `p` is the orthogonal projection of `x` on `W` -/
def IsProj (W : Submodule ℝ H) (x p : H) : Prop := p ∈ W ∧ ∀ w ∈ W, ⟪x - p, w⟫ = 0

/-- Sum over orbitals of their squared projections -/
def SumProj {ι : Type*} [Fintype ι] (W : Submodule ℝ H) (c : ι → H) (v : ℝ) : Prop :=
  ∃ f : ι → ℝ, (∀ i, SqProj W (c i) (f i)) ∧ v = ∑ i, f i

/-- The vectors with the given columns of coefficients -/
def comb {n k : ℕ} (φ : Fin n → H) (X : Fin n → Fin k → ℝ) (j : Fin k) : H := ∑ i, X i j • φ i

/-- `val`, `vec` are eigenvalues and orthonormal eigenvectors (columns) of the matrix `S` -/
def EigOf {d : ℕ} (S vec : Fin d → Fin d → ℝ) (val : Fin d → ℝ) : Prop :=
  (∀ i j, ∑ a, vec a i * vec a j = if i = j then 1 else 0) ∧ (∀ a j, ∑ b, S a b * vec b j = vec a j * val j)

end ComplSpec
end HelFEM
