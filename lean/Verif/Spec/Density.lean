import Verif.Spec.Orth
import Verif.Model.Density

/-!
# Counting electrons
-/

namespace HelFEM
namespace Dens

open Matrix Orth

/-- The number of electrons `tr(P S)` in a density over `N` basis functions with overlap `S`. -/
noncomputable def electrons (N : Nat) (S P : Nat → Nat → ℝ) : ℝ := ∑ i ∈ Finset.range N, ∑ j ∈ Finset.range N, P i j * S j i

/-- The half-inverse of a block orthonormalises its functions. -/
def Block.Orthonormalises (b : Block) (S : Nat → Nat → ℝ) : Prop := b.Xᵀ * gather S b.idx * b.X = 1

/-- The block's functions belong to a basis of `N` functions. -/
def Block.Within (b : Block) (N : Nat) : Prop := ∀ i ∈ b.idx, i < N

/-- Orthonormal orbitals. -/
def Orbs.Orthonormal {n : Nat} (o : Orbs n) : Prop := o.Cᵀ * o.C = 1

/-- Sum of occupations. -/
noncomputable def Orbs.total {n : Nat} (o : Orbs n) : ℝ := ∑ i, o.occ i

/-- Eigen's self-adjoint eigensolver returns eigenvalues in ascending order. -/
def Ascending (s : Solvers) : Prop := ∀ n A v V, s.eig n A = some (v, V) → Monotone v

end Dens
end HelFEM
