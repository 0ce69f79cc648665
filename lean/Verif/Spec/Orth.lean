import Verif.Model.Orth
import Mathlib.LinearAlgebra.Matrix.PosDef

/-!
# What the external decompositions guarantee
-/

namespace HelFEM
namespace Orth

open Matrix

/-- A successful `LLT` of `A` returns `L` with `L Lᵀ = A`; a successful self-adjoint eigendecomposition of a symmetric `A` returns orthonormal `V` with
`A = V diag(v) Vᵀ`. -/
structure Solvers.Sound (s : Solvers) : Prop where
  llt : ∀ n A L, s.llt n A = some L → L * Lᵀ = A
  eig : ∀ n A v V, Aᵀ = A → s.eig n A = some (v, V) → Vᵀ * V = 1 ∧ A = V * diagonal v * Vᵀ

/-- Positive definite matrices are decomposed successfully, symmetric ones diagonalised successfully. -/
structure Solvers.Total (s : Solvers) : Prop where
  llt : ∀ n A, A.PosDef → ∃ L, s.llt n A = some L
  eig : ∀ n A, Aᵀ = A → ∃ p, s.eig n A = some p

end Orth
end HelFEM
