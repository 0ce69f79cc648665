import Mathlib.Algebra.BigOperators.Intervals

/-!
# Orbitals as linear combinations

Orbital `j` of a set with coefficients `C` is `Σ_p C_pj φ_p`; matrices and integrals of orbitals follow by linearity.
-/

namespace HelFEM
namespace Spec
open Finset
variable {K : Type _} [AddCommMonoid K] [Mul K]

/-- Matrix element between orbitals `i` and `j`. -/
def orbMat (N : Nat) (C M : Nat → Nat → K) (i j : Nat) : K := ∑ p ∈ range N, ∑ q ∈ range N, C p i * M p q * C q j

/-- `R(a_i a_j, b_m b_n)` for orbital sets with the given coefficients over primitives with integrals `four`. -/
def orbFour (N : Nat) (four : Nat → Nat → Nat → Nat → K) (c1 c2 c3 c4 : Nat → Nat → K) (i j m n : Nat) : K :=
  ∑ p ∈ range N, ∑ q ∈ range N, ∑ r ∈ range N, ∑ s ∈ range N, c1 p i * c2 q j * c3 r m * c4 s n * four p q r s

end Spec
end HelFEM
