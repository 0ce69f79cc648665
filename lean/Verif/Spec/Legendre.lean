import Mathlib.Algebra.Polynomial.Eval.Degree
import Mathlib.Data.Real.Basic

/-!
# Legendre polynomials, specification
-/

namespace HelFEM
namespace Poly
open Polynomial

/-- The Legendre polynomials: `P_0 = 1`, `P_1 = X`, `(n+2) P_{n+2} = (2n+3) X P_{n+1} - (n+1) P_n`. -/
noncomputable def pP : Nat → ℝ[X]
  | 0 => 1
  | 1 => X
  | n + 2 => C (1 / ((n + 1 + 1 : Nat) : ℝ)) * (C ((2 * (n + 1 : Nat) + 1 : Nat) : ℝ) * (X * pP (n + 1))
      - C ((n + 1 : Nat) : ℝ) * pP n)

end Poly
end HelFEM
