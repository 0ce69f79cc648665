import Verif.Spec.Legendre
import Mathlib.Algebra.Polynomial.Derivative
import Mathlib.Analysis.SpecialFunctions.Log.Basic
import Mathlib.Analysis.SpecialFunctions.Sqrt
import Mathlib.Analysis.Calculus.IteratedDeriv.Defs

/-!
# Associated Legendre functions, specification

`P_l^m` and `Q_l^m` for real arguments on and off the cut, from derivatives of the Legendre polynomials and of the
Legendre functions of the second kind. On the cut there is the Condon-Shortley phase `(-1)^m`, off the cut there is none.
-/

namespace HelFEM
namespace ALeg
open Polynomial

/-- `(-1)^m (1-x^2)^{m/2}` on the cut, `(x^2-1)^{m/2}` off the cut -/
noncomputable def prefactor (m : Nat) (x : ℝ) : ℝ := if |x| ≤ 1 then (-1) ^ m * Real.sqrt (1 - x ^ 2) ^ m else Real.sqrt (x ^ 2 - 1) ^ m

/-- `P_l^m(x)` -/
noncomputable def assocP (l m : Nat) (x : ℝ) : ℝ := prefactor m x * (derivative^[m] (Poly.pP l)).eval x

/-- The Legendre functions of the second kind, `Q_0 = ½ ln |(x+1)/(x-1)|`, `Q_1 = x Q_0 - 1`,
`(n+2) Q_{n+2} = (2n+3) x Q_{n+1} - (n+1) Q_n` -/
noncomputable def legQ : Nat → ℝ → ℝ
  | 0, x => 1 / 2 * Real.log |(x + 1) / (x - 1)|
  | 1, x => x * (1 / 2 * Real.log |(x + 1) / (x - 1)|) - 1
  | n + 2, x => ((2 * n + 3) * x * legQ (n + 1) x - (n + 1) * legQ n x) / (n + 2)

/-- `Q_l^m(x)` -/
noncomputable def assocQ (l m : Nat) (x : ℝ) : ℝ := prefactor m x * iteratedDeriv m (legQ l) x

/-- The caller's view of the table: the entry for `(l, m)` is at `l + m (lmax + 1)` -/
def entry (t : Nat → ℝ) (lmax l m : Nat) : ℝ := t (l + m * (lmax + 1))

end ALeg
end HelFEM
