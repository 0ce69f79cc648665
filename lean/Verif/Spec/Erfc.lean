import Verif.Spec.Legendre
import Verif.Spec.Nucleus

/-!
# Multipole expansion of the short-range Coulomb kernel, specification
-/

namespace HelFEM
namespace Spec

/-- the complementary error function -/
noncomputable def erfc (x : ℝ) : ℝ := 1 - Nucleus.erf x

/-- distance between two points at distances `a` and `b` from the origin, in directions enclosing an angle of cosine `x` -/
noncomputable def distance (a b x : ℝ) : ℝ := Real.sqrt (a ^ 2 + b ^ 2 - 2 * a * b * x)

/-- The coefficient of the Legendre polynomial `P_n(cos θ)` in the expansion of `erfc(r₁₂) / r₁₂` between points at distances `a` and `b`:
`(2n+1)/2 ∫ P_n(x) erfc(r₁₂(x)) / r₁₂(x) dx` over `-1 ≤ x ≤ 1`. -/
noncomputable def erfcMultipole (n : Nat) (a b : ℝ) : ℝ :=
  (2 * n + 1) / 2 * ∫ x in (-1 : ℝ)..1, (Poly.pP n).eval x * (erfc (distance a b x) / distance a b x)

end Spec
end HelFEM
