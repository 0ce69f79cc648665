import Mathlib.MeasureTheory.Integral.IntervalIntegral.Basic
import Mathlib.MeasureTheory.Measure.Lebesgue.Basic
import Mathlib.Analysis.SpecialFunctions.Exp
import Mathlib.Analysis.Calculus.Deriv.Basic
import Mathlib.Analysis.SpecialFunctions.Trigonometric.Basic

/-!
# Potentials of spherical charge distributions

`q s` is the charge per unit radius at radius `s` of a distribution of unit charge. By Newton's theorem an electron at radius `r` feels the charge inside
as a point charge and the charge outside as if it sat at its own radius.
-/

namespace HelFEM
namespace Nucleus
open MeasureTheory

/-- the error function -/
noncomputable def erf (x : ℝ) : ℝ := 2 / Real.sqrt Real.pi * ∫ t in (0 : ℝ)..x, Real.exp (-t ^ 2)

/-- potential energy at radius `r` of an electron in the field of charge `Z` distributed by `q` -/
noncomputable def electrostatic (q : ℝ → ℝ) (Z r : ℝ) : ℝ := -Z * ((∫ s in (0 : ℝ)..r, q s) / r + ∫ s in Set.Ioi r, q s / s)

/-- mean square radius of the distribution `q` -/
noncomputable def meanSquare (q : ℝ → ℝ) : ℝ := ∫ s in Set.Ioi (0 : ℝ), s ^ 2 * q s

/-- the uniformly charged ball of radius `R` -/
noncomputable def ball (R s : ℝ) : ℝ := if s ≤ R then 3 * s ^ 2 / R ^ 3 else 0

/-- the Gaussian distribution with exponent `mu ^ 2` -/
noncomputable def gaussian (mu s : ℝ) : ℝ := 4 * mu ^ 3 / Real.sqrt Real.pi * s ^ 2 * Real.exp (-(mu * s) ^ 2)

/-- `psi` (`r` times the orbital) satisfies the radial Schrödinger equation for an s state of energy `E` in the potential `V`, at the point `r`:
`- psi'' / 2 + V psi = E psi`. -/
def SchrodingerAt (V psi : ℝ → ℝ) (E r : ℝ) : Prop :=
  ∃ d : ℝ → ℝ, ∃ dd : ℝ, (∀ x, HasDerivAt psi (d x) x) ∧ HasDerivAt d dd r ∧ -dd / 2 + V r * psi r = E * psi r

end Nucleus
end HelFEM
