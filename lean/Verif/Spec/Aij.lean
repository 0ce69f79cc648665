import Verif.Spec.Nucleus
import Verif.Spec.RadialGrid

/-!
# A shell of constant charge density

`rs` is the Wigner-Seitz radius: one unit of charge per sphere of radius `rs`, the density `3 / (4π rs³)`.
-/

namespace HelFEM
namespace Aij
namespace Spec

open MeasureTheory

/-- charge per unit radius of the background that fills the shell between the radii `a` and `b` with the density `3 / (4π rs³)` -/
noncomputable def shell (rs a b s : ℝ) : ℝ := if a < s ∧ s ≤ b then 4 * Real.pi * s ^ 2 * (3 / (4 * Real.pi * rs ^ 3)) else 0

/-- total charge -/
noncomputable def charge (q : ℝ → ℝ) : ℝ := ∫ s in Set.Ioi (0 : ℝ), q s

/-- the potential at the centre: the sum of charges over their distances -/
noncomputable def atCentre (q : ℝ → ℝ) : ℝ := ∫ s in Set.Ioi (0 : ℝ), q s / s

/-- the energy of the charge in its own field, every pair of charges once. A unit charge at `s` has the energy of minus that of an electron. -/
noncomputable def selfEnergy (q : ℝ → ℝ) : ℝ := 1 / 2 * ∫ s in Set.Ioi (0 : ℝ), q s * -Nucleus.electrostatic q 1 s

/-- no element is longer than `d` -/
def Resolves (d : ℝ) (b : List ℝ) : Prop := ∀ i x y, b[i]? = some x → b[i + 1]? = some y → y - x ≤ d

end Spec
end Aij
end HelFEM
