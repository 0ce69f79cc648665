import Mathlib.MeasureTheory.Integral.Bochner.Set
import Mathlib.MeasureTheory.Measure.Lebesgue.Basic
import Mathlib.Algebra.BigOperators.Fin
import Mathlib.Data.Real.Basic

/-!
# Norms of radial functions

The norm integral of a radial function times a normalised spherical harmonic, and the same as a sum over the points of a quadrature.
-/

namespace HelFEM
namespace Spec

/-- `∫ R(r)² r² dr` -/
noncomputable def radialNorm (R : ℝ → ℝ) : ℝ := ∫ r in Set.Ioi (0 : ℝ), r ^ 2 * R r ^ 2

/-- `∑ w r² F` over the points of a quadrature -/
noncomputable def quad {ι : Type} [Fintype ι] (w r F : ι → ℝ) : ℝ := ∑ p, w p * r p ^ 2 * F p

end Spec
end HelFEM
