import Verif.Spec.XC
import Verif.Model.GridXC

/-!
# The points of the atomic and diatomic grids

Polar coordinates `(r, θ, φ)` have the line element `dr² + r² dθ² + r² sin²θ dφ²` and the volume element `r² dr dcosθ dφ`; prolate spheroidal coordinates `(μ, ν, φ)` with half distance `R`
between the foci have `R² (sinh²μ + sin²ν) (dμ² + dν²) + R² sinh²μ sin²ν dφ²` and `R³ sinhμ (sinh²μ + sin²ν) dμ dcosν dφ`.
-/

namespace HelFEM
namespace XC
namespace Spec

/-- sine of an angle in `[0, π]` from its cosine -/
noncomputable def sine (c : ℝ) : ℝ := √(1 - c * c)

/-- the functions of an element at one angle and radius, with their gradients in the orthonormal polar frame -/
noncomputable def atomPoint (e : AtomElem) (ia : Fin e.nang) (ir : Fin e.nrad) : Point 3 where
  idx := e.idx
  w := e.wang ia * e.wrad ir * e.r ir ^ 2
  f := fun a => e.bf ia ir a
  g := ![fun a => e.df ia 0 ir a, fun a => ((e.r ir)⁻¹ : ℝ) * e.df ia 1 ir a, fun a => ((e.r ir * sine (e.cth ia))⁻¹ : ℝ) * e.df ia 2 ir a]
  l := fun a => e.lf ia ir a

/-- all points of an element -/
noncomputable def atomPoints (e : AtomElem) : List (Point 3) := (List.finRange e.nang).flatMap fun ia => (List.finRange e.nrad).map fun ir => atomPoint e ia ir

/-- the functions at one radius and angle, with their gradients in the orthonormal prolate spheroidal frame -/
noncomputable def diaPoint (e : DiaPoint) (ia : Fin e.nang) : Point 3 where
  idx := e.idx
  w := e.wang ia * e.wrad * e.Rhalf ^ 3 * Real.sinh e.mu * (Real.sinh e.mu ^ 2 + sine (e.cth ia) ^ 2)
  f := fun a => e.bf ia 0 a
  g := ![fun a => ((e.Rhalf * √(Real.sinh e.mu ^ 2 + sine (e.cth ia) ^ 2))⁻¹ : ℝ) * e.df ia 0 0 a,
    fun a => ((e.Rhalf * √(Real.sinh e.mu ^ 2 + sine (e.cth ia) ^ 2))⁻¹ : ℝ) * e.df ia 1 0 a,
    fun a => ((e.Rhalf * Real.sinh e.mu * sine (e.cth ia))⁻¹ : ℝ) * e.df ia 2 0 a]
  l := fun _ => 0

/-- all angles of a radial point -/
noncomputable def diaPoints (e : DiaPoint) : List (Point 3) := (List.finRange e.nang).map fun ia => diaPoint e ia

end Spec
end XC
end HelFEM
