import Verif.Model.Harmonics
import Mathlib.MeasureTheory.Integral.IntervalIntegral.Basic

/-!
# Integrals over the unit sphere

The coordinates are the cosine of the polar angle and the azimuth. `gaunt` is the integral of three spherical harmonics.
-/

namespace HelFEM
namespace Harm
namespace Spec

/-- `∫ F dΩ` -/
noncomputable def sphere (F : ℝ → ℝ → ℂ) : ℂ := ∫ c in (-1 : ℝ)..1, ∫ φ in (0 : ℝ)..2 * Real.pi, F c φ

/-- `∫ Y_{l1}^{m1} Y_{l2}^{m2} Y_{l3}^{m3} dΩ`, a real number (`C69_gaunt_real`) -/
noncomputable def gaunt (l1 : Nat) (m1 : Int) (l2 : Nat) (m2 : Int) (l3 : Nat) (m3 : Int) : ℝ :=
  (sphere fun c φ => sph l1 m1 c φ * sph l2 m2 c φ * sph l3 m3 c φ).re

end Spec
end Harm
end HelFEM
