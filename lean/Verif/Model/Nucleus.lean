import Verif.Model.Basic
import Verif.Spec.Nucleus
import Mathlib.Analysis.SpecialFunctions.Pow.Real

/-!
# Models of the nucleus

Potentials are over the real numbers; `std::erf` is the mathematical error function of the specification, `std::numeric_limits<T>::epsilon()` is a
parameter. The charge is an `int`, used as a real number.
-/

namespace HelFEM
namespace Nucleus

/-- `PointNucleusT::V`, `PointNucleus.cpp:29-31` -/
noncomputable def pointV (Z R : ℝ) : ℝ := -Z / R

/-- `HollowNucleusT::V`, `HollowNucleus.cpp:29-35` -/
noncomputable def hollowV (Z R r : ℝ) : ℝ := if R ≤ r then -Z / r else -Z / R

/-- `HollowNucleusT::breakpoints`, `HollowNucleus.h:38-41` -/
noncomputable def hollowBreaks (R a b : ℝ) : List ℝ := if a < R ∧ R < b then [R] else []

/-- the radius set by the constructor of `SphericalNucleusT`, `SphericalNucleus.cpp:23-26` -/
noncomputable def sphericalR0 (Rrms : ℝ) : ℝ := Real.sqrt (5 / 3) * Rrms

/-- `SphericalNucleusT::V`, `SphericalNucleus.cpp:31-39` -/
noncomputable def sphericalV (Z R0 r : ℝ) : ℝ := if R0 ≤ r then -Z / r else -Z / (2 * R0) * (3 - (r / R0) ^ 2)

/-- `SphericalNucleusT::breakpoints`, `SphericalNucleus.h:39-42` -/
noncomputable def sphericalBreaks (R0 a b : ℝ) : List ℝ := if a < R0 ∧ R0 < b then [R0] else []

/-- the exponent set by the constructor of `GaussianNucleusT`, `GaussianNucleus.cpp:23-26` -/
noncomputable def gaussianMu (Rrms : ℝ) : ℝ := Real.sqrt (3 / 2) / Rrms

/-- the series cutoff of `set_mu`, `GaussianNucleus.cpp:50-54` -/
noncomputable def gaussianRcut (eps mu : ℝ) : ℝ := (42 * eps) ^ ((1 : ℝ) / 6) / mu

/-- `GaussianNucleusT::V`, `GaussianNucleus.cpp:33-41` -/
noncomputable def gaussianV (eps Z mu R : ℝ) : ℝ :=
  if R ≤ gaussianRcut eps mu then
    let mur2 := (mu * R) ^ 2
    (-Z) * (2 / Real.sqrt Real.pi) * mu * (1 + (-1 / 3 + (1 / 10 - 1 / 42 * mur2) * mur2) * mur2)
  else -Z * erf (mu * R) / R

/-- `phi`, `RegularizedNucleus.cpp:30-33` -/
noncomputable def phi (a b r : ℝ) : ℝ :=
  let h := -r * erf (a * r) - b * Real.exp (-(a * r) ^ 2)
  Real.exp h / Real.sqrt Real.pi

/-- `V_analytic`, `RegularizedNucleus.cpp:172-189` -/
noncomputable def regAnalytic (a b r : ℝ) : ℝ :=
  let t1 := a * a
  let t3 := r * r
  let t5 := Real.exp (t3 * t1)
  let t6 := 1 / t5
  let t8 := erf (a * r)
  let t13 := Real.sqrt Real.pi
  let t14 := 1 / t13
  let t20 := t14 * t3
  let t21 := t1 * a
  let t28 := t1 * t1
  let t29 := t28 * t3
  let t36 := t5 * t5
  let t37 := 1 / t36
  let t38 := b * b
  let t51 := t8 * t8
  (-2) * b * t8 * t6 * t1 * r + 2 * t8 * t6 * a * t14 * r + 2 * t6 * t21 * t20 - 4 * t6 * a * t14 - 2 * b * t6 * t29 + 3 * b * t6 * t1 +
    2 * t38 * t37 * t29 - 4 * b * t37 * t21 * t20 + 2 * t37 * t1 / Real.pi * t3 + t51 / 2 - 1 / 2 - t8 / r

/-- `V_taylor`, `RegularizedNucleus.cpp:192-203` -/
noncomputable def regTaylor (a b r : ℝ) : ℝ :=
  let t1 := r * r
  let t2 := t1 * t1
  let t3 := t2 * t1
  let t6 := a * a
  let t7 := t6 * t6
  let t8 := t7 * t7
  let t13 := t7 * t6
  let t24 := Real.sqrt Real.pi
  let t25 := t24 * Real.pi
  4 / t25 * (t25 * (-1 / 8 + t8 * (b - 3 / 8) * t3 * b - t13 * b * (b - 7 / 8) * t2 + t7 * (b - 5 / 2) * b * t1 / 2 + 3 / 4 * b * t6) -
    44 / 15 * a * (t24 * (-47 / 66 * t3 * t7 * a + 10 / 11 * t2 * t6 * a - 15 / 22 * t1 * a) +
      (45 / 88 + t13 * (b - 45 / 308) * t3 - 25 / 22 * t7 * t2 * (b - 63 / 200) + 15 / 22 * t6 * (b - 5 / 6) * t1) * Real.pi))

/-- `RegularizedNucleusT::V`, `RegularizedNucleus.cpp:206-216`; `cut` is the cube root of the machine epsilon and `b` the constant found by the
constructor (`find_b`, not modelled) -/
noncomputable def regV (cut Z a b r : ℝ) : ℝ :=
  let Zr := Z * r
  let val := if Zr ≤ cut then regTaylor a b Zr else regAnalytic a b Zr
  Z ^ 2 * val

/-- `nuclear_model_t`, `model_potential.h:16-23`; the values in order -/
inductive Kind where
  | point | gaussian | spherical | hollow | regularized | nosuch
  deriving DecidableEq, Repr

/-- The objects the factory creates, with the parameters their constructors keep. -/
inductive Model where
  | point (Z : ℝ)
  | gaussian (Z mu : ℝ)
  | spherical (Z R0 : ℝ)
  | hollow (Z R : ℝ)
  | regularized (Z a : ℝ)

/-- `get_nuclear_model`, `model_potential.cpp:13-37`; output to the terminal is not modelled -/
noncomputable def getModel (k : Kind) (Z Rrms : ℝ) : Res Model :=
  match k with
  | .point => .ok (.point Z)
  | .gaussian => .ok (.gaussian Z (gaussianMu Rrms))
  | .hollow => .ok (.hollow Z Rrms)
  | .spherical => .ok (.spherical Z (sphericalR0 Rrms))
  | .regularized => .ok (.regularized Z Rrms)
  | .nosuch => .throw .logicError

/-- `V` of the created object; `findB a` is the constant the regularized nucleus computes -/
noncomputable def Model.V (eps cut : ℝ) (findB : ℝ → ℝ) (m : Model) (r : ℝ) : ℝ :=
  match m with
  | .point Z => pointV Z r
  | .gaussian Z mu => gaussianV eps Z mu r
  | .spherical Z R0 => sphericalV Z R0 r
  | .hollow Z R => hollowV Z R r
  | .regularized Z a => regV cut Z a (findB a) r

/-- `breakpoints` of the created object; the default of `ModelPotential.h:50-53` is none -/
noncomputable def Model.breaks (m : Model) (a b : ℝ) : List ℝ :=
  match m with
  | .spherical _ R0 => sphericalBreaks R0 a b
  | .hollow _ R => hollowBreaks R a b
  | _ => []

end Nucleus
end HelFEM
