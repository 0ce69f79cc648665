import Verif.Model.OneElectron

/-!
# Confinement potentials, and the one-electron matrices of the spherically averaged atom

Models `libhelfem/src/RadialBasis.cpp:499-601`, `src/atomic/TwoDBasis.cpp:457-475` and `src/sadatom/basis.cpp:67-131`, over the real numbers. Breakpoints of the
quadrature and messages are left out. Powers and quotients at single points where the C++ value is infinite do not enter the exact integrals.
-/

namespace HelFEM
namespace OneE

/-- `polynomial_confinement`, `RadialBasis.cpp:499-510` -/
noncomputable def Radial.polynomialConf (R : Radial) (N : Int) (shift : ℝ) (e : Nat) : Mat ℝ :=
  R.elem .R0 .R0 (fun r => if r < shift then 0 else (r - shift) ^ (N + 2)) e

/-- the loop of `exponential_confinement`, `RadialBasis.cpp:519-526`: iteration `k` on `(V, fact, r_ratio_pow_k)` -/
noncomputable def expStep (x : ℝ) (s : ℝ × ℝ × ℝ) (k : Nat) : ℝ × ℝ × ℝ := (s.1 - s.2.2 / s.2.1, s.2.1 * (k + 1), s.2.2 * x)

/-- the weight of `exponential_confinement`, `RadialBasis.cpp:516-530` -/
noncomputable def expWeight (N : Nat) (r0 shift r : ℝ) : ℝ :=
  if r < shift then 0
  else
    let x := (r - shift) / r0
    let s := (List.range N).foldl (expStep x) (0, 1, 1)
    (s.1 + Real.exp x) * s.2.1

/-- `exponential_confinement`, `RadialBasis.cpp:512-532`; called with `N > 0` -/
noncomputable def Radial.exponentialConf (R : Radial) (N : Int) (r0 shift : ℝ) (e : Nat) : Mat ℝ := R.elem .B0 .B0 (expWeight N.toNat r0 shift) e

/-- `barrier_confinement`, `RadialBasis.cpp:534-542` -/
noncomputable def Radial.barrierConf (R : Radial) (V shift : ℝ) (e : Nat) : Mat ℝ := R.elem .B0 .B0 (fun r => if r < shift then 0 else V) e

/-- `junq_confinement`, `RadialBasis.cpp:544-555` -/
noncomputable def Radial.junqConf (R : Radial) (N : Int) (V0 rc shift : ℝ) (e : Nat) : Mat ℝ :=
  R.elem .B0 .B0 (fun r => if r < shift then 0 else V0 * Real.exp (-(rc - shift) / (r - shift)) / (rc - r) ^ N) e

/-- `get_bval().maxCoeff()` -/
noncomputable def Radial.outer (R : Radial) : ℝ := (List.range R.nel).foldl (fun x e => max x (R.bnd (e + 1))) (R.bnd 0)

/-- `confinement_potential`, `RadialBasis.cpp:557-601` -/
noncomputable def Radial.confinement (R : Radial) (N : Int) (r0 : ℝ) (iconf : Int) (V shift : ℝ) (e : Nat) : Res (Mat ℝ) :=
  let sign : ℝ := if r0 < 0 then -1 else 1
  let r0 := |r0|
  if iconf = 1 then
    if N < 0 then
      if shift ≠ 0 then .throw .logicError else .ok ((R.polynomialConf N shift e).smul (sign * r0 ^ N))
    else .ok ((R.polynomialConf N shift e).smul (sign * r0 ^ (-N)))
  else if iconf = 2 then
    if N < 0 then .throw .logicError
    else if N = 0 then .throw .logicError
    else .ok (R.exponentialConf N r0 shift e)
  else if iconf = 3 then
    if V < 0 then .throw .logicError else .ok (R.barrierConf V shift e)
  else if iconf = 4 then
    if N ≤ 0 then .throw .logicError
    else if V ≤ 0 then .throw .logicError
    else .ok (R.junqConf N V R.outer shift e)
  else .throw .logicError

/-- `TwoDBasisT::confinement`, `TwoDBasis.cpp:457-475` -/
noncomputable def Atom.confinement (A : Atom) (N : Int) (r0 : ℝ) (iconf : Int) (V shift : ℝ) : Res (Mat ℝ) :=
  if iconf = 0 then .ok (Mat.zero A.ndummy A.ndummy)
  else A.rad.assemble (A.rad.confinement N r0 iconf V shift) >>= fun O => A.diagonal O

/-! `sadatom::basis::TwoDBasis`; its radial basis is an `FEMRadialBasis` as well -/

/-- `overlap()`, `sadatom/basis.cpp:71-74` -/
noncomputable def Radial.sadOverlap (R : Radial) : Res (Mat ℝ) := R.assemble fun e => .ok (R.radialIntegral 0 e)

/-- `kinetic()`, `sadatom/basis.cpp:76-79` -/
noncomputable def Radial.sadKinetic (R : Radial) : Res (Mat ℝ) := R.assemble fun e => .ok (R.kinetic e)

/-- `kinetic_l()`, `sadatom/basis.cpp:81-84` -/
noncomputable def Radial.sadKineticL (R : Radial) : Res (Mat ℝ) := R.assemble fun e => .ok (R.kineticL e)

/-- `model_potential(pot)`, `sadatom/basis.cpp:128-131` -/
noncomputable def Radial.sadModel (R : Radial) (V : ℝ → ℝ) : Res (Mat ℝ) := R.assemble fun e => .ok (R.modelPotential V e)

/-- `nuclear()`, `sadatom/basis.cpp:86-95`; `finite` is the potential of a finite nucleus, `none` is `POINT_NUCLEUS` -/
noncomputable def Radial.sadNuclear (R : Radial) (Z : Int) (finite : Option (ℝ → ℝ)) : Res (Mat ℝ) :=
  match finite with
  | some V => R.sadModel V
  | none => (R.assemble fun e => .ok (R.radialIntegral (-1) e)) >>= fun M => .ok (M.smul (-(Z : ℝ)))

/-- `confinement`, `sadatom/basis.cpp:97-107` -/
noncomputable def Radial.sadConfinement (R : Radial) (N : Int) (r0 : ℝ) (iconf : Int) (V shift : ℝ) : Res (Mat ℝ) :=
  if iconf = 0 then .ok (Mat.zero R.nbf R.nbf) else R.assemble (R.confinement N r0 iconf V shift)

/-- `Rmatrices()`, `sadatom/basis.cpp:117-126`: pairs of a power and its matrix -/
noncomputable def Radial.sadRmatrices (R : Radial) : Res (List (Int × Mat ℝ)) :=
  ([-2, -1, 1, 2, 3] : List Int).mapM fun n => (R.assemble fun e => .ok (R.radialIntegral n e)) >>= fun M => .ok (n, M)

end OneE
end HelFEM
