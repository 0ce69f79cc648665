import Verif.Model.TwoElectron
import Mathlib.Order.Defs.LinearOrder

/-!
# Numerical atomic orbitals over a radial basis

Models `libhelfemqc/include/NAORadialBasis.h` and `extract_naos_per_l` of `src/sadatom/basis.cpp`.  A `std::shared_ptr` is a number standing for the
address together with the object it points to; two pointers are equal exactly when the numbers are.
-/

namespace HelFEM
namespace NAO
variable {K : Type _} [CommRing K] [LinearOrder K]

/-- Which kernel the two-electron routines use: bare, or Yukawa with `lambda` (`CoulombExchangeFE.h:143-164`). -/
inductive Kernel (K : Type _) where
  | bare
  | yukawa (lam : K)

/-- What the two-electron routines use of a `FEMRadialBasis`: the numbering and the per-element integrals
(`radial_integral`/`bessel_il_integral`, `radial_integral(-L-1)`/`bessel_kl_integral`, `twoe_integral`/`yukawa_integral`),
`CoulombExchangeFE.h:143-164`. -/
structure Fem (K : Type _) where
  R : TwoE.Radial
  rSmall : Kernel K → Int → Nat → Res (Mat K)
  rBig : Kernel K → Int → Nat → Res (Mat K)
  tei : Kernel K → Int → Nat → Res (Mat K)

/-- A `RadialBasis` object. `locate r` is the element containing `r` as its first function and the values of its functions at `r`, or `none` beyond the
last element (`RadialBasis.cpp:847-858`); `fem` is the result of `dynamic_cast<const FEMRadialBasis *>`. -/
structure RadialObj (K : Type _) where
  nbf : Nat
  overlap : Res (Mat K)
  kinetic : Res (Mat K)
  kineticL : Res (Mat K)
  nuclear : Res (Mat K)
  locate : K → Option (Nat × Vect K)
  fem : Option (Fem K)

/-- `FEMRadialBasisT::eval_orbs`, `RadialBasis.cpp:846-866`. -/
def RadialObj.evalOrbs (b : RadialObj K) (C : Mat K) (r : K) : Res (Vect K) :=
  match b.locate r with
  | none => .ok ⟨C.cols, fun _ => 0⟩
  | some (ifirst, val) => do
    let Csub ← C.block ifirst 0 val.size C.cols
    let row ← Mat.mul ⟨1, val.size, fun _ a => val.get a⟩ Csub
    pure ⟨row.cols, fun j => row.get 0 j⟩

/-- `class NAORadialBasis`: the members `underlying_` (address and object) and `C_`, `NAORadialBasis.h:62-67`. -/
structure Nao (K : Type _) where
  ptr : Nat
  obj : RadialObj K
  C : Mat K

/-- The constructor, `NAORadialBasis.h:72-86`; `none` is the null pointer. -/
def Nao.make (underlying : Option (Nat × RadialObj K)) (C : Mat K) : Res (Nao K) :=
  match underlying with
  | none => .throw .logicError
  | some (ptr, obj) =>
    if C.rows ≠ obj.nbf then .throw .logicError
    else if C.cols = 0 then .throw .logicError
    else .ok ⟨ptr, obj, C⟩

/-- `from_owned_radial`, `NAORadialBasis.h:95-99`: the copy lives at a new address `fresh`. -/
def Nao.fromOwned (fresh : Nat) (obj : RadialObj K) (C : Mat K) : Res (Nao K) := Nao.make (some (fresh, obj)) C

/-- `Nbf()`, `NAORadialBasis.h:106`. -/
def Nao.nbf (a : Nao K) : Nat := a.C.cols

/-- `C_.transpose() * M * C_`. -/
def sandwich (C M : Mat K) : Res (Mat K) := do
  let t ← C.transpose.mul M
  t.mul C

/-- `overlap`, `NAORadialBasis.h:109-111`. -/
def Nao.overlap (a : Nao K) : Res (Mat K) := do sandwich a.C (← a.obj.overlap)
/-- `kinetic`, `NAORadialBasis.h:114-116`. -/
def Nao.kinetic (a : Nao K) : Res (Mat K) := do sandwich a.C (← a.obj.kinetic)
/-- `kinetic_l`, `NAORadialBasis.h:119-121`. -/
def Nao.kineticL (a : Nao K) : Res (Mat K) := do sandwich a.C (← a.obj.kineticL)
/-- `nuclear`, `NAORadialBasis.h:124-126`. -/
def Nao.nuclear (a : Nao K) : Res (Mat K) := do sandwich a.C (← a.obj.nuclear)

/-- `eval_orbs`, `NAORadialBasis.h:131-140`. -/
def Nao.evalOrbs (a : Nao K) (Corb : Mat K) (r : K) : Res (Vect K) :=
  if Corb.rows ≠ a.nbf then .throw .logicError
  else do
    let P ← a.C.mul Corb
    a.obj.evalOrbs P r

/-- `underlying_fem_`, `NAORadialBasis.h:276-284`. -/
def Nao.underlyingFem (a : Nao K) : Res (Fem K) :=
  match a.obj.fem with
  | none => .throw .logicError
  | some f => .ok f

/-- `require_shared_fe_`, `NAORadialBasis.h:248-257`. -/
def Nao.requireShared (a other : Nao K) : Res Unit :=
  if a.ptr ≠ other.ptr then .throw .logicError
  else do
    let _ ← a.underlyingFem
    pure ()

/-- `require_density_shape_`, `NAORadialBasis.h:259-270`. -/
def requireShape (other : Nao K) (D : Mat K) : Res Unit :=
  if D.rows ≠ other.nbf ∨ D.cols ≠ other.nbf then .throw .logicError else .ok ()

/-- The test `lambda <= 0.0` of the Yukawa variants, `NAORadialBasis.h:220, 236`. -/
def checkKernel : Kernel K → Res Unit
  | .bare => .ok ()
  | .yukawa lam => if lam ≤ 0 then .throw .logicError else .ok ()

/-- `P_FE = C_b D C_bᵀ`, `NAORadialBasis.h:193, 206`. -/
def promote (C D : Mat K) : Res (Mat K) := do
  let t ← C.mul D
  t.mul C.transpose

/-- `coulomb_radial` and `coulomb_radial_yukawa`, `NAORadialBasis.h:188-196, 215-227`; the assembly is
`assemble_J_FE_one_multipole(_yukawa)`, `CoulombExchangeFE.h:536-561, 592-616` (the scratch vectors only avoid recomputation). -/
def Nao.coulombRadial (a : Nao K) (ker : Kernel K) (k : Int) (other : Nao K) (D : Mat K) : Res (Mat K) := do
  a.requireShared other
  requireShape other D
  checkKernel ker
  let f ← a.underlyingFem
  let P ← promote other.C D
  let J ← TwoE.assembleJ f.R (f.rSmall ker k) (f.rBig ker k) (TwoE.denseJ (f.tei ker k)) P
  sandwich a.C J

/-- `exchange_radial` and `exchange_radial_yukawa`, `NAORadialBasis.h:201-209, 230-242`. -/
def Nao.exchangeRadial (a : Nao K) (ker : Kernel K) (k : Int) (other : Nao K) (D : Mat K) : Res (Mat K) := do
  a.requireShared other
  requireShape other D
  checkKernel ker
  let f ← a.underlyingFem
  let P ← promote other.C D
  let M ← TwoE.assembleK f.R (TwoE.cachedBlk (f.rSmall ker k) (f.rBig ker k) (TwoE.denseK (TwoE.kteiOf f.R (f.tei ker k)))) P
  sandwich a.C M

/-- `Cl.leftCols(keep)` for `0 < keep ≤ Cl.cols()`, all of `Cl` for negative `keep`, `basis.cpp:1207-1208`. -/
def keepCols (Cl : Mat K) (keep : Int) : Mat K := if keep < 0 then Cl else ⟨Cl.rows, keep.toNat, Cl.get⟩

/-- The loop over `l` of `extract_naos_per_l`, `basis.cpp:1196-1212`; each `from_owned_radial` allocates a new copy. -/
def extractLoop (obj : RadialObj K) : (l fresh : Nat) → List (Mat K × Int) → Res (List (Nat × Nao K))
  | _, _, [] => .ok []
  | l, fresh, (Cl, keep) :: rest =>
    if keep = 0 then extractLoop obj (l + 1) fresh rest
    else if (Cl.cols : Int) < keep then .throw .logicError
    else do
      let a ← Nao.fromOwned fresh obj (keepCols Cl keep)
      let out ← extractLoop obj (l + 1) (fresh + 1) rest
      pure ((l, a) :: out)

/-- `extract_naos_per_l`, `src/sadatom/basis.cpp:1183-1214`. -/
def extractNaos (obj : RadialObj K) (fresh : Nat) (Ccube : List (Mat K)) (keep : List Int) : Res (List (Nat × Nao K)) :=
  if keep.length ≠ Ccube.length then .throw .logicError
  else extractLoop obj 0 fresh (Ccube.zip keep)

end NAO
end HelFEM
