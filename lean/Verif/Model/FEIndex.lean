import Verif.Model.Basic

/-!
# Shape function selection and function numbering

Models `libhelfem/include/{LIP,HIP,HIP2,HIP3,Legendre}Basis.h` as far as the *lists of enabled
functions* are concerned, and the index bookkeeping of
`libhelfem/src/FiniteElementBasis.cpp`.  Polynomial values are modelled elsewhere.
-/

namespace HelFEM

/-- The concrete subclasses of `PolynomialBasisT`. -/
inductive Family where
  | lip | hip | hip2 | hip3 | legendre
  deriving DecidableEq, Repr

/-- The bookkeeping members of `PolynomialBasisT`, `libhelfem/include/PolynomialBasisT.h:35-46`
(`nprim`, `enabled`, `noverlap`, `nnodes`); the `id` is modelled in `Verif.Model.Factory`. -/
structure PolyBasis where
  family : Family
  noverlap : Nat
  nprim : Nat
  nnodes : Nat
  enabled : List Nat
  deriving DecidableEq, Repr

/-- Constructors: `LIPBasis.h:40-55`, `HIPBasis.h:36-47`, `HIP2Basis.h:45-59`, `HIP3Basis.h:44-60`,
`LegendreBasis.h:47-67`.  `IVec::LinSpaced(n, 0, n-1)` is `List.range n`.  The check that the outermost
nodes sit at ±1 concerns node values and is not modelled here. -/
def PolyBasis.mk' (f : Family) (n : Nat) : PolyBasis :=
  let nov := match f with
    | .lip => 1 | .hip => 2 | .hip2 => 3 | .hip3 => 4 | .legendre => 1
  { family := f, noverlap := nov, nprim := nov * n, nnodes := n, enabled := List.range (nov * n) }

/-- `drop_first`: `LIPBasis.h:63-67`, `HIPBasis.h:55-67`, `HIP2Basis.h:81-92`, `HIP3Basis.h:77-88`,
`LegendreBasis.h:75-79`. -/
def dropFirstEnabled (f : Family) (en : List Nat) (func deriv : Bool) : Res (List Nat) :=
  let sz : Int := en.length
  match f with
  | .lip | .legendre => if func then segment en 1 (sz - 1) else .ok en
  | .hip =>
    if func && deriv then segment en 2 (sz - 2)
    else if func then segment en 1 (sz - 1)
    else if deriv then do
      let h ← readAt en 0
      let t ← segment en 2 (sz - 2)
      pure (h :: t)
    else .ok en
  | .hip2 => do
    let first ← segment en 0 3
    let rest ← segment en 3 (sz - 3)
    let a ← if !func then segment first 0 1 else .ok []
    let b ← if !deriv then segment first 1 2 else .ok []
    pure (a ++ b ++ rest)
  | .hip3 => do
    let first ← segment en 0 4
    let rest ← segment en 4 (sz - 4)
    let a ← if !func then segment first 0 1 else .ok []
    let b ← if !deriv then segment first 1 3 else .ok []
    pure (a ++ b ++ rest)

/-- `drop_last`: `LIPBasis.h:68-72`, `HIPBasis.h:69-81` (note that its last branch has no condition,
so it also runs when neither flag is set), `HIP2Basis.h:94-107`, `HIP3Basis.h:90-103`,
`LegendreBasis.h:80-84`. -/
def dropLastEnabled (f : Family) (en : List Nat) (func deriv : Bool) : Res (List Nat) :=
  let sz : Int := en.length
  match f with
  | .lip | .legendre => if func then segment en 0 (sz - 1) else .ok en
  | .hip =>
    if func && deriv then segment en 0 (sz - 2)
    else if deriv then segment en 0 (sz - 1)
    else do
      let h ← segment en 0 (sz - 2)
      let l ← readAt en (en.length - 1)
      pure (h ++ [l])
  | .hip2 => do
    let head ← segment en 0 (sz - 3)
    let last ← segment en (sz - 3) 3
    let a ← if !func then segment last 0 1 else .ok []
    let b ← if !deriv then segment last 1 2 else .ok []
    pure (head ++ a ++ b)
  | .hip3 => do
    let head ← segment en 0 (sz - 4)
    let last ← segment en (sz - 4) 4
    let a ← if !func then segment last 0 1 else .ok []
    let b ← if !deriv then segment last 1 3 else .ok []
    pure (head ++ a ++ b)

def PolyBasis.dropFirst (p : PolyBasis) (func deriv : Bool) : Res PolyBasis := do
  let en ← dropFirstEnabled p.family p.enabled func deriv
  pure { p with enabled := en }

def PolyBasis.dropLast (p : PolyBasis) (func deriv : Bool) : Res PolyBasis := do
  let en ← dropLastEnabled p.family p.enabled func deriv
  pure { p with enabled := en }

/-- The data of `FiniteElementBasisT` that determine the function numbering
(`FiniteElementBasis.cpp:36-45`); `nbval` is `bval.size()`. -/
structure FEShape where
  poly : PolyBasis
  nbval : Nat
  zeroFuncLeft : Bool
  zeroDerivLeft : Bool
  zeroFuncRight : Bool
  zeroDerivRight : Bool
  deriving DecidableEq, Repr

namespace FEShape

/-- `get_nelem`, `FiniteElementBasis.cpp:323-325`. -/
def nelem (s : FEShape) : Nat := s.nbval - 1

/-- `get_basis(iel)`, `FiniteElementBasis.cpp:305-313`.  The comparison `iel == bval.size()-2` is
unsigned: for one boundary the right side wraps to `2^64-1`, which no valid element number equals. -/
def getBasis (s : FEShape) (iel : Nat) : Res PolyBasis := do
  let p ← if iel = 0 then s.poly.dropFirst s.zeroFuncLeft s.zeroDerivLeft else .ok s.poly
  if iel + 2 = s.nbval then p.dropLast s.zeroFuncRight s.zeroDerivRight else .ok p

/-- `basis_indices(iel)`, `FiniteElementBasis.cpp:297-302`. -/
def basisIndices (s : FEShape) (iel : Nat) : Res (List Nat) := do
  let p ← s.getBasis iel
  pure p.enabled

/-- The loop of `update_bf_list`, `FiniteElementBasis.cpp:58-63`: `rem` elements still to number, the
next being `iel`; `prevLast` is `last_func_in_element(iel-1)`.  Entries are signed (`Eigen::Index`). -/
def updateLoop (s : FEShape) : (rem iel : Nat) → (prevLast : Int) → Res (List (Int × Int))
  | 0, _, _ => .ok []
  | rem + 1, iel, prevLast => do
    let f : Int := if iel = 0 then 0 else prevLast - s.poly.noverlap + 1
    let en ← s.basisIndices iel
    let l : Int := f + en.length - 1
    let rest ← updateLoop s rem (iel + 1) l
    pure ((f, l) :: rest)

/-- `update_bf_list`, `FiniteElementBasis.cpp:52-64`. The result lists
`(first_func_in_element(i), last_func_in_element(i))`. -/
def updateBfList (s : FEShape) : Res (List (Int × Int)) :=
  if s.nbval = 0 then .throw .logicError
  else updateLoop s s.nelem 0 0

/-- `get_idx(iel)`, `FiniteElementBasis.cpp:158-161`: reads the two lists and converts to `size_t`; a
negative entry would wrap around to a huge index. -/
def getIdx (tab : List (Int × Int)) (iel : Nat) : Res (Nat × Nat) := do
  let (f, l) ← readAt tab iel
  if 0 ≤ f ∧ 0 ≤ l then .ok (f.toNat, l.toNat) else .ub

/-- `get_nbf`, `FiniteElementBasis.cpp:316-320`. -/
def getNbf (tab : List (Int × Int)) : Res Nat :=
  match tab.getLast? with
  | none => .throw .logicError
  | some (_, l) => if 0 ≤ l + 1 then .ok (l + 1).toNat else .ub

end FEShape
end HelFEM
