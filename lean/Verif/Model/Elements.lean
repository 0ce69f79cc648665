import Verif.Model.FEIndex
import Mathlib.Algebra.Order.Field.Basic
import Mathlib.Data.List.Sort

/-!
# Element grids, point location, coordinate maps and boundary insertion

Models `libhelfem/src/FiniteElementBasis.cpp:163-284` and `323-325`.  Coordinates live in an arbitrary type for
the point location (so that NaN can be an instance) and in an ordered field for the coordinate maps
(no rounding).
-/

namespace HelFEM
namespace Grid

/-- `get_nelem`, `FiniteElementBasis.cpp:323-325`: `bval.size()-1` converted to `size_t`; for a
default-constructed basis (empty `bval`) the subtraction wraps. -/
def nelem {α : Type _} (b : List α) : Nat := if b.length = 0 then 2 ^ 64 - 1 else b.length - 1

/-- `element_begin`, `FiniteElementBasis.cpp:199-206`. -/
def elementBegin {α : Type _} (b : List α) (iel : Nat) : Res α :=
  if iel ≥ nelem b then .throw .logicError else readAt b iel

/-- `element_end`, `FiniteElementBasis.cpp:209-216`. -/
def elementEnd {α : Type _} (b : List α) (iel : Nat) : Res α :=
  if iel ≥ nelem b then .throw .logicError else readAt b (iel + 1)

/-- The floating point comparisons `<=` and `<` of the scalar type. -/
structure Cmp (α : Type _) where
  le : α → α → Bool
  lt : α → α → Bool

/-- Comparisons of a totally ordered scalar. -/
def Cmp.ofLinear (α : Type _) [LinearOrder α] : Cmp α := ⟨fun a b => decide (a ≤ b), fun a b => decide (a < b)⟩

/-- Scalars with a NaN (`none`): every comparison with NaN is false. -/
def Cmp.withNaN (α : Type _) [LinearOrder α] : Cmp (Option α) where
  le := fun a b => match a, b with | some a, some b => decide (a ≤ b) | _, _ => false
  lt := fun a b => match a, b with | some a, some b => decide (a < b) | _, _ => false

/-- The `while(true)` loop of `find_element`, `FiniteElementBasis.cpp:234-243`, run for at most
`fuel` iterations; `ok none` means that the loop has not returned yet. -/
def findLoop {α : Type _} (c : Cmp α) (b : List α) (x : α) : (fuel l r : Nat) → Res (Option Nat)
  | 0, _, _ => .ok none
  | fuel + 1, l, r => do
    let mid := (r + l) / 2
    let bg ← elementBegin b mid
    let en ← elementEnd b mid
    if c.le bg x && c.le x en then .ok (some mid)
    else if c.lt x bg then findLoop c b x fuel l mid
    else findLoop c b x fuel mid r

/-- `find_element`, `FiniteElementBasis.cpp:224-244`. `get_nelem()-1` wraps for an empty grid. -/
def findElement {α : Type _} (c : Cmp α) (b : List α) (fuel : Nat) (x : α) : Res (Option Nat) := do
  let left := 0
  let right := if nelem b = 0 then 2 ^ 64 - 1 else nelem b - 1
  let e0 ← elementEnd b left
  if c.le x e0 then .ok (some left)
  else do
    let bl ← elementBegin b right
    if c.le bl x then .ok (some right)
    else findLoop c b x fuel left right

section field
variable {K : Type _} [Field K] [LinearOrder K]

/-- `element_length`, `FiniteElementBasis.cpp:189-196`. -/
def elementLength (b : List K) (iel : Nat) : Res K :=
  if iel ≥ nelem b then .throw .logicError
  else do
    let e ← readAt b (iel + 1)
    let s ← readAt b iel
    pure (e - s)

/-- `scaling_factor`, `FiniteElementBasis.cpp:183-186`. -/
def scalingFactor (b : List K) (iel : Nat) : Res K := do
  let l ← elementLength b iel
  pure (l / 2)

/-- `element_midpoint`, `FiniteElementBasis.cpp:219-221`. -/
def elementMidpoint (b : List K) (iel : Nat) : Res K := do
  let s ← elementBegin b iel
  let e ← elementEnd b iel
  pure ((1 / 2) * (s + e))

/-- `eval_coord(x, iel)`, `FiniteElementBasis.cpp:253-260`. -/
def evalCoord (b : List K) (x : List K) (iel : Nat) : Res (List K) := do
  let m ← elementMidpoint b iel
  let s ← scalingFactor b iel
  pure (x.map fun t => m + s * t)

/-- `eval_prim(y, iel)`, `FiniteElementBasis.cpp:279-284`.  `minCoeff` of an empty vector is undefined. -/
def evalPrim (b : List K) (y : List K) (iel : Nat) : Res (List K) := do
  let s ← elementBegin b iel
  let e ← elementEnd b iel
  if y = [] then .ub
  else if y.any (fun t => decide (t < s)) || y.any (fun t => decide (t > e)) then .throw .logicError
  else do
    let m ← elementMidpoint b iel
    let f ← scalingFactor b iel
    pure (y.map fun t => (t - m) / f)

/-- Concatenation over elements `iel, iel+1, …` (`rem` of them): the loops of the whole-grid
`eval_coord` and `eval_weights`. -/
def concatElements (g : Nat → Res (List K)) : (rem iel : Nat) → Res (List K)
  | 0, _ => .ok []
  | rem + 1, iel => do
    let a ← g iel
    let r ← concatElements g rem (iel + 1)
    pure (a ++ r)

/-- `eval_coord(x)` on all elements, `FiniteElementBasis.cpp:263-268`. -/
def evalCoordAll (b : List K) (x : List K) : Res (List K) :=
  concatElements (fun iel => evalCoord b x iel) (nelem b) 0

/-- `eval_weights(w)`, `FiniteElementBasis.cpp:271-276`. -/
def evalWeights (b : List K) (w : List K) : Res (List K) :=
  concatElements (fun iel => do let f ← scalingFactor b iel; pure (w.map (· * f))) (nelem b) 0

end field

/-- `std::sort` on a vector of totally ordered scalars.  Any sorting algorithm gives the same vector; merge
sort is used. -/
def stdSort {K : Type _} [LinearOrder K] (l : List K) : List K := l.mergeSort (fun a b => decide (a ≤ b))

/-- A finite element basis object: polynomial family and flags, boundaries, function table. -/
structure FEObj (K : Type _) where
  shape : FEShape
  bval : List K
  tab : List (Int × Int)

/-- The constructor, `FiniteElementBasis.cpp:36-45`, without the continuity check. -/
def construct {K : Type _} (poly : PolyBasis) (bval : List K) (zfl zdl zfr zdr : Bool) : Res (FEObj K) := do
  let shape : FEShape := ⟨poly, bval.length, zfl, zdl, zfr, zdr⟩
  let tab ← shape.updateBfList
  pure ⟨shape, bval, tab⟩

/-- `add_boundary(r)`, `FiniteElementBasis.cpp:164-177`. -/
def addBoundary {K : Type _} [LinearOrder K] (o : FEObj K) (r : K) : Res (FEObj K) :=
  if r ∈ o.bval then .ok o
  else do
    let nb := stdSort (o.bval ++ [r])
    let shape := { o.shape with nbval := nb.length }
    let tab ← shape.updateBfList
    pure ⟨shape, nb, tab⟩

/-- Any sequence of `add_boundary` calls. -/
def addBoundaries {K : Type _} [LinearOrder K] (o : FEObj K) : List K → Res (FEObj K)
  | [] => .ok o
  | r :: rs => do
    let o' ← addBoundary o r
    addBoundaries o' rs

end Grid
end HelFEM
