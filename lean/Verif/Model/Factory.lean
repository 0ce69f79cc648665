import Verif.Model.FEIndex
import Verif.Model.Elements
import Verif.Model.Legendre
import Mathlib.Analysis.SpecialFunctions.Trigonometric.Basic

/-!
# The polynomial basis factory

Models `libhelfem/src/PolynomialBasis.cpp` and the constructors it calls.  The Gauss-Lobatto node list is a parameter
(it is modelled in `Verif.Model.Lobatto`).
-/

namespace HelFEM
namespace Factory

open Grid

/-- The object returned by the factory: `get_id()`, the index bookkeeping and the nodes (empty for the Legendre basis, which has none). -/
structure Built where
  id : Int
  basis : PolyBasis
  nodes : List ℝ

/-- Square root of the machine epsilon of `double`, `2^-26`. -/
noncomputable def sqrteps : ℝ := 1 / 2 ^ 26

/-- `LIPBasisT(x, id)`, `LIPBasis.h:40-55`, and the derived constructors `HIPBasis.h:36-47`, `HIP2Basis.h:45-59`,
`HIP3Basis.h:44-60`, which call it first and then set overlap, primitive count and node count. -/
noncomputable def interpCtor (f : Family) (x : List ℝ) (id : Int) : Res Built := do
  let x0 := stdSort x
  let a ← readAt x0 0
  if sqrteps ≤ |a + 1| then Res.throw .logicError
  else do
    let b ← readAt x0 (x0.length - 1)
    if sqrteps ≤ |b - 1| then Res.throw .logicError
    else pure ⟨id, PolyBasis.mk' f x0.length, x0⟩

/-- Chebyshev nodes of the branches 100 and 101, `PolynomialBasis.cpp:69-91`. -/
noncomputable def chebNodes (n : Nat) : List ℝ :=
  (List.range n).map fun i : Nat => Real.cos (Real.pi * (((n : ℝ) - 1 - i)) / ((n : ℝ) - 1))

/-- `get_basis(primbas, Nnodes)`, `PolynomialBasis.cpp:32-141`; `lob n` is the node list of the `n`-point Lobatto rule. -/
noncomputable def getBasis (lob : Nat → List ℝ) (primbas nnodes : Int) : Res Built :=
  if nnodes < 2 then .throw .logicError
  else
    let n := nnodes.toNat
    if primbas = 0 ∨ primbas = 1 ∨ primbas = 2 then .throw .runtimeError
    else if primbas = 3 then .ok ⟨primbas, PolyBasis.mk' .legendre n, []⟩
    else if primbas = 4 then interpCtor .lip (lob n) primbas
    else if primbas = 5 then interpCtor .hip (lob n) primbas
    else if primbas = 100 then interpCtor .lip (chebNodes n) 4
    else if primbas = 101 then interpCtor .hip (chebNodes n) 5
    else if primbas = 8 then interpCtor .hip2 (lob n) primbas
    else if primbas = 9 then interpCtor .hip3 (lob n) primbas
    else if primbas = 6 then .throw .runtimeError
    else if primbas = 7 then .throw .runtimeError
    else if primbas = 10 ∨ primbas = 11 then .throw .runtimeError
    else .throw .logicError

end Factory
end HelFEM
