import Mathlib.Algebra.Polynomial.Derivative
import Mathlib.Algebra.Field.Basic

/-!
# Specification of interpolating shape functions

Nothing here refers to the model.
-/

namespace HelFEM
namespace Spec
open Polynomial

variable {K : Type _} [Field K]

/-- `h` is *the* Hermite cardinal function of node `i` and derivative `j` on the nodes `x0 0, …, x0 (N-1)` when the
value and the first `m-1` derivatives are interpolated at every node: it has degree below `m*N`, its `j`-th
derivative at node `i` is one and all the other interpolated data vanish. -/
def HermiteCardinal (m N : Nat) (x0 : Nat → K) (i j : Nat) (h : K[X]) : Prop :=
  h.degree < (m * N : Nat) ∧
  ∀ k < N, ∀ d < m, (derivative^[d] h).eval (x0 k) = if k = i ∧ d = j then 1 else 0

/-- A function of the reference coordinate `x ∈ [-1,1]` seen as a function of the physical coordinate
`r = len * (x + 1)` on the first element. -/
noncomputable def onFirstElement (len : K) (h : K[X]) : K[X] := h.comp (C len⁻¹ * X - 1)

/-- A function of the reference coordinate seen as a function of the physical coordinate `r = mid + len * x`. -/
noncomputable def onElement (mid len : K) (h : K[X]) : K[X] := h.comp (C len⁻¹ * (X - C mid))

/-- Distinct nodes. -/
def DistinctNodes (N : Nat) (x0 : Nat → K) : Prop := ∀ i < N, ∀ j < N, x0 i = x0 j → i = j

/-- Admissible reference nodes: at least two, distinct, the first at -1 and the last at 1. -/
structure GoodNodes (N : Nat) (x0 : Nat → K) : Prop where
  two : 2 ≤ N
  distinct : DistinctNodes N x0
  left : x0 0 = -1
  right : x0 (N - 1) = 1


end Spec
end HelFEM
