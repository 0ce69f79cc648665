import Verif.Model.FEIndex
import Mathlib.Algebra.BigOperators.Intervals
import Mathlib.Algebra.Field.Basic
import Mathlib.Data.Nat.Factorial.Basic

/-!
# Lagrange interpolating polynomials

Models `libhelfem/include/LIPBasis_eval.h` (`eval_lip_prim_dnf`), `libhelfem/include/LIPBasis.h` and
`libhelfem/include/PolynomialBasisT.h:88-122`.

A node vector is modelled by its length `N` and its entries `x0 : Nat → K`.  Matrices over (point, function) are
modelled entry by entry.  `K` is any field: rounding is not modelled, and a division by zero (which the C++ code can only
hit for coinciding nodes) is excluded by the hypotheses of the theorems.
-/

namespace HelFEM
namespace Poly

open Finset

variable {K : Type _} [Field K]

/-- The innermost statements of every `case`, `LIPBasis_eval.h:36-41, 53-59, 76-82, …`: the product over all nodes except
`fi` and the nodes `ds` differentiated away, divided by the differences of the latter. -/
def lipTerm (N : Nat) (x0 : Nat → K) (x : K) (fi : Nat) (ds : List Nat) : K :=
  (∏ ip ∈ range N, if ip ∈ ds then 1 else if ip = fi then 1 else (x - x0 ip) / (x0 fi - x0 ip)) /
    (ds.map fun d => x0 fi - x0 d).prod

/-- The nested loops `for d1 < N { if d1 == fi continue; for d2 < d1 { … } }` of `case (n)`; `bound` is the
exclusive upper limit of the current loop and `ds` the indices of the enclosing loops.  The
header spells this nest out for n = 0..20; a script comparing each of the 21 cases against this
pattern found no deviation. -/
def lipNest (N : Nat) (x0 : Nat → K) (x : K) (fi : Nat) : (n bound : Nat) → (ds : List Nat) → K
  | 0, _, ds => lipTerm N x0 x fi ds
  | n + 1, bound, ds => ∑ d ∈ range bound, if d = fi then 0 else lipNest N x0 x fi n d (d :: ds)

/-- The literal prefactors of `dnf(ix, fi) = T(…)*el` in the 21 cases of `LIPBasis_eval.h`
(lines 41, 60, 84, …, 1199). -/
def lipPrefactor : List Nat :=
  [1, 1, 2, 6, 24, 120, 720, 5040, 40320, 362880, 3628800, 39916800, 479001600, 6227020800, 87178291200,
   1307674368000, 20922789888000, 355687428096000, 6402373705728000, 121645100408832000,
   2432902008176640000]

/-- Value computed by `case (k)` for `k = 0..20`: prefactor times nest. -/
def lipVal (N : Nat) (x0 : Nat → K) (x : K) (k : Nat) (fi : Nat) : K :=
  (lipPrefactor.getD k 0 : K) * lipNest N x0 x fi k N []

/-- `eval_lip_prim_dnf`, entry `(ix, fi)` of `dnf`, `LIPBasis_eval.h:29-1213`; orders without a `case` throw. -/
def lipPrimDnf (N : Nat) (x0 : Nat → K) (x : K) (n : Int) (fi : Nat) : Res K :=
  if 0 ≤ n ∧ n.toNat < lipPrefactor.length then .ok (lipVal N x0 x n.toNat fi)
  else .throw .logicError

/-- `eval_dnf` of the base class, one entry, `PolynomialBasisT.h:88-94`: derivative of the primitive divided by
`element_length^n`.  (`element_length` receives the scaling factor, i.e. half the length of the element,
`FiniteElementBasis.cpp:341-348`.) -/
def scaleDnf (prim : Res K) (len : K) (n : Int) : Res K := do
  let v ← prim
  pure (v / len ^ n.toNat)

/-- `LIPBasisT::eval_over_r`, entry for the surviving function `idx`, `LIPBasis.h:87-111`.  `first` is `enabled(0)`,
`none` if no function survives. -/
def lipOverR (N : Nat) (x0 : Nat → K) (first : Option Nat) (x : K) (n : Int) (len : K) (idx : Nat) : Res K :=
  match first with
  | none => .throw .logicError
  | some 0 => .throw .logicError
  | some (_ + 1) => do
    -- nodes without the leftmost one
    let r ← lipPrimDnf (N - 1) (fun i => x0 (i + 1)) x n (idx - 1)
    pure (1 / len ^ (n.toNat + 1) * r / (x0 idx + 1))

end Poly
end HelFEM
