import Verif.Model.Basic
import Mathlib.Analysis.SpecialFunctions.Trigonometric.Basic
import Mathlib.Analysis.SpecialFunctions.Log.Basic

/-!
# Quadrature rules

Models `libhelfem/include/lobatto.h`, `libhelfem/include/chebyshev.h` and `src/general/angular.cpp` over the reals.
In the Newton iteration, a division by zero gives an undefined number (`none`, for an infinity or NaN), which propagates.
-/

namespace HelFEM
namespace Quad

open Finset

/-- `p(i, j)`, `lobatto.h:61-75`. -/
noncomputable def lobP (x : ℝ) : Nat → ℝ
  | 0 => 1
  | 1 => x
  | j + 2 => ((2 * (j + 2 : Nat) - 1 : ℝ) * x * lobP x (j + 1) - ((j + 2 : Nat) - 1 : ℝ) * lobP x j) * (1 / ((j + 2 : Nat) : ℝ))

/-- One Newton step for one node, `lobatto.h:78-81`. -/
noncomputable def lobNewton (n : Nat) (x : ℝ) : Option ℝ :=
  if lobP x (n - 1) = 0 then none
  else some (x - (x * lobP x (n - 1) - lobP x (n - 2)) / ((n : ℝ) * lobP x (n - 1)))

/-- Largest change, `lobatto.h:84-88`.  A comparison with an undefined number is false. -/
noncomputable def maxChange : List (Option ℝ) → List (Option ℝ) → ℝ → ℝ
  | some a :: as, some b :: bs, e => maxChange as bs (if e < |a - b| then |a - b| else e)
  | _ :: as, _ :: bs, e => maxChange as bs e
  | _, _, e => e

/-- The iteration, `lobatto.h:58-90`; `none` if the fuel does not suffice. -/
noncomputable def lobLoop (n : Nat) (tol : ℝ) : Nat → List (Option ℝ) → Option (List (Option ℝ))
  | 0, _ => none
  | fuel + 1, xold =>
    let x := xold.map (·.bind (lobNewton n))
    if maxChange x xold 0 ≤ tol then some x else lobLoop n tol fuel x

/-- Starting nodes, `lobatto.h:51-53`. -/
noncomputable def lobStart (n : Nat) : List (Option ℝ) :=
  (List.range n).map fun i : Nat => some (Real.cos (Real.pi * (i : ℝ) / ((n : ℝ) - 1)))

/-- `(P_{j}, P_{j+1})` by the two-term loop, `lobatto.h:97-104`, after `j` passes. -/
noncomputable def lobPair (x : ℝ) : Nat → ℝ × ℝ
  | 0 => (1, x)
  | j + 1 =>
    let (pnm2, pnm1) := lobPair x j
    (pnm1, ((2 * (j + 2 : Nat) - 1 : ℝ) * x * pnm1 - ((j + 2 : Nat) - 1 : ℝ) * pnm2) / ((j + 2 : Nat) : ℝ))

/-- Weight of a node, `lobatto.h:96-108`. -/
noncomputable def lobWeight (n : Nat) (x : ℝ) : ℝ :=
  2 / (((n : ℝ) - 1) * n * (lobPair x (n - 2)).2 * (lobPair x (n - 2)).2)

/-- `lobatto_compute(n)`, `lobatto.h:36-109`, with the tolerance as a parameter (100 machine epsilons in the code). -/
noncomputable def lobattoCompute (fuel : Nat) (tol : ℝ) (n : Int) : Option (Res (List (Option ℝ) × List (Option ℝ))) :=
  if n < 2 then some (.throw .runtimeError)
  else (lobLoop n.toNat tol fuel (lobStart n.toNat)).map fun x =>
    .ok (x.reverse, x.reverse.map (Option.map (lobWeight n.toNat)))

/-- Node before reversal, `chebyshev.h:45-55`. -/
noncomputable def chebX (n i : Nat) : ℝ :=
  let angle := (i : ℝ) * Real.pi * (1 / ((n + 1 : Nat) : ℝ))
  let sine := Real.sin angle
  1 - 2 * i * (1 / ((n + 1 : Nat) : ℝ)) + 2 / Real.pi * (1 + 2 / 3 * (sine * sine)) * Real.cos angle * sine

/-- Weight before reversal, `chebyshev.h:45-52`. -/
noncomputable def chebW (n i : Nat) : ℝ :=
  let sine := Real.sin ((i : ℝ) * Real.pi * (1 / ((n + 1 : Nat) : ℝ)))
  16 / 3 / ((n + 1 : Nat) : ℝ) * (sine * sine) * (sine * sine)

/-- `chebyshev(n, x, w)`, `chebyshev.h:32-60`, as a list of (node, weight). -/
noncomputable def chebyshev (n : Nat) : List (ℝ × ℝ) :=
  ((List.range n).map fun i : Nat => (chebX n (i + 1), chebW n (i + 1))).reverse

/-- `radial_chebyshev(nrad, rad, wrad)`, `chebyshev.h:65-85`; the loop runs backwards over the indices but writes at the
same index. -/
noncomputable def radialChebyshev (n : Nat) : List (ℝ × ℝ) :=
  (chebyshev n).map fun (x, w) =>
    (1 / Real.log 2 * Real.log (2 / (1 - x)), w * (1 / Real.log 2 / (1 - x)))

/-- `compound_rule`, `angular.cpp:21-44`, as a list of `(cth, phi, w)`; entry `i*nphi+j`. -/
noncomputable def compoundRule (rule : List (ℝ × ℝ)) (nphi : Nat) : List (ℝ × ℝ × ℝ) :=
  rule.flatMap fun (x, w) => (List.range nphi).map fun j : Nat =>
    (x, (j : ℝ) * (2 * Real.pi / nphi), w * (2 * Real.pi / nphi))

/-- `angular_chebyshev(l, m, …)`, `angular.cpp:66-73`. -/
noncomputable def angularChebyshev (l m : Nat) : List (ℝ × ℝ × ℝ) := compoundRule (chebyshev l) m

end Quad
end HelFEM
