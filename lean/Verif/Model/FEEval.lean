import Verif.Model.Elements
import Verif.Model.Hermite
import Verif.Model.Legendre

/-!
# Evaluation of the assembled basis, continuity check, division by r

Models `PolynomialBasisT::eval_dnf` and the evaluation members of `FiniteElementBasisT` for one point at a time.
The nodes of the reference element are `x0 0, …, x0 (nnodes-1)`; the Legendre family does not use them.
-/

namespace HelFEM
namespace Poly

open Grid

/-- `eval_prim_dnf`, entry of primitive `idx`: virtual dispatch over the five classes. -/
noncomputable def primEntry (f : Family) (N : Nat) (x0 : Nat → ℝ) (x len : ℝ) (n : Int) (idx : Nat) : Res ℝ :=
  match f with
  | .lip => lipPrimDnf N x0 x n idx
  | .hip => hermitePrimDnf .hip N x0 x len n idx
  | .hip2 => hermitePrimDnf .hip2 N x0 x len n idx
  | .hip3 => hermitePrimDnf .hip3 N x0 x len n idx
  | .legendre => legPrimDnf (N - 1) x n idx

/-- `eval_dnf` of the polynomial basis at one point, `PolynomialBasisT.h:88-94`: all primitives, restriction to
the enabled ones, division by `element_length^n`. -/
noncomputable def polyEvalDnf (p : PolyBasis) (x0 : Nat → ℝ) (x : ℝ) (n : Int) (len : ℝ) : Res (List ℝ) := do
  let prim ← (List.range p.nprim).mapM fun idx => primEntry p.family p.nnodes x0 x len n idx
  p.enabled.mapM fun idx => scaleDnf (readAt prim idx) len n

/-- `eval_over_r`, entry of the surviving primitive `idx`: virtual dispatch. -/
noncomputable def overREntry (f : Family) (N : Nat) (x0 : Nat → ℝ) (first : Option Nat) (x : ℝ) (n : Int) (len : ℝ)
    (idx : Nat) : Res ℝ :=
  match f with
  | .lip => lipOverR N x0 first x n len idx
  | .hip => hermiteOverR .hip N x0 first x n len idx
  | .hip2 => hermiteOverR .hip2 N x0 first x n len idx
  | .hip3 => hermiteOverR .hip3 N x0 first x n len idx
  | .legendre => legOverR (N - 1) first x n len idx

/-- `eval_over_r` of the polynomial basis at one point.  An empty `enabled` throws in every class. -/
noncomputable def polyOverR (p : PolyBasis) (x0 : Nat → ℝ) (x : ℝ) (n : Int) (len : ℝ) : Res (List ℝ) :=
  if p.enabled = [] then .throw .logicError
  else p.enabled.mapM fun idx => overREntry p.family p.nnodes x0 p.enabled.head? x n len idx

/-- `eval_dnf(x, n, iel)`, `FiniteElementBasis.cpp:340-356`, one point. -/
noncomputable def feEvalDnf (s : FEShape) (bval : List ℝ) (x0 : Nat → ℝ) (x : ℝ) (n : Int) (iel : Nat) : Res (List ℝ) := do
  let p ← s.getBasis iel
  let len ← scalingFactor bval iel
  polyEvalDnf p x0 x n len

/-- `eval_over_r(x, n, iel)`, `FiniteElementBasis.cpp:357-369`, one point. -/
noncomputable def feOverR (s : FEShape) (bval : List ℝ) (x0 : Nat → ℝ) (x : ℝ) (n : Int) (iel : Nat) : Res (List ℝ) := do
  let b ← elementBegin bval iel
  if |b| > 1 / 10 ^ 14 then .throw .logicError
  else do
    let p ← s.getBasis iel
    let len ← scalingFactor bval iel
    polyOverR p x0 x n len

/-- One element interface of `check_bf_continuity`, `FiniteElementBasis.cpp:73-131`.  `DBL_EPSILON` is `2^-52`.  The
discontinuity is reported by an exception of the same class after the loop; here it is thrown in the loop. -/
noncomputable def checkInterface (s : FEShape) (bval : List ℝ) (x0 : Nat → ℝ) (iel : Nat) : Res Unit := do
  let rlh ← evalCoord bval [1] iel
  let rrh ← evalCoord bval [-1] (iel + 1)
  let a ← readAt rlh 0
  let b ← readAt rrh 0
  if |a - b| > 10 * (1 / 2 ^ 52) * (1 + |a|) then .throw .logicError
  else do
    let nov := s.poly.noverlap
    let lh ← (List.range nov).mapM fun ider => do
      let f ← feEvalDnf s bval x0 1 (ider : Nat) iel
      segment f (f.length - nov) nov
    let rh ← (List.range nov).mapM fun ider => do
      let f ← feEvalDnf s bval x0 (-1) (ider : Nat) (iel + 1)
      segment f 0 nov
    let diff := List.zipWith (fun u v => List.zipWith (fun p q => (p - q) ^ 2) u v) lh rh
    if Real.sqrt (diff.map List.sum).sum > Real.sqrt (1 / 2 ^ 52) then .throw .logicError else .ok ()

/-- `check_bf_continuity`, `FiniteElementBasis.cpp:67-155`.  Without any element the size of `dnorm` wraps around. -/
noncomputable def checkContinuity (s : FEShape) (bval : List ℝ) (x0 : Nat → ℝ) : Res Unit :=
  if s.nelem = 1 then .ok ()
  else if s.nelem = 0 then .ub
  else do
    let _ ← (List.range (s.nelem - 1)).mapM fun iel => checkInterface s bval x0 iel
    pure ()

/-- The whole constructor, `FiniteElementBasis.cpp:34-45`. -/
noncomputable def constructChecked (poly : PolyBasis) (bval : List ℝ) (x0 : Nat → ℝ) (zfl zdl zfr zdr : Bool) :
    Res (FEObj ℝ) := do
  let o ← construct poly bval zfl zdl zfr zdr
  checkContinuity o.shape bval x0
  pure o

end Poly
end HelFEM
