import Verif.Model.Assembly
import Verif.Model.DiaQuad
import Mathlib.Analysis.SpecialFunctions.Trigonometric.Deriv

/-!
# Matrix elements between two radial finite element bases

Models `libhelfem/src/RadialBasis.cpp:332-449` and `src/diatomic/basis.cpp:258-350` over the real numbers. The Lobatto rule of order `n` is a parameter (`lob n`,
pairs of node and weight). A weight function returning an infinity or NaN is modelled by `none`, and so is a matrix with an entry that is not finite. The warning
at the order cap is not modelled.
-/

namespace HelFEM
namespace Cross
open Grid

/-- `BasisKind`, `libhelfem/include/RadialBasis.h` -/
inductive Kind | B0 | B1 | B2 | R0 | R1 | R2
  deriving DecidableEq

/-- A radial basis: the finite element object with its evaluator `eval_dnf(x, n, iel)` (row of values at a point, and number of columns), and the length of `xq`. -/
structure Basis where
  fe : FEObj ℝ
  ncols : Nat → Nat
  dnf : Nat → ℝ → Nat → Res (List ℝ)
  nquad : Nat

/-- `eval_B_at` at one point, `RadialBasis.cpp:336-352` -/
def evalB (A : Basis) (x : ℝ) (iel : Nat) : Kind → Res (List ℝ)
  | .B0 => A.dnf 0 x iel
  | .B1 => A.dnf 1 x iel
  | .B2 => A.dnf 2 x iel
  | .R0 | .R1 | .R2 => .throw .logicError

open Classical in
/-- the test for a shared range, `RadialBasis.cpp:367-368`, `diatomic/basis.cpp:294` -/
noncomputable def shares (istart iend jstart jend : ℝ) : Bool :=
  decide (jstart ≥ istart ∧ jstart < iend) || decide (istart ≥ jstart ∧ istart < jend)

/-- the elements of the second basis listed for element `iel`, `RadialBasis.cpp:361-370`, `diatomic/basis.cpp:287-297` -/
noncomputable def listed (b c : List ℝ) (iel : Nat) : Res (List Nat) := do
  let istart ← elementBegin b iel
  let iend ← elementEnd b iel
  (List.range (nelem c)).foldlM (fun acc jel => do
    let jstart ← elementBegin c jel
    let jend ← elementEnd c jel
    pure (if shares istart iend jstart jend then acc ++ [jel] else acc)) []

/-- the whole table of element pairs, `RadialBasis.cpp:360-371`, `diatomic/basis.cpp:286-298` -/
noncomputable def table (b c : List ℝ) : Res (List (List Nat)) := (List.range (nelem b)).mapM (listed b c)

/-- weights at the points, `RadialBasis.cpp:411-414`: nothing guards against a weight that is not finite -/
def weights (f : Option (ℝ → Option ℝ)) (len : ℝ) (rule : List (ℝ × ℝ)) (r : List ℝ) : Option (List ℝ) :=
  (List.zipWith (fun p ri => match f with
    | none => some (p.2 * len)
    | some g => (g ri).map (p.2 * len * ·)) rule r).mapM id

/-- one element pair, `RadialBasis.cpp:391-417, 424`, `diatomic/basis.cpp:315-345` -/
noncomputable def piece (A B : Basis) (bra ket : Kind) (f : Option (ℝ → Option ℝ)) (rule : List (ℝ × ℝ)) (iel jel : Nat) : Res (Option (Mat ℝ)) := do
  let imin ← elementBegin A.fe.bval iel
  let jmin ← elementBegin B.fe.bval jel
  let imax ← elementEnd A.fe.bval iel
  let jmax ← elementEnd B.fe.bval jel
  let s := max imin jmin
  let e := min imax jmax
  let mid := 1 / 2 * (e + s)
  let len := 1 / 2 * (e - s)
  let r := rule.map fun p => min (max (mid + len * p.1) s) e
  let xi ← evalPrim A.fe.bval r iel
  let xj ← evalPrim B.fe.bval r jel
  let ifunc ← xi.mapM fun x => evalB A x iel bra
  let jfunc ← xj.mapM fun x => evalB B x jel ket
  pure ((weights f len rule r).map fun w => ⟨A.ncols iel, B.ncols jel, fun a b =>
    (List.zipWith (fun (wi : ℝ × List ℝ) (rj : List ℝ) => wi.2.getD a 0 * wi.1 * rj.getD b 0) (List.zip w ifunc) jfunc).sum⟩)

/-- the body of the double loop, `RadialBasis.cpp:389-425`, `diatomic/basis.cpp:312-347` -/
noncomputable def crossStep (A B : Basis) (bra ket : Kind) (f : Option (ℝ → Option ℝ)) (rule : List (ℝ × ℝ)) (S : Option (Mat ℝ)) (p : Nat × Nat) : Res (Option (Mat ℝ)) := do
  let blk ← piece A B bra ket f rule p.1 p.2
  let (ifirst, ilast) ← FEShape.getIdx A.fe.tab p.1
  let (jfirst, jlast) ← FEShape.getIdx B.fe.tab p.2
  match S, blk with
  | some M, some b => do
    let M' ← M.addBlock ifirst jfirst (ilast + 1 - ifirst) (jlast + 1 - jfirst) b
    pure (some M')
  | _, _ => pure none

/-- the projection at one order, `RadialBasis.cpp:380-428`, `diatomic/basis.cpp:307-349` -/
noncomputable def crossAt (A B : Basis) (bra ket : Kind) (f : Option (ℝ → Option ℝ)) (rule : List (ℝ × ℝ)) : Res (Option (Mat ℝ)) := do
  let t ← table A.fe.bval B.fe.bval
  let n ← FEShape.getNbf A.fe.tab
  let m ← FEShape.getNbf B.fe.tab
  ((List.range (nelem A.fe.bval)).flatMap fun iel => (t.getD iel []).map fun jel => (iel, jel)).foldlM
    (crossStep A B bra ket f rule) (some (Mat.zero n m))

/-- first order, `RadialBasis.cpp:377`, `diatomic/basis.cpp:350` -/
def startOrder (A B : Basis) : Nat := max (max A.nquad B.nquad) 5

/-- comparison of successive projections; a matrix that is not finite compares as NaN -/
noncomputable def diffN (X Y : Option (Mat ℝ)) : Option ℝ := match X, Y with
  | some X, some Y => Assembly.maxDiff X Y
  | _, _ => none
noncomputable def scaleN (X : Option (Mat ℝ)) : ℝ := match X with
  | some X => Assembly.maxAbs X
  | none => 0

/-- `matrix_element(rh, bra, ket, weight)`, `RadialBasis.cpp:354-430` -/
noncomputable def matrixElement (eps sqrteps : ℝ) (lob : Nat → List (ℝ × ℝ)) (A B : Basis) (bra ket : Kind) (f : Option (ℝ → Option ℝ)) : Res (Option (Mat ℝ)) := do
  let r ← Assembly.converge eps sqrteps diffN scaleN (fun n => crossAt A B bra ket f (lob n)) (startOrder A B) 512 513
  match r with
  | some (S, _) => pure S
  | none => .ub

/-- `RadialPotential(n).V(r) = pow(r, n)`: infinite at the origin for `n < 0` -/
noncomputable def radialPower (n : Int) (r : ℝ) : Option ℝ := if r = 0 ∧ n < 0 then none else some (r ^ n)

/-- `model_potential(rh, model, lhder, rhder)`, `RadialBasis.cpp:439-448` -/
noncomputable def modelPotential (eps sqrteps : ℝ) (lob : Nat → List (ℝ × ℝ)) (A B : Basis) (V : ℝ → Option ℝ) (lhder rhder : Bool) : Res (Option (Mat ℝ)) :=
  matrixElement eps sqrteps lob A B (if lhder then .B1 else .B0) (if rhder then .B1 else .B0) (some V)

/-- `radial_integral(rh, n, lhder, rhder)`, `RadialBasis.cpp:432-437` -/
noncomputable def radialIntegral (eps sqrteps : ℝ) (lob : Nat → List (ℝ × ℝ)) (A B : Basis) (n : Int) (lhder rhder : Bool) : Res (Option (Mat ℝ)) :=
  modelPotential eps sqrteps lob A B (radialPower n) lhder rhder

/-- `overlap(rh)`, `RadialBasis.cpp:450-453` -/
noncomputable def overlap (eps sqrteps : ℝ) (lob : Nat → List (ℝ × ℝ)) (A B : Basis) : Res (Option (Mat ℝ)) := radialIntegral eps sqrteps lob A B 0 false false

/-- the volume element, `diatomic/basis.cpp:340-341` -/
noncomputable def volume (n : Int) (mu : ℝ) : ℝ := Real.sinh mu * (if n ≠ 0 then Real.cosh mu ^ n else 1)

/-- `overlap(rh, n)` of the diatomic program, `diatomic/basis.cpp:284-350` -/
noncomputable def diaOverlap (eps sqrteps : ℝ) (lob : Nat → List (ℝ × ℝ)) (A B : Basis) (n : Int) : Res (Option (Mat ℝ)) := do
  let r ← DiaQuad.convergeBlock eps sqrteps diffN scaleN (fun k => crossAt A B .B0 .B0 (some fun mu => some (volume n mu)) (lob k)) 512 (startOrder A B) false
  match r with
  | some c => pure c.block
  | none => .ub

/-- a power that is infinite at zero for negative exponents -/
noncomputable def powN (x : ℝ) (n : Int) : Option ℝ := if x = 0 ∧ n < 0 then none else some (x ^ n)

/-- the weight of the diatomic `radial_integral(m, n)`, `diatomic/basis.cpp:259-266`; an empty function for `m = n = 0` -/
noncomputable def chsh (m n : Int) : Option (ℝ → Option ℝ) :=
  if m ≠ 0 ∧ n ≠ 0 then some fun mu => (powN (Real.sinh mu) m).bind fun a => (powN (Real.cosh mu) n).map (a * ·)
  else if m ≠ 0 ∧ n = 0 then some fun mu => powN (Real.sinh mu) m
  else if m = 0 ∧ n ≠ 0 then some fun mu => powN (Real.cosh mu) n
  else none

/-- the evaluator without derivatives -/
def value (A : Basis) : Assembly.Evaluator ℝ := ⟨A.ncols, fun x iel => A.dnf 0 x iel⟩

/-- the diatomic `radial_integral(m, n)` at one order, `diatomic/basis.cpp:274-279`; `sched` is the order in which threads take the elements -/
noncomputable def diaIntegralAt (A : Basis) (m n : Int) (sched : List Nat) (rule : List (ℝ × ℝ)) : Res (Mat ℝ) :=
  Assembly.globalMatrix A.fe (fun iel => Assembly.matElRange A.fe.bval iel (some (value A)) (some (value A)) rule (chsh m n) (-1) 1) sched

/-- the diatomic `radial_integral(m, n)`, `diatomic/basis.cpp:258-282` -/
noncomputable def diaIntegral (eps sqrteps : ℝ) (lob : Nat → List (ℝ × ℝ)) (A : Basis) (m n : Int) (sched : List Nat) : Res (Mat ℝ) := do
  let c ← DiaQuad.convergeMat eps sqrteps (fun k => diaIntegralAt A m n sched (lob k)) (max A.nquad 5) false
  pure c.block

end Cross
end HelFEM
