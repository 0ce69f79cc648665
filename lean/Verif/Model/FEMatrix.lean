import Verif.Model.Assembly
import Verif.Model.FEEval

/-!
# Operator matrices in the finite element basis

Models the derivative-order overloads, `FiniteElementBasis.cpp:426-438` and `631-649`.
-/

namespace HelFEM
namespace Assembly
open Grid Poly

/-- The lambda `[this, d](x, iel) { return this->eval_dnf(x, d, iel); }` with its number of columns. -/
noncomputable def dnfEvaluator (s : FEShape) (bval : List ℝ) (x0 : Nat → ℝ) (d : Int) : Evaluator ℝ where
  ncols := fun iel => match s.basisIndices iel with | .ok en => en.length | _ => 0
  row := fun x iel => feEvalDnf s bval x0 x d iel

/-- `matrix_element(lhder, rhder, xq, wq, f)`, `FiniteElementBasis.cpp:426-431`. -/
noncomputable def feMatrix (o : FEObj ℝ) (x0 : Nat → ℝ) (lhder rhder : Int) (rule : List (ℝ × ℝ)) (f : Option (ℝ → Option ℝ))
    (sched : List Nat) : Res (Mat ℝ) :=
  globalMatrix o (fun iel => matElRange o.bval iel (some (dnfEvaluator o.shape o.bval x0 lhder))
    (some (dnfEvaluator o.shape o.bval x0 rhder)) rule f (-1) 1) sched

/-- `matrix_element(lhder, rhder, f, breakpoints, poly_degree_f)`, `FiniteElementBasis.cpp:641-649`. -/
noncomputable def feMatrixAuto (eps sqrteps : ℝ) (lob : Nat → List (ℝ × ℝ)) (o : FEObj ℝ) (x0 : Nat → ℝ) (lhder rhder : Int)
    (f : Option (ℝ → Option ℝ)) (breakpoints : List ℝ) (polyDegreeF : Int) (sched : List Nat) : Res (Mat ℝ) :=
  globalMatrix o (fun iel => matElAuto eps sqrteps lob o.shape.poly o.bval iel (some (dnfEvaluator o.shape o.bval x0 lhder))
    (some (dnfEvaluator o.shape o.bval x0 rhder)) f breakpoints polyDegreeF (-1) 1) sched

/-- `vector_element(der, xq, wq, f)`, `FiniteElementBasis.cpp:408-424, 666-669`. A segment spoilt by a non-finite weight is not representable here;
the model delivers nothing (`ub`) then. -/
noncomputable def feVector (o : FEObj ℝ) (x0 : Nat → ℝ) (der : Int) (rule : List (ℝ × ℝ)) (f : Option (ℝ → Option ℝ)) (sched : List Nat) : Res (Vect ℝ) :=
  globalVector o (fun e => (vecEl o.bval e (some (dnfEvaluator o.shape o.bval x0 der)) rule f).bind fun
    | some v => .ok v
    | none => .ub) sched

end Assembly
end HelFEM
