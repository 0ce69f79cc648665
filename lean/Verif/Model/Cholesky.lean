import Verif.Model.Mat
import Mathlib.Analysis.Real.Sqrt

/-!
# Pivoted Cholesky factorisations

Models `pivoted_cholesky_`, `libhelfem/src/RadialBasis.cpp:670-709`, and the sign-aware variant in the diatomic `compute_tei`,
`src/diatomic/basis.cpp:1498-1526`.  Exact real arithmetic.
-/

namespace HelFEM
namespace Chol

/-- Local variables of the loop: remaining diagonal `D`, flags `done`, columns `Lcols`. -/
structure State where
  D : Nat → ℝ
  done : Nat → Bool
  cols : List (Nat → ℝ)

/-- Pivot search, `RadialBasis.cpp:680-686`: `pivot = n` when no diagonal exceeds the threshold. -/
noncomputable def pivot (n : Nat) (tol : ℝ) (s : State) : Nat × ℝ :=
  (List.range n).foldl (fun pv i => if s.done i = false ∧ pv.2 < s.D i then (i, s.D i) else pv) (n, tol)

/-- The new column, `RadialBasis.cpp:690-699`. -/
noncomputable def newCol (A : Nat → Nat → ℝ) (p : Nat) (sqrtd : ℝ) (done : Nat → Bool) (cols : List (Nat → ℝ)) (i : Nat) : ℝ :=
  if i = p then sqrtd
  else if done i then 0
  else cols.foldl (fun s c => s - c i * c p) (A i p) / sqrtd

/-- One pass of the loop body, `RadialBasis.cpp:678-703`; `none` is the `break`. -/
noncomputable def step (n : Nat) (A : Nat → Nat → ℝ) (tol : ℝ) (s : State) : Option State :=
  let pv := pivot n tol s
  if pv.1 = n then none
  else
    let done := fun i => if i = pv.1 then true else s.done i
    let col := newCol A pv.1 (Real.sqrt pv.2) done s.cols
    some ⟨fun i => if done i then s.D i else s.D i - col i * col i, done, s.cols ++ [col]⟩

noncomputable def loop (n : Nat) (A : Nat → Nat → ℝ) (tol : ℝ) : Nat → State → State
  | 0, s => s
  | k + 1, s => match step n A tol s with
    | none => s
    | some s' => loop n A tol k s'

/-- `pivoted_cholesky_`, `RadialBasis.cpp:670-709`. -/
noncomputable def pivotedCholesky (A : Mat ℝ) (tol : ℝ) : Res (Mat ℝ) :=
  if A.cols ≠ A.rows then .throw .logicError
  else
    let s := loop A.rows A.get tol A.rows ⟨fun i => A.get i i, fun _ => false, []⟩
    .ok ⟨A.rows, s.cols.length, fun i j => (s.cols.getD j fun _ => 0) i⟩

/-! ### sign-aware variant -/

/-- Remaining diagonal `d`, columns with their signs. -/
structure SState where
  d : Nat → ℝ
  cols : List ((Nat → ℝ) × ℝ)

/-- `d.cwiseAbs().maxCoeff(&piv)`, `basis.cpp:1506-1507`: Eigen returns the first maximum. -/
noncomputable def maxAbs (n : Nat) (d : Nat → ℝ) : Nat × ℝ → Nat × ℝ := fun start =>
  (List.range n).foldl (fun pv i => if pv.2 < |d i| then (i, |d i|) else pv) start

/-- One pass, `basis.cpp:1504-1525`; `none` is the `break`. `dmax0` is the largest initial diagonal. -/
noncomputable def sstep (n : Nat) (W : Nat → Nat → ℝ) (thresh dmax0 : ℝ) (s : SState) : Option SState :=
  let pv := maxAbs n s.d (0, |s.d 0|)
  if dmax0 ≤ 0 ∨ pv.2 ≤ thresh * dmax0 then none
  else
    let dp := s.d pv.1
    let sg : ℝ := if 0 ≤ dp then 1 else -1
    let col := fun i => s.cols.foldl (fun v c => v - c.2 * c.1 pv.1 * c.1 i) (W i pv.1) / Real.sqrt |dp|
    some ⟨fun i => if i = pv.1 then 0 else s.d i - sg * (col i * col i), s.cols ++ [(col, sg)]⟩

noncomputable def sloop (n : Nat) (W : Nat → Nat → ℝ) (thresh dmax0 : ℝ) : Nat → SState → SState
  | 0, s => s
  | k + 1, s => match sstep n W thresh dmax0 s with
    | none => s
    | some s' => sloop n W thresh dmax0 k s'

/-- The factorisation of a symmetric `n × n` block (`n = 2·(primitive pairs) > 0`), `basis.cpp:1498-1534`: factor and signs. -/
noncomputable def signedCholesky (n : Nat) (W : Nat → Nat → ℝ) (thresh : ℝ) : List ((Nat → ℝ) × ℝ) :=
  (sloop n W thresh (maxAbs n (fun i => W i i) (0, |W 0 0|)).2 n ⟨fun i => W i i, []⟩).cols

end Chol
end HelFEM
