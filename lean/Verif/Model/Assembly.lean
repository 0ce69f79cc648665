import Verif.Model.Mat
import Verif.Model.Elements

/-!
# Matrix elements of the finite element basis

Models `libhelfem/src/FiniteElementBasis.cpp:382-663`.  The Gauss-Lobatto rule of order `n` is a parameter (`lob n`, pairs of node and
weight).  The evaluators passed as `std::function` are pointwise; an empty `std::function` is `none`.  A
weight function returning an infinity or NaN is modelled by `none`.
-/

namespace HelFEM
namespace Assembly

open Grid

variable {K : Type _} [Field K] [LinearOrder K]

/-- Evaluator of the functions of an element at a point: number of columns and row of values. -/
structure Evaluator (K : Type _) where
  ncols : Nat → Nat
  row : K → Nat → Res (List K)

/-- `wp(i) = isfinite(fv) ? wp(i)*fv : 0`, `FiniteElementBasis.cpp:449-464`. -/
def weightAt (f : Option (K → Option K)) (r w : K) : K :=
  match f with
  | none => w
  | some g => match g r with
    | none => 0
    | some v => w * v

/-- Element matrix on a sub-range, `FiniteElementBasis.cpp:441-479`. -/
def matElRange (bval : List K) (iel : Nat) (lh rh : Option (Evaluator K)) (rule : List (K × K))
    (f : Option (K → Option K)) (xl xr : K) : Res (Mat K) := do
  let a := (xr - xl) / 2
  let b := (xr + xl) / 2
  let xs := rule.map fun p => a * p.1 + b
  let r ← evalCoord bval xs iel
  let sf ← scalingFactor bval iel
  let wp := List.zipWith (fun p ri => weightAt f ri (p.2 * sf * a)) rule r
  match lh with
  | none => .throw .logicError
  | some L => do
    let lhbf ← xs.mapM fun x => L.row x iel
    match rh with
    | none => .throw .logicError
    | some R => do
      let rhbf ← xs.mapM fun x => R.row x iel
      pure ⟨L.ncols iel, R.ncols iel, fun i j =>
        (List.zipWith (fun (wl : K × List K) (rr : List K) => wl.1 * wl.2.getD i 0 * rr.getD j 0)
          (List.zip wp lhbf) rhbf).sum⟩

/-- Element vector, `FiniteElementBasis.cpp:650-663`: a non-finite weight is not replaced here. `none` stands for a vector spoilt
by a non-finite number. -/
def vecEl (bval : List K) (iel : Nat) (ev : Option (Evaluator K)) (rule : List (K × K))
    (f : Option (K → Option K)) : Res (Option (Vect K)) := do
  let xs := rule.map Prod.fst
  let r ← evalCoord bval xs iel
  let sf ← scalingFactor bval iel
  let wp := (List.zipWith (fun (p : K × K) ri => match f with
    | none => some (p.2 * sf)
    | some g => (g ri).map (p.2 * sf * ·)) rule r).mapM id
  match ev with
  | none => .throw .logicError
  | some E => do
    let bf ← xs.mapM fun x => E.row x iel
    pure (wp.map fun w => ⟨E.ncols iel, fun i => (List.zipWith (fun w (b : List K) => b.getD i 0 * w) w bf).sum⟩)

/-- `#pragma omp parallel for` over the elements with body `matel[iel] = body(iel)`, `FiniteElementBasis.cpp:387-393`: the
bodies run in any order, given by the schedule, and each writes its own slot. -/
def ompFill {α : Type _} (body : Nat → Res α) : List Nat → (Nat → Option α) → Res (Nat → Option α)
  | [], t => .ok t
  | i :: s, t => do
    let v ← body i
    ompFill body s (Function.update t i (some v))

/-- Reading `matel[iel]`; an unfilled slot holds an empty matrix. -/
def slot {α : Type _} (t : Nat → Option α) (i : Nat) : Res α :=
  match t i with
  | some a => .ok a
  | none => .ub

/-- The serial accumulation loop, `FiniteElementBasis.cpp:395-404`. -/
def accumulate (tab : List (Int × Int)) (t : Nat → Option (Mat K)) : (rem iel : Nat) → Mat K → Res (Mat K)
  | 0, _, M => .ok M
  | rem + 1, iel, M => do
    let (ifirst, ilast) ← FEShape.getIdx tab iel
    let B ← slot t iel
    let M' ← M.addBlock ifirst ifirst (ilast + 1 - ifirst) (ilast + 1 - ifirst) B
    accumulate tab t rem (iel + 1) M'

/-- `matrix_element` over the whole basis, `FiniteElementBasis.cpp:386-405` and `607-629`: `body` computes the element block,
`sched` is the order in which the threads get to the elements. -/
def globalMatrix (o : FEObj K) (body : Nat → Res (Mat K)) (sched : List Nat) : Res (Mat K) := do
  let t ← ompFill body sched (fun _ => none)
  let N ← FEShape.getNbf o.tab
  accumulate o.tab t o.shape.nelem 0 (Mat.zero N N)

/-- The serial accumulation loop of `vector_element`, `FiniteElementBasis.cpp:418-423`. -/
def accumulateVec (tab : List (Int × Int)) (t : Nat → Option (Vect K)) : (rem iel : Nat) → Vect K → Res (Vect K)
  | 0, _, V => .ok V
  | rem + 1, iel, V => do
    let (ifirst, ilast) ← FEShape.getIdx tab iel
    let B ← slot t iel
    let V' ← V.addSegment ifirst (ilast + 1 - ifirst) B
    accumulateVec tab t rem (iel + 1) V'

/-- `vector_element` over the whole basis, `FiniteElementBasis.cpp:408-424`. -/
def globalVector (o : FEObj K) (body : Nat → Res (Vect K)) (sched : List Nat) : Res (Vect K) := do
  let t ← ompFill body sched (fun _ => none)
  let N ← FEShape.getNbf o.tab
  accumulateVec o.tab t o.shape.nelem 0 (Vect.zero N)

/-! ### Self-converging quadrature -/

/-- A comparison with NaN (`none`) is false. -/
def leN (a : Option K) (b : K) : Bool := match a with | some x => decide (x ≤ b) | none => false
def gtN (a : Option K) (b : Option K) : Bool := match a, b with | some x, some y => decide (y < x) | _, _ => false
def geN (a : Option K) (b : K) : Bool := match a with | some x => decide (b ≤ x) | none => false

/-- The three stopping tests, `FiniteElementBasis.cpp:521-537`, `RadialBasis.cpp:131-148`.  `diff` and the earlier differences may be NaN
(`none`); `scale` is finite then not used. -/
def stopTest (eps sqrteps : K) (diff : Option K) (scale : K) (prevdiff prevprevdiff : Option K) : Bool :=
  let tol := 8 * eps
  leN diff (tol * (scale + tol)) ||
  (geN prevdiff 0 && leN diff (sqrteps * (scale + tol)) && gtN diff (prevdiff.map (1 / 2 * ·))) ||
  (geN prevprevdiff 0 && leN diff (sqrteps * (scale + tol)) && gtN diff (prevprevdiff.map (1 / 8 * ·)))

/-- The refinement loop of `converge_panel`, `FiniteElementBasis.cpp:513-552`, and of `converge_rule`, `RadialBasis.cpp:124-160`.  `cur n` is
the block at order `n`; `diff`, `scale` are the maximum norms.  Returns the block with the list of orders evaluated, or `none` when the fuel
does not suffice. -/
def convergeLoop {A : Type _} (eps sqrteps : K) (diff : A → A → Option K) (scale : A → K) (cur : Nat → Res A) (nmax : Nat) :
    (fuel : Nat) → (prev : Option A) → (prevdiff prevprevdiff : Option K) → (n : Nat) → (orders : List Nat) →
    Res (Option (A × List Nat))
  | 0, _, _, _, _, _ => .ok none
  | fuel + 1, prev, pd, ppd, n, orders => do
    let c ← cur n
    match prev with
    | some p =>
      if stopTest eps sqrteps (diff c p) (scale c) pd ppd then .ok (some (c, orders ++ [n]))
      else if nmax ≤ n then .ok (some (c, orders ++ [n]))
      else convergeLoop eps sqrteps diff scale cur nmax fuel (some c) (diff c p) pd (min (2 * n) nmax) (orders ++ [n])
    | none =>
      if nmax ≤ n then .ok (some (c, orders ++ [n]))
      else convergeLoop eps sqrteps diff scale cur nmax fuel (some c) pd ppd (min (2 * n) nmax) (orders ++ [n])

/-- `converge_panel` / `converge_rule`: start at `max(nstart, 2)` with the "no previous difference" markers `-1`. -/
def converge {A : Type _} (eps sqrteps : K) (diff : A → A → Option K) (scale : A → K) (cur : Nat → Res A) (nstart nmax fuel : Nat) :
    Res (Option (A × List Nat)) :=
  convergeLoop eps sqrteps diff scale cur nmax fuel none (some (-1)) (some (-1)) (max nstart 2) []

/-- Maximum of `|a_ij|`: `cwiseAbs().maxCoeff()`. (Eigen asserts that the matrix is not empty; here 0.) -/
def maxAbs (A : Mat K) : K :=
  ((List.range A.rows).flatMap fun i => (List.range A.cols).map fun j => |A.get i j|).foldl max 0

/-- `(cur - prev).cwiseAbs().maxCoeff()` for finite matrices. -/
def maxDiff (A B : Mat K) : Option K := some (maxAbs ⟨A.rows, A.cols, fun i j => A.get i j - B.get i j⟩)

/-- Starting order of `matrix_element_auto`, `FiniteElementBasis.cpp:582-590`. -/
def autoStart (noverlap nnodes : Nat) (polyDegreeF : Int) : Nat :=
  let basisdeg := noverlap * nnodes - 1
  let fdeg := (max 0 polyDegreeF).toNat
  let deg := 2 * basisdeg + fdeg
  let ns := (deg + 4) / 2 + 2
  let ns := if ns < 5 then 5 else ns
  if 512 < ns then 512 else ns

/-- Panel edges of `matrix_element_auto`, `FiniteElementBasis.cpp:566-577`. -/
def panelEdges (bval : List K) (iel : Nat) (breakpoints : List K) (xl xr : K) : Res (List K) := do
  let mid ← elementMidpoint bval iel
  let sf ← scalingFactor bval iel
  let inner := (breakpoints.map fun bp => (bp - mid) / sf).filter fun xp => decide (xl < xp) && decide (xp < xr)
  pure (stdSort (xl :: inner ++ [xr]))

/-- The panels integrated over, `FiniteElementBasis.cpp:594-603`: consecutive edges, degenerate ones skipped; if none is left, the
whole range. -/
def panels (xb : List K) (xl xr : K) : List (K × K) :=
  let ps := (List.zip xb xb.tail).filter fun p => decide (p.1 < p.2)
  if ps = [] then [(xl, xr)] else ps

/-- Sum of the blocks, in order, `FiniteElementBasis.cpp:597-600`. -/
def addPanels (block : K × K → Res (Mat K)) (total : Mat K) : List (K × K) → Res (Mat K)
  | [] => .ok total
  | p :: rest => do
    let b ← block p
    let t ← total.add b
    addPanels block t rest

/-- The first block initialises the sum. -/
def sumPanels (block : K × K → Res (Mat K)) : List (K × K) → Res (Mat K)
  | [] => .ub
  | p :: rest => do
    let b ← block p
    addPanels block b rest

/-- One panel: `converge_panel`, `FiniteElementBasis.cpp:500-553`.  `lob n` is the Lobatto rule of order `n`.  The `for(;;)` gets
fuel `nmax + 1`, which `C16_terminates` shows to suffice. -/
def convergePanel (eps sqrteps : K) (lob : Nat → List (K × K)) (bval : List K) (iel : Nat) (lh rh : Option (Evaluator K))
    (f : Option (K → Option K)) (nstart nmax : Nat) (p : K × K) : Res (Mat K) := do
  let r ← converge eps sqrteps maxDiff maxAbs (fun n => matElRange bval iel lh rh (lob n) f p.1 p.2) nstart nmax (nmax + 1)
  match r with
  | some (A, _) => .ok A
  | none => .ub

/-- `matrix_element_auto` of one element, `FiniteElementBasis.cpp:557-604`. -/
def matElAuto (eps sqrteps : K) (lob : Nat → List (K × K)) (poly : PolyBasis) (bval : List K) (iel : Nat)
    (lh rh : Option (Evaluator K)) (f : Option (K → Option K)) (breakpoints : List K) (polyDegreeF : Int) (xl xr : K) : Res (Mat K) := do
  let xb ← panelEdges bval iel breakpoints xl xr
  sumPanels (convergePanel eps sqrteps lob bval iel lh rh f (autoStart poly.noverlap poly.nnodes polyDegreeF) 512) (panels xb xl xr)

end Assembly
end HelFEM
