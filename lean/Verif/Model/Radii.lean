import Verif.Model.AtomDB

/-!
# Radii read off a radial density

Models `src/sadatom/basis.cpp:684-910`: the density on an element, the position of its maximum, the van der Waals radius and the radius enclosing all but a
given number of electrons; and the element matrices they use, `RadialBasis.cpp:246-257`, `311-318` and `482`. Exact real arithmetic. `while` loops without a
bound get fuel; `ok none` means that the loop has not ended yet.
-/

namespace HelFEM
namespace Radii

open Grid Poly Assembly AtomDB

/-- The loop of `maxCoeff(&i)`: the first largest entry. -/
noncomputable def bestFrom : (idx : Nat) → (best : ℝ) → (i : Nat) → List ℝ → Nat × ℝ
  | idx, best, _, [] => (idx, best)
  | idx, best, i, x :: xs => if best < x then bestFrom i x (i + 1) xs else bestFrom idx best (i + 1) xs

/-- `v.maxCoeff(&i)`: place and value; Eigen asserts that the vector is not empty. -/
noncomputable def maxCoeff (l : List ℝ) : Res (Nat × ℝ) :=
  match l with
  | [] => .ub
  | x :: xs => .ok (bestFrom 0 x 1 xs)

/-- `v.minCoeff(&i)`, the place only: the first smallest entry. -/
noncomputable def minPlace (l : List ℝ) : Res Nat := do
  let r ← maxCoeff (l.map fun x => -x)
  pure r.1

/-- `electron_density(x, iel, Prad, rsqweight)` at one point, `sadatom/basis.cpp:684-698`. -/
noncomputable def electronDensity (db : Db) (P : Mat ℝ) (rsq : Bool) (iel : Nat) (x : ℝ) : Res ℝ := do
  let Psub ← elementBlock db.o P iel
  let bf ← getBf db x iel
  let d ← contract bf Psub bf
  if rsq then do
    let r ← evalCoord db.o.bval [x] iel
    let r ← readAt r 0
    pure (d * r ^ 2)
  else pure d

/-- `radial.Nel()` -/
def nel (db : Db) : Nat := db.o.bval.length - 1

/-- `radial.get_xq()` -/
def xq (db : Db) : List ℝ := db.rule.map Prod.fst

/-- The search interval around the quadrature point `imax`, `sadatom/basis.cpp:753-762` and `825-834`. -/
noncomputable def bracket (xq : List ℝ) (imax : Nat) : Res (ℝ × ℝ) :=
  if imax = 0 then do
    let b ← readAt xq (imax + 1)
    pure (-1, b)
  else if imax = xq.length - 1 then do
    let a ← readAt xq (imax - 1)
    pure (a, 1)
  else do
    let a ← readAt xq (imax - 1)
    let b ← readAt xq (imax + 1)
    pure (a, b)

/-- `radial.get_r(cen, iel)(0)` -/
noncomputable def getR (db : Db) (iel : Nat) (x : ℝ) : Res ℝ := do
  let r ← evalCoord db.o.bval [x] iel
  readAt r 0

noncomputable def goldenRatio : ℝ := 1 / 2 * (Real.sqrt 5 + 1)

/-- Golden section search, `sadatom/basis.cpp:764-776`. -/
noncomputable def golden (den : ℝ → Res ℝ) (eps : ℝ) : (fuel : Nat) → ℝ → ℝ → Res (Option (ℝ × ℝ))
  | 0, _, _ => .ok none
  | fuel + 1, a, b =>
    if eps ≤ |a - b| then do
      let dc ← den (b - (b - a) / goldenRatio)
      let dd ← den (a + (b - a) / goldenRatio)
      if dd < dc then golden den eps fuel a (a + (b - a) / goldenRatio) else golden den eps fuel (b - (b - a) / goldenRatio) b
    else .ok (some (a, b))

/-- The end of `electron_density_maximum_radius`, `sadatom/basis.cpp:777-784`; `meps` is the machine epsilon. -/
noncomputable def checkMaximum (db : Db) (den : Nat → ℝ → Res ℝ) (meps : ℝ) (iel : Nat) (best : ℝ) (r : Option (ℝ × ℝ)) : Res (Option ℝ) :=
  match r with
  | none => .ok none
  | some (a, b) => do
    let dmax ← den iel ((a + b) / 2)
    if 100 * meps ≤ best - dmax then .throw .logicError
    else do
      let rmax ← getR db iel ((a + b) / 2)
      pure (some rmax)

/-- `electron_density_maximum_radius`, `sadatom/basis.cpp:720-785`. -/
noncomputable def maximumRadius (meps : ℝ) (fuel : Nat) (db : Db) (P : Mat ℝ) (rsq : Bool) (eps : ℝ) : Res (Option ℝ) := do
  let den ← (List.range (nel db)).mapM fun iel => do
    let d ← (xq db).mapM (electronDensity db P rsq iel)
    let r ← maxCoeff d
    pure r.2
  let top ← maxCoeff den
  let del ← (xq db).mapM (electronDensity db P rsq top.1)
  let best ← maxCoeff del
  let ab ← bracket (xq db) best.1
  let r ← golden (electronDensity db P rsq top.1) eps fuel ab.1 ab.2
  checkMaximum db (electronDensity db P rsq) meps top.1 best.2 r

/-- Pointwise density `angfac * electron_density(...)`, `sadatom/basis.cpp:789`. -/
noncomputable def pointDensity (db : Db) (P : Mat ℝ) (iel : Nat) (x : ℝ) : Res ℝ := do
  let d ← electronDensity db P false iel x
  pure (1 / (4 * Real.pi) * d)

/-- The outermost element with a quadrature point above the threshold, `sadatom/basis.cpp:794-801`; `k` elements are left. `none`: the index has wrapped. -/
noncomputable def vdwElement (den : Nat → ℝ → Res ℝ) (xq : List ℝ) (thr : ℝ) : (k : Nat) → Res (Option Nat)
  | 0 => .ok none
  | k + 1 => do
    let d ← xq.mapM (den k)
    let r ← maxCoeff d
    if thr < r.2 then .ok (some k) else vdwElement den xq thr k

/-- Bisection, `sadatom/basis.cpp:836-854`; `left` counts down the 100 steps. -/
noncomputable def vdwBisect (den : ℝ → Res ℝ) (eps : ℝ) : (left : Nat) → ℝ → ℝ → Res (ℝ × ℝ)
  | 0, _, _ => .throw .runtimeError
  | left + 1, a, b =>
    if eps ≤ |a - b| then do
      let d ← den (a + (b - a) / 2)
      if d < eps then vdwBisect den eps left a (a + (b - a) / 2)
      else if eps < d then vdwBisect den eps left (a + (b - a) / 2) b
      else .ok (a, b)
    else .ok (a, b)

/-- The search inside the element, `sadatom/basis.cpp:807-860`. -/
noncomputable def vdwRefine (db : Db) (P : Mat ℝ) (thr eps : ℝ) (iel : Nat) : Res ℝ := do
  let d ← (xq db).mapM (pointDensity db P iel)
  let imax ← minPlace (d.map fun v => |v - thr|)
  let ab ← bracket (xq db) imax
  let r ← vdwBisect (pointDensity db P iel) eps 100 ab.1 ab.2
  getR db iel ((r.1 + r.2) / 2)

/-- `vdw_radius(Prad, vdw_threshold, eps)`, `sadatom/basis.cpp:787-861`. -/
noncomputable def vdwRadius (db : Db) (P : Mat ℝ) (thr eps : ℝ) : Res ℝ := do
  let e ← vdwElement (pointDensity db P) (xq db) thr (nel db)
  match e with
  | none => .ok 0
  | some iel => vdwRefine db P thr eps iel

/-- The evaluator of kind `R0`, `RadialBasis.cpp:274-276`. -/
noncomputable def bfEvaluator (db : Db) : Evaluator ℝ where
  ncols := (dnfEvaluator db.o.shape db.o.bval db.x0 0).ncols
  row := fun x iel => getBf db x iel

/-- `std::pow(r, Rexp + 2)`, `RadialBasis.cpp:251`; not finite for a negative power of zero. -/
noncomputable def powWeight (Rexp : Int) (r : ℝ) : Option ℝ := if r = 0 ∧ Rexp + 2 < 0 then none else some (r ^ (Rexp + 2))

/-- `radial_integral(Rexp, iel, x_left, x_right)`, `RadialBasis.cpp:246-257` and `311-318`. -/
noncomputable def radialIntegral (meps sqrteps : ℝ) (lob : Nat → List (ℝ × ℝ)) (db : Db) (Rexp : Int) (iel : Nat) (xl xr : ℝ) : Res (Mat ℝ) :=
  matElAuto meps sqrteps lob db.o.shape.poly db.o.bval iel (some (bfEvaluator db)) (some (bfEvaluator db)) (some (powWeight Rexp)) [] (-1) xl xr

/-- `overlap(iel)`, `RadialBasis.cpp:482`. -/
noncomputable def overlapElement (meps sqrteps : ℝ) (lob : Nat → List (ℝ × ℝ)) (db : Db) (iel : Nat) : Res (Mat ℝ) :=
  matElAuto meps sqrteps lob db.o.shape.poly db.o.bval iel (some (dnfEvaluator db.o.shape db.o.bval db.x0 0)) (some (dnfEvaluator db.o.shape db.o.bval db.x0 0))
    none [] 0 (-1) 1

/-- `(A * B).trace()`; Eigen asserts that the sizes match. -/
noncomputable def traceProduct (A B : Mat ℝ) : Res ℝ :=
  if A.cols = B.rows ∧ A.rows = B.cols then .ok (∑ i ∈ Finset.range A.rows, ∑ j ∈ Finset.range A.cols, A.get i j * B.get j i) else .ub

/-- Electrons in one element, `sadatom/basis.cpp:866-875`. -/
noncomputable def elementCount (meps sqrteps : ℝ) (lob : Nat → List (ℝ × ℝ)) (db : Db) (P : Mat ℝ) (iel : Nat) : Res ℝ := do
  let Psub ← elementBlock db.o P iel
  let S ← overlapElement meps sqrteps lob db iel
  traceProduct Psub S

/-- The search for the element, `sadatom/basis.cpp:878-885`, with `k` elements left: the element with the electrons still to be found. `none`: the index has
wrapped. -/
noncomputable def countElement (counts : List ℝ) : (k : Nat) → (sLeft : ℝ) → Option (Nat × ℝ)
  | 0, _ => none
  | k + 1, s => if counts.getD k 0 < s then countElement counts k (s - counts.getD k 0) else some (k, s)

/-- Bisection, `sadatom/basis.cpp:893-905`: the last midpoint. -/
noncomputable def countBisect (outside : ℝ → Res ℝ) (s thr : ℝ) : (fuel : Nat) → ℝ → ℝ → ℝ → Res (Option ℝ)
  | 0, _, _, _ => .ok none
  | fuel + 1, a, b, m =>
    if thr ≤ b - a then do
      let res ← outside (a + (b - a) / 2)
      if res < s then countBisect outside s thr fuel a (a + (b - a) / 2) (a + (b - a) / 2)
      else if s < res then countBisect outside s thr fuel (a + (b - a) / 2) b (a + (b - a) / 2)
      else .ok (some (a + (b - a) / 2))
    else .ok (some m)

/-- The search inside the element, `sadatom/basis.cpp:887-909`. -/
noncomputable def countRefine (meps sqrteps : ℝ) (lob : Nat → List (ℝ × ℝ)) (fuel : Nat) (db : Db) (P : Mat ℝ) (thr : ℝ) (iel : Nat) (s : ℝ) :
    Res (Option ℝ) := do
  let Psub ← elementBlock db.o P iel
  let m ← countBisect (fun x => do
    let M ← radialIntegral meps sqrteps lob db 0 iel x 1
    traceProduct Psub M) s thr fuel (-1) 1 ((-1) + (1 - (-1)) / 2)
  match m with
  | none => .ok none
  | some m => do
    let r ← getR db iel m
    pure (some r)

/-- `electron_count_radius(Prad, eps, conv_thr)`, `sadatom/basis.cpp:863-910`; after the wrapped index the table of the elements is read out of range. -/
noncomputable def countRadius (meps sqrteps : ℝ) (lob : Nat → List (ℝ × ℝ)) (fuel : Nat) (db : Db) (P : Mat ℝ) (eps thr : ℝ) : Res (Option ℝ) := do
  let counts ← (List.range (nel db)).mapM (elementCount meps sqrteps lob db P)
  match countElement counts (nel db) eps with
  | none => .ub
  | some (iel, s) => countRefine meps sqrteps lob fuel db P thr iel s

end Radii
end HelFEM
