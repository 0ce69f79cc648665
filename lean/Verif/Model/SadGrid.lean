import Verif.Model.Screening
import Verif.Model.TwoEInner

/-!
# Arrays on the grid of the spherically averaged atom

Models `src/sadatom/basis.cpp:486-684` and `966-1019`, the effective potential table of `src/sadatom/main.cpp:48-103`, and
`quadrature::spherical_potential` (`libhelfem/src/quadrature.cpp:251-299`). Exact real arithmetic; in the Coulomb potential a number that would be infinite or NaN in C++
is `none` and propagates (`TwoEInner`). The element matrices `radial_integral(k, iel)` are a parameter there.
-/

namespace HelFEM
namespace SadGrid

open Grid Poly Assembly AtomDB Radii Screening TwoE

/-- `T(1) / r` -/
noncomputable def invN (r : ℝ) : Option ℝ := if r = 0 then none else some (1 / r)

/-- `poly->get_nbf()` of the basis of an element -/
noncomputable def nbfOf (db : Db) (iel : Nat) : Nat := (dnfEvaluator db.o.shape db.o.bval db.x0 0).ncols iel

/-- `twoe_inner_integral_wrk` with the kernel `kern(r, R)`, `R` the upper end, `quadrature.cpp:37-74`: the flattened matrix, function `c % nbf` times function `c / nbf`.
The `fbig` argument is unused in the code. -/
noncomputable def segment (db : Db) (iel : Nat) (kern : ℝ → ℝ → Option ℝ) (low high : ℝ) : Res (List (Option ℝ)) := do
  let rmin0 ← elementBegin db.o.bval iel
  let rmax0 ← elementEnd db.o.bval iel
  let rows ← db.rule.mapM fun q => do
    let r := 1 / 2 * (high + low) + 1 / 2 * (high - low) * q.1
    let bf ← feEvalDnf db.o.shape db.o.bval db.x0 ((r - 1 / 2 * (rmax0 + rmin0)) / (1 / 2 * (rmax0 - rmin0))) 0 iel
    pure (mulN (mulN (some q.2) (kern r high)) (some (1 / 2 * (high - low))), bf)
  let nbf := nbfOf db iel
  pure ((List.range (nbf * nbf)).map fun c =>
    sumN (rows.map fun p => mulN (mulN (some (p.2.getD (c % nbf) 0)) p.1) (some (p.2.getD (c / nbf) 0))))

/-- `spherical_potential`, `quadrature.cpp:251-299` and `RadialBasis.cpp:813-821`: one row per quadrature point. The ends are those of the segments between consecutive points. -/
noncomputable def sphericalPotential (db : Db) (iel : Nat) : Res (List (List (Option ℝ))) := do
  let rmin ← elementBegin db.o.bval iel
  let rmax ← elementEnd db.o.bval iel
  let r := (xq db).map fun x => 1 / 2 * (rmax + rmin) + 1 / 2 * (rmax - rmin) * x
  let np := r.length
  let nbf := nbfOf db iel
  let zero ← (List.range np).mapM fun ip =>
    segment db iel (fun _ R => invN R) (if ip = 0 then rmin else r.getD (ip - 1) 0) (r.getD ip 0)
  let minusone ← (List.range np).mapM fun ip =>
    segment db iel (fun s _ => invN s) (r.getD ip 0) (if ip = np - 1 then rmax else r.getD (ip + 1) 0)
  pure ((List.range np).map fun ip => (List.range (nbf * nbf)).map fun c =>
    addN (divN (sumN ((List.range (ip + 1)).map fun jp => mulN ((zero.getD jp []).getD c none) (some (r.getD jp 0)))) (some (r.getD ip 0)))
      (sumN ((List.range (np - ip)).map fun k => (minusone.getD (ip + k) []).getD c none)))

/-- `pot*Pv` with the column-major vector of the density matrix of the element, `sadatom/basis.cpp:531-541`; Eigen asserts that the sizes agree. -/
noncomputable def inElement (db : Db) (P : Mat ℝ) (iel : Nat) : Res (List (Option ℝ)) := do
  let Psub ← elementBlock db.o P iel
  let pot ← sphericalPotential db iel
  if Psub.rows * Psub.cols = nbfOf db iel * nbfOf db iel then
    pure (pot.map fun row => sumN ((List.range (Psub.rows * Psub.cols)).map fun c =>
      mulN (row.getD c none) (some (Psub.get (c % Psub.rows) (c / Psub.rows)))))
  else .ub

/-- `zero(iel) += zero(iel-1)`, `sadatom/basis.cpp:519-520` -/
noncomputable def prefixSum (l : List ℝ) : Nat → ℝ
  | 0 => l.getD 0 0
  | k + 1 => l.getD (k + 1) 0 + prefixSum l k

/-- `minusone(iel) += minusone(iel+1)` from the second to last element down, `sadatom/basis.cpp:522-523`: the value `k` places before the last one of `n`. For one element the
start `Nel-2` wraps around and the loop does not run. -/
noncomputable def suffixSum (l : List ℝ) (n : Nat) : Nat → ℝ
  | 0 => l.getD (n - 1) 0
  | k + 1 => l.getD (n - 1 - (k + 1)) 0 + suffixSum l n k

/-- `coulomb_screening`, `sadatom/basis.cpp:501-562`; `rint k iel` is `radial_integral(k, iel)`. -/
noncomputable def coulombScreening (rint : Int → Nat → Res (Mat ℝ)) (db : Db) (P : Mat ℝ) : Res (List (Option ℝ)) :=
  if nel db = 0 then .ub
  else do
    let zero ← (List.range (nel db)).mapM fun iel => do
      let B ← elementBlock db.o P iel
      let M ← rint 0 iel
      traceProduct B M
    let minusone ← (List.range (nel db)).mapM fun iel => do
      let B ← elementBlock db.o P iel
      let M ← rint (-1) iel
      traceProduct B M
    let V ← (List.range (nel db)).mapM fun iel => do
      let r ← (xq db).mapM (getR db iel)
      let pot ← inElement db P iel
      pure ((List.range r.length).map fun ip =>
        let v := pot.getD ip none
        let v := if 0 < iel then addN v (divN (some (prefixSum zero (iel - 1))) (some (r.getD ip 0))) else v
        let v := if iel ≠ nel db - 1 then addN v (some (suffixSum minusone (nel db) (nel db - 1 - (iel + 1)))) else v
        mulN v (some (r.getD ip 0)))
    pure (some 0 :: V.flatten)

/-! ### Orbitals, weights and the kinetic energy density -/

/-- `C.middleRows(ifirst, ilast-ifirst+1)` and the product with a row of values, `sadatom/basis.cpp:602-609`. -/
noncomputable def orbitalRow (db : Db) (C : Mat ℝ) (iel : Nat) (v : List ℝ) : Res (List ℝ) := do
  let (ifirst, ilast) ← FEShape.getIdx db.o.tab iel
  let Csub ← C.block ifirst 0 (ilast + 1 - ifirst) C.cols
  if v.length = Csub.rows then
    .ok ((List.range C.cols).map fun k => ∑ i ∈ Finset.range Csub.rows, v.getD i 0 * Csub.get i k)
  else .ub

/-- `orbitals`, `sadatom/basis.cpp:600-628`, with `nuclear_orbital`, `RadialBasis.cpp:996-1005`, in the first row. -/
noncomputable def orbitals (db : Db) (C : Mat ℝ) : Res (List (List ℝ)) :=
  onGrid db (do
    let der ← feEvalDnf db.o.shape db.o.bval db.x0 (-1) 1 0
    orbitalRow db C 0 der) fun iel x => do
    let bf ← getBf db x iel
    orbitalRow db C iel bf

/-- `orbitals_derivative`, `sadatom/basis.cpp:630-655`; the row of the nucleus stays zero. -/
noncomputable def orbitalsDerivative (db : Db) (C : Mat ℝ) : Res (List (List ℝ)) :=
  onGrid db (.ok ((List.range C.cols).map fun _ => 0)) fun iel x => do
    let df ← getDf db x iel
    orbitalRow db C iel df

/-- `orbitals_second_derivative`, `sadatom/basis.cpp:657-682`; the row of the nucleus stays zero. -/
noncomputable def orbitalsSecond (db : Db) (C : Mat ℝ) : Res (List (List ℝ)) :=
  onGrid db (.ok ((List.range C.cols).map fun _ => 0)) fun iel x => do
    let lf ← getLf db x iel
    orbitalRow db C iel lf

/-- `quadrature_weights`, `sadatom/basis.cpp:486-499`, with `get_wrad`, `RadialBasis.cpp:928-936`. -/
noncomputable def quadratureWeights (db : Db) : Res (List ℝ) :=
  if nel db = 0 then .ub
  else do
    let w ← (List.range (nel db)).mapM fun iel => do
      let s ← scalingFactor db.o.bval iel
      pure (db.rule.map fun q => s * q.2)
    pure (0 :: w.flatten)

/-- `Σ_l f(l) Pl0[l]`, `sadatom/basis.cpp:972-977`. -/
noncomputable def weighted (f : Nat → ℝ) : Nat → Mat ℝ → List (Mat ℝ) → Res (Mat ℝ)
  | _, acc, [] => .ok acc
  | l, acc, P :: Ps => do
    let acc ← acc.add (P.smul (f l))
    weighted f (l + 1) acc Ps

/-- One entry of `kinetic_energy_density`, `sadatom/basis.cpp:980-1003`. -/
noncomputable def tauAt (db : Db) (P Pl : Mat ℝ) (iel : Nat) (x : ℝ) : Res ℝ := do
  let r ← getR db iel x
  let Psub ← elementBlock db.o P iel
  let Psubl ← elementBlock db.o Pl iel
  let bf ← getBf db x iel
  let df ← getDf db x iel
  let t1 ← contract df Psub df
  let t2 ← contract bf Psubl bf
  pure (1 / 2 * (t1 + max (t2 / r ^ 2) 0))

/-- `kinetic_energy_density`, `sadatom/basis.cpp:970-1015`; the entry of the nucleus stays zero. -/
noncomputable def kineticDensity (db : Db) (Pl0 : List (Mat ℝ)) : Res (List ℝ) := do
  let P0 ← readAt Pl0 0
  let P ← weighted (fun _ => 1) 0 (Mat.zero P0.rows P0.cols) Pl0
  let Pl ← weighted (fun l => (l * (l + 1) : Nat)) 0 (Mat.zero P0.rows P0.cols) Pl0
  onGrid db (.ok 0) (tauAt db P Pl)

/-- `Electron density by quadrature`, `sadatom/main.cpp:99-100`. -/
noncomputable def tableCharge (db : Db) (P : Mat ℝ) : Res ℝ := do
  let wt ← quadratureWeights db
  let r ← radii db
  let rho ← densityGrid db P false
  if rho.length = wt.length ∧ r.length = wt.length then
    pure ((List.range wt.length).map fun i => wt.getD i 0 * rho.getD i 0 * r.getD i 0 * r.getD i 0).sum
  else .ub

/-- `Quadrature of tabulated Coulomb potential yields Coulomb energy`, `sadatom/main.cpp:101-102`. -/
noncomputable def tableCoulomb (rint : Int → Nat → Res (Mat ℝ)) (db : Db) (P : Mat ℝ) : Res (Option ℝ) := do
  let wt ← quadratureWeights db
  let r ← radii db
  let vcoul ← coulombScreening rint db P
  let rho ← densityGrid db P false
  if rho.length = wt.length ∧ r.length = wt.length ∧ vcoul.length = wt.length then
    pure (sumN ((List.range wt.length).map fun i => mulN (some (1 / 2 * r.getD i 0 * rho.getD i 0 * wt.getD i 0)) (vcoul.getD i none)))
  else .ub

/-- Column 8, `sadatom/main.cpp:86, 97`: `charge - (vcoul + vxc)`. -/
noncomputable def tableZeff (Z : Int) (vcoul : List (Option ℝ)) (vxc : List ℝ) : Res (List (Option ℝ)) :=
  if vcoul.length = vxc.length then
    .ok (List.zipWith (fun c x => addN (some (Z : ℝ)) (mulN (some (-1)) (addN c (some x)))) vcoul vxc)
  else .ub

end SadGrid
end HelFEM
