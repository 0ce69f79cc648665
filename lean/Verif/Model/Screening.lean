import Verif.Model.Radii
import Verif.Model.XC

/-!
# Exchange-correlation screening of an atom, and densities at the quadrature points

Models `src/general/atomdb.cpp:273-427` (`XCFunctionals`, `xc_screening`, `effective_charge`), `src/sadatom/basis.cpp:479-484`, `564-578`, `704-718`, `912-966`, `1019-1178`
(`nuclear_density`, `nuclear_density_gradient`, `radii`, `electron_density`, its gradient and Laplacian on all points, `xc_screening`) and
`libhelfem/src/RadialBasis.cpp:953-994`. libxc is an interface. Exact real arithmetic. The arrays over all points are computed point by point; libxc is called point by
point as well. The handles kept between calls (`xc_`) hold no more than the two identifiers and are not modelled; the handle that the correlation branch of
`TwoDBasis::xc_screening` never releases has no effect on results.
-/

namespace HelFEM
namespace Screening

open Grid Poly Assembly AtomDB Radii

/-- Second derivatives of a polarized GGA in libxc's order: `v2rhosigma` is `(a,aa) (a,ab) (a,bb) (b,aa) (b,ab) (b,bb)`, `v2sigma2` is
`(aa,aa) (aa,ab) (aa,bb) (ab,ab) (ab,bb) (bb,bb)`. -/
structure Second where
  rs : Fin 6 → ℝ
  ss : Fin 6 → ℝ

/-- libxc: the functionals of `XC.Libxc` with the default density threshold, and `xc_gga_fxc`. -/
structure Lib where
  xc : XC.Libxc
  thr : ℝ
  fxc : Int → XC.In2 → Second

/-- What is known about the density at a point: values, radial derivatives and what the callers pass as `lapl`. -/
structure Point where
  ra : ℝ
  rb : ℝ
  ga : ℝ
  gb : ℝ
  la : ℝ
  lb : ℝ

/-- `rho`, `sigma` as passed to `xc_gga_vxc` and `xc_gga_fxc`. -/
def ggaIn (p : Point) : XC.In2 := ⟨p.ra, p.rb, p.ga * p.ga, p.ga * p.gb, p.gb * p.gb, 0, 0, 0, 0⟩

/-- `rho` as passed to `xc_lda_vxc`. -/
def ldaIn (p : Point) : XC.In2 := ⟨p.ra, p.rb, 0, 0, 0, 0, 0, 0, 0⟩

/-- The arrays summed over the functionals, and `do_gga`. -/
structure Acc where
  va : ℝ
  vb : ℝ
  saa : ℝ
  sab : ℝ
  sbb : ℝ
  rs : Fin 6 → ℝ
  ss : Fin 6 → ℝ
  gga : Bool

def Acc.zero : Acc := ⟨0, 0, 0, 0, 0, fun _ => 0, fun _ => 0, false⟩

/-- The kind of a functional, refusing meta-GGAs: `sadatom/basis.cpp:1076-1079`, `atomdb.cpp:284-293`; `is_gga_mgga` has initialised the functional before, so the
second `xc_func_init` does not fail. -/
def kind (L : Lib) (id : Int) : Res Bool := do
  let k ← XC.isGgaMgga L.xc id
  if k.2.1 || k.2.2 then .throw .logicError else .ok k.1

/-- One functional, `sadatom/basis.cpp:1069-1097` (and `1098-1125`), `atomdb.cpp:363-381`. -/
def addFunctional (L : Lib) (p : Point) (a : Acc) (id : Int) : Res Acc :=
  if id ≤ 0 then .ok a
  else do
    let gga ← kind L id
    if gga then
      let v := L.xc.pol id [] L.thr (ggaIn p)
      let w := L.fxc id (ggaIn p)
      .ok ⟨a.va + v.va, a.vb + v.vb, a.saa + v.vsaa, a.sab + v.vsab, a.sbb + v.vsbb, fun i => a.rs i + w.rs i, fun i => a.ss i + w.ss i, true⟩
    else
      let v := L.xc.pol id [] L.thr (ldaIn p)
      .ok { a with va := a.va + v.va, vb := a.vb + v.vb }

/-- The GGA correction, `sadatom/basis.cpp:1127-1170`, `atomdb.cpp:383-418`: the two files have the same formulas. -/
noncomputable def correction (r : ℝ) (p : Point) (a : Acc) : ℝ × ℝ :=
  let lg := p.la * p.gb + p.ga * p.lb
  let daa := p.la * p.ga * a.ss 0 + lg * a.ss 1 + p.lb * p.gb * a.ss 2
  let dab := p.la * p.ga * a.ss 1 + lg * a.ss 3 + p.lb * p.gb * a.ss 4
  let dbb := p.la * p.ga * a.ss 2 + lg * a.ss 4 + p.lb * p.gb * a.ss 5
  (2 * (p.ga * a.rs 0 + p.gb * a.rs 3) * p.ga + (p.ga * a.rs 1 + p.gb * a.rs 4) * p.gb
      + (4 * daa * p.ga + 2 * dab * p.gb) + (2 * a.saa * p.la + a.sab * p.lb) + 2 / r * (2 * a.saa * p.ga + a.sab * p.gb),
   2 * (p.gb * a.rs 5 + p.ga * a.rs 2) * p.gb + (p.ga * a.rs 1 + p.gb * a.rs 4) * p.ga
      + (4 * dbb * p.gb + 2 * dab * p.ga) + (a.sab * p.la + 2 * a.sbb * p.lb) + 2 / r * (a.sab * p.ga + 2 * a.sbb * p.gb))

/-- Both potentials at a point. -/
noncomputable def potentials (L : Lib) (x c : Int) (r : ℝ) (p : Point) (nucleus : Bool) : Res (ℝ × ℝ) := do
  let a ← addFunctional L p Acc.zero x
  let a ← addFunctional L p a c
  if a.gga && !nucleus then
    let k := correction r p a
    .ok (a.va - k.1, a.vb - k.2)
  else .ok (a.va, a.vb)

/-! ### Free atoms -/

/-- Constructor of `XCFunctionals`, `atomdb.cpp:281-317`: `any_gga`. -/
def anyGga (L : Lib) (x c : Int) : Res Bool := do
  let kx ← (if x ≤ 0 then .ok false else kind L x : Res Bool)
  let kc ← (if c ≤ 0 then .ok false else kind L c : Res Bool)
  pure (kx || kc)

/-- `xc_screening`, `atomdb.cpp:327-423`; `pi` stands for `M_PI`. -/
noncomputable def atomScreening (L : Lib) (pi : ℝ) (a : Atom) (x c : Int) (r : ℝ) : Res ℝ :=
  if r ≤ 0 ∨ (x ≤ 0 ∧ c ≤ 0) then .ok 0
  else do
    let d ← a.density pi r
    if 1 / 2 * d ≤ 0 then .ok 0
    else do
      let g ← anyGga L x c
      let gl ← (if g then do
        let g ← a.densityGradient pi r
        let l ← a.densityLaplacian pi r
        pure (1 / 2 * g, 1 / 2 * l)
      else (.ok (0, 0) : Res (ℝ × ℝ)))
      let v ← potentials L x c r ⟨1 / 2 * d, 1 / 2 * d, gl.1, gl.1, gl.2, gl.2⟩ false
      pure (r * (1 / 2) * (v.1 + v.2))

/-- `effective_charge`, `atomdb.cpp:425-427`. -/
noncomputable def effectiveCharge (L : Lib) (pi : ℝ) (Z : Int) (a : Atom) (x c : Int) (r : ℝ) : Res ℝ := do
  let h ← a.hartreeScreening r
  let s ← atomScreening L pi a x c r
  pure (Z - h - s)

/-! ### Densities on the grid of the spherically averaged atom -/

/-- `FEMRadialBasis::nuclear_density`, `RadialBasis.cpp:961-977`. -/
noncomputable def radialNuclearDensity (db : Db) (P : Mat ℝ) : Res ℝ := do
  let nbf ← FEShape.getNbf db.o.tab
  if P.rows ≠ nbf ∨ P.cols ≠ nbf then .throw .logicError
  else do
    let der ← feEvalDnf db.o.shape db.o.bval db.x0 (-1) 1 0
    let Psub ← elementBlock db.o P 0
    contract der Psub der

/-- `FEMRadialBasis::nuclear_density_gradient`, `RadialBasis.cpp:979-994`. -/
noncomputable def radialNuclearGradient (db : Db) (P : Mat ℝ) : Res ℝ := do
  let nbf ← FEShape.getNbf db.o.tab
  if P.rows ≠ nbf ∨ P.cols ≠ nbf then .throw .logicError
  else do
    let der ← feEvalDnf db.o.shape db.o.bval db.x0 (-1) 1 0
    let lapl ← feEvalDnf db.o.shape db.o.bval db.x0 (-1) 2 0
    let Psub ← elementBlock db.o P 0
    contract der Psub lapl

/-- `TwoDBasis::nuclear_density`, `sadatom/basis.cpp:479-481`. -/
noncomputable def nuclearDensity (db : Db) (P : Mat ℝ) : Res ℝ := do
  let d ← radialNuclearDensity db P
  pure (d / (4 * Real.pi))

/-- `TwoDBasis::nuclear_density_gradient`, `sadatom/basis.cpp:482-484`. -/
noncomputable def nuclearGradient (db : Db) (P : Mat ℝ) : Res ℝ := do
  let d ← radialNuclearGradient db P
  pure (d / (4 * Real.pi))

/-- The points of the grid: the nucleus (`none`), then the quadrature points of the elements in order. -/
def gridPoints (db : Db) : List (Option (Nat × ℝ)) :=
  none :: (List.range (nel db)).flatMap fun iel => (xq db).map fun x => some (iel, x)

/-- An array over the grid: `d[0]` of an empty list of elements is out of range. -/
noncomputable def onGrid {α : Type} (db : Db) (nuc : Res α) (f : Nat → ℝ → Res α) : Res (List α) :=
  if nel db = 0 then .ub else (gridPoints db).mapM fun
    | none => nuc
    | some (iel, x) => f iel x

/-- `radii`, `sadatom/basis.cpp:564-577`. -/
noncomputable def radii (db : Db) : Res (List ℝ) := onGrid db (.ok 0) (getR db)

/-- `electron_density(Prad, rsqweight)`, `sadatom/basis.cpp:704-718`. -/
noncomputable def densityGrid (db : Db) (P : Mat ℝ) (rsq : Bool) : Res (List ℝ) :=
  onGrid db (do
    let d ← nuclearDensity db P
    pure (4 * Real.pi * d)) (electronDensity db P rsq)

/-- One entry of `electron_density_gradient`, `sadatom/basis.cpp:914-925`. -/
noncomputable def gradientAt (db : Db) (P : Mat ℝ) (iel : Nat) (x : ℝ) : Res ℝ := do
  let Psub ← elementBlock db.o P iel
  let bf ← getBf db x iel
  let df ← getDf db x iel
  let v ← contract bf Psub df
  pure (2 * v)

/-- `electron_density_gradient`, `sadatom/basis.cpp:912-938`; the entry of the nucleus stays zero. -/
noncomputable def gradientGrid (db : Db) (P : Mat ℝ) : Res (List ℝ) := onGrid db (.ok 0) (gradientAt db P)

/-- One entry of `electron_density_laplacian`, `sadatom/basis.cpp:942-957`. -/
noncomputable def laplacianAt (db : Db) (P : Mat ℝ) (iel : Nat) (x : ℝ) : Res ℝ := do
  let Psub ← elementBlock db.o P iel
  let bf ← getBf db x iel
  let df ← getDf db x iel
  let lf ← getLf db x iel
  let r ← getR db iel x
  let dd ← contract df Psub df
  let bl ← contract bf Psub lf
  let bd ← contract bf Psub df
  pure (2 * (dd + bl) + 4 * bd / r)

/-- `electron_density_laplacian`, `sadatom/basis.cpp:940-966`; the entry of the nucleus stays zero. -/
noncomputable def laplacianGrid (db : Db) (P : Mat ℝ) : Res (List ℝ) := onGrid db (.ok 0) (laplacianAt db P)

/-- One row of `xc_screening` away from the nucleus, `sadatom/basis.cpp:1025-1177`. -/
noncomputable def screeningAt (L : Lib) (db : Db) (Pa Pb : Mat ℝ) (x c : Int) (iel : Nat) (t : ℝ) : Res (ℝ × ℝ) := do
  let ra ← electronDensity db Pa false iel t
  let rb ← electronDensity db Pb false iel t
  let ga ← gradientAt db Pa iel t
  let gb ← gradientAt db Pb iel t
  let la ← laplacianAt db Pa iel t
  let lb ← laplacianAt db Pb iel t
  let r ← getR db iel t
  let v ← potentials L x c r ⟨ra / (4 * Real.pi), rb / (4 * Real.pi), ga / (4 * Real.pi), gb / (4 * Real.pi), la / (4 * Real.pi), lb / (4 * Real.pi)⟩ false
  pure (r * v.1, r * v.2)

/-- The first row of `xc_screening`: the nucleus, where the correction is skipped. -/
noncomputable def screeningNucleus (L : Lib) (db : Db) (Pa Pb : Mat ℝ) (x c : Int) : Res (ℝ × ℝ) := do
  let ra ← nuclearDensity db Pa
  let rb ← nuclearDensity db Pb
  let v ← potentials L x c 0 ⟨4 * Real.pi * ra / (4 * Real.pi), 4 * Real.pi * rb / (4 * Real.pi), 0, 0, 0, 0⟩ true
  pure (0 * v.1, 0 * v.2)

/-- `xc_screening(Parad, Pbrad, x_func, c_func)`, `sadatom/basis.cpp:1024-1178`. -/
noncomputable def screeningGrid (L : Lib) (db : Db) (Pa Pb : Mat ℝ) (x c : Int) : Res (List (ℝ × ℝ)) :=
  onGrid db (screeningNucleus L db Pa Pb x c) (screeningAt L db Pa Pb x c)

/-- `xc_screening(Prad, x_func, c_func)`, `sadatom/basis.cpp:1019-1022`. -/
noncomputable def screeningRestricted (L : Lib) (db : Db) (P : Mat ℝ) (x c : Int) : Res (List ℝ) := do
  let v ← screeningGrid L db (Mat.smul (1 / 2) P) (Mat.smul (1 / 2) P) x c
  pure (v.map fun w => 1 / 2 * (w.1 + w.2))

end Screening
end HelFEM
