import Verif.Model.GridXC

/-!
# Exchange-correlation matrices on the diatomic grid without an azimuthal quadrature

Models `src/diatomic/dftgrid_purem.cpp`. The functions `R(μ) Y_l^m(ν) e^{imφ}` are kept at `φ = 0`, where they are real, and the density matrix is taken block by block in `m`.
The loops over the blocks of `update_density`, one per quantity, are one loop here; the copies of a block's products into its mirror image's slots, which nothing reads, are left out, as is
the cache of the radial functions of the element. The evaluated spherical harmonics are data (`Y l m c` is `std::real(spherical_harmonics(l, m, c, 0.0))`).
-/

namespace HelFEM
namespace XC

open Matrix

/-- One radial point with the angular grid: the element's first and last radial function, the coordinate `μ` and its weight, and the radial functions and their derivatives there. -/
structure PmPoint where
  nang : Nat
  first : Nat
  last : Nat
  mu : ℝ
  wrad : ℝ
  Rhalf : ℝ
  cth : Fin nang → ℝ
  wang : Fin nang → ℝ
  f : Nat → ℝ
  df : Nat → ℝ
  d2f : Nat → ℝ
  Y : Int → Int → ℝ → ℝ

variable {n N : Nat}

/-- `rad_f.cols()` -/
def PmPoint.nr (e : PmPoint) : Nat := e.last - e.first + 1

/-- `sth`, `diatomic/dftgrid_purem.cpp:63, 108` -/
noncomputable def pmSin (c : ℝ) : ℝ := √(max ((1 - c) * (1 + c)) 0)

/-- `dsph`, `diatomic/dftgrid_purem.cpp:64-75` -/
noncomputable def pmDY (Y : Int → Int → ℝ → ℝ) (l m : Int) (c : ℝ) : ℝ :=
  let cot := if 0 < pmSin c then c / pmSin c else 0
  let d := (m : ℝ) * cot * Y l m c
  if m < l then d + √((l - m : ℝ) * (l + m + 1 : ℝ)) * Y l (m + 1) c else d

/-- `lval_m`, `diatomic/dftgrid_purem.cpp:54-58`: the `l` of the shells with this `m`, in the order of the basis -/
def pmShells (lm : List (Int × Int)) (m : Int) : List Int := ((List.range lm.length).filter fun i => (lm.getD i (0, 0)).2 = m).map fun i => (lm.getD i (0, 0)).1

/-- `hmu`, `diatomic/dftgrid_purem.cpp:110` -/
noncomputable def PmPoint.hmu (e : PmPoint) (ia : Fin e.nang) : ℝ := e.Rhalf * √(Real.sinh e.mu * Real.sinh e.mu + pmSin (e.cth ia) * pmSin (e.cth ia))
/-- `hphi`, `diatomic/dftgrid_purem.cpp:112` -/
noncomputable def PmPoint.hphi (e : PmPoint) (ia : Fin e.nang) : ℝ := e.Rhalf * Real.sinh e.mu * pmSin (e.cth ia)

/-- Weights and scale factors, common to all blocks. -/
structure PmGeo (N : Nat) where
  w : Fin N → ℝ
  sc : Fin N → ℝ
  ir2 : Fin N → ℝ
  ip2 : Fin N → ℝ

/-- `diatomic/dftgrid_purem.cpp:99-120` -/
noncomputable def pmGeo (e : PmPoint) : PmGeo e.nang where
  w := fun ia => 2 * Real.pi * e.wang ia * e.wrad * e.Rhalf ^ 3 * Real.sinh e.mu * (Real.sinh e.mu * Real.sinh e.mu + pmSin (e.cth ia) * pmSin (e.cth ia))
  sc := e.hmu
  ir2 := fun ia => if 0 < e.hmu ia then 1 / (e.hmu ia * e.hmu ia) else 0
  ip2 := fun ia => if 0 < e.hphi ia then 1 / (e.hphi ia * e.hphi ia) else 0

/-- One `m` block: padded function indices, values, derivatives in `μ` and `ν`, Laplacians. -/
structure PmBlock (N : Nat) where
  m : Int
  idx : List Nat
  f : Matrix (Fin idx.length) (Fin N) ℝ
  dr : Option (Matrix (Fin idx.length) (Fin N) ℝ)
  dth : Option (Matrix (Fin idx.length) (Fin N) ℝ)
  lap : Option (Matrix (Fin idx.length) (Fin N) ℝ)

/-- `R'' + coth μ R' - (l(l+1) + m²/sinh²μ) R`, `diatomic/dftgrid_purem.cpp:138-140, 162, 179-186` -/
noncomputable def PmPoint.radop (e : PmPoint) (l m : Int) (j : Nat) : ℝ :=
  let coth := if 0 < Real.sinh e.mu then Real.cosh e.mu / Real.sinh e.mu else 0
  let m2 := if 0 < Real.sinh e.mu then 1 / (Real.sinh e.mu * Real.sinh e.mu) else 0
  e.d2f j + coth * e.df j - ((l * (l + 1) : Int) + (m * m : Int) * m2 : ℝ) * e.f j

/-- the block of `m`, `diatomic/dftgrid_purem.cpp:151-199`: row `ish * Nr + j` -/
noncomputable def pmBlock (fl : Flags) (lm : List (Int × Int)) (nrad : Nat) (e : PmPoint) (m : Int) : PmBlock e.nang :=
  let idx := Dia.bfListDummyM lm nrad e.first e.last m
  let l : Fin idx.length → Int := fun a => (pmShells lm m).getD (a / e.nr) 0
  let needDf := fl.grad || fl.tau || fl.lapl
  { m := m
    idx := idx
    f := Matrix.of fun a ia => e.Y (l a) m (e.cth ia) * e.f (a % e.nr)
    dr := if needDf then some (Matrix.of fun a ia => e.Y (l a) m (e.cth ia) * e.df (a % e.nr)) else none
    dth := if needDf then some (Matrix.of fun a ia => pmDY e.Y (l a) m (e.cth ia) * e.f (a % e.nr)) else none
    lap := if fl.lapl then some (Matrix.of fun a ia => e.Y (l a) m (e.cth ia) * (pmGeo e).ir2 ia * e.radop (l a) m (a % e.nr)) else none }

/-- `mirror_block`, `diatomic/dftgrid_purem.cpp:467-472`: the first block with the opposite `m` and the same number of functions -/
def pmMirror (ms : List Int) (blk : Int → PmBlock N) (m : Int) : Option Int := ms.find? fun k => k = -m ∧ (blk k).idx.length = (blk m).idx.length

/-! ### Densities -/

/-- Sums over the blocks: density, the two gradient components before scaling, the kinetic sum, `2 ∑ P f ∇²f`. -/
structure PmSum (N : Nat) where
  rho : Fin N → ℝ
  gm : Fin N → ℝ
  gn : Fin N → ℝ
  kin : Fin N → ℝ
  lap : Fin N → ℝ

/-- all zero -/
def PmSum.zero (N : Nat) : PmSum N := ⟨0, 0, 0, 0, 0⟩

/-- add `wt` times another one -/
def PmSum.plus (s : PmSum N) (wt : ℝ) (t : PmSum N) : PmSum N :=
  ⟨fun p => s.rho p + wt * t.rho p, fun p => s.gm p + wt * t.gm p, fun p => s.gn p + wt * t.gn p, fun p => s.kin p + wt * t.kin p, fun p => s.lap p + wt * t.lap p⟩

/-- gradient part of a block -/
noncomputable def pmGradTerm (b : Bool) (P : Matrix (Fin n) (Fin n) ℝ) (f : Matrix (Fin n) (Fin N) ℝ) (g : Option (Matrix (Fin n) (Fin N) ℝ)) : Res (Fin N → ℝ) :=
  if b then (need g >>= fun g => .ok fun p => 2 * quad P f g p) else .ok 0

/-- kinetic part of a block, `diatomic/dftgrid_purem.cpp:299-316` -/
noncomputable def pmKinTerm (b : Bool) (G : PmGeo N) (m : Int) (P : Matrix (Fin n) (Fin n) ℝ) (f : Matrix (Fin n) (Fin N) ℝ) (dr dth : Option (Matrix (Fin n) (Fin N) ℝ)) : Res (Fin N → ℝ) :=
  if b then (need dr >>= fun dr => need dth >>= fun dth =>
    .ok fun p => quad P dr dr p * G.ir2 p + quad P dth dth p * G.ir2 p + (m * m : Int) * quad P f f p * G.ip2 p)
  else .ok 0

/-- what one block contributes to the density -/
noncomputable def pmTerm (fl : Flags) (G : PmGeo N) (P : Mat ℝ) (b : PmBlock N) : Res (PmSum N) :=
  gatherMat P b.idx >>= fun Pb => pmGradTerm fl.grad Pb b.f b.dr >>= fun gm => pmGradTerm fl.grad Pb b.f b.dth >>= fun gn =>
    pmKinTerm (fl.tau || fl.lapl) G b.m Pb b.f b.dr b.dth >>= fun kin => pmGradTerm fl.lapl Pb b.f b.lap >>= fun lap => .ok ⟨quad Pb b.f b.f, gm, gn, kin, lap⟩

/-- one pass of the loops over the blocks. With `share`, a block with negative `m` that has a mirror image is skipped, and the image counts twice. -/
noncomputable def pmDensStep (fl : Flags) (share : Bool) (G : PmGeo N) (P : Mat ℝ) (ms : List Int) (blk : Int → PmBlock N) (s : PmSum N) (m : Int) : Res (PmSum N) :=
  if (blk m).idx = [] then .ok s
  else
    let mirror := if share then pmMirror ms blk m else none
    if m < 0 ∧ mirror.isSome then .ok s
    else pmTerm fl G P (blk m) >>= fun t => .ok (s.plus (if 0 < m ∧ mirror.isSome then 2 else 1) t)

/-- the sums over all blocks -/
noncomputable def pmSums (fl : Flags) (share : Bool) (G : PmGeo N) (P : Mat ℝ) (ms : List Int) (blk : Int → PmBlock N) : Res (PmSum N) :=
  ms.foldlM (pmDensStep fl share G P ms blk) (PmSum.zero N)

/-- the scaled gradient -/
noncomputable def PmSum.grad (s : PmSum N) (G : PmGeo N) : Fin 2 → Fin N → ℝ := ![fun p => s.gm p / G.sc p, fun p => s.gn p / G.sc p]

/-- `update_density` with one density matrix (after `expand_boundaries`), `diatomic/dftgrid_purem.cpp:212-341` -/
noncomputable def pmDensity1 (fl : Flags) (share : Bool) (G : PmGeo N) (P : Mat ℝ) (ms : List Int) (blk : Int → PmBlock N) : Res (Dens1 2 N) :=
  pmSums fl share G P ms blk >>= fun s => .ok {
    rho := s.rho
    grho := if fl.grad then some (s.grad G) else none
    sigma := if fl.grad then some fun p => s.grad G 0 p * s.grad G 0 p + s.grad G 1 p * s.grad G 1 p else none
    tau := if fl.tau then some fun p => 0.5 * s.kin p else none
    lapl := if fl.lapl then some fun p => s.lap p + 2 * s.kin p else none }

/-- `update_density` with two density matrices, `diatomic/dftgrid_purem.cpp:343-442`: nothing is shared between mirror images -/
noncomputable def pmDensity2 (fl : Flags) (G : PmGeo N) (Pa Pb : Mat ℝ) (ms : List Int) (blk : Int → PmBlock N) : Res (Dens2 2 N) :=
  pmSums fl false G Pa ms blk >>= fun s => pmSums fl false G Pb ms blk >>= fun t => .ok {
    rhoa := s.rho
    rhob := t.rho
    grho := if fl.grad then some (s.grad G, t.grad G) else none
    sigma := if fl.grad then some (fun p => s.grad G 0 p * s.grad G 0 p + s.grad G 1 p * s.grad G 1 p, fun p => s.grad G 0 p * t.grad G 0 p + s.grad G 1 p * t.grad G 1 p,
      fun p => t.grad G 0 p * t.grad G 0 p + t.grad G 1 p * t.grad G 1 p) else none
    tau := if fl.tau then some (fun p => 0.5 * s.kin p, fun p => 0.5 * t.kin p) else none
    lapl := if fl.lapl then some (fun p => s.lap p + 2 * s.kin p, fun p => t.lap p + 2 * t.kin p) else none }

/-! ### Potential matrices -/

/-- gradient increment of a block -/
noncomputable def pmGga (b : Bool) (B : PmBlock N) (gn : Res (Fin N → Fin 2 → ℝ)) (H : Matrix (Fin B.idx.length) (Fin B.idx.length) ℝ) : Res (Matrix (Fin B.idx.length) (Fin B.idx.length) ℝ) :=
  if b then (gn >>= fun gn => need B.dr >>= fun dr => need B.dth >>= fun dth => .ok (incGgaReal H gn B.f ![dr, dth])) else .ok H

/-- meta-GGA increments of a block: the two derivatives, and the functions themselves with the weight `m²/h_φ²` -/
noncomputable def pmKin (b : Bool) (G : PmGeo N) (B : PmBlock N) (vtl : Res (Fin N → ℝ)) (H : Matrix (Fin B.idx.length) (Fin B.idx.length) ℝ) : Res (Matrix (Fin B.idx.length) (Fin B.idx.length) ℝ) :=
  if b then (vtl >>= fun v => need B.dr >>= fun dr => need B.dth >>= fun dth =>
    let H' := incLda (incLda H (fun p => v p * G.ir2 p) dr) (fun p => v p * G.ir2 p) dth
    .ok (if B.m * B.m ≠ 0 then incLda H' (fun p => v p * G.ip2 p * (B.m * B.m : Int)) B.f else H'))
  else .ok H

/-- Laplacian increment of a block -/
noncomputable def pmLapl (b : Bool) (G : PmGeo N) (B : PmBlock N) (vlapl : Buf N) (H : Matrix (Fin B.idx.length) (Fin B.idx.length) ℝ) : Res (Matrix (Fin B.idx.length) (Fin B.idx.length) ℝ) :=
  if b then (need vlapl >>= fun vl => need B.lap >>= fun l => .ok (incLapl H (fun p => vl p * G.w p) B.f l)) else .ok H

/-- the matrix of one block and one spin, `diatomic/dftgrid_purem.cpp:486-535` -/
noncomputable def pmChannel (gga t l : Bool) (G : PmGeo N) (B : PmBlock N) (vrho : Fin N → ℝ) (gn : Res (Fin N → Fin 2 → ℝ)) (vtau vlapl : Buf N) :
    Res (Matrix (Fin B.idx.length) (Fin B.idx.length) ℝ) :=
  pmGga gga B gn (incLda 0 (fun p => vrho p * G.w p) B.f) >>= fun H => pmKin (t || l) G B (vtlWeights G.w t l vtau vlapl) H >>= fun H => pmLapl l G B vlapl H

/-- the gradient weights of the restricted `eval_Fxc`, `diatomic/dftgrid_purem.cpp:496-507` -/
noncomputable def pmWeights1 (G : PmGeo N) (q : Dens1 2 N) (a : Acc1 N) : Res (Fin N → Fin 2 → ℝ) :=
  need a.vsigma >>= fun vs => need q.grho >>= fun gr => .ok fun p c => 2 * G.w p * vs p / G.sc p * gr c p

/-- the gradient weights of one spin, `diatomic/dftgrid_purem.cpp:588-611` -/
noncomputable def pmWeights2 (G : PmGeo N) (vss vab : Fin N → ℝ) (gs go : Fin 2 → Fin N → ℝ) (p : Fin N) (c : Fin 2) : ℝ :=
  G.w p / G.sc p * (2 * vss p * gs c p + vab p * go c p)

/-- the alpha gradient weights -/
noncomputable def pmWeightsA (G : PmGeo N) (q : Dens2 2 N) (a : Acc2 N) : Res (Fin N → Fin 2 → ℝ) :=
  need a.vsigma >>= fun vs => need q.grho >>= fun gr => .ok (pmWeights2 G vs.1 vs.2.1 gr.1 gr.2)

/-- the beta gradient weights -/
noncomputable def pmWeightsB (G : PmGeo N) (q : Dens2 2 N) (a : Acc2 N) : Res (Fin N → Fin 2 → ℝ) :=
  need a.vsigma >>= fun vs => need q.grho >>= fun gr => .ok (pmWeights2 G vs.2.2 vs.2.1 gr.2 gr.1)

/-- the block matrix added to the mirror image's functions -/
def pmScatterTo (H : Mat ℝ) (b c : PmBlock N) (Hm : Matrix (Fin b.idx.length) (Fin b.idx.length) ℝ) : Res (Mat ℝ) :=
  if h : c.idx.length = b.idx.length then scatterMat H c.idx (Hm.submatrix (Fin.cast h) (Fin.cast h)) else .ub

/-- adding a block matrix, and for positive `m` adding it to the mirror image too, `diatomic/dftgrid_purem.cpp:537-546` -/
def pmScatter (ms : List Int) (blk : Int → PmBlock N) (m : Int) (H : Mat ℝ) (Hm : Matrix (Fin (blk m).idx.length) (Fin (blk m).idx.length) ℝ) : Res (Mat ℝ) :=
  scatterMat H (blk m).idx Hm >>= fun H =>
    match pmMirror ms blk m with
    | none => .ok H
    | some k => if 0 < m then pmScatterTo H (blk m) (blk k) Hm else .ok H

/-- one block of `eval_Fxc` and one spin; `ch` makes the block's matrix -/
noncomputable def pmFockStep (ms : List Int) (blk : Int → PmBlock N) (ch : (B : PmBlock N) → Res (Matrix (Fin B.idx.length) (Fin B.idx.length) ℝ)) (H : Mat ℝ) (m : Int) : Res (Mat ℝ) :=
  if (blk m).idx = [] then .ok H
  else if m < 0 ∧ (pmMirror ms blk m).isSome then .ok H
  else ch (blk m) >>= fun Hm => pmScatter ms blk m H Hm

/-- all blocks -/
noncomputable def pmFock (ms : List Int) (blk : Int → PmBlock N) (ch : (B : PmBlock N) → Res (Matrix (Fin B.idx.length) (Fin B.idx.length) ℝ)) (H : Mat ℝ) : Res (Mat ℝ) :=
  ms.foldlM (pmFockStep ms blk ch) H

/-- the matrices of the restricted `eval_Fxc`, `diatomic/dftgrid_purem.cpp:474-548` -/
noncomputable def pmFxc1 (G : PmGeo N) (q : Dens1 2 N) (a : Acc1 N) (B : PmBlock N) : Res (Matrix (Fin B.idx.length) (Fin B.idx.length) ℝ) :=
  pmChannel a.gga a.t a.l G B a.vxc (pmWeights1 G q a) a.vtau a.vlapl

/-- the alpha matrices of the unrestricted `eval_Fxc`, `diatomic/dftgrid_purem.cpp:550-657` -/
noncomputable def pmFxcA (G : PmGeo N) (q : Dens2 2 N) (a : Acc2 N) (B : PmBlock N) : Res (Matrix (Fin B.idx.length) (Fin B.idx.length) ℝ) :=
  pmChannel a.gga a.t a.l G B a.va (pmWeightsA G q a) (a.vtau.map (·.1)) (a.vlapl.map (·.1))

/-- the beta matrices -/
noncomputable def pmFxcB (G : PmGeo N) (q : Dens2 2 N) (a : Acc2 N) (B : PmBlock N) : Res (Matrix (Fin B.idx.length) (Fin B.idx.length) ℝ) :=
  pmChannel a.gga a.t a.l G B a.vb (pmWeightsB G q a) (a.vtau.map (·.2)) (a.vlapl.map (·.2))

/-! ### The grid -/

variable (env : Libxc)

/-- one radial point of the restricted loop, `diatomic/dftgrid_purem.cpp:686-697` -/
noncomputable def pmStep1 (lm : List (Int × Int)) (nrad : Nat) (share : Bool) (fn : Funcs) (fl : Flags) (P0 : Mat ℝ) (s : Tot1) (e : PmPoint) : Res Tot1 :=
  if P0.rows * P0.cols = 0 then .throw .runtimeError
  else Dia.expandBoundaries lm nrad P0 >>= fun P => pmDensity1 fl share (pmGeo e) P (Sym.uniqueM lm) (pmBlock fl lm nrad e) >>= fun q => ekin1 fl (pmGeo e).w q >>= fun ek =>
    computeBoth1 env fn.x fn.c fn.xp fn.cp fn.thr q (init1 _ fl) >>= fun a => pmFock (Sym.uniqueM lm) (pmBlock fl lm nrad e) (pmFxc1 (pmGeo e) q a) s.H >>= fun H =>
      .ok ⟨s.exc + evalExc1 (pmGeo e).w q a, s.nel + nel1 (pmGeo e).w q, s.ekin + ek, H⟩

/-- `PureMDFTGrid::eval_Fxc`, restricted, `diatomic/dftgrid_purem.cpp:675-702`; `share` is `is_absm_symmetric()` -/
noncomputable def pmGrid1 (lm : List (Int × Int)) (nrad : Nat) (share : Bool) (fn : Funcs) (P : Mat ℝ) (pts : List PmPoint) : Res Tot1 :=
  checkFlags env fn.x fn.c >>= fun fl =>
    pts.foldlM (pmStep1 env lm nrad share fn fl P) ⟨0, 0, 0, Mat.zero (Dia.nDummy lm nrad) (Dia.nDummy lm nrad)⟩ >>= fun s =>
      Dia.removeBoundaries lm nrad s.H >>= fun H => .ok ⟨s.exc, s.nel, s.ekin, H⟩

/-- the beta matrix is only touched if `beta` -/
noncomputable def pmFockBeta (beta : Bool) (ms : List Int) (blk : Int → PmBlock N) (ch : (B : PmBlock N) → Res (Matrix (Fin B.idx.length) (Fin B.idx.length) ℝ)) (H : Mat ℝ) : Res (Mat ℝ) :=
  if beta then pmFock ms blk ch H else .ok H

/-- one radial point of the unrestricted loop, `diatomic/dftgrid_purem.cpp:716-728`; the two spins' loops over the blocks are one after the other here -/
noncomputable def pmStep2 (lm : List (Int × Int)) (nrad : Nat) (fn : Funcs) (fl : Flags) (Pa0 Pb0 : Mat ℝ) (beta : Bool) (s : Tot2) (e : PmPoint) : Res Tot2 :=
  if Pa0.rows * Pa0.cols = 0 ∨ Pb0.rows * Pb0.cols = 0 then .throw .runtimeError
  else Dia.expandBoundaries lm nrad Pa0 >>= fun Pa => Dia.expandBoundaries lm nrad Pb0 >>= fun Pb =>
    pmDensity2 fl (pmGeo e) Pa Pb (Sym.uniqueM lm) (pmBlock fl lm nrad e) >>= fun q => ekin2 fl (pmGeo e).w q >>= fun ek =>
      computeBoth2 env fn.x fn.c fn.xp fn.cp fn.thr q (init2 _ fl) >>= fun a => pmFock (Sym.uniqueM lm) (pmBlock fl lm nrad e) (pmFxcA (pmGeo e) q a) s.Ha >>= fun Ha =>
        pmFockBeta beta (Sym.uniqueM lm) (pmBlock fl lm nrad e) (pmFxcB (pmGeo e) q a) s.Hb >>= fun Hb =>
          .ok ⟨s.exc + evalExc2 (pmGeo e).w q a, s.nel + nel2 (pmGeo e).w q, s.ekin + ek, Ha, Hb⟩

/-- `PureMDFTGrid::eval_Fxc`, unrestricted, `diatomic/dftgrid_purem.cpp:704-744`: the beta matrix is always returned -/
noncomputable def pmGrid2 (lm : List (Int × Int)) (nrad : Nat) (fn : Funcs) (Pa Pb : Mat ℝ) (beta : Bool) (pts : List PmPoint) : Res Tot2 :=
  checkFlags env fn.x fn.c >>= fun fl =>
    pts.foldlM (pmStep2 env lm nrad fn fl Pa Pb beta) ⟨0, 0, 0, Mat.zero (Dia.nDummy lm nrad) (Dia.nDummy lm nrad), Mat.zero (Dia.nDummy lm nrad) (Dia.nDummy lm nrad)⟩ >>= fun s =>
      Dia.removeBoundaries lm nrad s.Ha >>= fun Ha => Dia.removeBoundaries lm nrad s.Hb >>= fun Hb => .ok ⟨s.exc, s.nel, s.ekin, Ha, Hb⟩

end XC
end HelFEM
