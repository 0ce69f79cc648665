import Verif.Model.GridXC
import Mathlib.Analysis.Real.Pi.Bounds

/-!
# Exchange-correlation matrices on the spherically averaged atomic grid

Models `src/sadatom/dftgrid.cpp`. The radial functions at the quadrature points come from `TwoDBasis::eval_bf`, `eval_df`, `eval_lf`; here they are data of an element. A `helfem::Cube`
is a vector of matrices, one per angular momentum. Left out: the NaN warnings and the cache of basis-function values, which holds what `eval_bf` and the others return.
-/

namespace HelFEM
namespace XC

open Matrix

variable {n N : Nat}

/-- `helfem::Cube`: `size` matrices -/
structure Cube where
  size : Nat
  slice : Nat → Mat ℝ

/-- `C[l] = M` -/
def Cube.set (C : Cube) (l : Nat) (M : Mat ℝ) : Cube := ⟨C.size, fun k => if k = l then M else C.slice k⟩

/-- One radial element: function indices `bf_list(iel)`, radii, weights and the functions, their first and their second derivatives at the points. -/
structure SadElem where
  npt : Nat
  idx : List Nat
  r : Fin npt → ℝ
  wrad : Fin npt → ℝ
  bf : Matrix (Fin npt) (Fin idx.length) ℝ
  df : Matrix (Fin npt) (Fin idx.length) ℝ
  lf : Matrix (Fin npt) (Fin idx.length) ℝ

/-- The worker's buffers after `compute_bf`. -/
structure SadVals (n N : Nat) where
  r : Fin N → ℝ
  wrad : Fin N → ℝ
  w : Fin N → ℝ
  f : Matrix (Fin n) (Fin N) ℝ
  g : Option (Matrix (Fin n) (Fin N) ℝ)
  l : Option (Matrix (Fin n) (Fin N) ℝ)

/-- `compute_bf`, `sadatom/dftgrid.cpp:464-486` -/
noncomputable def sadBf (fl : Flags) (e : SadElem) : SadVals e.idx.length e.npt where
  r := e.r
  wrad := e.wrad
  w := fun p => 4 * Real.pi * e.wrad p * e.r p ^ 2
  f := e.bfᵀ
  g := if fl.grad then some e.dfᵀ else none
  l := if fl.lapl then some e.lfᵀ else none

/-- `(double)(islice*(islice+1))` -/
def ll1 (l : Nat) : ℝ := ((l * (l + 1) : Nat) : ℝ)

/-- the sums `P` and `Pl` of the gathered slices, `sadatom/dftgrid.cpp:50-68`; the two loops over the slices are one -/
noncomputable def sadGather (P : Cube) (idx : List Nat) : Res (Matrix (Fin idx.length) (Fin idx.length) ℝ × Matrix (Fin idx.length) (Fin idx.length) ℝ) :=
  (List.range P.size).foldlM (fun (s : Matrix (Fin idx.length) (Fin idx.length) ℝ × Matrix (Fin idx.length) (Fin idx.length) ℝ) l =>
    gatherMat (P.slice l) idx >>= fun G => .ok (s.1 + G, s.2 + ll1 l • G)) (0, 0)

/-- `grho(0,ip)` -/
noncomputable def sadGrad (P : Matrix (Fin n) (Fin n) ℝ) (f g : Matrix (Fin n) (Fin N) ℝ) (p : Fin N) : ℝ := 2 * quad P f g p

/-- the kinetic energy density of one spin channel -/
noncomputable def sadTau (b : Bool) (P Pl : Matrix (Fin n) (Fin n) ℝ) (V : SadVals n N) : Res (Buf N) :=
  if b then (need V.g >>= fun g => .ok (some fun p => 0.5 * (quad P g g p + max (quad Pl V.f V.f p / (V.r p * V.r p)) 0))) else .ok none

/-- the Laplacian of one spin channel -/
noncomputable def sadLapl (b : Bool) (P : Matrix (Fin n) (Fin n) ℝ) (V : SadVals n N) : Res (Buf N) :=
  if b then (need V.g >>= fun g => need V.l >>= fun l => .ok (some fun p => 2 * quad P g g p + 2 * quad P V.f l p + 4 * quad P V.f g p / V.r p)) else .ok none

/-- `update_density` with one density, `sadatom/dftgrid.cpp:45-125` -/
noncomputable def sadDensity1 (fl : Flags) (P0 : Cube) (idx : List Nat) (V : SadVals idx.length N) : Res (Dens1 1 N) :=
  sadGather P0 idx >>= fun P =>
    (if fl.grad then (need V.g >>= fun g => .ok (some (fun (_ : Fin 1) => sadGrad P.1 V.f g, fun p => sadGrad P.1 V.f g p * sadGrad P.1 V.f g p))) else .ok none) >>= fun gr =>
      sadTau fl.tau P.1 P.2 V >>= fun ta => sadLapl fl.lapl P.1 V >>= fun la => .ok ⟨quad P.1 V.f V.f, gr.map (·.1), gr.map (·.2), ta, la⟩

/-- `update_density` with two densities, `sadatom/dftgrid.cpp:127-242` -/
noncomputable def sadDensity2 (fl : Flags) (A0 B0 : Cube) (idx : List Nat) (V : SadVals idx.length N) : Res (Dens2 1 N) :=
  if A0.size = 0 ∨ B0.size = 0 then .throw .runtimeError
  else sadGather A0 idx >>= fun A => sadGather B0 idx >>= fun B =>
    (if fl.grad then (need V.g >>= fun g => .ok (some (((fun (_ : Fin 1) => sadGrad A.1 V.f g), fun (_ : Fin 1) => sadGrad B.1 V.f g),
      ((fun p => sadGrad A.1 V.f g p * sadGrad A.1 V.f g p), (fun p => sadGrad A.1 V.f g p * sadGrad B.1 V.f g p), fun p => sadGrad B.1 V.f g p * sadGrad B.1 V.f g p))))
      else .ok none) >>= fun gr =>
      sadTau fl.tau A.1 A.2 V >>= fun ta => sadTau fl.tau B.1 B.2 V >>= fun tb => sadLapl fl.lapl A.1 V >>= fun la => sadLapl fl.lapl B.1 V >>= fun lb =>
        .ok ⟨quad A.1 V.f V.f, quad B.1 V.f V.f, gr.map (·.1), gr.map (·.2), pairUp ta tb, pairUp la lb⟩

/-- the gradient part: the weights `gr`, with the extra term `2 vlapl r wrad 4π` if there is Laplacian dependence -/
noncomputable def sadGga (b l : Bool) (V : SadVals n N) (gn : Res (Fin N → ℝ)) (vlapl : Buf N) (H : Matrix (Fin n) (Fin n) ℝ) : Res (Matrix (Fin n) (Fin n) ℝ) :=
  if b then (gn >>= fun gr => needIf l vlapl >>= fun vl => need V.g >>= fun g =>
    .ok (incGgaReal H (fun p (_ : Fin 1) => if l then gr p + 2 * vl p * V.r p * (V.wrad p * 4 * Real.pi) else gr p) V.f fun _ => g))
  else .ok H

/-- the base term of the meta-GGA part: `0.5 vtau + 2 vlapl` on the derivatives -/
noncomputable def sadKin (b : Bool) (V : SadVals n N) (vtl : Res (Fin N → ℝ)) (H : Matrix (Fin n) (Fin n) ℝ) : Res (Matrix (Fin n) (Fin n) ℝ) :=
  if b then (vtl >>= fun v => need V.g >>= fun g => .ok (incLda H v g)) else .ok H

/-- the matrix multiplied by `l(l+1)` -/
noncomputable def sadCent (b : Bool) (V : SadVals n N) (vtau : Buf N) : Res (Matrix (Fin n) (Fin n) ℝ) :=
  if b then (need vtau >>= fun vt => .ok (incLda 0 (fun p => vt p * (0.5 * V.wrad p * 4 * Real.pi)) V.f)) else .ok 0

/-- the Laplacian increment -/
noncomputable def sadLaplStep (b : Bool) (V : SadVals n N) (vlapl : Buf N) (H : Matrix (Fin n) (Fin n) ℝ) : Res (Matrix (Fin n) (Fin n) ℝ) :=
  if b then (need vlapl >>= fun vl => need V.l >>= fun l => .ok (incLapl H (fun p => vl p * V.w p) V.f l)) else .ok H

/-- the matrices `H` and `Hl` of one spin channel -/
noncomputable def sadChannel (gga t l : Bool) (V : SadVals n N) (vrho : Fin N → ℝ) (gn : Res (Fin N → ℝ)) (vtau vlapl : Buf N) :
    Res (Matrix (Fin n) (Fin n) ℝ × Matrix (Fin n) (Fin n) ℝ) :=
  sadGga gga l V gn vlapl (incLda 0 (fun p => vrho p * V.w p) V.f) >>= fun H => sadKin (t || l) V (vtlWeights V.w t l vtau vlapl) H >>= fun H =>
    sadCent t V vtau >>= fun Hl => sadLaplStep l V vlapl H >>= fun H => .ok (H, Hl)

/-- the gradient weights of the restricted `eval_Fxc` -/
noncomputable def sadWeights1 (V : SadVals n N) (q : Dens1 1 N) (a : Acc1 N) : Res (Fin N → ℝ) :=
  need a.vsigma >>= fun vs => need q.grho >>= fun gr => .ok fun p => gr 0 p * (2 * (V.w p * vs p))

/-- the element matrices of the restricted `eval_Fxc`, `sadatom/dftgrid.cpp:256-318` -/
noncomputable def sadFxc1 (V : SadVals n N) (q : Dens1 1 N) (a : Acc1 N) : Res (Matrix (Fin n) (Fin n) ℝ × Matrix (Fin n) (Fin n) ℝ) :=
  sadChannel a.gga a.t a.l V a.vxc (sadWeights1 V q a) a.vtau a.vlapl

/-- the alpha gradient weights -/
noncomputable def sadWeightsA (V : SadVals n N) (q : Dens2 1 N) (a : Acc2 N) : Res (Fin N → ℝ) :=
  need a.vsigma >>= fun vs => need q.grho >>= fun gr => .ok fun p => V.w p * (2 * vs.1 p * gr.1 0 p + vs.2.1 p * gr.2 0 p)

/-- the beta gradient weights -/
noncomputable def sadWeightsB (V : SadVals n N) (q : Dens2 1 N) (a : Acc2 N) : Res (Fin N → ℝ) :=
  need a.vsigma >>= fun vs => need q.grho >>= fun gr => .ok fun p => V.w p * (2 * vs.2.2 p * gr.2 0 p + vs.2.1 p * gr.1 0 p)

/-- the alpha matrices of the unrestricted `eval_Fxc`, `sadatom/dftgrid.cpp:330-440` -/
noncomputable def sadFxcA (V : SadVals n N) (q : Dens2 1 N) (a : Acc2 N) : Res (Matrix (Fin n) (Fin n) ℝ × Matrix (Fin n) (Fin n) ℝ) :=
  sadChannel a.gga a.t a.l V a.va (sadWeightsA V q a) (a.vtau.map (·.1)) (a.vlapl.map (·.1))

/-- the beta matrices, computed if `beta` -/
noncomputable def sadFxcB (V : SadVals n N) (q : Dens2 1 N) (a : Acc2 N) : Res (Matrix (Fin n) (Fin n) ℝ × Matrix (Fin n) (Fin n) ℝ) :=
  sadChannel a.gga a.t a.l V a.vb (sadWeightsB V q a) (a.vtau.map (·.2)) (a.vlapl.map (·.2))

/-- "Collect results", `sadatom/dftgrid.cpp:320-327` -/
noncomputable def sadScatter (Ho : Cube) (idx : List Nat) (H Hl : Matrix (Fin idx.length) (Fin idx.length) ℝ) : Res Cube :=
  (List.range Ho.size).foldlM (fun (C : Cube) l => scatterMat (C.slice l) idx (H + ll1 l • Hl) >>= fun M => .ok (C.set l M)) Ho

/-- What a restricted `eval_Fxc` returns. -/
structure SadTot1 where
  exc : ℝ
  nel : ℝ
  H : Cube

/-- What an unrestricted `eval_Fxc` returns. -/
structure SadTot2 where
  exc : ℝ
  nel : ℝ
  Ha : Cube
  Hb : Cube

variable (env : Libxc)

/-- one element of the restricted loop, `sadatom/dftgrid.cpp:533-545` -/
noncomputable def sadStep1 (fn : Funcs) (fl : Flags) (P : Cube) (s : SadTot1) (e : SadElem) : Res SadTot1 :=
  sadDensity1 fl P e.idx (sadBf fl e) >>= fun q => computeBoth1 env fn.x fn.c fn.xp fn.cp fn.thr q (init1 _ fl) >>= fun a => sadFxc1 (sadBf fl e) q a >>= fun H =>
    sadScatter s.H e.idx H.1 H.2 >>= fun Ho => .ok ⟨s.exc + evalExc1 (sadBf fl e).w q a, s.nel + nel1 (sadBf fl e).w q, Ho⟩

/-- one zeroed square matrix per slice; the size is that of the first slice, which has to exist -/
def sadZero (P : Cube) : Res Cube := if P.size = 0 then .ub else .ok ⟨P.size, fun _ => Mat.zero (P.slice 0).rows (P.slice 0).rows⟩

/-- `DFTGrid::eval_Fxc`, restricted, `sadatom/dftgrid.cpp:505-574` -/
noncomputable def sadGrid1 (fn : Funcs) (P : Cube) (elems : List SadElem) : Res SadTot1 :=
  sadZero P >>= fun H => checkFlags env fn.x fn.c >>= fun fl => elems.foldlM (sadStep1 env fn fl P) ⟨0, 0, H⟩

/-- one element of the unrestricted loop, `sadatom/dftgrid.cpp:606-618` -/
noncomputable def sadStep2 (fn : Funcs) (fl : Flags) (A B : Cube) (beta : Bool) (s : SadTot2) (e : SadElem) : Res SadTot2 :=
  sadDensity2 fl A B e.idx (sadBf fl e) >>= fun q => computeBoth2 env fn.x fn.c fn.xp fn.cp fn.thr q (init2 _ fl) >>= fun a => sadFxcA (sadBf fl e) q a >>= fun Ha =>
    sadScatter s.Ha e.idx Ha.1 Ha.2 >>= fun Hao => (if beta then (sadFxcB (sadBf fl e) q a >>= fun Hb => sadScatter s.Hb e.idx Hb.1 Hb.2) else .ok s.Hb) >>= fun Hbo =>
      .ok ⟨s.exc + evalExc2 (sadBf fl e).w q a, s.nel + nel2 (sadBf fl e).w q, Hao, Hbo⟩

/-- `DFTGrid::eval_Fxc`, unrestricted, `sadatom/dftgrid.cpp:576-653`; without `beta` the beta accumulator, which stays zero, is replaced by zeros -/
noncomputable def sadGrid2 (fn : Funcs) (A B : Cube) (beta : Bool) (elems : List SadElem) : Res SadTot2 :=
  sadZero A >>= fun Ha => sadZero B >>= fun Hb => checkFlags env fn.x fn.c >>= fun fl => elems.foldlM (sadStep2 env fn fl A B beta) ⟨0, 0, Ha, Hb⟩ >>= fun s =>
    if beta then .ok s else .ok ⟨s.exc, s.nel, s.Ha, Hb⟩

end XC
end HelFEM
