import Verif.Model.XC
import Verif.Model.DiaIndex
import Mathlib.Logic.Equiv.Fin.Basic
import Mathlib.Analysis.SpecialFunctions.Trigonometric.DerivHyp

/-!
# Exchange-correlation matrices on the atomic and the three-dimensional diatomic grid

Models `src/atomic/dftgrid.cpp` and `src/diatomic/dftgrid.cpp`. The complex basis functions at the grid points come from `TwoDBasis::eval_bf`, `eval_df`, `eval_lf`; here they are data
of an element. Left out: the printed integral of the Laplacian (`compute_laplsum`), the NaN warnings, `check_array` (unused), and the size check of the evaluated functions, whose
number is fixed by the types.
-/

namespace HelFEM
namespace XC

open Matrix

variable {n N : Nat}

/-- The worker's buffers after `compute_bf`: weights, functions, their derivatives in the three coordinates, Laplacians, scale factors and inverse squares. -/
structure Vals (n N : Nat) where
  w : Fin N → ℝ
  f : Matrix (Fin n) (Fin N) ℂ
  g : Option (Fin 3 → Matrix (Fin n) (Fin N) ℂ)
  lap : Option (Matrix (Fin n) (Fin N) ℂ)
  sc : Fin 3 → Fin N → ℝ
  isc : Fin 3 → Fin N → ℝ

/-- `bf.real()` -/
noncomputable def re (f : Matrix (Fin n) (Fin N) ℂ) : Matrix (Fin n) (Fin N) ℝ := f.map Complex.re
/-- `bf.imag()` -/
noncomputable def im (f : Matrix (Fin n) (Fin N) ℂ) : Matrix (Fin n) (Fin N) ℝ := f.map Complex.im

/-- One radial element of the atomic basis with the angular grid: function indices `bf_list(iel)`, radii, weights, and the evaluated functions per angular point. -/
structure AtomElem where
  nrad : Nat
  nang : Nat
  idx : List Nat
  r : Fin nrad → ℝ
  wrad : Fin nrad → ℝ
  cth : Fin nang → ℝ
  wang : Fin nang → ℝ
  bf : Fin nang → Matrix (Fin nrad) (Fin idx.length) ℂ
  df : Fin nang → Fin 3 → Matrix (Fin nrad) (Fin idx.length) ℂ
  lf : Fin nang → Matrix (Fin nrad) (Fin idx.length) ℂ

/-- point `ia*nrad+ir` -/
def pt {nang nrad : Nat} (p : Fin (nang * nrad)) : Fin nang × Fin nrad := finProdFinEquiv.symm p

/-- `bf.block(0,ia*nrad,nbf,nrad)=abf.adjoint()` for every angular point -/
noncomputable def storeAdjoint {nang nrad nbf : Nat} (a : Fin nang → Matrix (Fin nrad) (Fin nbf) ℂ) : Matrix (Fin nbf) (Fin (nang * nrad)) ℂ :=
  Matrix.of fun i p => ((a (pt p).1)ᴴ) i (pt p).2

/-- The scale factors `scale_r`, `scale_theta`, `scale_phi`, `atomic/dftgrid.cpp:481-498` -/
noncomputable def AtomElem.scale (e : AtomElem) (c : Fin 3) (p : Fin (e.nang * e.nrad)) : ℝ :=
  if c = 0 then 1 else if c = 1 then e.r (pt p).2 else e.r (pt p).2 * √(1 - e.cth (pt p).1 * e.cth (pt p).1)

/-- `compute_bf`, `atomic/dftgrid.cpp:470-576` -/
noncomputable def atomBf (fl : Flags) (e : AtomElem) : Vals e.idx.length (e.nang * e.nrad) where
  w := fun p => e.wang (pt p).1 * e.wrad (pt p).2 * e.r (pt p).2 ^ 2
  f := storeAdjoint e.bf
  g := if fl.grad then some fun c => storeAdjoint fun ia => e.df ia c else none
  lap := if fl.lapl then some (storeAdjoint e.lf) else none
  sc := e.scale
  isc := fun c p => if c = 0 then 1 else ((e.scale c p) ^ 2)⁻¹

/-! ### Densities -/

/-- `(P f_re)·g_re + (P f_im)·g_im` at a point -/
noncomputable def dens (P : Matrix (Fin n) (Fin n) ℝ) (f g : Matrix (Fin n) (Fin N) ℂ) (p : Fin N) : ℝ := quad P (re f) (re g) p + quad P (im f) (im g) p

/-- `grho(c,ip)` -/
noncomputable def gradc (P : Matrix (Fin n) (Fin n) ℝ) (V : Vals n N) (g : Fin 3 → Matrix (Fin n) (Fin N) ℂ) (c : Fin 3) (p : Fin N) : ℝ :=
  2 * dens P V.f (g c) p / V.sc c p

/-- `kin` -/
noncomputable def kinc (P : Matrix (Fin n) (Fin n) ℝ) (V : Vals n N) (g : Fin 3 → Matrix (Fin n) (Fin N) ℂ) (p : Fin N) : ℝ :=
  dens P (g 0) (g 0) p / V.sc 0 p ^ 2 + dens P (g 1) (g 1) p / V.sc 1 p ^ 2 + dens P (g 2) (g 2) p / V.sc 2 p ^ 2

/-- the gradient block of the restricted `update_density` -/
noncomputable def gradPart1 (b : Bool) (P : Matrix (Fin n) (Fin n) ℝ) (V : Vals n N) : Res (Option ((Fin 3 → Fin N → ℝ) × (Fin N → ℝ))) :=
  if b then (need V.g >>= fun g => .ok (some (gradc P V g,
    fun p => gradc P V g 0 p * gradc P V g 0 p + gradc P V g 1 p * gradc P V g 1 p + gradc P V g 2 p * gradc P V g 2 p)))
  else .ok none

/-- the kinetic energy density of one spin channel -/
noncomputable def tauPart (b : Bool) (P : Matrix (Fin n) (Fin n) ℝ) (V : Vals n N) : Res (Buf N) :=
  if b then (need V.g >>= fun g => .ok (some fun p => 0.5 * kinc P V g p)) else .ok none

/-- the Laplacian of one spin channel -/
noncomputable def laplPart (b : Bool) (P : Matrix (Fin n) (Fin n) ℝ) (V : Vals n N) : Res (Buf N) :=
  if b then (need V.g >>= fun g => need V.lap >>= fun l => .ok (some fun p => 2 * (kinc P V g p + dens P V.f l p))) else .ok none

/-- `update_density` with one density matrix, `atomic/dftgrid.cpp:51-128` -/
noncomputable def atomDensity1 (fl : Flags) (P0 : Mat ℝ) (idx : List Nat) (V : Vals idx.length N) : Res (Dens1 3 N) :=
  if P0.rows * P0.cols = 0 then .throw .runtimeError
  else gatherMat P0 idx >>= fun P => gradPart1 fl.grad P V >>= fun gr => tauPart (fl.tau || fl.lapl) P V >>= fun ta => laplPart fl.lapl P V >>= fun la =>
    .ok ⟨dens P V.f V.f, gr.map (·.1), gr.map (·.2), ta, la⟩

/-- the gradient block of the unrestricted `update_density` -/
noncomputable def gradPart2 (b : Bool) (Pa Pb : Matrix (Fin n) (Fin n) ℝ) (V : Vals n N) :
    Res (Option (((Fin 3 → Fin N → ℝ) × (Fin 3 → Fin N → ℝ)) × ((Fin N → ℝ) × (Fin N → ℝ) × (Fin N → ℝ)))) :=
  if b then (need V.g >>= fun g => .ok (some ((gradc Pa V g, gradc Pb V g),
    (fun p => gradc Pa V g 0 p * gradc Pa V g 0 p + gradc Pa V g 1 p * gradc Pa V g 1 p + gradc Pa V g 2 p * gradc Pa V g 2 p,
     fun p => gradc Pa V g 0 p * gradc Pb V g 0 p + gradc Pa V g 1 p * gradc Pb V g 1 p + gradc Pa V g 2 p * gradc Pb V g 2 p,
     fun p => gradc Pb V g 0 p * gradc Pb V g 0 p + gradc Pb V g 1 p * gradc Pb V g 1 p + gradc Pb V g 2 p * gradc Pb V g 2 p))))
  else .ok none

/-- both rows of an optional buffer -/
def pairUp (a b : Buf N) : Option ((Fin N → ℝ) × (Fin N → ℝ)) := a.bind fun x => b.map fun y => (x, y)

/-- `update_density` with two density matrices, `atomic/dftgrid.cpp:130-242` -/
noncomputable def atomDensity2 (fl : Flags) (Pa0 Pb0 : Mat ℝ) (idx : List Nat) (V : Vals idx.length N) : Res (Dens2 3 N) :=
  if Pa0.rows * Pa0.cols = 0 ∨ Pb0.rows * Pb0.cols = 0 then .throw .runtimeError
  else gatherMat Pa0 idx >>= fun Pa => gatherMat Pb0 idx >>= fun Pb => gradPart2 fl.grad Pa Pb V >>= fun gr =>
    tauPart (fl.tau || fl.lapl) Pa V >>= fun ta => tauPart (fl.tau || fl.lapl) Pb V >>= fun tb =>
      laplPart fl.lapl Pa V >>= fun la => laplPart fl.lapl Pb V >>= fun lb =>
        .ok ⟨dens Pa V.f V.f, dens Pb V.f V.f, gr.map (·.1), gr.map (·.2), pairUp ta tb, pairUp la lb⟩

/-- `compute_Ekin` without polarization, `atomic/dftgrid.cpp:259-272`, `diatomic/dftgrid.cpp:229-242` -/
noncomputable def ekin1 {d : Nat} (fl : Flags) (w : Fin N → ℝ) (q : Dens1 d N) : Res ℝ :=
  if fl.tau then (need q.tau >>= fun t => .ok (∑ p, w p * t p)) else .ok 0

/-- `compute_Ekin` with polarization -/
noncomputable def ekin2 {d : Nat} (fl : Flags) (w : Fin N → ℝ) (q : Dens2 d N) : Res ℝ :=
  if fl.tau then (need q.tau >>= fun t => .ok (∑ p, w p * (t.1 p + t.2 p))) else .ok 0

/-! ### Potential matrices -/

/-- `increment_gga_split` with the three derivative buffers -/
noncomputable def ggaStep (b : Bool) (V : Vals n N) (gn : Res (Fin N → Fin 3 → ℝ)) (H : Matrix (Fin n) (Fin n) ℝ) : Res (Matrix (Fin n) (Fin n) ℝ) :=
  if b then (gn >>= fun gn => need V.g >>= fun g => .ok (incGgaSplit H gn (re V.f) (im V.f) (fun c => re (g c)) fun c => im (g c))) else .ok H

/-- the weights `0.5 vtau + 2 vlapl`, times the quadrature weights -/
noncomputable def vtlWeights (w : Fin N → ℝ) (t l : Bool) (vtau vlapl : Buf N) : Res (Fin N → ℝ) :=
  needIf t vtau >>= fun vt => needIf l vlapl >>= fun vl => .ok fun p => ((if t then 0.5 * vt p else 0) + (if l then 2 * vl p else 0)) * w p

/-- the three derivative increments of the meta-GGA part -/
noncomputable def kinStep (b : Bool) (V : Vals n N) (vtl : Res (Fin N → ℝ)) (H : Matrix (Fin n) (Fin n) ℝ) : Res (Matrix (Fin n) (Fin n) ℝ) :=
  if b then (vtl >>= fun v => need V.g >>= fun g =>
    .ok (incLdaSplit (incLdaSplit (incLdaSplit H (fun p => v p * V.isc 0 p) (re (g 0)) (im (g 0))) (fun p => v p * V.isc 1 p) (re (g 1)) (im (g 1)))
      (fun p => v p * V.isc 2 p) (re (g 2)) (im (g 2))))
  else .ok H

/-- the same with `increment_lda<std::complex<double>>` -/
noncomputable def kinStepC (b : Bool) (V : Vals n N) (vtl : Res (Fin N → ℝ)) (H : Matrix (Fin n) (Fin n) ℝ) : Res (Matrix (Fin n) (Fin n) ℝ) :=
  if b then (vtl >>= fun v => need V.g >>= fun g =>
    .ok (incLdaC (incLdaC (incLdaC H (fun p => v p * V.isc 0 p) (g 0)) (fun p => v p * V.isc 1 p) (g 1)) (fun p => v p * V.isc 2 p) (g 2)))
  else .ok H

/-- the Laplacian increment -/
noncomputable def laplStep (b : Bool) (V : Vals n N) (vlapl : Buf N) (H : Matrix (Fin n) (Fin n) ℝ) : Res (Matrix (Fin n) (Fin n) ℝ) :=
  if b then (need vlapl >>= fun vl => need V.lap >>= fun l => .ok (incLaplSplit H (fun p => vl p * V.w p) (re V.f) (im V.f) (re l) (im l))) else .ok H

/-- the gradient weights of the restricted `eval_Fxc` -/
noncomputable def ggaWeights1 (V : Vals n N) (q : Dens1 3 N) (a : Acc1 N) : Res (Fin N → Fin 3 → ℝ) :=
  need a.vsigma >>= fun vs => need q.grho >>= fun gr => .ok fun p c => gr c p * (2 * V.w p * vs p / V.sc c p)

/-- the element matrix of the restricted `eval_Fxc`, `atomic/dftgrid.cpp:304-354` -/
noncomputable def atomFxc1 (V : Vals n N) (q : Dens1 3 N) (a : Acc1 N) : Res (Matrix (Fin n) (Fin n) ℝ) :=
  ggaStep a.gga V (ggaWeights1 V q a) (incLdaSplit 0 (fun p => a.vxc p * V.w p) (re V.f) (im V.f)) >>= fun H =>
    kinStep (a.t || a.l) V (vtlWeights V.w a.t a.l a.vtau a.vlapl) H >>= fun H => laplStep a.l V a.vlapl H

/-- the gradient weights of one spin: `w (2 v_σσ ∇ρ_σ + v_αβ ∇ρ_σ') / scale` -/
noncomputable def ggaWeights2 (V : Vals n N) (vss vab : Fin N → ℝ) (gs go : Fin 3 → Fin N → ℝ) (p : Fin N) (c : Fin 3) : ℝ :=
  V.w p * (2 * vss p * gs c p + vab p * go c p) / V.sc c p

/-- the alpha gradient weights -/
noncomputable def ggaWeightsA (V : Vals n N) (q : Dens2 3 N) (a : Acc2 N) : Res (Fin N → Fin 3 → ℝ) :=
  need a.vsigma >>= fun vs => need q.grho >>= fun gr => .ok (ggaWeights2 V vs.1 vs.2.1 gr.1 gr.2)

/-- the beta gradient weights -/
noncomputable def ggaWeightsB (V : Vals n N) (q : Dens2 3 N) (a : Acc2 N) : Res (Fin N → Fin 3 → ℝ) :=
  need a.vsigma >>= fun vs => need q.grho >>= fun gr => .ok (ggaWeights2 V vs.2.2 vs.2.1 gr.2 gr.1)

/-- the alpha element matrix of the unrestricted `eval_Fxc`, `atomic/dftgrid.cpp:361-450`: the derivative increments depend on `do_mgga_t` alone -/
noncomputable def atomFxcA (V : Vals n N) (q : Dens2 3 N) (a : Acc2 N) : Res (Matrix (Fin n) (Fin n) ℝ) :=
  ggaStep a.gga V (ggaWeightsA V q a) (incLdaSplit 0 (fun p => a.va p * V.w p) (re V.f) (im V.f)) >>= fun H =>
    kinStepC a.t V (vtlWeights V.w a.t a.l (a.vtau.map (·.1)) (a.vlapl.map (·.1))) H >>= fun H => laplStep a.l V (a.vlapl.map (·.1)) H

/-- the beta element matrix if `beta` -/
noncomputable def atomFxcB (V : Vals n N) (q : Dens2 3 N) (a : Acc2 N) : Res (Matrix (Fin n) (Fin n) ℝ) :=
  ggaStep a.gga V (ggaWeightsB V q a) (incLdaSplit 0 (fun p => a.vb p * V.w p) (re V.f) (im V.f)) >>= fun H =>
    kinStepC a.t V (vtlWeights V.w a.t a.l (a.vtau.map (·.2)) (a.vlapl.map (·.2))) H >>= fun H => laplStep a.l V (a.vlapl.map (·.2)) H

/-- the beta part: without `beta` the beta matrix is empty, and the Laplacian increment still adds to it -/
noncomputable def atomFxcBeta (beta : Bool) (V : Vals n N) (q : Dens2 3 N) (a : Acc2 N) : Res (Option (Matrix (Fin n) (Fin n) ℝ)) :=
  if beta then (atomFxcB V q a >>= fun H => .ok (some H)) else if a.l = true ∧ 0 < n then .ub else .ok none

/-! ### The grid -/

/-- What a restricted `eval_Fxc` returns. -/
structure Tot1 where
  exc : ℝ
  nel : ℝ
  ekin : ℝ
  H : Mat ℝ

/-- What an unrestricted `eval_Fxc` returns. -/
structure Tot2 where
  exc : ℝ
  nel : ℝ
  ekin : ℝ
  Ha : Mat ℝ
  Hb : Mat ℝ

/-- The functionals: identifiers, parameters, density threshold. -/
structure Funcs where
  x : Int
  xp : List ℝ
  c : Int
  cp : List ℝ
  thr : ℝ

variable (env : Libxc)

/-- one element of the restricted loop, `atomic/dftgrid.cpp:610-624` -/
noncomputable def atomStep1 (fn : Funcs) (fl : Flags) (P : Mat ℝ) (s : Tot1) (e : AtomElem) : Res Tot1 :=
  atomDensity1 fl P e.idx (atomBf fl e) >>= fun q => ekin1 fl (atomBf fl e).w q >>= fun ek =>
    computeBoth1 env fn.x fn.c fn.xp fn.cp fn.thr q (init1 _ fl) >>= fun a => atomFxc1 (atomBf fl e) q a >>= fun H => scatterMat s.H e.idx H >>= fun Ho =>
      .ok ⟨s.exc + evalExc1 (atomBf fl e).w q a, s.nel + nel1 (atomBf fl e).w q, s.ekin + ek, Ho⟩

/-- `DFTGrid::eval_Fxc`, restricted, `atomic/dftgrid.cpp:591-653`, with the elements in the order they are worked on -/
noncomputable def atomGrid1 (fn : Funcs) (P : Mat ℝ) (elems : List AtomElem) : Res Tot1 :=
  checkFlags env fn.x fn.c >>= fun fl => elems.foldlM (atomStep1 env fn fl P) ⟨0, 0, 0, Mat.zero P.rows P.rows⟩

/-- `scatterMat` if there is a matrix -/
def scatterOpt (Ho : Mat ℝ) (idx : List Nat) (H : Option (Matrix (Fin idx.length) (Fin idx.length) ℝ)) : Res (Mat ℝ) :=
  match H with
  | none => .ok Ho
  | some H => scatterMat Ho idx H

/-- one element of the unrestricted loop, `atomic/dftgrid.cpp:674-687` -/
noncomputable def atomStep2 (fn : Funcs) (fl : Flags) (Pa Pb : Mat ℝ) (beta : Bool) (s : Tot2) (e : AtomElem) : Res Tot2 :=
  atomDensity2 fl Pa Pb e.idx (atomBf fl e) >>= fun q => ekin2 fl (atomBf fl e).w q >>= fun ek =>
    computeBoth2 env fn.x fn.c fn.xp fn.cp fn.thr q (init2 _ fl) >>= fun a => atomFxcA (atomBf fl e) q a >>= fun Ha => atomFxcBeta beta (atomBf fl e) q a >>= fun Hb =>
      scatterMat s.Ha e.idx Ha >>= fun Hao => scatterOpt s.Hb e.idx Hb >>= fun Hbo =>
        .ok ⟨s.exc + evalExc2 (atomBf fl e).w q a, s.nel + nel2 (atomBf fl e).w q, s.ekin + ek, Hao, Hbo⟩

/-- `DFTGrid::eval_Fxc`, unrestricted, `atomic/dftgrid.cpp:655-712` -/
noncomputable def atomGrid2 (fn : Funcs) (Pa Pb : Mat ℝ) (beta : Bool) (elems : List AtomElem) : Res Tot2 :=
  checkFlags env fn.x fn.c >>= fun fl => elems.foldlM (atomStep2 env fn fl Pa Pb beta) ⟨0, 0, 0, Mat.zero Pa.rows Pa.rows, Mat.zero Pb.rows Pb.rows⟩

/-- `bf_list`, `atomic/TwoDBasis.cpp:1238-1255`, from the element's first and last radial function; the preallocated vector is built by appending -/
def atomBfList (nang nradf ifirst ilast : Nat) : List Nat :=
  (List.range nang).flatMap fun iam => (List.range (ilast + 1 - ifirst)).map fun j => nradf * iam + ifirst + j

/-- the two batches of the parallel loops: even elements, then odd ones -/
def batches {α : Type} (l : List α) : List α :=
  ((List.range l.length).filter (fun i => i % 2 = 0)).filterMap (fun i => l[i]?) ++ ((List.range l.length).filter (fun i => i % 2 = 1)).filterMap fun i => l[i]?

/-! ### The diatomic grid -/

/-- One radial point of the diatomic basis with the angular grid: padded function indices `bf_list_dummy(iel)`. -/
structure DiaPoint where
  nang : Nat
  idx : List Nat
  mu : ℝ
  wrad : ℝ
  Rhalf : ℝ
  cth : Fin nang → ℝ
  wang : Fin nang → ℝ
  bf : Fin nang → Matrix (Fin 1) (Fin idx.length) ℂ
  df : Fin nang → Fin 3 → Matrix (Fin 1) (Fin idx.length) ℂ

/-- scale factors, `diatomic/dftgrid.cpp:436-451` -/
noncomputable def DiaPoint.scale (e : DiaPoint) (c : Fin 3) (p : Fin (e.nang * 1)) : ℝ :=
  if c = 2 then e.Rhalf * Real.sinh e.mu * √(1 - e.cth (pt p).1 * e.cth (pt p).1)
  else e.Rhalf * √(Real.sinh e.mu ^ 2 + √(1 - e.cth (pt p).1 * e.cth (pt p).1) ^ 2)

/-- `compute_bf`, `diatomic/dftgrid.cpp:414-518` -/
noncomputable def diaBf (fl : Flags) (e : DiaPoint) : Res (Vals e.idx.length (e.nang * 1)) :=
  if fl.lapl then .throw .logicError
  else .ok {
    w := fun p => e.wang (pt p).1 * e.wrad * e.Rhalf ^ 3 * Real.sinh e.mu * (Real.sinh e.mu ^ 2 + √(1 - e.cth (pt p).1 * e.cth (pt p).1) ^ 2)
    f := storeAdjoint e.bf
    g := if fl.grad then some fun c => storeAdjoint fun ia => e.df ia c else none
    lap := none
    sc := e.scale
    isc := fun c p => ((e.scale c p) ^ 2)⁻¹ }

/-- `update_density`, `diatomic/dftgrid.cpp:51-124` -/
noncomputable def diaDensity1 (fl : Flags) (P0 : Mat ℝ) (idx : List Nat) (V : Vals idx.length N) : Res (Dens1 3 N) :=
  if P0.rows * P0.cols = 0 then .throw .runtimeError
  else gatherMat P0 idx >>= fun P => gradPart1 fl.grad P V >>= fun gr => tauPart fl.tau P V >>= fun ta =>
    if fl.lapl then .throw .logicError else .ok ⟨dens P V.f V.f, gr.map (·.1), gr.map (·.2), ta, none⟩

/-- `update_density`, `diatomic/dftgrid.cpp:126-226`; here the Laplacian is only refused if the kinetic energy density is needed too -/
noncomputable def diaDensity2 (fl : Flags) (Pa0 Pb0 : Mat ℝ) (idx : List Nat) (V : Vals idx.length N) : Res (Dens2 3 N) :=
  if Pa0.rows * Pa0.cols = 0 ∨ Pb0.rows * Pb0.cols = 0 then .throw .runtimeError
  else gatherMat Pa0 idx >>= fun Pa => gatherMat Pb0 idx >>= fun Pb => gradPart2 fl.grad Pa Pb V >>= fun gr =>
    tauPart fl.tau Pa V >>= fun ta => tauPart fl.tau Pb V >>= fun tb =>
      if fl.tau = true ∧ fl.lapl = true then .throw .logicError
      else .ok ⟨dens Pa V.f V.f, dens Pb V.f V.f, gr.map (·.1), gr.map (·.2), pairUp ta tb, none⟩

/-- the weights `0.5 vtau` times the quadrature weights -/
noncomputable def vtWeights (w : Fin N → ℝ) (vtau : Buf N) : Res (Fin N → ℝ) := need vtau >>= fun vt => .ok fun p => vt p * w p * 0.5

/-- the element matrix of the restricted `eval_Fxc`, `diatomic/dftgrid.cpp:275-316` -/
noncomputable def diaFxc1 (V : Vals n N) (q : Dens1 3 N) (a : Acc1 N) : Res (Matrix (Fin n) (Fin n) ℝ) :=
  ggaStep a.gga V (ggaWeights1 V q a) (incLdaSplit 0 (fun p => a.vxc p * V.w p) (re V.f) (im V.f)) >>= fun H =>
    kinStep a.t V (vtWeights V.w a.vtau) H >>= fun H => if a.l then .throw .logicError else .ok H

/-- the alpha element matrix of the unrestricted `eval_Fxc`, `diatomic/dftgrid.cpp:323-401` -/
noncomputable def diaFxcA (V : Vals n N) (q : Dens2 3 N) (a : Acc2 N) : Res (Matrix (Fin n) (Fin n) ℝ) :=
  ggaStep a.gga V (ggaWeightsA V q a) (incLdaSplit 0 (fun p => a.va p * V.w p) (re V.f) (im V.f)) >>= fun H =>
    kinStep a.t V (vtWeights V.w (a.vtau.map (·.1))) H >>= fun H => if a.l then .throw .logicError else .ok H

/-- the beta element matrix if `beta` -/
noncomputable def diaFxcB (V : Vals n N) (q : Dens2 3 N) (a : Acc2 N) : Res (Matrix (Fin n) (Fin n) ℝ) :=
  ggaStep a.gga V (ggaWeightsB V q a) (incLdaSplit 0 (fun p => a.vb p * V.w p) (re V.f) (im V.f)) >>= fun H =>
    kinStep a.t V (vtWeights V.w (a.vtau.map (·.2))) H >>= fun H => if a.l then .throw .logicError else .ok H

/-- the beta part -/
noncomputable def diaFxcBeta (beta : Bool) (V : Vals n N) (q : Dens2 3 N) (a : Acc2 N) : Res (Option (Matrix (Fin n) (Fin n) ℝ)) :=
  if beta then (diaFxcB V q a >>= fun H => .ok (some H)) else .ok none

/-- one radial point of the restricted loop, `diatomic/dftgrid.cpp:548-562` -/
noncomputable def diaStep1 (fn : Funcs) (fl : Flags) (P : Mat ℝ) (s : Tot1) (e : DiaPoint) : Res Tot1 :=
  diaBf fl e >>= fun V => diaDensity1 fl P e.idx V >>= fun q => ekin1 fl V.w q >>= fun ek =>
    computeBoth1 env fn.x fn.c fn.xp fn.cp fn.thr q (init1 _ fl) >>= fun a => diaFxc1 V q a >>= fun H => scatterMat s.H e.idx H >>= fun Ho =>
      .ok ⟨s.exc + evalExc1 V.w q a, s.nel + nel1 V.w q, s.ekin + ek, Ho⟩

/-- `DFTGrid::eval_Fxc`, restricted, `diatomic/dftgrid.cpp:533-572`: the density is padded, the matrix stripped -/
noncomputable def diaGrid1 (lm : List (Int × Int)) (nrad : Nat) (fn : Funcs) (P : Mat ℝ) (pts : List DiaPoint) : Res Tot1 :=
  checkFlags env fn.x fn.c >>= fun fl => Dia.expandBoundaries lm nrad P >>= fun Pe =>
    pts.foldlM (diaStep1 env fn fl Pe) ⟨0, 0, 0, Mat.zero (Dia.nDummy lm nrad) (Dia.nDummy lm nrad)⟩ >>= fun s =>
      Dia.removeBoundaries lm nrad s.H >>= fun H => .ok ⟨s.exc, s.nel, s.ekin, H⟩

/-- one radial point of the unrestricted loop, `diatomic/dftgrid.cpp:591-606` -/
noncomputable def diaStep2 (fn : Funcs) (fl : Flags) (Pa Pb : Mat ℝ) (beta : Bool) (s : Tot2) (e : DiaPoint) : Res Tot2 :=
  diaBf fl e >>= fun V => diaDensity2 fl Pa Pb e.idx V >>= fun q => ekin2 fl V.w q >>= fun ek =>
    computeBoth2 env fn.x fn.c fn.xp fn.cp fn.thr q (init2 _ fl) >>= fun a => diaFxcA V q a >>= fun Ha => diaFxcBeta beta V q a >>= fun Hb =>
      scatterMat s.Ha e.idx Ha >>= fun Hao => scatterOpt s.Hb e.idx Hb >>= fun Hbo =>
        .ok ⟨s.exc + evalExc2 V.w q a, s.nel + nel2 V.w q, s.ekin + ek, Hao, Hbo⟩

/-- `DFTGrid::eval_Fxc`, unrestricted, `diatomic/dftgrid.cpp:574-617` -/
noncomputable def diaGrid2 (lm : List (Int × Int)) (nrad : Nat) (fn : Funcs) (Pa Pb : Mat ℝ) (beta : Bool) (pts : List DiaPoint) : Res Tot2 :=
  checkFlags env fn.x fn.c >>= fun fl => Dia.expandBoundaries lm nrad Pa >>= fun Pae => Dia.expandBoundaries lm nrad Pb >>= fun Pbe =>
    pts.foldlM (diaStep2 env fn fl Pae Pbe beta) ⟨0, 0, 0, Mat.zero (Dia.nDummy lm nrad) (Dia.nDummy lm nrad), Mat.zero (Dia.nDummy lm nrad) (Dia.nDummy lm nrad)⟩ >>= fun s =>
      Dia.removeBoundaries lm nrad s.Ha >>= fun Ha => Dia.removeBoundaries lm nrad s.Hb >>= fun Hb => .ok ⟨s.exc, s.nel, s.ekin, Ha, Hb⟩

end XC
end HelFEM
