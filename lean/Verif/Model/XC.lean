import Verif.Model.Orth
import Verif.Model.Mat
import Mathlib.Analysis.Complex.Norm
import Mathlib.LinearAlgebra.Matrix.ConjTranspose
import Mathlib.Analysis.SpecialFunctions.Pow.Real

/-!
# Exchange-correlation quadrature: what the three grids share

Models `src/general/dftgrid_common.h`, `src/general/dftgrid_common.cpp` and the queries `is_gga_mgga`, `gradient_needed`, `tau_needed`, `laplacian_needed`, `has_exc` of
`src/general/dftfuncs.cpp:333-393, 603-715`. libxc is an interface: a table of functional descriptions and the functionals themselves, evaluated point by point.
Arrays over `N` points are functions on `Fin N`; buffers that are only allocated on demand are `Option`s and using an unallocated one is undefined behaviour.
Real numbers are exact.
-/

namespace HelFEM
namespace XC

open Matrix

/-- `func.info->family`; the hybrid families are treated like the plain ones. -/
inductive Family where
  | lda | gga | mgga | other
  deriving DecidableEq, Repr

/-- What the code asks libxc about a functional. -/
structure Info where
  family : Family
  needsTau : Bool
  needsLapl : Bool
  hasExc : Bool
  nPar : Nat
  deriving DecidableEq, Repr

/-- Input of an unpolarized functional at one point. -/
structure In1 where
  rho : ℝ
  sigma : ℝ
  lapl : ℝ
  tau : ℝ

/-- Output of an unpolarized functional at one point. -/
structure Out1 where
  exc : ℝ
  vrho : ℝ
  vsigma : ℝ
  vlapl : ℝ
  vtau : ℝ

/-- Input of a polarized functional at one point. -/
structure In2 where
  rhoa : ℝ
  rhob : ℝ
  saa : ℝ
  sab : ℝ
  sbb : ℝ
  la : ℝ
  lb : ℝ
  ta : ℝ
  tb : ℝ

/-- Output of a polarized functional at one point. -/
structure Out2 where
  exc : ℝ
  va : ℝ
  vb : ℝ
  vsaa : ℝ
  vsab : ℝ
  vsbb : ℝ
  vla : ℝ
  vlb : ℝ
  vta : ℝ
  vtb : ℝ

/-- libxc: `xc_func_init` succeeds on the functionals with a description; the functionals take their parameters and the density threshold. A quantity passed as `NULL` is
not read; here it is passed as zero. -/
structure Libxc where
  info : Int → Option Info
  unpol : Int → List ℝ → ℝ → In1 → Out1
  pol : Int → List ℝ → ℝ → In2 → Out2

variable (env : Libxc)

/-- `gradient_needed`, `dftfuncs.cpp:603-634` -/
def gradientNeeded (id : Int) : Res Bool :=
  if 0 < id then
    match env.info id with
    | none => .throw .runtimeError
    | some i => .ok (decide (i.family = .gga ∨ i.family = .mgga))
  else .ok false

/-- `tau_needed`, `dftfuncs.cpp:636-665` -/
def tauNeeded (id : Int) : Res Bool :=
  if 0 < id then
    match env.info id with
    | none => .throw .runtimeError
    | some i => .ok (decide (i.family = .mgga) && i.needsTau)
  else .ok false

/-- `laplacian_needed`, `dftfuncs.cpp:667-696` -/
def laplNeeded (id : Int) : Res Bool :=
  if 0 < id then
    match env.info id with
    | none => .throw .runtimeError
    | some i => .ok (decide (i.family = .mgga) && i.needsLapl)
  else .ok false

/-- `has_exc`, `dftfuncs.cpp:698-715` -/
def hasExc (id : Int) : Res Bool :=
  if 0 < id then
    match env.info id with
    | none => .throw .runtimeError
    | some i => .ok i.hasExc
  else .ok true

/-- `is_gga_mgga`, `dftfuncs.cpp:333-393` -/
def isGgaMgga (id : Int) : Res (Bool × Bool × Bool) :=
  if id ≤ 0 then .ok (false, false, false)
  else
    match env.info id with
    | none => .throw .runtimeError
    | some i =>
      match i.family with
      | .lda => .ok (false, false, false)
      | .gga => .ok (true, false, false)
      | .mgga => .ok (false, i.needsTau, i.needsLapl)
      | .other => .throw .runtimeError

/-- `do_grad`, `do_tau`, `do_lapl` -/
structure Flags where
  grad : Bool
  tau : Bool
  lapl : Bool
  deriving DecidableEq, Repr

/-- `b || f(id)`: the call is skipped when `b` already holds -/
def orRes (b : Bool) (f : Res Bool) : Res Bool := if b then .ok true else f

/-- one of the three pairs of lines of `check_grad_tau_lapl` -/
def either (f : Int → Res Bool) (x c : Int) : Res Bool :=
  (if 0 < x then orRes false (f x) else .ok false) >>= fun b => if 0 < c then orRes b (f c) else .ok b

/-- `check_grad_tau_lapl`, `dftgrid_common.cpp:40-52` -/
def checkFlags (x c : Int) : Res Flags :=
  either (gradientNeeded env) x c >>= fun g => either (tauNeeded env) x c >>= fun t => either (laplNeeded env) x c >>= fun l => .ok ⟨g, t, l⟩

/-! ### Accumulated functional values -/

/-- Values per point on demand. -/
abbrev Buf (N : Nat) := Option (Fin N → ℝ)

/-- the buffer, which must exist -/
def need {α : Type} : Option α → Res α
  | none => .ub
  | some a => .ok a

/-- the buffer if `b`, and zeros (a null pointer) otherwise -/
def needIf {N : Nat} (b : Bool) (o : Buf N) : Res (Fin N → ℝ) := if b then need o else .ok fun _ => 0

/-- `if(b) buf += x` -/
def addIf {N : Nat} (b : Bool) (o : Buf N) (x : Fin N → ℝ) : Res (Buf N) :=
  if b then (need o >>= fun v => .ok (some fun p => v p + x p)) else .ok o

/-- a zeroed buffer if `b`; the old one otherwise is not read again -/
def zeroIf (N : Nat) (b : Bool) : Buf N := if b then some fun _ => 0 else none

/-- Density data of a restricted worker: `rho`, `grho`, `sigma`, `tau`, `lapl`; `d` spatial components. -/
structure Dens1 (d N : Nat) where
  rho : Fin N → ℝ
  grho : Option (Fin d → Fin N → ℝ)
  sigma : Buf N
  tau : Buf N
  lapl : Buf N

/-- Functional data of a restricted worker: `exc`, `vxc`, `vsigma`, `vtau`, `vlapl` and `do_gga`, `do_mgga_t`, `do_mgga_l`. -/
structure Acc1 (N : Nat) where
  exc : Fin N → ℝ
  vxc : Fin N → ℝ
  vsigma : Buf N
  vtau : Buf N
  vlapl : Buf N
  gga : Bool
  t : Bool
  l : Bool

/-- `init_xc` without polarization, `dftgrid_common.cpp:60-79` -/
def init1 (N : Nat) (f : Flags) : Acc1 N :=
  ⟨fun _ => 0, fun _ => 0, zeroIf N f.grad, zeroIf N f.tau, zeroIf N f.lapl, false, false, false⟩

/-- The part of `compute_xc` after the functional has been set up: the call of libxc and the accumulation. `e`: `has_exc`; `g`, `t`, `l`: which call is made. -/
def accumulate1 {d N : Nat} (fn : In1 → Out1) (e g t l : Bool) (q : Dens1 d N) (a : Acc1 N) : Res (Acc1 N) :=
  needIf (g || t || l) q.sigma >>= fun s => needIf l q.lapl >>= fun la => needIf t q.tau >>= fun ta =>
    addIf l a.vlapl (fun p => (fn ⟨q.rho p, s p, la p, ta p⟩).vlapl) >>= fun vl =>
      addIf t a.vtau (fun p => (fn ⟨q.rho p, s p, la p, ta p⟩).vtau) >>= fun vt =>
        addIf (t || l || g) a.vsigma (fun p => (fn ⟨q.rho p, s p, la p, ta p⟩).vsigma) >>= fun vs =>
          .ok { exc := if e then fun p => a.exc p + (fn ⟨q.rho p, s p, la p, ta p⟩).exc else a.exc
                vxc := fun p => a.vxc p + (fn ⟨q.rho p, s p, la p, ta p⟩).vrho
                vsigma := vs, vtau := vt, vlapl := vl
                gga := a.gga || g || t || l, t := a.t || t, l := a.l || l }

/-- `compute_xc` without polarization, `dftgrid_common.cpp:100-255`. With `pot = false` the check for NaNs reads the empty potential buffer. -/
def computeXc1 {d N : Nat} (id : Int) (pars : List ℝ) (thr : ℝ) (pot : Bool) (q : Dens1 d N) (a : Acc1 N) : Res (Acc1 N) :=
  isGgaMgga env id >>= fun k => hasExc env id >>= fun e =>
    match env.info id with
    | none => .throw .runtimeError
    | some i =>
      if pars ≠ [] ∧ pars.length ≠ i.nPar then .throw .logicError
      else if pot = false ∧ 0 < N then .ub
      else accumulate1 (env.unpol id pars thr) e k.1 k.2.1 k.2.2 q a

/-- `if(x_func>0) compute_xc(x_func,…); if(c_func>0) compute_xc(c_func,…)` -/
def computeBoth1 {d N : Nat} (x c : Int) (xp cp : List ℝ) (thr : ℝ) (q : Dens1 d N) (a : Acc1 N) : Res (Acc1 N) :=
  (if 0 < x then computeXc1 env x xp thr true q a else .ok a) >>= fun a => if 0 < c then computeXc1 env c cp thr true q a else .ok a

/-- `eval_Exc` without polarization, `dftgrid_common.cpp:81-85` -/
noncomputable def evalExc1 {d N : Nat} (w : Fin N → ℝ) (q : Dens1 d N) (a : Acc1 N) : ℝ := ∑ p, w p * a.exc p * q.rho p

/-- `compute_Nel` without polarization, `dftgrid_common.cpp:87-92` -/
noncomputable def nel1 {d N : Nat} (w : Fin N → ℝ) (q : Dens1 d N) : ℝ := ∑ p, w p * q.rho p

/-- Density data of an unrestricted worker; the rows of `sigma` are αα, αβ, ββ. -/
structure Dens2 (d N : Nat) where
  rhoa : Fin N → ℝ
  rhob : Fin N → ℝ
  grho : Option ((Fin d → Fin N → ℝ) × (Fin d → Fin N → ℝ))
  sigma : Option ((Fin N → ℝ) × (Fin N → ℝ) × (Fin N → ℝ))
  tau : Option ((Fin N → ℝ) × (Fin N → ℝ))
  lapl : Option ((Fin N → ℝ) × (Fin N → ℝ))

/-- Functional data of an unrestricted worker. -/
structure Acc2 (N : Nat) where
  exc : Fin N → ℝ
  va : Fin N → ℝ
  vb : Fin N → ℝ
  vsigma : Option ((Fin N → ℝ) × (Fin N → ℝ) × (Fin N → ℝ))
  vtau : Option ((Fin N → ℝ) × (Fin N → ℝ))
  vlapl : Option ((Fin N → ℝ) × (Fin N → ℝ))
  gga : Bool
  t : Bool
  l : Bool

/-- `init_xc` with polarization, `dftgrid_common.cpp:60-79` -/
def init2 (N : Nat) (f : Flags) : Acc2 N :=
  ⟨fun _ => 0, fun _ => 0, fun _ => 0, if f.grad then some (fun _ => 0, fun _ => 0, fun _ => 0) else none, if f.tau then some (fun _ => 0, fun _ => 0) else none,
    if f.lapl then some (fun _ => 0, fun _ => 0) else none, false, false, false⟩

/-- the two rows of a buffer if `b`, and zeros (a null pointer) otherwise -/
def needPair {N : Nat} (b : Bool) (o : Option ((Fin N → ℝ) × (Fin N → ℝ))) : Res ((Fin N → ℝ) × (Fin N → ℝ)) := if b then need o else .ok (fun _ => 0, fun _ => 0)

/-- the three rows of a buffer if `b`, and zeros otherwise -/
def needTriple {N : Nat} (b : Bool) (o : Option ((Fin N → ℝ) × (Fin N → ℝ) × (Fin N → ℝ))) : Res ((Fin N → ℝ) × (Fin N → ℝ) × (Fin N → ℝ)) :=
  if b then need o else .ok (fun _ => 0, fun _ => 0, fun _ => 0)

/-- `if(b) buf += x` for two rows -/
def addPair {N : Nat} (b : Bool) (o : Option ((Fin N → ℝ) × (Fin N → ℝ))) (x y : Fin N → ℝ) : Res (Option ((Fin N → ℝ) × (Fin N → ℝ))) :=
  if b then (need o >>= fun v => .ok (some (fun p => v.1 p + x p, fun p => v.2 p + y p))) else .ok o

/-- `if(b) buf += x` for three rows -/
def addTriple {N : Nat} (b : Bool) (o : Option ((Fin N → ℝ) × (Fin N → ℝ) × (Fin N → ℝ))) (x y z : Fin N → ℝ) :
    Res (Option ((Fin N → ℝ) × (Fin N → ℝ) × (Fin N → ℝ))) :=
  if b then (need o >>= fun v => .ok (some (fun p => v.1 p + x p, fun p => v.2.1 p + y p, fun p => v.2.2 p + z p))) else .ok o

/-- the inputs of the functional at each point -/
def input2 {d N : Nat} (q : Dens2 d N) (s : (Fin N → ℝ) × (Fin N → ℝ) × (Fin N → ℝ)) (la ta : (Fin N → ℝ) × (Fin N → ℝ)) (p : Fin N) : In2 :=
  ⟨q.rhoa p, q.rhob p, s.1 p, s.2.1 p, s.2.2 p, la.1 p, la.2 p, ta.1 p, ta.2 p⟩

/-- Polarized counterpart of `accumulate1`. -/
def accumulate2 {d N : Nat} (fn : In2 → Out2) (e g t l : Bool) (q : Dens2 d N) (a : Acc2 N) : Res (Acc2 N) :=
  needTriple (g || t || l) q.sigma >>= fun s => needPair l q.lapl >>= fun la => needPair t q.tau >>= fun ta =>
    addPair l a.vlapl (fun p => (fn (input2 q s la ta p)).vla) (fun p => (fn (input2 q s la ta p)).vlb) >>= fun vl =>
      addPair t a.vtau (fun p => (fn (input2 q s la ta p)).vta) (fun p => (fn (input2 q s la ta p)).vtb) >>= fun vt =>
        addTriple (t || l || g) a.vsigma (fun p => (fn (input2 q s la ta p)).vsaa) (fun p => (fn (input2 q s la ta p)).vsab)
            (fun p => (fn (input2 q s la ta p)).vsbb) >>= fun vs =>
          .ok { exc := if e then fun p => a.exc p + (fn (input2 q s la ta p)).exc else a.exc
                va := fun p => a.va p + (fn (input2 q s la ta p)).va
                vb := fun p => a.vb p + (fn (input2 q s la ta p)).vb
                vsigma := vs, vtau := vt, vlapl := vl
                gga := a.gga || g || t || l, t := a.t || t, l := a.l || l }

/-- `compute_xc` with polarization, `dftgrid_common.cpp:100-255`. -/
def computeXc2 {d N : Nat} (id : Int) (pars : List ℝ) (thr : ℝ) (pot : Bool) (q : Dens2 d N) (a : Acc2 N) : Res (Acc2 N) :=
  isGgaMgga env id >>= fun k => hasExc env id >>= fun e =>
    match env.info id with
    | none => .throw .runtimeError
    | some i =>
      if pars ≠ [] ∧ pars.length ≠ i.nPar then .throw .logicError
      else if pot = false ∧ 0 < N then .ub
      else accumulate2 (env.pol id pars thr) e k.1 k.2.1 k.2.2 q a

/-- `if(x_func>0) compute_xc(x_func,…); if(c_func>0) compute_xc(c_func,…)` -/
def computeBoth2 {d N : Nat} (x c : Int) (xp cp : List ℝ) (thr : ℝ) (q : Dens2 d N) (a : Acc2 N) : Res (Acc2 N) :=
  (if 0 < x then computeXc2 env x xp thr true q a else .ok a) >>= fun a => if 0 < c then computeXc2 env c cp thr true q a else .ok a

/-- `eval_Exc` with polarization, `dftgrid_common.cpp:81-85` -/
noncomputable def evalExc2 {d N : Nat} (w : Fin N → ℝ) (q : Dens2 d N) (a : Acc2 N) : ℝ := ∑ p, w p * a.exc p * (q.rhoa p + q.rhob p)

/-- `compute_Nel` with polarization, `dftgrid_common.cpp:93-96` -/
noncomputable def nel2 {d N : Nat} (w : Fin N → ℝ) (q : Dens2 d N) : ℝ := ∑ p, w p * (q.rhoa p + q.rhob p)

/-! ### Matrix increments. All factors have `n` functions and `N` points by their types, so the size checks pass. -/

variable {n N : Nat}

/-- `av.col(j) *= v(j)` -/
def scaleCols {K : Type} [Mul K] (a : Matrix (Fin n) (Fin N) K) (v : Fin N → K) : Matrix (Fin n) (Fin N) K := Matrix.of fun i j => a i j * v j

/-- `increment_lda_split`, `dftgrid_common.h:128-142` -/
def incLdaSplit (H : Matrix (Fin n) (Fin n) ℝ) (v : Fin N → ℝ) (a b : Matrix (Fin n) (Fin N) ℝ) : Matrix (Fin n) (Fin n) ℝ :=
  (H + scaleCols a v * aᵀ) + scaleCols b v * bᵀ

/-- `increment_lda<double>`, `dftgrid_common.h:150-171` -/
def incLda (H : Matrix (Fin n) (Fin n) ℝ) (v : Fin N → ℝ) (f : Matrix (Fin n) (Fin N) ℝ) : Matrix (Fin n) (Fin n) ℝ := H + scaleCols f v * fᵀ

/-- `increment_lda<std::complex<double>>`, `dftgrid_common.h:150-171`: the real part of a complex product -/
noncomputable def incLdaC (H : Matrix (Fin n) (Fin n) ℝ) (v : Fin N → ℝ) (f : Matrix (Fin n) (Fin N) ℂ) : Matrix (Fin n) (Fin n) ℝ :=
  H + (scaleCols f (fun p => (v p : ℂ)) * fᴴ).map Complex.re

/-- the gradient-weighted helper of `increment_gga_split`: component after component -/
def gradWeighted {d : Nat} (gn : Fin N → Fin d → ℝ) (ga : Fin d → Matrix (Fin n) (Fin N) ℝ) : Matrix (Fin n) (Fin N) ℝ :=
  (List.finRange d).foldl (fun (m : Matrix (Fin n) (Fin N) ℝ) c => Matrix.of fun i j => m i j + gn j c * ga c i j) 0

/-- `increment_gga_split` with a complex basis, `dftgrid_common.h:188-217` -/
def incGgaSplit {d : Nat} (H : Matrix (Fin n) (Fin n) ℝ) (gn : Fin N → Fin d → ℝ) (a b : Matrix (Fin n) (Fin N) ℝ) (ga gb : Fin d → Matrix (Fin n) (Fin N) ℝ) :
    Matrix (Fin n) (Fin n) ℝ :=
  let X := gradWeighted gn ga * aᵀ + gradWeighted gn gb * bᵀ
  (H + X) + Xᵀ

/-- `increment_gga_split` with a real basis (`gb` empty), `dftgrid_common.h:188-217` -/
def incGgaReal {d : Nat} (H : Matrix (Fin n) (Fin n) ℝ) (gn : Fin N → Fin d → ℝ) (a : Matrix (Fin n) (Fin N) ℝ) (ga : Fin d → Matrix (Fin n) (Fin N) ℝ) :
    Matrix (Fin n) (Fin n) ℝ :=
  let X := gradWeighted gn ga * aᵀ
  (H + X) + Xᵀ

/-- `increment_mgga_lapl_split`, `dftgrid_common.h:226-243` -/
def incLaplSplit (H : Matrix (Fin n) (Fin n) ℝ) (v : Fin N → ℝ) (a b c d : Matrix (Fin n) (Fin N) ℝ) : Matrix (Fin n) (Fin n) ℝ :=
  let X := scaleCols a v * cᵀ + scaleCols b v * dᵀ
  (H + X) + Xᵀ

/-- `increment_mgga_lapl<double>`, `dftgrid_common.h:247-269` -/
def incLapl (H : Matrix (Fin n) (Fin n) ℝ) (v : Fin N → ℝ) (f l : Matrix (Fin n) (Fin N) ℝ) : Matrix (Fin n) (Fin n) ℝ :=
  H + (scaleCols f v * lᵀ + l * (scaleCols f v)ᵀ)

/-- `P(i,j)=P0(bf_ind[i],bf_ind[j])`; an index outside the matrix is undefined -/
def gatherMat (P0 : Mat ℝ) (idx : List Nat) : Res (Matrix (Fin idx.length) (Fin idx.length) ℝ) :=
  if ∀ i ∈ idx, i < P0.rows ∧ i < P0.cols then .ok (Matrix.of fun a b => P0.get idx[a] idx[b]) else .ub

/-- `Ho(bf_ind[i],bf_ind[j])+=H(i,j)`, coefficient by coefficient -/
def scatterMat (Ho : Mat ℝ) (idx : List Nat) (H : Matrix (Fin idx.length) (Fin idx.length) ℝ) : Res (Mat ℝ) :=
  if ∀ i ∈ idx, i < Ho.rows ∧ i < Ho.cols then
    .ok ⟨Ho.rows, Ho.cols, (List.finRange idx.length).foldl (fun (M : Nat → Nat → ℝ) (a : Fin idx.length) =>
      (List.finRange idx.length).foldl (fun (M : Nat → Nat → ℝ) (b : Fin idx.length) => fun i j => if i = idx[a] ∧ j = idx[b] then M i j + H a b else M i j) M) Ho.get⟩
  else .ub

/-- `(P*f).col(ip).dot(g.col(ip))` -/
def quad (P : Matrix (Fin n) (Fin n) ℝ) (f g : Matrix (Fin n) (Fin N) ℝ) (p : Fin N) : ℝ := ∑ i, (P * f) i p * g i p

end XC
end HelFEM
