import Verif.Model.Basic
import Mathlib.Data.Real.Basic

/-!
# Names of functionals and the exact exchange they ask for

Models `src/general/dftfuncs.cpp:28-332, 394-603`: names and numbers of functionals, `parse_xc_func`, the kind of a functional, exact exchange and range separation, `needs_VV10`; and what the
programs make of them: `src/atomic/main.cpp:221-243, 336-337`, `src/diatomic/main.cpp:179-191`, `src/sadatom/main.cpp:325-331, 490-516` with `src/sadatom/scf.cpp:61-67`, `src/sadatom/aij.cpp:152-158`.
libxc is a table of descriptions. Texts are lists of ASCII characters without a zero. Left out: `print_info` and the warnings on standard error.
-/

namespace HelFEM
namespace Func

/-- a text -/
abbrev Str := List Char

/-- `func.info->kind`, `dftfuncs.cpp:215-331` -/
inductive FKind where
  | exchange | correlation | both | kinetic
  deriving DecidableEq, Repr

/-- `xc_hyb_type`, `:450-462`; `other` are the double hybrids and whatever else libxc has -/
inductive Hyb where
  | semilocal | hybrid | cam | camy | other
  deriving DecidableEq, Repr

/-- the numbers of range separated exchange: `omega`, `alpha`, `beta` -/
@[ext] structure Exx where
  omega : ℝ
  alpha : ℝ
  beta : ℝ

/-- no exact exchange -/
def Exx.zero : Exx := ⟨0, 0, 0⟩

/-- What libxc tells about a functional: `hyb` from version 8 on, `famHyb` (the family is one of hybrids) and the two flags before (`XC_FLAGS_HYB_CAM` or `_LC`, `XC_FLAGS_HYB_CAMY` or `_LCY`);
`exx` is `xc_hyb_exx_coef`, `coef` is `xc_hyb_cam_coef`. -/
structure Info where
  kind : FKind
  hyb : Hyb
  famHyb : Bool
  flagErf : Bool
  flagYuk : Bool
  exx : ℝ
  coef : Exx
  vv10 : Bool

/-- libxc: `XC_MAJOR_VERSION > 7`; `xc_func_init`; `functional_get_number`, which returns -1 for a text it does not know; `functional_get_name` -/
structure Lib where
  v8 : Bool
  info : Int → Option Info
  number : Str → Int
  name : Int → Option Str

/-- `strcasecmp(s, t) == 0`, `libhelfem/src/utils.cpp:88-90` -/
def caseEq (s t : Str) : Bool := s.map Char.toLower = t.map Char.toLower

/-- `atoi` of a text that starts with a digit; a number that does not fit into an `int` is undefined behaviour, `dftfuncs.cpp:67` -/
def atoi (s : Str) : Res Int :=
  let n := (s.takeWhile Char.isDigit).foldl (fun a c => 10 * a + (c.toNat - '0'.toNat)) 0
  if n < 2147483648 then .ok n else .ub

/-- `get_keyword`, `:37-60` -/
def keyword (L : Lib) (id : Int) : Res Str :=
  if id = 0 then .ok "none".toList
  else if id = -1 then .ok "HF".toList
  else
    match L.name id with
    | none => .throw .runtimeError
    | some s => .ok s

/-- `find_func`, `:64-92`; `name[0]` of a text without characters is the zero at its end -/
def findFunc (L : Lib) (s : Str) : Res Int :=
  if s.head?.any Char.isDigit then atoi s
  else if caseEq s "none".toList then .ok 0
  else if caseEq s "hyb_x_hf".toList then .ok (-1)
  else if caseEq s "HF".toList then .ok (-1)
  else if L.number s = -1 then .throw .runtimeError
  else .ok (L.number s)

/-- a query with `xc_func_init`, which throws if there is no such functional: `f` of its description, and `d` if the number is not positive; `:207-213` and so on -/
def query {α : Type _} (L : Lib) (id : Int) (d : α) (f : Info → Res α) : Res α :=
  if 0 < id then
    match L.info id with
    | none => .throw .runtimeError
    | some i => f i
  else .ok d

/-- `is_exchange`, `:204-238` -/
def isExchange (L : Lib) (id : Int) : Res Bool := query L id (id = -1) fun i => .ok (i.kind = .exchange ∨ i.kind = .both)

/-- `is_exchange_correlation`, `:240-269` -/
def isBoth (L : Lib) (id : Int) : Res Bool := query L id false fun i => .ok (i.kind = .both)

/-- `is_correlation`, `:271-300` -/
def isCorrelation (L : Lib) (id : Int) : Res Bool := query L id false fun i => .ok (i.kind = .correlation)

/-- `is_kinetic`, `:302-331` -/
def isKinetic (L : Lib) (id : Int) : Res Bool := query L id false fun i => .ok (i.kind = .kinetic)

/-- the check at the end of `parse_xc_func`, `:131-140` -/
def notKinetic (L : Lib) (id : Int) : Res Unit := isKinetic L id >>= fun b => if b then keyword L id >>= fun _ => .throw .runtimeError else .ok ()

/-- `parse_xc_func`, `:94-142`: what is before the first dash and what is after it -/
def parse (L : Lib) (s : Str) : Res (Int × Int) :=
  (if '-' ∈ s then findFunc L (s.takeWhile (· ≠ '-')) >>= fun x => findFunc L ((s.dropWhile (· ≠ '-')).drop 1) >>= fun c => .ok (x, c)
    else findFunc L s >>= fun x => .ok (x, 0)) >>= fun f =>
  notKinetic L f.1 >>= fun _ => notKinetic L f.2 >>= fun _ => .ok f

/-- `exact_exchange`, `:394-436` -/
def exactExchange (L : Lib) (id : Int) : Res ℝ :=
  query L id (if id = -1 then 1 else 0) fun i => .ok (if L.v8 then (if i.hyb = .hybrid then i.exx else 0) else if i.famHyb then i.exx else 0)

/-- `is_supported`, `:438-468` -/
def isSupported (L : Lib) (id : Int) : Res Bool := query L id true fun i => .ok (if L.v8 then decide (i.hyb ≠ .other) else true)

/-- the flags of `is_range_separated`, `:470-488`: the error function and the Yukawa kernel -/
def kernels (L : Lib) (id : Int) : Res (Bool × Bool) :=
  query L id (false, false) fun i => .ok (if L.v8 then (decide (i.hyb = .cam), decide (i.hyb = .camy)) else (i.flagErf, i.flagYuk))

/-- `range_separation`, `:511-576` -/
def rangeSep (L : Lib) (id : Int) : Res Exx :=
  (query L id (if id = -1 then ⟨0, 1, 0⟩ else Exx.zero) fun i =>
    if L.v8 then
      match i.hyb with
      | .semilocal => .ok Exx.zero
      | .hybrid => .ok ⟨0, i.exx, 0⟩
      | .cam => .ok i.coef
      | .camy => .ok i.coef
      | .other => .throw .logicError
    else .ok (if i.famHyb then i.coef else Exx.zero)) >>= fun e =>
  kernels L id >>= fun k => .ok (if k.1 || k.2 then e else ⟨0, e.alpha, 0⟩)

/-- `is_range_separated` with the check, `:490-503`: it asks for the numbers too -/
def isRangeSep (L : Lib) (id : Int) : Res (Bool × Bool) := kernels L id >>= fun k => rangeSep L id >>= fun _ => .ok k

/-- `needs_VV10`, `:578-601`; no program calls it -/
def needsVV10 (L : Lib) (id : Int) : Res Bool := query L id false fun i => .ok i.vv10

/-! ### The programs -/

/-- the kernel whose integrals are computed, `atomic/main.cpp:336-337`, `sadatom/scf.cpp:88-89` -/
inductive Kernel where
  | none | erfc | yukawa
  deriving DecidableEq, Repr

/-- what a program does with `--method` -/
structure Setup where
  x : Int
  c : Int
  exx : Exx
  kernel : Kernel

/-- `parse_xc_func` and the two calls of `is_supported`, `atomic/main.cpp:221-225`, `diatomic/main.cpp:179-183`, `sadatom/main.cpp:325-331`, `aij.cpp:152-158` -/
def method (L : Lib) (s : Str) : Res (Int × Int) :=
  parse L s >>= fun f => isSupported L f.1 >>= fun a => if a = false then .throw .logicError else isSupported L f.2 >>= fun b => if b = false then .throw .logicError else .ok f

open Classical in
/-- `atomic/main.cpp:221-243, 336-337`; the same in `sadatom/scf.cpp:61-67, 88-89`: `kfrac` is `alpha`, `kshort` is `beta` -/
noncomputable def atomic (L : Lib) (s : Str) : Res Setup :=
  method L s >>= fun f => rangeSep L f.1 >>= fun e =>
    (if e.beta ≠ 0 then isRangeSep L f.1 else .ok (false, false)) >>= fun k => .ok ⟨f.1, f.2, e, if k.2 then .yukawa else if k.1 then .erfc else .none⟩

open Classical in
/-- `diatomic/main.cpp:179-191` -/
noncomputable def diatomic (L : Lib) (s : Str) : Res Setup :=
  method L s >>= fun f => rangeSep L f.1 >>= fun e => if (e.alpha ≠ 0 ∨ e.beta ≠ 0) ∧ e.beta ≠ 0 then .throw .logicError else .ok ⟨f.1, f.2, e, .none⟩

/-- `aij.cpp:152-158, 419, 506`: exact exchange is not computed -/
def aij (L : Lib) (s : Str) : Res Setup := method L s >>= fun f => .ok ⟨f.1, f.2, Exx.zero, .none⟩

open Classical in
/-- the functionals of the effective potential that is written, or none, `sadatom/main.cpp:490-519`; `mgga` is the answer of `is_gga_mgga` -/
noncomputable def potential (L : Lib) (mgga : Int → Bool) (s : Str) : Res (Option (Int × Int)) :=
  parse L s >>= fun f =>
    if 0 < f.1 ∧ mgga f.1 = true then .throw .logicError
    else if 0 < f.2 ∧ mgga f.2 = true then .throw .logicError
    else (if 0 < f.1 then rangeSep L f.1 >>= fun e => if e.omega ≠ 0 ∨ e.alpha ≠ 0 ∨ e.beta ≠ 0 then .throw .logicError else .ok () else .ok ()) >>= fun _ =>
      .ok (if 0 < f.1 ∨ 0 < f.2 then some f else none)

end Func
end HelFEM
