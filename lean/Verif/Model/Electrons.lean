import Verif.Model.Basic
import Mathlib.Algebra.Order.Ring.Int

/-!
# Electron counts and block capacities

Models `src/general/scf_helpers.cpp:114-159` and `src/general/scf_driver_common.h:309-397`. Integers are unbounded (the `int` arithmetic cannot overflow for physical charges).
-/

namespace HelFEM
namespace Elec

/-- What `parse_nela_nelb` leaves in its reference arguments. -/
structure Counts where
  nela : Int
  nelb : Int
  Q : Int
  M : Int
  deriving DecidableEq, Repr

/-- `parse_nela_nelb`, `scf_helpers.cpp:114-159`. `/` and `%` round toward zero. -/
def parseNelaNelb (nela nelb Q M Z : Int) : Res Counts :=
  if nela = 0 ∧ nelb = 0 then
    let nel := Z - Q
    if M < 1 then .throw .runtimeError
    else if nel.tmod 2 = 0 ∧ M.tmod 2 ≠ 1 then .throw .runtimeError
    else if nel.tmod 2 = 1 ∧ M.tmod 2 ≠ 0 then .throw .runtimeError
    else
      let a := if nel.tmod 2 = 0 then nel.tdiv 2 + (M - 1).tdiv 2 else nel.tdiv 2 + M.tdiv 2
      let b := nel - a
      if a < 0 then .throw .runtimeError
      else if b < 0 then .throw .runtimeError
      else .ok ⟨a, b, Q, M⟩
  else
    let Q' := Z - nela - nelb
    let M' := 1 + nela - nelb
    if M' < 1 then .throw .runtimeError else .ok ⟨nela, nelb, Q', M'⟩

/-- What `derive_nela_nelb_restricted` leaves in its reference arguments (`Q` and `M` are passed by value). -/
structure Derived where
  nela : Int
  nelb : Int
  restr : Int
  restricted : Bool
  Ntot : Int
  deriving DecidableEq, Repr

/-- `derive_nela_nelb_restricted`, `scf_driver_common.h:309-329`. -/
def derive (nela nelb restr Q M Z : Int) : Res Derived :=
  if M = 0 ∧ nela = 0 ∧ nelb = 0 then
    if restr = 0 then .throw .logicError
    else
      let Ntot := Z - Q
      if Ntot ≤ 0 then .throw .logicError
      else .ok ⟨(Ntot + 1).tdiv 2, Ntot.tdiv 2, 1, true, Ntot⟩
  else
    match parseNelaNelb nela nelb Q M Z with
    | .ok c =>
      let restr' := if restr = -1 then (if c.nela = c.nelb then 1 else 0) else restr
      .ok ⟨c.nela, c.nelb, restr', restr' != 0, c.nela + c.nelb⟩
    | .throw e => .throw e
    | .ub => .ub

/-- The four tables handed to the SCF solver. -/
structure Metadata where
  blocksPerType : List Int
  maxOcc : List Int
  particles : List Int
  descriptions : List String
  deriving DecidableEq, Repr

/-- `build_ooo_block_metadata`, `scf_driver_common.h:361-397`; all numbers are integers. -/
def blockMetadata (nsym nparttype : Nat) (restricted : Bool) (Ntot nela nelb : Int) (labels : List String) (degeneracy : List Int) : Res Metadata :=
  if degeneracy.length ≠ nsym then .throw .logicError
  else if labels.length ≠ nsym then .throw .logicError
  else .ok
    { blocksPerType := (List.range nparttype).map fun _ => (nsym : Int)
      particles := (List.range nparttype).map fun t => if restricted then Ntot else if t = 0 then nela else nelb
      maxOcc := (List.range nparttype).flatMap fun _ => (List.range nsym).map fun k => (if restricted then 2 else 1) * degeneracy.getD k 0
      descriptions := (List.range nparttype).flatMap fun t => (List.range nsym).map fun k =>
        (if nparttype = 1 then "" else if t = 0 then "a:" else "b:") ++ labels.getD k "" }

end Elec
end HelFEM
