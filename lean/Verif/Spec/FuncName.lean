import Verif.Model.FuncName
import Mathlib.Data.Nat.Digits.Defs

/-!
# What a name of a functional means
-/

namespace HelFEM
namespace Func
namespace Spec

/-- The exact exchange of a functional: a fraction `alpha` of all of it and `beta` of its short range part. Hartree-Fock is all of it; a hybrid has its fraction, a range separated one its three numbers. -/
def share (L : Lib) (id : Int) : Exx :=
  if id = -1 then ⟨0, 1, 0⟩
  else
    match L.info id with
    | none => Exx.zero
    | some i => if id ≤ 0 then Exx.zero else if i.hyb = .hybrid then ⟨0, i.exx, 0⟩ else if i.hyb = .cam ∨ i.hyb = .camy then i.coef else Exx.zero

/-- a functional without exact exchange -/
def Semilocal (L : Lib) (id : Int) : Prop := id = 0 ∨ ∃ i, 0 < id ∧ L.info id = some i ∧ i.hyb = .semilocal

/-- a name that is not a number, not one of the names the code knows itself, and has no dash -/
structure Plain (s : Str) : Prop where
  digit : ∀ c, s.head? = some c → c.isDigit = false
  dash : '-' ∉ s
  none : s.map Char.toLower ≠ "none".toList
  hf : s.map Char.toLower ≠ "hf".toList
  hf' : s.map Char.toLower ≠ "hyb_x_hf".toList

/-- none, Hartree-Fock, or a functional libxc knows under its name and that is not for kinetic energy -/
def Known (L : Lib) (id : Int) : Prop := id = 0 ∨ id = -1 ∨ 0 < id ∧ ∃ i s, L.info id = some i ∧ i.kind ≠ .kinetic ∧ L.name id = some s ∧ L.number s = id ∧ Plain s

end Spec
end Func
end HelFEM
