import Verif.Spec.GridXC
import Verif.Spec.DiaIndex

/-!
# Which quantities a pair of functionals uses, and density matrices over the padded functions
-/

namespace HelFEM
namespace XC
namespace Spec

/-- functional `id` uses the quantity `q` -/
def oneUses (env : Libxc) (id : Int) (q : Uses → Bool) : Bool :=
  if 0 < id then
    match env.info id with
    | none => false
    | some i => q (uses i)
  else false

/-- the exchange or the correlation functional uses it -/
def anyUses (env : Libxc) (x c : Int) (q : Uses → Bool) : Bool := oneUses env x q || oneUses env c q

open Classical in
/-- the functions of the diatomic basis, in order, as padded functions -/
noncomputable def functions (lm : List (Int × Int)) (nrad : Nat) : List Nat := (List.range (lm.length * nrad)).filter fun k => Dia.Physical lm nrad k

open Classical in
/-- the matrix over the padded functions whose entries between functions of the basis are those of `P`, all others zero -/
noncomputable def padded (lm : List (Int × Int)) (nrad : Nat) (P : Mat ℝ) (a b : Nat) : ℝ :=
  if a ∈ functions lm nrad ∧ b ∈ functions lm nrad then P.get ((functions lm nrad).idxOf a) ((functions lm nrad).idxOf b) else 0

end Spec
end XC
end HelFEM
