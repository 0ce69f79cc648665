import Mathlib.Algebra.Order.Ring.Int

/-!
# Which padded functions exist

Padded function `k` is radial function `k % nrad` of angular function `k / nrad`. All exist, except the first radial function of an angular function
with `m ≠ 0`.
-/

namespace HelFEM
namespace Dia

/-- padded index `k` is a function of the basis; `lm` lists the `(l, m)` of the angular functions -/
def Physical (lm : List (Int × Int)) (nrad k : Nat) : Prop :=
  ∃ p : Int × Int, lm[k / nrad]? = some p ∧ k % nrad < nrad ∧ (p.2 = 0 ∨ k % nrad ≠ 0)

end Dia
end HelFEM
