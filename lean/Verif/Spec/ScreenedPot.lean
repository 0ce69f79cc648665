import Mathlib.Analysis.SpecialFunctions.Sqrt
import Mathlib.Analysis.SpecialFunctions.Exp
import Mathlib.Topology.Order.Basic
import Mathlib.Topology.Algebra.Order.Field
import Mathlib.Topology.Instances.Real.Lemmas

/-!
# What a screened nuclear charge should do

The charge seen by an electron at distance `r` starts at the nuclear charge, never rises and goes over to the charge left at
large distances; and what reading a table by straight lines between its entries means.
-/

namespace HelFEM
namespace Spec

/-- `q` goes from the full charge `Z` at the nucleus down to `q∞` far away and never rises on the way. -/
structure ScreenedCharge (q : ℝ → ℝ) (Z qinf : ℝ) : Prop where
  nucleus : q 0 = Z
  falls : AntitoneOn q (Set.Ici 0)
  far : Filter.Tendsto q Filter.atTop (nhds qinf)

/-- The analytic approximation of the Thomas-Fermi screening function of arXiv:physics/0511017, with the three numbers rounded as in the code -/
noncomputable def tfScreening (x : ℝ) : ℝ :=
  (1 + 0.7280642371 * √x - 0.5430794693 * x * Real.exp (-0.3612163121 * √x)) ^ 2 * Real.exp (-(2 * 0.7280642371) * √x)

/-- `v` is read at `x` from the points `(xs i, ys i)`, `i < n`: the first value to the left of the table, the last one to the
right, and the straight line between two neighbouring entries. -/
structure Interpolated (xs ys : Nat → ℝ) (n : Nat) (x v : ℝ) : Prop where
  left : x ≤ xs 0 → v = ys 0
  right : xs (n - 1) ≤ x → v = ys (n - 1)
  between : ∀ i, i + 1 < n → xs i ≤ x → x ≤ xs (i + 1) →
    v * (xs (i + 1) - xs i) = ys i * (xs (i + 1) - x) + ys (i + 1) * (x - xs i)

end Spec
end HelFEM
