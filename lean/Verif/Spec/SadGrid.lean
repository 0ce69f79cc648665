import Mathlib.MeasureTheory.Integral.IntervalIntegral.Basic

/-!
# Composite quadrature

A rule for `[-1, 1]` carried over to an interval, and what it misses.
-/

namespace HelFEM
namespace Spec

noncomputable def panel (rule : List (ℝ × ℝ)) (g : ℝ → ℝ) (a b : ℝ) : ℝ := (b - a) / 2 * (rule.map fun q => q.2 * g ((a + b) / 2 + (b - a) / 2 * q.1)).sum

noncomputable def panelError (rule : List (ℝ × ℝ)) (g : ℝ → ℝ) (a b : ℝ) : ℝ := panel rule g a b - ∫ s in a..b, g s

/-- the points `t 0 < … < t n` and the two ends cut `[a, b]` into segments; `cut a b t np k` is the `k`-th of these `np + 2` places -/
def cut (a b : ℝ) (t : Nat → ℝ) (np : Nat) : Nat → ℝ
  | 0 => a
  | k + 1 => if k < np then t k else b

end Spec
end HelFEM
