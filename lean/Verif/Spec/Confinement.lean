import Mathlib.Analysis.SpecialFunctions.Exp
import Mathlib.Topology.Algebra.InfiniteSum.Defs
import Mathlib.Data.Nat.Factorial.Basic

/-!
# Confinement potentials

They vanish for `r < s`. Outside, with `x = (r - s)/|R|`:
`1`: `± x^N` with the sign of `R` (for negative `N`, where `s` must vanish, `± (|R| r)^N`); `2`: the exponential series from order `N` on, normalised to
begin with `x^N`; `3`: the height `V`; `4`: the potential of Junquera et al. with the outermost radius `rc`.
-/

namespace HelFEM
namespace OneE
namespace Spec

/-- the arguments that are accepted -/
def confinementOk (N iconf : Int) (V s : ℝ) : Prop := match iconf with
  | 1 => 0 ≤ N ∨ s = 0
  | 2 => 1 ≤ N
  | 3 => 0 ≤ V
  | 4 => 1 ≤ N ∧ 0 < V
  | _ => False

/-- the potential; `sign` is 1 for `R = 0` too -/
noncomputable def confining (N : Int) (R : ℝ) (iconf : Int) (V s rc r : ℝ) : ℝ :=
  if r < s then 0 else match iconf with
  | 1 => (if R < 0 then -1 else 1) * if N < 0 then (|R| * r) ^ N else ((r - s) / |R|) ^ N
  | 2 => ∑' k : Nat, (N.toNat.factorial : ℝ) * (((r - s) / |R|) ^ (N.toNat + k) / (N.toNat + k).factorial)
  | 3 => V
  | 4 => V * Real.exp (-((rc - s) / (r - s))) / (rc - r) ^ N
  | _ => 0

end Spec
end OneE
end HelFEM
