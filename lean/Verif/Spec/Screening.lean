import Mathlib.Analysis.Calculus.Deriv.Basic
import Mathlib.Analysis.Calculus.Deriv.Mul
import Mathlib.Analysis.Calculus.Deriv.Inv

/-!
# The exchange-correlation potential of a spherical density

The energy is `4π ∫ r² f(ρa, ρb, σaa, σab, σbb) dr` with `σst = ρs' ρt'`. Its derivative with respect to `ρs` is `f_ρs - div(2 f_σss ∇ρs + f_σst ∇ρt)`, and the divergence of a
radial field `A` is `(r² A)'/r²`. Stated with the derivative of a function of the radius; no chain rule.
-/

namespace HelFEM
namespace Spec

/-- `fr`, `fss`, `fst`: the derivatives of `f` by `ρs`, `σss`, `σst` along the radius. -/
noncomputable def xcPotential (fr fss fst ρs ρt : ℝ → ℝ) (r : ℝ) : ℝ :=
  fr r - deriv (fun s => s ^ 2 * (2 * fss s * deriv ρs s + fst s * deriv ρt s)) r / r ^ 2

/-- What is subtracted in excess from the potential of spin `s`, in terms of `ρs'`, `ρt'`, `ρs''`, `ρt''`, the derivatives of the energy density by `σss` and `σst`, and its second
derivatives by `(σss,σss)`, `(σss,σst)`, `(σss,σtt)`, `(σst,σst)`, `(σst,σtt)`: `ρ'' + k ρ'` taken for `ρ''`, and the change of `σst` counted twice. -/
noncomputable def xcExcess (k gs gt hs ht fss fst s0 s1 s2 s3 s4 : ℝ) : ℝ :=
  k * (2 * fss * gs + fst * gt)
    + k * (4 * gs * (gs ^ 2 * s0 + 2 * gs * gt * s1 + gt ^ 2 * s2) + 2 * gt * (gs ^ 2 * s1 + 2 * gs * gt * s3 + gt ^ 2 * s4))
    + (hs * gt + gs * ht) * (2 * gs * s1 + gt * s3)

end Spec
end HelFEM
