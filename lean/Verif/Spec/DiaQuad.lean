import Verif.Model.DiaQuad
import Mathlib.Analysis.SpecialFunctions.Trigonometric.Deriv
import Mathlib.MeasureTheory.Integral.IntervalIntegral.Basic

/-!
# Radial integrals of the Neumann expansion

`∫∫ f(μ₁) g(μ₂) P(cosh μ_<) Q(cosh μ_>)` with the factors `sinh μ cosh^k μ` of the volume element, over a rectangle of `μ₁` and `μ₂`.
-/

namespace HelFEM
namespace Spec

/-- `∫∫ f(μ₁) cosh^k μ₁ sinh μ₁ g(μ₂) cosh^l μ₂ sinh μ₂ P(cosh min(μ₁, μ₂)) Q(cosh max(μ₁, μ₂))` over `[a, b] × [a', b']` -/
noncomputable def neumannInt (P Q : ℝ → ℝ) (k l : Nat) (f g : ℝ → ℝ) (a b a' b' : ℝ) : ℝ :=
  ∫ μ₁ in a..b, ∫ μ₂ in a'..b', f μ₁ * (Real.sinh μ₁ * Real.cosh μ₁ ^ k) * (g μ₂ * (Real.sinh μ₂ * Real.cosh μ₂ ^ l)) *
    (P (Real.cosh (min μ₁ μ₂)) * Q (Real.cosh (max μ₁ μ₂)))

end Spec

namespace DiaQuad

/-- function `i` of the element as a function of `μ` -/
noncomputable def Elem.fn (E : Elem) (i : Nat) (mu : ℝ) : ℝ := E.bf (lenOf E.mumin E.mumax) i ((mu - midOf E.mumin E.mumax) / lenOf E.mumin E.mumax)

/-- An element of the half-line `μ ≥ 0` with continuous functions. -/
structure Elem.Regular (E : Elem) : Prop where
  nonneg : 0 ≤ E.mumin
  lt : E.mumin < E.mumax
  cont : ∀ i < E.nbf, ContinuousOn (E.fn i) (Set.Icc E.mumin E.mumax)

/-- the orders tried: `n0`, then doubled up to the cap -/
def tryOrder (nmax n0 : Nat) : Nat → Nat
  | 0 => n0
  | j + 1 => min (2 * tryOrder nmax n0 j) nmax

variable {K : Type _} [Field K] [LinearOrder K] {A : Type _}

/-- The block at the `j`th order has settled, in comparison with the one before: the largest change `δ` is at the level of rounding, or it is below
`√eps` of the largest entry and either close to the level of rounding or not even halved by the last doubling. -/
def Settled (eps sqrteps : K) (diff : A → A → Option K) (scale : A → K) (b : Nat → A) (j : Nat) : Prop :=
  ∃ δ, diff (b j) (b (j - 1)) = some δ ∧ (δ ≤ 8 * eps * (scale (b j) + 8 * eps) ∨
    (δ ≤ sqrteps * (scale (b j) + 8 * eps) ∧ (δ ≤ 256 * eps * (scale (b j) + 8 * eps) ∨
      (2 ≤ j ∧ ∃ δ', diff (b (j - 1)) (b (j - 2)) = some δ' ∧ 0 ≤ δ' ∧ 1 / 2 * δ' < δ))))

end DiaQuad
end HelFEM
