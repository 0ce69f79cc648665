import Verif.Model.OneElectron
import Verif.Spec.SphereInt
import Mathlib.Algebra.Polynomial.Derivative
import Mathlib.Analysis.Calculus.Deriv.Basic

/-!
# Matrix elements over the ball

The basis function `(i, a)` is `B_a(r)/r Y_{l_i}^{m_i}`, where `B_a` is on element `e` the polynomial `φ e a`. Matrix elements are integrals in spherical
coordinates with volume element `r² dr dΩ`.
-/

namespace HelFEM
namespace OneE
namespace Spec

open Polynomial

/-- The radial functions: polynomials on each element, zero outside the functions of that element, continuous, zero at the origin and at the outermost point. -/
structure Functions (R : Radial) (φ : Nat → Nat → ℝ[X]) : Prop where
  nel : 1 ≤ R.nel
  origin : R.bnd 0 = 0
  inc : ∀ e < R.nel, R.bnd e < R.bnd (e + 1)
  idx : ∀ e < R.nel, R.first e ≤ R.last e + 1 ∧ R.last e + 1 ≤ R.nbf
  outside : ∀ e < R.nel, ∀ a, a < R.first e ∨ R.last e < a → φ e a = 0
  continuous : ∀ e, e + 1 < R.nel → ∀ a, (φ e a).eval (R.bnd (e + 1)) = (φ (e + 1) a).eval (R.bnd (e + 1))
  left : ∀ a, (φ 0 a).eval (R.bnd 0) = 0
  right : ∀ a, (φ (R.nel - 1) a).eval (R.bnd R.nel) = 0

/-- value of a radial function of the given kind -/
noncomputable def value (k : Kind) (p : ℝ[X]) (r : ℝ) : ℝ := match k with
  | .B0 => p.eval r
  | .B1 => (derivative p).eval r
  | .R0 => p.eval r / r

/-- The per-element quadrature returns the integrals. -/
structure Exact (R : Radial) (φ : Nat → Nat → ℝ[X]) : Prop where
  rows : ∀ k k' w, ∀ e < R.nel, (R.elem k k' w e).rows = R.last e + 1 - R.first e
  cols : ∀ k k' w, ∀ e < R.nel, (R.elem k k' w e).cols = R.last e + 1 - R.first e
  entry : ∀ k k' w, ∀ e < R.nel, ∀ a < R.last e + 1 - R.first e, ∀ b < R.last e + 1 - R.first e,
    (R.elem k k' w e).get a b = ∫ r in (R.bnd e)..(R.bnd (e + 1)), value k (φ e (R.first e + a)) r * value k' (φ e (R.first e + b)) r * w r

/-- the basis function with radial part `p` -/
noncomputable def wave (p : ℝ[X]) (l : Nat) (m : Int) (r c φ : ℝ) : ℂ := ((p.eval r / r : ℝ) : ℂ) * Harm.sph l m c φ

/-- `∫ F d³r`, with an integrand given per element -/
noncomputable def ball (R : Radial) (F : Nat → ℝ → ℝ → ℝ → ℂ) : ℂ :=
  ∑ e ∈ Finset.range R.nel, ∫ r in (R.bnd e)..(R.bnd (e + 1)), Harm.Spec.sphere fun c φ => F e r c φ * ((r ^ 2 : ℝ) : ℂ)

/-- `⟨(i,a)| V |(j,b)⟩` for a potential `V(r, cos θ)` -/
noncomputable def potential (A : Atom) (φ : Nat → Nat → ℝ[X]) (V : ℝ → ℝ → ℝ) (i a j b : Nat) : ℂ :=
  ball A.rad fun e r c p => (starRingEnd ℂ) (wave (φ e a) (A.l i) (A.m i) r c p) * (V r c : ℝ) * wave (φ e b) (A.l j) (A.m j) r c p

/-- `½ ∫ ∇conj(χ) · ∇χ'` in spherical coordinates; the polar angle is `arccos c` -/
noncomputable def kinetic (A : Atom) (φ : Nat → Nat → ℝ[X]) (i a j b : Nat) : ℂ :=
  ball A.rad fun e r c p =>
    let f := wave (φ e a) (A.l i) (A.m i)
    let g := wave (φ e b) (A.l j) (A.m j)
    1 / 2 * ((starRingEnd ℂ) (deriv (fun s => f s c p) r) * deriv (fun s => g s c p) r +
      ((1 / r ^ 2 : ℝ) : ℂ) * ((starRingEnd ℂ) (deriv (fun t => f r (Real.cos t) p) (Real.arccos c)) * deriv (fun t => g r (Real.cos t) p) (Real.arccos c) +
        ((1 / Real.sin (Real.arccos c) ^ 2 : ℝ) : ℂ) * ((starRingEnd ℂ) (deriv (fun q => f r c q) p) * deriv (fun q => g r c q) p)))

/-- attraction by charges `Z` at the origin, `Zr` and `Zl` on the axis at `+R` and `-R` -/
noncomputable def attraction (Z Zl Zr : Int) (R : ℝ) (r c : ℝ) : ℝ :=
  -(Z : ℝ) / r - Zr / √(r ^ 2 + R ^ 2 - 2 * r * R * c) - Zl / √(r ^ 2 + R ^ 2 + 2 * r * R * c)

/-- `⟨(i,a)| B²/8 (x² + y²) - B/2 L_z |(j,b)⟩` with `L_z = -i ∂/∂φ` -/
noncomputable def magnetic (A : Atom) (φ : Nat → Nat → ℝ[X]) (B : ℝ) (i a j b : Nat) : ℂ :=
  ball A.rad fun e r c p =>
    (starRingEnd ℂ) (wave (φ e a) (A.l i) (A.m i) r c p) * ((B ^ 2 / 8 * (r ^ 2 * (1 - c ^ 2)) : ℝ) * wave (φ e b) (A.l j) (A.m j) r c p -
      (B / 2 : ℝ) * (-Complex.I * deriv (fun q => wave (φ e b) (A.l j) (A.m j) r c q) p))

/-- An atomic basis with such radial functions, exact quadrature and distinct pairs `(l, m)` with `|m| ≤ l`. -/
structure Good (A : Atom) (φ : Nat → Nat → ℝ[X]) : Prop where
  functions : Functions A.rad φ
  exact : Exact A.rad φ
  nodup : A.lm.Nodup
  m_le : ∀ p ∈ A.lm, |p.2| ≤ (p.1 : Int)

/-- The matrix has the entry `f i a j b` between the functions `(i, a)` and `(j, b)`, numbered with `a` running fastest. -/
def IsMatrix (A : Atom) (V : Mat ℝ) (f : Nat → Nat → Nat → Nat → ℂ) : Prop :=
  V.rows = A.lm.length * A.rad.nbf ∧ V.cols = A.lm.length * A.rad.nbf ∧
    ∀ i < A.lm.length, ∀ a < A.rad.nbf, ∀ j < A.lm.length, ∀ b < A.rad.nbf, ((V.get (i * A.rad.nbf + a) (j * A.rad.nbf + b) : ℝ) : ℂ) = f i a j b

end Spec
end OneE
end HelFEM
