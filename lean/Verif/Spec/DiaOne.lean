import Verif.Model.DiaOne
import Verif.Spec.SphereInt
import Mathlib.Algebra.Polynomial.Derivative
import Mathlib.Analysis.Calculus.Deriv.Basic
import Mathlib.Analysis.Complex.Trigonometric

/-!
# Matrix elements in prolate spheroidal coordinates

The nuclei are at `z = -R` (charge `Z1`) and `z = +R` (charge `Z2`). A point has `z = R cosh μ cos ν` and distance `ρ = R sinh μ sin ν` from the axis; `c` is
`cos ν`. Lengths along the coordinate lines are `R √(cosh² μ - c²)` for `μ` and `ν` and `ρ` for the azimuth (`C72_metric`), so the volume element is
`R³ sinh μ (cosh² μ - c²) dμ dc dφ`. The basis function `(i, a)` is `B_a(μ) Y_{l_i}^{m_i}(ν, φ)`, where `B_a` is on element `e` the polynomial `φ e a`.
-/

namespace HelFEM
namespace DiaOne
namespace Spec

open Polynomial

/-- Cartesian coordinates of a point -/
noncomputable def point (R μ ν p : ℝ) : ℝ × ℝ × ℝ :=
  (R * Real.sinh μ * Real.sin ν * Real.cos p, R * Real.sinh μ * Real.sin ν * Real.sin p, R * Real.cosh μ * Real.cos ν)

/-- The radial functions: polynomials on each element, all but the first zero on the axis between the nuclei (`μ = 0`). -/
structure Functions (R : Radial) (φ : Nat → Nat → ℝ[X]) : Prop where
  nel : 1 ≤ R.nel
  origin : R.bnd 0 = 0
  inc : ∀ e < R.nel, R.bnd e < R.bnd (e + 1)
  left : ∀ a, a ≠ 0 → (φ 0 a).eval 0 = 0

/-- The radial matrices are the integrals of their weights, where these integrals exist. -/
structure Exact (R : Radial) (φ : Nat → Nat → ℝ[X]) : Prop where
  rows : ∀ p q, (R.integral p q).rows = R.nbf
  cols : ∀ p q, (R.integral p q).cols = R.nbf
  entry : ∀ (p : Int) (q : Nat) (a b : Nat), a < R.nbf → b < R.nbf → (0 ≤ p ∨ (p = -1 ∧ a ≠ 0 ∧ b ≠ 0)) →
    (R.integral p q).get a b = ∑ e ∈ Finset.range R.nel, ∫ μ in (R.bnd e)..(R.bnd (e + 1)), (φ e a).eval μ * (φ e b).eval μ * (Real.sinh μ ^ p * Real.cosh μ ^ q)
  kin_rows : R.kin.rows = R.nbf
  kin_cols : R.kin.cols = R.nbf
  kin : ∀ a < R.nbf, ∀ b < R.nbf,
    R.kin.get a b = ∑ e ∈ Finset.range R.nel, ∫ μ in (R.bnd e)..(R.bnd (e + 1)), (derivative (φ e a)).eval μ * (derivative (φ e b)).eval μ * Real.sinh μ

/-- the basis function with radial part `p` -/
noncomputable def wave (p : ℝ[X]) (l : Nat) (m : Int) (μ c φ : ℝ) : ℂ := ((p.eval μ : ℝ) : ℂ) * Harm.sph l m c φ

/-- `∫ F d³r`, with an integrand given per element -/
noncomputable def volume (R : Radial) (Rhalf : ℝ) (F : Nat → ℝ → ℝ → ℝ → ℂ) : ℂ :=
  ∑ e ∈ Finset.range R.nel, ∫ μ in (R.bnd e)..(R.bnd (e + 1)), Harm.Spec.sphere fun c p => F e μ c p * ((Rhalf ^ 3 * Real.sinh μ * (Real.cosh μ ^ 2 - c ^ 2) : ℝ) : ℂ)

/-- distance from the axis and `z` -/
noncomputable def rho (R μ c : ℝ) : ℝ := R * Real.sinh μ * √(1 - c ^ 2)
noncomputable def zed (R μ c : ℝ) : ℝ := R * Real.cosh μ * c

/-- `⟨(i,a)| V |(j,b)⟩` for a potential `V(ρ, z)` -/
noncomputable def potential (D : Diatom) (φ : Nat → Nat → ℝ[X]) (V : ℝ → ℝ → ℝ) (i a j b : Nat) : ℂ :=
  volume D.rad D.Rhalf fun e μ c p => (starRingEnd ℂ) (wave (φ e a) (D.l i).toNat (D.m i) μ c p) * (V (rho D.Rhalf μ c) (zed D.Rhalf μ c) : ℝ) *
    wave (φ e b) (D.l j).toNat (D.m j) μ c p

/-- `½ ∫ ∇conj(χ) · ∇χ'`; the angle `ν` is `arccos c` -/
noncomputable def kinetic (D : Diatom) (φ : Nat → Nat → ℝ[X]) (i a j b : Nat) : ℂ :=
  volume D.rad D.Rhalf fun e μ c p =>
    let f := wave (φ e a) (D.l i).toNat (D.m i)
    let g := wave (φ e b) (D.l j).toNat (D.m j)
    1 / 2 * (((1 / (D.Rhalf ^ 2 * (Real.cosh μ ^ 2 - c ^ 2)) : ℝ) : ℂ) * ((starRingEnd ℂ) (deriv (fun s => f s c p) μ) * deriv (fun s => g s c p) μ +
        (starRingEnd ℂ) (deriv (fun t => f μ (Real.cos t) p) (Real.arccos c)) * deriv (fun t => g μ (Real.cos t) p) (Real.arccos c)) +
      ((1 / rho D.Rhalf μ c ^ 2 : ℝ) : ℂ) * ((starRingEnd ℂ) (deriv (fun q => f μ c q) p) * deriv (fun q => g μ c q) p))

/-- attraction by the two nuclei -/
noncomputable def attraction (Z1 Z2 : Int) (R ρ z : ℝ) : ℝ := -(Z1 : ℝ) / √(ρ ^ 2 + (z + R) ^ 2) - Z2 / √(ρ ^ 2 + (z - R) ^ 2)

/-- `⟨(i,a)| B²/8 (x² + y²) - B/2 L_z |(j,b)⟩` with `L_z = -i ∂/∂φ` -/
noncomputable def magnetic (D : Diatom) (φ : Nat → Nat → ℝ[X]) (B : ℝ) (i a j b : Nat) : ℂ :=
  volume D.rad D.Rhalf fun e μ c p =>
    (starRingEnd ℂ) (wave (φ e a) (D.l i).toNat (D.m i) μ c p) * ((B ^ 2 / 8 * rho D.Rhalf μ c ^ 2 : ℝ) * wave (φ e b) (D.l j).toNat (D.m j) μ c p -
      (B / 2 : ℝ) * (-Complex.I * deriv (fun q => wave (φ e b) (D.l j).toNat (D.m j) μ c q) p))

/-- The functions of the basis in order, as pairs of angular and radial function: the first radial function is left out when `m ≠ 0`. -/
def functions (lm : List (Int × Int)) (n : Nat) : List (Nat × Nat) :=
  (List.range lm.length).flatMap fun i => ((List.range n).filter fun a => decide ((lm.getD i (0, 0)).2 = 0 ∨ a ≠ 0)).map fun a => (i, a)

/-- The matrix has the entry `f i a j b` between the functions `(i, a)` and `(j, b)` of the basis. -/
def IsMatrix (D : Diatom) (V : Mat ℝ) (f : Nat → Nat → Nat → Nat → ℂ) : Prop :=
  V.rows = (functions D.lm D.rad.nbf).length ∧ V.cols = (functions D.lm D.rad.nbf).length ∧
    ∀ k k' i a j b, (functions D.lm D.rad.nbf)[k]? = some (i, a) → (functions D.lm D.rad.nbf)[k']? = some (j, b) → ((V.get k k' : ℝ) : ℂ) = f i a j b

/-- The object was made by the constructor, with or without tables for two-electron integrals; the Gaunt table was filled in any order. -/
def Constructed (D : Diatom) : Prop :=
  ∃ legendre s sched, gauntSizes legendre D.lm = .ok s ∧ sched.Perm (List.range (max s.1.toNat s.2.toNat + 1)) ∧
    Diatom.make legendre D.rad D.lm D.Z1 D.Z2 D.Rhalf Harm.Spec.gaunt sched = .ok D

/-- A diatomic basis with such radial functions, exact radial matrices and distinct pairs `(l, m)` with `|m| ≤ l`. -/
structure Good (D : Diatom) (φ : Nat → Nat → ℝ[X]) : Prop where
  functions : Functions D.rad φ
  exact : Exact D.rad φ
  made : Constructed D
  nodup : D.lm.Nodup
  m_le : ∀ p ∈ D.lm, |p.2| ≤ p.1
  half : 0 < D.Rhalf

/-- the part of element `e` of the first basis that lies in element `f` of the second -/
noncomputable def lower (A B : Radial) (e f : Nat) : ℝ := max (A.bnd e) (B.bnd f)
noncomputable def upper (A B : Radial) (e f : Nat) : ℝ := max (lower A B e f) (min (A.bnd (e + 1)) (B.bnd (f + 1)))

/-- The radial overlaps of two bases with weight `sinh cosh^n` are integrals over the common parts of elements. -/
structure ExactCross (A B : Radial) (φ ψ : Nat → Nat → ℝ[X]) (cross : Nat → Mat ℝ) : Prop where
  rows : ∀ n, (cross n).rows = A.nbf
  cols : ∀ n, (cross n).cols = B.nbf
  entry : ∀ (n a b : Nat), a < A.nbf → b < B.nbf → (cross n).get a b =
    ∑ e ∈ Finset.range A.nel, ∑ f ∈ Finset.range B.nel, ∫ μ in (lower A B e f)..(upper A B e f), (φ e a).eval μ * (ψ f b).eval μ * (Real.sinh μ * Real.cosh μ ^ n)

/-- overlap of the function `(i, a)` of the first basis and `(j, b)` of the second -/
noncomputable def crossOverlap (D E : Diatom) (φ ψ : Nat → Nat → ℝ[X]) (i a j b : Nat) : ℂ :=
  ∑ e ∈ Finset.range D.rad.nel, ∑ f ∈ Finset.range E.rad.nel, ∫ μ in (lower D.rad E.rad e f)..(upper D.rad E.rad e f), Harm.Spec.sphere fun c p =>
    (starRingEnd ℂ) (wave (φ e a) (D.l i).toNat (D.m i) μ c p) * wave (ψ f b) (E.l j).toNat (E.m j) μ c p * ((D.Rhalf ^ 3 * Real.sinh μ * (Real.cosh μ ^ 2 - c ^ 2) : ℝ) : ℂ)

end Spec
end DiaOne
end HelFEM
