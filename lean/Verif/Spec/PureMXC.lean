import Verif.Spec.PadXC
import Verif.Model.PureMXC
import Mathlib.Analysis.SpecialFunctions.Trigonometric.Inverse

/-!
# The points of the diatomic grid without azimuthal quadrature

The functions are `R_n(μ) y_l^m(ν) e^{imφ}` in prolate spheroidal coordinates. In these `∇` has the components `h⁻¹ ∂_μ`, `h⁻¹ ∂_ν`, `h_φ⁻¹ ∂_φ` with `h = R √(sinh²μ + sin²ν)`,
`h_φ = R sinhμ sinν`, and `∇² = h⁻² (∂_μ² + coth μ ∂_μ + ∂_ν² + cot ν ∂_ν) + h_φ⁻² ∂_φ²`.
-/

namespace HelFEM
namespace XC
namespace Spec

/-- `y l m ν` are the spherical harmonics at `φ = 0`: reflection in `m`, the ladder relation for the derivative, and Legendre's equation. -/
structure Harmonics (y : Int → Int → ℝ → ℝ) : Prop where
  neg : ∀ l m : Int, |m| ≤ l → ∀ ν, y l (-m) ν = (-1) ^ m.natAbs * y l m ν
  ladder : ∀ l m : Int, |m| ≤ l → ∀ ν, 0 < ν → ν < Real.pi →
    HasDerivAt (y l m) (m * (Real.cos ν / Real.sin ν) * y l m ν + if m < l then √((l - m) * (l + m + 1)) * y l (m + 1) ν else 0) ν
  legendre : ∀ l m : Int, |m| ≤ l → ∀ ν, 0 < ν → ν < Real.pi →
    HasDerivAt (deriv (y l m)) (-(Real.cos ν / Real.sin ν * deriv (y l m) ν) - (l * (l + 1) - m ^ 2 / Real.sin ν ^ 2) * y l m ν) ν

/-- angular momentum of the padded function `k` -/
def lOf (lm : List (Int × Int)) (nrad k : Nat) : Int := (lm.getD (k / nrad) (0, 0)).1
/-- its `m` -/
def mOf (lm : List (Int × Int)) (nrad k : Nat) : Int := (lm.getD (k / nrad) (0, 0)).2

/-- The functions of an element at one `μ` and `ν` and the azimuth `φ`, with weight (the azimuth integrated: `2π`), gradient in the orthonormal frame and Laplacian. -/
noncomputable def pmPoint (lm : List (Int × Int)) (nrad : Nat) (y : Int → Int → ℝ → ℝ) (R : Nat → ℝ → ℝ) (φ : ℝ) (e : PmPoint) (ia : Fin e.nang) : Point 3 :=
  let idx := Dia.bfListDummy lm nrad e.first e.last
  let ν := Real.arccos (e.cth ia)
  let h := e.Rhalf * √(Real.sinh e.mu ^ 2 + Real.sin ν ^ 2)
  let hφ := e.Rhalf * Real.sinh e.mu * Real.sin ν
  let r : Fin idx.length → ℝ → ℝ := fun a => R (idx[a] % nrad)
  let m : Fin idx.length → Int := fun a => mOf lm nrad idx[a]
  let Y : Fin idx.length → ℝ → ℝ := fun a => y (lOf lm nrad idx[a]) (m a)
  let ph : Fin idx.length → ℂ := fun a => Complex.exp ((m a * φ : ℝ) * Complex.I)
  { idx := idx
    w := 2 * Real.pi * e.wang ia * e.wrad * (e.Rhalf ^ 3 * Real.sinh e.mu * (Real.sinh e.mu ^ 2 + Real.sin ν ^ 2))
    f := fun a => (r a e.mu * Y a ν : ℝ) * ph a
    g := ![fun a => (h⁻¹ * (deriv (r a) e.mu * Y a ν) : ℝ) * ph a, fun a => (h⁻¹ * (r a e.mu * deriv (Y a) ν) : ℝ) * ph a,
      fun a => Complex.I * (hφ⁻¹ * (m a * (r a e.mu * Y a ν)) : ℝ) * ph a]
    l := fun a => ((h ^ 2)⁻¹ * ((deriv (deriv (r a)) e.mu + Real.cosh e.mu / Real.sinh e.mu * deriv (r a) e.mu) * Y a ν +
      r a e.mu * (deriv (deriv (Y a)) ν + Real.cos ν / Real.sin ν * deriv (Y a) ν)) - (hφ ^ 2)⁻¹ * (m a ^ 2 * (r a e.mu * Y a ν)) : ℝ) * ph a }

/-- all angles of a radial point, at azimuth zero -/
noncomputable def pmPoints (lm : List (Int × Int)) (nrad : Nat) (y : Int → Int → ℝ → ℝ) (R : Nat → ℝ → ℝ) (e : PmPoint) : List (Point 3) :=
  (List.finRange e.nang).map fun ia => pmPoint lm nrad y R 0 e ia

/-- The data of a radial point are the values and derivatives of the functions; the point is off the line through the nuclei. -/
structure Sampled (nrad : Nat) (y : Int → Int → ℝ → ℝ) (R : Nat → ℝ → ℝ) (e : PmPoint) : Prop where
  mu : 0 < e.mu
  Rhalf : 0 < e.Rhalf
  cth : ∀ ia, -1 < e.cth ia ∧ e.cth ia < 1
  first : e.first ≤ e.last
  last : e.last < nrad
  Y : ∀ l m : Int, |m| ≤ l → ∀ c, -1 ≤ c → c ≤ 1 → e.Y l m c = y l m (Real.arccos c)
  f : ∀ j ≤ e.last - e.first, e.f j = R (e.first + j) e.mu
  df : ∀ j ≤ e.last - e.first, e.df j = deriv (R (e.first + j)) e.mu
  d2f : ∀ j ≤ e.last - e.first, e.d2f j = deriv (deriv (R (e.first + j))) e.mu

/-- every angular function has `|m| ≤ l` -/
def Angular (lm : List (Int × Int)) : Prop := ∀ p ∈ lm, |p.2| ≤ p.1

/-- the `l` values that go with `m`, in the order of the basis -/
def lsOf (lm : List (Int × Int)) (m : Int) : List Int := (lm.filter fun p => p.2 = m).map (·.1)

/-- if `m` and `-m` have equally many angular functions, they have the same `l` values in the same order -/
def Paired (lm : List (Int × Int)) : Prop := ∀ m, (lsOf lm (-m)).length = (lsOf lm m).length → lsOf lm (-m) = lsOf lm m

/-- the matrix has no elements between functions with different `m` -/
def MDiag (lm : List (Int × Int)) (nrad : Nat) (P : Mat ℝ) : Prop :=
  ∀ i < (functions lm nrad).length, ∀ j < (functions lm nrad).length, mOf lm nrad ((functions lm nrad).getD i 0) ≠ mOf lm nrad ((functions lm nrad).getD j 0) → P.get i j = 0

/-- `k'` is the function `k` with the sign of `m` changed -/
def Flip (lm : List (Int × Int)) (nrad k k' : Nat) : Prop := lOf lm nrad k' = lOf lm nrad k ∧ mOf lm nrad k' = -mOf lm nrad k ∧ k' % nrad = k % nrad

/-- the elements between functions do not change if the sign of `m` is changed in both -/
def FlipSymm (lm : List (Int × Int)) (nrad : Nat) (P : Mat ℝ) : Prop :=
  ∀ a b a' b' : Nat, a < lm.length * nrad → b < lm.length * nrad → a' < lm.length * nrad → b' < lm.length * nrad → Flip lm nrad a a' → Flip lm nrad b b' →
    padded lm nrad P a' b' = padded lm nrad P a b

end Spec
end XC
end HelFEM
