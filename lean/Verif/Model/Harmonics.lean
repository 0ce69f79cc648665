import Verif.Model.Mat
import Verif.Spec.Legendre
import Mathlib.Algebra.Polynomial.Derivative
import Mathlib.Analysis.SpecialFunctions.Trigonometric.Inverse
import Mathlib.Analysis.SpecialFunctions.Complex.Circle

/-!
# Spherical harmonics and the values and derivatives of basis functions on angular grids

Models `src/general/spherical_harmonics.cpp`, `TwoDBasis::eval_bf`, `eval_df` and `eval_lf` of `src/atomic/TwoDBasis.cpp`, and the complex `eval_bf` and `eval_df` of `src/diatomic/basis.cpp`.
-/

namespace HelFEM
namespace Harm

open Polynomial

/-- `std::sph_legendre(l, m, theta)`, by its definition in the C++ standard (`[sf.cmath.sph.legendre]`):
`(-1)^m √((2l+1)/(4π) (l-m)!/(l+m)!) sin^m θ P_l^{(m)}(cos θ)`, for `0 ≤ θ ≤ π` -/
noncomputable def sphLegendre (l m : Nat) (θ : ℝ) : ℝ :=
  (-1) ^ m * √((2 * l + 1) / (4 * Real.pi) * (Nat.factorial (l - m) / Nat.factorial (l + m))) * Real.sin θ ^ m * (derivative^[m] (Poly.pP l)).eval (Real.cos θ)

/-- the part of `spherical_harmonics` with `m ≥ 0`, `general/spherical_harmonics.cpp:26-34` -/
noncomputable def sphPos (l m : Int) (cth φ : ℝ) : ℂ := Complex.exp ((m * φ : ℝ) * Complex.I) * (sphLegendre l.toNat m.toNat (Real.arccos cth) : ℝ)

/-- `spherical_harmonics`, `general/spherical_harmonics.cpp:19-35`; `l` is cast to `unsigned`, so it is taken to be at least 0 -/
noncomputable def sph (l m : Int) (cth φ : ℝ) : ℂ := if m < 0 then (starRingEnd ℂ) ((-1) ^ m * sphPos l (-m) cth φ) else sphPos l m cth φ

/-! ### Values and derivatives

A matrix `rad` holds radial functions, one per column, at radial points, one per row. Column `i * Nc + j` of a result belongs to angular function `i` and radial function `j`. -/

/-- `eval_bf`, `atomic/TwoDBasis.cpp:1133-1153`, `diatomic/basis.cpp:2124-2141` (one row) -/
noncomputable def evalBf (lm : List (Int × Int)) (frad : Mat ℝ) (cth φ : ℝ) : Mat ℂ where
  rows := frad.rows
  cols := lm.length * frad.cols
  get := fun g k => let p := lm.getD (k / frad.cols) (0, 0); sph p.1 p.2 cth φ * (frad.get g (k % frad.cols) : ℝ)

/-- `dr` of `eval_df`, `atomic/TwoDBasis.cpp:1158-1179`, `diatomic/basis.cpp:2203-2223` -/
noncomputable def evalDr (lm : List (Int × Int)) (drad : Mat ℝ) (cth φ : ℝ) : Mat ℂ := evalBf lm drad cth φ

/-- `dphi` of `eval_df`, `atomic/TwoDBasis.cpp:1180-1182`, `diatomic/basis.cpp:2224-2226` -/
noncomputable def evalDphi (lm : List (Int × Int)) (frad : Mat ℝ) (cth φ : ℝ) : Mat ℂ where
  rows := frad.rows
  cols := lm.length * frad.cols
  get := fun g k => let p := lm.getD (k / frad.cols) (0, 0); (⟨0, p.2⟩ : ℂ) * sph p.1 p.2 cth φ * (frad.get g (k % frad.cols) : ℝ)

/-- `sinth`, `atomic/TwoDBasis.cpp:1187`, `diatomic/basis.cpp:2229` -/
noncomputable def sinth (cth : ℝ) : ℝ := √(max ((1 - cth) * (1 + cth)) 0)

/-- `cotth`, `atomic/TwoDBasis.cpp:1191`, `diatomic/basis.cpp:2230` -/
noncomputable def cotth (cth : ℝ) : ℝ := if 0 < sinth cth then cth / sinth cth else 0

/-- `angfac`, `atomic/TwoDBasis.cpp:1194-1202`, `diatomic/basis.cpp:2233-2241` -/
noncomputable def angfac (l m : Int) (cth φ : ℝ) : ℂ :=
  let a := (m * cotth cth : ℝ) * sph l m cth φ
  if m < l then a + (√(((l - m) * (l + m + 1) : Int) : ℝ) : ℝ) * Complex.exp (-φ * Complex.I) * sph l (m + 1) cth φ else a

/-- `dth` of `eval_df`, `atomic/TwoDBasis.cpp:1193-1205`, `diatomic/basis.cpp:2232-2244` -/
noncomputable def evalDth (lm : List (Int × Int)) (frad : Mat ℝ) (cth φ : ℝ) : Mat ℂ where
  rows := frad.rows
  cols := lm.length * frad.cols
  get := fun g k => let p := lm.getD (k / frad.cols) (0, 0); angfac p.1 p.2 cth φ * (frad.get g (k % frad.cols) : ℝ)

/-- `eval_lf`, `atomic/TwoDBasis.cpp:1211-1237` -/
noncomputable def evalLf (lm : List (Int × Int)) (r : Nat → ℝ) (frad drad lrad : Mat ℝ) (cth φ : ℝ) : Mat ℂ where
  rows := frad.rows
  cols := lm.length * frad.cols
  get := fun g k => let p := lm.getD (k / frad.cols) (0, 0); let j := k % frad.cols
    ((lrad.get g j + 2 * drad.get g j / r g - (p.1 * (p.1 + 1) : Int) * frad.get g j / (r g * r g) : ℝ) : ℂ) * sph p.1 p.2 cth φ

/-! ### The real functions of one `m`

`lm` is the list of the basis' angular functions, the functions are those with the given `m`, in order (`flist`). -/

/-- `flist`, `diatomic/basis.cpp:2144-2147, 2251-2254, 2289-2292` -/
def flist (lm : List (Int × Int)) (m : Int) : List (Int × Int) := lm.filter fun p => p.2 = m

/-- `eval_bf(iel, irad, cth, m)`, `diatomic/basis.cpp:2138-2164`; `dr` of `eval_df(iel, irad, cth, m)` is the same with `drad` for `frad` -/
noncomputable def evalBfM (lm : List (Int × Int)) (frad : Mat ℝ) (cth : ℝ) (m : Int) : Mat ℝ where
  rows := frad.rows
  cols := (flist lm m).length * frad.cols
  get := fun g k => let p := (flist lm m).getD (k / frad.cols) (0, 0); (sph p.1 p.2 cth 0).re * frad.get g (k % frad.cols)

/-- `dth` of `eval_df(iel, irad, cth, m)`, `diatomic/basis.cpp:2248-2284` -/
noncomputable def evalDthM (lm : List (Int × Int)) (frad : Mat ℝ) (cth : ℝ) (m : Int) : Mat ℝ where
  rows := frad.rows
  cols := (flist lm m).length * frad.cols
  get := fun g k => let p := (flist lm m).getD (k / frad.cols) (0, 0)
    let a := p.2 * cotth cth * (sph p.1 p.2 cth 0).re
    (if p.2 < p.1 then a + √((p.1 - p.2 : ℝ) * (p.1 + p.2 + 1 : ℝ)) * (sph p.1 (p.2 + 1) cth 0).re else a) * frad.get g (k % frad.cols)

/-- `eval_lf(iel, irad, cth, m)`, `diatomic/basis.cpp:2286-2322` (one row: one radial point `mu`) -/
noncomputable def evalLfM (lm : List (Int × Int)) (Rhalf mu : ℝ) (frad drad d2rad : Mat ℝ) (cth : ℝ) (m : Int) : Mat ℝ where
  rows := frad.rows
  cols := (flist lm m).length * frad.cols
  get := fun g k =>
    let p := (flist lm m).getD (k / frad.cols) (0, 0)
    let j := k % frad.cols
    let sth2 := max ((1 - cth) * (1 + cth)) 0
    let h2 := Rhalf * Rhalf * (Real.sinh mu * Real.sinh mu + sth2)
    let coth := if 0 < Real.sinh mu then Real.cosh mu / Real.sinh mu else 0
    let m2 := if 0 < Real.sinh mu then (m * m : Int) / (Real.sinh mu * Real.sinh mu) else 0
    (sph p.1 m cth 0).re / h2 * (d2rad.get g j + coth * drad.get g j - ((p.1 * (p.1 + 1) : Int) + m2) * frad.get g j)

end Harm
end HelFEM
