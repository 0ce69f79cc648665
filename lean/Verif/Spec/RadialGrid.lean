import Mathlib.Data.Real.Basic

/-! # Specification of a valid element grid -/

namespace HelFEM.Spec

/-- A valid grid of `n` elements on `[0, rmax]`: `n+1` strictly increasing boundaries, the first exactly 0 and
the last exactly `rmax`. -/
structure ValidGrid (n : Nat) (rmax : ℝ) (b : List ℝ) : Prop where
  length : b.length = n + 1
  first : b.head? = some 0
  last : b.getLast? = some rmax
  increasing : b.Pairwise (· < ·)

/-- The grid parameter is meaningful for the chosen grid type: a positive exponent for the polynomial (3) and
exponential (4) grids, a ratio strictly between 0 and 1 for the geometric grid (5), anything for the linear (1) and
quadratic (2) ones. -/
def AdmissibleGrid (igrid : Int) (zexp : ℝ) : Prop :=
  igrid = 1 ∨ igrid = 2 ∨ (igrid = 3 ∧ 0 < zexp) ∨ (igrid = 4 ∧ 0 < zexp) ∨
    (igrid = 5 ∧ 0 < zexp ∧ zexp < 1)

end HelFEM.Spec
