import Verif.Spec.TwoElectron
import Mathlib.Analysis.Real.Sqrt
import Mathlib.Data.Int.Interval
import Mathlib.Order.Interval.Finset.Defs

/-!
# Electron repulsion integrals of atomic orbitals

A one-particle function is a pair of an angular part `(l, m)` (a complex spherical harmonic) and the number of a real radial function.
`G l1 m1 l2 m2 l3 m3` is the integral of three spherical harmonics. A kernel is given by its multipole expansion
`v(1,2) = Σ_L fac L · v_L(r1,r2) Σ_M conj(Y_LM(1)) Y_LM(2)`; for the Coulomb kernel `fac L = 4π/(2L+1)`.
-/

namespace HelFEM
namespace Spec
open Finset

/-- `∫ conj(Y_a) Y_LM Y_b` -/
noncomputable def sphere (G : Nat → Int → Nat → Int → Nat → Int → ℝ) (a : Int × Int) (L : Nat) (M : Int) (b : Int × Int) : ℝ :=
  (if a.2 % 2 = 0 then 1 else -1) * G a.1.toNat (-a.2) L M b.1.toNat b.2

/-- `(pq|rs) = ∫∫ conj(p(1)) q(1) v(1,2) conj(r(2)) s(2)`: all multipoles `L < nL`, all `-L ≤ M ≤ L` -/
noncomputable def eri (G : Nat → Int → Nat → Int → Nat → Int → ℝ) (fac : Nat → ℝ) (nL : Nat) (radial : Nat → Nat → Nat → Nat → Nat → ℝ)
    (p q r s : (Int × Int) × Nat) : ℝ :=
  ∑ L ∈ range nL, ∑ M ∈ Icc (-(L : Int)) L, fac L * (sphere G q.1 L M p.1 * sphere G r.1 L M s.1) * radial L p.2 q.2 r.2 s.2

/-- the function with number `i` of a basis with the angular functions `lm` and `nrad` radial functions for each -/
def orbital (lm : List (Int × Int)) (nrad i : Nat) : (Int × Int) × Nat := (lm.getD (i / nrad) (0, 0), i % nrad)

/-- a density matrix without the blocks between two angular functions whose Frobenius norm is below `thr` -/
noncomputable def screened (nrad : Nat) (thr : ℝ) (P : Nat → Nat → ℝ) (i l : Nat) : ℝ :=
  if Real.sqrt (∑ a ∈ range nrad, ∑ b ∈ range nrad, P (i / nrad * nrad + a) (l / nrad * nrad + b) * P (i / nrad * nrad + a) (l / nrad * nrad + b)) < thr
  then 0 else P i l

end Spec
end HelFEM
