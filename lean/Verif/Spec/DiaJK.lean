import Verif.Spec.AtomicJK
import Verif.Spec.SphereInt
import Verif.Spec.DiaOne

/-!
# Electron repulsion integrals in prolate spheroidal coordinates

A one-particle function is a pair of a complex spherical harmonic `(l, m)` in the angular coordinates `(cos ν, φ)` and the number of a real function of
`μ`. With half the distance of the nuclei `Rh`, the volume element is `Rh³ (cosh²μ - cos²ν) sinh μ dμ dΩ`, and the Neumann expansion of the kernel is

`1/r₁₂ = 4π/Rh Σ_LM (-1)^M (L-|M|)!/(L+|M|)! P_L^|M|(cosh μ_<) Q_L^|M|(cosh μ_>) conj(Y_LM(1)) Y_LM(2)`.

The factor `cosh²μ - cos²ν` of an electron has two terms, numbered 0 (`cos²ν`, in the angular integral) and 1 (`cosh²μ`, in the radial one); the term
for electrons 1 and 2 has the sign `+` when they are of the same kind, `-` otherwise.
-/

namespace HelFEM
namespace Spec
open Finset

/-- the sign of term `α` of electron 1 and term `β` of electron 2 in `(cosh²μ₁ - cos²ν₁) (cosh²μ₂ - cos²ν₂)` -/
def termSign (α β : Nat) : ℝ := if α = β then 1 else -1

/-- `∫ conj(Y_a) w Y_LM Y_b dΩ` with `w = cos²ν` for term 0, `w = 1` for term 1 -/
noncomputable def angular (α : Nat) (a : Int × Int) (L : Nat) (M : Int) (b : Int × Int) : ℝ :=
  (Harm.Spec.sphere fun c φ => (starRingEnd ℂ) (Harm.sph a.1.toNat a.2 c φ) * ((if α = 0 then c ^ 2 else 1 : ℝ) : ℂ) * Harm.sph L M c φ * Harm.sph b.1.toNat b.2 c φ).re

/-- The integrals over `μ` by elements: inside an element the integrals `T α β e` (pairs of functions packed with the first fast; `n e` functions),
between elements a product of an integral with `P_L^|M|` over the inner and one with `Q_L^|M|` over the outer element. -/
def neumannBlk (n : Nat → Nat) (P Q : Nat → Nat → Nat → Nat → ℝ) (T : Nat → Nat → Nat → Nat → Nat → ℝ) (α β e1 e2 a b c d : Nat) : ℝ :=
  if e1 = e2 then T α β e1 (b * n e1 + a) (d * n e1 + c)
  else if e1 < e2 then P α e1 a b * Q β e2 c d
  else Q α e1 a b * P β e2 c d

/-- `(pq|rs) = ∫∫ conj(p(1)) q(1) conj(r(2)) s(2) / r₁₂`: all `L < nL`, all `-L ≤ M ≤ L`. `radial L |M| α β a b c d` is the integral over `μ₁`, `μ₂`. -/
noncomputable def neumann (Rh : ℝ) (nL : Nat) (radial : Nat → Nat → Nat → Nat → Nat → Nat → Nat → Nat → ℝ) (p q r s : (Int × Int) × Nat) : ℝ :=
  ∑ L ∈ range nL, ∑ M ∈ Icc (-(L : Int)) L, (if M % 2 = 0 then 1 else -1) *
    (4 * Real.pi * Rh ^ 5 * ((L - M.natAbs).factorial : ℝ) / ((L + M.natAbs).factorial : ℝ)) *
    ∑ α ∈ range 2, ∑ β ∈ range 2, termSign α β * (angular α q.1 L M p.1 * angular β r.1 L M s.1) * radial L M.natAbs α β p.2 q.2 r.2 s.2

/-- number of the angular function of basis function `i` -/
def angNo (lm : List (Int × Int)) (nrad i : Nat) : Nat := ((DiaOne.Spec.functions lm nrad).getD i (0, 0)).1

/-- basis function `i` of the list `functions` -/
def func (lm : List (Int × Int)) (nrad i : Nat) : (Int × Int) × Nat := (lm.getD (angNo lm nrad i) (0, 0), ((DiaOne.Spec.functions lm nrad).getD i (0, 0)).2)

/-- the function with the opposite `m` -/
def flipM (p : (Int × Int) × Nat) : (Int × Int) × Nat := ((p.1.1, -p.1.2), p.2)

/-- A density matrix over the functions `orb i`, `i < n`, without entries between different `m` and with the same entries for `m` and `-m`. -/
def AbsmSymmetric (n : Nat) (orb : Nat → (Int × Int) × Nat) (P : Nat → Nat → ℝ) : Prop :=
  (∀ i < n, ∀ j < n, (orb i).1.2 ≠ (orb j).1.2 → P i j = 0) ∧
  ∀ i < n, ∀ j < n, ∀ i' < n, ∀ j' < n, orb i' = flipM (orb i) → orb j' = flipM (orb j) → P i' j' = P i j

/-- A matrix over the functions `i < n`, of which `ang i` is the number of the angular function, without the blocks between two angular functions whose
Frobenius norm is below `thr`. -/
noncomputable def screenedAng (n : Nat) (ang : Nat → Nat) (thr : ℝ) (P : Nat → Nat → ℝ) (i l : Nat) : ℝ :=
  if Real.sqrt (∑ k ∈ range n, ∑ m ∈ range n, if ang k = ang i ∧ ang m = ang l then P k m * P k m else 0) < thr then 0 else P i l

end Spec
end HelFEM
