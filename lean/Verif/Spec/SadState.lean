import Verif.Model.SadState
import Verif.Spec.SadSCF
import Verif.Spec.Density

/-!
# States of the spherically averaged atom
-/

namespace HelFEM
namespace SadSCF
namespace Spec

open Matrix Finset

/-- `X` holds orthonormal functions for the overlap `S`. -/
def Orthonormalises {N M : Nat} (S : Matrix (Fin N) (Fin N) ℝ) (X : Matrix (Fin N) (Fin M) ℝ) : Prop := Sᵀ = S ∧ Xᵀ * S * X = 1

/-- number of electrons of a density -/
noncomputable def count {N : Nat} (S P : Matrix (Fin N) (Fin N) ℝ) : ℝ := (P * S).trace

/-- The solver's answer: `sol` lists the blocks `oa 0 … oa lmax`, followed by `ob 0 … ob lmax` if there are two spins. -/
structure Answer (s : Setup) (sol : List (Dens.Orbs s.M)) (oa ob : Nat → Dens.Orbs s.M) : Prop where
  alpha : ∀ l ≤ s.lmax, sol[l]? = some (oa l)
  beta : s.restricted = false → ∀ l ≤ s.lmax, sol[s.lmax + 1 + l]? = some (ob l)
  /-- counts fit an `int` -/
  small : ∀ l ≤ s.lmax, |∑ i, (oa l).occ i| ≤ 2147483647 ∧ |∑ i, (ob l).occ i| ≤ 2147483647

/-- an orbital set whose occupations lie between zero and `c` -/
def Within {M : Nat} (o : Dens.Orbs M) (c : ℝ) : Prop := ∀ i, 0 ≤ o.occ i ∧ o.occ i ≤ c

/-- the places of a shell: in restricted mode for both spins -/
def places (restricted : Bool) (l : Nat) : ℝ := if restricted then 2 * (2 * l + 1) else 2 * l + 1

end Spec
end SadSCF
end HelFEM
