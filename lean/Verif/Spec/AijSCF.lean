import Verif.Model.AijSCF
import Verif.Spec.SadSCF

/-!
# The energy of an atom in jellium

The electrons see the nucleus, the background and each other. Exact exchange is not part of the model, and a functional whose number is not positive stands for none.
-/

namespace HelFEM
namespace Aij
namespace Spec

open Matrix SadSCF

/-- The spherically averaged atom whose confinement is the background, without exact exchange. -/
noncomputable abbrev atom (j : Job) (restricted : Bool) : Setup :=
  { j.s with restricted := restricted, nelb := 1, haveConf := true, kfrac := 0, kshort := 0, fn := { j.s.fn with x := max j.s.fn.x 0, c := max j.s.fn.c 0 } }

/-- The energy of the restricted atom: that of the electrons, of the nucleus in the field of the background and of the background in its own. -/
noncomputable def energyR (j : Job) (k : SadSCF.Spec.Kernels) (P : Nat → Matrix (Fin j.s.N) (Fin j.s.N) ℝ) : ℝ := SadSCF.Spec.energyR (atom j true) k P + j.Enucfield + j.Erep

/-- The same with two spins. -/
noncomputable def energyU (j : Job) (k : SadSCF.Spec.Kernels) (A B : Nat → Matrix (Fin j.s.N) (Fin j.s.N) ℝ) : ℝ := SadSCF.Spec.energyU (atom j false) k A B + j.Enucfield + j.Erep

/-- no electrons in these orbitals -/
def Empty {M : Nat} (o : Dens.Orbs M) : Prop := ∀ i, o.occ i = 0

/-- Matrices with the same entries. -/
def Same (A B : Mat ℝ) : Prop := A.rows = B.rows ∧ A.cols = B.cols ∧ ∀ r < A.rows, ∀ c < A.cols, A.get r c = B.get r c

end Spec
end Aij
end HelFEM
