import Verif.Model.CoreBasis
import Mathlib.Algebra.BigOperators.Group.Finset.Basic

/-!
# When a basis set is converged
-/

namespace HelFEM
namespace Core
namespace Spec

/-- the shells `(n, l)` in the order they are filled: by `n + l`, then by `n` -/
def madelung : List (Nat × Nat) := (List.range 9).flatMap fun s => ((List.range (s + 1)).filter fun n => s - n < n ∧ n ≤ s).map fun n => (n, s - n)

/-- the first element with an electron in the shell: the shells before hold `2 (2 l + 1)` electrons each -/
def firstZ (k : Nat) : Nat := 1 + ((madelung.take k).map fun s => 2 * (2 * s.2 + 1)).sum

/-- the shells of an atom that have an orbital with projection `m` -/
def orbitals (m : Nat) (Z : Int) : Nat := (List.range madelung.length).countP fun k => decide ((firstZ k : Int) ≤ Z ∧ m ≤ (madelung.getD k (0, 0)).2)

/-- the energy of the lowest orbitals of symmetry `m` in a basis -/
noncomputable def energy (b : Key → Value) (norbs : List Nat) (m : Nat) (N l : Int) : ℝ := ((b (N, List.replicate m (-1) ++ [l])).ev.take (norbs.getD m 0)).sum

/-- Neither more partial waves nor more elements lower the energy of any symmetry by the threshold. -/
def Converged (b : Key → Value) (norbs : List Nat) (nadd : Int) (thr : ℝ) (N : Int) (lm : Nat → Int) : Prop :=
  ∀ m < norbs.length, energy b norbs m N (lm m) - thr < energy b norbs m N (lm m + nadd) ∧ energy b norbs m N (lm m) - thr < energy b norbs m (N + nadd) (lm m)

end Spec
end Core
end HelFEM
