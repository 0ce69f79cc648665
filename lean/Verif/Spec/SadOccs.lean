import Mathlib.Algebra.BigOperators.Group.Finset.Basic
import Mathlib.Algebra.Order.Round
import Mathlib.Algebra.Order.Archimedean.Real.Basic

/-!
# Electrons in shells

`n` electrons of angular momentum `l` fill shells of `2(2l+1)` places one after the other; within a shell the first `2l+1` electrons have spin up.
-/

namespace HelFEM
namespace SadSCF
namespace Spec

open Finset

/-- electrons in the `k`-th shell -/
def inShell (l n k : Nat) : Nat := min (n - k * (2 * (2 * l + 1))) (2 * (2 * l + 1))

/-- electrons with spin up: there are no more than `n` occupied shells -/
def spinUp (l n : Nat) : Nat := ∑ k ∈ range n, min (inShell l n k) (2 * l + 1)

/-- electrons with spin down -/
def spinDown (l n : Nat) : Nat := ∑ k ∈ range n, (inShell l n k - (2 * l + 1))

/-- `x` is an integer to the accuracy with which the program asks for one, and a number of electrons a machine integer can hold -/
def IsCount (x : ℝ) (n : Nat) : Prop := |x - n| ≤ 1e-10 ∧ n ≤ 2147483647

end Spec
end SadSCF
end HelFEM
