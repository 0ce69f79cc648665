import Mathlib.Algebra.BigOperators.Intervals

/-!
# Specification of Coulomb and exchange matrices

`fourIndex … i j k l` is the electron repulsion integral `(ij|kl)` of functions that live on elements: a function number `i` lives on the
elements `e` with `first e ≤ i ≤ last e`, and `blk e1 e2 a b c d` is the integral over electron 1 in element `e1` and electron 2 in
element `e2` for the local functions `a, b` and `c, d`.
-/

namespace HelFEM
namespace Spec
open Finset

def fourIndex {K : Type _} [AddCommMonoid K] (ne : Nat) (first last : Nat → Nat) (blk : Nat → Nat → Nat → Nat → Nat → Nat → K)
    (i j k l : Nat) : K :=
  ∑ e1 ∈ range ne, ∑ e2 ∈ range ne,
    if ((first e1 ≤ i ∧ i ≤ last e1) ∧ (first e1 ≤ j ∧ j ≤ last e1)) ∧ ((first e2 ≤ k ∧ k ≤ last e2) ∧ (first e2 ≤ l ∧ l ≤ last e2)) then
      blk e1 e2 (i - first e1) (j - first e1) (k - first e2) (l - first e2)
    else 0

/-- The multipole form of the blocks: inside an element the stored integrals `tei` (pairs packed with the first index fast, `n e` functions
on element `e`), between elements the product of a moment of the inner and one of the outer element. -/
def multipoleBlk {K : Type _} [Mul K] (n : Nat → Nat) (small big tei : Nat → Nat → Nat → K) (e1 e2 a b c d : Nat) : K :=
  if e1 = e2 then tei e1 (b * n e1 + a) (d * n e1 + c)
  else if e1 < e2 then small e1 a b * big e2 c d
  else big e1 a b * small e2 c d

/-- Coulomb matrix `J_ij = Σ_kl (ij|kl) P_kl`. -/
def coulomb {K : Type _} [AddCommMonoid K] [Mul K] (N : Nat) (four : Nat → Nat → Nat → Nat → K) (P : Nat → Nat → K) (i j : Nat) : K :=
  ∑ k ∈ range N, ∑ l ∈ range N, four i j k l * P k l

/-- Exchange matrix `K_ik = Σ_jl (ij|kl) P_jl`. -/
def exchange {K : Type _} [AddCommMonoid K] [Mul K] (N : Nat) (four : Nat → Nat → Nat → Nat → K) (P : Nat → Nat → K) (i k : Nat) : K :=
  ∑ j ∈ range N, ∑ l ∈ range N, four i j k l * P j l

end Spec
end HelFEM
