import Mathlib.Analysis.SpecialFunctions.Sqrt

/-!
# What the self-check of factorised integrals compares

Integrals `T α β` of the terms `α`, `β ∈ {0, 1}` of the two electrons over pairs of `n` functions, a pair being numbered `i n + j`.
-/

namespace HelFEM
namespace CdSpec
open Finset

/-- sign of a pair of terms -/
def sgn (α β : ℕ) : ℝ := if α = β then 1 else -1

/-- exchange with blocks `R α β`: functions `a`, `c` share an electron, and so do `d`, `b` -/
def exch (n : ℕ) (T R : ℕ → ℕ → ℕ → ℕ → ℝ) (a b : ℕ) : ℝ :=
  ∑ α ∈ range 2, ∑ β ∈ range 2, ∑ c ∈ range n, ∑ d ∈ range n, T α β (a * n + c) (d * n + b) * R α β c d

/-- squared size of the blocks `R` -/
def size2 (n : ℕ) (R : ℕ → ℕ → ℕ → ℕ → ℝ) : ℝ := ∑ α ∈ range 2, ∑ β ∈ range 2, ∑ c ∈ range n, ∑ d ∈ range n, R α β c d ^ 2

/-- integrals given by the factors: `sgn Σ_p B σ B` -/
def fac (m : ℕ) (np : ℕ) (B : ℕ → ℕ → ℝ) (σ : ℕ → ℝ) (α β i j : ℕ) : ℝ := sgn α β * ∑ p ∈ range np, σ p * (B (α * m + i) p * B (β * m + j) p)

/-- squared distance of two sets of integrals over `m` pairs -/
def dist2 (m : ℕ) (T T' : ℕ → ℕ → ℕ → ℕ → ℝ) : ℝ := ∑ α ∈ range 2, ∑ β ∈ range 2, ∑ i ∈ range m, ∑ j ∈ range m, (T α β i j - T' α β i j) ^ 2

end CdSpec
end HelFEM
