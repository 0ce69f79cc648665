import Mathlib.Data.Real.Basic
import Mathlib.Algebra.BigOperators.Group.Finset.Basic

/-! The generalised binomial coefficient `n (n-1) ⋯ (n-m+1) / m!`. -/

namespace HelFEM
namespace Spec

noncomputable def binom (n : Int) (m : Nat) : ℝ := ∏ i ∈ Finset.range m, (((n : ℝ) - i) / ((i : ℝ) + 1))

end Spec
end HelFEM
