import Verif.Lemmas.QuadConv

/-! # C46: the modified Gauss-Chebyshev rule converges for every continuous function -/

namespace HelFEM
namespace Quad
open Filter Topology Finset

/-- **C46, convergence.** For every function continuous on `[-1, 1]` the sums of the rule converge to the integral as the number of points grows. -/
theorem C46_converges {f : ℝ → ℝ} (hf : ContinuousOn f (Set.Icc (-1) 1)) :
    Tendsto (fun n => ((chebyshev n).map fun p => p.2 * f p.1).sum) atTop (𝓝 (∫ x in (-1)..1, f x)) := by
  refine (cheb_tendsto hf).congr fun n => ?_
  have hl : (chebyshev n) = (List.range n).map fun k => (nodeX n k, nodeW n k) := by
    apply List.ext_getElem?
    intro i
    rw [List.getElem?_map]
    by_cases h : i < n
    · rw [List.getElem?_range h, Option.map_some]
      unfold nodeX nodeW
      rw [List.getD_eq_getElem?_getD, cheb_get n i h]
      rfl
    · rw [List.getElem?_eq_none (by rw [cheb_length]; omega), List.getElem?_eq_none (by rw [List.length_range]; omega)]; rfl
  rw [hl, List.map_map, Finset.sum_range, ← List.sum_ofFn, List.ofFn_eq_map, ← List.map_coe_finRange_eq_range, List.map_map]
  rfl

/-- a function with a kink -/
example : Tendsto (fun n => ((chebyshev n).map fun p => p.2 * |p.1 - 1 / 3|).sum) atTop (𝓝 (∫ x in (-1)..1, |x - 1 / 3|)) :=
  C46_converges (by fun_prop)

end Quad
end HelFEM
