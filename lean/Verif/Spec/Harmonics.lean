import Mathlib.Analysis.Calculus.Deriv.Basic
import Mathlib.Analysis.SpecialFunctions.Trigonometric.Deriv
import Mathlib.Analysis.SpecialFunctions.Complex.Circle

/-!
# The Laplacian in spherical and prolate spheroidal coordinates
-/

namespace HelFEM
namespace Harm
namespace Spec

/-- `r⁻² ∂_r(r² ∂_r F) + (r² sinθ)⁻¹ ∂_θ(sinθ ∂_θ F) + (r² sin²θ)⁻¹ ∂_φ² F` -/
noncomputable def sphericalLaplacian (F : ℝ → ℝ → ℝ → ℂ) (r θ φ : ℝ) : ℂ :=
  (deriv (fun s : ℝ => (s ^ 2 : ℝ) * deriv (fun s' : ℝ => F s' θ φ) s) r) / (r ^ 2 : ℝ) +
  (deriv (fun t : ℝ => (Real.sin t : ℝ) * deriv (fun t' : ℝ => F r t' φ) t) θ) / (r ^ 2 * Real.sin θ : ℝ) +
  deriv (fun p : ℝ => deriv (fun p' : ℝ => F r θ p') p) φ / (r ^ 2 * Real.sin θ ^ 2 : ℝ)

/-- with half distance `a` between the foci:
`(a² (sinh²μ + sin²ν))⁻¹ ((sinhμ)⁻¹ ∂_μ(sinhμ ∂_μ F) + (sinν)⁻¹ ∂_ν(sinν ∂_ν F)) + (a² sinh²μ sin²ν)⁻¹ ∂_φ² F` -/
noncomputable def prolateLaplacian (a : ℝ) (F : ℝ → ℝ → ℝ → ℂ) (μ ν φ : ℝ) : ℂ :=
  ((deriv (fun s : ℝ => (Real.sinh s : ℝ) * deriv (fun s' : ℝ => F s' ν φ) s) μ) / (Real.sinh μ : ℝ) +
    (deriv (fun t : ℝ => (Real.sin t : ℝ) * deriv (fun t' : ℝ => F μ t' φ) t) ν) / (Real.sin ν : ℝ)) / (a ^ 2 * (Real.sinh μ ^ 2 + Real.sin ν ^ 2) : ℝ) +
  deriv (fun p : ℝ => deriv (fun p' : ℝ => F μ ν p') p) φ / (a ^ 2 * Real.sinh μ ^ 2 * Real.sin ν ^ 2 : ℝ)

end Spec
end Harm
end HelFEM
