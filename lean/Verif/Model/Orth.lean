import Verif.Model.Basic
import Mathlib.LinearAlgebra.Matrix.NonsingularInverse
import Mathlib.Analysis.Real.Sqrt

/-!
# Orthonormalisation of the basis

`libhelfem/src/utils.cpp:92-159`, `src/general/scf_helpers.cpp:41-98`, `src/atomic/TwoDBasis.cpp:266-306`,
`src/diatomic/basis.cpp:985-1020`. Eigen's `LLT` and `SelfAdjointEigenSolver` are parameters which fail or return a factorisation; exact real arithmetic.
-/

namespace HelFEM
namespace Orth

open Matrix

/-- Eigen's decompositions, `none` meaning `info() != Success`: `llt` gives `L`, `eig` gives eigenvalues and eigenvectors. -/
structure Solvers where
  llt : (n : Nat) → Matrix (Fin n) (Fin n) ℝ → Option (Matrix (Fin n) (Fin n) ℝ)
  eig : (n : Nat) → Matrix (Fin n) (Fin n) ℝ → Option ((Fin n → ℝ) × Matrix (Fin n) (Fin n) ℝ)

/-- `inv_sqrt`, `utils.cpp:100-107` -/
noncomputable def invSqrt {n : Nat} (v : Fin n → ℝ) : Fin n → ℝ := fun i => (√(v i))⁻¹

/-- half-inverse in the normalised basis, `utils.cpp:130-154` -/
noncomputable def invhCore (s : Solvers) {n : Nat} (S : Matrix (Fin n) (Fin n) ℝ) (chol : Bool) : Res (Matrix (Fin n) (Fin n) ℝ) :=
  if chol then
    match s.llt n S with
    | none => .throw .logicError
    | some L => .ok (Lᵀ)⁻¹
  else
    match s.eig n S with
    | none => .throw .logicError
    | some (v, V) => .ok (V * diagonal (invSqrt v) * Vᵀ)

/-- `invh` / `form_Sinvh`, `utils.cpp:121-159`, `scf_helpers.h:33-35` -/
noncomputable def invh (s : Solvers) {n : Nat} (S : Matrix (Fin n) (Fin n) ℝ) (chol : Bool) : Res (Matrix (Fin n) (Fin n) ℝ) :=
  let d := invSqrt fun i => S i i
  match invhCore s (diagonal d * S * diagonal d) chol with
  | .ok X => .ok (diagonal d * X)
  | .throw e => .throw e
  | .ub => .ub

/-- gather `S(rows[a], rows[b])`, `TwoDBasis.cpp:290-293` -/
def gather (S : Nat → Nat → ℝ) (rows : List Nat) : Matrix (Fin rows.length) (Fin rows.length) ℝ :=
  Matrix.of fun a b => S (rows[a]) (rows[b])

/-- scatter `Sinvh(rows[a], ioff+b) = sub(a,b)`, `TwoDBasis.cpp:298-300`: later writes win, so for repeated rows the last one counts -/
noncomputable def scatter (X : Nat → Nat → ℝ) (rows : List Nat) (ioff : Nat) (sub : Matrix (Fin rows.length) (Fin rows.length) ℝ) : Nat → Nat → ℝ :=
  (List.finRange rows.length).foldl (fun (X : Nat → Nat → ℝ) (a : Fin rows.length) => (List.finRange rows.length).foldl (fun (X : Nat → Nat → ℝ) (b : Fin rows.length) =>
    fun i p => if i = rows[a] ∧ p = ioff + b.1 then sub a b else X i p) X) X

/-- `Sinvh` per symmetry block, `TwoDBasis.cpp:271-304`, `diatomic/basis.cpp:992-1017` -/
noncomputable def sinvhLoop (s : Solvers) (S : Nat → Nat → ℝ) (chol : Bool) : List (List Nat) → (Nat → Nat → ℝ) → Nat → Res (Nat → Nat → ℝ)
  | [], X, _ => .ok X
  | rows :: bs, X, ioff =>
    if rows.length = 0 then sinvhLoop s S chol bs X ioff
    else match invh s (gather S rows) chol with
      | .ok sub => sinvhLoop s S chol bs (scatter X rows ioff sub) (ioff + rows.length)
      | .throw e => .throw e
      | .ub => .ub

noncomputable def sinvh (s : Solvers) (S : Nat → Nat → ℝ) (chol : Bool) (blocks : List (List Nat)) : Res (Nat → Nat → ℝ) :=
  sinvhLoop s S chol blocks (fun _ _ => 0) 0

/-- `eig_gsym`, `scf_helpers.cpp:41-50` -/
noncomputable def eigGsym (s : Solvers) {n : Nat} {k : Nat} (F : Matrix (Fin n) (Fin n) ℝ) (X : Matrix (Fin n) (Fin k) ℝ) :
    Res ((Fin k → ℝ) × Matrix (Fin n) (Fin k) ℝ) :=
  match s.eig k (Xᵀ * F * X) with
  | none => .throw .logicError
  | some (E, V) => .ok (E, X * V)

end Orth
end HelFEM
