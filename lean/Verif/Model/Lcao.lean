import Mathlib.Analysis.SpecialFunctions.Pow.Real
import Mathlib.Analysis.SpecialFunctions.Sqrt
import Verif.Model.SadXC

/-!
# Trial orbitals and how well a basis represents them

`general/lcao.cpp` (radial Gaussian and Slater functions) and the completeness and importance profiles of
`sadatom/main.cpp:107-177`.  The radial elements are those of `SadXC.lean`: indices, radii, weights and functions at the points.
Angular momenta are natural numbers; exact real arithmetic.
-/

namespace HelFEM.Lcao

open Matrix XC

/-- `double_factorial`, `lcao.cpp:20-25`: the loop from `k` down in steps of 2 while `k ≥ 2`, `v` the running product -/
noncomputable def doubleFactorialLoop (k : Nat) (v : ℝ) : ℝ :=
  if 2 ≤ k then doubleFactorialLoop (k - 2) (v * k) else v

/-- `double_factorial`, `lcao.cpp:20-25` -/
noncomputable def doubleFactorial (n : Nat) : ℝ := doubleFactorialLoop n 1

/-- `factorial`, `lcao.cpp:26-31`: `k` from 2 to `n` -/
noncomputable def factorial (n : Nat) : ℝ := (List.range' 2 (n - 1)).foldl (fun (v : ℝ) (k : Nat) => v * (k : ℝ)) 1

/-- `radial_GTO`, `lcao.cpp:34-36` -/
noncomputable def radialGTO (pi : ℝ) (r : ℝ) (l : Nat) (alpha : ℝ) : ℝ :=
  2 ^ (l + 2) * alpha ^ ((2 * (l : ℝ) + 3) / 4) * r ^ l * Real.exp (-alpha * r * r)
    / ((2 * pi) ^ ((1 : ℝ) / 4) * Real.sqrt (doubleFactorial (2 * l + 1)))

/-- `radial_STO`, `lcao.cpp:47-49` -/
noncomputable def radialSTO (r : ℝ) (l : Nat) (zeta : ℝ) : ℝ :=
  (2 * zeta) ^ ((l : ℝ) + 3 / 2) / Real.sqrt (factorial (2 * l + 2)) * r ^ l * Real.exp (-zeta * r)

/-- The matrix overloads, `lcao.cpp:38-44` and `51-57`: radii by exponents -/
noncomputable def aoMatrix {n m : Nat} (ao : ℝ → ℝ → ℝ) (r : Fin n → ℝ) (expn : Fin m → ℝ) : Matrix (Fin n) (Fin m) ℝ :=
  Matrix.of fun i j => ao (r i) (expn j)

variable {N : Nat}

/-- `ao.transpose() * wgt.asDiagonal() * bf`, `sadatom/main.cpp:124-125` -/
noncomputable def contrib {m : Nat} (ao : ℝ → ℝ → ℝ) (expn : Fin m → ℝ) (e : SadElem) : Matrix (Fin m) (Fin e.idx.length) ℝ :=
  (aoMatrix ao e.r expn)ᵀ * diagonal (fun p => e.wrad p * e.r p * e.r p) * e.bf

/-- `ao_projection.col(bfl[j]) += contrib.col(j)`, `sadatom/main.cpp:126-127` -/
noncomputable def addCols {m : Nat} (idx : List Nat) (c : Matrix (Fin m) (Fin idx.length) ℝ) (A : Matrix (Fin m) (Fin N) ℝ) :
    Res (Matrix (Fin m) (Fin N) ℝ) :=
  (List.finRange idx.length).foldlM (fun (A : Matrix (Fin m) (Fin N) ℝ) j =>
    if idx[j] < N then .ok (Matrix.of fun x i => if i.1 = idx[j] then A x i + c x j else A x i) else .ub) A

/-- `ao_projection`, `sadatom/main.cpp:117-128` -/
noncomputable def projection {m : Nat} (N : Nat) (ao : ℝ → ℝ → ℝ) (expn : Fin m → ℝ) (es : List SadElem) : Res (Matrix (Fin m) (Fin N) ℝ) :=
  es.foldlM (fun A e => addCols e.idx (contrib ao expn e) A) 0

/-- Column `l + 1` of `ao_completeness_profile`, `sadatom/main.cpp:107-134`; `X` is `Sinvh` -/
noncomputable def completeness {m M : Nat} (X : Matrix (Fin N) (Fin M) ℝ) (ao : ℝ → ℝ → ℝ) (expn : Fin m → ℝ) (es : List SadElem) :
    Res (Fin m → ℝ) := do
  let A ← projection N ao expn es
  let projT := (A * X)ᵀ
  .ok fun ix => Real.sqrt (∑ k, projT k ix ^ 2)

/-- `nocc`, `sadatom/main.cpp:150` -/
noncomputable def nocc (l : Nat) (occ : Int) : Int := ⌈(occ : ℝ) / (2 * (2 * (l : ℝ) + 1))⌉

/-- `C[l].leftCols(nocc)`, `sadatom/main.cpp:151` -/
noncomputable def leftCols {M : Nat} (C : Matrix (Fin N) (Fin M) ℝ) (k : Nat) : Res (Matrix (Fin N) (Fin k) ℝ) :=
  if h : k ≤ M then .ok (Matrix.of fun i j => C i ⟨j.1, lt_of_lt_of_le j.2 h⟩) else .ub

/-- `Cocc(bfl, all)`, `sadatom/main.cpp:159` -/
noncomputable def gatherRows {k : Nat} (C : Matrix (Fin N) (Fin k) ℝ) (idx : List Nat) : Res (Matrix (Fin idx.length) (Fin k) ℝ) :=
  if h : ∀ j : Fin idx.length, idx[j] < N then .ok (Matrix.of fun j x => C ⟨idx[j], h j⟩ x) else .ub

/-- `ao_projection += orbs.transpose() * wgt.asDiagonal() * ao`, `sadatom/main.cpp:153-162` -/
noncomputable def orbProjection {m k : Nat} (C : Matrix (Fin N) (Fin k) ℝ) (ao : ℝ → ℝ → ℝ) (expn : Fin m → ℝ) (es : List SadElem) :
    Res (Matrix (Fin k) (Fin m) ℝ) :=
  es.foldlM (fun A e => do
    let G ← gatherRows C e.idx
    .ok (A + (e.bf * G)ᵀ * diagonal (fun p => e.wrad p * e.r p * e.r p) * aoMatrix ao e.r expn)) 0

/-- Column `l + 1` of `ao_importance_profile`, `sadatom/main.cpp:140-167`; a column skipped stays zero -/
noncomputable def importance {m M : Nat} (C : Matrix (Fin N) (Fin M) ℝ) (l : Nat) (occ : Int) (ao : ℝ → ℝ → ℝ) (expn : Fin m → ℝ)
    (es : List SadElem) : Res (Fin m → ℝ) :=
  if occ ≤ 0 then .ok 0
  else do
    let Cocc ← leftCols C (nocc l occ).toNat
    let A ← orbProjection Cocc ao expn es
    .ok fun ix => Real.sqrt (∑ k, A k ix ^ 2)

end HelFEM.Lcao
