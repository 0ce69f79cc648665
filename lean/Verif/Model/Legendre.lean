import Verif.Model.LIP
import Mathlib.Analysis.SpecialFunctions.Pow.NNReal

/-!
# Legendre spectral element basis

Models `libhelfem/include/legendre_poly.h` and `libhelfem/include/LegendreBasis.h`.  Tables over (point, order) are
modelled point by point as functions of the order; only orders up to `lmax` are read.
-/

namespace HelFEM
namespace Poly

open Finset

/-- `legendre_batch`, `legendre_poly.h:28-40`: entry `(i, n)` at the point `x`. -/
noncomputable def legP (x : ℝ) : Nat → ℝ
  | 0 => 1
  | 1 => x
  | n + 2 => ((2 * (n + 1 : Nat) + 1 : Nat) * x * legP x (n + 1) - ((n + 1 : Nat) : ℝ) * legP x n) / ((n + 1 + 1 : Nat) : ℝ)

/-- `dlegendre_batch`, `legendre_poly.h:43-57`. -/
noncomputable def legDP (x : ℝ) : Nat → ℝ
  | 0 => 0
  | 1 => 1
  | n + 2 => ((2 * (n + 1 : Nat) + 1 : Nat) * legP x (n + 1) + (2 * (n + 1 : Nat) + 1 : Nat) * x * legDP x (n + 1)
      - ((n + 1 : Nat) : ℝ) * legDP x n) / ((n + 1 + 1 : Nat) : ℝ)

/-- `d2legendre_batch`, `legendre_poly.h:60-74`. -/
noncomputable def legD2P (x : ℝ) : Nat → ℝ
  | 0 => 0
  | 1 => 0
  | n + 2 => ((2 * (2 * (n + 1 : Nat) + 1) : Nat) * legDP x (n + 1) + (2 * (n + 1 : Nat) + 1 : Nat) * x * legD2P x (n + 1)
      - ((n + 1 : Nat) : ℝ) * legD2P x n) / ((n + 1 + 1 : Nat) : ℝ)

/-- `Tmat(l, j)`, `LegendreBasis.h:49-61`; of several assignments to one entry the last one counts. -/
noncomputable def legT (lmax l j : Nat) : ℝ :=
  if 1 ≤ j ∧ j < lmax ∧ l = j + 1 then 1 / Real.sqrt ((4 * j + 2 : Nat) : ℝ)
  else if 1 ≤ j ∧ j < lmax ∧ l + 1 = j then -(1 / Real.sqrt ((4 * j + 2 : Nat) : ℝ))
  else if j = lmax ∧ l = 1 then 1 / 2
  else if j = lmax ∧ l = 0 then 1 / 2
  else if j = 0 ∧ l = 1 then -1 / 2
  else if j = 0 ∧ l = 0 then 1 / 2
  else 0

/-- `LegendreBasisT::eval_prim_dnf`, entry of shape function `j`, `LegendreBasis.h:86-99`. -/
noncomputable def legPrimDnf (lmax : Nat) (x : ℝ) (n : Int) (j : Nat) : Res ℝ :=
  if n = 0 then .ok (∑ l ∈ range (lmax + 1), legP x l * legT lmax l j)
  else if n = 1 then .ok (∑ l ∈ range (lmax + 1), legDP x l * legT lmax l j)
  else if n = 2 then .ok (∑ l ∈ range (lmax + 1), legD2P x l * legT lmax l j)
  else .throw .logicError

/-- `Q(ix, k)`, `LegendreBasis.h:124-142`. -/
noncomputable def legQ (x : ℝ) : Nat → ℝ
  | 0 => 0
  | 1 => 1
  | n + 2 => ((2 * (n + 1 : Nat) + 1 : Nat) * x * legQ x (n + 1) - ((n + 1 : Nat) : ℝ) * legQ x n
      + (if (n + 1) % 2 = 0 then 1 else -1) * (2 * (n + 1 : Nat) + 1 : Nat)) * (1 / ((n + 1 + 1 : Nat) : ℝ))

/-- `Qp(ix, k)`, `LegendreBasis.h:124-142`. -/
noncomputable def legQp (x : ℝ) : Nat → ℝ
  | 0 => 0
  | 1 => 0
  | n + 2 => ((2 * (n + 1 : Nat) + 1 : Nat) * (legQ x (n + 1) + x * legQp x (n + 1)) - ((n + 1 : Nat) : ℝ) * legQp x n)
      * (1 / ((n + 1 + 1 : Nat) : ℝ))

/-- `Qpp(ix, k)`, `LegendreBasis.h:124-142`. -/
noncomputable def legQpp (x : ℝ) : Nat → ℝ
  | 0 => 0
  | 1 => 0
  | n + 2 => ((2 * (n + 1 : Nat) + 1 : Nat) * (2 * legQp x (n + 1) + x * legQpp x (n + 1))
      - ((n + 1 : Nat) : ℝ) * legQpp x n) * (1 / ((n + 1 + 1 : Nat) : ℝ))

/-- `LegendreBasisT::eval_over_r`, entry of the surviving function `j`, `LegendreBasis.h:107-168`. -/
noncomputable def legOverR (lmax : Nat) (first : Option Nat) (x : ℝ) (n : Int) (len : ℝ) (j : Nat) : Res ℝ :=
  if n < 0 ∨ n > 2 then .throw .logicError
  else match first with
  | none => .throw .logicError
  | some 0 => .throw .logicError
  | some (_ + 1) =>
    if j = lmax then .ok (if n = 0 then 1 / (2 * len) else 0)
    else
      let norm := 1 / Real.sqrt (4 * (j : ℝ) + 2)
      let R := if n = 0 then (legQ x (j + 1) - legQ x (j - 1)) * norm * (1 / len)
        else if n = 1 then (legQp x (j + 1) - legQp x (j - 1)) * norm * (1 / len)
        else (legQpp x (j + 1) - legQpp x (j - 1)) * norm * (1 / len)
      .ok ((1 / len) ^ n.toNat * R)

end Poly
end HelFEM
