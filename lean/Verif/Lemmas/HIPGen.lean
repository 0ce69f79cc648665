import Verif.Model.HIPGen
import Mathlib.Algebra.BigOperators.Intervals
import Mathlib.Algebra.CharZero.Defs
import Mathlib.Tactic.Ring
import Mathlib.Tactic.FieldSimp
import Mathlib.Tactic.NormNum

/-!
Every transcribed expression of `Verif.Model.HIPGen` is the Leibniz expansion of the intended product.  `conv` is the
Leibniz rule on sequences of derivatives; `cubicD` are the derivatives of a cubic polynomial.
-/

set_option linter.unusedVariables false
set_option linter.style.longLine false

namespace HelFEM
namespace Poly
open Finset

variable {K : Type _} [Field K]

/-- Leibniz rule for sequences of derivatives. -/
def conv (f g : Nat → K) (n : Nat) : K := ∑ k ∈ range (n + 1), (n.choose k : K) * (f (n - k) * g k)

/-- Derivatives of `c0 + c1 t + c2 t² + c3 t³`. -/
def cubicD (c0 c1 c2 c3 t : K) : Nat → K
  | 0 => c0 + c1 * t + c2 * t ^ 2 + c3 * t ^ 3
  | 1 => c1 + 2 * c2 * t + 3 * c3 * t ^ 2
  | 2 => 2 * c2 + 6 * c3 * t
  | 3 => 6 * c3
  | _ => 0

theorem conv_lin (f g : Nat → K) (hg : ∀ k, 2 ≤ k → g k = 0) (n : Nat) :
    conv f g (n + 1) = f (n + 1) * g 0 + (n + 1) * (f n * g 1) := by
  unfold conv
  rw [Finset.sum_range_succ', Finset.sum_range_succ', Finset.sum_eq_zero]
  · simp; ring
  · intro k _; rw [hg (k + 1 + 1) (by omega)]; simp

theorem cubicD_lin (c0 c1 t : K) : ∀ k, 2 ≤ k → cubicD c0 c1 0 0 t k = 0 := by
  intro k hk
  match k, hk with
  | 2, _ => simp [cubicD]
  | 3, _ => simp [cubicD]
  | k + 4, _ => rfl

namespace Gen
variable [CharZero K]

set_option maxRecDepth 8000 in
theorem hip_0_0_eq (L : Nat → K) (xv xi p1 p2 p3 : K) :
    hip_0_0 L xv xi p1 p2 p3 = conv (conv L L) (cubicD 1 (-2*p1) 0 0 (xv - xi)) 0 := by
  simp only [conv, cubicD, Finset.sum_range_succ, Finset.sum_range_zero, hip_0_0, Nat.choose, Nat.reduceSub, Nat.reduceAdd, Nat.cast_ofNat]
  push_cast
  ring

set_option maxRecDepth 8000 in
theorem hip_0_1_eq (L : Nat → K) (xv xi p1 p2 p3 : K) :
    hip_0_1 L xv xi p1 p2 p3 = conv (conv L L) (cubicD 0 1 0 0 (xv - xi)) 0 := by
  simp only [conv, cubicD, Finset.sum_range_succ, Finset.sum_range_zero, hip_0_1, Nat.choose, Nat.reduceSub, Nat.reduceAdd, Nat.cast_ofNat]
  push_cast
  ring

set_option maxRecDepth 8000 in
theorem hip_1_0_eq (L : Nat → K) (xv xi p1 p2 p3 : K) :
    hip_1_0 L xv xi p1 p2 p3 = conv (conv L L) (cubicD 1 (-2*p1) 0 0 (xv - xi)) 1 := by
  rw [conv_lin _ _ (cubicD_lin _ _ _)]
  simp only [conv, cubicD, Finset.sum_range_succ, Finset.sum_range_zero, hip_1_0, Nat.choose, Nat.reduceSub, Nat.reduceAdd, Nat.cast_ofNat]
  push_cast
  ring

set_option maxRecDepth 8000 in
theorem hip_1_1_eq (L : Nat → K) (xv xi p1 p2 p3 : K) :
    hip_1_1 L xv xi p1 p2 p3 = conv (conv L L) (cubicD 0 1 0 0 (xv - xi)) 1 := by
  rw [conv_lin _ _ (cubicD_lin _ _ _)]
  simp only [conv, cubicD, Finset.sum_range_succ, Finset.sum_range_zero, hip_1_1, Nat.choose, Nat.reduceSub, Nat.reduceAdd, Nat.cast_ofNat]
  push_cast
  ring

set_option maxRecDepth 8000 in
theorem hip_2_0_eq (L : Nat → K) (xv xi p1 p2 p3 : K) :
    hip_2_0 L xv xi p1 p2 p3 = conv (conv L L) (cubicD 1 (-2*p1) 0 0 (xv - xi)) 2 := by
  rw [conv_lin _ _ (cubicD_lin _ _ _)]
  simp only [conv, cubicD, Finset.sum_range_succ, Finset.sum_range_zero, hip_2_0, Nat.choose, Nat.reduceSub, Nat.reduceAdd, Nat.cast_ofNat]
  push_cast
  ring

set_option maxRecDepth 8000 in
theorem hip_2_1_eq (L : Nat → K) (xv xi p1 p2 p3 : K) :
    hip_2_1 L xv xi p1 p2 p3 = conv (conv L L) (cubicD 0 1 0 0 (xv - xi)) 2 := by
  rw [conv_lin _ _ (cubicD_lin _ _ _)]
  simp only [conv, cubicD, Finset.sum_range_succ, Finset.sum_range_zero, hip_2_1, Nat.choose, Nat.reduceSub, Nat.reduceAdd, Nat.cast_ofNat]
  push_cast
  ring

set_option maxRecDepth 8000 in
theorem hip_3_0_eq (L : Nat → K) (xv xi p1 p2 p3 : K) :
    hip_3_0 L xv xi p1 p2 p3 = conv (conv L L) (cubicD 1 (-2*p1) 0 0 (xv - xi)) 3 := by
  rw [conv_lin _ _ (cubicD_lin _ _ _)]
  simp only [conv, cubicD, Finset.sum_range_succ, Finset.sum_range_zero, hip_3_0, Nat.choose, Nat.reduceSub, Nat.reduceAdd, Nat.cast_ofNat]
  push_cast
  ring

set_option maxRecDepth 8000 in
theorem hip_3_1_eq (L : Nat → K) (xv xi p1 p2 p3 : K) :
    hip_3_1 L xv xi p1 p2 p3 = conv (conv L L) (cubicD 0 1 0 0 (xv - xi)) 3 := by
  rw [conv_lin _ _ (cubicD_lin _ _ _)]
  simp only [conv, cubicD, Finset.sum_range_succ, Finset.sum_range_zero, hip_3_1, Nat.choose, Nat.reduceSub, Nat.reduceAdd, Nat.cast_ofNat]
  push_cast
  ring

set_option maxRecDepth 8000 in
theorem hip_4_0_eq (L : Nat → K) (xv xi p1 p2 p3 : K) :
    hip_4_0 L xv xi p1 p2 p3 = conv (conv L L) (cubicD 1 (-2*p1) 0 0 (xv - xi)) 4 := by
  rw [conv_lin _ _ (cubicD_lin _ _ _)]
  simp only [conv, cubicD, Finset.sum_range_succ, Finset.sum_range_zero, hip_4_0, Nat.choose, Nat.reduceSub, Nat.reduceAdd, Nat.cast_ofNat]
  push_cast
  ring

set_option maxRecDepth 8000 in
theorem hip_4_1_eq (L : Nat → K) (xv xi p1 p2 p3 : K) :
    hip_4_1 L xv xi p1 p2 p3 = conv (conv L L) (cubicD 0 1 0 0 (xv - xi)) 4 := by
  rw [conv_lin _ _ (cubicD_lin _ _ _)]
  simp only [conv, cubicD, Finset.sum_range_succ, Finset.sum_range_zero, hip_4_1, Nat.choose, Nat.reduceSub, Nat.reduceAdd, Nat.cast_ofNat]
  push_cast
  ring

set_option maxRecDepth 8000 in
theorem hip_5_0_eq (L : Nat → K) (xv xi p1 p2 p3 : K) :
    hip_5_0 L xv xi p1 p2 p3 = conv (conv L L) (cubicD 1 (-2*p1) 0 0 (xv - xi)) 5 := by
  rw [conv_lin _ _ (cubicD_lin _ _ _)]
  simp only [conv, cubicD, Finset.sum_range_succ, Finset.sum_range_zero, hip_5_0, Nat.choose, Nat.reduceSub, Nat.reduceAdd, Nat.cast_ofNat]
  push_cast
  ring

set_option maxRecDepth 8000 in
theorem hip_5_1_eq (L : Nat → K) (xv xi p1 p2 p3 : K) :
    hip_5_1 L xv xi p1 p2 p3 = conv (conv L L) (cubicD 0 1 0 0 (xv - xi)) 5 := by
  rw [conv_lin _ _ (cubicD_lin _ _ _)]
  simp only [conv, cubicD, Finset.sum_range_succ, Finset.sum_range_zero, hip_5_1, Nat.choose, Nat.reduceSub, Nat.reduceAdd, Nat.cast_ofNat]
  push_cast
  ring

set_option maxRecDepth 8000 in
theorem hip_6_0_eq (L : Nat → K) (xv xi p1 p2 p3 : K) :
    hip_6_0 L xv xi p1 p2 p3 = conv (conv L L) (cubicD 1 (-2*p1) 0 0 (xv - xi)) 6 := by
  rw [conv_lin _ _ (cubicD_lin _ _ _)]
  simp only [conv, cubicD, Finset.sum_range_succ, Finset.sum_range_zero, hip_6_0, Nat.choose, Nat.reduceSub, Nat.reduceAdd, Nat.cast_ofNat]
  push_cast
  ring

set_option maxRecDepth 8000 in
theorem hip_6_1_eq (L : Nat → K) (xv xi p1 p2 p3 : K) :
    hip_6_1 L xv xi p1 p2 p3 = conv (conv L L) (cubicD 0 1 0 0 (xv - xi)) 6 := by
  rw [conv_lin _ _ (cubicD_lin _ _ _)]
  simp only [conv, cubicD, Finset.sum_range_succ, Finset.sum_range_zero, hip_6_1, Nat.choose, Nat.reduceSub, Nat.reduceAdd, Nat.cast_ofNat]
  push_cast
  ring

set_option maxRecDepth 8000 in
theorem hip_7_0_eq (L : Nat → K) (xv xi p1 p2 p3 : K) :
    hip_7_0 L xv xi p1 p2 p3 = conv (conv L L) (cubicD 1 (-2*p1) 0 0 (xv - xi)) 7 := by
  rw [conv_lin _ _ (cubicD_lin _ _ _)]
  simp only [conv, cubicD, Finset.sum_range_succ, Finset.sum_range_zero, hip_7_0, Nat.choose, Nat.reduceSub, Nat.reduceAdd, Nat.cast_ofNat]
  push_cast
  ring

set_option maxRecDepth 8000 in
theorem hip_7_1_eq (L : Nat → K) (xv xi p1 p2 p3 : K) :
    hip_7_1 L xv xi p1 p2 p3 = conv (conv L L) (cubicD 0 1 0 0 (xv - xi)) 7 := by
  rw [conv_lin _ _ (cubicD_lin _ _ _)]
  simp only [conv, cubicD, Finset.sum_range_succ, Finset.sum_range_zero, hip_7_1, Nat.choose, Nat.reduceSub, Nat.reduceAdd, Nat.cast_ofNat]
  push_cast
  ring

set_option maxRecDepth 8000 in
theorem hip_8_0_eq (L : Nat → K) (xv xi p1 p2 p3 : K) :
    hip_8_0 L xv xi p1 p2 p3 = conv (conv L L) (cubicD 1 (-2*p1) 0 0 (xv - xi)) 8 := by
  rw [conv_lin _ _ (cubicD_lin _ _ _)]
  simp only [conv, cubicD, Finset.sum_range_succ, Finset.sum_range_zero, hip_8_0, Nat.choose, Nat.reduceSub, Nat.reduceAdd, Nat.cast_ofNat]
  push_cast
  ring

set_option maxRecDepth 8000 in
theorem hip_8_1_eq (L : Nat → K) (xv xi p1 p2 p3 : K) :
    hip_8_1 L xv xi p1 p2 p3 = conv (conv L L) (cubicD 0 1 0 0 (xv - xi)) 8 := by
  rw [conv_lin _ _ (cubicD_lin _ _ _)]
  simp only [conv, cubicD, Finset.sum_range_succ, Finset.sum_range_zero, hip_8_1, Nat.choose, Nat.reduceSub, Nat.reduceAdd, Nat.cast_ofNat]
  push_cast
  ring

set_option maxRecDepth 8000 in
theorem hip_9_0_eq (L : Nat → K) (xv xi p1 p2 p3 : K) :
    hip_9_0 L xv xi p1 p2 p3 = conv (conv L L) (cubicD 1 (-2*p1) 0 0 (xv - xi)) 9 := by
  rw [conv_lin _ _ (cubicD_lin _ _ _)]
  simp only [conv, cubicD, Finset.sum_range_succ, Finset.sum_range_zero, hip_9_0, Nat.choose, Nat.reduceSub, Nat.reduceAdd, Nat.cast_ofNat]
  push_cast
  ring

set_option maxRecDepth 8000 in
theorem hip_9_1_eq (L : Nat → K) (xv xi p1 p2 p3 : K) :
    hip_9_1 L xv xi p1 p2 p3 = conv (conv L L) (cubicD 0 1 0 0 (xv - xi)) 9 := by
  rw [conv_lin _ _ (cubicD_lin _ _ _)]
  simp only [conv, cubicD, Finset.sum_range_succ, Finset.sum_range_zero, hip_9_1, Nat.choose, Nat.reduceSub, Nat.reduceAdd, Nat.cast_ofNat]
  push_cast
  ring

set_option maxRecDepth 8000 in
theorem hip_10_0_eq (L : Nat → K) (xv xi p1 p2 p3 : K) :
    hip_10_0 L xv xi p1 p2 p3 = conv (conv L L) (cubicD 1 (-2*p1) 0 0 (xv - xi)) 10 := by
  rw [conv_lin _ _ (cubicD_lin _ _ _)]
  simp only [conv, cubicD, Finset.sum_range_succ, Finset.sum_range_zero, hip_10_0, Nat.choose, Nat.reduceSub, Nat.reduceAdd, Nat.cast_ofNat]
  push_cast
  ring

set_option maxRecDepth 8000 in
theorem hip_10_1_eq (L : Nat → K) (xv xi p1 p2 p3 : K) :
    hip_10_1 L xv xi p1 p2 p3 = conv (conv L L) (cubicD 0 1 0 0 (xv - xi)) 10 := by
  rw [conv_lin _ _ (cubicD_lin _ _ _)]
  simp only [conv, cubicD, Finset.sum_range_succ, Finset.sum_range_zero, hip_10_1, Nat.choose, Nat.reduceSub, Nat.reduceAdd, Nat.cast_ofNat]
  push_cast
  ring

set_option maxRecDepth 8000 in
theorem hip_11_0_eq (L : Nat → K) (xv xi p1 p2 p3 : K) :
    hip_11_0 L xv xi p1 p2 p3 = conv (conv L L) (cubicD 1 (-2*p1) 0 0 (xv - xi)) 11 := by
  rw [conv_lin _ _ (cubicD_lin _ _ _)]
  simp only [conv, cubicD, Finset.sum_range_succ, Finset.sum_range_zero, hip_11_0, Nat.choose, Nat.reduceSub, Nat.reduceAdd, Nat.cast_ofNat]
  push_cast
  ring

set_option maxRecDepth 8000 in
theorem hip_11_1_eq (L : Nat → K) (xv xi p1 p2 p3 : K) :
    hip_11_1 L xv xi p1 p2 p3 = conv (conv L L) (cubicD 0 1 0 0 (xv - xi)) 11 := by
  rw [conv_lin _ _ (cubicD_lin _ _ _)]
  simp only [conv, cubicD, Finset.sum_range_succ, Finset.sum_range_zero, hip_11_1, Nat.choose, Nat.reduceSub, Nat.reduceAdd, Nat.cast_ofNat]
  push_cast
  ring

set_option maxRecDepth 8000 in
theorem hip_12_0_eq (L : Nat → K) (xv xi p1 p2 p3 : K) :
    hip_12_0 L xv xi p1 p2 p3 = conv (conv L L) (cubicD 1 (-2*p1) 0 0 (xv - xi)) 12 := by
  rw [conv_lin _ _ (cubicD_lin _ _ _)]
  simp only [conv, cubicD, Finset.sum_range_succ, Finset.sum_range_zero, hip_12_0, Nat.choose, Nat.reduceSub, Nat.reduceAdd, Nat.cast_ofNat]
  push_cast
  ring

set_option maxRecDepth 8000 in
theorem hip_12_1_eq (L : Nat → K) (xv xi p1 p2 p3 : K) :
    hip_12_1 L xv xi p1 p2 p3 = conv (conv L L) (cubicD 0 1 0 0 (xv - xi)) 12 := by
  rw [conv_lin _ _ (cubicD_lin _ _ _)]
  simp only [conv, cubicD, Finset.sum_range_succ, Finset.sum_range_zero, hip_12_1, Nat.choose, Nat.reduceSub, Nat.reduceAdd, Nat.cast_ofNat]
  push_cast
  ring

set_option maxRecDepth 8000 in
theorem hip_13_0_eq (L : Nat → K) (xv xi p1 p2 p3 : K) :
    hip_13_0 L xv xi p1 p2 p3 = conv (conv L L) (cubicD 1 (-2*p1) 0 0 (xv - xi)) 13 := by
  rw [conv_lin _ _ (cubicD_lin _ _ _)]
  simp only [conv, cubicD, Finset.sum_range_succ, Finset.sum_range_zero, hip_13_0, Nat.choose, Nat.reduceSub, Nat.reduceAdd, Nat.cast_ofNat]
  push_cast
  ring

set_option maxRecDepth 8000 in
theorem hip_13_1_eq (L : Nat → K) (xv xi p1 p2 p3 : K) :
    hip_13_1 L xv xi p1 p2 p3 = conv (conv L L) (cubicD 0 1 0 0 (xv - xi)) 13 := by
  rw [conv_lin _ _ (cubicD_lin _ _ _)]
  simp only [conv, cubicD, Finset.sum_range_succ, Finset.sum_range_zero, hip_13_1, Nat.choose, Nat.reduceSub, Nat.reduceAdd, Nat.cast_ofNat]
  push_cast
  ring

set_option maxRecDepth 8000 in
theorem hip_14_0_eq (L : Nat → K) (xv xi p1 p2 p3 : K) :
    hip_14_0 L xv xi p1 p2 p3 = conv (conv L L) (cubicD 1 (-2*p1) 0 0 (xv - xi)) 14 := by
  rw [conv_lin _ _ (cubicD_lin _ _ _)]
  simp only [conv, cubicD, Finset.sum_range_succ, Finset.sum_range_zero, hip_14_0, Nat.choose, Nat.reduceSub, Nat.reduceAdd, Nat.cast_ofNat]
  push_cast
  ring

set_option maxRecDepth 8000 in
theorem hip_14_1_eq (L : Nat → K) (xv xi p1 p2 p3 : K) :
    hip_14_1 L xv xi p1 p2 p3 = conv (conv L L) (cubicD 0 1 0 0 (xv - xi)) 14 := by
  rw [conv_lin _ _ (cubicD_lin _ _ _)]
  simp only [conv, cubicD, Finset.sum_range_succ, Finset.sum_range_zero, hip_14_1, Nat.choose, Nat.reduceSub, Nat.reduceAdd, Nat.cast_ofNat]
  push_cast
  ring

set_option maxRecDepth 8000 in
theorem hip_15_0_eq (L : Nat → K) (xv xi p1 p2 p3 : K) :
    hip_15_0 L xv xi p1 p2 p3 = conv (conv L L) (cubicD 1 (-2*p1) 0 0 (xv - xi)) 15 := by
  rw [conv_lin _ _ (cubicD_lin _ _ _)]
  simp only [conv, cubicD, Finset.sum_range_succ, Finset.sum_range_zero, hip_15_0, Nat.choose, Nat.reduceSub, Nat.reduceAdd, Nat.cast_ofNat]
  push_cast
  ring

set_option maxRecDepth 8000 in
theorem hip_15_1_eq (L : Nat → K) (xv xi p1 p2 p3 : K) :
    hip_15_1 L xv xi p1 p2 p3 = conv (conv L L) (cubicD 0 1 0 0 (xv - xi)) 15 := by
  rw [conv_lin _ _ (cubicD_lin _ _ _)]
  simp only [conv, cubicD, Finset.sum_range_succ, Finset.sum_range_zero, hip_15_1, Nat.choose, Nat.reduceSub, Nat.reduceAdd, Nat.cast_ofNat]
  push_cast
  ring

set_option maxRecDepth 8000 in
theorem hip_16_0_eq (L : Nat → K) (xv xi p1 p2 p3 : K) :
    hip_16_0 L xv xi p1 p2 p3 = conv (conv L L) (cubicD 1 (-2*p1) 0 0 (xv - xi)) 16 := by
  rw [conv_lin _ _ (cubicD_lin _ _ _)]
  simp only [conv, cubicD, Finset.sum_range_succ, Finset.sum_range_zero, hip_16_0, Nat.choose, Nat.reduceSub, Nat.reduceAdd, Nat.cast_ofNat]
  push_cast
  ring

set_option maxRecDepth 8000 in
theorem hip_16_1_eq (L : Nat → K) (xv xi p1 p2 p3 : K) :
    hip_16_1 L xv xi p1 p2 p3 = conv (conv L L) (cubicD 0 1 0 0 (xv - xi)) 16 := by
  rw [conv_lin _ _ (cubicD_lin _ _ _)]
  simp only [conv, cubicD, Finset.sum_range_succ, Finset.sum_range_zero, hip_16_1, Nat.choose, Nat.reduceSub, Nat.reduceAdd, Nat.cast_ofNat]
  push_cast
  ring

set_option maxRecDepth 8000 in
theorem hip_17_0_eq (L : Nat → K) (xv xi p1 p2 p3 : K) :
    hip_17_0 L xv xi p1 p2 p3 = conv (conv L L) (cubicD 1 (-2*p1) 0 0 (xv - xi)) 17 := by
  rw [conv_lin _ _ (cubicD_lin _ _ _)]
  simp only [conv, cubicD, Finset.sum_range_succ, Finset.sum_range_zero, hip_17_0, Nat.choose, Nat.reduceSub, Nat.reduceAdd, Nat.cast_ofNat]
  push_cast
  ring

set_option maxRecDepth 8000 in
theorem hip_17_1_eq (L : Nat → K) (xv xi p1 p2 p3 : K) :
    hip_17_1 L xv xi p1 p2 p3 = conv (conv L L) (cubicD 0 1 0 0 (xv - xi)) 17 := by
  rw [conv_lin _ _ (cubicD_lin _ _ _)]
  simp only [conv, cubicD, Finset.sum_range_succ, Finset.sum_range_zero, hip_17_1, Nat.choose, Nat.reduceSub, Nat.reduceAdd, Nat.cast_ofNat]
  push_cast
  ring

set_option maxRecDepth 8000 in
theorem hip_18_0_eq (L : Nat → K) (xv xi p1 p2 p3 : K) :
    hip_18_0 L xv xi p1 p2 p3 = conv (conv L L) (cubicD 1 (-2*p1) 0 0 (xv - xi)) 18 := by
  rw [conv_lin _ _ (cubicD_lin _ _ _)]
  simp only [conv, cubicD, Finset.sum_range_succ, Finset.sum_range_zero, hip_18_0, Nat.choose, Nat.reduceSub, Nat.reduceAdd, Nat.cast_ofNat]
  push_cast
  ring

set_option maxRecDepth 8000 in
theorem hip_18_1_eq (L : Nat → K) (xv xi p1 p2 p3 : K) :
    hip_18_1 L xv xi p1 p2 p3 = conv (conv L L) (cubicD 0 1 0 0 (xv - xi)) 18 := by
  rw [conv_lin _ _ (cubicD_lin _ _ _)]
  simp only [conv, cubicD, Finset.sum_range_succ, Finset.sum_range_zero, hip_18_1, Nat.choose, Nat.reduceSub, Nat.reduceAdd, Nat.cast_ofNat]
  push_cast
  ring

set_option maxRecDepth 8000 in
theorem hip_19_0_eq (L : Nat → K) (xv xi p1 p2 p3 : K) :
    hip_19_0 L xv xi p1 p2 p3 = conv (conv L L) (cubicD 1 (-2*p1) 0 0 (xv - xi)) 19 := by
  rw [conv_lin _ _ (cubicD_lin _ _ _)]
  simp only [conv, cubicD, Finset.sum_range_succ, Finset.sum_range_zero, hip_19_0, Nat.choose, Nat.reduceSub, Nat.reduceAdd, Nat.cast_ofNat]
  push_cast
  ring

set_option maxRecDepth 8000 in
theorem hip_19_1_eq (L : Nat → K) (xv xi p1 p2 p3 : K) :
    hip_19_1 L xv xi p1 p2 p3 = conv (conv L L) (cubicD 0 1 0 0 (xv - xi)) 19 := by
  rw [conv_lin _ _ (cubicD_lin _ _ _)]
  simp only [conv, cubicD, Finset.sum_range_succ, Finset.sum_range_zero, hip_19_1, Nat.choose, Nat.reduceSub, Nat.reduceAdd, Nat.cast_ofNat]
  push_cast
  ring

set_option maxRecDepth 8000 in
theorem hip_20_0_eq (L : Nat → K) (xv xi p1 p2 p3 : K) :
    hip_20_0 L xv xi p1 p2 p3 = conv (conv L L) (cubicD 1 (-2*p1) 0 0 (xv - xi)) 20 := by
  rw [conv_lin _ _ (cubicD_lin _ _ _)]
  simp only [conv, cubicD, Finset.sum_range_succ, Finset.sum_range_zero, hip_20_0, Nat.choose, Nat.reduceSub, Nat.reduceAdd, Nat.cast_ofNat]
  push_cast
  ring

set_option maxRecDepth 8000 in
theorem hip_20_1_eq (L : Nat → K) (xv xi p1 p2 p3 : K) :
    hip_20_1 L xv xi p1 p2 p3 = conv (conv L L) (cubicD 0 1 0 0 (xv - xi)) 20 := by
  rw [conv_lin _ _ (cubicD_lin _ _ _)]
  simp only [conv, cubicD, Finset.sum_range_succ, Finset.sum_range_zero, hip_20_1, Nat.choose, Nat.reduceSub, Nat.reduceAdd, Nat.cast_ofNat]
  push_cast
  ring

theorem hipR0_0_1_eq (L : Nat → K) (xv xi p1 p2 p3 : K) :
    hipR0_0_1 L xv xi p1 p2 p3 = conv (conv L L) (cubicD 1 0 0 0 (xv - xi)) 0 := by
  simp only [conv, cubicD, Finset.sum_range_succ, Finset.sum_range_zero, hipR0_0_1, Nat.choose, Nat.reduceSub, Nat.reduceAdd, Nat.cast_ofNat]
  push_cast
  ring

theorem hipR0_1_1_eq (L : Nat → K) (xv xi p1 p2 p3 : K) :
    hipR0_1_1 L xv xi p1 p2 p3 = conv (conv L L) (cubicD 1 0 0 0 (xv - xi)) 1 := by
  simp only [conv, cubicD, Finset.sum_range_succ, Finset.sum_range_zero, hipR0_1_1, Nat.choose, Nat.reduceSub, Nat.reduceAdd, Nat.cast_ofNat]
  push_cast
  ring

theorem hipR0_2_1_eq (L : Nat → K) (xv xi p1 p2 p3 : K) :
    hipR0_2_1 L xv xi p1 p2 p3 = conv (conv L L) (cubicD 1 0 0 0 (xv - xi)) 2 := by
  simp only [conv, cubicD, Finset.sum_range_succ, Finset.sum_range_zero, hipR0_2_1, Nat.choose, Nat.reduceSub, Nat.reduceAdd, Nat.cast_ofNat]
  push_cast
  ring

theorem hipR1_0_0_eq (L : Nat → K) (xv xi p1 p2 p3 : K) :
    hipR1_0_0 L xv xi p1 p2 p3 = conv (conv (cubicD 0 1 0 0 (xv + 1)) (conv L L)) (cubicD 1 (-2*p1) 0 0 (xv - xi)) 0 / (xi + 1) ^ 2 := by
  simp only [conv, cubicD, Finset.sum_range_succ, Finset.sum_range_zero, hipR1_0_0, Nat.choose, Nat.reduceSub, Nat.reduceAdd, Nat.cast_ofNat]
  push_cast
  congr 1
  ring

theorem hipR1_0_1_eq (L : Nat → K) (xv xi p1 p2 p3 : K) :
    hipR1_0_1 L xv xi p1 p2 p3 = conv (conv (cubicD 0 1 0 0 (xv + 1)) (conv L L)) (cubicD 0 1 0 0 (xv - xi)) 0 / (xi + 1) ^ 2 := by
  simp only [conv, cubicD, Finset.sum_range_succ, Finset.sum_range_zero, hipR1_0_1, Nat.choose, Nat.reduceSub, Nat.reduceAdd, Nat.cast_ofNat]
  push_cast
  congr 1
  ring

theorem hipR1_1_0_eq (L : Nat → K) (xv xi p1 p2 p3 : K) :
    hipR1_1_0 L xv xi p1 p2 p3 = conv (conv (cubicD 0 1 0 0 (xv + 1)) (conv L L)) (cubicD 1 (-2*p1) 0 0 (xv - xi)) 1 / (xi + 1) ^ 2 := by
  simp only [conv, cubicD, Finset.sum_range_succ, Finset.sum_range_zero, hipR1_1_0, Nat.choose, Nat.reduceSub, Nat.reduceAdd, Nat.cast_ofNat]
  push_cast
  congr 1
  ring

theorem hipR1_1_1_eq (L : Nat → K) (xv xi p1 p2 p3 : K) :
    hipR1_1_1 L xv xi p1 p2 p3 = conv (conv (cubicD 0 1 0 0 (xv + 1)) (conv L L)) (cubicD 0 1 0 0 (xv - xi)) 1 / (xi + 1) ^ 2 := by
  simp only [conv, cubicD, Finset.sum_range_succ, Finset.sum_range_zero, hipR1_1_1, Nat.choose, Nat.reduceSub, Nat.reduceAdd, Nat.cast_ofNat]
  push_cast
  congr 1
  ring

theorem hipR1_2_0_eq (L : Nat → K) (xv xi p1 p2 p3 : K) :
    hipR1_2_0 L xv xi p1 p2 p3 = conv (conv (cubicD 0 1 0 0 (xv + 1)) (conv L L)) (cubicD 1 (-2*p1) 0 0 (xv - xi)) 2 / (xi + 1) ^ 2 := by
  simp only [conv, cubicD, Finset.sum_range_succ, Finset.sum_range_zero, hipR1_2_0, Nat.choose, Nat.reduceSub, Nat.reduceAdd, Nat.cast_ofNat]
  push_cast
  congr 1
  ring

theorem hipR1_2_1_eq (L : Nat → K) (xv xi p1 p2 p3 : K) :
    hipR1_2_1 L xv xi p1 p2 p3 = conv (conv (cubicD 0 1 0 0 (xv + 1)) (conv L L)) (cubicD 0 1 0 0 (xv - xi)) 2 / (xi + 1) ^ 2 := by
  simp only [conv, cubicD, Finset.sum_range_succ, Finset.sum_range_zero, hipR1_2_1, Nat.choose, Nat.reduceSub, Nat.reduceAdd, Nat.cast_ofNat]
  push_cast
  congr 1
  ring

set_option maxRecDepth 8000 in
theorem hip2_0_0_eq (L : Nat → K) (xv xi p1 p2 p3 : K) :
    hip2_0_0 L xv xi p1 p2 p3 = conv (conv L (conv L L)) (cubicD 1 (-3*p1) (6*p1^2 - 3/2*p2) 0 (xv - xi)) 0 := by
  simp only [conv, cubicD, Finset.sum_range_succ, Finset.sum_range_zero, hip2_0_0, Nat.choose, Nat.reduceSub, Nat.reduceAdd, Nat.cast_ofNat]
  push_cast
  ring

set_option maxRecDepth 8000 in
theorem hip2_0_1_eq (L : Nat → K) (xv xi p1 p2 p3 : K) :
    hip2_0_1 L xv xi p1 p2 p3 = conv (conv L (conv L L)) (cubicD 0 1 (-3*p1) 0 (xv - xi)) 0 := by
  simp only [conv, cubicD, Finset.sum_range_succ, Finset.sum_range_zero, hip2_0_1, Nat.choose, Nat.reduceSub, Nat.reduceAdd, Nat.cast_ofNat]
  push_cast
  ring

set_option maxRecDepth 8000 in
theorem hip2_0_2_eq (L : Nat → K) (xv xi p1 p2 p3 : K) :
    hip2_0_2 L xv xi p1 p2 p3 = conv (conv L (conv L L)) (cubicD 0 0 (1/2) 0 (xv - xi)) 0 := by
  simp only [conv, cubicD, Finset.sum_range_succ, Finset.sum_range_zero, hip2_0_2, Nat.choose, Nat.reduceSub, Nat.reduceAdd, Nat.cast_ofNat]
  push_cast
  ring

set_option maxRecDepth 8000 in
theorem hip2_1_0_eq (L : Nat → K) (xv xi p1 p2 p3 : K) :
    hip2_1_0 L xv xi p1 p2 p3 = conv (conv L (conv L L)) (cubicD 1 (-3*p1) (6*p1^2 - 3/2*p2) 0 (xv - xi)) 1 := by
  simp only [conv, cubicD, Finset.sum_range_succ, Finset.sum_range_zero, hip2_1_0, Nat.choose, Nat.reduceSub, Nat.reduceAdd, Nat.cast_ofNat]
  push_cast
  ring

set_option maxRecDepth 8000 in
theorem hip2_1_1_eq (L : Nat → K) (xv xi p1 p2 p3 : K) :
    hip2_1_1 L xv xi p1 p2 p3 = conv (conv L (conv L L)) (cubicD 0 1 (-3*p1) 0 (xv - xi)) 1 := by
  simp only [conv, cubicD, Finset.sum_range_succ, Finset.sum_range_zero, hip2_1_1, Nat.choose, Nat.reduceSub, Nat.reduceAdd, Nat.cast_ofNat]
  push_cast
  ring

set_option maxRecDepth 8000 in
theorem hip2_1_2_eq (L : Nat → K) (xv xi p1 p2 p3 : K) :
    hip2_1_2 L xv xi p1 p2 p3 = conv (conv L (conv L L)) (cubicD 0 0 (1/2) 0 (xv - xi)) 1 := by
  simp only [conv, cubicD, Finset.sum_range_succ, Finset.sum_range_zero, hip2_1_2, Nat.choose, Nat.reduceSub, Nat.reduceAdd, Nat.cast_ofNat]
  push_cast
  ring

set_option maxRecDepth 8000 in
theorem hip2_2_0_eq (L : Nat → K) (xv xi p1 p2 p3 : K) :
    hip2_2_0 L xv xi p1 p2 p3 = conv (conv L (conv L L)) (cubicD 1 (-3*p1) (6*p1^2 - 3/2*p2) 0 (xv - xi)) 2 := by
  simp only [conv, cubicD, Finset.sum_range_succ, Finset.sum_range_zero, hip2_2_0, Nat.choose, Nat.reduceSub, Nat.reduceAdd, Nat.cast_ofNat]
  push_cast
  ring

set_option maxRecDepth 8000 in
theorem hip2_2_1_eq (L : Nat → K) (xv xi p1 p2 p3 : K) :
    hip2_2_1 L xv xi p1 p2 p3 = conv (conv L (conv L L)) (cubicD 0 1 (-3*p1) 0 (xv - xi)) 2 := by
  simp only [conv, cubicD, Finset.sum_range_succ, Finset.sum_range_zero, hip2_2_1, Nat.choose, Nat.reduceSub, Nat.reduceAdd, Nat.cast_ofNat]
  push_cast
  ring

set_option maxRecDepth 8000 in
theorem hip2_2_2_eq (L : Nat → K) (xv xi p1 p2 p3 : K) :
    hip2_2_2 L xv xi p1 p2 p3 = conv (conv L (conv L L)) (cubicD 0 0 (1/2) 0 (xv - xi)) 2 := by
  simp only [conv, cubicD, Finset.sum_range_succ, Finset.sum_range_zero, hip2_2_2, Nat.choose, Nat.reduceSub, Nat.reduceAdd, Nat.cast_ofNat]
  push_cast
  ring

set_option maxRecDepth 8000 in
theorem hip2_3_0_eq (L : Nat → K) (xv xi p1 p2 p3 : K) :
    hip2_3_0 L xv xi p1 p2 p3 = conv (conv L (conv L L)) (cubicD 1 (-3*p1) (6*p1^2 - 3/2*p2) 0 (xv - xi)) 3 := by
  simp only [conv, cubicD, Finset.sum_range_succ, Finset.sum_range_zero, hip2_3_0, Nat.choose, Nat.reduceSub, Nat.reduceAdd, Nat.cast_ofNat]
  push_cast
  ring

set_option maxRecDepth 8000 in
theorem hip2_3_1_eq (L : Nat → K) (xv xi p1 p2 p3 : K) :
    hip2_3_1 L xv xi p1 p2 p3 = conv (conv L (conv L L)) (cubicD 0 1 (-3*p1) 0 (xv - xi)) 3 := by
  simp only [conv, cubicD, Finset.sum_range_succ, Finset.sum_range_zero, hip2_3_1, Nat.choose, Nat.reduceSub, Nat.reduceAdd, Nat.cast_ofNat]
  push_cast
  ring

set_option maxRecDepth 8000 in
theorem hip2_3_2_eq (L : Nat → K) (xv xi p1 p2 p3 : K) :
    hip2_3_2 L xv xi p1 p2 p3 = conv (conv L (conv L L)) (cubicD 0 0 (1/2) 0 (xv - xi)) 3 := by
  simp only [conv, cubicD, Finset.sum_range_succ, Finset.sum_range_zero, hip2_3_2, Nat.choose, Nat.reduceSub, Nat.reduceAdd, Nat.cast_ofNat]
  push_cast
  ring

set_option maxRecDepth 8000 in
theorem hip2_4_0_eq (L : Nat → K) (xv xi p1 p2 p3 : K) :
    hip2_4_0 L xv xi p1 p2 p3 = conv (conv L (conv L L)) (cubicD 1 (-3*p1) (6*p1^2 - 3/2*p2) 0 (xv - xi)) 4 := by
  simp only [conv, cubicD, Finset.sum_range_succ, Finset.sum_range_zero, hip2_4_0, Nat.choose, Nat.reduceSub, Nat.reduceAdd, Nat.cast_ofNat]
  push_cast
  ring

set_option maxRecDepth 8000 in
theorem hip2_4_1_eq (L : Nat → K) (xv xi p1 p2 p3 : K) :
    hip2_4_1 L xv xi p1 p2 p3 = conv (conv L (conv L L)) (cubicD 0 1 (-3*p1) 0 (xv - xi)) 4 := by
  simp only [conv, cubicD, Finset.sum_range_succ, Finset.sum_range_zero, hip2_4_1, Nat.choose, Nat.reduceSub, Nat.reduceAdd, Nat.cast_ofNat]
  push_cast
  ring

set_option maxRecDepth 8000 in
theorem hip2_4_2_eq (L : Nat → K) (xv xi p1 p2 p3 : K) :
    hip2_4_2 L xv xi p1 p2 p3 = conv (conv L (conv L L)) (cubicD 0 0 (1/2) 0 (xv - xi)) 4 := by
  simp only [conv, cubicD, Finset.sum_range_succ, Finset.sum_range_zero, hip2_4_2, Nat.choose, Nat.reduceSub, Nat.reduceAdd, Nat.cast_ofNat]
  push_cast
  ring

set_option maxRecDepth 8000 in
theorem hip2_5_0_eq (L : Nat → K) (xv xi p1 p2 p3 : K) :
    hip2_5_0 L xv xi p1 p2 p3 = conv (conv L (conv L L)) (cubicD 1 (-3*p1) (6*p1^2 - 3/2*p2) 0 (xv - xi)) 5 := by
  simp only [conv, cubicD, Finset.sum_range_succ, Finset.sum_range_zero, hip2_5_0, Nat.choose, Nat.reduceSub, Nat.reduceAdd, Nat.cast_ofNat]
  push_cast
  ring

set_option maxRecDepth 8000 in
theorem hip2_5_1_eq (L : Nat → K) (xv xi p1 p2 p3 : K) :
    hip2_5_1 L xv xi p1 p2 p3 = conv (conv L (conv L L)) (cubicD 0 1 (-3*p1) 0 (xv - xi)) 5 := by
  simp only [conv, cubicD, Finset.sum_range_succ, Finset.sum_range_zero, hip2_5_1, Nat.choose, Nat.reduceSub, Nat.reduceAdd, Nat.cast_ofNat]
  push_cast
  ring

set_option maxRecDepth 8000 in
theorem hip2_5_2_eq (L : Nat → K) (xv xi p1 p2 p3 : K) :
    hip2_5_2 L xv xi p1 p2 p3 = conv (conv L (conv L L)) (cubicD 0 0 (1/2) 0 (xv - xi)) 5 := by
  simp only [conv, cubicD, Finset.sum_range_succ, Finset.sum_range_zero, hip2_5_2, Nat.choose, Nat.reduceSub, Nat.reduceAdd, Nat.cast_ofNat]
  push_cast
  ring

theorem hip2R0_0_1_eq (L : Nat → K) (xv xi p1 p2 p3 : K) :
    hip2R0_0_1 L xv xi p1 p2 p3 = conv (conv L (conv L L)) (cubicD 1 (-3*p1) 0 0 (xv - xi)) 0 := by
  simp only [conv, cubicD, Finset.sum_range_succ, Finset.sum_range_zero, hip2R0_0_1, Nat.choose, Nat.reduceSub, Nat.reduceAdd, Nat.cast_ofNat]
  push_cast
  ring

theorem hip2R0_0_2_eq (L : Nat → K) (xv xi p1 p2 p3 : K) :
    hip2R0_0_2 L xv xi p1 p2 p3 = conv (conv L (conv L L)) (cubicD 0 (1/2) 0 0 (xv - xi)) 0 := by
  simp only [conv, cubicD, Finset.sum_range_succ, Finset.sum_range_zero, hip2R0_0_2, Nat.choose, Nat.reduceSub, Nat.reduceAdd, Nat.cast_ofNat]
  push_cast
  ring

theorem hip2R0_1_1_eq (L : Nat → K) (xv xi p1 p2 p3 : K) :
    hip2R0_1_1 L xv xi p1 p2 p3 = conv (conv L (conv L L)) (cubicD 1 (-3*p1) 0 0 (xv - xi)) 1 := by
  simp only [conv, cubicD, Finset.sum_range_succ, Finset.sum_range_zero, hip2R0_1_1, Nat.choose, Nat.reduceSub, Nat.reduceAdd, Nat.cast_ofNat]
  push_cast
  ring

theorem hip2R0_1_2_eq (L : Nat → K) (xv xi p1 p2 p3 : K) :
    hip2R0_1_2 L xv xi p1 p2 p3 = conv (conv L (conv L L)) (cubicD 0 (1/2) 0 0 (xv - xi)) 1 := by
  simp only [conv, cubicD, Finset.sum_range_succ, Finset.sum_range_zero, hip2R0_1_2, Nat.choose, Nat.reduceSub, Nat.reduceAdd, Nat.cast_ofNat]
  push_cast
  ring

theorem hip2R0_2_1_eq (L : Nat → K) (xv xi p1 p2 p3 : K) :
    hip2R0_2_1 L xv xi p1 p2 p3 = conv (conv L (conv L L)) (cubicD 1 (-3*p1) 0 0 (xv - xi)) 2 := by
  simp only [conv, cubicD, Finset.sum_range_succ, Finset.sum_range_zero, hip2R0_2_1, Nat.choose, Nat.reduceSub, Nat.reduceAdd, Nat.cast_ofNat]
  push_cast
  ring

theorem hip2R0_2_2_eq (L : Nat → K) (xv xi p1 p2 p3 : K) :
    hip2R0_2_2 L xv xi p1 p2 p3 = conv (conv L (conv L L)) (cubicD 0 (1/2) 0 0 (xv - xi)) 2 := by
  simp only [conv, cubicD, Finset.sum_range_succ, Finset.sum_range_zero, hip2R0_2_2, Nat.choose, Nat.reduceSub, Nat.reduceAdd, Nat.cast_ofNat]
  push_cast
  ring

theorem hip2R1_0_0_eq (L : Nat → K) (xv xi p1 p2 p3 : K) :
    hip2R1_0_0 L xv xi p1 p2 p3 = conv (conv (cubicD 0 0 1 0 (xv + 1)) (conv L (conv L L))) (cubicD 1 (-3*p1) (6*p1^2 - 3/2*p2) 0 (xv - xi)) 0 / (xi + 1) ^ 3 := by
  simp only [conv, cubicD, Finset.sum_range_succ, Finset.sum_range_zero, hip2R1_0_0, Nat.choose, Nat.reduceSub, Nat.reduceAdd, Nat.cast_ofNat]
  push_cast
  congr 1
  ring

theorem hip2R1_0_1_eq (L : Nat → K) (xv xi p1 p2 p3 : K) :
    hip2R1_0_1 L xv xi p1 p2 p3 = conv (conv (cubicD 0 0 1 0 (xv + 1)) (conv L (conv L L))) (cubicD 0 1 (-3*p1) 0 (xv - xi)) 0 / (xi + 1) ^ 3 := by
  simp only [conv, cubicD, Finset.sum_range_succ, Finset.sum_range_zero, hip2R1_0_1, Nat.choose, Nat.reduceSub, Nat.reduceAdd, Nat.cast_ofNat]
  push_cast
  congr 1
  ring

theorem hip2R1_0_2_eq (L : Nat → K) (xv xi p1 p2 p3 : K) :
    hip2R1_0_2 L xv xi p1 p2 p3 = conv (conv (cubicD 0 0 1 0 (xv + 1)) (conv L (conv L L))) (cubicD 0 0 (1/2) 0 (xv - xi)) 0 / (xi + 1) ^ 3 := by
  simp only [conv, cubicD, Finset.sum_range_succ, Finset.sum_range_zero, hip2R1_0_2, Nat.choose, Nat.reduceSub, Nat.reduceAdd, Nat.cast_ofNat]
  push_cast
  congr 1
  ring

theorem hip2R1_1_0_eq (L : Nat → K) (xv xi p1 p2 p3 : K) :
    hip2R1_1_0 L xv xi p1 p2 p3 = conv (conv (cubicD 0 0 1 0 (xv + 1)) (conv L (conv L L))) (cubicD 1 (-3*p1) (6*p1^2 - 3/2*p2) 0 (xv - xi)) 1 / (xi + 1) ^ 3 := by
  simp only [conv, cubicD, Finset.sum_range_succ, Finset.sum_range_zero, hip2R1_1_0, Nat.choose, Nat.reduceSub, Nat.reduceAdd, Nat.cast_ofNat]
  push_cast
  congr 1
  ring

theorem hip2R1_1_1_eq (L : Nat → K) (xv xi p1 p2 p3 : K) :
    hip2R1_1_1 L xv xi p1 p2 p3 = conv (conv (cubicD 0 0 1 0 (xv + 1)) (conv L (conv L L))) (cubicD 0 1 (-3*p1) 0 (xv - xi)) 1 / (xi + 1) ^ 3 := by
  simp only [conv, cubicD, Finset.sum_range_succ, Finset.sum_range_zero, hip2R1_1_1, Nat.choose, Nat.reduceSub, Nat.reduceAdd, Nat.cast_ofNat]
  push_cast
  congr 1
  ring

theorem hip2R1_1_2_eq (L : Nat → K) (xv xi p1 p2 p3 : K) :
    hip2R1_1_2 L xv xi p1 p2 p3 = conv (conv (cubicD 0 0 1 0 (xv + 1)) (conv L (conv L L))) (cubicD 0 0 (1/2) 0 (xv - xi)) 1 / (xi + 1) ^ 3 := by
  simp only [conv, cubicD, Finset.sum_range_succ, Finset.sum_range_zero, hip2R1_1_2, Nat.choose, Nat.reduceSub, Nat.reduceAdd, Nat.cast_ofNat]
  push_cast
  congr 1
  ring

theorem hip2R1_2_0_eq (L : Nat → K) (xv xi p1 p2 p3 : K) :
    hip2R1_2_0 L xv xi p1 p2 p3 = conv (conv (cubicD 0 0 1 0 (xv + 1)) (conv L (conv L L))) (cubicD 1 (-3*p1) (6*p1^2 - 3/2*p2) 0 (xv - xi)) 2 / (xi + 1) ^ 3 := by
  simp only [conv, cubicD, Finset.sum_range_succ, Finset.sum_range_zero, hip2R1_2_0, Nat.choose, Nat.reduceSub, Nat.reduceAdd, Nat.cast_ofNat]
  push_cast
  congr 1
  ring

theorem hip2R1_2_1_eq (L : Nat → K) (xv xi p1 p2 p3 : K) :
    hip2R1_2_1 L xv xi p1 p2 p3 = conv (conv (cubicD 0 0 1 0 (xv + 1)) (conv L (conv L L))) (cubicD 0 1 (-3*p1) 0 (xv - xi)) 2 / (xi + 1) ^ 3 := by
  simp only [conv, cubicD, Finset.sum_range_succ, Finset.sum_range_zero, hip2R1_2_1, Nat.choose, Nat.reduceSub, Nat.reduceAdd, Nat.cast_ofNat]
  push_cast
  congr 1
  ring

theorem hip2R1_2_2_eq (L : Nat → K) (xv xi p1 p2 p3 : K) :
    hip2R1_2_2 L xv xi p1 p2 p3 = conv (conv (cubicD 0 0 1 0 (xv + 1)) (conv L (conv L L))) (cubicD 0 0 (1/2) 0 (xv - xi)) 2 / (xi + 1) ^ 3 := by
  simp only [conv, cubicD, Finset.sum_range_succ, Finset.sum_range_zero, hip2R1_2_2, Nat.choose, Nat.reduceSub, Nat.reduceAdd, Nat.cast_ofNat]
  push_cast
  congr 1
  ring

set_option maxRecDepth 8000 in
theorem hip3_0_0_eq (L : Nat → K) (xv xi p1 p2 p3 : K) :
    hip3_0_0 L xv xi p1 p2 p3 = conv (conv (conv L L) (conv L L)) (cubicD 1 (-4*p1) (10*p1^2 - 2*p2) (-20*p1^3 + 10*p1*p2 - 2/3*p3) (xv - xi)) 0 := by
  simp only [conv, cubicD, Finset.sum_range_succ, Finset.sum_range_zero, hip3_0_0, Nat.choose, Nat.reduceSub, Nat.reduceAdd, Nat.cast_ofNat]
  push_cast
  ring

set_option maxRecDepth 8000 in
theorem hip3_0_1_eq (L : Nat → K) (xv xi p1 p2 p3 : K) :
    hip3_0_1 L xv xi p1 p2 p3 = conv (conv (conv L L) (conv L L)) (cubicD 0 1 (-4*p1) (10*p1^2 - 2*p2) (xv - xi)) 0 := by
  simp only [conv, cubicD, Finset.sum_range_succ, Finset.sum_range_zero, hip3_0_1, Nat.choose, Nat.reduceSub, Nat.reduceAdd, Nat.cast_ofNat]
  push_cast
  ring

set_option maxRecDepth 8000 in
theorem hip3_0_2_eq (L : Nat → K) (xv xi p1 p2 p3 : K) :
    hip3_0_2 L xv xi p1 p2 p3 = conv (conv (conv L L) (conv L L)) (cubicD 0 0 (1/2) (-2*p1) (xv - xi)) 0 := by
  simp only [conv, cubicD, Finset.sum_range_succ, Finset.sum_range_zero, hip3_0_2, Nat.choose, Nat.reduceSub, Nat.reduceAdd, Nat.cast_ofNat]
  push_cast
  ring

set_option maxRecDepth 8000 in
theorem hip3_0_3_eq (L : Nat → K) (xv xi p1 p2 p3 : K) :
    hip3_0_3 L xv xi p1 p2 p3 = conv (conv (conv L L) (conv L L)) (cubicD 0 0 0 (1/6) (xv - xi)) 0 := by
  simp only [conv, cubicD, Finset.sum_range_succ, Finset.sum_range_zero, hip3_0_3, Nat.choose, Nat.reduceSub, Nat.reduceAdd, Nat.cast_ofNat]
  push_cast
  ring

set_option maxRecDepth 8000 in
theorem hip3_1_0_eq (L : Nat → K) (xv xi p1 p2 p3 : K) :
    hip3_1_0 L xv xi p1 p2 p3 = conv (conv (conv L L) (conv L L)) (cubicD 1 (-4*p1) (10*p1^2 - 2*p2) (-20*p1^3 + 10*p1*p2 - 2/3*p3) (xv - xi)) 1 := by
  simp only [conv, cubicD, Finset.sum_range_succ, Finset.sum_range_zero, hip3_1_0, Nat.choose, Nat.reduceSub, Nat.reduceAdd, Nat.cast_ofNat]
  push_cast
  ring

set_option maxRecDepth 8000 in
theorem hip3_1_1_eq (L : Nat → K) (xv xi p1 p2 p3 : K) :
    hip3_1_1 L xv xi p1 p2 p3 = conv (conv (conv L L) (conv L L)) (cubicD 0 1 (-4*p1) (10*p1^2 - 2*p2) (xv - xi)) 1 := by
  simp only [conv, cubicD, Finset.sum_range_succ, Finset.sum_range_zero, hip3_1_1, Nat.choose, Nat.reduceSub, Nat.reduceAdd, Nat.cast_ofNat]
  push_cast
  ring

set_option maxRecDepth 8000 in
theorem hip3_1_2_eq (L : Nat → K) (xv xi p1 p2 p3 : K) :
    hip3_1_2 L xv xi p1 p2 p3 = conv (conv (conv L L) (conv L L)) (cubicD 0 0 (1/2) (-2*p1) (xv - xi)) 1 := by
  simp only [conv, cubicD, Finset.sum_range_succ, Finset.sum_range_zero, hip3_1_2, Nat.choose, Nat.reduceSub, Nat.reduceAdd, Nat.cast_ofNat]
  push_cast
  ring

set_option maxRecDepth 8000 in
theorem hip3_1_3_eq (L : Nat → K) (xv xi p1 p2 p3 : K) :
    hip3_1_3 L xv xi p1 p2 p3 = conv (conv (conv L L) (conv L L)) (cubicD 0 0 0 (1/6) (xv - xi)) 1 := by
  simp only [conv, cubicD, Finset.sum_range_succ, Finset.sum_range_zero, hip3_1_3, Nat.choose, Nat.reduceSub, Nat.reduceAdd, Nat.cast_ofNat]
  push_cast
  ring

set_option maxRecDepth 8000 in
theorem hip3_2_0_eq (L : Nat → K) (xv xi p1 p2 p3 : K) :
    hip3_2_0 L xv xi p1 p2 p3 = conv (conv (conv L L) (conv L L)) (cubicD 1 (-4*p1) (10*p1^2 - 2*p2) (-20*p1^3 + 10*p1*p2 - 2/3*p3) (xv - xi)) 2 := by
  simp only [conv, cubicD, Finset.sum_range_succ, Finset.sum_range_zero, hip3_2_0, Nat.choose, Nat.reduceSub, Nat.reduceAdd, Nat.cast_ofNat]
  push_cast
  ring

set_option maxRecDepth 8000 in
theorem hip3_2_1_eq (L : Nat → K) (xv xi p1 p2 p3 : K) :
    hip3_2_1 L xv xi p1 p2 p3 = conv (conv (conv L L) (conv L L)) (cubicD 0 1 (-4*p1) (10*p1^2 - 2*p2) (xv - xi)) 2 := by
  simp only [conv, cubicD, Finset.sum_range_succ, Finset.sum_range_zero, hip3_2_1, Nat.choose, Nat.reduceSub, Nat.reduceAdd, Nat.cast_ofNat]
  push_cast
  ring

set_option maxRecDepth 8000 in
theorem hip3_2_2_eq (L : Nat → K) (xv xi p1 p2 p3 : K) :
    hip3_2_2 L xv xi p1 p2 p3 = conv (conv (conv L L) (conv L L)) (cubicD 0 0 (1/2) (-2*p1) (xv - xi)) 2 := by
  simp only [conv, cubicD, Finset.sum_range_succ, Finset.sum_range_zero, hip3_2_2, Nat.choose, Nat.reduceSub, Nat.reduceAdd, Nat.cast_ofNat]
  push_cast
  ring

set_option maxRecDepth 8000 in
theorem hip3_2_3_eq (L : Nat → K) (xv xi p1 p2 p3 : K) :
    hip3_2_3 L xv xi p1 p2 p3 = conv (conv (conv L L) (conv L L)) (cubicD 0 0 0 (1/6) (xv - xi)) 2 := by
  simp only [conv, cubicD, Finset.sum_range_succ, Finset.sum_range_zero, hip3_2_3, Nat.choose, Nat.reduceSub, Nat.reduceAdd, Nat.cast_ofNat]
  push_cast
  ring

set_option maxRecDepth 8000 in
theorem hip3_3_0_eq (L : Nat → K) (xv xi p1 p2 p3 : K) :
    hip3_3_0 L xv xi p1 p2 p3 = conv (conv (conv L L) (conv L L)) (cubicD 1 (-4*p1) (10*p1^2 - 2*p2) (-20*p1^3 + 10*p1*p2 - 2/3*p3) (xv - xi)) 3 := by
  simp only [conv, cubicD, Finset.sum_range_succ, Finset.sum_range_zero, hip3_3_0, Nat.choose, Nat.reduceSub, Nat.reduceAdd, Nat.cast_ofNat]
  push_cast
  ring

set_option maxRecDepth 8000 in
theorem hip3_3_1_eq (L : Nat → K) (xv xi p1 p2 p3 : K) :
    hip3_3_1 L xv xi p1 p2 p3 = conv (conv (conv L L) (conv L L)) (cubicD 0 1 (-4*p1) (10*p1^2 - 2*p2) (xv - xi)) 3 := by
  simp only [conv, cubicD, Finset.sum_range_succ, Finset.sum_range_zero, hip3_3_1, Nat.choose, Nat.reduceSub, Nat.reduceAdd, Nat.cast_ofNat]
  push_cast
  ring

set_option maxRecDepth 8000 in
theorem hip3_3_2_eq (L : Nat → K) (xv xi p1 p2 p3 : K) :
    hip3_3_2 L xv xi p1 p2 p3 = conv (conv (conv L L) (conv L L)) (cubicD 0 0 (1/2) (-2*p1) (xv - xi)) 3 := by
  simp only [conv, cubicD, Finset.sum_range_succ, Finset.sum_range_zero, hip3_3_2, Nat.choose, Nat.reduceSub, Nat.reduceAdd, Nat.cast_ofNat]
  push_cast
  ring

set_option maxRecDepth 8000 in
theorem hip3_3_3_eq (L : Nat → K) (xv xi p1 p2 p3 : K) :
    hip3_3_3 L xv xi p1 p2 p3 = conv (conv (conv L L) (conv L L)) (cubicD 0 0 0 (1/6) (xv - xi)) 3 := by
  simp only [conv, cubicD, Finset.sum_range_succ, Finset.sum_range_zero, hip3_3_3, Nat.choose, Nat.reduceSub, Nat.reduceAdd, Nat.cast_ofNat]
  push_cast
  ring

set_option maxRecDepth 8000 in
theorem hip3_4_0_eq (L : Nat → K) (xv xi p1 p2 p3 : K) :
    hip3_4_0 L xv xi p1 p2 p3 = conv (conv (conv L L) (conv L L)) (cubicD 1 (-4*p1) (10*p1^2 - 2*p2) (-20*p1^3 + 10*p1*p2 - 2/3*p3) (xv - xi)) 4 := by
  simp only [conv, cubicD, Finset.sum_range_succ, Finset.sum_range_zero, hip3_4_0, Nat.choose, Nat.reduceSub, Nat.reduceAdd, Nat.cast_ofNat]
  push_cast
  ring

set_option maxRecDepth 8000 in
theorem hip3_4_1_eq (L : Nat → K) (xv xi p1 p2 p3 : K) :
    hip3_4_1 L xv xi p1 p2 p3 = conv (conv (conv L L) (conv L L)) (cubicD 0 1 (-4*p1) (10*p1^2 - 2*p2) (xv - xi)) 4 := by
  simp only [conv, cubicD, Finset.sum_range_succ, Finset.sum_range_zero, hip3_4_1, Nat.choose, Nat.reduceSub, Nat.reduceAdd, Nat.cast_ofNat]
  push_cast
  ring

set_option maxRecDepth 8000 in
theorem hip3_4_2_eq (L : Nat → K) (xv xi p1 p2 p3 : K) :
    hip3_4_2 L xv xi p1 p2 p3 = conv (conv (conv L L) (conv L L)) (cubicD 0 0 (1/2) (-2*p1) (xv - xi)) 4 := by
  simp only [conv, cubicD, Finset.sum_range_succ, Finset.sum_range_zero, hip3_4_2, Nat.choose, Nat.reduceSub, Nat.reduceAdd, Nat.cast_ofNat]
  push_cast
  ring

set_option maxRecDepth 8000 in
theorem hip3_4_3_eq (L : Nat → K) (xv xi p1 p2 p3 : K) :
    hip3_4_3 L xv xi p1 p2 p3 = conv (conv (conv L L) (conv L L)) (cubicD 0 0 0 (1/6) (xv - xi)) 4 := by
  simp only [conv, cubicD, Finset.sum_range_succ, Finset.sum_range_zero, hip3_4_3, Nat.choose, Nat.reduceSub, Nat.reduceAdd, Nat.cast_ofNat]
  push_cast
  ring

set_option maxRecDepth 8000 in
theorem hip3_5_0_eq (L : Nat → K) (xv xi p1 p2 p3 : K) :
    hip3_5_0 L xv xi p1 p2 p3 = conv (conv (conv L L) (conv L L)) (cubicD 1 (-4*p1) (10*p1^2 - 2*p2) (-20*p1^3 + 10*p1*p2 - 2/3*p3) (xv - xi)) 5 := by
  simp only [conv, cubicD, Finset.sum_range_succ, Finset.sum_range_zero, hip3_5_0, Nat.choose, Nat.reduceSub, Nat.reduceAdd, Nat.cast_ofNat]
  push_cast
  ring

set_option maxRecDepth 8000 in
theorem hip3_5_1_eq (L : Nat → K) (xv xi p1 p2 p3 : K) :
    hip3_5_1 L xv xi p1 p2 p3 = conv (conv (conv L L) (conv L L)) (cubicD 0 1 (-4*p1) (10*p1^2 - 2*p2) (xv - xi)) 5 := by
  simp only [conv, cubicD, Finset.sum_range_succ, Finset.sum_range_zero, hip3_5_1, Nat.choose, Nat.reduceSub, Nat.reduceAdd, Nat.cast_ofNat]
  push_cast
  ring

set_option maxRecDepth 8000 in
theorem hip3_5_2_eq (L : Nat → K) (xv xi p1 p2 p3 : K) :
    hip3_5_2 L xv xi p1 p2 p3 = conv (conv (conv L L) (conv L L)) (cubicD 0 0 (1/2) (-2*p1) (xv - xi)) 5 := by
  simp only [conv, cubicD, Finset.sum_range_succ, Finset.sum_range_zero, hip3_5_2, Nat.choose, Nat.reduceSub, Nat.reduceAdd, Nat.cast_ofNat]
  push_cast
  ring

set_option maxRecDepth 8000 in
theorem hip3_5_3_eq (L : Nat → K) (xv xi p1 p2 p3 : K) :
    hip3_5_3 L xv xi p1 p2 p3 = conv (conv (conv L L) (conv L L)) (cubicD 0 0 0 (1/6) (xv - xi)) 5 := by
  simp only [conv, cubicD, Finset.sum_range_succ, Finset.sum_range_zero, hip3_5_3, Nat.choose, Nat.reduceSub, Nat.reduceAdd, Nat.cast_ofNat]
  push_cast
  ring

theorem hip3R0_0_1_eq (L : Nat → K) (xv xi p1 p2 p3 : K) :
    hip3R0_0_1 L xv xi p1 p2 p3 = conv (conv (conv L L) (conv L L)) (cubicD 1 (-4*p1) (10*p1^2 - 2*p2) 0 (xv - xi)) 0 := by
  simp only [conv, cubicD, Finset.sum_range_succ, Finset.sum_range_zero, hip3R0_0_1, Nat.choose, Nat.reduceSub, Nat.reduceAdd, Nat.cast_ofNat]
  push_cast
  ring

theorem hip3R0_0_2_eq (L : Nat → K) (xv xi p1 p2 p3 : K) :
    hip3R0_0_2 L xv xi p1 p2 p3 = conv (conv (conv L L) (conv L L)) (cubicD 0 (1/2) (-2*p1) 0 (xv - xi)) 0 := by
  simp only [conv, cubicD, Finset.sum_range_succ, Finset.sum_range_zero, hip3R0_0_2, Nat.choose, Nat.reduceSub, Nat.reduceAdd, Nat.cast_ofNat]
  push_cast
  ring

theorem hip3R0_0_3_eq (L : Nat → K) (xv xi p1 p2 p3 : K) :
    hip3R0_0_3 L xv xi p1 p2 p3 = conv (conv (conv L L) (conv L L)) (cubicD 0 0 (1/6) 0 (xv - xi)) 0 := by
  simp only [conv, cubicD, Finset.sum_range_succ, Finset.sum_range_zero, hip3R0_0_3, Nat.choose, Nat.reduceSub, Nat.reduceAdd, Nat.cast_ofNat]
  push_cast
  ring

theorem hip3R0_1_1_eq (L : Nat → K) (xv xi p1 p2 p3 : K) :
    hip3R0_1_1 L xv xi p1 p2 p3 = conv (conv (conv L L) (conv L L)) (cubicD 1 (-4*p1) (10*p1^2 - 2*p2) 0 (xv - xi)) 1 := by
  simp only [conv, cubicD, Finset.sum_range_succ, Finset.sum_range_zero, hip3R0_1_1, Nat.choose, Nat.reduceSub, Nat.reduceAdd, Nat.cast_ofNat]
  push_cast
  ring

theorem hip3R0_1_2_eq (L : Nat → K) (xv xi p1 p2 p3 : K) :
    hip3R0_1_2 L xv xi p1 p2 p3 = conv (conv (conv L L) (conv L L)) (cubicD 0 (1/2) (-2*p1) 0 (xv - xi)) 1 := by
  simp only [conv, cubicD, Finset.sum_range_succ, Finset.sum_range_zero, hip3R0_1_2, Nat.choose, Nat.reduceSub, Nat.reduceAdd, Nat.cast_ofNat]
  push_cast
  ring

theorem hip3R0_1_3_eq (L : Nat → K) (xv xi p1 p2 p3 : K) :
    hip3R0_1_3 L xv xi p1 p2 p3 = conv (conv (conv L L) (conv L L)) (cubicD 0 0 (1/6) 0 (xv - xi)) 1 := by
  simp only [conv, cubicD, Finset.sum_range_succ, Finset.sum_range_zero, hip3R0_1_3, Nat.choose, Nat.reduceSub, Nat.reduceAdd, Nat.cast_ofNat]
  push_cast
  ring

theorem hip3R0_2_1_eq (L : Nat → K) (xv xi p1 p2 p3 : K) :
    hip3R0_2_1 L xv xi p1 p2 p3 = conv (conv (conv L L) (conv L L)) (cubicD 1 (-4*p1) (10*p1^2 - 2*p2) 0 (xv - xi)) 2 := by
  simp only [conv, cubicD, Finset.sum_range_succ, Finset.sum_range_zero, hip3R0_2_1, Nat.choose, Nat.reduceSub, Nat.reduceAdd, Nat.cast_ofNat]
  push_cast
  ring

theorem hip3R0_2_2_eq (L : Nat → K) (xv xi p1 p2 p3 : K) :
    hip3R0_2_2 L xv xi p1 p2 p3 = conv (conv (conv L L) (conv L L)) (cubicD 0 (1/2) (-2*p1) 0 (xv - xi)) 2 := by
  simp only [conv, cubicD, Finset.sum_range_succ, Finset.sum_range_zero, hip3R0_2_2, Nat.choose, Nat.reduceSub, Nat.reduceAdd, Nat.cast_ofNat]
  push_cast
  ring

theorem hip3R0_2_3_eq (L : Nat → K) (xv xi p1 p2 p3 : K) :
    hip3R0_2_3 L xv xi p1 p2 p3 = conv (conv (conv L L) (conv L L)) (cubicD 0 0 (1/6) 0 (xv - xi)) 2 := by
  simp only [conv, cubicD, Finset.sum_range_succ, Finset.sum_range_zero, hip3R0_2_3, Nat.choose, Nat.reduceSub, Nat.reduceAdd, Nat.cast_ofNat]
  push_cast
  ring

theorem hip3R1_0_0_eq (L : Nat → K) (xv xi p1 p2 p3 : K) :
    hip3R1_0_0 L xv xi p1 p2 p3 = conv (conv (cubicD 0 0 0 1 (xv + 1)) (conv (conv L L) (conv L L))) (cubicD 1 (-4*p1) (10*p1^2 - 2*p2) (-20*p1^3 + 10*p1*p2 - 2/3*p3) (xv - xi)) 0 / (xi + 1) ^ 4 := by
  simp only [conv, cubicD, Finset.sum_range_succ, Finset.sum_range_zero, hip3R1_0_0, Nat.choose, Nat.reduceSub, Nat.reduceAdd, Nat.cast_ofNat]
  push_cast
  congr 1
  ring

theorem hip3R1_0_1_eq (L : Nat → K) (xv xi p1 p2 p3 : K) :
    hip3R1_0_1 L xv xi p1 p2 p3 = conv (conv (cubicD 0 0 0 1 (xv + 1)) (conv (conv L L) (conv L L))) (cubicD 0 1 (-4*p1) (10*p1^2 - 2*p2) (xv - xi)) 0 / (xi + 1) ^ 4 := by
  simp only [conv, cubicD, Finset.sum_range_succ, Finset.sum_range_zero, hip3R1_0_1, Nat.choose, Nat.reduceSub, Nat.reduceAdd, Nat.cast_ofNat]
  push_cast
  congr 1
  ring

theorem hip3R1_0_2_eq (L : Nat → K) (xv xi p1 p2 p3 : K) :
    hip3R1_0_2 L xv xi p1 p2 p3 = conv (conv (cubicD 0 0 0 1 (xv + 1)) (conv (conv L L) (conv L L))) (cubicD 0 0 (1/2) (-2*p1) (xv - xi)) 0 / (xi + 1) ^ 4 := by
  simp only [conv, cubicD, Finset.sum_range_succ, Finset.sum_range_zero, hip3R1_0_2, Nat.choose, Nat.reduceSub, Nat.reduceAdd, Nat.cast_ofNat]
  push_cast
  congr 1
  ring

theorem hip3R1_0_3_eq (L : Nat → K) (xv xi p1 p2 p3 : K) :
    hip3R1_0_3 L xv xi p1 p2 p3 = conv (conv (cubicD 0 0 0 1 (xv + 1)) (conv (conv L L) (conv L L))) (cubicD 0 0 0 (1/6) (xv - xi)) 0 / (xi + 1) ^ 4 := by
  simp only [conv, cubicD, Finset.sum_range_succ, Finset.sum_range_zero, hip3R1_0_3, Nat.choose, Nat.reduceSub, Nat.reduceAdd, Nat.cast_ofNat]
  push_cast
  congr 1
  ring

theorem hip3R1_1_0_eq (L : Nat → K) (xv xi p1 p2 p3 : K) :
    hip3R1_1_0 L xv xi p1 p2 p3 = conv (conv (cubicD 0 0 0 1 (xv + 1)) (conv (conv L L) (conv L L))) (cubicD 1 (-4*p1) (10*p1^2 - 2*p2) (-20*p1^3 + 10*p1*p2 - 2/3*p3) (xv - xi)) 1 / (xi + 1) ^ 4 := by
  simp only [conv, cubicD, Finset.sum_range_succ, Finset.sum_range_zero, hip3R1_1_0, Nat.choose, Nat.reduceSub, Nat.reduceAdd, Nat.cast_ofNat]
  push_cast
  congr 1
  ring

theorem hip3R1_1_1_eq (L : Nat → K) (xv xi p1 p2 p3 : K) :
    hip3R1_1_1 L xv xi p1 p2 p3 = conv (conv (cubicD 0 0 0 1 (xv + 1)) (conv (conv L L) (conv L L))) (cubicD 0 1 (-4*p1) (10*p1^2 - 2*p2) (xv - xi)) 1 / (xi + 1) ^ 4 := by
  simp only [conv, cubicD, Finset.sum_range_succ, Finset.sum_range_zero, hip3R1_1_1, Nat.choose, Nat.reduceSub, Nat.reduceAdd, Nat.cast_ofNat]
  push_cast
  congr 1
  ring

theorem hip3R1_1_2_eq (L : Nat → K) (xv xi p1 p2 p3 : K) :
    hip3R1_1_2 L xv xi p1 p2 p3 = conv (conv (cubicD 0 0 0 1 (xv + 1)) (conv (conv L L) (conv L L))) (cubicD 0 0 (1/2) (-2*p1) (xv - xi)) 1 / (xi + 1) ^ 4 := by
  simp only [conv, cubicD, Finset.sum_range_succ, Finset.sum_range_zero, hip3R1_1_2, Nat.choose, Nat.reduceSub, Nat.reduceAdd, Nat.cast_ofNat]
  push_cast
  congr 1
  ring

theorem hip3R1_1_3_eq (L : Nat → K) (xv xi p1 p2 p3 : K) :
    hip3R1_1_3 L xv xi p1 p2 p3 = conv (conv (cubicD 0 0 0 1 (xv + 1)) (conv (conv L L) (conv L L))) (cubicD 0 0 0 (1/6) (xv - xi)) 1 / (xi + 1) ^ 4 := by
  simp only [conv, cubicD, Finset.sum_range_succ, Finset.sum_range_zero, hip3R1_1_3, Nat.choose, Nat.reduceSub, Nat.reduceAdd, Nat.cast_ofNat]
  push_cast
  congr 1
  ring

theorem hip3R1_2_0_eq (L : Nat → K) (xv xi p1 p2 p3 : K) :
    hip3R1_2_0 L xv xi p1 p2 p3 = conv (conv (cubicD 0 0 0 1 (xv + 1)) (conv (conv L L) (conv L L))) (cubicD 1 (-4*p1) (10*p1^2 - 2*p2) (-20*p1^3 + 10*p1*p2 - 2/3*p3) (xv - xi)) 2 / (xi + 1) ^ 4 := by
  simp only [conv, cubicD, Finset.sum_range_succ, Finset.sum_range_zero, hip3R1_2_0, Nat.choose, Nat.reduceSub, Nat.reduceAdd, Nat.cast_ofNat]
  push_cast
  congr 1
  ring

theorem hip3R1_2_1_eq (L : Nat → K) (xv xi p1 p2 p3 : K) :
    hip3R1_2_1 L xv xi p1 p2 p3 = conv (conv (cubicD 0 0 0 1 (xv + 1)) (conv (conv L L) (conv L L))) (cubicD 0 1 (-4*p1) (10*p1^2 - 2*p2) (xv - xi)) 2 / (xi + 1) ^ 4 := by
  simp only [conv, cubicD, Finset.sum_range_succ, Finset.sum_range_zero, hip3R1_2_1, Nat.choose, Nat.reduceSub, Nat.reduceAdd, Nat.cast_ofNat]
  push_cast
  congr 1
  ring

theorem hip3R1_2_2_eq (L : Nat → K) (xv xi p1 p2 p3 : K) :
    hip3R1_2_2 L xv xi p1 p2 p3 = conv (conv (cubicD 0 0 0 1 (xv + 1)) (conv (conv L L) (conv L L))) (cubicD 0 0 (1/2) (-2*p1) (xv - xi)) 2 / (xi + 1) ^ 4 := by
  simp only [conv, cubicD, Finset.sum_range_succ, Finset.sum_range_zero, hip3R1_2_2, Nat.choose, Nat.reduceSub, Nat.reduceAdd, Nat.cast_ofNat]
  push_cast
  congr 1
  ring

theorem hip3R1_2_3_eq (L : Nat → K) (xv xi p1 p2 p3 : K) :
    hip3R1_2_3 L xv xi p1 p2 p3 = conv (conv (cubicD 0 0 0 1 (xv + 1)) (conv (conv L L) (conv L L))) (cubicD 0 0 0 (1/6) (xv - xi)) 2 / (xi + 1) ^ 4 := by
  simp only [conv, cubicD, Finset.sum_range_succ, Finset.sum_range_zero, hip3R1_2_3, Nat.choose, Nat.reduceSub, Nat.reduceAdd, Nat.cast_ofNat]
  push_cast
  congr 1
  ring

end Gen
end Poly
end HelFEM
