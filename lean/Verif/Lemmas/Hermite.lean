import Verif.Model.Hermite
import Verif.Lemmas.LIP
import Verif.Lemmas.HIPGen
import Verif.Spec.Interp
import Mathlib.Algebra.Polynomial.FieldDivision
import Mathlib.RingTheory.Coprime.Lemmas
import Mathlib.Tactic.IntervalCases

/-! Lemmas relating the Hermite evaluators to polynomials. -/

namespace HelFEM
namespace Poly
open Finset Polynomial Spec

variable {K : Type _} [Field K]

/-- derivatives of `p` at `x` -/
noncomputable def dv (p : K[X]) (x : K) (k : Nat) : K := (derivative^[k] p).eval x

theorem dv_mul (p q : K[X]) (x : K) (n : Nat) : dv (p * q) x n = conv (dv p x) (dv q x) n := by
  unfold dv conv
  rw [iterate_derivative_mul, eval_finsetSum]
  apply Finset.sum_congr rfl
  intro k _
  simp [nsmul_eq_mul]

theorem dv_C_mul (a : K) (p : K[X]) (x : K) (n : Nat) : dv (C a * p) x n = a * dv p x n := by
  unfold dv
  rw [iterate_derivative_C_mul]; simp

theorem dv_fun_mul (p q : K[X]) (x : K) : dv (p * q) x = conv (dv p x) (dv q x) := funext fun n => dv_mul p q x n

/-- the cubic in `X - a` -/
noncomputable def cubic (c0 c1 c2 c3 a : K) : K[X] :=
  C c0 + C c1 * (X - C a) + C c2 * (X - C a) ^ 2 + C c3 * (X - C a) ^ 3

theorem dv_cubic (c0 c1 c2 c3 a x : K) : dv (cubic c0 c1 c2 c3 a) x = cubicD c0 c1 c2 c3 (x - a) := by
  have h1 : derivative (cubic c0 c1 c2 c3 a) = cubic c1 (2 * c2) (3 * c3) 0 a := by
    simp only [cubic, derivative_add, derivative_C, derivative_mul, derivative_sub, derivative_X, derivative_X_sub_C_pow]
    push_cast
    simp only [map_mul, map_ofNat, map_zero]
    ring
  funext n
  match n with
  | 0 => simp [dv, cubic, cubicD]
  | 1 =>
    simp only [dv, Function.iterate_one, h1, cubicD]
    simp [cubic]
  | 2 =>
    have h2 : derivative (cubic c1 (2 * c2) (3 * c3) 0 a) = cubic (2 * c2) (6 * c3) 0 0 a := by
      simp only [cubic, derivative_add, derivative_C, derivative_mul, derivative_sub, derivative_X, derivative_X_sub_C_pow]
      push_cast
      simp only [map_mul, map_ofNat, map_zero]
      ring
    simp only [dv, Function.iterate_succ_apply, Function.iterate_zero, id_eq, h1, h2, cubicD]
    simp [cubic]
  | n + 3 =>
    have h2 : derivative (cubic c1 (2 * c2) (3 * c3) 0 a) = cubic (2 * c2) (6 * c3) 0 0 a := by
      simp only [cubic, derivative_add, derivative_C, derivative_mul, derivative_sub, derivative_X, derivative_X_sub_C_pow]
      push_cast
      simp only [map_mul, map_ofNat, map_zero]
      ring
    have h3 : derivative (cubic (2 * c2) (6 * c3) 0 0 a) = C (6 * c3) := by
      simp only [cubic, derivative_add, derivative_C, derivative_mul, derivative_sub, derivative_X, derivative_X_sub_C_pow]
      push_cast
      simp only [map_mul, map_ofNat, map_zero]
      ring
    have e : derivative^[n + 3] (cubic c0 c1 c2 c3 a) = derivative^[n] (C (6 * c3)) := by
      rw [Function.iterate_succ_apply, Function.iterate_succ_apply, Function.iterate_succ_apply, h1, h2, h3]
    unfold dv
    rw [e]
    cases n with
    | zero => simp [cubicD]
    | succ n =>
      rw [Function.iterate_succ_apply, derivative_C]
      simp [cubicD]

/-- coefficients of the correction polynomial of kind `j` -/
def qcoef (f : HermiteFam) (j : Nat) (p1 p2 p3 : K) : K × K × K × K :=
  match f, j with
  | .hip, 0 => (1, -2*p1, 0, 0)
  | .hip, 1 => (0, 1, 0, 0)
  | .hip2, 0 => (1, -3*p1, 6*p1^2 - 3/2*p2, 0)
  | .hip2, 1 => (0, 1, -3*p1, 0)
  | .hip2, 2 => (0, 0, 1/2, 0)
  | .hip3, 0 => (1, -4*p1, 10*p1^2 - 2*p2, -20*p1^3 + 10*p1*p2 - 2/3*p3)
  | .hip3, 1 => (0, 1, -4*p1, 10*p1^2 - 2*p2)
  | .hip3, 2 => (0, 0, 1/2, -2*p1)
  | .hip3, 3 => (0, 0, 0, 1/6)
  | _, _ => (0, 0, 0, 0)

noncomputable def qpoly (f : HermiteFam) (j : Nat) (p1 p2 p3 a : K) : K[X] :=
  let c := qcoef f j p1 p2 p3
  cubic c.1 c.2.1 c.2.2.1 c.2.2.2 a

/-- `q_j / t` -/
noncomputable def qtil (f : HermiteFam) (j : Nat) (p1 p2 p3 a : K) : K[X] :=
  let c := qcoef f j p1 p2 p3
  cubic c.2.1 c.2.2.1 c.2.2.2 0 a

/-- derivatives of the `m`-th power -/
def powConv (f : HermiteFam) (L : Nat → K) : Nat → K :=
  match f with
  | .hip => conv L L
  | .hip2 => conv L (conv L L)
  | .hip3 => conv (conv L L) (conv L L)

theorem dv_pow (f : HermiteFam) (p : K[X]) (x : K) :
    dv (p ^ f.m) x = powConv f (dv p x) := by
  unfold powConv
  cases f with
  | hip => simp only [HermiteFam.m, pow_two, dv_fun_mul]
  | hip2 => rw [show p ^ HermiteFam.m .hip2 = p * (p * p) by simp only [HermiteFam.m]; ring]; simp only [dv_fun_mul]
  | hip3 => rw [show p ^ HermiteFam.m .hip3 = (p * p) * (p * p) by simp only [HermiteFam.m]; ring]; simp only [dv_fun_mul]

theorem conv_congr {f f' g g' : Nat → K} {n : Nat} (hf : ∀ k ≤ n, f k = f' k) (hg : ∀ k ≤ n, g k = g' k) :
    ∀ k ≤ n, conv f g k = conv f' g' k := by
  intro k hk
  unfold conv
  apply Finset.sum_congr rfl
  intro i hi
  rw [Finset.mem_range] at hi
  rw [hf _ (by omega), hg _ (by omega)]

theorem pow_congr (f : HermiteFam) {L L' : Nat → K} {n : Nat} (h : ∀ k ≤ n, L k = L' k) :
    ∀ k ≤ n, powConv f L k = powConv f L' k := by
  unfold powConv
  cases f with
  | hip => exact conv_congr h h
  | hip2 => exact conv_congr h (conv_congr h h)
  | hip3 => exact conv_congr (conv_congr h h) (conv_congr h h)

theorem lt21 {P : Nat → Prop} (n : Nat) (h : n ≤ 20) (h0 : P 0) (h1 : P 1) (h2 : P 2) (h3 : P 3) (h4 : P 4) (h5 : P 5)
    (h6 : P 6) (h7 : P 7) (h8 : P 8) (h9 : P 9) (h10 : P 10) (h11 : P 11) (h12 : P 12) (h13 : P 13) (h14 : P 14)
    (h15 : P 15) (h16 : P 16) (h17 : P 17) (h18 : P 18) (h19 : P 19) (h20 : P 20) : P n := by
  interval_cases n <;> assumption

section char0
variable [CharZero K]

theorem case_eq (f : HermiteFam) (n j : Nat) (hn : n ≤ f.maxOrder) (hj : j < f.m) (L : Nat → K) (x xi p1 p2 p3 : K) :
    f.case n j L x xi p1 p2 p3 = some (conv (powConv f L) (dv (qpoly f j p1 p2 p3 xi) x) n) := by
  unfold qpoly
  rw [dv_cubic]
  unfold powConv
  cases f with
  | hip =>
    simp only [HermiteFam.maxOrder] at hn
    simp only [HermiteFam.m] at hj
    rcases (by omega : j = 0 ∨ j = 1) with rfl | rfl
    · apply lt21 (P := fun n => HermiteFam.case .hip n 0 L x xi p1 p2 p3 = _) n hn <;>
        simp only [HermiteFam.case, Gen.hip, qcoef, Gen.hip_0_0_eq, Gen.hip_1_0_eq, Gen.hip_2_0_eq, Gen.hip_3_0_eq,
          Gen.hip_4_0_eq, Gen.hip_5_0_eq, Gen.hip_6_0_eq, Gen.hip_7_0_eq, Gen.hip_8_0_eq, Gen.hip_9_0_eq,
          Gen.hip_10_0_eq, Gen.hip_11_0_eq, Gen.hip_12_0_eq, Gen.hip_13_0_eq, Gen.hip_14_0_eq, Gen.hip_15_0_eq,
          Gen.hip_16_0_eq, Gen.hip_17_0_eq, Gen.hip_18_0_eq, Gen.hip_19_0_eq, Gen.hip_20_0_eq]
    · apply lt21 (P := fun n => HermiteFam.case .hip n 1 L x xi p1 p2 p3 = _) n hn <;>
        simp only [HermiteFam.case, Gen.hip, qcoef, Gen.hip_0_1_eq, Gen.hip_1_1_eq, Gen.hip_2_1_eq, Gen.hip_3_1_eq,
          Gen.hip_4_1_eq, Gen.hip_5_1_eq, Gen.hip_6_1_eq, Gen.hip_7_1_eq, Gen.hip_8_1_eq, Gen.hip_9_1_eq,
          Gen.hip_10_1_eq, Gen.hip_11_1_eq, Gen.hip_12_1_eq, Gen.hip_13_1_eq, Gen.hip_14_1_eq, Gen.hip_15_1_eq,
          Gen.hip_16_1_eq, Gen.hip_17_1_eq, Gen.hip_18_1_eq, Gen.hip_19_1_eq, Gen.hip_20_1_eq]
  | hip2 =>
    simp only [HermiteFam.maxOrder] at hn
    simp only [HermiteFam.m] at hj
    interval_cases j <;> interval_cases n <;>
      simp only [HermiteFam.case, Gen.hip2, qcoef, Gen.hip2_0_0_eq, Gen.hip2_0_1_eq, Gen.hip2_0_2_eq, Gen.hip2_1_0_eq,
        Gen.hip2_1_1_eq, Gen.hip2_1_2_eq, Gen.hip2_2_0_eq, Gen.hip2_2_1_eq, Gen.hip2_2_2_eq, Gen.hip2_3_0_eq,
        Gen.hip2_3_1_eq, Gen.hip2_3_2_eq, Gen.hip2_4_0_eq, Gen.hip2_4_1_eq, Gen.hip2_4_2_eq, Gen.hip2_5_0_eq,
        Gen.hip2_5_1_eq, Gen.hip2_5_2_eq]
  | hip3 =>
    simp only [HermiteFam.maxOrder] at hn
    simp only [HermiteFam.m] at hj
    interval_cases j <;> interval_cases n <;>
      simp only [HermiteFam.case, Gen.hip3, qcoef, Gen.hip3_0_0_eq, Gen.hip3_0_1_eq, Gen.hip3_0_2_eq, Gen.hip3_0_3_eq,
        Gen.hip3_1_0_eq, Gen.hip3_1_1_eq, Gen.hip3_1_2_eq, Gen.hip3_1_3_eq, Gen.hip3_2_0_eq, Gen.hip3_2_1_eq,
        Gen.hip3_2_2_eq, Gen.hip3_2_3_eq, Gen.hip3_3_0_eq, Gen.hip3_3_1_eq, Gen.hip3_3_2_eq, Gen.hip3_3_3_eq,
        Gen.hip3_4_0_eq, Gen.hip3_4_1_eq, Gen.hip3_4_2_eq, Gen.hip3_4_3_eq, Gen.hip3_5_0_eq, Gen.hip3_5_1_eq,
        Gen.hip3_5_2_eq, Gen.hip3_5_3_eq]

theorem caseR0_eq (f : HermiteFam) (n j : Nat) (hn : n ≤ 2) (hj : j < f.m) (hj0 : j ≠ 0) (L : Nat → K)
    (x xi p1 p2 p3 : K) :
    f.caseR0 n j L x xi p1 p2 p3 = some (conv (powConv f L) (dv (qtil f j p1 p2 p3 xi) x) n) := by
  unfold qtil
  rw [dv_cubic]
  unfold powConv
  cases f with
  | hip =>
    simp only [HermiteFam.m] at hj
    interval_cases j <;> first | exact absurd rfl hj0 | skip
    interval_cases n <;> simp only [HermiteFam.caseR0, Gen.hipR0, qcoef, Gen.hipR0_0_1_eq, Gen.hipR0_1_1_eq, Gen.hipR0_2_1_eq]
  | hip2 =>
    simp only [HermiteFam.m] at hj
    interval_cases j <;> first | exact absurd rfl hj0 | skip
    all_goals
      interval_cases n <;> simp only [HermiteFam.caseR0, Gen.hip2R0, qcoef, Gen.hip2R0_0_1_eq, Gen.hip2R0_1_1_eq,
        Gen.hip2R0_2_1_eq, Gen.hip2R0_0_2_eq, Gen.hip2R0_1_2_eq, Gen.hip2R0_2_2_eq]
  | hip3 =>
    simp only [HermiteFam.m] at hj
    interval_cases j <;> first | exact absurd rfl hj0 | skip
    all_goals
      interval_cases n <;> simp only [HermiteFam.caseR0, Gen.hip3R0, qcoef, Gen.hip3R0_0_1_eq, Gen.hip3R0_1_1_eq,
        Gen.hip3R0_2_1_eq, Gen.hip3R0_0_2_eq, Gen.hip3R0_1_2_eq, Gen.hip3R0_2_2_eq,
        Gen.hip3R0_0_3_eq, Gen.hip3R0_1_3_eq, Gen.hip3R0_2_3_eq]

def xp1 (f : HermiteFam) (x : K) : Nat → K :=
  match f with
  | .hip => cubicD 0 1 0 0 (x + 1)
  | .hip2 => cubicD 0 0 1 0 (x + 1)
  | .hip3 => cubicD 0 0 0 1 (x + 1)

theorem dv_xp1 (f : HermiteFam) (x : K) :
    dv ((X + 1 : K[X]) ^ (f.m - 1)) x = xp1 f x := by
  unfold xp1
  have h (c0 c1 c2 c3 : K) := dv_cubic c0 c1 c2 c3 (-1) x
  simp only [sub_neg_eq_add] at h
  cases f
  · simp only [← h]; congr 1; simp [HermiteFam.m, cubic]
  · simp only [← h]; congr 1; simp [HermiteFam.m, cubic]
  · simp only [← h]; congr 1; simp [HermiteFam.m, cubic]

theorem caseR1_eq (f : HermiteFam) (n j : Nat) (hn : n ≤ 2) (hj : j < f.m) (L : Nat → K)
    (x xi p1 p2 p3 : K) :
    f.caseR1 n j L x xi p1 p2 p3 = some (conv (conv (dv ((X + 1 : K[X]) ^ (f.m - 1)) x) (powConv f L)) (dv (qpoly f j p1 p2 p3 xi) x) n / (xi + 1) ^ f.m) := by
  unfold qpoly
  rw [dv_cubic, dv_xp1]
  unfold powConv xp1
  cases f with
  | hip =>
    simp only [HermiteFam.m] at hj
    interval_cases j <;>
    interval_cases n <;> simp only [HermiteFam.caseR1, HermiteFam.m, Gen.hipR1, qcoef, Gen.hipR1_0_1_eq, Gen.hipR1_1_1_eq, Gen.hipR1_2_1_eq,
      Gen.hipR1_0_0_eq, Gen.hipR1_1_0_eq, Gen.hipR1_2_0_eq]
  | hip2 =>
    simp only [HermiteFam.m] at hj
    interval_cases j <;>
      interval_cases n <;> simp only [HermiteFam.caseR1, HermiteFam.m, Gen.hip2R1, qcoef, Gen.hip2R1_0_1_eq, Gen.hip2R1_1_1_eq,
        Gen.hip2R1_2_1_eq, Gen.hip2R1_0_2_eq, Gen.hip2R1_1_2_eq, Gen.hip2R1_2_2_eq, Gen.hip2R1_0_0_eq, Gen.hip2R1_1_0_eq, Gen.hip2R1_2_0_eq]
  | hip3 =>
    simp only [HermiteFam.m] at hj
    interval_cases j <;>
      interval_cases n <;> simp only [HermiteFam.caseR1, HermiteFam.m, Gen.hip3R1, qcoef, Gen.hip3R1_0_1_eq, Gen.hip3R1_1_1_eq,
        Gen.hip3R1_2_1_eq, Gen.hip3R1_0_2_eq, Gen.hip3R1_1_2_eq, Gen.hip3R1_2_2_eq,
        Gen.hip3R1_0_3_eq, Gen.hip3R1_1_3_eq, Gen.hip3R1_2_3_eq, Gen.hip3R1_0_0_eq, Gen.hip3R1_1_0_eq, Gen.hip3R1_2_0_eq]

end char0

/-- the Hermite shape polynomial the evaluators implement (reference coordinate, without the length factor) -/
noncomputable def shape (f : HermiteFam) (N : Nat) (x0 : Nat → K) (i j : Nat) : K[X] :=
  let L := Lagrange.basis (range N) x0 i
  L ^ f.m * qpoly f j (dv L (x0 i) 1) (dv L (x0 i) 2) (dv L (x0 i) 3) (x0 i)

theorem divmod (m i j : Nat) (hj : j < m) : (m * i + j) / m = i ∧ (m * i + j) % m = j := by
  constructor
  · rw [Nat.mul_add_div (by omega), Nat.div_eq_of_lt hj, add_zero]
  · rw [Nat.mul_add_mod, Nat.mod_eq_of_lt hj]

theorem lipxi_eq (N : Nat) (x0 : Nat → K) (k i : Nat) (hk : k ≤ 20) :
    lipxi N x0 k i = dv (Lagrange.basis (range N) x0 i) (x0 i) k := lipVal_eq N x0 (x0 i) k i hk

theorem maxOrder_le (f : HermiteFam) : f.maxOrder ≤ 20 := by cases f <;> decide

theorem hermitePrimDnf_eq [CharZero K] (f : HermiteFam) (N : Nat) (x0 : Nat → K) (x len : K) (n i j : Nat) (hn : n ≤ f.maxOrder)
    (hj : j < f.m) :
    hermitePrimDnf f N x0 x len n (f.m * i + j) = .ok (dv (shape f N x0 i j) x n * len ^ j) := by
  unfold hermitePrimDnf
  rw [if_neg (by omega)]
  obtain ⟨h1, h2⟩ := divmod f.m i j hj
  simp only [h1, h2, Int.toNat_natCast, lipxi_eq N x0 _ i (show 1 ≤ 20 by omega), lipxi_eq N x0 _ i (show 2 ≤ 20 by omega),
    lipxi_eq N x0 _ i (show 3 ≤ 20 by omega)]
  rw [case_eq f n j hn hj]
  simp only
  congr 2
  unfold shape
  simp only
  rw [dv_mul, dv_pow]
  apply conv_congr (n := n) _ (fun _ _ => rfl) n (le_refl _)
  apply pow_congr f
  intro k hk
  have := maxOrder_le f
  exact lipVal_eq N x0 x k i (by omega)

end Poly
end HelFEM
