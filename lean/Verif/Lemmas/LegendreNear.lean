import Verif.Lemmas.AssocLegendre
import Mathlib.Analysis.SpecialFunctions.Trigonometric.DerivHyp
import Mathlib.Topology.Algebra.Polynomial
import Mathlib.Topology.Order.Compact

/-!
# Associated Legendre functions off the cut, near the singular point
-/

namespace HelFEM
namespace ALeg
open Polynomial

theorem offSing_of_one_lt {x : ℝ} (h : 1 < x) : x ∈ offSing := by
  constructor <;> intro h' <;> linarith

/-- `|Q_l^{(k)}(x)| ≤ C / (x-1)^{k+1}` on `(1, X]` -/
def NearBound (X : ℝ) (f : ℝ → ℝ) (k : Nat) : Prop := ∃ C : ℝ, 0 ≤ C ∧ ∀ x, 1 < x → x ≤ X → |f x| ≤ C / (x - 1) ^ (k + 1)

theorem NearBound.congr {X : ℝ} {f g : ℝ → ℝ} {k : Nat} (h : NearBound X f k) (e : ∀ x, 1 < x → g x = f x) : NearBound X g k := by
  obtain ⟨C, h0, h1⟩ := h
  exact ⟨C, h0, fun x hx hX => by rw [e x hx]; exact h1 x hx hX⟩

theorem NearBound.smul {X : ℝ} {f : ℝ → ℝ} {k : Nat} (h : NearBound X f k) (c : ℝ) : NearBound X (fun x => c * f x) k := by
  obtain ⟨C, h0, h1⟩ := h
  refine ⟨|c| * C, mul_nonneg (abs_nonneg _) h0, fun x hx hX => ?_⟩
  rw [abs_mul, mul_div_assoc]
  exact mul_le_mul_of_nonneg_left (h1 x hx hX) (abs_nonneg _)

theorem NearBound.add {X : ℝ} {f g : ℝ → ℝ} {k : Nat} (h : NearBound X f k) (h' : NearBound X g k) : NearBound X (fun x => f x + g x) k := by
  obtain ⟨C, h0, h1⟩ := h
  obtain ⟨D, d0, d1⟩ := h'
  refine ⟨C + D, add_nonneg h0 d0, fun x hx hX => ?_⟩
  rw [add_div]
  exact le_trans (abs_add_le _ _) (add_le_add (h1 x hx hX) (d1 x hx hX))

theorem NearBound.mulx {X : ℝ} {f : ℝ → ℝ} {k : Nat} (h : NearBound X f k) : NearBound X (fun x => x * f x) k := by
  obtain ⟨C, h0, h1⟩ := h
  refine ⟨|X| * C, mul_nonneg (abs_nonneg _) h0, fun x hx hX => ?_⟩
  rw [abs_mul, mul_div_assoc]
  refine mul_le_mul ?_ (h1 x hx hX) (abs_nonneg _) (abs_nonneg _)
  rw [abs_of_pos (by linarith), abs_of_pos (by linarith)]
  exact hX

theorem NearBound.succ {X : ℝ} {f : ℝ → ℝ} {k : Nat} (h : NearBound X f k) : NearBound X f (k + 1) := by
  obtain ⟨C, h0, h1⟩ := h
  refine ⟨|X| * C, mul_nonneg (abs_nonneg _) h0, fun x hx hX => ?_⟩
  have hu : 0 < x - 1 := by linarith
  refine le_trans (h1 x hx hX) ?_
  rw [div_le_div_iff₀ (pow_pos hu _) (pow_pos hu _), pow_succ (x - 1) (k + 1), abs_of_pos (by linarith : 0 < X)]
  have : 0 ≤ C * (x - 1) ^ (k + 1) := mul_nonneg h0 (pow_pos hu _).le
  nlinarith [mul_le_mul_of_nonneg_left (by linarith : x - 1 ≤ X) this]

theorem NearBound.divSing {X : ℝ} {f : ℝ → ℝ} {k : Nat} (h : NearBound X f k) : NearBound X (fun x => f x / (1 - x ^ 2)) (k + 1) := by
  obtain ⟨C, h0, h1⟩ := h
  refine ⟨C, h0, fun x hx hX => ?_⟩
  have hu : 0 < x - 1 := by linarith
  have e : |1 - x ^ 2| = (x - 1) * (x + 1) := by
    rw [abs_of_neg (by nlinarith)]; ring
  rw [abs_div, e, div_le_div_iff₀ (by positivity) (by positivity), pow_succ]
  have h2 := h1 x hx hX
  rw [le_div_iff₀ (pow_pos hu _)] at h2
  have : |f x| * (x - 1) ^ (k + 1) * (x - 1) ≤ C * (x - 1) := mul_le_mul_of_nonneg_right h2 hu.le
  have h3 : 0 ≤ C * (x - 1) := mul_nonneg h0 hu.le
  nlinarith

theorem NearBound.one {X : ℝ} : NearBound X (fun _ => 1) 0 := by
  refine ⟨|X|, abs_nonneg _, fun x hx hX => ?_⟩
  rw [abs_one, zero_add, pow_one, le_div_iff₀ (by linarith), abs_of_pos (by linarith)]
  linarith

theorem near_log {X : ℝ} : NearBound X (legQ 0) 0 := by
  refine ⟨1 / 2 * |X + 1|, by positivity, fun x hx hX => ?_⟩
  have hu : 0 < x - 1 := by linarith
  have hy : 1 ≤ (x + 1) / (x - 1) := by rw [le_div_iff₀ hu]; linarith
  show abs (1 / 2 * Real.log (abs ((x + 1) / (x - 1)))) ≤ _
  rw [abs_of_pos (by linarith : 0 < (x + 1) / (x - 1)), abs_of_nonneg (mul_nonneg (by norm_num) (Real.log_nonneg hy)), zero_add, pow_one, mul_div_assoc,
    abs_of_pos (by linarith : 0 < X + 1)]
  refine mul_le_mul_of_nonneg_left ?_ (by norm_num)
  refine le_trans (Real.log_le_self (by linarith)) ?_
  exact div_le_div_of_nonneg_right (by linarith) hu.le

theorem near_zeroK {X : ℝ} (k : Nat) : NearBound X (iteratedDeriv k (legQ 0)) k := by
  have key : ∀ k : Nat, NearBound X (iteratedDeriv k (legQ 0)) k ∧ NearBound X (iteratedDeriv (k + 1) (legQ 0)) (k + 1) := by
    intro k
    induction k with
    | zero =>
      refine ⟨near_log.congr fun x _ => by rw [iteratedDeriv_zero], ?_⟩
      refine NearBound.one.divSing.congr fun x hx => ?_
      rw [iteratedDeriv_one, eq_div_iff (by nlinarith), mul_comm]
      exact legQ_zero_deriv x (offSing_of_one_lt hx)
    | succ k ih =>
      refine ⟨ih.2, ?_⟩
      refine (((ih.2.mulx).smul (2 * ((k : ℝ) + 1))).add (ih.1.succ.smul (((k : ℝ) + 1) * k))).divSing.congr fun x hx => ?_
      rw [eq_div_iff (by nlinarith), mul_comm]
      have := jetQ.zeroM k x (offSing_of_one_lt hx)
      rw [this]; ring
  exact (key k).1

theorem near_lZero {X : ℝ} (l : Nat) : NearBound X (legQ l) 0 := by
  have key : ∀ l : Nat, NearBound X (legQ l) 0 ∧ NearBound X (legQ (l + 1)) 0 := by
    intro l
    induction l with
    | zero =>
      refine ⟨near_log, ?_⟩
      refine (near_log.mulx.add (NearBound.one.smul (-1))).congr fun x _ => ?_
      show x * (1 / 2 * Real.log |(x + 1) / (x - 1)|) - 1 = x * (1 / 2 * Real.log |(x + 1) / (x - 1)|) + -1 * 1
      ring
    | succ l ih =>
      refine ⟨ih.2, ?_⟩
      refine ((ih.2.mulx.smul ((2 * (l : ℝ) + 3) / (l + 2))).add (ih.1.smul (-((l : ℝ) + 1) / (l + 2)))).congr fun x _ => ?_
      have h := legQ_bonnet l x
      have hl : ((l : ℝ) + 2) ≠ 0 := by positivity
      field_simp
      linarith
  exact (key l).1

theorem near_all {X : ℝ} (l : Nat) : ∀ k : Nat, NearBound X (iteratedDeriv k (legQ l)) k := by
  induction l with
  | zero => exact near_zeroK
  | succ l ih =>
    intro k
    cases k with
    | zero => exact (near_lZero (l + 1)).congr fun x _ => by rw [iteratedDeriv_zero]
    | succ k =>
      refine ((ih (k + 1)).mulx.add ((ih k).succ.smul ((l : ℝ) + 1 + k))).congr fun x hx => ?_
      exact jetQ.Ak l k x (offSing_of_one_lt hx)

/-! ### with `x = cosh μ` -/

theorem prefactor_cosh (m : Nat) {t : ℝ} (ht : 0 < t) : prefactor m (Real.cosh t) = Real.sinh t ^ m := by
  have h1 : 1 < Real.cosh t := Real.one_lt_cosh.2 ht.ne'
  unfold prefactor
  rw [if_neg (by rw [abs_of_pos (by linarith)]; linarith), ← Real.sinh_sq, Real.sqrt_sq (Real.sinh_nonneg_iff.2 ht.le)]

theorem assocP_cosh (l m : Nat) {t : ℝ} (ht : 0 ≤ t) : assocP l m (Real.cosh t) = Real.sinh t ^ m * (derivative^[m] (Poly.pP l)).eval (Real.cosh t) := by
  rcases ht.eq_or_lt with h | h
  · subst h
    unfold assocP prefactor
    cases m with
    | zero => simp
    | succ m => simp
  · unfold assocP
    rw [prefactor_cosh m h]

theorem assocP_cosh_continuous (l m : Nat) : ContinuousOn (fun t => assocP l m (Real.cosh t)) (Set.Ici 0) := by
  have : ContinuousOn (fun t => Real.sinh t ^ m * (derivative^[m] (Poly.pP l)).eval (Real.cosh t)) (Set.Ici 0) := by
    refine ((Real.continuous_sinh.pow m).mul ?_).continuousOn
    exact (Polynomial.continuous _).comp Real.continuous_cosh
  exact this.congr fun t ht => assocP_cosh l m ht

theorem assocP_cosh_bound (l m : Nat) (b : ℝ) : ∃ C : ℝ, 0 ≤ C ∧ ∀ t ∈ Set.Icc (0 : ℝ) b, |assocP l m (Real.cosh t)| ≤ C * Real.sinh t ^ m := by
  have hc : Continuous fun t => (derivative^[m] (Poly.pP l)).eval (Real.cosh t) := (Polynomial.continuous _).comp Real.continuous_cosh
  obtain ⟨C, hC⟩ := (isCompact_Icc (a := (0 : ℝ)) (b := b)).exists_bound_of_continuousOn hc.continuousOn
  refine ⟨|C|, abs_nonneg _, fun t ht => ?_⟩
  rw [assocP_cosh l m ht.1, abs_mul, abs_of_nonneg (pow_nonneg (Real.sinh_nonneg_iff.2 ht.1) m), mul_comm]
  exact mul_le_mul_of_nonneg_right (le_trans (hC t ht) (le_abs_self C)) (pow_nonneg (Real.sinh_nonneg_iff.2 ht.1) m)

theorem assocQ_cosh_continuous (l m : Nat) : ContinuousOn (fun t => assocQ l m (Real.cosh t)) (Set.Ioi 0) := by
  have : ContinuousOn (fun t => Real.sinh t ^ m * iteratedDeriv m (legQ l) (Real.cosh t)) (Set.Ioi 0) := by
    refine (Real.continuous_sinh.pow m).continuousOn.mul ?_
    intro t ht
    have h1 : 1 < Real.cosh t := Real.one_lt_cosh.2 (ne_of_gt ht)
    have h2 := (smooth_iter (smooth_legQ l _ (offSing_of_one_lt h1)) m).continuousAt
    exact (ContinuousAt.comp (f := Real.cosh) h2 Real.continuous_cosh.continuousAt).continuousWithinAt
  refine this.congr fun t ht => ?_
  simp only [assocQ, prefactor_cosh m ht]

theorem assocQ_cosh_bound (l m : Nat) (b : ℝ) : ∃ C : ℝ, 0 ≤ C ∧ ∀ t ∈ Set.Ioc (0 : ℝ) b, |assocQ l m (Real.cosh t)| * Real.sinh t ^ (m + 2) ≤ C := by
  obtain ⟨C, h0, hC⟩ := near_all (X := Real.cosh b) l m
  refine ⟨C * (Real.cosh b + 1) ^ (m + 1), by have := Real.cosh_pos b; positivity, fun t ht => ?_⟩
  have h1 : 1 < Real.cosh t := Real.one_lt_cosh.2 (ne_of_gt ht.1)
  have hs : 0 < Real.sinh t := Real.sinh_pos_iff.2 ht.1
  have hcb : Real.cosh t ≤ Real.cosh b := Real.cosh_le_cosh.2 (by rw [abs_of_pos ht.1, abs_of_pos (lt_of_lt_of_le ht.1 ht.2)]; exact ht.2)
  have h2 := hC _ h1 hcb
  rw [le_div_iff₀ (pow_pos (by linarith) _)] at h2
  unfold assocQ
  rw [prefactor_cosh m ht.1, abs_mul, abs_of_pos (pow_pos hs m)]
  have e : Real.sinh t ^ m * Real.sinh t ^ (m + 2) = (Real.cosh t - 1) ^ (m + 1) * (Real.cosh t + 1) ^ (m + 1) := by
    rw [← mul_pow, ← pow_add, show m + (m + 2) = 2 * (m + 1) by ring, pow_mul, Real.sinh_sq]
    congr 1; ring
  calc _ = |iteratedDeriv m (legQ l) (Real.cosh t)| * (Real.sinh t ^ m * Real.sinh t ^ (m + 2)) := by ring
    _ = |iteratedDeriv m (legQ l) (Real.cosh t)| * (Real.cosh t - 1) ^ (m + 1) * (Real.cosh t + 1) ^ (m + 1) := by rw [e]; ring
    _ ≤ C * (Real.cosh b + 1) ^ (m + 1) := mul_le_mul h2 (pow_le_pow_left₀ (by linarith) (by linarith) _) (pow_nonneg (by linarith) _) h0

end ALeg
end HelFEM
