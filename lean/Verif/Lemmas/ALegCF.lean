import Verif.Lemmas.ALegTable
import Mathlib.Analysis.SpecialFunctions.Integrals.Basic
import Mathlib.Topology.Algebra.Order.Field

/-!
# The continued fraction for ratios of Legendre functions of the second kind
-/

namespace HelFEM
namespace ALeg
open Polynomial Filter Topology

/-! ## Neumann's formula, and decay in the degree -/

theorem neumann_intble (x : ℝ) (hx : 1 < x) (p : ℝ[X]) : IntervalIntegrable (fun t => p.eval t / (x - t)) MeasureTheory.volume (-1) 1 := by
  apply ContinuousOn.intervalIntegrable
  apply ContinuousOn.div p.continuous.continuousOn (by fun_prop)
  intro t ht
  rw [Set.uIcc_of_le (by norm_num)] at ht
  have := ht.2
  intro h; linarith

theorem neumann_zero (x : ℝ) (hx : 1 < x) : ∫ t in (-1 : ℝ)..1, 1 / (x - t) = 2 * legQ 0 x := by
  have h : ∀ t ∈ Set.uIcc (-1 : ℝ) 1, HasDerivAt (fun t => -Real.log (x - t)) (1 / (x - t)) t := by
    intro t ht
    rw [Set.uIcc_of_le (by norm_num)] at ht
    have h0 : x - t ≠ 0 := by have := ht.2; intro h; linarith
    have := (((hasDerivAt_id t).const_sub x).log h0).neg
    refine this.congr_deriv ?_
    simp [neg_div]
  rw [intervalIntegral.integral_eq_sub_of_hasDerivAt h (by simpa using neumann_intble x hx 1),
    legQ_zero_eq x ⟨by linarith, by linarith⟩]
  rw [sub_neg_eq_add x 1]; ring

theorem neumann (x : ℝ) (hx : 1 < x) : ∀ n, 2 * legQ n x = ∫ t in (-1 : ℝ)..1, (Poly.pP n).eval t / (x - t)
  | 0 => by rw [← neumann_zero x hx]; simp [Poly.pP]
  | 1 => by
    have e : ∀ t ∈ Set.uIcc (-1 : ℝ) 1, (Poly.pP 1).eval t / (x - t) = x * (1 / (x - t)) - 1 := by
      intro t ht
      rw [Set.uIcc_of_le (by norm_num)] at ht
      have h0 : x - t ≠ 0 := by have := ht.2; intro h; linarith
      simp only [Poly.pP, eval_X]; field_simp; ring
    rw [intervalIntegral.integral_congr e, intervalIntegral.integral_sub ((by simpa using neumann_intble x hx 1 : IntervalIntegrable (fun t => 1 / (x - t)) _ _ _).const_mul x)
      intervalIntegrable_const, intervalIntegral.integral_const_mul, neumann_zero x hx, legQ_one_eq]
    simp; ring
  | n + 2 => by
    have h0 := neumann x hx n
    have h1 := neumann x hx (n + 1)
    have hb := legQ_bonnet n x
    have hn : (n : ℝ) + 2 ≠ 0 := by positivity
    apply mul_left_cancel₀ hn
    have hz : ∫ t in (-1 : ℝ)..1, (Poly.pP (n + 1)).eval t = 0 := by
      have := Poly.pP_orth (n + 1) 0 (by omega)
      simpa [Poly.refInt, Poly.pP] using this
    have e : ∀ t ∈ Set.uIcc (-1 : ℝ) 1, ((n : ℝ) + 2) * ((Poly.pP (n + 2)).eval t / (x - t)) =
        ((2 * n + 3) * x * ((Poly.pP (n + 1)).eval t / (x - t)) - (n + 1) * ((Poly.pP n).eval t / (x - t))) -
          (2 * n + 3) * (Poly.pP (n + 1)).eval t := by
      intro t ht
      rw [Set.uIcc_of_le (by norm_num)] at ht
      have h0 : x - t ≠ 0 := by have := ht.2; intro h; linarith
      have := congrArg (eval t) (Poly.pP_rec n)
      simp only [eval_mul, eval_C, eval_sub, eval_X] at this
      field_simp
      linear_combination this
    rw [← intervalIntegral.integral_const_mul, intervalIntegral.integral_congr e, intervalIntegral.integral_sub
      (((neumann_intble x hx _).const_mul _).sub ((neumann_intble x hx _).const_mul _)) ((Poly.intble _).const_mul _),
      intervalIntegral.integral_sub ((neumann_intble x hx _).const_mul _) ((neumann_intble x hx _).const_mul _),
      intervalIntegral.integral_const_mul, intervalIntegral.integral_const_mul, intervalIntegral.integral_const_mul, hz, ← h0, ← h1]
    linear_combination 2 * hb

/-- `|Q_n(x)|` decays -/
theorem legQ_bound (x : ℝ) (hx : 1 < x) : ∃ G : ℝ, 0 ≤ G ∧ ∀ n : Nat, |legQ n x| ≤ G / Real.sqrt (2 * n + 1) := by
  obtain ⟨G, hG⟩ : ∃ G : ℝ, G = ∫ t in (-1 : ℝ)..1, 1 / (x - t) ^ 2 := ⟨_, rfl⟩
  have hc : ContinuousOn (fun t : ℝ => 1 / (x - t) ^ 2) (Set.uIcc (-1 : ℝ) 1) := by
    apply ContinuousOn.div continuousOn_const (by fun_prop)
    intro t ht
    rw [Set.uIcc_of_le (by norm_num)] at ht
    have := ht.2
    exact pow_ne_zero 2 (by intro h; linarith)
  have hG0 : 0 ≤ G := by
    rw [hG]
    apply intervalIntegral.integral_nonneg (by norm_num)
    intro t _; positivity
  refine ⟨(2 + G) / 4, by positivity, fun n => ?_⟩
  obtain ⟨r, hr⟩ : ∃ r : ℝ, r = Real.sqrt (2 * n + 1) := ⟨_, rfl⟩
  have hr0 : 0 < r := by rw [hr]; apply Real.sqrt_pos.2; positivity
  have hr2 : r * r = 2 * n + 1 := by rw [hr]; exact Real.mul_self_sqrt (by positivity)
  rw [← hr]
  have hN := neumann x hx n
  have key : ∀ sg : ℝ, sg * sg = 1 → sg * (2 * legQ n x) ≤ (2 + G) / (2 * r) := by
    intro sg hsg
    have e1 : ∫ t in (-1 : ℝ)..1, (r / 2 * ((Poly.pP n).eval t * (Poly.pP n).eval t) + 1 / (2 * r) * (1 / (x - t) ^ 2)) = (2 + G) / (2 * r) := by
      rw [intervalIntegral.integral_add ((by simpa using Poly.intble (Poly.pP n * Poly.pP n) : IntervalIntegrable (fun t => (Poly.pP n).eval t * (Poly.pP n).eval t) _ _ _).const_mul _)
        (hc.intervalIntegrable.const_mul _), intervalIntegral.integral_const_mul, intervalIntegral.integral_const_mul, ← hG]
      have := Poly.pP_norm n
      simp only [Poly.refInt, eval_mul] at this
      rw [this, ← hr2]; field_simp
    rw [hN, ← intervalIntegral.integral_const_mul, ← e1]
    apply intervalIntegral.integral_mono_on (by norm_num) ((neumann_intble x hx _).const_mul _)
      (((by simpa using Poly.intble (Poly.pP n * Poly.pP n) : IntervalIntegrable (fun t => (Poly.pP n).eval t * (Poly.pP n).eval t) _ _ _).const_mul _).add
        (hc.intervalIntegrable.const_mul _))
    intro t ht
    have h0 : x - t ≠ 0 := by have := ht.2; intro h; linarith
    obtain ⟨p, hp⟩ : ∃ p, p = (Poly.pP n).eval t := ⟨_, rfl⟩
    obtain ⟨q, hq⟩ : ∃ q, q = 1 / (x - t) := ⟨_, rfl⟩
    have e3 : 1 / (x - t) ^ 2 = q * q := by rw [hq]; field_simp
    rw [e3, ← hp, div_eq_mul_one_div p, ← hq]
    have : r / 2 * (p * p) + 1 / (2 * r) * (q * q) - sg * (p * q) = 1 / (2 * r) * ((r * p - sg * q) * (r * p - sg * q)) := by
      field_simp
      linear_combination (q * q) * (-hsg)
    have h4 : 0 ≤ 1 / (2 * r) * ((r * p - sg * q) * (r * p - sg * q)) := mul_nonneg (by positivity) (mul_self_nonneg _)
    linarith
  have k1 := key 1 (by norm_num)
  have k2 := key (-1) (by norm_num)
  rw [abs_le]
  have e : (2 + G) / (2 * r) = 2 * ((2 + G) / 4 / r) := by field_simp; ring
  rw [e] at k1 k2
  constructor <;> linarith

theorem legQ_tendsto (x : ℝ) (hx : 1 < x) : Tendsto (fun n => legQ n x) atTop (𝓝 0) := by
  obtain ⟨G, hG, hb⟩ := legQ_bound x hx
  have h1 : Tendsto (fun n : Nat => Real.sqrt (2 * n + 1)) atTop atTop := by
    refine Real.tendsto_sqrt_atTop.comp ?_
    have : Tendsto (fun n : Nat => (n : ℝ)) atTop atTop := tendsto_natCast_atTop_atTop
    exact tendsto_atTop_mono (fun n => by have : (0 : ℝ) ≤ n := Nat.cast_nonneg n; linarith) this
  have h2 : Tendsto (fun n : Nat => G / Real.sqrt (2 * n + 1)) atTop (𝓝 0) := h1.const_div_atTop G
  exact squeeze_zero_norm (fun n => by simpa using hb n) h2

theorem pP_mono (x : ℝ) (hx : 1 ≤ x) : ∀ n, 1 ≤ (Poly.pP n).eval x ∧ (Poly.pP n).eval x ≤ (Poly.pP (n + 1)).eval x
  | 0 => by simp [Poly.pP, hx]
  | n + 1 => by
    obtain ⟨h1, h2⟩ := pP_mono x hx n
    have := congrArg (eval x) (Poly.pP_rec n)
    simp only [eval_mul, eval_C, eval_sub, eval_X] at this
    refine ⟨h1.trans h2, ?_⟩
    have hn : (0 : ℝ) < n + 2 := by positivity
    have hn0 : (0 : ℝ) ≤ n := Nat.cast_nonneg n
    by_contra hc
    push Not at hc
    have h3 : ((n : ℝ) + 2) * (Poly.pP (n + 1 + 1)).eval x < (n + 2) * (Poly.pP (n + 1)).eval x := by
      exact mul_lt_mul_of_pos_left hc hn
    rw [show n + 1 + 1 = n + 2 from rfl, this] at h3
    have h4 : (Poly.pP (n + 1)).eval x ≤ x * (Poly.pP (n + 1)).eval x := by nlinarith
    nlinarith

/-- `p l` is the first-kind function of the column, `Q_l^m / P_l^m` decays -/
theorem ratio_tendsto (x : ℝ) (hx : 1 < x) (m : Nat) (hm : m ≤ 1) :
    (∀ n, m ≤ n → 0 < assocP n m x) ∧ Tendsto (fun n => assocQ n m x / assocP n m x) atTop (𝓝 0) := by
  have habs : ¬|x| ≤ 1 := by rw [abs_of_pos (by linarith)]; linarith
  have h1x : |x| ≠ 1 := fun e => habs e.le
  have hs : signFactor x = -1 := by unfold signFactor; rw [if_neg habs]
  have hw : 0 < ww x := lt_of_le_of_ne (ww_nonneg x) (Ne.symm (ww_ne x h1x))
  rcases (by omega : m = 0 ∨ m = 1) with rfl | rfl
  · have e : ∀ n, assocP n 0 x = (Poly.pP n).eval x := fun n => by simp [assocP, prefactor]
    refine ⟨fun n _ => by rw [e]; linarith [(pP_mono x hx.le n).1], ?_⟩
    simp only [e, assocQ_zero]
    refine squeeze_zero_norm (fun n => ?_) (tendsto_zero_iff_norm_tendsto_zero.1 (legQ_tendsto x hx))
    rw [norm_div]
    apply div_le_self (norm_nonneg _)
    have := (pP_mono x hx.le n).1
    rw [Real.norm_eq_abs, abs_of_pos (by linarith)]; exact this
  · have e : ∀ n, assocP n 1 x = ww x * (derivative (Poly.pP n)).eval x := fun n => by simp [assocP, prefactor_eq, hs]
    have hd : ∀ n, 0 ≤ (derivative (Poly.pP n)).eval x := by
      intro n
      induction n with
      | zero => simp [Poly.pP]
      | succ n ih =>
        have := congrArg (eval x) (Poly.pP_AB n).1
        simp only [eval_add, eval_mul, eval_X, eval_C] at this
        rw [this]
        have := (pP_mono x hx.le n).1
        have h0 : (0 : ℝ) ≤ n := Nat.cast_nonneg n
        have : 0 ≤ ((n : ℝ) + 1) * (Poly.pP n).eval x := by positivity
        nlinarith
    have hd1 : ∀ n : Nat, (n : ℝ) + 1 ≤ (derivative (Poly.pP (n + 1))).eval x := by
      intro n
      have := congrArg (eval x) (Poly.pP_AB n).1
      simp only [eval_add, eval_mul, eval_X, eval_C] at this
      rw [this]
      have h1 := (pP_mono x hx.le n).1
      have h0 : (0 : ℝ) ≤ n := Nat.cast_nonneg n
      have := hd n
      nlinarith [mul_nonneg (by linarith : (0 : ℝ) ≤ x) this]
    refine ⟨fun n hn => ?_, ?_⟩
    · obtain ⟨k, rfl⟩ : ∃ k, n = k + 1 := ⟨n - 1, by omega⟩
      rw [e]
      have := hd1 k
      have h0 : (0 : ℝ) ≤ k := Nat.cast_nonneg k
      exact mul_pos hw (by linarith)
    · rw [← tendsto_add_atTop_iff_nat 1]
      have ht : Tendsto (fun n => (|legQ n x| + x * |legQ (n + 1) x|) / (x ^ 2 - 1)) atTop (𝓝 0) := by
        have a := (tendsto_zero_iff_norm_tendsto_zero.1 (legQ_tendsto x hx))
        have b := (tendsto_add_atTop_iff_nat 1).2 a
        have := ((a.add (b.const_mul x)).div_const (x ^ 2 - 1))
        simpa using this
      refine squeeze_zero_norm (fun n => ?_) ht
      rw [assocQ_one, e, hs]
      obtain ⟨A, B⟩ := legQ_AB n x ((abs_ne_one_iff x).1 h1x)
      have hx2 : 0 < x ^ 2 - 1 := by nlinarith
      have hq : (x ^ 2 - 1) * deriv (legQ (n + 1)) x = (n + 1) * (x * legQ (n + 1) x - legQ n x) := by
        linear_combination x * B - A
      have hD := hd1 n
      have hn0 : (0 : ℝ) < n + 1 := by positivity
      obtain ⟨D, hDd⟩ : ∃ D, D = (derivative (Poly.pP (n + 1))).eval x := ⟨_, rfl⟩
      rw [← hDd] at hD ⊢
      have hDp : 0 < D := by linarith
      have e2 : -(-1) * ww x * deriv (legQ (n + 1)) x / (ww x * D) = ((n + 1) / D) * ((x * legQ (n + 1) x - legQ n x) / (x ^ 2 - 1)) := by
        field_simp
        linear_combination hq
      rw [e2, norm_mul, Real.norm_eq_abs, Real.norm_eq_abs, abs_of_pos (div_pos hn0 hDp), abs_div, abs_of_pos hx2]
      have h1 : ((n : ℝ) + 1) / D ≤ 1 := (div_le_one hDp).2 hD
      have h2 : |x * legQ (n + 1) x - legQ n x| ≤ |legQ n x| + x * |legQ (n + 1) x| := by
        refine (abs_sub _ _).trans ?_
        rw [abs_mul, abs_of_pos (by linarith : (0 : ℝ) < x)]; linarith
      calc ((n : ℝ) + 1) / D * (|x * legQ (n + 1) x - legQ n x| / (x ^ 2 - 1)) ≤ 1 * (|x * legQ (n + 1) x - legQ n x| / (x ^ 2 - 1)) :=
            mul_le_mul_of_nonneg_right h1 (by positivity)
        _ ≤ _ := by rw [one_mul]; exact div_le_div_of_nonneg_right h2 hx2.le

/-! ## Convergents -/

/-- solution of the recurrence in the degree from the values at `L - 1` and `L` -/
noncomputable def sol (x : ℝ) (L m : Nat) (a b : ℝ) : Nat → ℝ
  | 0 => a
  | 1 => b
  | k + 2 => ((2 * ((L : ℝ) + k) + 1) * x * sol x L m a b (k + 1) - (L + k + m) * sol x L m a b k) / (L + k - m + 1)

/-- denominators -/
noncomputable def U (x : ℝ) (L m : Nat) : Nat → ℝ := sol x L m 0 1
/-- numerators -/
noncomputable def V (x : ℝ) (L m : Nat) : Nat → ℝ := sol x L m (-1) 0

section
variable (x : ℝ) (L m : Nat) (hx : 1 < x) (hm : m ≤ 1) (hL : 1 ≤ L)
include hm hL

theorem den_pos (k : Nat) : (0 : ℝ) < L + k - m + 1 := by
  have h1 : (m : ℝ) ≤ 1 := by exact_mod_cast hm
  have h2 : (1 : ℝ) ≤ L := by exact_mod_cast hL
  have h3 : (0 : ℝ) ≤ k := Nat.cast_nonneg k
  linarith

theorem sol_rec (a b : ℝ) (k : Nat) : ((L : ℝ) + k - m + 1) * sol x L m a b (k + 2) =
    (2 * ((L : ℝ) + k) + 1) * x * sol x L m a b (k + 1) - (L + k + m) * sol x L m a b k := by
  have := (den_pos L m hm hL k).ne'
  rw [sol]; field_simp

/-- a family obeying the recurrence is the solution from its first two values -/
theorem sol_eq (z : Nat → ℝ) (hz : ∀ k : Nat, ((L : ℝ) + k - m + 1) * z (k + 2) = (2 * ((L : ℝ) + k) + 1) * x * z (k + 1) - (L + k + m) * z k) :
    ∀ k, z k = z 1 * U x L m k - z 0 * V x L m k
  | 0 => by simp [U, V, sol]
  | 1 => by simp [U, V, sol]
  | k + 2 => by
    have h0 := sol_eq z hz k
    have h1 := sol_eq z hz (k + 1)
    apply mul_left_cancel₀ (den_pos L m hm hL k).ne'
    rw [hz k]
    have u := sol_rec x L m hm hL 0 1 k
    have v := sol_rec x L m hm hL (-1) 0 k
    rw [show sol x L m 0 1 = U x L m from rfl] at u
    rw [show sol x L m (-1) 0 = V x L m from rfl] at v
    linear_combination (2 * ((L : ℝ) + k) + 1) * x * h1 - (L + k + m) * h0 - z 1 * u + z 0 * v

include hx

theorem sol_mono (a b : ℝ) (h0 : a ≤ b) (hb : 0 ≤ b) : ∀ k, sol x L m a b k ≤ sol x L m a b (k + 1) ∧ 0 ≤ sol x L m a b (k + 1)
  | 0 => by simp [sol, h0, hb]
  | k + 1 => by
    obtain ⟨h1, h2⟩ := sol_mono a b h0 hb k
    have hd := den_pos L m hm hL k
    have hr := sol_rec x L m hm hL a b k
    have h3 : sol x L m a b (k + 1) ≤ sol x L m a b (k + 1 + 1) := by
      by_contra hc
      push Not at hc
      have h4 := mul_lt_mul_of_pos_left hc hd
      rw [show k + 1 + 1 = k + 2 from rfl, hr] at h4
      have h5 : (0 : ℝ) ≤ L + k + m := by positivity
      have h6 : (0 : ℝ) ≤ 2 * ((L : ℝ) + k) + 1 := by positivity
      have h7 : (2 * ((L : ℝ) + k) + 1) * sol x L m a b (k + 1) ≤ (2 * ((L : ℝ) + k) + 1) * x * sol x L m a b (k + 1) := by
        rw [mul_assoc]; exact mul_le_mul_of_nonneg_left (by nlinarith) h6
      have h8 := mul_le_mul_of_nonneg_left h1 h5
      nlinarith
    exact ⟨h3, h2.trans h3⟩

theorem U_pos (k : Nat) : 0 < U x L m (k + 1) := by
  induction k with
  | zero => simp [U, sol]
  | succ k ih => exact ih.trans_le (sol_mono x L m hx hm hL 0 1 (by norm_num) (by norm_num) (k + 1)).1

theorem V_nonneg (k : Nat) : 0 ≤ V x L m (k + 1) := (sol_mono x L m hx hm hL (-1) 0 (by norm_num) le_rfl k).2

omit hx in
theorem casoratian (k : Nat) : 0 < V x L m (k + 1) * U x L m k - V x L m k * U x L m (k + 1) := by
  induction k with
  | zero => simp [U, V, sol]
  | succ k ih =>
    have hd := den_pos L m hm hL k
    have u := sol_rec x L m hm hL 0 1 k
    have v := sol_rec x L m hm hL (-1) 0 k
    rw [show sol x L m 0 1 = U x L m from rfl] at u
    rw [show sol x L m (-1) 0 = V x L m from rfl] at v
    have e : ((L : ℝ) + k - m + 1) * (V x L m (k + 1 + 1) * U x L m (k + 1) - V x L m (k + 1) * U x L m (k + 1 + 1)) =
        (L + k + m) * (V x L m (k + 1) * U x L m k - V x L m k * U x L m (k + 1)) := by
      rw [show k + 1 + 1 = k + 2 from rfl]
      linear_combination U x L m (k + 1) * v - V x L m (k + 1) * u
    have h2 : (0 : ℝ) < L + k + m := by
      have : (1 : ℝ) ≤ L := by exact_mod_cast hL
      positivity
    have h3 := mul_pos h2 ih
    rw [← e] at h3
    exact (pos_iff_pos_of_mul_pos h3).1 hd

omit hx in
/-- the convergents -/
noncomputable def conv (x : ℝ) (L m k : Nat) : ℝ := V x L m (k + 1) / U x L m (k + 1)

theorem conv_nonneg (k : Nat) : 0 ≤ conv x L m k := div_nonneg (V_nonneg x L m hx hm hL k) (U_pos x L m hx hm hL k).le

theorem conv_lt (k : Nat) : conv x L m k < conv x L m (k + 1) := by
  unfold conv
  rw [div_lt_div_iff₀ (U_pos x L m hx hm hL k) (U_pos x L m hx hm hL (k + 1))]
  have := casoratian x L m hm hL (k + 1)
  linarith

omit hm hL in
theorem not_abs_le : ¬|x| ≤ 1 := by rw [abs_of_pos (by linarith)]; linarith

omit hL in
/-- the functions of the first and second kind are independent -/
theorem assoc_cas : ∃ σ : ℝ, (σ = 1 ∨ σ = -1) ∧ ∀ k, 0 < σ * (assocQ k m x * assocP (k + 1) m x - assocQ (k + 1) m x * assocP k m x) := by
  have habs := not_abs_le x hx
  have h1x : |x| ≠ 1 := fun e => habs e.le
  obtain ⟨σ, hσ, h0⟩ : ∃ σ : ℝ, (σ = 1 ∨ σ = -1) ∧ 0 < σ * (assocQ 0 m x * assocP (0 + 1) m x - assocQ (0 + 1) m x * assocP 0 m x) := by
    rcases (by omega : m = 0 ∨ m = 1) with rfl | rfl
    · refine ⟨1, Or.inl rfl, ?_⟩
      have e : assocP 1 0 x = x ∧ assocP 0 0 x = 1 := by constructor <;> simp [assocP, prefactor, Poly.pP]
      rw [assocQ_zero, zero_add, assocQ_zero, legQ_one_eq, e.1, e.2]
      ring_nf; norm_num
    · refine ⟨-1, Or.inr rfl, ?_⟩
      have e : assocP 1 1 x = ww x ∧ assocP 0 1 x = 0 := by
        constructor
        · simp [assocP, prefactor_eq, Poly.pP, signFactor, habs]
        · exact assocP_gt 0 1 x (by omega)
      rw [zero_add, e.1, e.2, assocQ_zero_one x h1x, div_mul_cancel₀ _ (ww_ne x h1x)]
      norm_num
  refine ⟨σ, hσ, fun k => ?_⟩
  induction k with
  | zero => exact h0
  | succ k ih =>
    have a := assocQ_recL k m x h1x
    have b := assocP_recL k m x
    have hd : (0 : ℝ) < (k : ℝ) + 2 - m := by
      have h1 : (m : ℝ) ≤ 1 := by exact_mod_cast hm
      have h3 : (0 : ℝ) ≤ k := Nat.cast_nonneg k
      linarith
    have e : ((k : ℝ) + 2 - m) * (σ * (assocQ (k + 1) m x * assocP (k + 1 + 1) m x - assocQ (k + 1 + 1) m x * assocP (k + 1) m x)) =
        (k + 1 + m) * (σ * (assocQ k m x * assocP (k + 1) m x - assocQ (k + 1) m x * assocP k m x)) := by
      rw [show k + 1 + 1 = k + 2 from rfl]
      linear_combination σ * assocQ (k + 1) m x * b - σ * assocP (k + 1) m x * a
    have h2 : (0 : ℝ) < (k : ℝ) + 1 + m := by positivity
    have h3 := mul_pos h2 ih
    rw [← e] at h3
    exact (pos_iff_pos_of_mul_pos h3).1 hd

omit hL in
/-- `Q_l^m` has no zeros above the cut, for the orders 0 and 1 -/
theorem assocQ_ne (l : Nat) : assocQ l m x ≠ 0 := by
  obtain ⟨hp, ht⟩ := ratio_tendsto x hx m hm
  have habs := not_abs_le x hx
  have h1x : |x| ≠ 1 := fun e => habs e.le
  by_cases hl : m ≤ l
  swap
  · rw [show l = 0 by omega]; exact assocQ_zero_ne m hm x habs
  obtain ⟨σ, hσ, hpos⟩ := assoc_cas x m hx hm
  obtain ⟨q, hq⟩ : ∃ q : Nat → ℝ, q = fun n => σ * (assocQ (l + n) m x / assocP (l + n) m x) := ⟨_, rfl⟩
  have hanti : ∀ n, q (n + 1) < q n := by
    intro n
    have h1 := hp (l + n) (by omega)
    have h2 := hp (l + n + 1) (by omega)
    have h3 := hpos (l + n)
    rw [hq]
    simp only [show l + (n + 1) = l + n + 1 by omega]
    have e : σ * (assocQ (l + n) m x / assocP (l + n) m x) - σ * (assocQ (l + n + 1) m x / assocP (l + n + 1) m x) =
        σ * (assocQ (l + n) m x * assocP (l + n + 1) m x - assocQ (l + n + 1) m x * assocP (l + n) m x) /
          (assocP (l + n) m x * assocP (l + n + 1) m x) := by
      field_simp
    have := div_pos h3 (mul_pos h1 h2)
    rw [← e] at this
    linarith
  have hlim : Tendsto q atTop (𝓝 0) := by
    have := (ht.comp (f := fun k => l + k) (tendsto_atTop_mono (fun k => Nat.le_add_left k l) tendsto_id)).const_mul σ
    rw [hq]
    simpa using this
  have hA : Antitone q := antitone_nat_of_succ_le (fun n => (hanti n).le)
  have h1 : 0 ≤ q 1 := hA.le_of_tendsto hlim 1
  have h0 : 0 < q 0 := h1.trans_lt (hanti 0)
  intro e
  rw [hq] at h0
  simp [e] at h0

omit hx in
theorem conv_eq (z : Nat → ℝ) (hz : ∀ k : Nat, ((L : ℝ) + k - m + 1) * z (k + 2) = (2 * ((L : ℝ) + k) + 1) * x * z (k + 1) - (L + k + m) * z k)
    (k : Nat) (hk : z (k + 1) = 0) (hU : U x L m (k + 1) ≠ 0) : conv x L m k * z 0 = z 1 := by
  have := sol_eq x L m hm hL z hz (k + 1)
  rw [hk] at this
  unfold conv
  rw [div_mul_eq_mul_div, div_eq_iff hU]
  linarith

/-- the convergents tend to the ratio of the functions of the second kind -/
theorem conv_tendsto : assocQ (L - 1) m x ≠ 0 ∧ Tendsto (conv x L m) atTop (𝓝 (assocQ L m x / assocQ (L - 1) m x)) := by
  obtain ⟨hp, ht⟩ := ratio_tendsto x hx m hm
  have habs := not_abs_le x hx
  have h1x : |x| ≠ 1 := fun e => habs e.le
  obtain ⟨L, rfl⟩ : ∃ K, L = K + 1 := ⟨L - 1, by omega⟩
  rw [show L + 1 - 1 = L by omega]
  obtain ⟨c, hc⟩ : ∃ c : Nat → ℝ, c = fun k => assocQ (L + (k + 1)) m x / assocP (L + (k + 1)) m x := ⟨_, rfl⟩
  have hct : Tendsto c atTop (𝓝 0) := by
    rw [hc]
    refine ht.comp (f := fun k => L + (k + 1)) (tendsto_atTop_mono (fun k => ?_) tendsto_id)
    simp only [id]; omega
  have hrel : ∀ k, conv x (L + 1) m k * (assocQ L m x - c k * assocP L m x) = assocQ (L + 1) m x - c k * assocP (L + 1) m x := by
    intro k
    have := conv_eq x (L + 1) m hm hL (fun j => assocQ (L + j) m x - c k * assocP (L + j) m x) (by
      intro j
      have a := assocQ_recL (L + j) m x h1x
      have b := assocP_recL (L + j) m x
      push_cast at a b ⊢
      rw [show L + (j + 2) = L + j + 2 by omega, show L + (j + 1) = L + j + 1 by omega]
      linear_combination a - c k * b) k (by
      have := (hp (L + (k + 1)) (by omega)).ne'
      simp only [hc]; field_simp; ring) (U_pos x (L + 1) m hx hm hL k).ne'
    simpa using this
  have hd : Tendsto (fun k => assocQ L m x - c k * assocP L m x) atTop (𝓝 (assocQ L m x)) := by
    simpa using (tendsto_const_nhds (x := assocQ L m x)).sub (hct.mul_const (assocP L m x))
  have hn : Tendsto (fun k => assocQ (L + 1) m x - c k * assocP (L + 1) m x) atTop (𝓝 (assocQ (L + 1) m x)) := by
    simpa using (tendsto_const_nhds (x := assocQ (L + 1) m x)).sub (hct.mul_const (assocP (L + 1) m x))
  have hne : assocQ L m x ≠ 0 := assocQ_ne x m hx hm L
  refine ⟨hne, ?_⟩
  have h2 := hn.div hd hne
  refine h2.congr' ?_
  filter_upwards [hd.eventually_ne hne] with k hk
  rw [Pi.div_apply, ← hrel k, mul_div_assoc, div_self hk, mul_one]

end

/-! ## Negative arguments -/

theorem signFactor_neg (x : ℝ) : signFactor (-x) = signFactor x := by unfold signFactor; rw [abs_neg]

theorem ww_neg (x : ℝ) : ww (-x) = ww x := by unfold ww; rw [signFactor_neg, neg_mul_neg]

theorem legQ_neg (x : ℝ) : ∀ l, legQ l (-x) = (-1) ^ (l + 1) * legQ l x
  | 0 => by
    rw [legQ, legQ, show (-x + 1) / (-x - 1) = ((x + 1) / (x - 1))⁻¹ by
      rw [inv_div, ← neg_div_neg_eq]; congr 1 <;> ring, abs_inv, Real.log_inv]
    ring
  | 1 => by
    have := legQ_neg x 0
    rw [legQ_one_eq, legQ_one_eq, this]; ring
  | n + 2 => by
    rw [legQ, legQ, legQ_neg x n, legQ_neg x (n + 1)]
    ring

theorem legQ_deriv_neg (x : ℝ) (l : Nat) : deriv (legQ l) (-x) = (-1) ^ l * deriv (legQ l) x := by
  have h : (fun t => legQ l (-t)) = fun t => (-1) ^ (l + 1) * legQ l t := by funext t; exact legQ_neg t l
  have h1 := congrArg (fun f => deriv f x) h
  simp only [deriv_comp_neg, deriv_const_mul_field] at h1
  have h2 : deriv (legQ l) (-x) = -((-1) ^ (l + 1) * deriv (legQ l) x) := by linarith
  rw [h2]; ring

theorem pP_neg (x : ℝ) : ∀ l, (Poly.pP l).eval (-x) = (-1) ^ l * (Poly.pP l).eval x
  | 0 => by simp [Poly.pP]
  | 1 => by simp [Poly.pP]
  | n + 2 => by
    have h0 := pP_neg x n
    have h1 := pP_neg x (n + 1)
    simp only [Poly.pP, eval_mul, eval_C, eval_sub, eval_X, h0, h1]
    ring

theorem pP_deriv_neg (x : ℝ) : ∀ l, (derivative (Poly.pP l)).eval (-x) = -(-1) ^ l * (derivative (Poly.pP l)).eval x
  | 0 => by simp [Poly.pP]
  | l + 1 => by
    have h := pP_deriv_neg x l
    have a := congrArg (eval (-x)) (Poly.pP_AB l).1
    have b := congrArg (eval x) (Poly.pP_AB l).1
    simp only [eval_add, eval_mul, eval_X, eval_C] at a b
    rw [a, b, h, pP_neg]; ring

theorem assocQ_neg (x : ℝ) (l m : Nat) (hm : m ≤ 1) : assocQ l m (-x) = (-1) ^ (l + 1 + m) * assocQ l m x := by
  rcases (by omega : m = 0 ∨ m = 1) with rfl | rfl
  · rw [assocQ_zero, assocQ_zero, legQ_neg]
  · rw [assocQ_one, assocQ_one, legQ_deriv_neg, ww_neg, signFactor_neg]; ring

theorem assocP_neg (x : ℝ) (l m : Nat) (hm : m ≤ 1) : assocP l m (-x) = (-1) ^ (l + m) * assocP l m x := by
  rcases (by omega : m = 0 ∨ m = 1) with rfl | rfl
  · simp [assocP, prefactor, pP_neg]
  · simp only [assocP, prefactor_eq, Function.iterate_one, pP_deriv_neg, signFactor_neg, ww_neg]; ring

theorem off_cut (x : ℝ) (hx : ¬|x| ≤ 1) : 1 < x ∨ ∃ y, x = -y ∧ 1 < y := by
  rw [abs_le, not_and_or] at hx
  rcases hx with h | h
  · exact Or.inr ⟨-x, by ring, by linarith⟩
  · exact Or.inl (by linarith)

theorem assocQ_ne' (x : ℝ) (m : Nat) (hx : ¬|x| ≤ 1) (hm : m ≤ 1) (l : Nat) : assocQ l m x ≠ 0 := by
  rcases off_cut x hx with h | ⟨y, rfl, h⟩
  · exact assocQ_ne x m h hm l
  · rw [assocQ_neg y l m hm]
    exact mul_ne_zero (pow_ne_zero _ (by norm_num)) (assocQ_ne y m h hm l)

theorem assoc_cas' (x : ℝ) (m : Nat) (hx : ¬|x| ≤ 1) (hm : m ≤ 1) (k : Nat) :
    assocQ k m x * assocP (k + 1) m x - assocQ (k + 1) m x * assocP k m x ≠ 0 := by
  have pos : ∀ y, 1 < y → assocQ k m y * assocP (k + 1) m y - assocQ (k + 1) m y * assocP k m y ≠ 0 := by
    intro y hy e
    obtain ⟨σ, _, h⟩ := assoc_cas y m hy hm
    have := h k
    rw [e] at this; simp at this
  rcases off_cut x hx with h | ⟨y, rfl, h⟩
  · exact pos x h
  · rw [assocQ_neg y _ m hm, assocQ_neg y _ m hm, assocP_neg y _ m hm, assocP_neg y _ m hm]
    have e : (-1 : ℝ) ^ (k + 1 + m) * assocQ k m y * ((-1) ^ (k + 1 + m) * assocP (k + 1) m y) -
        (-1) ^ (k + 1 + 1 + m) * assocQ (k + 1) m y * ((-1) ^ (k + m) * assocP k m y) =
        ((-1 : ℝ) ^ (k + 1 + m) * (-1) ^ (k + 1 + m)) * (assocQ k m y * assocP (k + 1) m y - assocQ (k + 1) m y * assocP k m y) := by
      rw [show k + 1 + 1 + m = (k + 1 + m) + 1 by omega, show k + 1 + m = (k + m) + 1 by omega, pow_succ, pow_succ]; ring
    rw [e]
    exact mul_ne_zero (mul_ne_zero (pow_ne_zero _ (by norm_num)) (pow_ne_zero _ (by norm_num))) (pos y h)

theorem sol_neg (x : ℝ) (L m : Nat) (a b : ℝ) : ∀ k, sol (-x) L m a b k = (-1) ^ (k + 1) * sol x L m (-a) b k
  | 0 => by simp [sol]
  | 1 => by simp [sol]
  | k + 2 => by
    rw [sol, sol, sol_neg x L m a b k, sol_neg x L m a b (k + 1)]
    ring

theorem sol_smul (x : ℝ) (L m : Nat) (c a b : ℝ) : ∀ k, sol x L m (c * a) (c * b) k = c * sol x L m a b k
  | 0 => rfl
  | 1 => rfl
  | k + 2 => by
    rw [sol, sol, sol_smul x L m c a b k, sol_smul x L m c a b (k + 1)]
    ring

theorem U_neg (x : ℝ) (L m k : Nat) : U (-x) L m k = (-1) ^ (k + 1) * U x L m k := by
  unfold U; rw [sol_neg, neg_zero]

theorem V_neg (x : ℝ) (L m k : Nat) : V (-x) L m k = (-1) ^ k * V x L m k := by
  unfold V
  rw [sol_neg, neg_neg]
  have := sol_smul x L m (-1) (-1) 0 k
  rw [neg_one_mul, neg_neg, mul_zero] at this
  rw [this]; ring

theorem conv_neg (x : ℝ) (L m k : Nat) : conv (-x) L m k = -conv x L m k := by
  unfold conv
  rw [U_neg, V_neg, pow_succ (-1 : ℝ) (k + 1), mul_assoc ((-1 : ℝ) ^ (k + 1)), mul_div_mul_left _ _ (pow_ne_zero _ (by norm_num)), neg_one_mul, div_neg]

theorem U_ne (x : ℝ) (L m : Nat) (hx : ¬|x| ≤ 1) (hm : m ≤ 1) (hL : 1 ≤ L) (k : Nat) : U x L m (k + 1) ≠ 0 := by
  rcases off_cut x hx with h | ⟨y, rfl, h⟩
  · exact (U_pos x L m h hm hL k).ne'
  · rw [U_neg]; exact mul_ne_zero (pow_ne_zero _ (by norm_num)) (U_pos y L m h hm hL k).ne'

theorem conv_tendsto' (x : ℝ) (L m : Nat) (hx : ¬|x| ≤ 1) (hm : m ≤ 1) (hL : 1 ≤ L) :
    Tendsto (conv x L m) atTop (𝓝 (assocQ L m x / assocQ (L - 1) m x)) := by
  rcases off_cut x hx with h | ⟨y, rfl, h⟩
  · exact (conv_tendsto x L m h hm hL).2
  · have e : conv (-y) L m = fun k => -conv y L m k := by funext k; exact conv_neg y L m k
    rw [e, assocQ_neg y _ m hm, assocQ_neg y _ m hm, show L + 1 + m = (L - 1 + 1 + m) + 1 by omega, pow_succ,
      mul_assoc ((-1 : ℝ) ^ (L - 1 + 1 + m)), mul_div_mul_left _ _ (pow_ne_zero _ (by norm_num)), neg_one_mul, neg_div]
    exact (conv_tendsto y L m h hm hL).2.neg

/-- sizes of the convergents and their differences -/
theorem conv_abs (x : ℝ) (L m : Nat) (hx : ¬|x| ≤ 1) (hm : m ≤ 1) (hL : 1 ≤ L) (k : Nat) :
    0 ≤ conv |x| L m k ∧ conv |x| L m k < conv |x| L m (k + 1) ∧ |conv x L m k| = conv |x| L m k ∧
      |conv x L m (k + 1) - conv x L m k| = conv |x| L m (k + 1) - conv |x| L m k := by
  have h1 : 1 < |x| := not_le.1 hx
  have a := conv_nonneg |x| L m h1 hm hL k
  have b := conv_lt |x| L m h1 hm hL k
  refine ⟨a, b, ?_⟩
  rcases off_cut x hx with h | ⟨y, rfl, h⟩
  · rw [abs_of_pos (by linarith : 0 < x)] at *
    exact ⟨abs_of_nonneg a, abs_of_pos (by linarith)⟩
  · rw [abs_neg, abs_of_pos (by linarith : 0 < y)] at *
    rw [conv_neg, conv_neg, abs_neg, ← abs_neg (-conv y L m (k + 1) - -conv y L m k)]
    exact ⟨abs_of_nonneg a, by rw [show -(-conv y L m (k + 1) - -conv y L m k) = conv y L m (k + 1) - conv y L m k by ring]; exact abs_of_pos (by linarith)⟩

/-! ## The modified Lentz loop -/

/-- the loop's state after `k` iterations without convergence -/
noncomputable def lentz (tiny x : ℝ) (L m : Nat) : Nat → CF
  | 0 => ⟨tiny, tiny, 0, 1, L⟩
  | k + 1 => ⟨tiny + conv x L m (k + 1),
      ((L : ℝ) + k - m + 1) / (L + k + m) * ((tiny * U x L m (k + 2) + V x L m (k + 2)) / (tiny * U x L m (k + 1) + V x L m (k + 1))),
      U x L m (k + 1) * (L + k + m) / (((L : ℝ) + k - m + 1) * U x L m (k + 2)),
      -((L : ℝ) + k - m + 1) / (L + k + m), L + k + 1⟩

section
variable (tiny tol x : ℝ) (L m : Nat) (ht : 0 < tiny) (hm : m ≤ 1) (hL : 1 ≤ L) (hU0 : ∀ k, U x L m (k + 1) ≠ 0)
  (hUV0 : ∀ k, tiny * U x L m (k + 1) + V x L m (k + 1) ≠ 0)
include ht hm hL hU0 hUV0

theorem cfStep_lentz (k : Nat) : cfStep tiny tol x m (lentz tiny x L m k) =
    if |(conv x L m (k + 1) - conv x L m k) / (tiny + conv x L m k)| < tol then .inl (tiny + conv x L m (k + 1))
    else .inr (lentz tiny x L m (k + 1)) := by
  have hL1 : (1 : ℝ) ≤ L := by exact_mod_cast hL
  have hm1 : (m : ℝ) ≤ 1 := by exact_mod_cast hm
  have hnm : ∀ k : Nat, (0 : ℝ) < L + k + m := fun k => by positivity
  have hd := den_pos L m hm hL
  have uu : ∀ k, ((L : ℝ) + k - m + 1) * U x L m (k + 2) = (2 * ((L : ℝ) + k) + 1) * x * U x L m (k + 1) - (L + k + m) * U x L m k :=
    fun k => sol_rec x L m hm hL 0 1 k
  have vv : ∀ k, ((L : ℝ) + k - m + 1) * V x L m (k + 2) = (2 * ((L : ℝ) + k) + 1) * x * V x L m (k + 1) - (L + k + m) * V x L m k :=
    fun k => sol_rec x L m hm hL (-1) 0 k
  have hd0 : ∀ k : Nat, (L : ℝ) + k - m + 1 ≠ 0 := fun k => (hd k).ne'
  have hn0 : ∀ k : Nat, (L : ℝ) + k + m ≠ 0 := fun k => (hnm k).ne'
  have en : (lentz tiny x L m k).n = L + k := by cases k <;> simp [lentz]; omega
  have ef : (lentz tiny x L m k).f = tiny + conv x L m k := by
    cases k with
    | zero => simp [lentz, conv, V, sol]
    | succ k => rfl
  obtain ⟨b, hb⟩ : ∃ b : ℝ, b = (2 * ((L : ℝ) + k) + 1) * x / (L + k + m) := ⟨_, rfl⟩
  have eD : b + (lentz tiny x L m k).a * (lentz tiny x L m k).D = ((L : ℝ) + k - m + 1) * U x L m (k + 2) / ((L + k + m) * U x L m (k + 1)) := by
    rw [hb, eq_div_iff (mul_ne_zero (hn0 k) (hU0 k)), uu k]
    cases k with
    | zero =>
      have := hn0 0
      simp only [lentz, mul_zero, add_zero]
      simp only [U, sol, Nat.cast_zero, mul_zero, sub_zero]
      field_simp
    | succ k =>
      have h1 := hn0 k
      have h2 := hn0 (k + 1)
      have h3 := hd0 k
      have h4 := hU0 (k + 1)
      simp only [lentz]
      rw [show k + 1 + 1 = k + 2 from rfl] at *
      field_simp
      ring
  have eC : b + (lentz tiny x L m k).a / (lentz tiny x L m k).C =
      ((L : ℝ) + k - m + 1) * (tiny * U x L m (k + 2) + V x L m (k + 2)) / ((L + k + m) * (tiny * U x L m (k + 1) + V x L m (k + 1))) := by
    have hT : ((L : ℝ) + k - m + 1) * (tiny * U x L m (k + 2) + V x L m (k + 2)) = (2 * ((L : ℝ) + k) + 1) * x * (tiny * U x L m (k + 1) + V x L m (k + 1)) -
        (L + k + m) * (tiny * U x L m k + V x L m k) := by
      linear_combination tiny * uu k + vv k
    rw [hb, eq_div_iff (mul_ne_zero (hn0 k) (hUV0 k)), hT]
    cases k with
    | zero =>
      have := hn0 0
      have := ht.ne'
      simp only [lentz]
      simp only [U, V, sol, Nat.cast_zero, mul_zero, mul_one, add_zero, zero_add] at *
      field_simp
      ring
    | succ k =>
      have h1 := hn0 k
      have h2 := hn0 (k + 1)
      have h3 := hd0 k
      have h4 := hUV0 (k + 1)
      have h5 := hUV0 k
      simp only [lentz]
      rw [show k + 1 + 1 = k + 2 from rfl] at *
      obtain ⟨T1, hT1⟩ : ∃ T, T = tiny * U x L m (k + 1) + V x L m (k + 1) := ⟨_, rfl⟩
      obtain ⟨T2, hT2⟩ : ∃ T, T = tiny * U x L m (k + 2) + V x L m (k + 2) := ⟨_, rfl⟩
      have h4' : T2 ≠ 0 := by rw [hT2]; exact hUV0 (k + 1)
      have h5' : T1 ≠ 0 := by rw [hT1]; exact hUV0 k
      rw [← hT1, ← hT2]
      field_simp
      ring
  have hD0 : b + (lentz tiny x L m k).a * (lentz tiny x L m k).D ≠ 0 := by
    rw [eD]; exact div_ne_zero (mul_ne_zero (hd0 k) (hU0 (k + 1))) (mul_ne_zero (hn0 k) (hU0 k))
  have hC0 : b + (lentz tiny x L m k).a / (lentz tiny x L m k).C ≠ 0 := by
    rw [eC]; exact div_ne_zero (mul_ne_zero (hd0 k) (hUV0 (k + 1))) (mul_ne_zero (hn0 k) (hUV0 k))
  have ecast : ((2 * ((lentz tiny x L m k).n : Int) + 1 : Int) : ℝ) * x / (((lentz tiny x L m k).n + m : Int) : ℝ) = b := by
    rw [en, hb]; push_cast; rfl
  have efp : tiny + conv x L m k ≠ 0 := by
    have h1 := hU0 k
    rw [show tiny + conv x L m k = (tiny * U x L m (k + 1) + V x L m (k + 1)) / U x L m (k + 1) by unfold conv; field_simp]
    exact div_ne_zero (hUV0 k) h1
  have edel : (b + (lentz tiny x L m k).a / (lentz tiny x L m k).C) * (1 / (b + (lentz tiny x L m k).a * (lentz tiny x L m k).D)) =
      (tiny + conv x L m (k + 1)) / (tiny + conv x L m k) := by
    rw [eC, eD]
    have h1 := hUV0 k
    have h2 := hU0 k
    have h3 := hU0 (k + 1)
    have h4 := hd0 k
    have h5 := hn0 k
    have e1 : tiny + conv x L m k = (tiny * U x L m (k + 1) + V x L m (k + 1)) / U x L m (k + 1) := by unfold conv; field_simp
    have e2 : tiny + conv x L m (k + 1) = (tiny * U x L m (k + 2) + V x L m (k + 2)) / U x L m (k + 2) := by unfold conv; field_simp
    rw [e1, e2]
    obtain ⟨T1, hT1⟩ : ∃ T, T = tiny * U x L m (k + 1) + V x L m (k + 1) := ⟨_, rfl⟩
    obtain ⟨T2, hT2⟩ : ∃ T, T = tiny * U x L m (k + 2) + V x L m (k + 2) := ⟨_, rfl⟩
    rw [← hT1] at h1
    rw [← hT1, ← hT2]
    rw [show k + 1 + 1 = k + 2 from rfl] at h3
    field_simp
  unfold cfStep
  simp only [ecast, if_neg hD0, if_neg hC0, edel]
  rw [ef, mul_div_cancel₀ _ efp, div_sub_one efp, add_sub_add_left_eq_sub]
  split_ifs with h
  · rfl
  · congr 1
    rw [lentz, en]
    congr 1
    · rw [eC]
      have h1 := hUV0 k
      have h5 := hn0 k
      field_simp
    · rw [eD, one_div_div]
      congr 1
      ring
    · push_cast; ring

/-- the loop runs until two convergents agree to the tolerance -/
theorem cfLoop_eq (n k : Nat) : cfLoop tiny tol x m n (lentz tiny x L m k) = .throw .runtimeError ∨
    ∃ j, k ≤ j ∧ |(conv x L m (j + 1) - conv x L m j) / (tiny + conv x L m j)| < tol ∧
      cfLoop tiny tol x m n (lentz tiny x L m k) = .ok (tiny + conv x L m (j + 1)) := by
  induction n generalizing k with
  | zero => exact Or.inl rfl
  | succ n ih =>
    rw [cfLoop, cfStep_lentz tiny tol x L m ht hm hL hU0 hUV0 k]
    split_ifs with h
    · exact Or.inr ⟨k, le_rfl, h, rfl⟩
    · rcases ih (k + 1) with h1 | ⟨j, hj, h1, h2⟩
      · exact Or.inl h1
      · exact Or.inr ⟨j, by omega, h1, h2⟩

theorem cfLoop_stops (j : Nat) (hj : |(conv x L m (j + 1) - conv x L m j) / (tiny + conv x L m j)| < tol) : ∀ k n, k ≤ j → j < k + n →
    ∃ r, cfLoop tiny tol x m n (lentz tiny x L m k) = .ok r := by
  intro k n
  induction n generalizing k with
  | zero => intro h1 h2; omega
  | succ n ih =>
    intro h1 h2
    rw [cfLoop, cfStep_lentz tiny tol x L m ht hm hL hU0 hUV0 k]
    split_ifs with h
    · exact ⟨_, rfl⟩
    · have : k ≠ j := by rintro rfl; exact h hj
      exact ih (k + 1) (by omega) (by omega)

end

/-- for small enough constants the continued fraction is as close to the ratio as wanted, and given enough iterations it is found -/
theorem cf_limit (x : ℝ) (L m : Nat) (hx : ¬|x| ≤ 1) (hm : m ≤ 1) (hL : 1 ≤ L) (η : ℝ) (hη : 0 < η) :
    ∃ ε : ℝ, 0 < ε ∧ ∀ tiny tol, 0 < tiny → tiny < ε → 0 < tol → tol < ε →
      (∀ n, cfLegendreRatio tiny tol n x L m = .throw .runtimeError ∨
        ∃ r, cfLegendreRatio tiny tol n x L m = .ok r ∧ |r - assocQ L m x / assocQ (L - 1) m x| < η) ∧
      ∃ N, ∀ n, N ≤ n → ∃ r, cfLegendreRatio tiny tol n x L m = .ok r := by
  have hlim := conv_tendsto' x L m hx hm hL
  obtain ⟨K, hK⟩ := (Metric.tendsto_atTop.1 hlim) (η / 2) (by positivity)
  have hA := conv_abs x L m hx hm hL
  have hinc := fun k => (hA k).2.1
  have hnn := fun k => (hA k).1
  have hc1 : 0 < conv |x| L m 1 := (hnn 0).trans_lt (hinc 0)
  have hmono : ∀ k, conv |x| L m 1 ≤ conv |x| L m (k + 1) := by
    intro k
    induction k with
    | zero => exact le_rfl
    | succ k ih => exact ih.trans (hinc (k + 1)).le
  obtain ⟨τ, hτ, hτk⟩ : ∃ τ : ℝ, 0 < τ ∧ ∀ j, j < K → τ ≤ (conv |x| L m (j + 1) - conv |x| L m j) / (1 + conv |x| L m j) := by
    clear hK
    induction K with
    | zero => exact ⟨1, one_pos, fun j hj => by omega⟩
    | succ K ih =>
      obtain ⟨τ, h1, h2⟩ := ih
      refine ⟨min τ ((conv |x| L m (K + 1) - conv |x| L m K) / (1 + conv |x| L m K)), lt_min h1 (div_pos (by linarith [hinc K]) (by linarith [hnn K])), ?_⟩
      intro j hj
      rcases Nat.lt_succ_iff_lt_or_eq.1 hj with h | rfl
      · exact (min_le_left _ _).trans (h2 j h)
      · exact min_le_right _ _
  refine ⟨min (min τ (conv |x| L m 1)) (min 1 (η / 2)), by positivity, fun tiny tol ht ht2 htol htol2 => ?_⟩
  have ht1 : tiny < 1 := ht2.trans_le ((min_le_right _ _).trans (min_le_left _ _))
  have htη : tiny < η / 2 := ht2.trans_le ((min_le_right _ _).trans (min_le_right _ _))
  have htc : tiny < conv |x| L m 1 := ht2.trans_le ((min_le_left _ _).trans (min_le_right _ _))
  have htt : tol < τ := htol2.trans_le ((min_le_left _ _).trans (min_le_left _ _))
  -- the denominators stay away from zero
  obtain ⟨lb, hlb, hlbk⟩ : ∃ lb : ℝ, 0 < lb ∧ ∀ k, lb ≤ |tiny + conv x L m k| := by
    refine ⟨min tiny (conv |x| L m 1 - tiny), lt_min ht (by linarith), fun k => ?_⟩
    cases k with
    | zero =>
      have : conv x L m 0 = 0 := by simp [conv, V, sol]
      rw [this, add_zero, abs_of_pos ht]; exact min_le_left _ _
    | succ k =>
      have h1 := (hA (k + 1)).2.2.1
      have h2 := hmono k
      have h3 := abs_sub_abs_le_abs_sub (conv x L m (k + 1)) (-tiny)
      rw [abs_neg, abs_of_pos ht, h1, sub_neg_eq_add, add_comm (conv x L m (k + 1))] at h3
      exact (min_le_right _ _).trans (by linarith)
  have hU0 := U_ne x L m hx hm hL
  have hUV0 : ∀ k, tiny * U x L m (k + 1) + V x L m (k + 1) ≠ 0 := by
    intro k e
    have h1 := hlbk k
    have h2 := hU0 k
    rw [show tiny + conv x L m k = (tiny * U x L m (k + 1) + V x L m (k + 1)) / U x L m (k + 1) by unfold conv; field_simp, e, zero_div, abs_zero] at h1
    linarith
  refine ⟨fun n => ?_, ?_⟩
  · rcases cfLoop_eq tiny tol x L m ht hm hL hU0 hUV0 n 0 with h | ⟨j, _, h1, h2⟩
    · exact Or.inl h
    · refine Or.inr ⟨_, h2, ?_⟩
      have hj : K ≤ j := by
        by_contra hc
        have h3 := hτk j (by omega)
        obtain ⟨_, _, a1, a2⟩ := hA j
        rw [abs_div, a2] at h1
        have h5 : |tiny + conv x L m j| ≤ 1 + conv |x| L m j := (abs_add_le _ _).trans (by rw [abs_of_pos ht, a1]; linarith)
        have h4 : (conv |x| L m (j + 1) - conv |x| L m j) / (1 + conv |x| L m j) ≤ (conv |x| L m (j + 1) - conv |x| L m j) / |tiny + conv x L m j| :=
          div_le_div_of_nonneg_left (by linarith [hinc j]) (hlb.trans_le (hlbk j)) h5
        linarith
      have h5 := hK (j + 1) (by omega)
      rw [Real.dist_eq] at h5
      rw [show tiny + conv x L m (j + 1) - assocQ L m x / assocQ (L - 1) m x = tiny + (conv x L m (j + 1) - assocQ L m x / assocQ (L - 1) m x) by ring]
      refine (abs_add_le _ _).trans_lt ?_
      rw [abs_of_pos ht]; linarith
  · have hz : Tendsto (fun j => |(conv x L m (j + 1) - conv x L m j) / (tiny + conv x L m j)|) atTop (𝓝 0) := by
      have h1 : Tendsto (fun j => |conv x L m (j + 1) - conv x L m j|) atTop (𝓝 0) := by
        simpa using (((tendsto_add_atTop_iff_nat 1).2 hlim).sub hlim).abs
      have h2 : Tendsto (fun j => |conv x L m (j + 1) - conv x L m j| / lb) atTop (𝓝 0) := by simpa using h1.div_const lb
      refine squeeze_zero (fun j => abs_nonneg _) (fun j => ?_) h2
      rw [abs_div]
      exact div_le_div_of_nonneg_left (abs_nonneg _) hlb (hlbk j)
    obtain ⟨J, hJ⟩ := (Metric.tendsto_atTop.1 hz) tol htol
    have h1 := hJ J le_rfl
    rw [Real.dist_eq, sub_zero, abs_abs] at h1
    exact ⟨J + 1, fun n hn => cfLoop_stops tiny tol x L m ht hm hL hU0 hUV0 J h1 0 n (by omega) (by omega)⟩

/-! ## Miller's algorithm -/

/-- the direction in which a column moves when the ratio at the top is off -/
noncomputable def dev (x : ℝ) (l m : Nat) : ℝ := assocP l m x - assocP 0 m x / assocQ 0 m x * assocQ l m x

theorem dev_zero (x : ℝ) (hx : ¬|x| ≤ 1) (m : Nat) (hm : m ≤ 1) : dev x 0 m = 0 := by
  unfold dev
  rw [div_mul_cancel₀ _ (assocQ_ne' x m hx hm 0)]; ring

theorem dev_recL (x : ℝ) (hx : ¬|x| ≤ 1) (l m : Nat) :
    ((l : ℝ) + 2 - m) * dev x (l + 2) m = (2 * l + 3) * x * dev x (l + 1) m - (l + 1 + m) * dev x l m := by
  have h1x : |x| ≠ 1 := fun e => hx e.le
  unfold dev
  linear_combination assocP_recL l m x - assocP 0 m x / assocQ 0 m x * assocQ_recL l m x h1x

theorem beta_exists (x : ℝ) (hx : ¬|x| ≤ 1) (L m : Nat) (hm : m ≤ 1) (δ : ℝ) (hδ : 0 < δ) : ∃ η : ℝ, 0 < η ∧ ∀ ρ : ℝ,
    |ρ - assocQ (L + 1) m x / assocQ L m x| < η → ∃ β : ℝ, |β| < δ ∧
      ρ * (assocQ L m x + β * dev x L m) = assocQ (L + 1) m x + β * dev x (L + 1) m ∧ assocQ L m x + β * dev x L m ≠ 0 := by
  obtain ⟨r, hr⟩ : ∃ r, r = assocQ (L + 1) m x / assocQ L m x := ⟨_, rfl⟩
  have hQ := assocQ_ne' x m hx hm L
  have hrQ : r * assocQ L m x = assocQ (L + 1) m x := by rw [hr]; field_simp
  have hden : dev x (L + 1) m - r * dev x L m ≠ 0 := by
    intro e
    have h1 := assoc_cas' x m hx hm L
    unfold dev at e
    have : assocQ L m x * assocP (L + 1) m x - assocQ (L + 1) m x * assocP L m x = 0 := by
      linear_combination assocQ L m x * e + (assocP L m x - assocP 0 m x / assocQ 0 m x * assocQ L m x) * hrQ
    exact h1 this
  rw [← hr]
  have c1 : ContinuousAt (fun ρ : ℝ => (ρ * assocQ L m x - assocQ (L + 1) m x) / (dev x (L + 1) m - ρ * dev x L m)) r := by
    refine ContinuousAt.div (f := fun ρ : ℝ => ρ * assocQ L m x - assocQ (L + 1) m x) (g := fun ρ : ℝ => dev x (L + 1) m - ρ * dev x L m) ?_ ?_ hden <;> fun_prop
  have c2 : ContinuousAt (fun ρ : ℝ => dev x (L + 1) m - ρ * dev x L m) r := by fun_prop
  have c3 : ContinuousAt (fun ρ : ℝ => assocQ L m x + (ρ * assocQ L m x - assocQ (L + 1) m x) / (dev x (L + 1) m - ρ * dev x L m) * dev x L m) r :=
    continuousAt_const.add (c1.mul continuousAt_const)
  have e1 : ∀ᶠ ρ in 𝓝 r, |(ρ * assocQ L m x - assocQ (L + 1) m x) / (dev x (L + 1) m - ρ * dev x L m)| < δ := by
    have := c1.abs
    refine this.eventually_lt_const ?_
    beta_reduce
    rw [hrQ, sub_self, zero_div, abs_zero]; exact hδ
  have e2 := c2.eventually_ne hden
  have e3 := c3.eventually_ne (by rw [hrQ, sub_self, zero_div, zero_mul, add_zero]; exact hQ)
  obtain ⟨η, hη, H⟩ := Metric.eventually_nhds_iff.1 (e1.and (e2.and e3))
  refine ⟨η, hη, fun ρ hρ => ?_⟩
  obtain ⟨a, b, c⟩ := H (by rw [Real.dist_eq]; exact hρ)
  refine ⟨_, a, ?_, c⟩
  field_simp
  ring

/-- the table Miller's algorithm computes when the first two columns are off by `β0` and `β1` -/
noncomputable def tab (x β0 β1 : ℝ) (l : Nat) : Nat → ℝ
  | 0 => assocQ l 0 x + β0 * dev x l 0
  | 1 => assocQ l 1 x + β1 * dev x l 1
  | m + 2 => -(2 * ((m : ℝ) + 1)) * x / ww x * tab x β0 β1 l (m + 1) - signFactor x * (l + (m + 1)) * (l - (m + 1) + 1) * tab x β0 β1 l m

theorem tab_err (x : ℝ) (hx : ¬|x| ≤ 1) (l : Nat) : ∀ m, ∃ C : ℝ, 0 ≤ C ∧ ∀ β0 β1, |tab x β0 β1 l m - assocQ l m x| ≤ C * (|β0| + |β1|)
  | 0 => ⟨|dev x l 0|, abs_nonneg _, fun β0 β1 => by
      rw [tab, add_sub_cancel_left, abs_mul]
      nlinarith [abs_nonneg (dev x l 0), abs_nonneg β0, abs_nonneg β1]⟩
  | 1 => ⟨|dev x l 1|, abs_nonneg _, fun β0 β1 => by
      rw [tab, add_sub_cancel_left, abs_mul]
      nlinarith [abs_nonneg (dev x l 1), abs_nonneg β0, abs_nonneg β1]⟩
  | m + 2 => by
    obtain ⟨C1, h1, H1⟩ := tab_err x hx l (m + 1)
    obtain ⟨C0, h0, H0⟩ := tab_err x hx l m
    have h1x : |x| ≠ 1 := fun e => hx e.le
    obtain ⟨a, ha⟩ : ∃ a : ℝ, a = -(2 * ((m : ℝ) + 1)) * x / ww x := ⟨_, rfl⟩
    obtain ⟨b, hb⟩ : ∃ b : ℝ, b = signFactor x * (l + (m + 1)) * (l - (m + 1) + 1) := ⟨_, rfl⟩
    refine ⟨|a| * C1 + |b| * C0, by positivity, fun β0 β1 => ?_⟩
    rw [tab, assocQ_recM l m x h1x, ← ha, ← hb]
    rw [show a * tab x β0 β1 l (m + 1) - b * tab x β0 β1 l m - (a * assocQ l (m + 1) x - b * assocQ l m x) =
      a * (tab x β0 β1 l (m + 1) - assocQ l (m + 1) x) - b * (tab x β0 β1 l m - assocQ l m x) by ring]
    refine (abs_sub _ _).trans ?_
    rw [abs_mul, abs_mul]
    have k1 := mul_le_mul_of_nonneg_left (H1 β0 β1) (abs_nonneg a)
    have k0 := mul_le_mul_of_nonneg_left (H0 β0 β1) (abs_nonneg b)
    nlinarith

theorem tab_err_unif (x : ℝ) (hx : ¬|x| ≤ 1) (lmax mmax : Nat) : ∃ C : ℝ, 0 < C ∧ ∀ β0 β1 l m, l ≤ lmax → m ≤ mmax →
    |tab x β0 β1 l m - assocQ l m x| ≤ C * (|β0| + |β1|) := by
  choose C hC H using fun l m => tab_err x hx l m
  refine ⟨(∑ l ∈ Finset.range (lmax + 1), ∑ m ∈ Finset.range (mmax + 1), C l m) + 1, ?_, ?_⟩
  · have : 0 ≤ ∑ l ∈ Finset.range (lmax + 1), ∑ m ∈ Finset.range (mmax + 1), C l m :=
      Finset.sum_nonneg (fun l _ => Finset.sum_nonneg (fun m _ => hC l m))
    linarith
  · intro β0 β1 l m hl hm
    refine (H l m β0 β1).trans (mul_le_mul_of_nonneg_right ?_ (by positivity))
    have h1 : C l m ≤ ∑ m ∈ Finset.range (mmax + 1), C l m :=
      Finset.single_le_sum (f := fun m => C l m) (fun m _ => hC l m) (Finset.mem_range.2 (by omega))
    have h2 : ∑ m ∈ Finset.range (mmax + 1), C l m ≤ ∑ l ∈ Finset.range (lmax + 1), ∑ m ∈ Finset.range (mmax + 1), C l m :=
      Finset.single_le_sum (f := fun l => ∑ m ∈ Finset.range (mmax + 1), C l m) (fun l _ => Finset.sum_nonneg (fun m _ => hC l m))
        (Finset.mem_range.2 (by omega))
    linarith

theorem miller_limit (x : ℝ) (hx : ¬|x| ≤ 1) (lmax mmax : Nat) (hl : 1 ≤ lmax) (δ : ℝ) (hδ : 0 < δ) :
    ∃ ε : ℝ, 0 < ε ∧ ∀ tiny tol, 0 < tiny → tiny < ε → 0 < tol → tol < ε → ∀ (out v : Vect ℝ) (S0 : Nat → Nat → Prop) (F0 : Nat → Nat → ℝ),
      Good out v lmax mmax S0 F0 →
      (∀ n, computeQlmMiller tiny tol n lmax mmax x v = .throw .runtimeError ∨
        ∃ v' F, computeQlmMiller tiny tol n lmax mmax x v = .ok v' ∧ Good out v' lmax mmax (fun _ _ => True) F ∧
          ∀ l m, l ≤ lmax → m ≤ mmax → |F l m - assocQ l m x| < δ) ∧
      ∃ N, ∀ n, N ≤ n → computeQlmMiller tiny tol n lmax mmax x v ≠ .throw .runtimeError := by
  have habs := hx
  have h1x : |x| ≠ 1 := fun e => habs e.le
  have hx' := (abs_ne_one_iff x).1 h1x
  obtain ⟨L, rfl⟩ : ∃ L, lmax = L + 1 := ⟨lmax - 1, by omega⟩
  obtain ⟨C, hC, hCb⟩ := tab_err_unif x hx (L + 1) mmax
  have hδ' : 0 < δ / (4 * C) := by positivity
  obtain ⟨η0, hη0, B0⟩ := beta_exists x hx L 0 (by omega) (δ / (4 * C)) hδ'
  obtain ⟨η1, hη1, B1⟩ := beta_exists x hx L 1 (by omega) (δ / (4 * C)) hδ'
  obtain ⟨ε0, hε0, E0⟩ := cf_limit x (L + 1) 0 hx (by omega) hl η0 hη0
  obtain ⟨ε1, hε1, E1⟩ := cf_limit x (L + 1) 1 hx (by omega) hl η1 hη1
  refine ⟨min ε0 ε1, lt_min hε0 hε1, fun tiny tol ht ht2 htol htol2 out v S0 F0 hg => ?_⟩
  obtain ⟨c0, N0, n0⟩ := E0 tiny tol ht (ht2.trans_le (min_le_left _ _)) htol (htol2.trans_le (min_le_left _ _))
  obtain ⟨c1, N1, n1⟩ := E1 tiny tol ht (ht2.trans_le (min_le_right _ _)) htol (htol2.trans_le (min_le_right _ _))
  rw [show L + 1 - 1 = L by omega] at c0 c1
  -- the run once the ratios are found
  have run : ∀ n, (∃ r, cfLegendreRatio tiny tol n x (L + 1) 0 = .ok r ∧ |r - assocQ (L + 1) 0 x / assocQ L 0 x| < η0) →
      (mmax = 0 ∨ ∃ r, cfLegendreRatio tiny tol n x (L + 1) 1 = .ok r ∧ |r - assocQ (L + 1) 1 x / assocQ L 1 x| < η1) →
      ∃ v' F, computeQlmMiller tiny tol n (L + 1) mmax x v = .ok v' ∧ Good out v' (L + 1) mmax (fun _ _ => True) F ∧
          ∀ l m, l ≤ L + 1 → m ≤ mmax → |F l m - assocQ l m x| < δ := by
    rintro n ⟨r0, hr0, hr0'⟩ hcol1
    obtain ⟨β0, hβ0, hb0, hn0⟩ := B0 r0 hr0'
    obtain ⟨β1, hβ1, hcol⟩ : ∃ β1, |β1| < δ / (4 * C) ∧ (mmax = 0 ∨ ∃ r1, cfLegendreRatio tiny tol n x (L + 1) 1 = .ok r1 ∧
        r1 * (assocQ L 1 x + β1 * dev x L 1) = assocQ (L + 1) 1 x + β1 * dev x (L + 1) 1 ∧ assocQ L 1 x + β1 * dev x L 1 ≠ 0) := by
      rcases hcol1 with h | ⟨r1, hr1, hr1'⟩
      · exact ⟨0, by simpa using hδ', Or.inl h⟩
      · obtain ⟨β1, a, b, c⟩ := B1 r1 hr1'
        exact ⟨β1, a, Or.inr ⟨r1, hr1, b, c⟩⟩
    have hq0 : q00 x = assocQ 0 0 x := by rw [q00_eq x hx', assocQ_zero]
    have hw0 : -1 / sqrtClamped (signFactor x * (1 - x * x)) = assocQ 0 1 x := by rw [assocQ_zero_one x h1x, ww]
    unfold computeQlmMiller
    obtain ⟨v1, e1, g1⟩ := millerColumn_ok tiny tol n (L + 1) mmax 0 x (q00 x) out v (Nat.zero_le _) hl ht.ne' r0 hr0 (tab x β0 β1)
      (fun l _ => by
        simp only [tab]
        linear_combination assocQ_recL l 0 x h1x + β0 * dev_recL x hx l 0) (by simpa [tab] using hb0)
      (by simp [tab, dev_zero x hx 0 (by omega), hq0]) (by rw [hq0]; exact assocQ_ne' x 0 hx (by omega) 0) (by simpa [tab] using hn0)
      (fun _ _ => False) (hg.mono (fun _ _ _ _ h => h.elim))
    have w1 : whenDo (1 ≤ L + 1) (millerColumn tiny tol n (L + 1) 0 x (q00 x) v) v = .ok v1 := by
      unfold whenDo; rw [if_pos hl]; exact e1
    rw [w1, Res.ok_bind]
    obtain ⟨v2, w2, g2⟩ : ∃ v2, whenDo (1 ≤ mmax ∧ 1 ≤ L + 1)
        (millerColumn tiny tol n (L + 1) 1 x (-1 / sqrtClamped (signFactor x * (1 - x * x))) v1) v1 = .ok v2 ∧
        Good out v2 (L + 1) mmax (fun _ k => k ≤ 1) (tab x β0 β1) := by
      unfold whenDo
      split_ifs with hmm
      · rcases hcol with h | ⟨r1, hr1, hb1, hn1⟩
        · omega
        obtain ⟨v2, e2, g2⟩ := millerColumn_ok tiny tol n (L + 1) mmax 1 x (-1 / sqrtClamped (signFactor x * (1 - x * x))) out v1 hmm.1 hl ht.ne' r1 hr1
          (tab x β0 β1) (fun l _ => by
            simp only [tab]
            linear_combination assocQ_recL l 1 x h1x + β1 * dev_recL x hx l 1) (by simpa [tab] using hb1)
          (by simp [tab, dev_zero x hx 1 (by omega), hw0]) (by rw [hw0]; exact assocQ_ne' x 1 hx (by omega) 0) (by simpa [tab] using hn1) _ g1
        exact ⟨v2, e2, g2.mono (fun l k _ _ hs => ⟨by omega, rfl⟩)⟩
      · exact ⟨v1, rfl, g1.mono (fun l k _ _ hs => ⟨by omega, rfl⟩)⟩
    rw [w2, Res.ok_bind]
    obtain ⟨v3, e3, g3⟩ := recurQlmInMUp_gen (L + 1) mmax x h1x out v2 (tab x β0 β1) (fun l m => by rw [tab]) g2
    refine ⟨v3, _, e3, g3, fun l m hl hm => ?_⟩
    refine (hCb β0 β1 l m hl hm).trans_lt ?_
    have : |β0| + |β1| < δ / (4 * C) + δ / (4 * C) := by linarith
    calc C * (|β0| + |β1|) < C * (δ / (4 * C) + δ / (4 * C)) := mul_lt_mul_of_pos_left this hC
      _ = δ / 2 := by field_simp; ring
      _ < δ := by linarith
  -- a failed ratio is passed on
  have fail0 : ∀ n, cfLegendreRatio tiny tol n x (L + 1) 0 = .throw .runtimeError → computeQlmMiller tiny tol n (L + 1) mmax x v = .throw .runtimeError := by
    intro n h
    unfold computeQlmMiller
    have : whenDo (1 ≤ L + 1) (millerColumn tiny tol n (L + 1) 0 x (q00 x) v) v = .throw .runtimeError := by
      unfold whenDo millerColumn; rw [if_pos hl, h, Res.throw_bind]
    rw [this, Res.throw_bind]
  refine ⟨fun n => ?_, max N0 N1, fun n hn => ?_⟩
  · rcases c0 n with h | h0
    · exact Or.inl (fail0 n h)
    · rcases Nat.eq_zero_or_pos mmax with hmm | hmm
      · exact Or.inr (run n h0 (Or.inl hmm))
      · rcases c1 n with h | h1
        · left
          obtain ⟨r0, hr0, hr0'⟩ := h0
          obtain ⟨β0, hβ0, hb0, hn0⟩ := B0 r0 hr0'
          have hq0 : q00 x = assocQ 0 0 x := by rw [q00_eq x hx', assocQ_zero]
          obtain ⟨v1, e1, g1⟩ := millerColumn_ok tiny tol n (L + 1) mmax 0 x (q00 x) out v (Nat.zero_le _) hl ht.ne' r0 hr0 (tab x β0 0)
            (fun l _ => by
              simp only [tab]
              linear_combination assocQ_recL l 0 x h1x + β0 * dev_recL x hx l 0) (by simpa [tab] using hb0)
            (by simp [tab, dev_zero x hx 0 (by omega), hq0]) (by rw [hq0]; exact assocQ_ne' x 0 hx (by omega) 0) (by simpa [tab] using hn0)
            (fun _ _ => False) (hg.mono (fun _ _ _ _ h => h.elim))
          unfold computeQlmMiller
          have w1 : whenDo (1 ≤ L + 1) (millerColumn tiny tol n (L + 1) 0 x (q00 x) v) v = .ok v1 := by
            unfold whenDo; rw [if_pos hl]; exact e1
          have w2 : whenDo (1 ≤ mmax ∧ 1 ≤ L + 1)
              (millerColumn tiny tol n (L + 1) 1 x (-1 / sqrtClamped (signFactor x * (1 - x * x))) v1) v1 = .throw .runtimeError := by
            unfold whenDo millerColumn; rw [if_pos ⟨hmm, hl⟩, h, Res.throw_bind]
          rw [w1, Res.ok_bind, w2, Res.throw_bind]
        · exact Or.inr (run n h0 (Or.inr h1))
  · obtain ⟨r0, hr0⟩ := n0 n ((le_max_left _ _).trans hn)
    obtain ⟨r1, hr1⟩ := n1 n ((le_max_right _ _).trans hn)
    have h0 : ∃ r, cfLegendreRatio tiny tol n x (L + 1) 0 = .ok r ∧ |r - assocQ (L + 1) 0 x / assocQ L 0 x| < η0 := by
      rcases c0 n with h | h
      · rw [hr0] at h; cases h
      · exact h
    have h1 : ∃ r, cfLegendreRatio tiny tol n x (L + 1) 1 = .ok r ∧ |r - assocQ (L + 1) 1 x / assocQ L 1 x| < η1 := by
      rcases c1 n with h | h
      · rw [hr1] at h; cases h
      · exact h
    obtain ⟨v', F, e, _⟩ := run n h0 (Or.inr h1)
    rw [e]; simp

end ALeg
end HelFEM
