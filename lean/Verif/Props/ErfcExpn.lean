import Verif.Model.ErfcExpn
import Verif.Spec.Binomial
import Verif.Lemmas.ErfcMultipole
import Mathlib.Data.Nat.Choose.Basic
import Mathlib.Algebra.BigOperators.Intervals
import Mathlib.Tactic.FieldSimp

/-!
# C24: the short-range kernel expansion
-/

namespace HelFEM
namespace Erfc
open Spec Finset

/-- **C24, symmetry.** -/
theorem C24_symmetric (erfc : ℝ → ℝ) (eps : ℝ) (n : Nat) (Xi xi : ℝ) : phi erfc eps n Xi xi = phi erfc eps n xi Xi := by
  unfold phi
  rcases lt_trichotomy Xi xi with h | h | h
  · rw [if_pos h, if_neg (not_lt.2 h.le)]
  · rw [h]
  · rw [if_neg (not_lt.2 h.le), if_pos h]

theorem shortLoop_throw (erfc : ℝ → ℝ) (eps : ℝ) (n : Nat) (Xi xi : ℝ) : ∀ (fuel k : Nat) (P : ℝ),
    (∃ v, shortLoop erfc eps n Xi xi fuel k P = .ok v) ∨ shortLoop erfc eps n Xi xi fuel k P = .throw .runtimeError := by
  intro fuel
  induction fuel with
  | zero => intro k P; exact Or.inr rfl
  | succ fuel ih =>
    intro k P
    unfold shortLoop
    simp only
    split
    · exact Or.inl ⟨_, rfl⟩
    · exact ih _ _

theorem short_cases (erfc : ℝ → ℝ) (eps : ℝ) (n : Nat) (Xi xi : ℝ) :
    (∃ v, phiShortOrdered erfc eps n Xi xi = .ok v) ∨ phiShortOrdered erfc eps n Xi xi = .throw .runtimeError := by
  unfold phiShortOrdered
  split
  · exact Or.inl ⟨_, rfl⟩
  · split
    · exact Or.inl ⟨_, rfl⟩
    · rcases shortLoop_throw erfc eps n Xi xi 101 0 0 with ⟨v, h⟩ | h <;> rw [h]
      · exact Or.inl ⟨_, rfl⟩
      · exact Or.inr rfl

/-- **C24, no argument-order error.** For all arguments the only possible error is the series not converging. -/
theorem C24_no_order_error (erfc : ℝ → ℝ) (eps : ℝ) (n : Nat) (Xi xi : ℝ) :
    (∃ v, phi erfc eps n Xi xi = .ok v) ∨ phi erfc eps n Xi xi = .throw .runtimeError := by
  have ho : ∀ Xi xi : ℝ, xi ≤ Xi → (∃ v, phiOrdered erfc eps n Xi xi = .ok v) ∨ phiOrdered erfc eps n Xi xi = .throw .runtimeError := by
    intro Xi xi h
    unfold phiOrdered
    split
    · unfold phiShort
      rw [if_neg (not_lt.2 h)]
      exact short_cases erfc eps n Xi xi
    · left
      unfold phiGeneral phiGeneralOrdered hn
      rw [if_neg (not_lt.2 h), if_neg (not_lt.2 h)]
      exact ⟨_, rfl⟩
  unfold phi
  split
  · rename_i h; exact ho xi Xi h.le
  · rename_i h; exact ho Xi xi (not_lt.1 h)

/-- **C24, no division by zero.** For nonnegative arguments the general expansion is used only with both arguments at least 2/5, and the power
series is divided by a power of a positive number. -/
theorem C24_branches (erfc : ℝ → ℝ) (eps : ℝ) (n : Nat) (Xi xi : ℝ) (h0 : 0 ≤ xi) (h : xi ≤ Xi) :
    (2 / 5 ≤ xi ∧ phi erfc eps n Xi xi = phiGeneralOrdered erfc n Xi xi) ∨
    (xi = 0 ∧ 0 < n ∧ phi erfc eps n Xi xi = .ok 0) ∨ (xi = 0 ∧ Xi = 0 ∧ n = 0 ∧ phi erfc eps n Xi xi = .ok 1) ∨
    (0 < Xi ∧ phi erfc eps n Xi xi = do let v ← shortLoop erfc eps n Xi xi 101 0 0; pure (v / Xi ^ (n + 1))) := by
  unfold phi
  rw [if_neg (not_lt.2 h)]
  unfold phiOrdered
  by_cases hb : xi < 4 / 10 ∨ (Xi < 1 / 2 ∧ xi < 2 * Xi)
  · right
    rw [if_pos hb, phiShort, if_neg (not_lt.2 h), phiShortOrdered]
    by_cases h1 : xi = 0 ∧ 0 < n
    · left; rw [if_pos h1]; exact ⟨h1.1, h1.2, rfl⟩
    · right
      rw [if_neg h1]
      by_cases h2 : n = 0 ∧ xi = 0 ∧ Xi = 0
      · left; rw [if_pos h2]; exact ⟨h2.2.1, h2.2.2, h2.1, rfl⟩
      · right
        rw [if_neg h2]
        refine ⟨?_, rfl⟩
        rcases lt_or_eq_of_le (h0.trans h) with h3 | h3
        · exact h3
        · exfalso
          have hx : xi = 0 := le_antisymm (h3 ▸ h) h0
          rcases Nat.eq_zero_or_pos n with hn | hn
          · exact h2 ⟨hn, hx, h3.symm⟩
          · exact h1 ⟨hx, hn⟩
  · left
    rw [if_neg hb, phiGeneral, if_neg (not_lt.2 h)]
    rw [not_or, not_lt] at hb
    exact ⟨by linarith [hb.1], rfl⟩

/-- **C24, value.** Whenever the smaller argument is at least 2/5 and the larger at least 1/2, in either order and also when they are equal, the
result is exactly the Legendre coefficient of `erfc(r₁₂) / r₁₂`, for every multipole order. -/
theorem C24_multipole (eps : ℝ) (n : Nat) (a b : ℝ) (h1 : 2 / 5 ≤ min a b) (h2 : 1 / 2 ≤ max a b) :
    phi Spec.erfc eps n a b = .ok (Spec.erfcMultipole n a b) := by
  have ho : ∀ Xi xi : ℝ, xi ≤ Xi → 2 / 5 ≤ xi → 1 / 2 ≤ Xi → phi Spec.erfc eps n Xi xi = .ok (Spec.erfcMultipole n Xi xi) := by
    intro Xi xi h k1 k2
    unfold phi
    rw [if_neg (not_lt.2 h), phiOrdered, if_neg (by rw [not_or]; exact ⟨by linarith, fun hc => by linarith [hc.1]⟩), phiGeneral, if_neg (not_lt.2 h),
      phiGeneralOrdered_gG n Xi xi (by linarith) h, gG_eq_jJ_le n Xi xi (by linarith) h]
    unfold jJ Spec.erfcMultipole
    simp only [one_mul]
  rcases le_total a b with h | h
  · rw [min_eq_left h] at h1
    rw [max_eq_right h] at h2
    rw [C24_symmetric, ho b a h h1 h2]
    unfold Spec.erfcMultipole Spec.distance
    simp only [show ∀ x, b ^ 2 + a ^ 2 - 2 * b * a * x = a ^ 2 + b ^ 2 - 2 * a * b * x from fun x => by ring]
  · rw [min_eq_right h] at h1
    rw [max_eq_left h] at h2
    exact ho a b h h1 h2

/-- the terms of the power series are added in order, in pairs -/
theorem shortLoop_sum (erfc : ℝ → ℝ) (eps : ℝ) (n : Nat) (Xi xi v : ℝ) : ∀ (fuel k : Nat),
    shortLoop erfc eps n Xi xi fuel k (∑ i ∈ range k, dnk erfc choose n i Xi * xi ^ (n + 2 * i)) = .ok v →
    ∃ j, j < fuel ∧ v = ∑ i ∈ range (k + 2 * (j + 1)), dnk erfc choose n i Xi * xi ^ (n + 2 * i) ∧
      |v - ∑ i ∈ range (k + 2 * j), dnk erfc choose n i Xi * xi ^ (n + 2 * i)| < eps * max |v| 1 ∧
      ∀ i < j, ¬ |(∑ q ∈ range (k + 2 * (i + 1)), dnk erfc choose n q Xi * xi ^ (n + 2 * q)) - ∑ q ∈ range (k + 2 * i), dnk erfc choose n q Xi * xi ^ (n + 2 * q)| <
        eps * max |∑ q ∈ range (k + 2 * (i + 1)), dnk erfc choose n q Xi * xi ^ (n + 2 * q)| 1 := by
  intro fuel
  induction fuel with
  | zero => intro k h; simp [shortLoop] at h
  | succ fuel ih =>
    intro k h
    unfold shortLoop at h
    simp only at h
    have e : (∑ i ∈ range k, dnk erfc choose n i Xi * xi ^ (n + 2 * i)) +
        (dnk erfc choose n k Xi * xi ^ (n + 2 * k) + dnk erfc choose n (k + 1) Xi * xi ^ (n + 2 * (k + 1))) =
        ∑ i ∈ range (k + 2), dnk erfc choose n i Xi * xi ^ (n + 2 * i) := by
      rw [sum_range_succ, sum_range_succ]; ring
    have e' : dnk erfc choose n k Xi * xi ^ (n + 2 * k) + dnk erfc choose n (k + 1) Xi * xi ^ (n + 2 * (k + 1)) =
        (∑ i ∈ range (k + 2), dnk erfc choose n i Xi * xi ^ (n + 2 * i)) - ∑ i ∈ range k, dnk erfc choose n i Xi * xi ^ (n + 2 * i) := by
      rw [← e]; ring
    rw [e] at h
    by_cases hc : |dnk erfc choose n k Xi * xi ^ (n + 2 * k) + dnk erfc choose n (k + 1) Xi * xi ^ (n + 2 * (k + 1))| <
        eps * max |∑ i ∈ range (k + 2), dnk erfc choose n i Xi * xi ^ (n + 2 * i)| 1
    · rw [if_pos hc] at h
      have hv := (Res.ok.inj h).symm
      refine ⟨0, by omega, hv, ?_, fun i hi => absurd hi (by omega)⟩
      rw [e'] at hc
      rw [hv]
      exact hc
    · rw [if_neg hc] at h
      obtain ⟨j, j1, j2, j3, j4⟩ := ih (k + 2) h
      refine ⟨j + 1, by omega, by rw [j2, show k + 2 + 2 * (j + 1) = k + 2 * (j + 1 + 1) by ring], by rw [← show k + 2 + 2 * j = k + 2 * (j + 1) by ring]; exact j3, ?_⟩
      intro i hi
      rcases i with _ | i
      · rw [e'] at hc; exact hc
      · have := j4 i (by omega)
        rw [show k + 2 + 2 * (i + 1) = k + 2 * (i + 1 + 1) by ring, show k + 2 + 2 * i = k + 2 * (i + 1) by ring] at this
        exact this

/-- the first `k` terms of the power series -/
noncomputable def seriesSum (erfc : ℝ → ℝ) (n : Nat) (Xi xi : ℝ) (k : Nat) : ℝ := ∑ i ∈ range k, dnk erfc choose n i Xi * xi ^ (n + 2 * i)

/-- **C24, the power series.** When the series branch delivers a value, it is a partial sum of the series over `k = 0, …, 2j + 1` divided by `Ξ^(n+1)`,
no term left out or taken twice, and `j ≤ 100` is the first for which the last two terms together are below the threshold. -/
theorem C24_series_sum (erfc : ℝ → ℝ) (eps : ℝ) (n : Nat) (Xi xi v : ℝ) (h0 : 0 < xi) (h : xi ≤ Xi) (hs : xi < 2 / 5 ∨ Xi < 1 / 2)
    (hv : phi erfc eps n Xi xi = .ok v) :
    ∃ j ≤ 100, v = seriesSum erfc n Xi xi (2 * (j + 1)) / Xi ^ (n + 1) ∧
      |seriesSum erfc n Xi xi (2 * (j + 1)) - seriesSum erfc n Xi xi (2 * j)| < eps * max |seriesSum erfc n Xi xi (2 * (j + 1))| 1 ∧
      ∀ i < j, ¬ |seriesSum erfc n Xi xi (2 * (i + 1)) - seriesSum erfc n Xi xi (2 * i)| < eps * max |seriesSum erfc n Xi xi (2 * (i + 1))| 1 := by
  have hb : xi < 4 / 10 ∨ (Xi < 1 / 2 ∧ xi < 2 * Xi) := by
    rcases hs with hs | hs
    · left; linarith
    · right; exact ⟨hs, by linarith⟩
  unfold phi at hv
  rw [if_neg (not_lt.2 h), phiOrdered, if_pos hb, phiShort, if_neg (not_lt.2 h), phiShortOrdered, if_neg (fun hc => h0.ne' hc.1),
    if_neg (fun hc => h0.ne' hc.2.1)] at hv
  rcases shortLoop_throw erfc eps n Xi xi 101 0 0 with ⟨u, hu⟩ | hu
  · rw [hu] at hv
    simp only [Res.ok_bind, Res.pure_eq, Res.ok.injEq] at hv
    have := shortLoop_sum erfc eps n Xi xi u 101 0 (by simpa using hu)
    obtain ⟨j, j1, j2, j3, j4⟩ := this
    simp only [Nat.zero_add] at j2 j3 j4
    refine ⟨j, by omega, by rw [← hv, j2]; rfl, ?_, j4⟩
    unfold seriesSum
    rw [← j2]; exact j3
  · rw [hu] at hv; simp at hv

/-! ### binomial coefficients -/

theorem foldl_prod (f : Nat → ℝ) (k : Nat) : (List.range k).foldl (fun v i => v * f i) 1 = ∏ i ∈ range k, f i := by
  induction k with
  | zero => rfl
  | succ k ih => rw [List.range_succ, List.foldl_append, ih, prod_range_succ]; rfl

theorem binom_nat (n m : Nat) : binom n m = (Nat.choose n m : ℝ) := by
  unfold binom
  induction m with
  | zero => simp
  | succ m ih =>
    rw [prod_range_succ, ih]
    have h := Nat.choose_succ_right_eq n m
    by_cases hm : m ≤ n
    · have h2 : ((Nat.choose n (m + 1) : ℝ)) * (m + 1) = Nat.choose n m * ((n : ℝ) - m) := by
        have := congrArg (fun x : Nat => (x : ℝ)) h
        push_cast [Nat.cast_sub hm] at this
        exact this
      have : (m : ℝ) + 1 ≠ 0 := by positivity
      push_cast
      rw [← mul_div_assoc, ← h2]
      field_simp
    · rw [Nat.choose_eq_zero_of_lt (by omega), Nat.choose_eq_zero_of_lt (by omega)]
      simp

theorem binom_neg_one (m : Nat) : binom (-1) m = (-1) ^ m := by
  unfold binom
  induction m with
  | zero => simp
  | succ m ih =>
    rw [prod_range_succ, ih, pow_succ]
    have : (m : ℝ) + 1 ≠ 0 := by positivity
    congr 1
    push_cast
    rw [div_eq_iff this]; ring

/-- **C24, coefficients (partial).** `choose` returns the true binomial coefficient when the upper argument is at least -1 or the lower one at
most 1. The remaining arguments are wrong in general: see `C24_choose_wrong`. -/
theorem C24_choose_partial (n : Int) (m : Nat) (h : -1 ≤ n ∨ m ≤ 1) : choose n m = binom n m := by
  unfold choose
  by_cases h1 : n = -1
  · rw [if_pos h1, h1, binom_neg_one]
  rw [if_neg h1]
  by_cases h2 : n = 0
  · rw [if_pos h2, h2]
    rw [show (0 : Int) = ((0 : Nat) : Int) from rfl, binom_nat]
    rcases Nat.eq_zero_or_pos m with h | h
    · simp [h]
    · rw [if_neg (by omega), Nat.choose_eq_zero_of_lt h]; simp
  rw [if_neg h2]
  by_cases h3 : m = 0
  · rw [if_pos h3, h3]; simp [binom]
  rw [if_neg h3]
  by_cases h4 : m = 1
  · rw [if_pos h4, h4]; simp [binom]
  rw [if_neg h4]
  have hn : 0 < n := by omega
  obtain ⟨k, rfl⟩ : ∃ k : Nat, n = k := ⟨n.toNat, by omega⟩
  by_cases h5 : 0 < (k : Int) ∧ 0 < m ∧ (k : Int) < m
  · rw [if_pos h5, binom_nat, Nat.choose_eq_zero_of_lt (by omega)]; simp
  · rw [if_neg h5, if_neg (by omega), foldl_prod (fun i => (((k : Int) : ℝ) - i) / ((i : ℝ) + 1))]
    have hmk : m ≤ k := by omega
    have := binom_nat k (min (m : Int) ((k : Int) - m)).toNat
    unfold binom at this
    rw [this, binom_nat]
    rcases le_total m (k - m) with hle | hle
    · rw [show (min (m : Int) ((k : Int) - m)).toNat = m by omega]
    · rw [show (min (m : Int) ((k : Int) - m)).toNat = k - m by omega, Nat.choose_symm hmk]

theorem choose_two (n : Int) (h : n ≤ -1) : choose n 2 = 1 := by
  obtain ⟨k, rfl⟩ : ∃ k : Nat, n = -1 - k := ⟨(-1 - n).toNat, by omega⟩
  clear h
  induction k with
  | zero => unfold choose; norm_num
  | succ k ih =>
    unfold choose
    rw [if_neg (by omega), if_neg (by omega), if_neg (by omega), if_neg (by omega), if_neg (by omega), if_pos (by omega)]
    rw [show (-1 : Int) - ((k + 1 : Nat) : Int) + ((2 : Nat) : Int) - 1 = -1 - k by push_cast; ring, ih]
    norm_num

theorem binom_two (n : Int) : binom n 2 = n * (n - 1) / 2 := by
  unfold binom
  rw [prod_range_succ, prod_range_succ]
  norm_num
  ring

/-- The coefficients of the series are wrong: for every order `k ≥ 4` the third coefficient, `C(2-k, 2)`, comes out as 1 instead of
`(k-1)(k-2)/2 ≥ 3`. -/
theorem C24_choose_wrong (k : Nat) (hk : 4 ≤ k) :
    choose ((3 : Int) - k - 1) (3 - 1) = 1 ∧ binom ((3 : Int) - k - 1) (3 - 1) = ((k : ℝ) - 1) * (k - 2) / 2 ∧
      choose ((3 : Int) - k - 1) (3 - 1) ≠ binom ((3 : Int) - k - 1) (3 - 1) := by
  have h1 : choose ((3 : Int) - k - 1) 2 = 1 := choose_two _ (by omega)
  have h2 : binom ((3 : Int) - k - 1) 2 = ((k : ℝ) - 1) * (k - 2) / 2 := by
    rw [binom_two]; push_cast; ring
  refine ⟨h1, h2, ?_⟩
  show choose ((3 : Int) - k - 1) 2 ≠ binom ((3 : Int) - k - 1) 2
  rw [h1, h2]
  have : (4 : ℝ) ≤ k := by exact_mod_cast hk
  nlinarith

/-- Terms of the series up to order 3 use correct coefficients. -/
theorem C24_series_partial (erfc : ℝ → ℝ) (n k : Nat) (hk : k ≤ 3) (Xi : ℝ) : dnk erfc choose n k Xi = dnk erfc binom n k Xi := by
  have hs : dnkSum choose n k Xi = dnkSum binom n k Xi := by
    unfold dnkSum
    have : ∀ l : List Nat, (∀ m ∈ l, 1 ≤ m ∧ m ≤ k) → ∀ s : ℝ,
        l.foldl (fun s (m : Nat) => s + choose ((m : Int) - k - 1) (m - 1) * (2 * Xi * Xi) ^ (k - m) / (doubleFactorial (2 * (n + k - m) + 1) : ℝ)) s =
        l.foldl (fun s (m : Nat) => s + binom ((m : Int) - k - 1) (m - 1) * (2 * Xi * Xi) ^ (k - m) / (doubleFactorial (2 * (n + k - m) + 1) : ℝ)) s := by
      intro l
      induction l with
      | nil => intro _ s; rfl
      | cons m l ih =>
        intro hl s
        have hm := hl m (by simp)
        rw [List.foldl_cons, List.foldl_cons, C24_choose_partial _ _ (by omega), ih (fun x hx => hl x (by simp [hx]))]
    apply this
    intro m hm
    have := List.mem_range'_1.1 hm
    omega
  unfold dnk
  rw [hs]

/-- The fourth-order term of the short-range series is too small, for every multipole and every positive argument. -/
theorem C24_series_wrong (erfc : ℝ → ℝ) (n : Nat) (Xi : ℝ) (hX : 0 < Xi) : dnk erfc choose n 4 Xi < dnk erfc binom n 4 Xi := by
  have hdf : ∀ k, 0 < doubleFactorial k := by
    intro k
    induction k using Nat.strong_induction_on with
    | _ k ih =>
      match k with
      | 0 => decide
      | 1 => decide
      | k + 2 => unfold doubleFactorial; exact Nat.mul_pos (by omega) (ih k (by omega))
  have hfac : factorial 4 = 24 := by decide
  unfold dnk
  simp only [if_neg (show ¬ (4 = 0) by decide), hfac]
  apply mul_lt_mul_of_pos_left
  · unfold dnkSum
    simp only [List.range', List.foldl_cons, List.foldl_nil]
    have e1 : choose ((1 : Nat) - (4 : Nat) - 1 : Int) (1 - 1) = binom ((1 : Nat) - (4 : Nat) - 1 : Int) (1 - 1) := C24_choose_partial _ _ (by omega)
    have e2 : choose (((1 + 1 : Nat) : Int) - (4 : Nat) - 1 : Int) (1 + 1 - 1) = binom (((1 + 1 : Nat) : Int) - (4 : Nat) - 1 : Int) (1 + 1 - 1) := C24_choose_partial _ _ (by omega)
    have e4 : choose (((1 + 1 + 1 + 1 : Nat) : Int) - (4 : Nat) - 1 : Int) (1 + 1 + 1 + 1 - 1) = binom (((1 + 1 + 1 + 1 : Nat) : Int) - (4 : Nat) - 1 : Int) (1 + 1 + 1 + 1 - 1) :=
      C24_choose_partial _ _ (by omega)
    obtain ⟨w1, w2, _⟩ := C24_choose_wrong 4 le_rfl
    have e3 : choose (((1 + 1 + 1 : Nat) : Int) - (4 : Nat) - 1 : Int) (1 + 1 + 1 - 1) < binom (((1 + 1 + 1 : Nat) : Int) - (4 : Nat) - 1 : Int) (1 + 1 + 1 - 1) := by
      show choose ((3 : Int) - (4 : Nat) - 1) (3 - 1) < binom ((3 : Int) - (4 : Nat) - 1) (3 - 1)
      rw [w1, w2]; norm_num
    rw [e1, e2, e4]
    have hp : 0 < (2 * Xi * Xi) ^ (4 - (1 + 1 + 1)) / (doubleFactorial (2 * (n + 4 - (1 + 1 + 1)) + 1) : ℝ) := by
      have := hdf (2 * (n + 4 - (1 + 1 + 1)) + 1)
      positivity
    have := mul_lt_mul_of_pos_right e3 hp
    simp only [mul_div_assoc]
    linarith
  · have : 0 < Real.sqrt Real.pi := Real.sqrt_pos.2 Real.pi_pos
    positivity

/-- equal arguments, and the smaller argument first -/
example : phi Spec.erfc 1 3 1 1 = .ok (Spec.erfcMultipole 3 1 1) ∧ phi Spec.erfc 1 2 (2 / 5) 7 = .ok (Spec.erfcMultipole 2 (2 / 5) 7) :=
  ⟨C24_multipole 1 3 1 1 (by norm_num) (by norm_num), C24_multipole 1 2 (2 / 5) 7 (by norm_num) (by norm_num)⟩

/-- a value from the series: with a generous threshold the first pair of terms is returned -/
example : ∃ v, phi (fun _ => 0) 100 0 1 (1 / 5) = .ok v := by
  rcases C24_no_order_error (fun _ => 0) 100 0 1 (1 / 5) with h | h
  · exact h
  · exfalso
    have : phi (fun _ => 0) 100 0 1 (1 / 5) = (shortLoop (fun _ => 0) 100 0 1 (1 / 5) 101 0 0).bind fun v => .ok (v / (1 : ℝ) ^ (0 + 1)) := by
      unfold phi phiOrdered phiShort phiShortOrdered
      rw [if_neg (by norm_num), if_pos (by norm_num), if_neg (by norm_num), if_neg (by norm_num), if_neg (by norm_num)]
      rfl
    rw [this] at h
    unfold shortLoop at h
    simp only at h
    rw [if_pos] at h
    · simp at h
    · have key : ∀ q : ℝ, |q| < 100 * max |0 + q| 1 := by
        intro q
        rw [zero_add]
        have h1 := le_max_left |q| 1
        have h2 := le_max_right |q| 1
        linarith
      exact key _

/-- arguments of the theorems: a mixed pair in the series region, and equal arguments -/
example : (2 / 5 ≤ (1 : ℝ) ∧ phi (fun _ => 0) 1 2 3 1 = phiGeneralOrdered (fun _ => 0) 2 3 1) := by
  rcases C24_branches (fun _ => 0) 1 2 3 1 (by norm_num) (by norm_num) with h | h | h | h
  · exact h
  · exact absurd h.1 (by norm_num)
  · exact absurd h.1 (by norm_num)
  · refine ⟨by norm_num, ?_⟩
    unfold phi phiOrdered phiGeneral
    norm_num

example : choose 5 3 = 10 := by
  rw [C24_choose_partial 5 3 (by omega)]
  have := binom_nat 5 3
  norm_num at this
  rw [this]; norm_num [Nat.choose]

end Erfc
end HelFEM
