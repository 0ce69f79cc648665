import Verif.Model.Couplings
import Verif.Lemmas.GauntInt
import Verif.Props.Gaunt

/-!
# Lemmas for C69: table entries and the constants of the couplings
-/

namespace HelFEM
namespace Harm

open Polynomial Gaunt

theorem sign_abs (M : Int) : (if M % 2 = 0 then (1 : ℝ) else -1) = (-1) ^ M.natAbs := by
  split_ifs with h
  · rw [Even.neg_one_pow (Nat.even_iff.2 (by omega))]
  · rw [Odd.neg_one_pow (Nat.odd_iff.2 (by omega))]

/-- the coefficient of `gaunt_coefficient` as an integral over the cosine -/
theorem direct_eq (L : Nat) (M : Int) (l : Nat) (m : Int) (l' : Nat) (m' : Int) :
    direct Spec.gaunt L M l m l' m' = if M = m + m' then 2 * Real.pi * ∫ c in (-1 : ℝ)..1, yx L M c * yx l m c * yx l' m' c else 0 := by
  have hs : ((-1 : ℝ)) ^ M.natAbs * (-1) ^ M.natAbs = 1 := by rw [← mul_pow]; simp
  unfold direct
  rw [gaunt_eq, sign_abs]
  by_cases h : M = m + m'
  · rw [if_pos h, if_pos (by omega)]
    have : (fun c => yx L (-M) c * yx l m c * yx l' m' c) = fun c => (-1) ^ M.natAbs * (yx L M c * yx l m c * yx l' m' c) := by
      funext c; rw [yx_neg]; ring
    rw [this, intervalIntegral.integral_const_mul]
    linear_combination (2 * Real.pi * ∫ c in (-1 : ℝ)..1, yx L M c * yx l m c * yx l' m' c) * hs
  · rw [if_neg h, if_neg (by omega), mul_zero]

theorem direct_sphere (L : Nat) (M : Int) (l : Nat) (m : Int) (l' : Nat) (m' : Int) :
    ((direct Spec.gaunt L M l m l' m' : ℝ) : ℂ) = Spec.sphere fun c φ => (starRingEnd ℂ) (sph L M c φ) * sph l m c φ * sph l' m' c φ := by
  have := sphere_triple L M l m l' m' (fun _ => 1)
  simp only [Complex.ofReal_one, mul_one] at this
  rw [this, direct_eq]

theorem yx_zero (n : Nat) (c : ℝ) (h0 : -1 ≤ c) (h1 : c ≤ 1) : yx n 0 c = √((2 * n + 1) / (4 * Real.pi)) * (Poly.pP n).eval c := by
  rw [yx_eq n 0 c h0 h1]
  simp only [yc, Int.natAbs_zero, lt_irrefl, if_false, pow_zero, one_mul, mul_one, Function.iterate_zero, id, nrm, Nat.sub_zero, Nat.add_zero]
  rw [div_self (by positivity), mul_one]

theorem sqrtPi_mul (a : Nat) (n : Nat) (k : ℝ) (hk : 0 ≤ k) (h : (a : ℝ) * (2 * n + 1) = k ^ 2) : sqrtPi a * √((2 * n + 1) / (4 * Real.pi)) = k / 2 := by
  rw [sqrtPi, ← Real.sqrt_mul (by positivity)]
  rw [show (a : ℝ) * Real.pi * ((2 * n + 1) / (4 * Real.pi)) = (k / 2) ^ 2 by
    field_simp
    linear_combination 4 * h]
  exact Real.sqrt_sq (by positivity)

theorem sqrtPiBy3_mul : sqrtPiBy3 * √((2 * (1 : Nat) + 1) / (4 * Real.pi)) = 1 / 2 := by
  rw [sqrtPiBy3, ← Real.sqrt_mul (by positivity)]
  rw [show Real.pi / 3 * ((2 * ((1 : Nat) : ℝ) + 1) / (4 * Real.pi)) = (1 / 2) ^ 2 by
    push_cast
    field_simp
    norm_num]
  exact Real.sqrt_sq (by positivity)

theorem pP_two (x : ℝ) : (Poly.pP 2).eval x = (3 * x ^ 2 - 1) / 2 := by simp [Poly.pP]; ring
theorem pP_three (x : ℝ) : (Poly.pP 3).eval x = (5 * x ^ 3 - 3 * x) / 2 := by simp [Poly.pP]; ring
theorem pP_four (x : ℝ) : (Poly.pP 4).eval x = (35 * x ^ 4 - 30 * x ^ 2 + 3) / 8 := by simp [Poly.pP]; ring
theorem pP_five (x : ℝ) : (Poly.pP 5).eval x = (63 * x ^ 5 - 70 * x ^ 3 + 15 * x) / 8 := by simp [Poly.pP]; ring

/-- combination of three couplings through `Y_k^0` -/
theorem combo (lj : Nat) (mj : Int) (li : Nat) (a1 a2 a3 : ℝ) (k1 k2 k3 : Nat) (g : ℝ → ℝ)
    (hg : ∀ c, -1 ≤ c → c ≤ 1 → a1 * yx k1 0 c + a2 * yx k2 0 c + a3 * yx k3 0 c = g c) :
    a1 * direct Spec.gaunt lj mj k1 0 li mj + a2 * direct Spec.gaunt lj mj k2 0 li mj + a3 * direct Spec.gaunt lj mj k3 0 li mj =
      2 * Real.pi * ∫ c in (-1 : ℝ)..1, yx lj mj c * g c * yx li mj c := by
  have hz : mj = 0 + mj := by omega
  rw [direct_eq, direct_eq, direct_eq, if_pos hz, if_pos hz, if_pos hz]
  have hI : ∀ k, IntervalIntegrable (fun c => yx lj mj c * yx k 0 c * yx li mj c) MeasureTheory.volume (-1) 1 := fun k =>
    (((yx_cont lj mj).mul (yx_cont k 0)).mul (yx_cont li mj)).intervalIntegrable _ _
  have e : ∫ c in (-1 : ℝ)..1, yx lj mj c * g c * yx li mj c =
      ∫ c in (-1 : ℝ)..1, (a1 * (yx lj mj c * yx k1 0 c * yx li mj c) + a2 * (yx lj mj c * yx k2 0 c * yx li mj c) + a3 * (yx lj mj c * yx k3 0 c * yx li mj c)) := by
    refine intervalIntegral.integral_congr fun c hc => ?_
    rw [Set.uIcc_of_le (by norm_num)] at hc
    beta_reduce
    rw [← hg c hc.1 hc.2]
    ring
  rw [e, intervalIntegral.integral_add (((hI k1).const_mul a1).add ((hI k2).const_mul a2)) ((hI k3).const_mul a3),
    intervalIntegral.integral_add ((hI k1).const_mul a1) ((hI k2).const_mul a2),
    intervalIntegral.integral_const_mul, intervalIntegral.integral_const_mul, intervalIntegral.integral_const_mul]
  ring

theorem sphere_diag (lj : Nat) (mj : Int) (li : Nat) (g : ℝ → ℝ) :
    Spec.sphere (fun c φ => (starRingEnd ℂ) (sph lj mj c φ) * (g c : ℝ) * sph li mj c φ) = ((2 * Real.pi * ∫ c in (-1 : ℝ)..1, yx lj mj c * g c * yx li mj c : ℝ) : ℂ) := by
  rw [sphere_pair, if_pos rfl]

theorem sphere_off (lj : Nat) (mj : Int) (li : Nat) (mi : Int) (h : mi ≠ mj) (g : ℝ → ℝ) :
    Spec.sphere (fun c φ => (starRingEnd ℂ) (sph lj mj c φ) * (g c : ℝ) * sph li mi c φ) = 0 := by
  rw [sphere_pair, if_neg (Ne.symm h), Complex.ofReal_zero]

/-- a table value inside the declared ranges and the `m` window -/
theorem table_coeff {T : Table ℝ} {Lmax lmax lpmax : Nat} {mcap_ : Int}
    (hT : ∀ L M l m lp : Int, T.coeff L M l m lp =
      let w : Int := if mcap_ < 0 then max (max Lmax lmax) lpmax else min mcap_ (max (max Lmax lmax) lpmax)
      if (0 ≤ L ∧ L ≤ Lmax) ∧ (0 ≤ l ∧ l ≤ lmax) ∧ (0 ≤ lp ∧ lp ≤ lpmax) then
        (if |M| ≤ L ∧ |m| ≤ l ∧ (w < |M| ∨ w < |m|) then .throw .logicError
        else .ok (direct Spec.gaunt L.toNat M l.toNat m lp.toNat (M - m)))
      else .ok 0) (L : Nat) (M : Int) (l : Nat) (m : Int) (lp : Nat) (hL : L ≤ Lmax) (hl : l ≤ lmax) (hlp : lp ≤ lpmax)
    (hw : mcap_ < 0 ∨ (|M| ≤ mcap_ ∧ |m| ≤ mcap_)) : T.coeff L M l m lp = .ok (direct Spec.gaunt L M l m lp (M - m)) := by
  rw [hT]
  simp only
  rw [if_pos (by omega), if_neg]
  · simp only [Int.toNat_natCast]
  · split_ifs <;> omega

end Harm
end HelFEM
