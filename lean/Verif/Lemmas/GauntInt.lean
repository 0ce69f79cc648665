import Verif.Lemmas.SphereInt

/-!
# Lemmas for C69: symmetry of the integrals of three harmonics, expansions in harmonics
-/

namespace HelFEM
namespace Harm

open Polynomial

theorem abs_even (a b c : Int) (h : a + b + c = 0) : ∃ k, a.natAbs + b.natAbs + c.natAbs = 2 * k := ⟨(a.natAbs + b.natAbs + c.natAbs) / 2, by omega⟩

theorem triple_poly' (l1 : Nat) (m1 : Int) (l2 : Nat) (m2 : Int) (l3 : Nat) (m3 : Int) (k : Nat) (hk : m1.natAbs + m2.natAbs + m3.natAbs = 2 * k) :
    ∫ c in (-1 : ℝ)..1, yx l1 m1 c * yx l2 m2 c * yx l3 m3 c = yc l1 m1 * yc l2 m2 * yc l3 m3 *
      Poly.refInt ((1 - X ^ 2) ^ k * (derivative^[m1.natAbs] (Poly.pP l1)) * (derivative^[m2.natAbs] (Poly.pP l2) * derivative^[m3.natAbs] (Poly.pP l3))) := by
  have := triple_poly l1 m1 l2 m2 l3 m3 1 k hk
  simpa using this

theorem gaunt_symmetric : Gaunt.Symmetric Spec.gaunt := by
  have hrange : ∀ (l1 : Nat) m1 (l2 : Nat) m2 (l3 : Nat) m3, ((l1 : Int) < |m1| ∨ (l2 : Int) < |m2| ∨ (l3 : Int) < |m3|) → Spec.gaunt l1 m1 l2 m2 l3 m3 = 0 := by
    intro l1 m1 l2 m2 l3 m3 h
    rw [gaunt_eq]
    have : (fun c => yx l1 m1 c * yx l2 m2 c * yx l3 m3 c) = fun _ => 0 := by
      funext c
      rcases h with h | h | h <;> rw [yx_range _ _ h] <;> ring
    rw [this]
    simp
  refine ⟨?_, ?_, ?_, ?_, ?_, hrange⟩
  · intro l1 m1 l2 m2 l3 m3 _
    rw [gaunt_eq, gaunt_eq, add_comm m2 m1]
    simp only [mul_comm (yx l1 m1 _)]
  · intro l1 m1 l2 m2 l3 m3 _
    rw [gaunt_eq, gaunt_eq, add_right_comm]
    congr 3
    funext c
    ring
  · intro l1 m1 l2 m2 l3 m3 h
    obtain ⟨k, hk⟩ := abs_even _ _ _ h
    rw [gaunt_eq, gaunt_eq, if_pos h, if_pos (by omega)]
    congr 2
    funext c
    have e : ((-1 : ℝ)) ^ m1.natAbs * (-1) ^ m2.natAbs * (-1) ^ m3.natAbs = 1 := by
      rw [← pow_add, ← pow_add, hk, pow_mul]; simp
    rw [yx_neg, yx_neg, yx_neg]
    linear_combination -(yx l1 m1 c * yx l2 m2 c * yx l3 m3 c) * e
  · intro l1 m1 l2 m2 l3 m3 h
    by_cases hr : (l1 : Int) < |m1| ∨ (l2 : Int) < |m2| ∨ (l3 : Int) < |m3|
    · exact hrange _ _ _ _ _ _ hr
    push Not at hr
    simp only [Int.abs_eq_natAbs] at hr
    rw [gaunt_eq]
    split_ifs with hm
    swap
    · rfl
    obtain ⟨k, hk⟩ := abs_even _ _ _ hm
    obtain ⟨e, he⟩ : ∃ e, k = m1.natAbs + e := ⟨k - m1.natAbs, by omega⟩
    rw [triple_poly' _ _ _ _ _ _ k hk, he, pow_add,
      show (1 - X ^ 2 : ℝ[X]) ^ m1.natAbs * (1 - X ^ 2) ^ e * derivative^[m1.natAbs] (Poly.pP l1) * (derivative^[m2.natAbs] (Poly.pP l2) * derivative^[m3.natAbs] (Poly.pP l3)) =
        (1 - X ^ 2) ^ m1.natAbs * derivative^[m1.natAbs] (Poly.pP l1) * ((1 - X ^ 2) ^ e * (derivative^[m2.natAbs] (Poly.pP l2) * derivative^[m3.natAbs] (Poly.pP l3))) by ring,
      assoc_orth_low, mul_zero, mul_zero]
    have d0 : ((1 - X ^ 2 : ℝ[X]) ^ e).natDegree ≤ e * 2 := natDegree_pow_le_of_le _ (by compute_degree)
    have d1 := natDegree_iter l2 m2.natAbs
    have d2 := natDegree_iter l3 m3.natAbs
    have d3 := natDegree_mul_le (p := derivative^[m2.natAbs] (Poly.pP l2)) (q := derivative^[m3.natAbs] (Poly.pP l3))
    have d4 := natDegree_mul_le (p := (1 - X ^ 2 : ℝ[X]) ^ e) (q := derivative^[m2.natAbs] (Poly.pP l2) * derivative^[m3.natAbs] (Poly.pP l3))
    omega
  · intro l1 m1 l2 m2 l3 m3 h
    rw [gaunt_eq]
    split_ifs with hm
    swap
    · rfl
    obtain ⟨k, hk⟩ := abs_even _ _ _ hm
    rw [triple_poly' _ _ _ _ _ _ k hk]
    have hodd : ((-1 : ℝ)) ^ (l1 + m1.natAbs) * (-1) ^ (l2 + m2.natAbs) * (-1) ^ (l3 + m3.natAbs) = -1 := by
      rw [← pow_add, ← pow_add]
      exact Odd.neg_one_pow (Nat.odd_iff.2 (by omega))
    have := refInt_refl ((1 - X ^ 2) ^ k * (derivative^[m1.natAbs] (Poly.pP l1)) * (derivative^[m2.natAbs] (Poly.pP l2) * derivative^[m3.natAbs] (Poly.pP l3)))
    simp only [mul_comp, pow_comp, sub_comp, one_comp, X_comp, iter_refl, neg_sq] at this
    rw [show (1 - X ^ 2 : ℝ[X]) ^ k * (C ((-1) ^ (l1 + m1.natAbs)) * derivative^[m1.natAbs] (Poly.pP l1)) * (C ((-1) ^ (l2 + m2.natAbs)) * derivative^[m2.natAbs] (Poly.pP l2) * (C ((-1) ^ (l3 + m3.natAbs)) * derivative^[m3.natAbs] (Poly.pP l3))) =
      C (((-1 : ℝ)) ^ (l1 + m1.natAbs) * (-1) ^ (l2 + m2.natAbs) * (-1) ^ (l3 + m3.natAbs)) * ((1 - X ^ 2) ^ k * (derivative^[m1.natAbs] (Poly.pP l1)) * (derivative^[m2.natAbs] (Poly.pP l2) * derivative^[m3.natAbs] (Poly.pP l3))) by
        rw [C_mul, C_mul]; ring, Poly.refInt_C_mul, hodd] at this
    have h0 : Poly.refInt ((1 - X ^ 2) ^ k * (derivative^[m1.natAbs] (Poly.pP l1)) * (derivative^[m2.natAbs] (Poly.pP l2) * derivative^[m3.natAbs] (Poly.pP l3))) = 0 := by linarith
    rw [h0]
    ring

/-! ### Expansions -/

/-- `sin^|M| q(cos)` -/
noncomputable def ang (M : Int) (q : ℝ[X]) (c : ℝ) : ℝ := √(1 - c ^ 2) ^ M.natAbs * q.eval c

theorem ang_cont (M : Int) (q : ℝ[X]) : Continuous (ang M q) := by
  have := Polynomial.continuous q
  unfold ang
  fun_prop

theorem ang_add (M : Int) (p q : ℝ[X]) (c : ℝ) : ang M (p + q) c = ang M p c + ang M q c := by
  simp only [ang, eval_add]; ring

theorem ang_C_mul (M : Int) (a : ℝ) (q : ℝ[X]) (c : ℝ) : ang M (C a * q) c = a * ang M q c := by
  simp only [ang, eval_mul, eval_C]; ring

/-- component of `sin^|M| q(cos)` along `Y_L^M` -/
noncomputable def comp (M : Int) (q : ℝ[X]) (L : Nat) : ℝ := 2 * Real.pi * ∫ c in (-1 : ℝ)..1, yx L M c * ang M q c

theorem comp_add (M : Int) (p q : ℝ[X]) (L : Nat) : comp M (p + q) L = comp M p L + comp M q L := by
  unfold comp
  have : (fun c => yx L M c * ang M (p + q) c) = fun c => yx L M c * ang M p c + yx L M c * ang M q c := by
    funext c; rw [ang_add]; ring
  rw [this, intervalIntegral.integral_add]
  · ring
  · exact ((yx_cont L M).mul (ang_cont M p)).intervalIntegrable _ _
  · exact ((yx_cont L M).mul (ang_cont M q)).intervalIntegrable _ _

theorem comp_C_mul (M : Int) (a : ℝ) (q : ℝ[X]) (L : Nat) : comp M (C a * q) L = a * comp M q L := by
  unfold comp
  have : (fun c => yx L M c * ang M (C a * q) c) = fun c => a * (yx L M c * ang M q c) := by
    funext c; rw [ang_C_mul]; ring
  rw [this, intervalIntegral.integral_const_mul]
  ring

theorem yc_ne (l : Nat) (m : Int) (h : m.natAbs ≤ l) : yc l m ≠ 0 := by
  have := (nrm_pos l m.natAbs).ne'
  unfold yc
  split_ifs
  · exact this
  · exact mul_ne_zero (pow_ne_zero _ (by norm_num)) this

theorem ang_assoc (l : Nat) (M : Int) (h : M.natAbs ≤ l) (c : ℝ) (h0 : -1 ≤ c) (h1 : c ≤ 1) : ang M (derivative^[M.natAbs] (Poly.pP l)) c = (yc l M)⁻¹ * yx l M c := by
  rw [yx_eq l M c h0 h1, ang]
  field_simp [yc_ne l M h]

theorem yx_orth (L l : Nat) (M : Int) (hL : M.natAbs ≤ L) (h : M.natAbs ≤ l) : ∫ c in (-1 : ℝ)..1, yx L M c * yx l M c = if L = l then 1 / (2 * Real.pi) else 0 := by
  have := yv_orth L l M (by rw [Int.abs_eq_natAbs]; omega) (by rw [Int.abs_eq_natAbs]; omega)
  simp only [Nat.cast_inj] at this
  exact this

theorem comp_assoc (l : Nat) (M : Int) (h : M.natAbs ≤ l) (L : Nat) : comp M (derivative^[M.natAbs] (Poly.pP l)) L = if L = l then (yc l M)⁻¹ else 0 := by
  unfold comp
  have e : ∫ c in (-1 : ℝ)..1, yx L M c * ang M (derivative^[M.natAbs] (Poly.pP l)) c = (yc l M)⁻¹ * ∫ c in (-1 : ℝ)..1, yx L M c * yx l M c := by
    rw [← intervalIntegral.integral_const_mul]
    refine intervalIntegral.integral_congr fun c hc => ?_
    rw [Set.uIcc_of_le (by norm_num)] at hc
    rw [ang_assoc l M h c hc.1 hc.2]
    ring
  rw [e]
  by_cases hL : M.natAbs ≤ L
  · rw [yx_orth L l M hL h]
    split_ifs
    · field_simp [Real.pi_ne_zero]
    · ring
  · have z : (fun c => yx L M c * yx l M c) = fun _ => 0 := by
      funext c
      rw [yx_range L M (by rw [Int.abs_eq_natAbs]; omega), zero_mul]
    rw [z, if_neg (by omega)]
    simp

theorem iter_lead (l m d : Nat) (h : l = m + d) : (derivative^[m] (Poly.pP l)).coeff d ≠ 0 := by
  subst h
  rw [coeff_iterate_derivative, nsmul_eq_mul, add_comm d m]
  refine mul_ne_zero ?_ (Poly.pP_coeff_pos _).ne'
  exact_mod_cast (Nat.descFactorial_pos.2 (by omega)).ne'

/-- finite expansion in harmonics of one `M` -/
theorem ang_expand (M : Int) : ∀ (d : Nat) (q : ℝ[X]) (_ : q.natDegree ≤ d) (n : Nat) (_ : d + M.natAbs ≤ n) (c : ℝ) (_ : -1 ≤ c) (_ : c ≤ 1),
    ang M q c = ∑ L ∈ Finset.range (n + 1), comp M q L * yx L M c := by
  have key : ∀ (d : Nat) (a : ℝ) (n : Nat), d + M.natAbs ≤ n → ∀ c : ℝ, -1 ≤ c → c ≤ 1 →
      ang M (C a * derivative^[M.natAbs] (Poly.pP (M.natAbs + d))) c = ∑ L ∈ Finset.range (n + 1), comp M (C a * derivative^[M.natAbs] (Poly.pP (M.natAbs + d))) L * yx L M c := by
    intro d a n hn c h0 h1
    rw [Finset.sum_eq_single (M.natAbs + d)]
    · rw [comp_C_mul, comp_assoc _ _ (by omega), if_pos rfl, ang_C_mul, ang_assoc _ _ (by omega) c h0 h1]; ring
    · intro L _ hL
      rw [comp_C_mul, comp_assoc _ _ (by omega), if_neg hL]; ring
    · intro h
      exact absurd (Finset.mem_range.2 (by omega)) h
  have step : ∀ (d : Nat) (q : ℝ[X]), q.natDegree ≤ d → ∃ a r, q = C a * derivative^[M.natAbs] (Poly.pP (M.natAbs + d)) + r ∧ (∀ i, d ≤ i → r.coeff i = 0) := by
    intro d q hq
    have hl := iter_lead (M.natAbs + d) M.natAbs d rfl
    refine ⟨q.coeff d / (derivative^[M.natAbs] (Poly.pP (M.natAbs + d))).coeff d, q - C (q.coeff d / (derivative^[M.natAbs] (Poly.pP (M.natAbs + d))).coeff d) * derivative^[M.natAbs] (Poly.pP (M.natAbs + d)), by ring, ?_⟩
    intro i hi
    rw [coeff_sub, coeff_C_mul]
    rcases hi.eq_or_lt with rfl | hi
    · rw [div_mul_cancel₀ _ hl, sub_self]
    · have z1 : q.coeff i = 0 := coeff_eq_zero_of_natDegree_lt (by omega)
      have z2 : (derivative^[M.natAbs] (Poly.pP (M.natAbs + d))).coeff i = 0 :=
        coeff_eq_zero_of_natDegree_lt (lt_of_le_of_lt (natDegree_iter _ _) (by rw [Nat.add_sub_cancel_left]; exact hi))
      rw [z1, z2]
      ring
  intro d
  induction d with
  | zero =>
    intro q hq n hn c h0 h1
    obtain ⟨a, r, hr, hz⟩ := step 0 q hq
    have : r = 0 := by ext i; simpa using hz i (by omega)
    rw [this, add_zero] at hr
    rw [hr]
    exact key 0 a n hn c h0 h1
  | succ d ih =>
    intro q hq n hn c h0 h1
    obtain ⟨a, r, hr, hz⟩ := step (d + 1) q hq
    have hrd : r.natDegree ≤ d := natDegree_le_iff_coeff_eq_zero.2 fun i hi => hz i hi
    rw [hr, ang_add, key (d + 1) a n hn c h0 h1, ih r hrd n (by omega) c h0 h1, ← Finset.sum_add_distrib]
    exact Finset.sum_congr rfl fun L _ => by rw [comp_add]; ring

/-- product of a harmonic and a polynomial in the cosine -/
theorem yx_ang (l : Nat) (m : Int) (g : ℝ[X]) (c : ℝ) (h0 : -1 ≤ c) (h1 : c ≤ 1) : g.eval c * yx l m c = ang m (C (yc l m) * g * derivative^[m.natAbs] (Poly.pP l)) c := by
  rw [yx_eq l m c h0 h1, ang]
  simp only [eval_mul, eval_C]
  ring

theorem expand_of_ang (M : Int) (f : ℝ → ℝ) (q : ℝ[X]) (hf : ∀ c, -1 ≤ c → c ≤ 1 → f c = ang M q c) (n : Nat) (hn : q.natDegree + M.natAbs ≤ n) (c : ℝ) (h0 : -1 ≤ c) (h1 : c ≤ 1) :
    f c = ∑ L ∈ Finset.range (n + 1), (2 * Real.pi * ∫ c in (-1 : ℝ)..1, yx L M c * f c) * yx L M c := by
  rw [hf c h0 h1, ang_expand M q.natDegree q le_rfl n hn c h0 h1]
  refine Finset.sum_congr rfl fun L _ => ?_
  congr 1
  unfold comp
  congr 1
  refine intervalIntegral.integral_congr fun c hc => ?_
  rw [Set.uIcc_of_le (by norm_num)] at hc
  rw [hf c hc.1 hc.2]

/-- a harmonic times a polynomial in the cosine is a finite sum of harmonics -/
theorem yx_poly_expand (l : Nat) (m : Int) (g : ℝ[X]) (n : Nat) (hn : l + g.natDegree ≤ n) (c : ℝ) (h0 : -1 ≤ c) (h1 : c ≤ 1) :
    g.eval c * yx l m c = ∑ L ∈ Finset.range (n + 1), (2 * Real.pi * ∫ c in (-1 : ℝ)..1, yx L m c * (g.eval c * yx l m c)) * yx L m c := by
  by_cases hr : (l : Int) < |m|
  · simp only [yx_range l m hr, mul_zero, intervalIntegral.integral_zero, zero_mul, Finset.sum_const_zero]
  refine expand_of_ang m (fun c => g.eval c * yx l m c) _ (fun c h0 h1 => yx_ang l m g c h0 h1) n ?_ c h0 h1
  have d1 := natDegree_iter l m.natAbs
  have d2 := natDegree_mul_le (p := C (yc l m) * g) (q := derivative^[m.natAbs] (Poly.pP l))
  have d3 := natDegree_C_mul_le (yc l m) g
  rw [Int.abs_eq_natAbs] at hr
  omega

/-- a product of two harmonics is a finite sum of harmonics -/
theorem yx_mul_expand (l : Nat) (m : Int) (l' : Nat) (m' : Int) (n : Nat) (hn : l + l' ≤ n) (c : ℝ) (h0 : -1 ≤ c) (h1 : c ≤ 1) :
    yx l m c * yx l' m' c = ∑ L ∈ Finset.range (n + 1), (2 * Real.pi * ∫ c in (-1 : ℝ)..1, yx L (m + m') c * (yx l m c * yx l' m' c)) * yx L (m + m') c := by
  by_cases hr : (l : Int) < |m|
  · simp only [yx_range l m hr, mul_zero, zero_mul, intervalIntegral.integral_zero, Finset.sum_const_zero]
  by_cases hr' : (l' : Int) < |m'|
  · simp only [yx_range l' m' hr', mul_zero, zero_mul, intervalIntegral.integral_zero, Finset.sum_const_zero]
  rw [Int.abs_eq_natAbs] at hr hr'
  obtain ⟨e, he⟩ : ∃ e, m.natAbs + m'.natAbs = (m + m').natAbs + 2 * e := ⟨(m.natAbs + m'.natAbs - (m + m').natAbs) / 2, by omega⟩
  refine expand_of_ang (m + m') (fun c => yx l m c * yx l' m' c) (C (yc l m * yc l' m') * ((1 - X ^ 2) ^ e * (derivative^[m.natAbs] (Poly.pP l) * derivative^[m'.natAbs] (Poly.pP l')))) ?_ n ?_ c h0 h1
  · intro c h0 h1
    rw [yx_eq l m c h0 h1, yx_eq l' m' c h0 h1, ang]
    simp only [eval_mul, eval_C, eval_pow, eval_sub, eval_one, eval_X]
    have hs : √(1 - c ^ 2) ^ m.natAbs * √(1 - c ^ 2) ^ m'.natAbs = √(1 - c ^ 2) ^ (m + m').natAbs * (1 - c ^ 2) ^ e := by
      rw [← pow_add, he, pow_add, pow_mul, Real.sq_sqrt (by nlinarith)]
    linear_combination (yc l m * yc l' m' * (derivative^[m.natAbs] (Poly.pP l)).eval c * (derivative^[m'.natAbs] (Poly.pP l')).eval c) * hs
  · have d0 : ((1 - X ^ 2 : ℝ[X]) ^ e).natDegree ≤ e * 2 := natDegree_pow_le_of_le _ (by compute_degree)
    have d1 := natDegree_iter l m.natAbs
    have d2 := natDegree_iter l' m'.natAbs
    have d3 := natDegree_mul_le (p := derivative^[m.natAbs] (Poly.pP l)) (q := derivative^[m'.natAbs] (Poly.pP l'))
    have d4 := natDegree_mul_le (p := (1 - X ^ 2 : ℝ[X]) ^ e) (q := derivative^[m.natAbs] (Poly.pP l) * derivative^[m'.natAbs] (Poly.pP l'))
    have d5 := natDegree_C_mul_le (yc l m * yc l' m') ((1 - X ^ 2 : ℝ[X]) ^ e * (derivative^[m.natAbs] (Poly.pP l) * derivative^[m'.natAbs] (Poly.pP l')))
    omega

end Harm
end HelFEM
