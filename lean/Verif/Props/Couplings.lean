import Verif.Lemmas.Couplings

/-!
# C69: Gaunt tables and angular couplings are integrals over the sphere

`Spec.gaunt` is the integral of three spherical harmonics, the value the external routine computes. It has every symmetry that the table
relies on, so the theorems about tables hold for it.
-/

namespace HelFEM
namespace Harm

open Polynomial Gaunt

/-- The integral of three harmonics is real. -/
theorem C69_gaunt_real (l1 : Nat) (m1 : Int) (l2 : Nat) (m2 : Int) (l3 : Nat) (m3 : Int) :
    ((Spec.gaunt l1 m1 l2 m2 l3 m3 : ℝ) : ℂ) = Spec.sphere fun c φ => sph l1 m1 c φ * sph l2 m2 c φ * sph l3 m3 c φ := by
  rw [gaunt_complex, gaunt_eq]

/-- It does not change under a permutation of the three harmonics or a change of sign of the three `m`, and vanishes outside the triangle
inequality, for odd `l1 + l2 + l3` and for `|m| > l`. -/
theorem C69_gaunt_symmetric : Gaunt.Symmetric Spec.gaunt := gaunt_symmetric

/-- The rest of the triangle inequality, and the sum rule for `m`. -/
theorem C69_gaunt_selection (l1 : Nat) (m1 : Int) (l2 : Nat) (m2 : Int) (l3 : Nat) (m3 : Int)
    (h : m1 + m2 + m3 ≠ 0 ∨ l1 + l2 < l3 ∨ l1 + l3 < l2 ∨ l2 + l3 < l1) : Spec.gaunt l1 m1 l2 m2 l3 m3 = 0 := by
  by_cases hm : m1 + m2 + m3 = 0
  · rcases h with h | h | h | h
    · exact absurd hm h
    · rw [gaunt_symmetric.swap23 _ _ _ _ _ _ hm, gaunt_symmetric.swap12 _ _ _ _ _ _ (by omega)]
      exact gaunt_symmetric.triangle _ _ _ _ _ _ h
    · rw [gaunt_symmetric.swap12 _ _ _ _ _ _ hm]
      exact gaunt_symmetric.triangle _ _ _ _ _ _ h
    · exact gaunt_symmetric.triangle _ _ _ _ _ _ h
  · rw [gaunt_eq, if_neg hm]

/-- `Y_0^0` couples a harmonic to itself with `1/sqrt(4 pi)`. -/
theorem C69_monopole (l : Nat) (m : Int) (h : |m| ≤ l) : direct Spec.gaunt l m 0 0 l m = 1 / √(4 * Real.pi) := by
  rw [Int.abs_eq_natAbs] at h
  rw [direct_eq, if_pos (by omega)]
  have e : ∫ c in (-1 : ℝ)..1, yx l m c * yx 0 0 c * yx l m c = 1 / √(4 * Real.pi) * ∫ c in (-1 : ℝ)..1, yx l m c * yx l m c := by
    rw [← intervalIntegral.integral_const_mul]
    refine intervalIntegral.integral_congr fun c hc => ?_
    rw [Set.uIcc_of_le (by norm_num)] at hc
    beta_reduce
    rw [yx_zero 0 c hc.1 hc.2, show (2 * ((0 : Nat) : ℝ) + 1) / (4 * Real.pi) = 1 / (4 * Real.pi) by simp, Real.sqrt_div (by norm_num), Real.sqrt_one]
    simp only [Poly.pP, eval_one]
    ring
  rw [e, yx_orth l l m (by omega) (by omega), if_pos rfl]
  field_simp

/-- The product of two harmonics is the sum over `L` of the coefficients times `Y_L^{m + m'}`. -/
theorem C69_expansion (l : Nat) (m : Int) (l' : Nat) (m' : Int) (n : Nat) (hn : l + l' ≤ n) (c φ : ℝ) (h0 : -1 ≤ c) (h1 : c ≤ 1) :
    sph l m c φ * sph l' m' c φ = ∑ L ∈ Finset.range (n + 1), ((direct Spec.gaunt L (m + m') l m l' m' : ℝ) : ℂ) * sph L (m + m') c φ := by
  have h := yx_mul_expand l m l' m' n hn c h0 h1
  rw [sph_yx, sph_yx]
  have e : ∀ L : Nat, direct Spec.gaunt L (m + m') l m l' m' = 2 * Real.pi * ∫ c in (-1 : ℝ)..1, yx L (m + m') c * (yx l m c * yx l' m' c) := by
    intro L
    rw [direct_eq, if_pos rfl]
    simp only [mul_assoc]
  rw [show Complex.exp ((m * φ : ℝ) * Complex.I) * (yx l m c : ℝ) * (Complex.exp ((m' * φ : ℝ) * Complex.I) * (yx l' m' c : ℝ)) =
    Complex.exp ((m * φ : ℝ) * Complex.I) * Complex.exp ((m' * φ : ℝ) * Complex.I) * ((yx l m c * yx l' m' c : ℝ) : ℂ) by push_cast; ring, exp_add', h,
    Complex.ofReal_sum, Finset.mul_sum]
  refine Finset.sum_congr rfl fun L _ => ?_
  rw [sph_yx, e]
  generalize (∫ c in (-1 : ℝ)..1, yx L (m + m') c * (yx l m c * yx l' m' c)) = I
  push_cast
  ring

/-- A table built from the integrals returns integrals: `∫ conj(Y_L^M) Y_l^m Y_lp^{M-m}` inside the declared ranges. -/
theorem C69_table (Lmax lmax lpmax : Nat) (mcap_ : Int) (sched : List Nat) (hs : sched.Perm (List.range (max (max Lmax lmax) lpmax + 1))) :
    ∃ T, build Spec.gaunt Lmax lmax lpmax mcap_ sched = .ok T ∧
      ∀ (L : Nat) (M : Int) (l : Nat) (m : Int) (lp : Nat), L ≤ Lmax → l ≤ lmax → lp ≤ lpmax → (mcap_ < 0 ∨ (|M| ≤ mcap_ ∧ |m| ≤ mcap_)) →
        ∃ v, T.coeff L M l m lp = .ok v ∧ (v : ℂ) = Spec.sphere fun c φ => (starRingEnd ℂ) (sph L M c φ) * sph l m c φ * sph lp (M - m) c φ := by
  obtain ⟨T, h, hT⟩ := C25_lookup gaunt_symmetric Lmax lmax lpmax mcap_ sched hs
  exact ⟨T, h, fun L M l m lp hL hl hlp hw => ⟨_, table_coeff hT L M l m lp hL hl hlp hw, direct_sphere _ _ _ _ _ _⟩⟩

/-- The couplings through powers of the cosine and the sine of the polar angle. -/
theorem C69_couplings (Lmax lmax lpmax : Nat) (mcap_ : Int) (sched : List Nat) (hs : sched.Perm (List.range (max (max Lmax lmax) lpmax + 1))) :
    ∃ T, build Spec.gaunt Lmax lmax lpmax mcap_ sched = .ok T ∧
      ∀ (lj : Nat) (mj : Int) (li : Nat) (mi : Int), lj ≤ Lmax → li ≤ lpmax → (mcap_ < 0 ∨ |mj| ≤ mcap_) →
        let matrixElement := fun f : ℝ → ℝ => Spec.sphere fun c φ => (starRingEnd ℂ) (sph lj mj c φ) * (f c : ℝ) * sph li mi c φ
        (1 ≤ lmax → ∃ v, T.cosine lj mj li mi = .ok v ∧ (v : ℂ) = matrixElement fun c => c) ∧
        (2 ≤ lmax → ∃ v, T.cosine2 lj mj li mi = .ok v ∧ (v : ℂ) = matrixElement fun c => c ^ 2) ∧
        (3 ≤ lmax → ∃ v, T.cosine3 lj mj li mi = .ok v ∧ (v : ℂ) = matrixElement fun c => c ^ 3) ∧
        (4 ≤ lmax → ∃ v, T.cosine4 lj mj li mi = .ok v ∧ (v : ℂ) = matrixElement fun c => c ^ 4) ∧
        (5 ≤ lmax → ∃ v, T.cosine5 lj mj li mi = .ok v ∧ (v : ℂ) = matrixElement fun c => c ^ 5) ∧
        (2 ≤ lmax → ∃ v, T.sine2 lj mj li mi = .ok v ∧ (v : ℂ) = matrixElement fun c => 1 - c ^ 2) ∧
        (4 ≤ lmax → ∃ v, T.cosine2sine2 lj mj li mi = .ok v ∧ (v : ℂ) = matrixElement fun c => c ^ 2 * (1 - c ^ 2)) := by
  obtain ⟨T, h, hT⟩ := C25_lookup gaunt_symmetric Lmax lmax lpmax mcap_ sched hs
  refine ⟨T, h, fun lj mj li mi hj hi hw => ?_⟩
  by_cases hm : mi = mj
  · subst hm
    have hc : ∀ k : Nat, k ≤ lmax → T.coeff lj mi k 0 li = .ok (direct Spec.gaunt lj mi k 0 li mi) := by
      intro k hk
      have := table_coeff hT lj mi k 0 li hj hk hi (by rcases hw with h | h; · exact Or.inl h
                                                       · exact Or.inr ⟨h, by rw [abs_zero]; exact (abs_nonneg _).trans h⟩)
      rwa [sub_zero] at this
    have c0 := hc 0
    have c1 := hc 1
    have c2 := hc 2
    have c3 := hc 3
    have c4 := hc 4
    have c5 := hc 5
    have s0 : sqrtPi 1 * √((2 * (0 : Nat) + 1) / (4 * Real.pi)) = 1 / 2 := sqrtPi_mul 1 0 1 (by norm_num) (by norm_num)
    have s1 : sqrtPi 3 * √((2 * (1 : Nat) + 1) / (4 * Real.pi)) = 3 / 2 := sqrtPi_mul 3 1 3 (by norm_num) (by norm_num)
    have s2 : sqrtPi 5 * √((2 * (2 : Nat) + 1) / (4 * Real.pi)) = 5 / 2 := sqrtPi_mul 5 2 5 (by norm_num) (by norm_num)
    have s3 : sqrtPi 7 * √((2 * (3 : Nat) + 1) / (4 * Real.pi)) = 7 / 2 := sqrtPi_mul 7 3 7 (by norm_num) (by norm_num)
    have s4 : sqrtPi 1 * √((2 * (4 : Nat) + 1) / (4 * Real.pi)) = 3 / 2 := sqrtPi_mul 1 4 3 (by norm_num) (by norm_num)
    have s5 : sqrtPi 11 * √((2 * (5 : Nat) + 1) / (4 * Real.pi)) = 11 / 2 := sqrtPi_mul 11 5 11 (by norm_num) (by norm_num)
    simp only [sphere_diag, Complex.ofReal_inj]
    simp only [Nat.cast_zero, Nat.cast_one, Nat.cast_ofNat] at c0 c1 c2 c3 c4 c5
    refine ⟨fun hn => ⟨_, ?_, rfl⟩, fun hn => ⟨_, ?_, rfl⟩, fun hn => ⟨_, ?_, rfl⟩, fun hn => ⟨_, ?_, rfl⟩, fun hn => ⟨_, ?_, rfl⟩, fun hn => ⟨_, ?_, rfl⟩, fun hn => ⟨_, ?_, rfl⟩⟩
    · rw [← combo lj mi li (2 * sqrtPiBy3) 0 0 1 0 0, Table.cosine, if_neg (by simp), c1 hn]
      · simp only [Res.ok_bind, Res.pure_eq, zero_mul, add_zero]
      · intro c h0 h1
        rw [yx_zero 1 c h0 h1]
        simp only [Poly.pP, eval_X]
        linear_combination 2 * c * sqrtPiBy3_mul
    · rw [← combo lj mi li (2 / 3 * sqrtPi 1) (4 / 15 * sqrtPi 5) 0 0 2 0, Table.cosine2, if_neg (by simp), c0 (by omega), c2 (by omega)]
      · simp only [Res.ok_bind, Res.pure_eq, zero_mul, add_zero]
      · intro c h0 h1
        rw [yx_zero 0 c h0 h1, yx_zero 2 c h0 h1, pP_two]
        simp only [Poly.pP, eval_one]
        linear_combination 2 / 3 * s0 + 4 / 15 * ((3 * c ^ 2 - 1) / 2) * s2
    · rw [← combo lj mi li (2 / 5 * sqrtPi 3) (4 / 35 * sqrtPi 7) 0 1 3 0, Table.cosine3, if_neg (by simp), c1 (by omega), c3 (by omega)]
      · simp only [Res.ok_bind, Res.pure_eq, zero_mul, add_zero]
      · intro c h0 h1
        rw [yx_zero 1 c h0 h1, yx_zero 3 c h0 h1, pP_three]
        simp only [Poly.pP, eval_X]
        linear_combination 2 / 5 * c * s1 + 4 / 35 * ((5 * c ^ 3 - 3 * c) / 2) * s3
    · rw [← combo lj mi li (2 / 5 * sqrtPi 1) (8 / 35 * sqrtPi 5) (16 / 105 * sqrtPi 1) 0 2 4, Table.cosine4, if_neg (by simp), c0 (by omega), c2 (by omega), c4 (by omega)]
      · simp only [Res.ok_bind, Res.pure_eq, zero_mul, add_zero]
      · intro c h0 h1
        rw [yx_zero 0 c h0 h1, yx_zero 2 c h0 h1, yx_zero 4 c h0 h1, pP_two, pP_four]
        simp only [Poly.pP, eval_one]
        linear_combination 2 / 5 * s0 + 8 / 35 * ((3 * c ^ 2 - 1) / 2) * s2 + 16 / 105 * ((35 * c ^ 4 - 30 * c ^ 2 + 3) / 8) * s4
    · rw [← combo lj mi li (2 / 7 * sqrtPi 3) (8 / 63 * sqrtPi 7) (16 / 693 * sqrtPi 11) 1 3 5, Table.cosine5, if_neg (by simp), c1 (by omega), c3 (by omega), c5 (by omega)]
      · simp only [Res.ok_bind, Res.pure_eq, zero_mul, add_zero]
      · intro c h0 h1
        rw [yx_zero 1 c h0 h1, yx_zero 3 c h0 h1, yx_zero 5 c h0 h1, pP_three, pP_five]
        simp only [Poly.pP, eval_X]
        linear_combination 2 / 7 * c * s1 + 8 / 63 * ((5 * c ^ 3 - 3 * c) / 2) * s3 + 16 / 693 * ((63 * c ^ 5 - 70 * c ^ 3 + 15 * c) / 8) * s5
    · rw [← combo lj mi li (4 / 3 * sqrtPi 1) ((-4) / 15 * sqrtPi 5) 0 0 2 0, Table.sine2, if_neg (by simp), c0 (by omega), c2 (by omega)]
      · simp only [Res.ok_bind, Res.pure_eq, zero_mul, add_zero]
      · intro c h0 h1
        rw [yx_zero 0 c h0 h1, yx_zero 2 c h0 h1, pP_two]
        simp only [Poly.pP, eval_one]
        linear_combination 4 / 3 * s0 + (-4) / 15 * ((3 * c ^ 2 - 1) / 2) * s2
    · rw [← combo lj mi li (4 / 15 * sqrtPi 1) (4 / 105 * sqrtPi 5) ((-16) / 105 * sqrtPi 1) 0 2 4, Table.cosine2sine2, if_neg (by simp), c0 (by omega), c2 (by omega), c4 (by omega)]
      · simp only [Res.ok_bind, Res.pure_eq, zero_mul, add_zero]
      · intro c h0 h1
        rw [yx_zero 0 c h0 h1, yx_zero 2 c h0 h1, yx_zero 4 c h0 h1, pP_two, pP_four]
        simp only [Poly.pP, eval_one]
        linear_combination 4 / 15 * s0 + 4 / 105 * ((3 * c ^ 2 - 1) / 2) * s2 + (-16) / 105 * ((35 * c ^ 4 - 30 * c ^ 2 + 3) / 8) * s4
  · simp only [sphere_off lj mj li mi hm]
    refine ⟨fun _ => ⟨0, if_pos hm, rfl⟩, fun _ => ⟨0, if_pos hm, rfl⟩, fun _ => ⟨0, if_pos hm, rfl⟩, fun _ => ⟨0, if_pos hm, rfl⟩,
      fun _ => ⟨0, if_pos hm, rfl⟩, fun _ => ⟨0, if_pos hm, rfl⟩, fun _ => ⟨0, if_pos hm, rfl⟩⟩

/-- The coefficient of the modified coupling is the integral with the square of the cosine. -/
theorem C69_modified (Lmax lmax lpmax : Nat) (mcap_ : Int) (sched : List Nat) (hs : sched.Perm (List.range (max (max Lmax lmax) lpmax + 1)))
    (lj L li : Nat) (mj M mi : Int) (hL : L + 2 ≤ Lmax) (hL' : L + 2 ≤ lpmax) (hlj : lj ≤ Lmax) (hli : li ≤ lmax) (h2 : 2 ≤ lmax)
    (hw : mcap_ < 0 ∨ (|M| ≤ mcap_ ∧ |mj| ≤ mcap_ ∧ |mi| ≤ mcap_)) :
    ∃ T v, build Spec.gaunt Lmax lmax lpmax mcap_ sched = .ok T ∧ T.modCoeff modC0 modC2 lj mj L M li mi = .ok v ∧
      (v : ℂ) = Spec.sphere fun c φ => (starRingEnd ℂ) (sph lj mj c φ) * ((c ^ 2 : ℝ) : ℂ) * sph L M c φ * sph li mi c φ := by
  rw [sphere_triple lj mj L M li mi fun c => c ^ 2]
  by_cases hm : mj = M + mi
  swap
  · obtain ⟨T, h, _⟩ := C25_lookup gaunt_symmetric Lmax lmax lpmax mcap_ sched hs
    exact ⟨T, 0, h, C25_modified_selection T _ _ _ _ _ _ _ _ hm, by rw [if_neg hm]⟩
  obtain ⟨T, h, hv⟩ := C25_modified gaunt_symmetric modC0 modC2 Lmax lmax lpmax mcap_ sched hs lj L li mj M mi hL hL' hlj hli h2 hw hm
  refine ⟨T, _, h, hv, ?_⟩
  rw [if_pos hm, Complex.ofReal_inj, C25_modified_sum gaunt_symmetric modC0 modC2 lj L li mj M mi (L + 2 + 1) le_rfl]
  have s0 : sqrtPi 1 * √((2 * (0 : Nat) + 1) / (4 * Real.pi)) = 1 / 2 := sqrtPi_mul 1 0 1 (by norm_num) (by norm_num)
  have s2 : sqrtPi 5 * √((2 * (2 : Nat) + 1) / (4 * Real.pi)) = 5 / 2 := sqrtPi_mul 5 2 5 (by norm_num) (by norm_num)
  have hA : ∀ Lp, modC0 * direct Spec.gaunt Lp M 0 0 L M + modC2 * direct Spec.gaunt Lp M 2 0 L M = 2 * Real.pi * ∫ c in (-1 : ℝ)..1, yx Lp M c * ((X ^ 2 : ℝ[X]).eval c * yx L M c) := by
    intro Lp
    have := combo Lp M L modC0 modC2 0 0 2 0 (fun c => c ^ 2) ?_
    · rw [zero_mul, add_zero] at this
      rw [this]
      simp only [eval_pow, eval_X, mul_assoc]
    · intro c h0 h1
      rw [yx_zero 0 c h0 h1, yx_zero 2 c h0 h1, pP_two, modC0, modC2]
      simp only [Poly.pP, eval_one]
      linear_combination 2 / 3 * s0 + 4 / 15 * ((3 * c ^ 2 - 1) / 2) * s2
  have hmono : direct Spec.gaunt L M 0 0 L M * direct Spec.gaunt lj mj li mi L M =
      ∑ Lp ∈ Finset.range (L + 2 + 1), direct Spec.gaunt Lp M 0 0 L M * direct Spec.gaunt lj mj li mi Lp M := by
    rw [Finset.sum_eq_single L]
    · intro Lp _ hLp
      rw [direct, C69_gaunt_selection Lp (-M) 0 0 L M (by omega), mul_zero, zero_mul]
    · intro hn
      exact absurd (Finset.mem_range.2 (by omega)) hn
  rw [hmono, Finset.mul_sum, Finset.mul_sum, ← Finset.sum_add_distrib]
  have hD : ∀ Lp : Nat, direct Spec.gaunt lj mj li mi Lp M = 2 * Real.pi * ∫ c in (-1 : ℝ)..1, yx lj mj c * yx li mi c * yx Lp M c := by
    intro Lp
    rw [direct_eq, if_pos (by omega)]
  have e : ∫ c in (-1 : ℝ)..1, yx lj mj c * c ^ 2 * yx L M c * yx li mi c =
      ∫ c in (-1 : ℝ)..1, ∑ Lp ∈ Finset.range (L + 2 + 1), (2 * Real.pi * ∫ c in (-1 : ℝ)..1, yx Lp M c * ((X ^ 2 : ℝ[X]).eval c * yx L M c)) * (yx lj mj c * yx li mi c * yx Lp M c) := by
    refine intervalIntegral.integral_congr fun c hc => ?_
    rw [Set.uIcc_of_le (by norm_num)] at hc
    beta_reduce
    have := yx_poly_expand L M (X ^ 2) (L + 2) (by rw [natDegree_X_pow]) c hc.1 hc.2
    rw [show yx lj mj c * c ^ 2 * yx L M c * yx li mi c = yx lj mj c * yx li mi c * ((X ^ 2 : ℝ[X]).eval c * yx L M c) by simp only [eval_pow, eval_X]; ring, this, Finset.mul_sum]
    refine Finset.sum_congr rfl fun Lp _ => ?_
    ring
  rw [e, intervalIntegral.integral_finset_sum, Finset.mul_sum]
  · refine Finset.sum_congr rfl fun Lp _ => ?_
    rw [intervalIntegral.integral_const_mul, hD Lp, ← hA Lp]
    ring
  · intro Lp _
    exact ((((yx_cont lj mj).mul (yx_cont li mi)).mul (yx_cont Lp M)).const_mul _).intervalIntegrable _ _

/-! ### Examples -/

/-- the table of the dipole operator for `s`, `p` and `d` shells -/
example : ∃ T, build Spec.gaunt 2 1 2 (-1) [2, 0, 1] = .ok T ∧ ∃ v, T.cosine 2 (-1) 1 (-1) = .ok v ∧
    (v : ℂ) = Spec.sphere fun c φ => (starRingEnd ℂ) (sph 2 (-1) c φ) * (c : ℝ) * sph 1 (-1) c φ := by
  obtain ⟨T, h, hT⟩ := C69_couplings 2 1 2 (-1) [2, 0, 1] (by decide)
  exact ⟨T, h, (hT 2 (-1) 1 (-1) (by norm_num) (by norm_num) (by norm_num)).1 (by norm_num)⟩

/-- a coupling that is not zero: `⟨Y_1^0|cos|Y_0^0⟩ = 1/sqrt 3` -/
example : ∃ T, build Spec.gaunt 1 1 1 (-1) [0, 1] = .ok T ∧ T.cosine 1 0 0 0 = .ok (1 / √3) := by
  obtain ⟨T, h, hT⟩ := C69_couplings 1 1 1 (-1) [0, 1] (by decide)
  refine ⟨T, h, ?_⟩
  obtain ⟨v, hv, hv'⟩ := (hT 1 0 0 0 (by norm_num) (by norm_num) (by norm_num)).1 le_rfl
  have hv2 := hv'.trans (sphere_diag 1 0 0 fun c => c)
  rw [Complex.ofReal_inj] at hv2
  rw [show T.cosine 1 0 0 0 = T.cosine ((1 : Nat) : Int) 0 ((0 : Nat) : Int) 0 from rfl, hv, hv2]
  congr 1
  have e : ∫ c in (-1 : ℝ)..1, yx 1 0 c * c * yx 0 0 c = √(3 / (4 * Real.pi)) * √(1 / (4 * Real.pi)) * ∫ c in (-1 : ℝ)..1, c ^ 2 := by
    rw [← intervalIntegral.integral_const_mul]
    refine intervalIntegral.integral_congr fun c hc => ?_
    rw [Set.uIcc_of_le (by norm_num)] at hc
    beta_reduce
    rw [yx_zero 1 c hc.1 hc.2, yx_zero 0 c hc.1 hc.2]
    simp only [Poly.pP, eval_one, eval_X]
    norm_num
    ring
  rw [e, integral_pow, ← Real.sqrt_mul (by positivity), show 3 / (4 * Real.pi) * (1 / (4 * Real.pi)) = 3 / (4 * Real.pi) ^ 2 by field_simp, Real.sqrt_div (by norm_num), Real.sqrt_sq (by positivity)]
  have h3 : √3 * √3 = (3 : ℝ) := Real.mul_self_sqrt (by norm_num)
  field_simp
  norm_num

/-- the modified coupling of a pair with `M = 1` -/
example : ∃ T v, build Spec.gaunt 4 2 4 (-1) [0, 1, 2, 3, 4] = .ok T ∧ T.modCoeff modC0 modC2 2 1 1 1 2 0 = .ok v ∧
    (v : ℂ) = Spec.sphere fun c φ => (starRingEnd ℂ) (sph 2 1 c φ) * ((c ^ 2 : ℝ) : ℂ) * sph 1 1 c φ * sph 2 0 c φ :=
  C69_modified 4 2 4 (-1) [0, 1, 2, 3, 4] (by decide) 2 1 2 1 1 0 (by norm_num) (by norm_num) (by norm_num) (by norm_num) (by norm_num) (by norm_num)

end Harm
end HelFEM
