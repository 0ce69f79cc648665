import Verif.Lemmas.Nucleus

/-!
# C40 and C58: the nucleus models

Every theorem is about `getModel`, the factory, and `Model.V` and `Model.breaks`, the virtual functions of the object it returns. `eps` and `cut` are the machine
constants, `findB` the constant the regularized nucleus finds numerically: nothing is assumed about it.
-/

namespace HelFEM
namespace Nucleus
open MeasureTheory Filter Topology Set

variable (eps cut : ℝ) (findB : ℝ → ℝ)

/-- **C40, the factory.** Every model in the list is created with the given charge and size; any other value is refused. -/
theorem C40_factory (k : Kind) (Z Rrms : ℝ) :
    (getModel k Z Rrms = .throw .logicError ↔ k = .nosuch) ∧ (k ≠ .nosuch → ∃ m, getModel k Z Rrms = .ok m) := by
  cases k <;> simp [getModel]

/-- **C40, continuity.** The potentials of the charged ball and of the charged shell are continuous everywhere, also where the formula changes. -/
theorem C40_continuous (k : Kind) (hk : k = .spherical ∨ k = .hollow) (Z Rrms : ℝ) (hR : 0 < Rrms) (m : Model) (hm : getModel k Z Rrms = .ok m) :
    Continuous (m.V eps cut findB) := by
  rcases hk with rfl | rfl <;> (simp only [getModel, Res.ok.injEq] at hm; subst hm)
  · exact spherical_continuous Z _ (by unfold sphericalR0; positivity)
  · exact hollow_continuous Z _ hR

example : ∃ m, getModel .spherical 10 2 = .ok m ∧ Continuous (m.V 0 0 fun _ => 0) :=
  ⟨_, rfl, C40_continuous 0 0 _ .spherical (Or.inl rfl) 10 2 two_pos _ rfl⟩

/-- **C40, outside the nucleus.** Beyond the radius of the ball (`√(5/3)` times the root mean square radius) or of the shell, the potential is that of the
point charge. -/
theorem C40_point_outside (Z Rrms r : ℝ) :
    (∀ m, getModel .spherical Z Rrms = .ok m → Real.sqrt (5 / 3) * Rrms ≤ r → m.V eps cut findB r = -Z / r) ∧
    (∀ m, getModel .hollow Z Rrms = .ok m → Rrms ≤ r → m.V eps cut findB r = -Z / r) ∧
    (∀ m, getModel .point Z Rrms = .ok m → m.V eps cut findB r = -Z / r) := by
  refine ⟨fun m hm h => ?_, fun m hm h => ?_, fun m hm => ?_⟩ <;> (simp only [getModel, Res.ok.injEq] at hm; subst hm)
  · exact spherical_right Z _ r h
  · exact hollow_right Z _ r h
  · rfl

/-- **C40, never below the point charge.** A nucleus of finite size binds no electron more strongly than the point nucleus at any radius. -/
theorem C40_above_point (heps : 0 ≤ eps) (k : Kind) (hk : k = .point ∨ k = .spherical ∨ k = .hollow ∨ k = .gaussian) (Z Rrms r : ℝ) (hZ : 0 ≤ Z) (hR : 0 < Rrms)
    (hr : 0 < r) (m : Model) (hm : getModel k Z Rrms = .ok m) : -Z / r ≤ m.V eps cut findB r := by
  have hdiv : ∀ x y : ℝ, x ≤ y → 0 < r → x * r ≤ y * r := fun x y h hr => mul_le_mul_of_nonneg_right h hr.le
  rcases hk with rfl | rfl | rfl | rfl <;> (simp only [getModel, Res.ok.injEq] at hm; subst hm)
  · exact le_rfl
  · have hR0 : 0 < sphericalR0 Rrms := by unfold sphericalR0; positivity
    show -Z / r ≤ sphericalV Z (sphericalR0 Rrms) r
    generalize sphericalR0 Rrms = R at hR0
    rcases le_total R r with h | h
    · rw [spherical_right Z R r h]
    · rw [spherical_left Z R hR0 r h]
      have key : Z / (2 * R) * (3 - (r / R) ^ 2) ≤ Z / r := by
        have e : Z / r - Z / (2 * R) * (3 - (r / R) ^ 2) = Z * ((R - r) ^ 2 * (2 * R + r)) / (2 * R ^ 3 * r) := by field_simp; ring
        have : 0 ≤ Z * ((R - r) ^ 2 * (2 * R + r)) / (2 * R ^ 3 * r) := by positivity
        linarith
      have e1 : -Z / (2 * R) * (3 - (r / R) ^ 2) = -(Z / (2 * R) * (3 - (r / R) ^ 2)) := by ring
      rw [e1, neg_div]; linarith
  · show -Z / r ≤ hollowV Z Rrms r
    rcases le_total Rrms r with h | h
    · rw [hollow_right Z Rrms r h]
    · rw [hollow_left Z Rrms r h, neg_div, neg_div]
      exact neg_le_neg (div_le_div_of_nonneg_left hZ hr h)
  · have hmu : 0 < gaussianMu Rrms := by unfold gaussianMu; positivity
    show -Z / r ≤ gaussianV eps Z (gaussianMu Rrms) r
    generalize gaussianMu Rrms = mu at hmu
    have hb : -Z / r ≤ -Z * erf (mu * r) / r := by
      rw [div_le_div_iff_of_pos_right hr]
      have := mul_le_mul_of_nonneg_left (erf_le_one (mu * r) (by positivity)) hZ
      linarith
    unfold gaussianV
    split
    · refine hb.trans ?_
      have hl := (int_bounds (mu * r) (by positivity)).1
      simp only
      unfold erf
      rw [div_le_iff₀ hr]
      have hc : 0 ≤ Z * (2 / Real.sqrt Real.pi) := by positivity
      have := mul_le_mul_of_nonneg_left hl hc
      calc -Z * (2 / Real.sqrt Real.pi * ∫ t in (0 : ℝ)..mu * r, Real.exp (-t ^ 2)) = -(Z * (2 / Real.sqrt Real.pi) * ∫ t in (0 : ℝ)..mu * r, Real.exp (-t ^ 2)) := by ring
        _ ≤ -(Z * (2 / Real.sqrt Real.pi) * (mu * r - (mu * r) ^ 3 / 3 + (mu * r) ^ 5 / 10 - (mu * r) ^ 7 / 42)) := neg_le_neg this
        _ = _ := by ring
    · exact hb

example : ∃ m, getModel .gaussian 3 2 = .ok m ∧ -3 / 5 ≤ m.V (1 / 10) 0 (fun _ => 0) 5 :=
  ⟨_, rfl, C40_above_point (1 / 10) 0 _ (by norm_num) .gaussian (by simp) 3 2 5 (by norm_num) two_pos (by norm_num) _ rfl⟩

/-- **C40, breakpoints.** For a point nucleus, a ball or a shell of nonzero charge, and any interval of positive radii, the breakpoints reported for the interval
are exactly the interior points at which the potential is not smooth. -/
theorem C40_breakpoints (k : Kind) (hk : k = .point ∨ k = .spherical ∨ k = .hollow) (Z Rrms : ℝ) (hZ : Z ≠ 0) (hR : 0 < Rrms) (m : Model)
    (hm : getModel k Z Rrms = .ok m) (a b : ℝ) (ha : 0 ≤ a) (n : WithTop ℕ∞) (hn : 2 ≤ n) (x : ℝ) :
    x ∈ m.breaks a b ↔ a < x ∧ x < b ∧ ¬ ContDiffAt ℝ n (m.V eps cut findB) x := by
  rcases hk with rfl | rfl | rfl <;> (simp only [getModel, Res.ok.injEq] at hm; subst hm)
  · simp only [Model.breaks, List.not_mem_nil, false_iff, not_and, not_not]
    intro h1 _
    exact contDiffAt_point Z x (by linarith : x > 0).ne' n
  · have hR0 : 0 < sphericalR0 Rrms := by unfold sphericalR0; positivity
    simp only [Model.breaks, sphericalBreaks]
    show _ ↔ a < x ∧ x < b ∧ ¬ ContDiffAt ℝ n (sphericalV Z (sphericalR0 Rrms)) x
    generalize sphericalR0 Rrms = R at hR0
    have hs : ¬ ContDiffAt ℝ n (sphericalV Z R) x ↔ x = R := by
      constructor
      · intro h; by_contra hx; exact h (spherical_smooth Z R x hR0 hx n)
      · rintro rfl h; exact spherical_kink Z x hZ hR0 (h.of_le hn)
    rw [hs]
    split
    · rename_i h
      simp only [List.mem_singleton]
      exact ⟨fun e => ⟨e ▸ h.1, e ▸ h.2, e⟩, fun e => e.2.2⟩
    · rename_i h
      simp only [List.not_mem_nil, false_iff]
      rintro ⟨h1, h2, rfl⟩
      exact h ⟨h1, h2⟩
  · simp only [Model.breaks, hollowBreaks]
    show _ ↔ a < x ∧ x < b ∧ ¬ ContDiffAt ℝ n (hollowV Z Rrms) x
    have hs : ¬ ContDiffAt ℝ n (hollowV Z Rrms) x ↔ x = Rrms := by
      constructor
      · intro h; by_contra hx; exact h (hollow_smooth Z Rrms x hR hx n)
      · rintro rfl h
        exact hollow_kink Z x hZ hR ((h.of_le hn).differentiableAt (by norm_num))
    rw [hs]
    split
    · rename_i h
      simp only [List.mem_singleton]
      exact ⟨fun e => ⟨e ▸ h.1, e ▸ h.2, e⟩, fun e => e.2.2⟩
    · rename_i h
      simp only [List.not_mem_nil, false_iff]
      rintro ⟨h1, h2, rfl⟩
      exact h ⟨h1, h2⟩

/-- The hypotheses are met with a breakpoint inside the interval. -/
example : ∃ m, getModel .hollow 3 2 = .ok m ∧ (2 : ℝ) ∈ m.breaks 1 4 ∧ ¬ ContDiffAt ℝ 2 (m.V 0 0 fun _ => 0) 2 := by
  refine ⟨_, rfl, ?_, ?_⟩
  · simp only [Model.breaks, hollowBreaks]; norm_num
  · exact ((C40_breakpoints 0 0 (fun _ => 0) .hollow (by simp) 3 2 (by norm_num) two_pos _ rfl 1 4 zero_le_one 2 le_rfl 2).1
      (by simp only [Model.breaks, hollowBreaks]; norm_num)).2.2

/-- **C40, physics.** The ball's potential is that of a uniformly charged ball whose root mean square radius is the requested one; the shell's is that of
charge at the given radius; and the Gaussian's, outside its series region, is that of a Gaussian distribution of the requested root mean square radius. -/
theorem C40_charge_distributions (Z Rrms r : ℝ) (hR : 0 < Rrms) (hr : 0 < r) :
    (∀ m, getModel .spherical Z Rrms = .ok m →
      ∃ R, 0 < R ∧ meanSquare (ball R) = Rrms ^ 2 ∧ m.V eps cut findB r = electrostatic (ball R) Z r) ∧
    (∀ m, getModel .hollow Z Rrms = .ok m → m.V eps cut findB r = -Z / max r Rrms) ∧
    (∀ m, getModel .gaussian Z Rrms = .ok m →
      ∃ mu, 0 < mu ∧ meanSquare (gaussian mu) = Rrms ^ 2 ∧
        ((42 * eps) ^ ((1 : ℝ) / 6) < mu * r → m.V eps cut findB r = electrostatic (gaussian mu) Z r)) := by
  refine ⟨fun m hm => ?_, fun m hm => ?_, fun m hm => ?_⟩ <;> (simp only [getModel, Res.ok.injEq] at hm; subst hm)
  · have hR0 : 0 < sphericalR0 Rrms := by unfold sphericalR0; positivity
    refine ⟨sphericalR0 Rrms, hR0, ?_, (ball_electrostatic Z _ r hR0 hr).symm⟩
    rw [ball_meanSquare _ hR0]
    unfold sphericalR0
    rw [mul_pow, Real.sq_sqrt (by norm_num)]; ring
  · show hollowV Z Rrms r = _
    rcases le_total Rrms r with h | h
    · rw [hollow_right Z Rrms r h, max_eq_left h]
    · rw [hollow_left Z Rrms r h, max_eq_right h]
  · have hmu : 0 < gaussianMu Rrms := by unfold gaussianMu; positivity
    refine ⟨gaussianMu Rrms, hmu, ?_, fun h => ?_⟩
    · rw [gaussian_meanSquare _ hmu]
      unfold gaussianMu
      rw [div_pow, Real.sq_sqrt (by norm_num)]; field_simp
    · rw [gaussian_electrostatic Z _ r hmu hr]
      show gaussianV eps Z (gaussianMu Rrms) r = _
      have : ¬ r ≤ gaussianRcut eps (gaussianMu Rrms) := by
        unfold gaussianRcut
        rw [not_le, div_lt_iff₀ hmu, mul_comm r]; exact h
      unfold gaussianV
      rw [if_neg this]

example : ∃ m R, getModel .spherical 8 3 = .ok m ∧ meanSquare (ball R) = 3 ^ 2 ∧ m.V 0 0 (fun _ => 0) 1 = electrostatic (ball R) 8 1 := by
  obtain ⟨R, _, h1, h2⟩ := (C40_charge_distributions 0 0 (fun _ => 0) 8 3 1 (by norm_num) one_pos).1 _ rfl
  exact ⟨_, R, rfl, h1, h2⟩

/-- **C40, the Gaussian's series.** Inside the series region the potential differs from that of the Gaussian distribution by at most
`|Z| μ / 108 / √π (42 ε)^(4/3)`. -/
theorem C40_gaussian_series (heps : 0 < eps) (Z Rrms r : ℝ) (hR : 0 < Rrms) (hr : 0 < r) (m : Model) (hm : getModel .gaussian Z Rrms = .ok m) :
    ∃ mu, 0 < mu ∧ meanSquare (gaussian mu) = Rrms ^ 2 ∧
      |m.V eps cut findB r - electrostatic (gaussian mu) Z r| ≤ |Z| * mu / (108 * Real.sqrt Real.pi) * (42 * eps) ^ ((4 : ℝ) / 3) := by
  obtain ⟨mu, hmu, hms, hout⟩ := (C40_charge_distributions eps cut findB Z Rrms r hR hr).2.2 m hm
  refine ⟨mu, hmu, hms, ?_⟩
  rcases lt_or_ge ((42 * eps) ^ ((1 : ℝ) / 6)) (mu * r) with h | h
  · rw [hout h, sub_self, abs_zero]; positivity
  · have hmu' : mu = gaussianMu Rrms := by
      have h1 := gaussian_meanSquare mu hmu
      have hg : 0 < gaussianMu Rrms := by unfold gaussianMu; positivity
      have h2 := gaussian_meanSquare _ hg
      have h3 : meanSquare (gaussian (gaussianMu Rrms)) = Rrms ^ 2 := by
        rw [h2]; unfold gaussianMu
        rw [div_pow, Real.sq_sqrt (by norm_num)]; field_simp
      rw [hms] at h1
      rw [h3] at h2
      rw [h1] at h2
      have : mu ^ 2 = gaussianMu Rrms ^ 2 := by field_simp at h2; linarith
      exact (pow_left_inj₀ hmu.le hg.le two_ne_zero).1 this
    simp only [getModel, Res.ok.injEq] at hm
    subst hm
    rw [gaussian_electrostatic Z mu r hmu hr]
    show |gaussianV eps Z (gaussianMu Rrms) r - _| ≤ _
    rw [← hmu']
    have hle : r ≤ gaussianRcut eps mu := by
      unfold gaussianRcut
      rw [le_div_iff₀ hmu, mul_comm]; exact h
    unfold gaussianV erf
    rw [if_pos hle]
    obtain ⟨h1, h2⟩ := int_bounds (mu * r) (by positivity)
    simp only
    set I := ∫ t in (0 : ℝ)..mu * r, Real.exp (-t ^ 2) with hI
    have e : -Z * (2 / Real.sqrt Real.pi) * mu * (1 + (-1 / 3 + (1 / 10 - 1 / 42 * (mu * r) ^ 2) * (mu * r) ^ 2) * (mu * r) ^ 2)
        - -Z * (2 / Real.sqrt Real.pi * I) / r
        = Z * (2 / Real.sqrt Real.pi) / r * (I - (mu * r - (mu * r) ^ 3 / 3 + (mu * r) ^ 5 / 10 - (mu * r) ^ 7 / 42)) := by field_simp; ring
    rw [e, abs_mul, abs_div, abs_mul, abs_of_pos hr, abs_of_pos (show 0 < 2 / Real.sqrt Real.pi by positivity),
      abs_of_nonneg (show 0 ≤ I - (mu * r - (mu * r) ^ 3 / 3 + (mu * r) ^ 5 / 10 - (mu * r) ^ 7 / 42) by linarith)]
    have h8 : (mu * r) ^ 8 ≤ (42 * eps) ^ ((4 : ℝ) / 3) := by
      have := pow_le_pow_left₀ (by positivity) h 8
      refine this.trans_eq ?_
      rw [← Real.rpow_natCast, ← Real.rpow_mul (by positivity)]
      norm_num
    calc |Z| * (2 / Real.sqrt Real.pi) / r * (I - (mu * r - (mu * r) ^ 3 / 3 + (mu * r) ^ 5 / 10 - (mu * r) ^ 7 / 42))
        ≤ |Z| * (2 / Real.sqrt Real.pi) / r * ((mu * r) ^ 9 / 216) := by
          refine mul_le_mul_of_nonneg_left (by linarith) (by positivity)
      _ = |Z| * mu / (108 * Real.sqrt Real.pi) * (mu * r) ^ 8 := by field_simp; ring
      _ ≤ _ := by gcongr

example : ∃ m mu, getModel .gaussian 92 1 = .ok m ∧ 0 < mu ∧
    |m.V (1 / 42) 0 (fun _ => 0) 1 - electrostatic (gaussian mu) 92 1| ≤ |92| * mu / (108 * Real.sqrt Real.pi) * (42 * (1 / 42)) ^ ((4 : ℝ) / 3) := by
  obtain ⟨mu, h0, _, h⟩ := C40_gaussian_series (1 / 42) 0 (fun _ => 0) (by norm_num) 92 1 1 one_pos one_pos _ rfl
  exact ⟨_, mu, rfl, h0, h⟩

/-- **C40, far from a Gaussian nucleus** the potential approaches that of the point charge, with an explicit bound. -/
theorem C40_gaussian_far (Z Rrms r : ℝ) (hR : 0 < Rrms) (hr : 0 < r) (m : Model) (hm : getModel .gaussian Z Rrms = .ok m)
    (hout : (42 * eps) ^ ((1 : ℝ) / 6) < gaussianMu Rrms * r) :
    |m.V eps cut findB r - -Z / r| ≤ |Z| * Real.exp (-(gaussianMu Rrms * r) ^ 2) / (Real.sqrt Real.pi * gaussianMu Rrms * r ^ 2) := by
  have hmu : 0 < gaussianMu Rrms := by unfold gaussianMu; positivity
  simp only [getModel, Res.ok.injEq] at hm
  subst hm
  show |gaussianV eps Z (gaussianMu Rrms) r - _| ≤ _
  generalize gaussianMu Rrms = mu at hmu hout
  have : ¬ r ≤ gaussianRcut eps mu := by
    unfold gaussianRcut
    rw [not_le, div_lt_iff₀ hmu, mul_comm r]; exact hout
  unfold gaussianV
  rw [if_neg this]
  have h1 := erf_tail (mu * r) (by positivity)
  have h2 := erf_le_one (mu * r) (by positivity)
  have e : -Z * erf (mu * r) / r - -Z / r = Z / r * (1 - erf (mu * r)) := by field_simp; ring
  rw [e, abs_mul, abs_div, abs_of_pos hr, abs_of_nonneg (by linarith : 0 ≤ 1 - erf (mu * r))]
  calc |Z| / r * (1 - erf (mu * r)) ≤ |Z| / r * (Real.exp (-(mu * r) ^ 2) / (Real.sqrt Real.pi * (mu * r))) := by gcongr
    _ = _ := by field_simp

/-! ## C58: the regularized nucleus -/

/-- **C58, exact ground state.** The regularized nucleus has the known ground state: outside its series region, `r` times the regularized exponential orbital
solves the radial Schrödinger equation with the energy `-Z²/2` of the point nucleus, whatever the constant `b`. -/
theorem C58_exact_ground_state (Z a r : ℝ) (hZ : 0 < Z) (hr : 0 < r) (hcut : cut < Z * r) (m : Model) (hm : getModel .regularized Z a = .ok m) :
    SchrodingerAt (m.V eps cut findB) (fun x => x * phi a (findB a) (Z * x)) (-Z ^ 2 / 2) r := by
  simp only [getModel, Res.ok.injEq] at hm
  subst hm
  obtain ⟨d, h1, h2⟩ := radial_eq a (findB a) (Z * r) (by positivity)
  have hl : ∀ x : ℝ, HasDerivAt (fun x => Z * x) Z x := fun x => by simpa using (hasDerivAt_id x).const_mul Z
  refine ⟨fun x => d (Z * x), 2 * (regAnalytic a (findB a) (Z * r) + 1 / 2) * (Z * r * phi a (findB a) (Z * r)) * Z, ?_, ?_, ?_⟩
  · intro x
    have := ((h1 (Z * x)).comp x (hl x)).div_const Z
    have e : (fun x => x * phi a (findB a) (Z * x)) = fun x => ((fun x => x * phi a (findB a) x) ∘ fun x => Z * x) x / Z := by
      funext x; simp only [Function.comp]; field_simp
    rw [e]
    exact this.congr_deriv (by field_simp)
  · exact h2.comp r (hl r)
  · show _ + regV cut Z a (findB a) r * _ = _
    unfold regV
    simp only [if_neg (not_le.2 hcut)]
    ring

/-- The hypotheses are met: helium with `a = 2` and any positive `b`; the orbital does not vanish. -/
example : ∃ m, getModel .regularized 2 2 = .ok m ∧ SchrodingerAt (m.V 0 (1 / 8) fun _ => 1 / 3) (fun x => x * phi 2 (1 / 3) (2 * x)) (-2 ^ 2 / 2) 1 ∧
    1 * phi 2 (1 / 3) (2 * 1) ≠ 0 :=
  ⟨_, rfl, C58_exact_ground_state 0 (1 / 8) _ 2 2 1 two_pos one_pos (by norm_num) _ rfl, by
    have hs : Real.sqrt Real.pi ≠ 0 := (Real.sqrt_pos.2 Real.pi_pos).ne'
    rw [one_mul]; unfold phi; exact div_ne_zero (Real.exp_pos _).ne' hs⟩

/-- **C58, the series.** Near the nucleus the series used agrees with the closed form to eighth order in `Z r`, for every regularization parameter. -/
theorem C58_series (a b : ℝ) (ha : 0 < a) :
    ∃ C, ∀ Z r, 0 < Z → 0 < r → Z * r ≤ cut → Z * r ≤ 1 →
      |regV cut Z a b r - Z ^ 2 * regAnalytic a b (Z * r)| ≤ C * Z ^ 2 * (Z * r) ^ 8 := by
  obtain ⟨C, hC⟩ : ∃ C, ∀ r x1 x2 x3 : ℝ, |r| ≤ 1 → |x1| ≤ 1 → |x2| ≤ 1 → |x3| ≤ 1 → |quot a b (1 / Real.sqrt Real.pi) r x1 x2 x3| ≤ C := by
    let K : Set (ℝ × ℝ × ℝ × ℝ) := Icc (-1) 1 ×ˢ Icc (-1) 1 ×ˢ Icc (-1) 1 ×ˢ Icc (-1) 1
    have hK : IsCompact K := isCompact_Icc.prod (isCompact_Icc.prod (isCompact_Icc.prod isCompact_Icc))
    have hf : Continuous fun p : ℝ × ℝ × ℝ × ℝ => quot a b (1 / Real.sqrt Real.pi) p.1 p.2.1 p.2.2.1 p.2.2.2 := by
      unfold quot; fun_prop
    obtain ⟨C, hC⟩ := hK.exists_bound_of_continuousOn hf.continuousOn
    refine ⟨C, fun r x1 x2 x3 h0 h1 h2 h3 => ?_⟩
    exact hC (r, x1, x2, x3) ⟨abs_le.1 h0, abs_le.1 h1, abs_le.1 h2, abs_le.1 h3⟩
  refine ⟨C, fun Z r hZ hr h1 h2 => ?_⟩
  have hZr : 0 < Z * r := by positivity
  obtain ⟨x1, x2, x3, b1, b2, b3, e⟩ := taylor_diff a b (Z * r) ha hZr
  unfold regV
  simp only [if_pos h1]
  have : Z ^ 2 * regTaylor a b (Z * r) - Z ^ 2 * regAnalytic a b (Z * r) = -(Z ^ 2 * ((Z * r) ^ 8 * quot a b (1 / Real.sqrt Real.pi) (Z * r) x1 x2 x3)) := by
    rw [← e]; ring
  rw [this, abs_neg, abs_mul, abs_mul, abs_of_pos (show 0 < Z ^ 2 by positivity), abs_of_pos (show 0 < (Z * r) ^ 8 by positivity)]
  have := hC (Z * r) x1 x2 x3 (by rw [abs_of_pos hZr]; exact h2) b1 b2 b3
  calc Z ^ 2 * ((Z * r) ^ 8 * |quot a b (1 / Real.sqrt Real.pi) (Z * r) x1 x2 x3|) ≤ Z ^ 2 * ((Z * r) ^ 8 * C) := by gcongr
    _ = _ := by ring

/-- The series region is not empty. -/
example : ∃ Z r : ℝ, 0 < Z ∧ 0 < r ∧ Z * r ≤ 1 / 8 ∧ Z * r ≤ 1 := ⟨2, 1 / 16, by norm_num, by norm_num, by norm_num, by norm_num⟩

/-- **C58, no singularity.** The closed form has a finite limit at the nucleus, and it is the value the series gives there. -/
theorem C58_finite_at_origin (a b : ℝ) (ha : 0 < a) : Tendsto (regAnalytic a b) (𝓝[>] 0) (𝓝 (regTaylor a b 0)) := by
  obtain ⟨C, hC⟩ := C58_series 1 a b ha
  have hT : Tendsto (regTaylor a b) (𝓝[>] 0) (𝓝 (regTaylor a b 0)) := by
    have : Continuous (regTaylor a b) := by unfold regTaylor; fun_prop
    exact (this.tendsto 0).mono_left nhdsWithin_le_nhds
  have hd : Tendsto (fun r => regAnalytic a b r - regTaylor a b r) (𝓝[>] 0) (𝓝 0) := by
    have hb : Tendsto (fun r : ℝ => C * r ^ 8) (𝓝[>] 0) (𝓝 0) := by
      have : Continuous fun r : ℝ => C * r ^ 8 := by fun_prop
      have := (this.tendsto 0).mono_left (nhdsWithin_le_nhds (s := Ioi 0))
      simpa using this
    refine squeeze_zero_norm' ?_ hb
    filter_upwards [self_mem_nhdsWithin, mem_nhdsWithin_of_mem_nhds (Iio_mem_nhds (zero_lt_one : (0 : ℝ) < 1))] with r hr h1
    have hr' : 0 < r := hr
    have h1' : r < 1 := h1
    have := hC 1 r one_pos hr' (by linarith) (by linarith)
    unfold regV at this
    simp only [one_mul, one_pow, mul_one, if_pos h1'.le] at this
    rw [Real.norm_eq_abs, abs_sub_comm]; exact this
  have := hd.add hT
  simpa using this

/-- **C58, far from the nucleus** the regularized potential is that of the full charge: `r V(r)` tends to `-Z`. -/
theorem C58_far (Z a : ℝ) (hZ : 0 < Z) (ha : 0 < a) (m : Model) (hm : getModel .regularized Z a = .ok m) :
    Tendsto (fun r => r * m.V eps cut findB r) atTop (𝓝 (-Z)) := by
  simp only [getModel, Res.ok.injEq] at hm
  subst hm
  have h := ((tendsto_reg a (findB a) ha).comp (tendsto_id.const_mul_atTop hZ)).const_mul Z
  rw [mul_neg_one] at h
  refine h.congr' ?_
  filter_upwards [(tendsto_id.const_mul_atTop hZ).eventually (eventually_gt_atTop cut)] with r hr
  simp only [id] at hr
  show _ = r * regV cut Z a (findB a) r
  unfold regV
  simp only [if_neg (not_le.2 hr), Function.comp, id]
  ring

example : ∃ m, getModel .regularized 5 3 = .ok m ∧ Tendsto (fun r => r * m.V 0 0 (fun _ => 1) r) atTop (𝓝 (-5)) :=
  ⟨_, rfl, C58_far 0 0 _ 5 3 (by norm_num) (by norm_num) _ rfl⟩

end Nucleus
end HelFEM
