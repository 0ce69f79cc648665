import Verif.Lemmas.Aij

/-!
# C85: the jellium background and its grid

The atom of charge `Z` with `Z - Q` electrons of its own sits in the middle of a positive background that holds `n` electrons at the Wigner-Seitz radius `rs`. The background is a ball, or with
`vacancy` a shell around a hole the size of the atom's own electrons. `radii` gives the geometry, `potfunc` the potential energy of an electron, `boundaries` the elements.
-/

namespace HelFEM
namespace Aij

open RadialGrid HelFEM.Spec Filter

/-- the geometry of a background of nonnegative charge -/
theorem radii_ok {vacancy : Bool} {Z Q n : Int} {rs : ℝ} (hrs : 0 < rs) (hn : 0 ≤ n) (hq : vacancy = true → 0 ≤ Z - Q) : 0 ≤ (radii vacancy Z Q n rs).inner ∧
    (radii vacancy Z Q n rs).inner ≤ (radii vacancy Z Q n rs).outer ∧ (radii vacancy Z Q n rs).R = (radii vacancy Z Q n rs).outer := by
  have c0 : ∀ x : ℝ, 0 ≤ x → 0 ≤ cbrt x := fun x h => not_lt.1 fun h1 => absurd (cbrt_lt.1 (cbrt_zero.symm ▸ h1)) (not_lt.2 h)
  have hn' : (0 : ℝ) ≤ n := by exact_mod_cast hn
  unfold radii
  cases vacancy
  · exact ⟨le_rfl, mul_nonneg (c0 _ hn') hrs.le, rfl⟩
  · have hz : (0 : ℝ) ≤ (Z : ℝ) - Q := by exact_mod_cast hq rfl
    refine ⟨mul_nonneg (c0 _ hz) hrs.le, mul_le_mul_of_nonneg_right (not_lt.1 fun h => ?_) hrs.le, rfl⟩
    have := cbrt_lt.1 h
    linarith

theorem outer_pos {vacancy : Bool} {Z Q n : Int} {rs : ℝ} (hrs : 0 < rs) (hn : 0 < n) (hq : vacancy = true → 0 ≤ Z - Q) : 0 < (radii vacancy Z Q n rs).outer := by
  have hn' : (0 : ℝ) < n := by exact_mod_cast hn
  unfold radii
  cases vacancy
  · exact mul_pos (cbrt_pos.2 hn') hrs
  · have hz : (0 : ℝ) ≤ (Z : ℝ) - Q := by exact_mod_cast hq rfl
    exact mul_pos (cbrt_pos.2 (by linarith)) hrs

theorem radii_cubes (vacancy : Bool) (Z Q n : Int) {rs : ℝ} (hrs : 0 < rs) : ((radii vacancy Z Q n rs).outer / rs) ^ 3 - ((radii vacancy Z Q n rs).inner / rs) ^ 3 = n := by
  unfold radii
  cases vacancy
  · simp only [Bool.false_eq_true, if_false]
    rw [mul_div_cancel_right₀ _ hrs.ne', cbrt_cube]
    simp
  · simp only [if_true]
    rw [mul_div_cancel_right₀ _ hrs.ne', mul_div_cancel_right₀ _ hrs.ne', cbrt_cube, cbrt_cube]
    ring

/-- **C85, the background charge.** The background holds exactly one unit of positive charge for every jellium electron, and the check of it never stops a calculation. -/
theorem C85_charge (vacancy : Bool) (Z Q n : Int) (rs : ℝ) (hrs : 0 < rs) :
    checkCharge (radii vacancy Z Q n rs) n rs = .ok () ∧
    (0 ≤ n → (vacancy = true → 0 ≤ Z - Q) → Spec.charge (Spec.shell rs (radii vacancy Z Q n rs).inner (radii vacancy Z Q n rs).outer) = n) := by
  refine ⟨?_, fun hn hq => ?_⟩
  · unfold checkCharge
    rw [if_pos hrs, radii_cubes vacancy Z Q n hrs, sub_self, abs_zero, if_neg]
    have : (0 : ℝ) < (max 1 n : Int) := by exact_mod_cast lt_of_lt_of_le one_pos (le_max_left 1 n)
    rw [gt_iff_lt, not_lt]
    positivity
  · obtain ⟨h1, h2, -⟩ := radii_ok hrs hn hq
    rw [shell_charge hrs h1 h2, radii_cubes vacancy Z Q n hrs]

example : Spec.charge (Spec.shell 2 (radii true 13 0 5 2).inner (radii true 13 0 5 2).outer) = 5 := by
  have := (C85_charge true 13 0 5 2 two_pos).2 (by norm_num) (by norm_num)
  simpa using this

/-- **C85, the hole.** With a vacancy the hole is the ball that would hold the atom's own `Z - Q` electrons at the density of the background. -/
theorem C85_hole (Z Q n : Int) (rs : ℝ) (hrs : 0 < rs) (hq : 0 ≤ Z - Q) : Spec.charge (Spec.shell rs 0 (radii true Z Q n rs).inner) = Z - Q := by
  have h := (radii_ok (n := 0) hrs le_rfl fun _ : true = true => hq).1
  have e : (radii true Z Q 0 rs).inner = (radii true Z Q n rs).inner := rfl
  rw [e] at h
  rw [shell_charge hrs le_rfl h]
  unfold radii
  simp only [if_true]
  rw [mul_div_cancel_right₀ _ hrs.ne', cbrt_cube]
  simp

example : Spec.charge (Spec.shell 2 0 (radii true 13 3 5 2).inner) = 10 := by
  rw [C85_hole 13 3 5 2 two_pos (by norm_num)]
  norm_num

/-- **C85, the potential.** The potential energy of an electron is the electrostatic one in the field of the background; from the edge of the background on it is that of `n` unit charges in
the centre. -/
theorem C85_potential (vacancy : Bool) (Z Q n : Int) (rs r : ℝ) (hrs : 0 < rs) (hn : 0 < n) (hq : vacancy = true → 0 ≤ Z - Q) (hr : 0 < r) :
    potfunc (radii vacancy Z Q n rs) rs r = Nucleus.electrostatic (Spec.shell rs (radii vacancy Z Q n rs).inner (radii vacancy Z Q n rs).outer) 1 r ∧
    ((radii vacancy Z Q n rs).outer ≤ r → potfunc (radii vacancy Z Q n rs) rs r = -n / r) := by
  obtain ⟨h1, h2, -⟩ := radii_ok hrs hn.le hq
  have h3 := outer_pos hrs hn hq
  refine ⟨potential_shell hrs h1 h2 h3 hr _, fun h => ?_⟩
  have hc := radii_cubes vacancy Z Q n hrs
  unfold potfunc spherePot
  rw [if_neg (not_lt.2 h), if_neg (not_lt.2 (h2.trans h))]
  split
  · rw [← hc]
    ring
  · rename_i hi
    have : (radii vacancy Z Q n rs).inner = 0 := le_antisymm (not_lt.1 hi) h1
    rw [this] at hc
    rw [← hc]
    simp
    ring

example : potfunc (radii true 13 0 8 2) 2 7 = -8 / 7 := by
  have h := (C85_potential true 13 0 8 2 7 two_pos (by norm_num) (by norm_num) (by norm_num)).2
  refine (h ?_).trans (by norm_num)
  have : cbrt (21 : ℝ) < 3.5 := by
    have h1 : StrictMono fun t : ℝ => t ^ 3 := Odd.strictMono_pow (by decide)
    refine h1.lt_iff_lt.1 ?_
    simp only [cbrt_cube]
    norm_num
  show cbrt (((13 : Int) : ℝ) - (0 : Int) + (8 : Int)) * 2 ≤ 7
  rw [show ((13 : Int) : ℝ) - (0 : Int) + (8 : Int) = 21 by norm_num]
  linarith

/-- **C85, where the potential is not smooth.** The potential is continuous everywhere, and the points handed to the quadrature are exactly the ones where it is not smooth. -/
theorem C85_breakpoints (vacancy : Bool) (Z Q n : Int) (rs : ℝ) (hrs : 0 < rs) (hn : 0 < n) (hq : vacancy = true → 0 ≤ Z - Q) (m : WithTop ℕ∞) (hm : 2 ≤ m) (x : ℝ) :
    Continuous (potfunc (radii vacancy Z Q n rs) rs) ∧ (x ∈ breakpoints (radii vacancy Z Q n rs) ↔ ¬ ContDiffAt ℝ m (potfunc (radii vacancy Z Q n rs) rs) x) := by
  obtain ⟨h1, h2, -⟩ := radii_ok hrs hn.le hq
  have h3 := outer_pos hrs hn hq
  have hc := radii_cubes vacancy Z Q n hrs
  have hn' : (0 : ℝ) < n := by exact_mod_cast hn
  have hlt : (radii vacancy Z Q n rs).inner < (radii vacancy Z Q n rs).outer := by
    refine h2.lt_of_ne fun h => ?_
    rw [h, sub_self] at hc
    linarith
  generalize radii vacancy Z Q n rs = g at *
  obtain ⟨R, a, b⟩ := g
  simp only at h1 h2 h3 hc hlt
  have hb0 : (b / rs) ^ 3 ≠ 0 := by positivity
  rcases h1.eq_or_lt with rfl | ha
  · have e : potfunc ⟨R, 0, b⟩ rs = Nucleus.sphericalV ((b / rs) ^ 3) b := by
      funext r
      unfold potfunc
      rw [if_neg (lt_irrefl _), if_pos h3, spherePot_eq]
      ring
    have eb : breakpoints ⟨R, 0, b⟩ = [b] := by simp [breakpoints, h3]
    rw [e, eb, List.mem_singleton]
    refine ⟨Nucleus.spherical_continuous _ _ h3, ⟨?_, fun h => ?_⟩⟩
    · rintro rfl h
      exact Nucleus.spherical_kink _ _ hb0 h3 (h.of_le hm)
    · by_contra hx
      exact h (Nucleus.spherical_smooth _ _ _ h3 hx m)
  · have e : potfunc ⟨R, a, b⟩ rs = fun r => Nucleus.sphericalV ((b / rs) ^ 3) b r - Nucleus.sphericalV ((a / rs) ^ 3) a r := by
      funext r
      unfold potfunc
      rw [if_pos ha, spherePot_eq, spherePot_eq]
      ring
    have eb : breakpoints ⟨R, a, b⟩ = [a, b] := by simp [breakpoints, h3, ha]
    have ha0 : (a / rs) ^ 3 ≠ 0 := by positivity
    rw [e, eb]
    refine ⟨(Nucleus.spherical_continuous _ _ h3).sub (Nucleus.spherical_continuous _ _ ha), ⟨fun hx h => ?_, fun h => ?_⟩⟩
    · rw [List.mem_cons, List.mem_singleton] at hx
      rcases hx with rfl | rfl
      · refine Nucleus.spherical_kink _ _ ha0 ha ?_
        have := (Nucleus.spherical_smooth ((b / rs) ^ 3) b x h3 hlt.ne 2).sub (h.of_le hm)
        simpa using this
      · refine Nucleus.spherical_kink _ _ hb0 h3 ?_
        have := (h.of_le hm).add (Nucleus.spherical_smooth ((a / rs) ^ 3) a x ha hlt.ne' 2)
        simpa using this
    · by_contra hx
      simp only [List.mem_cons, List.not_mem_nil, or_false, not_or] at hx
      exact h ((Nucleus.spherical_smooth _ _ _ h3 hx.2 m).sub (Nucleus.spherical_smooth _ _ _ ha hx.1 m))

example : ∃ x, x ∈ breakpoints (radii true 13 0 8 2) ∧ ¬ ContDiffAt ℝ 2 (potfunc (radii true 13 0 8 2) 2) x := by
  have h3 := outer_pos (vacancy := true) (Z := 13) (Q := 0) (n := 8) two_pos (by norm_num) (by norm_num)
  have hx : (radii true 13 0 8 2).outer ∈ breakpoints (radii true 13 0 8 2) := by
    unfold breakpoints
    rw [if_pos h3]
    simp
  exact ⟨_, hx, (C85_breakpoints true 13 0 8 2 two_pos (by norm_num) (by norm_num) 2 le_rfl _).2.1 hx⟩

/-- **C85, the constant energies.** `Erep` is the energy of the background in its own field, `Enucfield` that of the nucleus in the field of the background. -/
theorem C85_energies (vacancy : Bool) (Z Q n : Int) (rs : ℝ) (hrs : 0 < rs) (hn : 0 < n) (hq : vacancy = true → 0 ≤ Z - Q) :
    selfRepulsion (radii vacancy Z Q n rs) rs = Spec.selfEnergy (Spec.shell rs (radii vacancy Z Q n rs).inner (radii vacancy Z Q n rs).outer) ∧
    nucleusInField (radii vacancy Z Q n rs) Z rs = Z * Spec.atCentre (Spec.shell rs (radii vacancy Z Q n rs).inner (radii vacancy Z Q n rs).outer) := by
  obtain ⟨h1, h2, -⟩ := radii_ok hrs hn.le hq
  have h3 := outer_pos hrs hn hq
  refine ⟨?_, ?_⟩
  · rw [shell_self hrs h1 h2 h3]
    unfold selfRepulsion
    rw [if_pos hrs]
  · rw [shell_centre hrs h1 h2]
    unfold nucleusInField potfunc spherePot
    rw [if_pos h3]
    rcases h1.eq_or_lt with h | h
    · rw [← h, if_neg (lt_irrefl _), if_pos h3]
      field_simp
      ring
    · rw [if_pos h, if_pos h]
      field_simp
      ring

example : selfRepulsion (radii false 13 0 8 1) 1 = 96 / 5 ∧ Spec.selfEnergy (Spec.shell 1 0 2) = 96 / 5 := by
  have e : cbrt 8 = 2 := (Odd.strictMono_pow (R := ℝ) (n := 3) (by decide)).injective (by simp only [cbrt_cube]; norm_num)
  have er : radii false 13 0 8 1 = ⟨2, 0, 2⟩ := by
    unfold radii
    simp [e]
  have h := (C85_energies false 13 0 8 1 one_pos (by norm_num) (by simp)).1
  rw [er] at h ⊢
  have h1 : selfRepulsion ⟨2, 0, 2⟩ 1 = 96 / 5 := by
    unfold selfRepulsion
    norm_num
  exact ⟨h1, h ▸ h1⟩

/-- **C85, the period of the Friedel oscillations.** The period is `π / k_F`, with `k_F³ = 3π²` times the density of the background. -/
theorem C85_period (rs : ℝ) (hrs : 0 < rs) : 0 < period rs ∧ (Real.pi / period rs) ^ 3 = 3 * Real.pi ^ 2 * (3 / (4 * Real.pi * rs ^ 3)) := by
  have hp := period_pos hrs
  have h3 : period rs ^ 3 = 4 * Real.pi * Real.pi / 9 * rs ^ 3 := by
    unfold period
    rw [mul_pow, cbrt_cube]
  have := Real.pi_pos
  refine ⟨hp, ?_⟩
  rw [div_pow, h3]
  field_simp
  norm_num

/-- the boundary the vacancy adds; the vacuum never moves the ones before it -/
theorem boundaries_split (vacancy : Bool) (Z Q n : Int) (rs nufreq Rmax zexp : ℝ) (Nelem igrid : Int) (hrs : 0 < rs) (hf : 0 < nufreq) (ha : AdmissibleGrid igrid zexp)
    (hR : 0 < (radii vacancy Z Q n rs).R) : ∃ b0 : List ℝ, ∃ Nu : Nat, (Nu : Int) = ⌈(radii vacancy Z Q n rs).R / period rs * nufreq⌉ ∧ 1 ≤ Nu ∧
      gluedGrid igrid zexp Nelem (uniformCount (radii vacancy Z Q n rs).R rs nufreq) (radii vacancy Z Q n rs).R Rmax Z = .ok b0 ∧
      uniformCount (radii vacancy Z Q n rs).R rs nufreq = Nu ∧
      ValidGrid (Nu + (Nelem - 1).toNat) (radii vacancy Z Q n rs).R b0 ∧ Cover (period rs / nufreq) (radii vacancy Z Q n rs).R b0 := by
  obtain ⟨Nu, e1, e2, e3⟩ := count_pos hR (period_pos hrs) hf
  have eu : uniformCount (radii vacancy Z Q n rs).R rs nufreq = Nu := by
    unfold uniformCount
    rw [if_pos hrs, e1]
  obtain ⟨b0, g1, g2, g3⟩ := glued_ok (igrid := igrid) (zexp := zexp) (Nelem := Nelem) Rmax hR e2 e3 ha Z
  exact ⟨b0, Nu, e1.symm, e2, eu ▸ g1, eu, g2, g3⟩

theorem vacuum_any {b : List ℝ} {m Nu : Nat} {R Rmax rs nufreq : ℝ} (hv : ValidGrid m R b) (hc : Cover (period rs / nufreq) R b) (hN : 1 ≤ Nu) (hrs : 0 < rs) (hf : 0 < nufreq) (Z : Int) :
    ∃ b', withVacuum Nu Rmax rs nufreq Z b = .ok b' ∧ ValidGrid (m + if 0 < Rmax then ⌈Rmax / period rs * nufreq⌉.toNat else 0) (R + max Rmax 0) b' ∧
      Cover (period rs / nufreq) (R + max Rmax 0) b' ∧ ∀ x ∈ b, x ∈ b' := by
  by_cases h : 0 < Rmax
  · obtain ⟨Nv, e1, e2, e3⟩ := count_pos h (period_pos hrs) hf
    rw [if_pos h, max_eq_left h.le, e1, Int.toNat_natCast]
    exact vacuum_ok hv hc (by omega) h e1 e2 e3 Z
  · rw [if_neg h, max_eq_right (not_lt.1 h)]
    refine ⟨b, ?_, by simpa using hv, by simpa using hc, fun x hx => hx⟩
    unfold withVacuum
    rw [if_neg fun h' => h h'.2]

/-- **C85, the elements.** With a background, positive spacing parameters and an admissible grid type, the element boundaries increase strictly from zero to `Rmax` beyond the background, in the
promised number; the edge of the background and that of the hole are boundaries; no element is longer than the period of the Friedel oscillations over `nufreq`.

The edge of the hole must not be a boundary already (`hnew`): see `C85_vacancy_repeats`. -/
theorem C85_grid (vacancy : Bool) (Z Q n : Int) (rs nufreq Rmax zexp : ℝ) (Nelem igrid : Int) (hrs : 0 < rs) (hf : 0 < nufreq) (hn : 0 < n) (hq : vacancy = true → 0 < Z - Q)
    (ha : AdmissibleGrid igrid zexp)
    (hnew : vacancy = true → ∀ b, boundaries (radii vacancy Z Q n rs) false igrid zexp Nelem rs nufreq Rmax Z = .ok b → (radii vacancy Z Q n rs).inner ∉ b) :
    ∃ b, boundaries (radii vacancy Z Q n rs) vacancy igrid zexp Nelem rs nufreq Rmax Z = .ok b ∧
      ValidGrid (⌈(radii vacancy Z Q n rs).R / period rs * nufreq⌉.toNat + (Nelem - 1).toNat + (if vacancy then 1 else 0) + if 0 < Rmax then ⌈Rmax / period rs * nufreq⌉.toNat else 0)
        ((radii vacancy Z Q n rs).R + max Rmax 0) b ∧
      (radii vacancy Z Q n rs).outer ∈ b ∧ (vacancy = true → (radii vacancy Z Q n rs).inner ∈ b) ∧ Spec.Resolves (period rs / nufreq) b := by
  have hq' : vacancy = true → 0 ≤ Z - Q := fun h => (hq h).le
  obtain ⟨h1, h2, hRo⟩ := radii_ok hrs hn.le hq'
  have h3 := outer_pos hrs hn hq'
  have hR : 0 < (radii vacancy Z Q n rs).R := hRo ▸ h3
  obtain ⟨b0, Nu, e1, e2, g1, eu, g2, g3⟩ := boundaries_split vacancy Z Q n rs nufreq Rmax zexp Nelem igrid hrs hf ha hR
  have eT : ⌈(radii vacancy Z Q n rs).R / period rs * nufreq⌉.toNat = Nu := by omega
  rw [eT]
  unfold boundaries at hnew ⊢
  rw [g1, eu] at hnew ⊢
  rw [Res.ok_bind]
  cases vacancy with
  | false =>
    obtain ⟨b, k1, k2, k3, k4⟩ := vacuum_any (Rmax := Rmax) g2 g3 e2 hrs hf Z
    exact ⟨b, k1, k2, k4 _ (hRo ▸ List.mem_of_getLast? g2.last), fun h => absurd h (by simp), cover_resolves k2 k3⟩
  | true =>
    have hin : 0 < (radii true Z Q n rs).inner := by
      have hz : (0 : ℝ) < (Z : ℝ) - Q := by exact_mod_cast hq rfl
      exact mul_pos (cbrt_pos.2 hz) hrs
    have hlt : (radii true Z Q n rs).inner < (radii true Z Q n rs).R := by
      have hn' : (0 : ℝ) < n := by exact_mod_cast hn
      exact mul_lt_mul_of_pos_right (cbrt_lt.2 (by linarith)) hrs
    have hnot : (radii true Z Q n rs).inner ∉ b0 := by
      obtain ⟨b, k1, -, -, k4⟩ := vacuum_any (Rmax := Rmax) g2 g3 e2 hrs hf Z
      exact fun h => hnew rfl b k1 (k4 _ h)
    have v1 := insert_valid g2 hin hlt hnot
    have hmem : ∀ y, y ∈ Grid.stdSort (b0 ++ [(radii true Z Q n rs).inner]) ↔ y ∈ b0 ∨ y = (radii true Z Q n rs).inner := by
      intro y
      simp [(Grid.stdSort_perm (b0 ++ [(radii true Z Q n rs).inner])).mem_iff]
    have v2 := g3.mono fun y hy => (hmem y).2 (Or.inl hy)
    obtain ⟨b, k1, k2, k3, k4⟩ := vacuum_any (Rmax := Rmax) v1 v2 e2 hrs hf Z
    exact ⟨b, k1, k2, k4 _ ((hmem _).2 (Or.inl (hRo ▸ List.mem_of_getLast? g2.last))), fun _ => k4 _ ((hmem _).2 (Or.inr rfl)), cover_resolves k2 k3⟩

example : ∃ b m, boundaries (radii false 13 0 8 2) false 4 2 5 2 3 10 13 = .ok b ∧ ValidGrid m ((radii false 13 0 8 2).R + max 10 0) b := by
  obtain ⟨b, h1, h2, -⟩ := C85_grid false 13 0 8 2 3 10 2 5 4 two_pos (by norm_num) (by norm_num) (by simp) (Or.inr (Or.inr (Or.inr (Or.inl ⟨rfl, by norm_num⟩)))) (by simp)
  exact ⟨b, _, h1, h2⟩

/-- a case with a hole: one uniform element, no atomic part, boundaries `0`, the hole, `R` -/
example : ∃ b, boundaries (radii true 1 0 7 1) true 1 0 0 1 (1 / 2) 0 1 = .ok b ∧ ValidGrid 2 2 b ∧ (1 : ℝ) ∈ b := by
  have e8 : cbrt 8 = 2 := (Odd.strictMono_pow (R := ℝ) (n := 3) (by decide)).injective (by simp only [cbrt_cube]; norm_num)
  have e1 : cbrt 1 = 1 := (Odd.strictMono_pow (R := ℝ) (n := 3) (by decide)).injective (by simp only [cbrt_cube]; norm_num)
  have er : radii true 1 0 7 1 = ⟨2, 1, 2⟩ := by
    unfold radii
    rw [if_pos rfl]
    norm_num [e8, e1]
  have hp : 1 < period 1 := by
    have h : cbrt 1 < cbrt (4 * Real.pi * Real.pi / 9) := cbrt_lt.2 (by nlinarith [Real.pi_gt_three])
    rw [e1] at h
    unfold period
    linarith
  have hc : ⌈(2 : ℝ) / period 1 * (1 / 2)⌉ = 1 := by
    rw [Int.ceil_eq_iff]
    have : (2 : ℝ) / period 1 * (1 / 2) = 1 / period 1 := by ring
    rw [this]
    refine ⟨?_, ?_⟩
    · norm_num
      linarith
    · rw [div_le_iff₀ (by linarith)]
      norm_num
      linarith
  have hb : boundaries (radii true 1 0 7 1) false 1 0 0 1 (1 / 2) 0 1 = .ok [0, 2] := by
    rw [er]
    unfold boundaries uniformCount
    simp only [if_pos one_pos, hc]
    unfold gluedGrid withVacuum withVacancy uniformGrid
    rw [formGrid_point, if_pos (by norm_num)]
    have : getGrid 2 1 1 0 = .ok [0, 2] := by
      unfold getGrid
      rw [if_neg (by norm_num)]
      simp [rawGrid, linSpaced, List.range_succ, Res.pure_eq, Res.ok_bind]
    rw [this, Res.ok_bind, if_neg (by norm_num), Res.ok_bind, if_neg (by norm_num)]
    rfl
  obtain ⟨b, h1, h2, -, h4, -⟩ := C85_grid true 1 0 7 1 (1 / 2) 0 0 0 1 one_pos (by norm_num) (by norm_num) (by norm_num) (Or.inl rfl) fun _ b h => by
    rw [hb, Res.ok.injEq] at h
    subst h
    rw [er]
    norm_num
  rw [er] at h2 h4
  simp only [hc] at h2
  refine ⟨b, h1, ?_, h4 rfl⟩
  simpa using h2

/-- **C85 (negative part), a boundary twice.** With a vacancy and no electrons of the atom (plain jellium), or with a vacancy and no jellium electrons, the edge of the hole is a boundary already:
the grid that comes out has an element of length zero. -/
theorem C85_vacancy_repeats (Z Q n : Int) (rs nufreq Rmax zexp : ℝ) (Nelem igrid : Int) (hrs : 0 < rs) (hf : 0 < nufreq) (ha : AdmissibleGrid igrid zexp)
    (h : (Z - Q = 0 ∧ 0 < n) ∨ (0 < Z - Q ∧ n = 0)) :
    ∃ b, boundaries (radii true Z Q n rs) true igrid zexp Nelem rs nufreq Rmax Z = .ok b ∧ ¬ b.Pairwise (· < ·) := by
  have hz : ((Z - Q : Int) : ℝ) = (Z : ℝ) - Q := by push_cast; ring
  have hR : 0 < (radii true Z Q n rs).R := by
    refine mul_pos (cbrt_pos.2 ?_) hrs
    rcases h with ⟨h1, h2⟩ | ⟨h1, h2⟩
    · rw [← hz, h1]
      have : (0 : ℝ) < n := by exact_mod_cast h2
      simpa using this
    · rw [h2, ← hz]
      have : (0 : ℝ) < (Z - Q : Int) := by exact_mod_cast h1
      simpa using this
  obtain ⟨b0, Nu, e1, e2, g1, eu, g2, g3⟩ := boundaries_split true Z Q n rs nufreq Rmax zexp Nelem igrid hrs hf ha hR
  have hin : (radii true Z Q n rs).inner ∈ b0 := by
    rcases h with ⟨h1, h2⟩ | ⟨h1, h2⟩
    · have : (radii true Z Q n rs).inner = 0 := by
        show cbrt ((Z : ℝ) - Q) * rs = 0
        rw [← hz, h1]
        simp [cbrt_zero]
      rw [this]
      exact List.mem_of_head? g2.first
    · have : (radii true Z Q n rs).inner = (radii true Z Q n rs).R := by
        show cbrt ((Z : ℝ) - Q) * rs = cbrt ((Z : ℝ) - Q + n) * rs
        rw [h2]
        simp
      rw [this]
      exact List.mem_of_getLast? g2.last
  have hdup : ¬ (Grid.stdSort (b0 ++ [(radii true Z Q n rs).inner])).Pairwise (· < ·) := by
    intro hp
    have := (Grid.stdSort_perm (b0 ++ [(radii true Z Q n rs).inner])).nodup_iff.1 (hp.imp fun h => ne_of_lt h)
    rw [List.nodup_append] at this
    exact this.2.2 _ hin _ (by simp) rfl
  have hlast : lastOf (Grid.stdSort (b0 ++ [(radii true Z Q n rs).inner])) ≠ .ub ∧ ∀ e, lastOf (Grid.stdSort (b0 ++ [(radii true Z Q n rs).inner])) ≠ .throw e := by
    have hne : Grid.stdSort (b0 ++ [(radii true Z Q n rs).inner]) ≠ [] := fun h => hdup (by rw [h]; exact List.Pairwise.nil)
    unfold lastOf
    rw [List.getLast?_eq_some_getLast hne]
    exact ⟨by simp, by simp⟩
  unfold boundaries
  rw [g1, eu, Res.ok_bind]
  unfold withVacuum withVacancy
  rw [if_pos rfl]
  by_cases hRm : 0 < Rmax
  · obtain ⟨Nv, n1, n2, n3⟩ := count_pos hRm (period_pos hrs) hf
    obtain ⟨v, u1, u2, -⟩ := uniform_ok hRm n2 Z n3
    rw [if_pos ⟨by omega, hRm⟩, n1, u1, Res.ok_bind]
    obtain ⟨u, rest, rfl, -⟩ := valid_split n2 u2
    cases hl : lastOf (Grid.stdSort (b0 ++ [(radii true Z Q n rs).inner])) with
    | ub => exact absurd hl hlast.1
    | throw e => exact absurd hl (hlast.2 e)
    | ok e =>
      refine ⟨Grid.stdSort (b0 ++ [(radii true Z Q n rs).inner]) ++ (u :: rest).map (· + e), ?_, fun hp => hdup (List.pairwise_append.1 hp).1⟩
      rw [Res.ok_bind]
      show (Res.ok (0 + e) >>= _) = _
      rw [Res.ok_bind, if_neg (by simp)]
      rfl
  · rw [if_neg fun h => hRm h.2]
    exact ⟨_, rfl, hdup⟩

example : ∃ b, boundaries (radii true 0 0 8 2) true 4 2 5 2 3 10 0 = .ok b ∧ ¬ b.Pairwise (· < ·) :=
  C85_vacancy_repeats 0 0 8 2 3 10 2 5 4 two_pos (by norm_num) (Or.inr (Or.inr (Or.inr (Or.inl ⟨rfl, by norm_num⟩)))) (Or.inl ⟨by norm_num, by norm_num⟩)

/-- **C85, no background.** Without jellium electrons, or with a density parameter that is not positive, there is no background: no potential, no constant energies, and the grid is the plain
atomic one up to `Rmax`. -/
theorem C85_free_atom (Z Q n : Int) (rs nufreq Rmax zexp : ℝ) (Nelem : Nat) (igrid : Int) (hn : 0 ≤ n) (h : n = 0 ∨ rs ≤ 0) (hR : 0 < Rmax) (hN : 1 ≤ Nelem) (ha : AdmissibleGrid igrid zexp) :
    (∀ r, potfunc (radii false Z Q n rs) rs r = 0) ∧ selfRepulsion (radii false Z Q n rs) rs = 0 ∧ nucleusInField (radii false Z Q n rs) Z rs = 0 ∧
    ∃ b, boundaries (radii false Z Q n rs) false igrid zexp Nelem rs nufreq Rmax Z = .ok b ∧ getGrid Rmax Nelem igrid zexp = .ok b ∧ ValidGrid Nelem Rmax b := by
  have hn' : (0 : ℝ) ≤ n := by exact_mod_cast hn
  have c0 : 0 ≤ cbrt n := not_lt.1 fun h1 => absurd (cbrt_lt.1 (cbrt_zero.symm ▸ h1)) (not_lt.2 hn')
  have hi : (radii false Z Q n rs).inner = 0 := rfl
  have ho : (radii false Z Q n rs).outer ≤ 0 := by
    show cbrt n * rs ≤ 0
    rcases h with rfl | h
    · simp [cbrt_zero]
    · exact mul_nonpos_of_nonneg_of_nonpos c0 h
  have hp : ∀ r, potfunc (radii false Z Q n rs) rs r = 0 := fun r => by
    unfold potfunc
    rw [hi, if_neg (lt_irrefl _), if_neg (not_lt.2 ho)]
  have hu : uniformCount (radii false Z Q n rs).R rs nufreq = 0 := by
    unfold uniformCount
    split
    · rename_i h0
      have : (radii false Z Q n rs).R = 0 := by
        show cbrt n * rs = 0
        rcases h with rfl | h
        · simp [cbrt_zero]
        · exact absurd h0 (not_lt.2 h)
      rw [this]
      simp
    · rfl
  refine ⟨hp, ?_, ?_, ?_⟩
  · unfold selfRepulsion
    split
    · rename_i h0
      have : (radii false Z Q n rs).outer = 0 := by
        show cbrt n * rs = 0
        rcases h with rfl | h
        · simp [cbrt_zero]
        · exact absurd h0 (not_lt.2 h)
      rw [hi, this]
      simp
    · rfl
  · unfold nucleusInField
    rw [hp]
    simp
  · obtain ⟨b, b1, b2⟩ := C06_grid_valid_partial Rmax zexp Nelem igrid hR hN ha
    refine ⟨b, ?_, b1, b2⟩
    unfold boundaries
    rw [hu]
    unfold gluedGrid withVacuum withVacancy
    rw [if_neg (by simp), Res.ok_bind, if_pos (by omega), if_neg (by simp), Res.ok_bind, formGrid_point, b1, Res.ok_bind, if_neg (by simp), Res.ok_bind, if_neg (by simp), if_neg (by simp)]

example : ∃ b, boundaries (radii false 13 0 0 2) false 4 2 (5 : Nat) 2 3 40 13 = .ok b ∧ ValidGrid 5 40 b := by
  obtain ⟨-, -, -, b, h1, -, h2⟩ := C85_free_atom 13 0 0 2 3 40 2 5 4 le_rfl (Or.inl rfl) (by norm_num) (by norm_num) (Or.inr (Or.inr (Or.inr (Or.inl ⟨rfl, by norm_num⟩))))
  exact ⟨b, h1, h2⟩

/-- **C85 (negative part), a negative number of jellium electrons.** The message that there is nothing to calculate is never reached: from eight missing electrons on, at one or more elements per
period, the grid is asked for a negative number of elements, which is undefined. -/
theorem C85_negative_count (Z Q n : Int) (rs nufreq Rmax zexp : ℝ) (Nelem igrid : Int) (hrs : 0 < rs) (hn : n ≤ -8) (hf : 1 ≤ nufreq) :
    boundaries (radii false Z Q n rs) false igrid zexp Nelem rs nufreq Rmax Z = .ub := by
  have hmono : StrictMono fun t : ℝ => t ^ 3 := Odd.strictMono_pow (by decide)
  have c1 : cbrt n ≤ -2 := by
    refine hmono.le_iff_le.1 ?_
    simp only [cbrt_cube]
    have : (n : ℝ) ≤ -8 := by exact_mod_cast hn
    linarith
  have c2 : cbrt (4 * Real.pi * Real.pi / 9) < 2 := by
    refine hmono.lt_iff_lt.1 ?_
    simp only [cbrt_cube]
    nlinarith [Real.pi_lt_four, Real.pi_pos]
  have c3 : 0 < cbrt (4 * Real.pi * Real.pi / 9) := cbrt_pos.2 (by positivity)
  have hc : uniformCount (radii false Z Q n rs).R rs nufreq < 0 := by
    unfold uniformCount
    rw [if_pos hrs]
    have : (radii false Z Q n rs).R / period rs * nufreq ≤ -1 := by
      show cbrt n * rs / (cbrt (4 * Real.pi * Real.pi / 9) * rs) * nufreq ≤ -1
      rw [mul_div_mul_right _ _ hrs.ne']
      have h1 : cbrt n / cbrt (4 * Real.pi * Real.pi / 9) ≤ -1 := by
        rw [div_le_iff₀ c3]
        linarith
      nlinarith
    have h2 : ⌈(radii false Z Q n rs).R / period rs * nufreq⌉ ≤ -1 := Int.ceil_le.2 (by push_cast; exact this)
    omega
  unfold boundaries gluedGrid uniformGrid
  rw [if_pos (by omega), formGrid_point]
  have : getGrid (radii false Z Q n rs).R (uniformCount (radii false Z Q n rs).R rs nufreq) 1 0 = .ub := by
    unfold getGrid
    rw [if_pos hc, if_neg (by norm_num), if_neg (by norm_num)]
  rw [this]
  rfl

theorem scan_ok (n : Int) : ∀ (ms : List Int) (i l : Nat), scanMagic n ms i = .ok l ↔ ∃ k, l = i + k ∧ (∃ m, ms[k]? = some m ∧ n < m) ∧ ∀ j m, j < k → ms[j]? = some m → m ≤ n
  | [], i, l => by simp [scanMagic]
  | m :: ms, i, l => by
    unfold scanMagic
    split
    · rename_i h
      rw [Res.ok.injEq]
      constructor
      · rintro rfl
        exact ⟨0, rfl, ⟨m, rfl, h⟩, fun j _ hj => absurd hj (Nat.not_lt_zero j)⟩
      · rintro ⟨k, rfl, -, hk⟩
        rcases k with _ | k
        · rfl
        · exact absurd (hk 0 m (Nat.succ_pos _) rfl) (not_le.2 h)
    · rename_i h
      rw [scan_ok n ms (i + 1) l]
      constructor
      · rintro ⟨k, rfl, ⟨m', h1, h2⟩, hk⟩
        refine ⟨k + 1, by omega, ⟨m', h1, h2⟩, fun j m'' hj hm => ?_⟩
        rcases j with _ | j
        · simp only [List.getElem?_cons_zero, Option.some.injEq] at hm
          subst hm
          exact not_lt.1 h
        · exact hk j m'' (by omega) hm
      · rintro ⟨k, rfl, ⟨m', h1, h2⟩, hk⟩
        rcases k with _ | k
        · simp only [List.getElem?_cons_zero, Option.some.injEq] at h1
          subst h1
          exact absurd h2 h
        · exact ⟨k, by omega, ⟨m', h1, h2⟩, fun j m'' hj hm => hk (j + 1) m'' (by omega) hm⟩

theorem scan_fail (n : Int) : ∀ (ms : List Int) (i : Nat), (scanMagic n ms i = .throw .logicError ↔ ∀ m ∈ ms, m ≤ n) ∧ ((∃ m ∈ ms, n < m) → ∃ l, scanMagic n ms i = .ok l)
  | [], i => by simp [scanMagic]
  | m :: ms, i => by
    obtain ⟨h1, h2⟩ := scan_fail n ms (i + 1)
    unfold scanMagic
    split
    · rename_i h
      exact ⟨⟨fun h' => by simp at h', fun h' => absurd (h' m (by simp)) (not_le.2 h)⟩, fun _ => ⟨i, rfl⟩⟩
    · rename_i h
      refine ⟨h1.trans ⟨fun h' x hx => ?_, fun h' x hx => h' x (List.mem_cons_of_mem _ hx)⟩, fun ⟨x, hx, hl⟩ => h2 ?_⟩
      · rcases List.mem_cons.1 hx with rfl | hx
        · exact not_lt.1 h
        · exact h' x hx
      · rcases List.mem_cons.1 hx with rfl | hx
        · exact absurd hl h
        · exact ⟨x, hx, hl⟩

/-- **C85, the largest angular momentum.** Every number of jellium electrons below 99284 gets an angular momentum, larger ones an exception. The number `l` is the one whose entry in the table of
closed shells is the first above `n`: all entries below it are at most `n`, all others larger; more electrons never get a smaller one, and a larger one asked for is kept. -/
theorem C85_lmax (lmax n : Int) :
    (n < 99284 → ∃ l : Nat, l < 100 ∧ jelliumLmax lmax n = .ok (max lmax l) ∧ (∀ j m, magic[j]? = some m → (n < m ↔ l ≤ j))) ∧
    (99284 ≤ n → jelliumLmax lmax n = .throw .logicError) ∧
    (∀ n' l l', n ≤ n' → consistentLmax n = .ok l → consistentLmax n' = .ok l' → l ≤ l') := by
  have hall : ∀ m ∈ magic, m ≤ 99284 := by decide +kernel
  have hinc : magic.Pairwise (· < ·) := by decide +kernel
  refine ⟨fun h => ?_, fun h => ?_, fun n' l l' hnn h h' => ?_⟩
  · obtain ⟨l, hl⟩ := (scan_fail n magic 0).2 ⟨99284, by decide +kernel, h⟩
    obtain ⟨k, rfl, ⟨m, h1, h2⟩, h3⟩ := (scan_ok n magic 0 l).1 hl
    refine ⟨k, ?_, ?_, fun j m' hj => ⟨fun hl => not_lt.1 fun hk => absurd (h3 j m' hk hj) (not_le.2 hl), fun hk => ?_⟩⟩
    · have := (List.getElem?_eq_some_iff.1 h1).1
      exact this
    rotate_left
    · obtain ⟨k1, rfl⟩ := List.getElem?_eq_some_iff.1 h1
      obtain ⟨j1, rfl⟩ := List.getElem?_eq_some_iff.1 hj
      rcases Nat.lt_or_ge k j with h4 | h4
      · exact h2.trans (List.pairwise_iff_getElem.1 hinc k j k1 j1 h4)
      · have : k = j := by omega
        subst this
        exact h2
    · unfold jelliumLmax consistentLmax
      rw [hl, Res.ok_bind, Nat.zero_add]
  · unfold jelliumLmax consistentLmax
    rw [(scan_fail n magic 0).1.2 fun m hm => (hall m hm).trans h]
    rfl
  · obtain ⟨k, rfl, ⟨m, h1, h2⟩, h3⟩ := (scan_ok n magic 0 l).1 h
    obtain ⟨k', rfl, ⟨m', h1', h2'⟩, h3'⟩ := (scan_ok n' magic 0 l').1 h'
    by_contra hk
    have := h3 k' m' (by omega) h1'
    omega

example : jelliumLmax 1 36 = .ok 4 ∧ jelliumLmax 1 0 = .ok 1 ∧ jelliumLmax 1 99284 = .throw .logicError := by decide +kernel

end Aij
end HelFEM
