import Verif.Lemmas.DiaOneKin
import Verif.Props.DiaMultipole
import Verif.Props.Gram

/-!
# C72: the one-electron matrices of the diatomic program are matrix elements

Each matrix has the matrix element of its operator between the functions `B_a(μ) Y_l^m(ν, φ)`, an integral over space in prolate spheroidal coordinates, as entry.
-/

namespace HelFEM
namespace DiaOne

open Polynomial Finset Harm MeasureTheory OneE HelFEM.Poly HelFEM.Grid

variable {D : Diatom} {φ : Nat → Nat → ℝ[X]}

theorem Spec.Good.m_le' (h : Spec.Good D φ) {i : Nat} (hi : i < D.nang) : (D.m i).natAbs ≤ (D.l i).toNat ∧ 0 ≤ D.l i := by
  have := h.m_le _ (lm_mem D hi)
  rw [Int.abs_eq_natAbs] at this
  unfold Diatom.m Diatom.l
  omega

theorem zz_diag (h : Spec.Good D φ) {i j : Nat} (hi : i < D.nang) (hj : j < D.nang) :
    zz (D.l i).toNat (D.m i) (D.l j).toNat (D.m j) (fun _ => 1) = if D.l i = D.l j ∧ D.m i = D.m j then 1 else 0 := by
  have h1 := h.m_le' hi
  have h2 := h.m_le' hj
  rw [zz_one _ _ _ _ h1.1 h2.1]
  congr 1
  rw [eq_iff_iff]
  omega

/-- the loop over the blocks gives a matrix of matrix elements -/
theorem finish_matrix (h : Spec.Good D φ) (step : Mat ℝ → Nat × Nat → Res (Mat ℝ)) (s : ℝ) (f : Nat → Nat → ℝ → Nat → Nat → ℝ) (g : Nat → Nat → Nat → Nat → ℂ)
    (hstep : ∀ i < D.nang, ∀ j < D.nang, Upd D.rad.nbf D.rad.nbf D.nang D.nang i j (fun V => step V (i, j)) (fun x a b => if D.m i = D.m j then f i j x a b else x))
    (hg : ∀ i a j b, i < D.nang → j < D.nang → a < D.rad.nbf → b < D.rad.nbf → ∃ r : ℝ, g i a j b = (r : ℂ) ∧ (D.m i ≠ D.m j → r = 0) ∧ (D.m i = D.m j → r = s * f i j 0 a b)) :
    ∃ V, D.finish step s = .ok V ∧ Spec.IsMatrix D V g := by
  obtain ⟨V, h1, h2, h3, h4⟩ := finish_ok D step s _ hstep
  refine ⟨V, h1, h2, h3, fun k k' i a j b hk hk' => ?_⟩
  obtain ⟨_, hi, ha, _⟩ := functions_get hk
  obtain ⟨_, hj, hb, _⟩ := functions_get hk'
  obtain ⟨r, e1, e2, e3⟩ := hg i a j b hi hj ha hb
  rw [h4 k k' i a j b hk hk', e1, Complex.ofReal_inj]
  by_cases hm : D.m i = D.m j
  · rw [if_pos hm, e3 hm]
  · rw [if_neg hm, e2 hm, mul_zero]

/-- **C72, overlap.** `overlap()` is the overlap matrix. -/
theorem C72_overlap (h : Spec.Good D φ) : ∃ V, D.overlap = .ok V ∧ Spec.IsMatrix D V (Spec.potential D φ fun _ _ => 1) := by
  refine finish_matrix h D.overlapStep (D.Rhalf ^ 3) (fun i j x a b => (if D.l i = D.l j then (D.rad.integral 1 2).get a b else x) +
    ((D.rad.integral 1 0).smul (-zz (D.l i).toNat (D.m i) (D.l j).toNat (D.m j) fun c => c ^ 2)).get a b) _ (fun i hi j hj => ?_) (fun i a j b hi hj ha hb => ?_)
  · unfold Diatom.overlapStep
    refine Upd.ite fun _ => ?_
    simp only [(couplings h hi hj).2.1, Res.ok_bind]
    exact Upd.bind (setDiag_upd D hi hj _ (by exact h.exact.rows _ _) (by exact h.exact.cols _ _)) (addIf_upd D hi hj _ _ (by exact h.exact.rows _ _) (by exact h.exact.cols _ _) fun hz a b => by simp [Mat.smul, hz])
  · refine ⟨_, potential_int h.functions h.exact _ i a j b ha hb ![D.Rhalf ^ 3, -D.Rhalf ^ 3] ![1, 1] ![2, 0] ![fun _ => 1, fun c => c ^ 2] (fun t => ?_) (fun μ c _ _ _ => ?_), fun hm => ?_, fun hm => ?_⟩
    · fin_cases t
      · exact continuous_const
      · exact continuous_pow 2
    · simp [Fin.sum_univ_two]
      ring
    · simp [zz_off _ _ _ _ _ hm]
    · simp [Fin.sum_univ_two, zz_diag h hi hj, Mat.smul]
      by_cases hl : D.l i = D.l j
      · simp [hl, hm]
        ring
      · simp [hl]
        ring

/-- **C72, nuclear attraction.** `nuclear()` is the matrix of the attraction by the charges `Z1` at `z = -R` and `Z2` at `z = R`. -/
theorem C72_nuclear (h : Spec.Good D φ) : ∃ V, D.nuclear = .ok V ∧ Spec.IsMatrix D V (Spec.potential D φ (Spec.attraction D.Z1 D.Z2 D.Rhalf)) := by
  refine finish_matrix h D.nuclearStep (-D.Rhalf ^ 2) (fun i j x a b => (if D.Z1 ≠ D.Z2 then (if D.l i = D.l j then ((D.rad.integral 1 1).smul ((D.Z1 + D.Z2 : Int) : ℝ)).get a b else x) +
    ((D.rad.integral 1 0).smul (((D.Z2 - D.Z1 : Int) : ℝ) * zz (D.l i).toNat (D.m i) (D.l j).toNat (D.m j) fun c => c)).get a b else
      (if D.l i = D.l j then ((D.rad.integral 1 1).smul ((D.Z1 + D.Z2 : Int) : ℝ)).get a b else x))) _ (fun i hi j hj => ?_) (fun i a j b hi hj ha hb => ?_)
  · unfold Diatom.nuclearStep
    refine Upd.ite fun _ => ?_
    simp only [(couplings h hi hj).1, Res.ok_bind]
    exact Upd.bind (setDiag_upd D hi hj _ (by exact h.exact.rows _ _) (by exact h.exact.cols _ _)) (Upd.ite fun _ => addIf_upd D hi hj _ _ (by exact h.exact.rows _ _) (by exact h.exact.cols _ _) fun hz a b => by simp [Mat.smul, hz])
  · refine ⟨_, potential_int h.functions h.exact _ i a j b ha hb ![-D.Rhalf ^ 2 * (D.Z1 + D.Z2), -D.Rhalf ^ 2 * (D.Z2 - D.Z1)] ![1, 1] ![1, 0] ![fun _ => 1, fun c => c] (fun t => ?_) (fun μ c h0 h1 h2 => ?_), fun hm => ?_, fun hm => ?_⟩
    · fin_cases t
      · exact continuous_const
      · exact continuous_id
    · have hR := h.half
      have hC := Real.one_le_cosh μ
      have p1 : Real.cosh μ + c ≠ 0 := by linarith
      have p2 : Real.cosh μ - c ≠ 0 := by linarith
      unfold Spec.attraction
      rw [dist1 _ _ _ hR h1 h2, dist2 _ _ _ hR h1 h2]
      simp [Fin.sum_univ_two]
      field_simp
      ring
    · simp [zz_off _ _ _ _ _ hm]
    · by_cases hZ : D.Z1 = D.Z2
      · simp [Fin.sum_univ_two, zz_diag h hi hj, Mat.smul, hZ]
        by_cases hl : D.l i = D.l j
        · simp [hl, hm]
          ring
        · simp [hl]
      · simp [Fin.sum_univ_two, zz_diag h hi hj, Mat.smul, hZ]
        by_cases hl : D.l i = D.l j
        · simp [hl, hm]
          ring
        · simp [hl]
          ring

/-- **C72, dipole.** `dipole_z()` is the matrix of `z`. -/
theorem C72_dipole (h : Spec.Good D φ) : ∃ V, D.dipole = .ok V ∧ Spec.IsMatrix D V (Spec.potential D φ fun _ z => z) := by
  refine finish_matrix h D.dipoleStep (D.Rhalf ^ 4) (fun i j x a b => x + ((D.rad.integral 1 3).smul (zz (D.l i).toNat (D.m i) (D.l j).toNat (D.m j) fun c => c)).get a b +
    ((D.rad.integral 1 1).smul (-zz (D.l i).toNat (D.m i) (D.l j).toNat (D.m j) fun c => c ^ 3)).get a b) _ (fun i hi j hj => ?_) (fun i a j b hi hj ha hb => ?_)
  · unfold Diatom.dipoleStep
    refine Upd.ite fun _ => ?_
    simp only [(couplings h hi hj).1, (couplings h hi hj).2.2.1, Res.ok_bind]
    exact Upd.bind (addIf_upd D hi hj _ _ (by exact h.exact.rows _ _) (by exact h.exact.cols _ _) fun hz a b => by simp [Mat.smul, hz]) (addIf_upd D hi hj _ _ (by exact h.exact.rows _ _) (by exact h.exact.cols _ _) fun hz a b => by simp [Mat.smul, hz])
  · refine ⟨_, potential_int h.functions h.exact _ i a j b ha hb ![D.Rhalf ^ 4, -D.Rhalf ^ 4] ![1, 1] ![3, 1] ![fun c => c, fun c => c ^ 3] (fun t => ?_) (fun μ c h0 h1 h2 => ?_), fun hm => ?_, fun hm => ?_⟩
    · fin_cases t
      · exact continuous_id
      · exact continuous_pow 3
    · simp [Fin.sum_univ_two, Spec.zed]
      ring
    · simp [zz_off _ _ _ _ _ hm]
    · simp [Fin.sum_univ_two, Mat.smul]
      ring

/-- **C72, quadrupole.** `quadrupole_zz()` is the matrix of `(3z² - r²)/2`, where `r² = ρ² + z²`. -/
theorem C72_quadrupole (h : Spec.Good D φ) : ∃ V, D.quadrupole = .ok V ∧ Spec.IsMatrix D V (Spec.potential D φ fun ρ z => (3 * z ^ 2 - (ρ ^ 2 + z ^ 2)) / 2) := by
  have hr := h.exact.rows
  have hc := h.exact.cols
  unfold Diatom.quadrupole
  simp only [Mat.add, Mat.smul, hr, hc, and_self, if_true, Res.ok_bind]
  refine finish_matrix h _ (D.Rhalf ^ 5 / 2) (fun i j x a b => if D.l i = D.l j then x +
      (zz (D.l i).toNat (D.m i) (D.l j).toNat (D.m j) fun c => c ^ 4) * ((D.rad.integral 1 0).get a b + -3 * (D.rad.integral 1 2).get a b) +
      (zz (D.l i).toNat (D.m i) (D.l j).toNat (D.m j) fun c => c ^ 2) * (3 * (D.rad.integral 1 4).get a b + -1 * (D.rad.integral 1 0).get a b) +
      ((D.rad.integral 1 2).get a b + -1 * (D.rad.integral 1 4).get a b) else x +
      (zz (D.l i).toNat (D.m i) (D.l j).toNat (D.m j) fun c => c ^ 4) * ((D.rad.integral 1 0).get a b + -3 * (D.rad.integral 1 2).get a b) +
      (zz (D.l i).toNat (D.m i) (D.l j).toNat (D.m j) fun c => c ^ 2) * (3 * (D.rad.integral 1 4).get a b + -1 * (D.rad.integral 1 0).get a b)) _ (fun i hi j hj => ?_) (fun i a j b hi hj ha hb => ?_)
  · unfold Diatom.quadStep
    refine Upd.ite fun _ => ?_
    simp only [(couplings h hi hj).2.1, (couplings h hi hj).2.2.2.1, Res.ok_bind]
    refine Upd.bind (addIf_upd D hi hj _ _ rfl rfl fun hz a b => by simp [Mat.smul, hz]) (Upd.bind (addIf_upd D hi hj _ _ rfl rfl fun hz a b => by simp [Mat.smul, hz]) (addDiag_upd D hi hj _ rfl rfl))
  · refine ⟨_, potential_int h.functions h.exact _ i a j b ha hb ![D.Rhalf ^ 5 / 2, -3 * (D.Rhalf ^ 5 / 2), 3 * (D.Rhalf ^ 5 / 2), -(D.Rhalf ^ 5 / 2), D.Rhalf ^ 5 / 2, -(D.Rhalf ^ 5 / 2)] ![1, 1, 1, 1, 1, 1] ![0, 2, 4, 0, 2, 4]
      ![fun c => c ^ 4, fun c => c ^ 4, fun c => c ^ 2, fun c => c ^ 2, fun _ => 1, fun _ => 1] (fun t => ?_) (fun μ c h0 h1 h2 => ?_), fun hm => ?_, fun hm => ?_⟩
    · fin_cases t
      · exact continuous_pow 4
      · exact continuous_pow 4
      · exact continuous_pow 2
      · exact continuous_pow 2
      · exact continuous_const
      · exact continuous_const
    · rw [rho_sq _ _ _ h1 h2]
      simp [Fin.sum_univ_six, Spec.zed]
      ring
    · simp [zz_off _ _ _ _ _ hm]
    · simp [Fin.sum_univ_six, zz_diag h hi hj]
      by_cases hl : D.l i = D.l j
      · simp [hm, hl]
        ring
      · simp [hl]
        ring

/-- derivative of a basis function with respect to the azimuth -/
theorem wave_azimuth (p : ℝ[X]) (l : Nat) (m : Int) (μ c q : ℝ) : deriv (fun x => Spec.wave p l m μ c x) q = (m : ℂ) * Complex.I * Spec.wave p l m μ c q := by
  have h1 : HasDerivAt (fun x : ℝ => ((m * x : ℝ) : ℂ) * Complex.I) ((m : ℂ) * Complex.I) q := by
    have := (((hasDerivAt_id q).const_mul (m : ℝ)).ofReal_comp).mul_const Complex.I
    simpa using this
  have := (h1.cexp.mul_const ((yx l m c : ℝ) : ℂ)).const_mul ((p.eval μ : ℝ) : ℂ)
  have e : (fun x => Spec.wave p l m μ c x) = fun x => ((p.eval μ : ℝ) : ℂ) * (Complex.exp (((m * x : ℝ) : ℂ) * Complex.I) * ((yx l m c : ℝ) : ℂ)) := by
    funext x; rw [Spec.wave, sph_yx]
  rw [e, this.deriv, Spec.wave, sph_yx]
  ring

/-- **C72, magnetic field.** `Bz_field(B)` is the matrix of `B²/8 (x² + y²) - B/2 L_z`. -/
theorem C72_magnetic (h : Spec.Good D φ) (B : ℝ) : ∃ V, D.magnetic B = .ok V ∧ Spec.IsMatrix D V (Spec.magnetic D φ B) := by
  have hr := h.exact.rows
  have hc := h.exact.cols
  have hfin : D.magnetic B = D.finish (D.magStep B) 1 := by
    unfold Diatom.magnetic Diatom.finish
    congr 1
    funext V
    congr 1
    unfold Mat.smul
    cases V
    simp
  rw [hfin]
  refine finish_matrix h _ 1 (fun i j x a b =>
    let y := x + (((D.rad.integral 3 2).smul (D.Rhalf ^ 5)).smul (B * B / 8 * zz (D.l i).toNat (D.m i) (D.l j).toNat (D.m j) fun c => 1 - c ^ 2)).get a b +
      (((D.rad.integral 3 0).smul (D.Rhalf ^ 5)).smul (-(B * B / 8) * zz (D.l i).toNat (D.m i) (D.l j).toNat (D.m j) fun c => c ^ 2 * (1 - c ^ 2))).get a b
    if -(1 / 2) * (D.m j : ℝ) * B ≠ 0 then (if D.l i = D.l j then y + (((D.rad.integral 1 2).smul (D.Rhalf ^ 3)).smul (-(1 / 2) * D.m j * B)).get a b else y) +
      (((D.rad.integral 1 0).smul (D.Rhalf ^ 3)).smul (-(-(1 / 2) * D.m j * B) * zz (D.l i).toNat (D.m i) (D.l j).toNat (D.m j) fun c => c ^ 2)).get a b else y) _ (fun i hi j hj => ?_) (fun i a j b hi hj ha hb => ?_)
  · unfold Diatom.magStep
    refine Upd.ite fun _ => ?_
    obtain ⟨_, c2, _, _, c5, c6⟩ := couplings h hi hj
    simp only [c2, c5, c6, Diatom.magOrb, Res.ok_bind]
    exact Upd.bind (addIf_upd D hi hj _ _ (by exact hr _ _) (by exact hc _ _) fun hz a b => by simp [Mat.smul, hz]) (Upd.bind (addIf_upd D hi hj _ _ (by exact hr _ _) (by exact hc _ _) fun hz a b => by simp [Mat.smul, hz])
      (Upd.ite fun _ => Upd.bind (addDiag_upd D hi hj _ (by exact hr _ _) (by exact hc _ _)) (addIf_upd D hi hj _ _ (by exact hr _ _) (by exact hc _ _) fun hz a b => by simp [Mat.smul, hz])))
  · refine ⟨_, volume_int h.functions h.exact i a j b ha hb ![B ^ 2 / 8 * D.Rhalf ^ 5, -(B ^ 2 / 8) * D.Rhalf ^ 5, -(B / 2) * D.m j * D.Rhalf ^ 3, B / 2 * D.m j * D.Rhalf ^ 3] ![3, 3, 1, 1] ![2, 0, 2, 0]
      ![fun c => 1 - c ^ 2, fun c => c ^ 2 * (1 - c ^ 2), fun _ => 1, fun c => c ^ 2] (fun t => ?_) _ (fun e μ c x h0 h1 h2 => ?_), fun hm => ?_, fun hm => ?_⟩
    · fin_cases t
      · exact (by fun_prop : Continuous fun c : ℝ => 1 - c ^ 2)
      · exact (by fun_prop : Continuous fun c : ℝ => c ^ 2 * (1 - c ^ 2))
      · exact continuous_const
      · exact continuous_pow 2
    · rw [wave_azimuth, rho_sq _ _ _ h1 h2]
      have hI : Complex.I ^ 2 = -1 := Complex.I_sq
      have hsh : Real.sinh μ ^ 3 = Real.sinh μ * (Real.cosh μ ^ 2 - 1) := by rw [Real.cosh_sq]; ring
      simp only [Spec.wave, map_mul, Complex.conj_ofReal, Fin.sum_univ_four, Matrix.cons_val_zero, Matrix.cons_val_one, Matrix.cons_val]
      rw [hsh]
      generalize (starRingEnd ℂ) (sph (D.l i).toNat (D.m i) c x) = s1
      generalize sph (D.l j).toNat (D.m j) c x = s2
      generalize Real.cosh μ = C
      generalize Real.sinh μ = S
      push_cast
      linear_combination (((φ e a).eval μ * (φ e b).eval μ * (B / 2) * D.m j * D.Rhalf ^ 3 * S * (C ^ 2 - c ^ 2) : ℂ) * s1 * s2) * hI
    · simp [zz_off _ _ _ _ _ hm]
    · by_cases hz : -(1 / 2) * (D.m j : ℝ) * B = 0
      · have hz' : B * (D.m j : ℝ) = 0 := by linarith
        have hz2 : -(B / 2) * (D.m j : ℝ) = 0 := by linarith
        have hz3 : B / 2 * (D.m j : ℝ) = 0 := by linarith
        simp only [hz, ne_eq, not_true_eq_false, if_false, Fin.sum_univ_four, Matrix.cons_val_zero, Matrix.cons_val_one, Matrix.cons_val, Mat.smul, hz2, hz3]
        norm_num
        ring
      · simp only [hz, ne_eq, not_false_eq_true, if_true, Fin.sum_univ_four, Matrix.cons_val_zero, Matrix.cons_val_one, Matrix.cons_val, Mat.smul, zz_diag h hi hj]
        by_cases hl : D.l i = D.l j
        · simp only [hl, hm, and_self, if_true]
          norm_num
          ring
        · simp only [hl, false_and, if_false]
          norm_num
          ring

/-- **C72, kinetic energy.** `kinetic()` is the matrix of the kinetic energy: half the integral of the product of gradients. -/
theorem C72_kinetic (h : Spec.Good D φ) : ∃ V, D.kinetic = .ok V ∧ Spec.IsMatrix D V (Spec.kinetic D φ) := by
  have hr := h.exact.rows
  have hc := h.exact.cols
  obtain ⟨V, g1, g2, g3, g4⟩ := blocks (n := D.rad.nbf) (n' := D.rad.nbf) (N := D.nang) (N' := D.nang) (fun i : Nat => (i, i)) D.kinStep
    (fun i _ _ a b => D.rad.kin.get a b + ((D.l i).toNat : ℝ) * ((D.l i).toNat + 1) * (D.rad.integral 1 0).get a b + (D.m i : ℝ) ^ 2 * (D.rad.integral (-1) 0).get a b)
    (List.range D.nang) (List.nodup_range.map fun a b h => by simpa using h) (by
      intro i hi V hVr hVc
      rw [List.mem_range] at hi
      have hu : Upd D.rad.nbf D.rad.nbf D.nang D.nang i i (fun V => D.kinStep V i) _ := Upd.bind (Upd.set h.exact.kin_rows h.exact.kin_cols hi hi)
        (Upd.bind (Upd.ite (P := D.l i ≠ 0) fun _ => Upd.add (M := (D.rad.integral 1 0).smul ((D.l i * (D.l i + 1) : Int) : ℝ)) (hr _ _) (hc _ _) hi hi)
          (Upd.ite (P := D.m i ≠ 0) fun _ => Upd.add (M := (D.rad.integral (-1) 0).smul ((D.m i * D.m i : Int) : ℝ)) (hr _ _) (hc _ _) hi hi))
      obtain ⟨V', s1, s2, s3, s4⟩ := hu V hVr hVc
      refine ⟨V', s1, s2, s3, fun i' a j' b ha hb => ?_⟩
      rw [s4 i' a j' b ha hb]
      simp only [Prod.mk.injEq]
      by_cases hh : i' = i ∧ j' = i
      · rw [if_pos hh, if_pos hh, hh.1]
        have hl := (h.m_le' hi).2
        have hl' : (((D.l i).toNat : Nat) : ℝ) = ((D.l i : Int) : ℝ) := by
          rw [← Int.cast_natCast, Int.toNat_of_nonneg hl]
        rw [hl']
        by_cases h1 : D.l i = 0 <;> by_cases h2 : D.m i = 0 <;> simp [h1, h2, Mat.smul, sq]
      · rw [if_neg hh, if_neg hh])
    (Mat.zero D.ndummy D.ndummy) rfl rfl
  obtain ⟨W, w1, w2, w3, w4⟩ := remove_ok D V (D.Rhalf / 2) (fun i a j b => if i = j then D.rad.kin.get a b + ((D.l i).toNat : ℝ) * ((D.l i).toNat + 1) * (D.rad.integral 1 0).get a b + (D.m i : ℝ) ^ 2 * (D.rad.integral (-1) 0).get a b else 0)
    g2 g3 (fun i hi a ha j hj b hb => by
      have := g4 i a j b ha hb
      rw [ent, zero_ent] at this
      rw [this]
      by_cases hij : i = j
      · subst hij
        rw [if_pos (by simpa using hi), if_pos rfl]
      · rw [if_neg, if_neg hij]
        simp only [List.mem_map, List.mem_range, Prod.mk.injEq]
        rintro ⟨x, _, rfl, rfl⟩
        exact hij rfl)
  refine ⟨W, ?_, w2, w3, fun k k' i a j b hk hk' => ?_⟩
  · unfold Diatom.kinetic
    rw [g1, Res.ok_bind, w1]
  · obtain ⟨_, hi, ha, hma⟩ := functions_get hk
    obtain ⟨_, hj, hb, hmb⟩ := functions_get hk'
    rw [w4 k k' i a j b hk hk', kinetic_eq h.functions h.exact h.half i a j b (h.m_le' hi).1 (h.m_le' hj).1 ha hb hma hmb, Complex.ofReal_inj]
    have hi2 := (h.m_le' hi).2
    have hj2 := (h.m_le' hj).2
    have hij := lm_inj D h.nodup hi hj
    by_cases e : i = j
    · rw [if_pos e, if_pos (by rw [e]; exact ⟨rfl, rfl⟩)]
    · rw [if_neg e, if_neg, mul_zero]
      rintro ⟨h1, h2⟩
      exact e (hij.1 ⟨by omega, h2⟩)

/-- the integral over the common part of two elements -/
theorem cross_element (D E : Diatom) (u v : ℝ[X]) (lo hi : ℝ) (h0 : 0 ≤ lo) (hlh : lo ≤ hi) (i j : Nat) :
    ∫ μ in lo..hi, Harm.Spec.sphere (fun c p => (starRingEnd ℂ) (Spec.wave u (D.l i).toNat (D.m i) μ c p) * Spec.wave v (E.l j).toNat (E.m j) μ c p *
      ((D.Rhalf ^ 3 * Real.sinh μ * (Real.cosh μ ^ 2 - c ^ 2) : ℝ) : ℂ)) =
    ((D.Rhalf ^ 3 * (zz (D.l i).toNat (D.m i) (E.l j).toNat (E.m j) (fun _ => 1) * ∫ μ in lo..hi, u.eval μ * v.eval μ * (Real.sinh μ * Real.cosh μ ^ 2)) +
      -D.Rhalf ^ 3 * (zz (D.l i).toNat (D.m i) (E.l j).toNat (E.m j) (fun c => c ^ 2) * ∫ μ in lo..hi, u.eval μ * v.eval μ * (Real.sinh μ * Real.cosh μ ^ 0)) : ℝ) : ℂ) := by
  have hs := Real.continuous_sinh
  have hc := Real.continuous_cosh
  have := line_sep (n := 2) (fun μ => u.eval μ) (fun μ => v.eval μ) (Polynomial.continuous _) (Polynomial.continuous _) lo hi h0 hlh (D.l i).toNat (D.m i) (E.l j).toNat (E.m j)
    ![fun μ => D.Rhalf ^ 3 * (Real.sinh μ * Real.cosh μ ^ 2), fun μ => -D.Rhalf ^ 3 * (Real.sinh μ * Real.cosh μ ^ 0)] (fun t => by
      fin_cases t
      · exact (by fun_prop : Continuous fun μ => D.Rhalf ^ 3 * (Real.sinh μ * Real.cosh μ ^ 2))
      · exact (by fun_prop : Continuous fun μ => -D.Rhalf ^ 3 * (Real.sinh μ * Real.cosh μ ^ 0)))
    ![fun _ => 1, fun c => c ^ 2] (fun t => by
      fin_cases t
      · exact continuous_const
      · exact continuous_pow 2)
    (fun μ c p => (starRingEnd ℂ) (Spec.wave u (D.l i).toNat (D.m i) μ c p) * Spec.wave v (E.l j).toNat (E.m j) μ c p * ((D.Rhalf ^ 3 * Real.sinh μ * (Real.cosh μ ^ 2 - c ^ 2) : ℝ) : ℂ))
    (fun μ c p _ _ _ => by
      simp only [Spec.wave, map_mul, Complex.conj_ofReal, Fin.sum_univ_two, Matrix.cons_val_zero, Matrix.cons_val_one, pow_zero, mul_one]
      push_cast
      ring)
  rw [this, Complex.ofReal_inj, Fin.sum_univ_two]
  simp only [Matrix.cons_val_zero, Matrix.cons_val_one]
  have e : ∀ (k : ℝ) (w : ℝ → ℝ), ∫ μ in lo..hi, u.eval μ * v.eval μ * (k * w μ) = k * ∫ μ in lo..hi, u.eval μ * v.eval μ * w μ := by
    intro k w
    rw [← intervalIntegral.integral_const_mul]
    exact intervalIntegral.integral_congr fun μ _ => by ring
  rw [e, e]
  ring

theorem pure_lt {lm : List (Int × Int)} {n r : Nat} (h : r ∈ Sym.pureIndices lm n) : r < lm.length * n := by
  rw [functions_pure, List.mem_map] at h
  obtain ⟨⟨i, a⟩, h1, rfl⟩ := h
  obtain ⟨k, hk⟩ := List.mem_iff_getElem?.1 h1
  obtain ⟨_, hi, ha, _⟩ := functions_get hk
  calc i * n + a < i * n + n := by omega
    _ = (i + 1) * n := by ring
    _ ≤ lm.length * n := Nat.mul_le_mul_right n hi

/-- **C72, overlap with another basis.** `overlap(rh)` has the overlaps of the functions of this basis with those of the other, which may have other elements and
another list of `(l, m)`. -/
theorem C72_cross_overlap (h : Spec.Good D φ) (E : Diatom) (ψ : Nat → Nat → ℝ[X]) (hm : ∀ p ∈ E.lm, |p.2| ≤ p.1) (cross : Nat → Mat ℝ)
    (hX : Spec.ExactCross D.rad E.rad φ ψ cross) :
    ∃ V, D.crossOverlap E cross = .ok V ∧ V.rows = (Spec.functions D.lm D.rad.nbf).length ∧ V.cols = (Spec.functions E.lm E.rad.nbf).length ∧
      ∀ k k' i a j b, (Spec.functions D.lm D.rad.nbf)[k]? = some (i, a) → (Spec.functions E.lm E.rad.nbf)[k']? = some (j, b) →
        ((V.get k k' : ℝ) : ℂ) = Spec.crossOverlap D E φ ψ i a j b := by
  have hE : ∀ j, j < E.nang → |E.m j| ≤ E.l j := fun j hj => hm _ (lm_mem E hj)
  obtain ⟨S, s1, s2, s3, s4⟩ := loop (n := D.rad.nbf) (n' := E.rad.nbf) (N := D.nang) (N' := E.nang) (D.crossStep E cross)
    (fun i j x a b => if D.m i = E.m j then (if D.l i = E.l j then (cross 2).get a b else x) +
      ((cross 0).smul (-zz (D.l i).toNat (D.m i) (E.l j).toNat (E.m j) fun c => c ^ 2)).get a b else x) (fun i hi j hj => by
      unfold Diatom.crossStep
      refine Upd.ite fun hmm => ?_
      simp only [coupling_cross h hi (E.l j) (E.m j) hmm (hE j hj), Res.ok_bind]
      refine Upd.congr (Upd.bind (Upd.ite fun _ => Upd.set (hX.rows 2) (hX.cols 2) hi hj) (Upd.ite fun _ => Upd.add (M := (cross 0).smul (-zz (D.l i).toNat (D.m i) (E.l j).toNat (E.m j) fun c => c ^ 2))
        (by exact hX.rows 0) (by exact hX.cols 0) hi hj)) fun x a b _ _ => ?_
      by_cases hz : (zz (D.l i).toNat (D.m i) (E.l j).toNat (E.m j) fun c => c ^ 2) = 0
      · rw [if_neg (not_not.2 hz)]
        simp [Mat.smul, hz]
      · rw [if_pos hz])
  have s1' : (pairs D.nang E.nang).foldlM (D.crossStep E cross) (Mat.zero D.ndummy E.ndummy) = .ok S := s1
  unfold Diatom.crossOverlap
  rw [s1', Res.ok_bind, gather, if_pos ⟨fun r hr => by simp only [Mat.smul, s2]; exact pure_lt hr, fun c hc => by simp only [Mat.smul, s3]; exact pure_lt hc⟩]
  refine ⟨_, rfl, functions_length _ _, functions_length _ _, fun k k' i a j b hk hk' => ?_⟩
  obtain ⟨h1, hi, ha, _⟩ := functions_get hk
  obtain ⟨k1, hj, hb, _⟩ := functions_get hk'
  simp only [Mat.smul, h1, k1]
  rw [s4 i hi a ha j hj b hb]
  have hsum : Spec.crossOverlap D E φ ψ i a j b = ((D.Rhalf ^ 3 * (zz (D.l i).toNat (D.m i) (E.l j).toNat (E.m j) (fun _ => 1) * (cross 2).get a b) +
      -D.Rhalf ^ 3 * (zz (D.l i).toNat (D.m i) (E.l j).toNat (E.m j) (fun c => c ^ 2) * (cross 0).get a b) : ℝ) : ℂ) := by
    unfold Spec.crossOverlap
    rw [hX.entry 2 a b ha hb, hX.entry 0 a b ha hb]
    simp only [mul_sum]
    rw [← sum_add_distrib, Complex.ofReal_sum]
    refine sum_congr rfl fun e he => ?_
    rw [← sum_add_distrib, Complex.ofReal_sum]
    refine sum_congr rfl fun f _ => ?_
    rw [mem_range] at he
    exact cross_element D E (φ e a) (ψ f b) _ _ ((bnd_nonneg h.functions e he.le).trans (le_max_left _ _)) (le_max_left _ _) i j
  rw [hsum, Complex.ofReal_inj]
  have hi2 := h.m_le' hi
  have hj2 := hE j hj
  rw [Int.abs_eq_natAbs] at hj2
  by_cases hmm : D.m i = E.m j
  · rw [if_pos hmm, zz_one _ _ _ _ hi2.1 (by omega)]
    by_cases hl : D.l i = E.l j
    · rw [if_pos hl, if_pos ⟨by rw [hl], hmm⟩]
      simp only [Mat.smul]
      ring
    · rw [if_neg hl, if_neg (fun hh => hl (by omega))]
      simp only [Mat.smul]
      ring
  · rw [if_neg hmm, zz_off _ _ _ _ _ hmm, zz_off _ _ _ _ _ hmm]
    ring

/-- **C72, constructor.** For any nonempty list of `(l, m)` the constructor succeeds, with or without tables for two-electron integrals, for any order in which the
Gaunt table is filled. -/
theorem C72_constructor (legendre : Bool) (rad : Radial) (lm : List (Int × Int)) (hne : lm ≠ []) (Z1 Z2 : Int) (Rhalf : ℝ) :
    ∃ s, gauntSizes legendre lm = .ok s ∧ ∀ sched : List Nat, sched.Perm (List.range (max s.1.toNat s.2.toNat + 1)) →
      ∃ D, Diatom.make legendre rad lm Z1 Z2 Rhalf Harm.Spec.gaunt sched = .ok D ∧ D.rad = rad ∧ D.lm = lm ∧ D.Z1 = Z1 ∧ D.Z2 = Z2 ∧ D.Rhalf = Rhalf ∧ Spec.Constructed D := by
  have hs : ∃ s, gauntSizes legendre lm = .ok s := by
    obtain ⟨t, ht, _⟩ := Dia.C39_tables lm
    rcases lm with _ | ⟨p, r⟩
    · exact absurd rfl hne
    · unfold gauntSizes
      simp only [ht, Res.ok_bind]
      cases legendre
      · exact ⟨_, rfl⟩
      · exact ⟨_, rfl⟩
  obtain ⟨s, hs⟩ := hs
  refine ⟨s, hs, fun sched hp => ?_⟩
  obtain ⟨mabs, m1, _, _⟩ := Sym.absmMax_spec lm hne
  obtain ⟨T, hT, _⟩ := Gaunt.C25_lookup gaunt_symmetric s.1.toNat s.2.toNat s.1.toNat (2 * mabs) sched (by rwa [max_eq_left (le_max_left _ _)])
  have hmk : Diatom.make legendre rad lm Z1 Z2 Rhalf Harm.Spec.gaunt sched = .ok ⟨rad, lm, Z1, Z2, Rhalf, T⟩ := by
    unfold Diatom.make
    rw [hs, Res.ok_bind, m1, Res.ok_bind, hT, Res.ok_bind]
  exact ⟨_, hmk, rfl, rfl, rfl, rfl, rfl, legendre, s, sched, hs, hp, hmk⟩

/-- product of two vectors -/
def dot (x y : ℝ × ℝ × ℝ) : ℝ := x.1 * y.1 + x.2.1 * y.2.1 + x.2.2 * y.2.2

/-- **C72, coordinates.** The coordinate lines are orthogonal, with the lengths used in the specification, and `ρ`, `z` are the distance from the axis and the
height of the point. -/
theorem C72_metric (R μ ν p : ℝ) : ∃ u v w, HasDerivAt (fun s => Spec.point R s ν p) u μ ∧ HasDerivAt (fun s => Spec.point R μ s p) v ν ∧ HasDerivAt (fun s => Spec.point R μ ν s) w p ∧
    dot u v = 0 ∧ dot u w = 0 ∧ dot v w = 0 ∧
    dot u u = R ^ 2 * (Real.cosh μ ^ 2 - Real.cos ν ^ 2) ∧ dot v v = R ^ 2 * (Real.cosh μ ^ 2 - Real.cos ν ^ 2) ∧ dot w w = Spec.rho R μ (Real.cos ν) ^ 2 ∧
    (Spec.point R μ ν p).1 ^ 2 + (Spec.point R μ ν p).2.1 ^ 2 = Spec.rho R μ (Real.cos ν) ^ 2 ∧ (Spec.point R μ ν p).2.2 = Spec.zed R μ (Real.cos ν) := by
  have hrho : Spec.rho R μ (Real.cos ν) ^ 2 = (R * Real.sinh μ * Real.sin ν) ^ 2 := by
    unfold Spec.rho
    rw [mul_pow, Real.sq_sqrt (by nlinarith [Real.sin_sq_add_cos_sq ν, sq_nonneg (Real.sin ν)]), mul_pow _ (Real.sin ν), Real.sin_sq]
  have c1 := Real.sin_sq_add_cos_sq ν
  have c2 := Real.sin_sq_add_cos_sq p
  have c3 := Real.cosh_sq μ
  refine ⟨(R * Real.cosh μ * Real.sin ν * Real.cos p, R * Real.cosh μ * Real.sin ν * Real.sin p, R * Real.sinh μ * Real.cos ν),
    (R * Real.sinh μ * Real.cos ν * Real.cos p, R * Real.sinh μ * Real.cos ν * Real.sin p, R * Real.cosh μ * (-Real.sin ν)),
    (R * Real.sinh μ * Real.sin ν * (-Real.sin p), R * Real.sinh μ * Real.sin ν * Real.cos p, 0), ?_, ?_, ?_, ?_⟩
  · exact HasDerivAt.prodMk ((((Real.hasDerivAt_sinh μ).const_mul R).mul_const _).mul_const _)
      (HasDerivAt.prodMk ((((Real.hasDerivAt_sinh μ).const_mul R).mul_const _).mul_const _) (((Real.hasDerivAt_cosh μ).const_mul R).mul_const _))
  · exact HasDerivAt.prodMk (((Real.hasDerivAt_sin ν).const_mul _).mul_const _) (HasDerivAt.prodMk (((Real.hasDerivAt_sin ν).const_mul _).mul_const _) ((Real.hasDerivAt_cos ν).const_mul _))
  · exact HasDerivAt.prodMk ((Real.hasDerivAt_cos p).const_mul _) (HasDerivAt.prodMk ((Real.hasDerivAt_sin p).const_mul _) (hasDerivAt_const p _))
  · rw [hrho]
    simp only [dot, Spec.point, Spec.zed]
    generalize Real.sin ν = s at *
    generalize Real.cos ν = c at *
    generalize Real.sin p = t at *
    generalize Real.cos p = d at *
    generalize Real.cosh μ = C at *
    generalize Real.sinh μ = S at *
    refine ⟨?_, ?_, ?_, ?_, ?_, ?_, ?_, trivial⟩
    · linear_combination R ^ 2 * C * S * s * c * c2
    · ring
    · ring
    · linear_combination R ^ 2 * C ^ 2 * s ^ 2 * c2 + R ^ 2 * C ^ 2 * c1 - R ^ 2 * c ^ 2 * c3
    · linear_combination R ^ 2 * S ^ 2 * c ^ 2 * c2 + R ^ 2 * C ^ 2 * c1 - R ^ 2 * c ^ 2 * c3
    · linear_combination (R * S * s) ^ 2 * c2
    · linear_combination (R * S * s) ^ 2 * c2

/-- The finite element bases of the code are such radial functions: with the first boundary at zero and the value there not fixed, only the first function of the
basis is nonzero there. -/
theorem C72_fem {f : Family} {n ne : Nat} {zdl zfr zdr : Bool} {x0 : Nat → ℝ} {bval : List ℝ} {o : FEObj ℝ} {N : Nat} {first last : Nat → Nat}
    (h : Assembly.Basis f n ne false zdl zfr zdr x0 bval o N first last) (φ : Nat → Nat → ℝ[X]) (hφ : Assembly.IsPieces o x0 ne first φ) (h0 : bval.getD 0 0 = 0)
    (integral : Int → Nat → Mat ℝ) (kin : Mat ℝ) : Spec.Functions ⟨ne, N, fun e => bval.getD e 0, integral, kin⟩ φ := by
  have hl := h.len
  have hne := h.nelem
  have hget : ∀ e (he : e < bval.length), bval.getD e 0 = bval[e] := fun e he => by rw [List.getD_eq_getElem?_getD, List.getElem?_eq_getElem he]; rfl
  refine ⟨h.nelem, h0, fun e (he : e < ne) => ?_, fun a ha => ?_⟩
  · simp only
    rw [hget e (by omega), hget (e + 1) (by omega)]
    exact List.pairwise_iff_getElem.1 h.inc e (e + 1) (by omega) (by omega) (by omega)
  · obtain ⟨v, r, a1, a2, a3⟩ := hφ 0 (by omega) a (-1)
    rw [h.shape.1, h.shape.2] at a1
    rw [h.shape.2, coord_eq bval 0 (by omega)] at a2
    simp only [Res.ok.injEq, List.cons.injEq, and_true, List.map_cons, List.map_nil] at a2
    have hr : r = 0 := by
      rw [← a2, ← hget 0 (by omega), h0]
      ring
    rw [hr] at a3
    rw [a3]
    have h2 := h.nodes.two
    obtain ⟨m, rfl⟩ : ∃ m, n = m + 2 := ⟨n - 2, by omega⟩
    have hn := h.nodes
    rw [← Nat.cast_zero (R := Int)] at a1
    have hv := feEval_left f m ne 0 false zdl zfr zdr bval h.len h.inc x0 hn 0 (nov_pos f) (by omega)
    rw [feShape, hv, Res.ok.injEq] at a1
    rw [← a1]
    have hf0 : first 0 = 0 := by
      obtain ⟨tab, N', t1, t2, t3, t4⟩ := C01_numbering f (m + 2) ne false zdl zfr zdr h2 hne
      obtain ⟨l1, l2, _⟩ := Assembly.layout f (m + 2) ne false zdl zfr zdr h2 hne bval h.len o h.built N h.nbf h.pos first last h.idx
      rw [t1, Res.ok.injEq] at l2
      subst l2
      have hN := h.nbf
      rw [t3, Res.ok.injEq] at hN
      subst hN
      obtain ⟨fi, la, co, u1, u2, u3⟩ := t4 h.pos
      have := h.idx 0 (by omega)
      rw [u1 0 (by omega), Res.ok.injEq, Prod.mk.injEq] at this
      rw [← this.1]
      exact u3.start
    have hh := enBlocks_first_zero f m ne zdl zfr zdr
    rw [List.head?_eq_getElem?] at hh
    rw [hf0, globalValue_delta _ (enBlocks_nodup f m 0 ne false zdl zfr zdr) 0 0 0 le_rfl hh a, if_neg ha]

/-! ### Examples -/

/-- two elements on `0 < 1 < 3`: a function that is nonzero on the axis and one hat function -/
noncomputable def exFun (e a : Nat) : ℝ[X] := match e, a with
  | 0, 0 => 1 - X
  | 0, 1 => X
  | 1, 1 => C (3 / 2) - C (1 / 2) * X
  | _, _ => 0

/-- their matrices -/
noncomputable def exRadial : Radial where
  nel := 2
  nbf := 2
  bnd := fun e => ([0, 1, 3] : List ℝ).getD e 0
  integral := fun p q => ⟨2, 2, fun a b => ∑ e ∈ range 2, ∫ μ in (([0, 1, 3] : List ℝ).getD e 0)..(([0, 1, 3] : List ℝ).getD (e + 1) 0),
    (exFun e a).eval μ * (exFun e b).eval μ * (Real.sinh μ ^ p * Real.cosh μ ^ q)⟩
  kin := ⟨2, 2, fun a b => ∑ e ∈ range 2, ∫ μ in (([0, 1, 3] : List ℝ).getD e 0)..(([0, 1, 3] : List ℝ).getD (e + 1) 0),
    (derivative (exFun e a)).eval μ * (derivative (exFun e b)).eval μ * Real.sinh μ⟩

/-- the basis of this molecule with σ and π functions meets the hypotheses -/
theorem exGood (legendre : Bool) : ∃ D, D.lm = [(0, 0), (1, 0), (1, 1), (2, -1)] ∧ D.Z1 = 1 ∧ D.Z2 = 3 ∧ D.Rhalf = 3 / 2 ∧ D.rad.nbf = 2 ∧ Spec.Good D exFun := by
  obtain ⟨s, _, h2⟩ := C72_constructor legendre exRadial [(0, 0), (1, 0), (1, 1), (2, -1)] (by simp) 1 3 (3 / 2)
  obtain ⟨D, _, d1, d2, d3, d4, d5, d6⟩ := h2 _ (List.reverse_perm (List.range (max s.1.toNat s.2.toNat + 1)))
  refine ⟨D, d2, d3, d4, d5, by rw [d1]; rfl, ?_, ?_, d6, by rw [d2]; decide, by rw [d2]; decide, by rw [d5]; norm_num⟩
  · rw [d1]
    refine ⟨by norm_num [exRadial], by simp [exRadial], fun e he => ?_, fun a ha => ?_⟩
    · simp only [exRadial] at he ⊢
      interval_cases e <;> norm_num
    · rcases a with _ | _ | a
      · exact absurd rfl ha
      · simp [exFun]
      · simp [exFun]
  · rw [d1]
    exact ⟨fun _ _ => rfl, fun _ _ => rfl, fun p q a b _ _ _ => rfl, rfl, rfl, fun a _ b _ => rfl⟩

example : ∃ D, Spec.Good D exFun ∧ Spec.functions D.lm 2 = [(0, 0), (0, 1), (1, 0), (1, 1), (2, 1), (3, 1)] ∧
    (∃ V, D.overlap = .ok V ∧ Spec.IsMatrix D V (Spec.potential D exFun fun _ _ => 1)) ∧ (∃ V, D.kinetic = .ok V ∧ Spec.IsMatrix D V (Spec.kinetic D exFun)) ∧
    (∃ V, D.nuclear = .ok V ∧ Spec.IsMatrix D V (Spec.potential D exFun (Spec.attraction 1 3 (3 / 2)))) ∧
    (∃ V, D.dipole = .ok V ∧ Spec.IsMatrix D V (Spec.potential D exFun fun _ z => z)) ∧ (∃ V, D.magnetic 2 = .ok V ∧ Spec.IsMatrix D V (Spec.magnetic D exFun 2)) := by
  obtain ⟨D, h1, h2, h3, h4, _, h⟩ := exGood true
  have hn := C72_nuclear h
  rw [h2, h3, h4] at hn
  exact ⟨D, h, by rw [h1]; decide, C72_overlap h, C72_kinetic h, hn, C72_dipole h, C72_magnetic h 2⟩

/-- overlap with a basis with one element on `0 < 2` and other angular functions, among them one far above those of the first -/
example : ∃ D E : Diatom, ∃ cross V, Spec.ExactCross D.rad E.rad exFun (fun _ b => (X : ℝ[X]) ^ b) cross ∧ E.lm = [(9, 0), (1, 1)] ∧ D.crossOverlap E cross = .ok V ∧ V.rows = 6 ∧ V.cols = 5 := by
  obtain ⟨D, h1, _, _, _, hn, h⟩ := exGood false
  obtain ⟨E, hE⟩ : ∃ E : Diatom, E = ⟨⟨1, 3, fun e => 2 * e, fun _ _ => Mat.zero 3 3, Mat.zero 3 3⟩, [(9, 0), (1, 1)], 0, 0, 3 / 2, D.gaunt⟩ := ⟨_, rfl⟩
  obtain ⟨cross, hX⟩ : ∃ cross, Spec.ExactCross D.rad E.rad exFun (fun _ b => (X : ℝ[X]) ^ b) cross :=
    ⟨fun n => ⟨D.rad.nbf, E.rad.nbf, fun a b => ∑ e ∈ range D.rad.nel, ∑ f ∈ range E.rad.nel, ∫ μ in (Spec.lower D.rad E.rad e f)..(Spec.upper D.rad E.rad e f),
      (exFun e a).eval μ * ((X : ℝ[X]) ^ b).eval μ * (Real.sinh μ * Real.cosh μ ^ n)⟩, fun _ => rfl, fun _ => rfl, fun n a b _ _ => rfl⟩
  obtain ⟨V, v1, v2, v3, _⟩ := C72_cross_overlap h E _ (by rw [hE]; exact (by decide : ∀ p ∈ [((9 : Int), (0 : Int)), (1, 1)], |p.2| ≤ p.1)) cross hX
  refine ⟨D, E, cross, V, hX, by rw [hE], v1, ?_, ?_⟩
  · rw [v2, h1, hn]
    decide
  · rw [v3, hE]
    exact (by decide : (Spec.functions [(9, 0), (1, 1)] 3).length = 5)

/-- linear elements: the hypotheses of `C72_fem` hold -/
example : ∃ o φ, Assembly.Basis .lip 2 2 false false true true (fun k => 2 * (k : ℝ) - 1) [0, 1, 3] o 2 (fun e => e) (fun _ => 1) ∧
    Spec.Functions ⟨2, 2, fun e => [0, 1, 3].getD e 0, exRadial.integral, exRadial.kin⟩ φ := by
  obtain ⟨o, ho⟩ : ∃ o, Assembly.Basis .lip 2 2 false false true true (fun k => 2 * (k : ℝ) - 1) [0, 1, 3] o 2 (fun e => e) (fun _ => 1) := by
    refine ⟨_, good_two, by omega, rfl, by norm_num, rfl, by decide, by omega, ?_⟩
    intro e he
    interval_cases e <;> rfl
  exact ⟨o, _, ho, C72_fem ho _ (Assembly.Basis.piece_isPieces 0 ho) rfl _ _⟩

end DiaOne
end HelFEM
