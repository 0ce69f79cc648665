import Verif.Lemmas.OneElectronMat
import Verif.Props.FEEval
import Verif.Props.Gram

/-!
# C70: the one-electron matrices of the atomic program are matrix elements

Each matrix has the matrix element of its operator between the functions `B_a(r)/r Y_l^m`, an integral over the ball, as entry.
-/

namespace HelFEM
namespace OneE

open Polynomial Finset Harm MeasureTheory HelFEM.Poly HelFEM.Grid

theorem Spec.Good.m_le' {A : Atom} {φ : Nat → Nat → ℝ[X]} (h : Spec.Good A φ) {i : Nat} (hi : i < A.nang) : (A.m i).natAbs ≤ A.l i := by
  have := h.m_le _ (lm_mem A hi)
  rw [Int.abs_eq_natAbs] at this
  unfold Atom.m Atom.l
  omega

/-- diagonal blocks of a radial potential -/
theorem diagonal_potential {A : Atom} {φ : Nat → Nat → ℝ[X]} (h : Spec.Good A φ) (M : Mat ℝ) (hr : M.rows = A.rad.nbf) (hc : M.cols = A.rad.nbf) (v : ℝ → ℝ)
    (hM : ∀ a b, M.get a b = ∑ e ∈ range A.rad.nel, ∫ r in (A.rad.bnd e)..(A.rad.bnd (e + 1)), (φ e a).eval r / r * ((φ e b).eval r / r) * (r ^ 2 * v r)) :
    ∃ V, A.diagonal M = .ok V ∧ Spec.IsMatrix A V (Spec.potential A φ fun r _ => v r) := by
  obtain ⟨V, h1, h2, h3, h4⟩ := diagonal_ent A M hr hc
  refine ⟨V, h1, h2, h3, fun i hi a ha j hj b hb => ?_⟩
  rw [h4 i hi a ha j hj b hb]
  have := potential_sep h.functions v (fun _ => 1) i a j b (if i = j then 1 else 0) (by
    rw [sphere_orth _ _ _ _ (h.m_le' hi) (h.m_le' hj) 1]
    simp only [lm_inj A h.nodup hi hj])
  simp only [mul_one] at this
  rw [this, ← hM]
  split_ifs <;> simp

/-- `overlap()` is the overlap matrix. -/
theorem C70_overlap {A : Atom} {φ : Nat → Nat → ℝ[X]} (h : Spec.Good A φ) : ∃ V, A.overlap = .ok V ∧ Spec.IsMatrix A V (Spec.potential A φ fun _ _ => 1) := by
  obtain ⟨M, h1, h2, h3, h4⟩ := assemble_exact' h.functions h.exact .R0 .R0 (fun r => r ^ ((0 : Int) + 2))
  obtain ⟨V, g1, g2⟩ := diagonal_potential h M h2 h3 (fun _ => 1) (fun a b => by
    rw [h4]
    simp only [Spec.value, mul_one]
    exact rfl)
  refine ⟨V, ?_, g2⟩
  unfold Atom.overlap Radial.radialIntegral
  rw [h1]
  exact g1

/-- `model_potential(V)` is the matrix of the radial potential `V(r)`. -/
theorem C70_model_potential {A : Atom} {φ : Nat → Nat → ℝ[X]} (h : Spec.Good A φ) (v : ℝ → ℝ) :
    ∃ V, A.modelPotential v = .ok V ∧ Spec.IsMatrix A V (Spec.potential A φ fun r _ => v r) := by
  obtain ⟨M, h1, h2, h3, h4⟩ := assemble_exact' h.functions h.exact .B0 .B0 v
  obtain ⟨V, g1, g2⟩ := diagonal_potential h M h2 h3 v (fun a b => by
    rw [h4]
    refine radial_congr h.functions _ _ fun e _ r _ _ hr => ?_
    simp only [Spec.value]
    field_simp)
  refine ⟨V, ?_, g2⟩
  unfold Atom.modelPotential Radial.modelPotential
  rw [h1]
  exact g1

/-- `kinetic()` is the matrix of the kinetic energy: half the integral of the product of gradients. -/
theorem C70_kinetic {A : Atom} {φ : Nat → Nat → ℝ[X]} (h : Spec.Good A φ) : ∃ V, A.kinetic = .ok V ∧ Spec.IsMatrix A V (Spec.kinetic A φ) := by
  obtain ⟨M, h1, h2, h3, h4⟩ := assemble_exact h.functions h.exact (fun e => .ok (A.rad.kinetic e)) .B1 .B1 (fun _ _ => 1) (fun _ => 1 / 2) (fun _ _ => rfl)
  obtain ⟨Ml, k1, k2, k3, k4⟩ := assemble_exact h.functions h.exact (fun e => .ok (A.rad.kineticL e)) .R0 .R0 (fun _ _ => 1) (fun _ => 1 / 2) (fun _ _ => rfl)
  obtain ⟨V, g1, g2, g3, g4⟩ := blocks (n := A.rad.nbf) (n' := A.rad.nbf) (N := A.nang) (N' := A.nang) (fun i : Nat => (i, i)) (A.kinStep M Ml)
    (fun i _ _ a b => M.get a b + (A.l i : ℝ) * (A.l i + 1) * Ml.get a b) (List.range A.nang) (List.nodup_range.map fun a b h => by simpa using h) (by
      intro i hi V hr hc
      rw [List.mem_range] at hi
      obtain ⟨V', s1, s2, s3, s4⟩ := setBlock_ent hr hc h2 h3 hi hi
      unfold Atom.kinStep Atom.setSub
      rw [s1, Res.ok_bind]
      by_cases hl : 0 < A.l i
      · rw [if_pos hl]
        obtain ⟨V2, t1, t2, t3, t4⟩ := addBlock_ent (M := Ml.smul ((A.l i : ℝ) * (A.l i + 1))) s2 s3 k2 k3 hi hi
        refine ⟨V2, t1, t2, t3, fun i' a j' b ha hb => ?_⟩
        rw [t4 i' a j' b ha hb, s4 i' a j' b ha hb]
        simp only [Prod.mk.injEq, Mat.smul]
        by_cases hh : i' = i ∧ j' = i
        · rw [if_pos hh, if_pos hh, if_pos hh, hh.1]
        · rw [if_neg hh, if_neg hh, if_neg hh]
      · rw [if_neg hl]
        refine ⟨V', rfl, s2, s3, fun i' a j' b ha hb => ?_⟩
        rw [s4 i' a j' b ha hb]
        simp only [Prod.mk.injEq]
        by_cases hh : i' = i ∧ j' = i
        · rw [if_pos hh, if_pos hh, hh.1, show A.l i = 0 by omega]
          simp
        · rw [if_neg hh, if_neg hh])
    (Mat.zero A.ndummy A.ndummy) rfl rfl
  refine ⟨V, ?_, g2, g3, fun i (hi : i < A.nang) a ha j (hj : j < A.nang) b hb => ?_⟩
  · unfold Atom.kinetic
    rw [h1, k1]
    exact g1
  · have := g4 i a j b ha hb
    rw [ent, zero_ent] at this
    rw [this, kinetic_eq h.functions i a j b (h.m_le' hi) (h.m_le' hj), Complex.ofReal_inj]
    by_cases hij : i = j
    · subst hij
      rw [if_pos (by simpa using hi), if_pos ⟨rfl, rfl⟩, h4, k4]
      rfl
    · rw [if_neg, if_neg (fun hh => hij ((lm_inj A h.nodup hi hj).1 hh))]
      simp only [List.mem_map, List.mem_range, Prod.mk.injEq]
      rintro ⟨x, _, rfl, rfl⟩
      exact hij rfl

/-- a loop over pairs of angular functions -/
theorem pairs_loop (A : Atom) (step : Mat ℝ → Nat × Nat → Res (Mat ℝ)) (O : Mat ℝ) (hr : O.rows = A.rad.nbf) (hc : O.cols = A.rad.nbf) (cpl : Nat → Nat → ℝ)
    (hstep : ∀ i < A.nang, ∀ j < A.nang, ∀ V, step V (i, j) = if cpl i j ≠ 0 then A.setSub V i j (O.smul (cpl i j)) else .ok V) :
    ∃ V, A.pairs.foldlM step (Mat.zero A.ndummy A.ndummy) = .ok V ∧ V.rows = A.ndummy ∧ V.cols = A.ndummy ∧
      ∀ i < A.nang, ∀ a < A.rad.nbf, ∀ j < A.nang, ∀ b < A.rad.nbf, V.get (i * A.rad.nbf + a) (j * A.rad.nbf + b) = cpl i j * O.get a b := by
  obtain ⟨V, g1, g2, g3, g4⟩ := blocks (n := A.rad.nbf) (n' := A.rad.nbf) (N := A.nang) (N' := A.nang) (fun p : Nat × Nat => p) step
    (fun i j x a b => if cpl i j ≠ 0 then cpl i j * O.get a b else x) A.pairs (by rw [List.map_id']; exact pairs_nodup A) (by
      rintro ⟨i, j⟩ hp V h1 h2
      rw [mem_pairs] at hp
      rw [hstep i hp.1 j hp.2]
      by_cases hz : cpl i j ≠ 0
      · rw [if_pos hz]
        obtain ⟨V', s1, s2, s3, s4⟩ := setBlock_ent (M := O.smul (cpl i j)) h1 h2 hr hc hp.1 hp.2
        refine ⟨V', s1, s2, s3, fun i' a j' b ha hb => ?_⟩
        rw [s4 i' a j' b ha hb]
        simp only [Prod.mk.injEq, Mat.smul]
        by_cases hh : i' = i ∧ j' = j
        · rw [if_pos hh, if_pos hh, hh.1, hh.2, if_pos hz]
        · rw [if_neg hh, if_neg hh]
      · rw [if_neg hz]
        refine ⟨V, rfl, h1, h2, fun i' a j' b ha hb => ?_⟩
        simp only [Prod.mk.injEq]
        by_cases hh : i' = i ∧ j' = j
        · rw [if_pos hh, hh.1, hh.2, if_neg hz]
        · rw [if_neg hh])
    (Mat.zero A.ndummy A.ndummy) rfl rfl
  refine ⟨V, g1, g2, g3, fun i hi a ha j hj b hb => ?_⟩
  have := g4 i a j b ha hb
  rw [ent, zero_ent, List.map_id', if_pos ((mem_pairs A i j).2 ⟨hi, hj⟩)] at this
  rw [this]
  split_ifs with hz
  · rfl
  · rw [not_not.1 hz, zero_mul]

/-- radial matrix of a power -/
theorem power_radial {A : Atom} {φ : Nat → Nat → ℝ[X]} (h : Spec.Good A φ) (k : Nat) :
    ∃ M, A.rad.assemble (fun e => .ok (A.rad.radialIntegral k e)) = .ok M ∧ M.rows = A.rad.nbf ∧ M.cols = A.rad.nbf ∧ ∀ a b, M.get a b =
      ∑ e ∈ range A.rad.nel, ∫ r in (A.rad.bnd e)..(A.rad.bnd (e + 1)), (φ e a).eval r / r * ((φ e b).eval r / r) * (r ^ 2 * r ^ k) := by
  obtain ⟨M, h1, h2, h3, h4⟩ := assemble_exact' h.functions h.exact .R0 .R0 (fun r => r ^ ((k : Int) + 2))
  refine ⟨M, h1, h2, h3, fun a b => ?_⟩
  rw [h4]
  refine radial_congr h.functions _ _ fun e _ r _ _ hr => ?_
  simp only [Spec.value]
  rw [zpow_add₀ hr.ne', zpow_natCast, zpow_ofNat, mul_comm (r ^ k)]

/-- `dipole_z()` is the matrix of `z = r cos θ`. -/
theorem C70_dipole {A : Atom} {φ : Nat → Nat → ℝ[X]} (h : Spec.Good A φ) (g : Nat) (hg : A.gmax = .ok g) (fill : List Nat) (hs : fill.Perm (List.range (max (max g 1) g + 1))) :
    ∃ V, A.dipole Harm.Spec.gaunt fill = .ok V ∧ Spec.IsMatrix A V (Spec.potential A φ fun r c => r * c) := by
  obtain ⟨O, h1, h2, h3, h4⟩ := power_radial h 1
  obtain ⟨T, t1, t2⟩ := C69_couplings g 1 g (-1) fill hs
  have hv : ∀ i < A.nang, ∀ j < A.nang, ∃ v, T.cosine (A.l j) (A.m j) (A.l i) (A.m i) = .ok v ∧
      (v : ℂ) = Harm.Spec.sphere (fun c p => (starRingEnd ℂ) (sph (A.l i) (A.m i) c p) * (c : ℝ) * sph (A.l j) (A.m j) c p) := by
    intro i hi j hj
    obtain ⟨v, hv, hv'⟩ := (t2 (A.l j) (A.m j) (A.l i) (A.m i) (l_le_gmax A hg hj) (l_le_gmax A hg hi) (by omega)).1 le_rfl
    exact ⟨v, hv, hv'.trans (sphere_swap _ _ _ _ fun c => c)⟩
  choose cpl hc1 hc2 using hv
  obtain ⟨V, g1, g2, g3, g4⟩ := pairs_loop A (A.dipStep T O) O h2 h3 (fun i j => if hh : i < A.nang ∧ j < A.nang then cpl i hh.1 j hh.2 else 0) (by
    intro i hi j hj V
    simp only [Atom.dipStep, hc1 i hi j hj, Res.ok_bind, dif_pos (And.intro hi hj)])
  refine ⟨V, ?_, g2, g3, fun i (hi : i < A.nang) a ha j (hj : j < A.nang) b hb => ?_⟩
  · unfold Atom.dipole
    have h1' : (A.rad.assemble fun e => .ok (A.rad.radialIntegral 1 e)) = .ok O := h1
    rw [h1', hg, Res.ok_bind, Res.ok_bind, t1]
    exact g1
  · rw [g4 i hi a ha j hj b hb, dif_pos (And.intro hi hj), potential_sep h.functions (fun r => r) (fun c => c) i a j b _ (hc2 i hi j hj), h4]
    simp only [pow_one]

/-- `quadrupole_zz()` is the matrix of `r² P_2(cos θ)`. -/
theorem C70_quadrupole {A : Atom} {φ : Nat → Nat → ℝ[X]} (h : Spec.Good A φ) (g : Nat) (hg : A.gmax = .ok g) (fill : List Nat) (hs : fill.Perm (List.range (max (max g 2) g + 1))) :
    ∃ V, A.quadrupole Harm.Spec.gaunt fill = .ok V ∧ Spec.IsMatrix A V (Spec.potential A φ fun r c => r ^ 2 * ((3 * c ^ 2 - 1) / 2)) := by
  obtain ⟨O, h1, h2, h3, h4⟩ := power_radial h 2
  obtain ⟨T, t1, t2⟩ := Gaunt.C25_lookup gaunt_symmetric g 2 g (-1) fill hs
  have s2 : √(5 * Real.pi) * √((2 * (2 : Nat) + 1) / (4 * Real.pi)) = 5 / 2 := by
    have := Harm.sqrtPi_mul 5 2 5 (by norm_num) (by norm_num)
    simpa [Gaunt.sqrtPi] using this
  have hv : ∀ i < A.nang, ∀ j < A.nang, ∃ v : ℝ, (A.m j = A.m i → T.coeff (A.l j) (A.m j) 2 0 (A.l i) = .ok (v / (2 / 5 * √(5 * Real.pi)))) ∧ (A.m j ≠ A.m i → v = 0) ∧
      (v : ℂ) = Harm.Spec.sphere (fun c p => (starRingEnd ℂ) (sph (A.l i) (A.m i) c p) * (((3 * c ^ 2 - 1) / 2 : ℝ) : ℂ) * sph (A.l j) (A.m j) c p) := by
    intro i hi j hj
    by_cases hm : A.m j = A.m i
    · refine ⟨2 / 5 * √(5 * Real.pi) * Gaunt.direct Harm.Spec.gaunt (A.l j) (A.m j) 2 0 (A.l i) (A.m j), fun _ => ?_, fun h => absurd hm h, ?_⟩
      · have := table_coeff t2 (A.l j) (A.m j) 2 0 (A.l i) (l_le_gmax A hg hj) le_rfl (l_le_gmax A hg hi) (by omega)
        rw [sub_zero] at this
        rw [show ((2 : Int)) = ((2 : Nat) : Int) from rfl, this]
        congr 1
        have : √(5 * Real.pi) ≠ 0 := (Real.sqrt_pos.2 (by positivity)).ne'
        field_simp
      · rw [sphere_swap _ _ _ _ (fun c => (3 * c ^ 2 - 1) / 2), sphere_pair, if_pos hm, Complex.ofReal_inj, ← hm]
        have := combo (A.l j) (A.m j) (A.l i) (2 / 5 * √(5 * Real.pi)) 0 0 2 0 0 (fun c => (3 * c ^ 2 - 1) / 2) (by
          intro c h0 h1
          rw [yx_zero 2 c h0 h1, pP_two]
          linear_combination 2 / 5 * ((3 * c ^ 2 - 1) / 2) * s2)
        rw [zero_mul, add_zero, add_zero] at this
        exact this
    · exact ⟨0, fun h => absurd h hm, fun _ => rfl, by rw [sphere_pair, if_neg (Ne.symm hm)]⟩
  choose cpl hc1 hc0 hc2 using hv
  obtain ⟨V, g1, g2, g3, g4⟩ := pairs_loop A (A.quadStep T O) O h2 h3 (fun i j => if hh : i < A.nang ∧ j < A.nang then cpl i hh.1 j hh.2 else 0) (by
    intro i hi j hj V
    have hp : 2 / 5 * √(5 * Real.pi) ≠ 0 := by
      have : 0 < √(5 * Real.pi) := Real.sqrt_pos.2 (by positivity)
      positivity
    simp only [Atom.quadStep, dif_pos (And.intro hi hj)]
    by_cases hm : A.m j = A.m i
    · rw [if_neg (not_not.2 hm), hc1 i hi j hj hm, Res.ok_bind, div_mul_cancel₀ _ hp]
      by_cases hz : cpl i hi j hj = 0
      · rw [hz, zero_div, if_neg (not_not.2 rfl)]
      · rw [if_pos (div_ne_zero hz hp), if_pos hz]
    · rw [if_pos hm, hc0 i hi j hj hm, if_neg (not_not.2 rfl)])
  refine ⟨V, ?_, g2, g3, fun i (hi : i < A.nang) a ha j (hj : j < A.nang) b hb => ?_⟩
  · unfold Atom.quadrupole
    have h1' : (A.rad.assemble fun e => .ok (A.rad.radialIntegral 2 e)) = .ok O := h1
    rw [h1', hg, Res.ok_bind, Res.ok_bind, t1]
    exact g1
  · rw [g4 i hi a ha j hj b hb, dif_pos (And.intro hi hj), potential_sep h.functions (fun r => r ^ 2) (fun c => (3 * c ^ 2 - 1) / 2) i a j b _ (hc2 i hi j hj), h4]

/-- `Bz_field(B)` is the matrix of `B²/8 (x² + y²) - B/2 L_z`. -/
theorem C70_magnetic {A : Atom} {φ : Nat → Nat → ℝ[X]} (h : Spec.Good A φ) (B : ℝ) (g : Nat) (hg : A.gmax = .ok g) (fill : List Nat) (hs : fill.Perm (List.range (max (max g 4) g + 1))) :
    ∃ V, A.magnetic B Harm.Spec.gaunt fill = .ok V ∧ Spec.IsMatrix A V (Spec.magnetic A φ B) := by
  obtain ⟨O0, h1, h2, h3, h4⟩ := power_radial h 0
  obtain ⟨O2, k1, k2, k3, k4⟩ := power_radial h 2
  obtain ⟨T, t1, t2⟩ := C69_couplings g 4 g (-1) fill hs
  have hv : ∀ i < A.nang, ∀ j < A.nang, ∃ v, T.sine2 (A.l j) (A.m j) (A.l i) (A.m i) = .ok v ∧
      (v : ℂ) = Harm.Spec.sphere (fun c p => (starRingEnd ℂ) (sph (A.l i) (A.m i) c p) * ((1 - c ^ 2 : ℝ) : ℂ) * sph (A.l j) (A.m j) c p) := by
    intro i hi j hj
    obtain ⟨v, hv, hv'⟩ := (t2 (A.l j) (A.m j) (A.l i) (A.m i) (l_le_gmax A hg hj) (l_le_gmax A hg hi) (by omega)).2.2.2.2.2.1 (by norm_num)
    exact ⟨v, hv, hv'.trans (sphere_swap _ _ _ _ fun c => 1 - c ^ 2)⟩
  choose cpl0 hc1 hc2 using hv
  obtain ⟨cpl, hcpl⟩ : ∃ cpl : Nat → Nat → ℝ, cpl = fun i j => if hh : i < A.nang ∧ j < A.nang then cpl0 i hh.1 j hh.2 else 0 := ⟨_, rfl⟩
  obtain ⟨V, g1, g2, g3, g4⟩ := blocks (n := A.rad.nbf) (n' := A.rad.nbf) (N := A.nang) (N' := A.nang) (fun p : Nat × Nat => p) (A.magStep B T O0 O2)
    (fun i j x a b => (if cpl i j ≠ 0 then B * B / 8 * cpl i j * O2.get a b else x) + if i = j then -(1 / 2) * B * A.m j * O0.get a b else 0) A.pairs (by rw [List.map_id']; exact pairs_nodup A) (by
      rintro ⟨i, j⟩ hp V r1 r2
      rw [mem_pairs] at hp
      unfold Atom.magStep
      simp only
      have hcp : cpl0 i hp.1 j hp.2 = cpl i j := by rw [hcpl]; simp only [dif_pos hp]
      rw [hc1 i hp.1 j hp.2, Res.ok_bind, hcp]
      have step1 : ∃ V1, (if cpl i j ≠ 0 then A.setSub V i j (O2.smul (B * B / 8 * cpl i j)) else .ok V) = .ok V1 ∧ V1.rows = A.nang * A.rad.nbf ∧ V1.cols = A.nang * A.rad.nbf ∧
          ∀ i' a j' b, a < A.rad.nbf → b < A.rad.nbf → ent A.rad.nbf A.rad.nbf V1 i' a j' b = if i' = i ∧ j' = j then (if cpl i j ≠ 0 then B * B / 8 * cpl i j * O2.get a b else ent A.rad.nbf A.rad.nbf V i' a j' b) else ent A.rad.nbf A.rad.nbf V i' a j' b := by
        by_cases hz : cpl i j ≠ 0
        · rw [if_pos hz]
          obtain ⟨V', s1, s2, s3, s4⟩ := setBlock_ent (M := O2.smul (B * B / 8 * cpl i j)) r1 r2 k2 k3 hp.1 hp.2
          refine ⟨V', s1, s2, s3, fun i' a j' b ha hb => ?_⟩
          rw [s4 i' a j' b ha hb, if_pos hz]
          rfl
        · rw [if_neg hz]
          exact ⟨V, rfl, r1, r2, fun i' a j' b ha hb => by rw [if_neg hz, ite_self]⟩
      obtain ⟨V1, s1, s2, s3, s4⟩ := step1
      have hiff := lm_inj A h.nodup hp.1 hp.2
      rw [s1, Res.ok_bind]
      by_cases hij : i = j
      · rw [if_pos (hiff.2 hij)]
        obtain ⟨V2, u1, u2, u3, u4⟩ := addBlock_ent (M := O0.smul (-(1 / 2) * B * A.m j)) s2 s3 h2 h3 hp.1 hp.2
        refine ⟨V2, u1, u2, u3, fun i' a j' b ha hb => ?_⟩
        rw [u4 i' a j' b ha hb, s4 i' a j' b ha hb]
        simp only [Prod.mk.injEq, Mat.smul]
        by_cases hh : i' = i ∧ j' = j
        · obtain ⟨rfl, rfl⟩ := hh
          simp only [hij, and_self, if_true]
        · rw [if_neg hh, if_neg hh, if_neg hh]
      · rw [if_neg fun hh => hij (hiff.1 hh)]
        refine ⟨V1, rfl, s2, s3, fun i' a j' b ha hb => ?_⟩
        rw [s4 i' a j' b ha hb]
        simp only [Prod.mk.injEq]
        by_cases hh : i' = i ∧ j' = j
        · obtain ⟨rfl, rfl⟩ := hh
          simp only [and_self, if_true, if_neg hij, add_zero]
        · rw [if_neg hh, if_neg hh])
    (Mat.zero A.ndummy A.ndummy) rfl rfl
  refine ⟨V, ?_, g2, g3, fun i (hi : i < A.nang) a ha j (hj : j < A.nang) b hb => ?_⟩
  · unfold Atom.magnetic
    have h1' : (A.rad.assemble fun e => .ok (A.rad.radialIntegral 0 e)) = .ok O0 := h1
    have k1' : (A.rad.assemble fun e => .ok (A.rad.radialIntegral 2 e)) = .ok O2 := k1
    rw [h1', k1', hg, Res.ok_bind, Res.ok_bind, Res.ok_bind, t1]
    exact g1
  · have := g4 i a j b ha hb
    rw [ent, zero_ent, List.map_id', if_pos ((mem_pairs A i j).2 ⟨hi, hj⟩)] at this
    rw [this]
    have hw : Spec.magnetic A φ B i a j b = Spec.potential A φ (fun r c => B ^ 2 / 8 * (r ^ 2 * (1 - c ^ 2)) - B / 2 * A.m j) i a j b := by
      unfold Spec.magnetic Spec.potential
      congr 1
      funext e r c p
      have hd3 : deriv (fun x => Spec.wave (φ e b) (A.l j) (A.m j) r c x) p = (A.m j : ℂ) * Complex.I * Spec.wave (φ e b) (A.l j) (A.m j) r c p := by
        have h1 : HasDerivAt (fun x : ℝ => ((A.m j * x : ℝ) : ℂ) * Complex.I) ((A.m j : ℂ) * Complex.I) p := by
          have := (((hasDerivAt_id p).const_mul (A.m j : ℝ)).ofReal_comp).mul_const Complex.I
          simpa using this
        have := (h1.cexp.mul_const ((yx (A.l j) (A.m j) c : ℝ) : ℂ)).const_mul (((φ e b).eval r / r : ℝ) : ℂ)
        have e : (fun x => Spec.wave (φ e b) (A.l j) (A.m j) r c x) = fun x => (((φ e b).eval r / r : ℝ) : ℂ) * (Complex.exp (((A.m j * x : ℝ) : ℂ) * Complex.I) * ((yx (A.l j) (A.m j) c : ℝ) : ℂ)) := by
          funext x; rw [Spec.wave, sph_yx]
        rw [e, this.deriv, Spec.wave, sph_yx]
        ring
      rw [hd3]
      have hI2 : Complex.I * Complex.I = -1 := Complex.I_mul_I
      push_cast
      linear_combination ((starRingEnd ℂ) (Spec.wave (φ e a) (A.l i) (A.m i) r c p) * (B / 2) * A.m j * Spec.wave (φ e b) (A.l j) (A.m j) r c p) * hI2
    rw [hw, potential_eq h.functions _ i a j b (fun _ r => B ^ 2 / 8 * r ^ 2 * cpl i j + (if i = j then -(1 / 2) * B * A.m j else 0)) 0]
    · rw [Complex.ofReal_inj]
      have hO : (if cpl i j ≠ 0 then B * B / 8 * cpl i j * O2.get a b else 0) + (if i = j then -(1 / 2) * B * A.m j * O0.get a b else 0) =
          B ^ 2 / 8 * cpl i j * O2.get a b + (if i = j then -(1 / 2) * B * A.m j else 0) * O0.get a b := by
        congr 1
        · split_ifs with hz
          · ring
          · rw [not_not.1 hz]; simp
        · split_ifs <;> simp
      rw [hO, h4, k4, mul_sum, mul_sum, ← sum_add_distrib]
      refine sum_congr rfl fun e he => ?_
      rw [mem_range] at he
      have c2 : ContinuousOn (fun r : ℝ => r ^ 2 * r ^ 2) (Set.Icc (A.rad.bnd e) (A.rad.bnd (e + 1))) := by fun_prop
      have c0 : ContinuousOn (fun r : ℝ => r ^ 2 * r ^ 0) (Set.Icc (A.rad.bnd e) (A.rad.bnd (e + 1))) := by fun_prop
      rw [← intervalIntegral.integral_const_mul, ← intervalIntegral.integral_const_mul, ← intervalIntegral.integral_add ((elem_int h.functions he a b _ c2).const_mul _) ((elem_int h.functions he a b _ c0).const_mul _)]
      refine intervalIntegral.integral_congr fun r _ => ?_
      beta_reduce
      ring
    · intro e _ r _ _ _
      have hcp : cpl0 i hi j hj = cpl i j := by rw [hcpl]; simp only [dif_pos (And.intro hi hj)]
      have hA := hc2 i hi j hj
      rw [hcp, sphere_pair] at hA
      have hO := sphere_orth (A.l i) (A.m i) (A.l j) (A.m j) (h.m_le' hi) (h.m_le' hj) (-(1 / 2) * B * A.m j)
      rw [sphere_pair _ _ _ _ (fun _ => -(1 / 2) * B * A.m j)] at hO
      simp only [lm_inj A h.nodup hi hj] at hO
      rw [Complex.ofReal_inj] at hA hO
      rw [sphere_pair _ _ _ _ (fun c => B ^ 2 / 8 * (r ^ 2 * (1 - c ^ 2)) - B / 2 * A.m j), Complex.ofReal_inj, hA, ← hO]
      by_cases hm : A.m i = A.m j
      · simp only [if_pos hm]
        have e1 : ∫ c in (-1 : ℝ)..1, yx (A.l i) (A.m i) c * (B ^ 2 / 8 * (r ^ 2 * (1 - c ^ 2)) - B / 2 * A.m j) * yx (A.l j) (A.m j) c =
            B ^ 2 / 8 * r ^ 2 * (∫ c in (-1 : ℝ)..1, yx (A.l i) (A.m i) c * (1 - c ^ 2) * yx (A.l j) (A.m j) c) + ∫ c in (-1 : ℝ)..1, yx (A.l i) (A.m i) c * (-(1 / 2) * B * A.m j) * yx (A.l j) (A.m j) c := by
          have y1 := yx_cont (A.l i) (A.m i)
          have y2 := yx_cont (A.l j) (A.m j)
          rw [← intervalIntegral.integral_const_mul, ← intervalIntegral.integral_add (Continuous.intervalIntegrable (by fun_prop) _ _) (Continuous.intervalIntegrable (by fun_prop) _ _)]
          refine intervalIntegral.integral_congr fun c _ => ?_
          beta_reduce
          ring
        rw [e1]
        ring
      · simp [if_neg hm]

/-- the overlap with the functions of another basis: the radial overlap where `l` and `m` agree, as an integral over the angles -/
theorem C70_cross_overlap (A B : Atom) (hA : ∀ p ∈ A.lm, |p.2| ≤ (p.1 : Int)) (hB : ∀ p ∈ B.lm, |p.2| ≤ (p.1 : Int)) (S : Mat ℝ) (hr : S.rows = A.rad.nbf) (hc : S.cols = B.rad.nbf) :
    ∃ V, A.crossOverlap B S = .ok V ∧ V.rows = A.lm.length * A.rad.nbf ∧ V.cols = B.lm.length * B.rad.nbf ∧
      ∀ i < A.lm.length, ∀ a < A.rad.nbf, ∀ j < B.lm.length, ∀ b < B.rad.nbf, ((V.get (i * A.rad.nbf + a) (j * B.rad.nbf + b) : ℝ) : ℂ) =
        S.get a b * Harm.Spec.sphere (fun c p => (starRingEnd ℂ) (sph (A.l i) (A.m i) c p) * sph (B.l j) (B.m j) c p) := by
  have hnd : ((List.range A.nang).flatMap fun i => (List.range B.nang).map fun j => (i, j)).Nodup := by
    refine List.nodup_flatMap.2 ⟨fun i _ => List.nodup_range.map (fun a b h => by simpa using h), ?_⟩
    refine List.nodup_range.pairwise_of_forall_ne fun i _ j _ hij => ?_
    intro x hx hy
    rw [List.mem_map] at hx hy
    obtain ⟨_, _, rfl⟩ := hx
    obtain ⟨_, _, h⟩ := hy
    exact hij (Prod.ext_iff.1 h).1.symm
  have hmem : ∀ i j, (i, j) ∈ ((List.range A.nang).flatMap fun i => (List.range B.nang).map fun j => (i, j)) ↔ i < A.nang ∧ j < B.nang := by simp
  obtain ⟨V, g1, g2, g3, g4⟩ := blocks (n := A.rad.nbf) (n' := B.rad.nbf) (N := A.nang) (N' := B.nang) (fun p : Nat × Nat => p) (A.crossStep B S)
    (fun i j x a b => if A.l i = B.l j ∧ A.m i = B.m j then S.get a b else x) _ (by rw [List.map_id']; exact hnd) (by
      rintro ⟨i, j⟩ hp V h1 h2
      rw [hmem] at hp
      unfold Atom.crossStep
      by_cases hz : A.l i = B.l j ∧ A.m i = B.m j
      · rw [if_pos hz]
        obtain ⟨V', s1, s2, s3, s4⟩ := setBlock_ent h1 h2 hr hc hp.1 hp.2
        refine ⟨V', s1, s2, s3, fun i' a j' b ha hb => ?_⟩
        rw [s4 i' a j' b ha hb]
        simp only [Prod.mk.injEq]
        by_cases hh : i' = i ∧ j' = j
        · obtain ⟨rfl, rfl⟩ := hh
          rw [if_pos ⟨rfl, rfl⟩, if_pos ⟨rfl, rfl⟩, if_pos hz]
        · rw [if_neg hh, if_neg hh]
      · rw [if_neg hz]
        refine ⟨V, rfl, h1, h2, fun i' a j' b ha hb => ?_⟩
        simp only [Prod.mk.injEq]
        by_cases hh : i' = i ∧ j' = j
        · obtain ⟨rfl, rfl⟩ := hh
          rw [if_pos ⟨rfl, rfl⟩, if_neg hz]
        · rw [if_neg hh])
    (Mat.zero A.ndummy B.ndummy) rfl rfl
  refine ⟨V, g1, g2, g3, fun i (hi : i < A.nang) a ha j (hj : j < B.nang) b hb => ?_⟩
  have := g4 i a j b ha hb
  rw [ent, zero_ent, List.map_id', if_pos ((hmem i j).2 ⟨hi, hj⟩)] at this
  have hmA := hA _ (lm_mem A hi)
  have hmB := hB _ (lm_mem B hj)
  rw [Int.abs_eq_natAbs] at hmA hmB
  have ho := sphere_orth (A.l i) (A.m i) (B.l j) (B.m j) (by unfold Atom.m Atom.l; omega) (by unfold Atom.m Atom.l; omega) 1
  simp only [Complex.ofReal_one, mul_one] at ho
  rw [this, ho]
  split_ifs <;> simp

/-- the charge at the origin -/
theorem centre_ent {A : Atom} {φ : Nat → Nat → ℝ[X]} (h : Spec.Good A φ) : ∃ V, A.centre = .ok V ∧ V.rows = A.nang * A.rad.nbf ∧ V.cols = A.nang * A.rad.nbf ∧
    ∀ i < A.nang, ∀ a < A.rad.nbf, ∀ j < A.nang, ∀ b < A.rad.nbf, ent A.rad.nbf A.rad.nbf V i a j b = if A.l i = A.l j ∧ A.m i = A.m j then
      -(A.Z : ℝ) * ∑ e ∈ range A.rad.nel, ∫ r in (A.rad.bnd e)..(A.rad.bnd (e + 1)), (φ e a).eval r / r * ((φ e b).eval r / r) * r ^ ((-1 : Int) + 2) else 0 := by
  unfold Atom.centre
  by_cases hZ : A.Z = 0
  · rw [if_neg (not_not.2 hZ)]
    refine ⟨_, rfl, rfl, rfl, fun i _ a _ j _ b _ => ?_⟩
    rw [zero_ent, hZ]
    simp
  · rw [if_pos hZ]
    obtain ⟨M, h1, h2, h3, h4⟩ := assemble_exact' h.functions h.exact .R0 .R0 (fun r => r ^ ((-1 : Int) + 2))
    obtain ⟨V, g1, g2, g3, g4⟩ := diagonal_ent A (M.smul (-(A.Z : ℝ))) h2 h3
    refine ⟨V, ?_, g2, g3, fun i hi a ha j hj b hb => ?_⟩
    · unfold Radial.radialIntegral
      rw [h1]
      exact g1
    · rw [ent, g4 i hi a ha j hj b hb]
      simp only [lm_inj A h.nodup hi hj, Mat.smul, h4, Spec.value]

/-- `nuclear()` of point charges is the matrix of the attraction by the charge at the origin and by the charges on the axis at `±Rhalf`, when the
sphere of radius `Rhalf` is a boundary of elements; with any schedule of the blocks. -/
theorem C70_nuclear {A : Atom} {φ : Nat → Nat → ℝ[X]} (h : Spec.Good A φ) (hp : A.finite = none) (hR : 0 < A.Rhalf)
    (hx : ∀ e < A.rad.nel, A.Rhalf ≤ A.rad.bnd e ∨ A.rad.bnd (e + 1) ≤ A.Rhalf) (g : Nat) (hg : A.gmax = .ok g) (fill : List Nat) (hs : fill.Perm (List.range (max (max g (2 * g)) g + 1)))
    (sched : List (Nat × Nat)) (hsch : sched.Perm ((List.range A.lm.length).flatMap fun i => (List.range A.lm.length).map fun j => (i, j))) :
    ∃ V, A.nuclear Harm.Spec.gaunt fill sched = .ok V ∧ Spec.IsMatrix A V (Spec.potential A φ (Spec.attraction A.Z A.Zl A.Zr A.Rhalf)) := by
  obtain ⟨V0, c1, c2, c3, c4⟩ := centre_ent h
  have hsch' : sched.Perm A.pairs := hsch
  unfold Atom.nuclear
  rw [hp]
  simp only
  rw [c1, Res.ok_bind]
  unfold Atom.offcentre
  by_cases hz : A.Zl ≠ 0 ∨ A.Zr ≠ 0
  · rw [if_pos hz]
    obtain ⟨lm, hlm⟩ : ∃ lm, A.lmax = .ok lm := by
      unfold Atom.lmax
      unfold Atom.gmax at hg
      rcases hA : A.lm with _ | ⟨p, r⟩
      · rw [hA] at hg; simp at hg
      · exact ⟨_, rfl⟩
    have hW : ∀ L, ∃ M, A.rad.assemble (A.rad.nuclearOffcenter A.Rhalf L) = .ok M ∧ M.rows = A.rad.nbf ∧ M.cols = A.rad.nbf ∧ ∀ a b, M.get a b =
        ∑ e ∈ range A.rad.nel, offS A.rad A.Rhalf L e * ∫ r in (A.rad.bnd e)..(A.rad.bnd (e + 1)), (φ e a).eval r / r * ((φ e b).eval r / r) * offW A.rad A.Rhalf L e r :=
      fun L => assemble_exact h.functions h.exact _ .R0 .R0 _ _ (off_kernel A.rad A.Rhalf hx L)
    choose W w1 w2 w3 w4 using hW
    obtain ⟨T, t1, t2⟩ := Gaunt.C25_lookup gaunt_symmetric g (2 * g) g (-1) fill hs
    rw [hlm, Res.ok_bind, Res.mapM_ok _ W _ (fun L _ => w1 L), Res.ok_bind, hg, Res.ok_bind, t1, Res.ok_bind]
    obtain ⟨V, g1, g2, g3, g4⟩ := blocks (n := A.rad.nbf) (n' := A.rad.nbf) (N := A.nang) (N' := A.nang) (fun p : Nat × Nat => p) (A.offBlock T ((List.range (2 * lm + 1)).map W))
      (fun i j x a b => x + if A.m i = A.m j then ∑ L ∈ range (A.l i + A.l j + 1), Gaunt.direct Harm.Spec.gaunt (A.l i) (A.m i) L 0 (A.l j) (A.m i) * ((-1) ^ L * A.Zl + A.Zr) * (W L).get a b else 0)
      sched (by rw [List.map_id']; exact hsch'.nodup_iff.2 (pairs_nodup A)) (by
        rintro ⟨i, j⟩ hij V r1 r2
        have hij' := (mem_pairs A i j).1 (hsch'.mem_iff.1 hij)
        unfold Atom.offBlock
        by_cases hm : A.m i = A.m j
        · rw [if_neg (not_not.2 hm)]
          have hmem : ∀ L ∈ multipoles (A.l i) (A.l j), L ≤ A.l i + A.l j := by
            intro L hL
            unfold multipoles at hL
            rw [List.mem_range'_1] at hL
            omega
          have gi := l_le_gmax A hg hij'.1
          have gj := l_le_gmax A hg hij'.2
          have li := l_le_lmax A hlm hij'.1
          have lj := l_le_lmax A hlm hij'.2
          obtain ⟨V', s1, s2, s3, s4⟩ := offTerms_ent A T ((List.range (2 * lm + 1)).map W) i j hij'.1 hij'.2 (fun L => Gaunt.direct Harm.Spec.gaunt (A.l i) (A.m i) L 0 (A.l j) (A.m i)) W (multipoles (A.l i) (A.l j))
            (by
              intro L hL
              have := hmem L hL
              have := table_coeff t2 (A.l i) (A.m i) L 0 (A.l j) gi (by omega) gj (by omega)
              rwa [sub_zero] at this)
            (by
              intro L hL
              have := hmem L hL
              rw [List.getElem?_map, List.getElem?_range (by omega)]
              rfl) w2 w3 V r1 r2
          refine ⟨V', s1, s2, s3, fun i' a j' b ha hb => ?_⟩
          rw [s4 i' a j' b ha hb]
          by_cases hh : (i', j') = (i, j)
          · obtain ⟨rfl, rfl⟩ := Prod.ext_iff.1 hh
            rw [if_pos rfl, if_pos rfl, if_pos hm, multipoles_sum]
            intro L hL
            rw [Gaunt.direct, C69_gaunt_selection _ _ _ _ _ _ (by omega)]
            ring
          · rw [if_neg hh, if_neg hh]
        · rw [if_pos hm]
          refine ⟨V, rfl, r1, r2, fun i' a j' b ha hb => ?_⟩
          by_cases hh : (i', j') = (i, j)
          · obtain ⟨rfl, rfl⟩ := Prod.ext_iff.1 hh
            rw [if_pos rfl, if_neg hm, add_zero]
          · rw [if_neg hh]) V0 c2 c3
    refine ⟨V, g1, g2, g3, fun i (hi : i < A.nang) a ha j (hj : j < A.nang) b hb => ?_⟩
    have := g4 i a j b ha hb
    rw [List.map_id', if_pos (hsch'.mem_iff.2 ((mem_pairs A i j).2 ⟨hi, hj⟩)), c4 i hi a ha j hj b hb, ent] at this
    rw [this, attraction_potential h.functions hR hx i a j b (h.m_le' hi) (h.m_le' hj)]
    simp only [w4]
  · rw [if_neg hz]
    have hzl : A.Zl = 0 := by_contra fun hh => hz (Or.inl hh)
    have hzr : A.Zr = 0 := by_contra fun hh => hz (Or.inr hh)
    refine ⟨V0, rfl, c2, c3, fun i (hi : i < A.nang) a ha j (hj : j < A.nang) b hb => ?_⟩
    rw [attraction_potential h.functions hR hx i a j b (h.m_le' hi) (h.m_le' hj), Complex.ofReal_inj]
    have := c4 i hi a ha j hj b hb
    rw [ent] at this
    rw [this, hzl, hzr]
    simp

/-- Without outer charges `Rhalf` does not matter. -/
theorem C70_nuclear_central {A : Atom} {φ : Nat → Nat → ℝ[X]} (h : Spec.Good A φ) (hp : A.finite = none) (hl : A.Zl = 0) (hr : A.Zr = 0) (G : Nat → Int → Nat → Int → Nat → Int → ℝ) (fill : List Nat) (sched : List (Nat × Nat)) :
    ∃ V, A.nuclear G fill sched = .ok V ∧ Spec.IsMatrix A V (Spec.potential A φ fun r _ => -(A.Z : ℝ) / r) := by
  obtain ⟨V0, c1, c2, c3, c4⟩ := centre_ent h
  refine ⟨V0, ?_, c2, c3, fun i (hi : i < A.nang) a ha j (hj : j < A.nang) b hb => ?_⟩
  · unfold Atom.nuclear
    rw [hp]
    simp only
    rw [c1, Res.ok_bind, Atom.offcentre, if_neg (by simp [hl, hr])]
  · have := potential_sep h.functions (fun r => -(A.Z : ℝ) / r) (fun _ => 1) i a j b (if A.l i = A.l j ∧ A.m i = A.m j then 1 else 0) (by
      rw [sphere_orth _ _ _ _ (h.m_le' hi) (h.m_le' hj) 1])
    simp only [mul_one] at this
    rw [this, Complex.ofReal_inj]
    have := c4 i hi a ha j hj b hb
    rw [ent] at this
    rw [this]
    split_ifs
    · rw [one_mul, mul_sum]
      simp only [← intervalIntegral.integral_const_mul]
      refine radial_congr h.functions _ _ fun e _ r _ _ hr => ?_
      have : r ^ ((-1 : Int) + 2) = r := by norm_num
      rw [this]
      field_simp
    · rw [zero_mul]

/-- An outer charge inside an element is refused. -/
theorem C70_nuclear_throws {A : Atom} {φ : Nat → Nat → ℝ[X]} (h : Spec.Good A φ) (hp : A.finite = none) (hz : A.Zl ≠ 0 ∨ A.Zr ≠ 0) (hlm : A.lm ≠ []) (e : Nat) (he : e < A.rad.nel)
    (h0 : A.rad.bnd e < A.Rhalf) (h1 : A.Rhalf < A.rad.bnd (e + 1)) (G : Nat → Int → Nat → Int → Nat → Int → ℝ) (fill : List Nat) (sched : List (Nat × Nat)) :
    A.nuclear G fill sched = .throw .logicError := by
  obtain ⟨V0, c1, c2, c3, c4⟩ := centre_ent h
  have hmono : ∀ d, e + 1 + d ≤ A.rad.nel → A.rad.bnd (e + 1) ≤ A.rad.bnd (e + 1 + d) := by
    intro d
    induction d with
    | zero => exact fun _ => le_rfl
    | succ d ih => exact fun hd => (ih (by omega)).trans (h.functions.inc (e + 1 + d) (by omega)).le
  have hmono' : ∀ d, d ≤ e → A.rad.bnd (e - d) ≤ A.rad.bnd e := by
    intro d
    induction d with
    | zero => exact fun _ => le_rfl
    | succ d ih =>
      intro hd
      have := h.functions.inc (e - (d + 1)) (by omega)
      rw [show e - (d + 1) + 1 = e - d by omega] at this
      exact this.le.trans (ih (by omega))
  have hthrow : A.rad.assemble (A.rad.nuclearOffcenter A.Rhalf 0) = .throw .logicError := by
    obtain ⟨R', hR'⟩ : ∃ R' : Radial, R' = { A.rad with nel := e } := ⟨_, rfl⟩
    obtain ⟨M, m1, _, _, _⟩ := assemble_get R' (A.rad.nuclearOffcenter A.Rhalf 0) (fun e => (A.rad.radialIntegral ((0 : Nat) : Int) e).smul (-√(4 * Real.pi / (2 * (0 : Nat) + 1)) * A.Rhalf ^ (-((0 : Nat) : Int) - 1)))
      (by
        intro k hk
        rw [hR'] at hk
        simp only at hk
        have h2 := hmono' (e - (k + 1)) (by omega)
        rw [show e - (e - (k + 1)) = k + 1 by omega] at h2
        have h3 := h.functions.inc k (by omega)
        unfold Radial.nuclearOffcenter
        rw [if_neg (by linarith), if_pos (by linarith)])
      (by
        intro k hk
        rw [hR'] at hk ⊢
        simp only at hk
        exact h.exact.rows _ _ _ k (by omega))
      (by
        intro k hk
        rw [hR'] at hk ⊢
        simp only at hk
        exact h.exact.cols _ _ _ k (by omega))
      (by
        intro k hk
        rw [hR'] at hk ⊢
        simp only at hk
        exact h.functions.idx k (by omega))
    unfold Radial.assemble at m1 ⊢
    rw [hR'] at m1
    simp only at m1
    have hsplit : List.range A.rad.nel = List.range e ++ e :: (List.range' (e + 1) (A.rad.nel - (e + 1))) := by
      rw [List.range_eq_range', List.range_eq_range', show A.rad.nel = e + (1 + (A.rad.nel - (e + 1))) by omega, ← List.range'_append_1, ← List.range'_append_1]
      simp
      omega
    rw [hsplit, List.foldlM_append, m1, Res.ok_bind, List.foldlM_cons]
    have : A.rad.nuclearOffcenter A.Rhalf 0 e = .throw .logicError := by
      unfold Radial.nuclearOffcenter
      rw [if_neg (by linarith), if_neg (by linarith)]
    rw [this]
    rfl
  unfold Atom.nuclear
  rw [hp]
  simp only
  rw [c1, Res.ok_bind, Atom.offcentre, if_pos hz]
  obtain ⟨lm, hlm'⟩ : ∃ lm, A.lmax = .ok lm := by
    unfold Atom.lmax
    rcases hA : A.lm with _ | ⟨p, r⟩
    · exact absurd hA hlm
    · exact ⟨_, rfl⟩
  rw [hlm', Res.ok_bind, List.range_succ_eq_map, List.mapM_cons, hthrow]
  rfl

/-- A finite nucleus at the origin is treated as its radial potential; the charges on the axis are left out. -/
theorem C70_finite_matrix {A : Atom} {φ : Nat → Nat → ℝ[X]} (h : Spec.Good A φ) (v : ℝ → ℝ) (hp : A.finite = some v) (G : Nat → Int → Nat → Int → Nat → Int → ℝ) (fill : List Nat) (sched : List (Nat × Nat)) :
    ∃ V, A.nuclear G fill sched = .ok V ∧ Spec.IsMatrix A V (Spec.potential A φ fun r _ => v r) := by
  unfold Atom.nuclear
  rw [hp]
  exact C70_model_potential h v

/-- So `nuclear()` of a finite nucleus is the matrix of the whole attraction when there are no other charges. The full statement, for any `Zl` and `Zr`, is
false: see `C70_finite_drops_charges`. -/
theorem C70_finite_partial {A : Atom} {φ : Nat → Nat → ℝ[X]} (h : Spec.Good A φ) (v : ℝ → ℝ) (hp : A.finite = some v) (hl : A.Zl = 0) (hr : A.Zr = 0) (G : Nat → Int → Nat → Int → Nat → Int → ℝ) (fill : List Nat) (sched : List (Nat × Nat)) :
    ∃ V, A.nuclear G fill sched = .ok V ∧ Spec.IsMatrix A V (Spec.potential A φ fun r c => v r + Spec.attraction 0 A.Zl A.Zr A.Rhalf r c) := by
  have : (fun r c : ℝ => v r + Spec.attraction 0 A.Zl A.Zr A.Rhalf r c) = fun r _ => v r := by
    funext r c
    simp [Spec.attraction, hl, hr]
  rw [this]
  exact C70_finite_matrix h v hp G fill sched

/-- The finite element bases of the code are such radial functions: with zero values at both ends and the first boundary at the origin, the polynomials that the
global functions are on the elements are continuous and vanish at the ends. -/
theorem C70_fem {f : Family} {n ne : Nat} {zdl zdr : Bool} {x0 : Nat → ℝ} {bval : List ℝ} {o : FEObj ℝ} {N : Nat} {first last : Nat → Nat}
    (h : Assembly.Basis f n ne true zdl true zdr x0 bval o N first last) (φ : Nat → Nat → ℝ[X]) (hφ : Assembly.IsPieces o x0 ne first φ) (h0 : bval.getD 0 0 = 0)
    (elem : Kind → Kind → (ℝ → ℝ) → Nat → Mat ℝ) : Spec.Functions ⟨ne, N, first, last, fun e => bval.getD e 0, elem⟩ φ := by
  have hl := h.len
  have hget : ∀ e (he : e < bval.length), bval.getD e 0 = bval[e] := fun e he => by rw [List.getD_eq_getElem?_getD, List.getElem?_eq_getElem he]; rfl
  obtain ⟨l1, l2, l3, l4, l5⟩ := Assembly.layout f n ne true zdl true zdr h.nodes.two h.nelem bval h.len o h.built N h.nbf h.pos first last h.idx
  have hval : ∀ e < ne, ∀ g x, ∃ v, Poly.feEvalDnf (feShape f n ne true zdl true zdr) bval x0 x 0 e = .ok v ∧
      (φ e g).eval (1 / 2 * (bval.getD e 0 + bval.getD (e + 1) 0) + (bval.getD (e + 1) 0 - bval.getD e 0) / 2 * x) = globalValue (first e) v g := by
    intro e he g x
    obtain ⟨v, r, a1, a2, a3⟩ := hφ e he g x
    rw [h.shape.1, h.shape.2] at a1
    rw [h.shape.2, coord_eq bval e (by omega)] at a2
    simp only [Res.ok.injEq, List.cons.injEq, and_true, List.map_cons, List.map_nil] at a2
    refine ⟨v, a1, ?_⟩
    rw [← a3, ← a2, hget e (by omega), hget (e + 1) (by omega)]
  have hnov : 0 < (PolyBasis.mk' f n).noverlap := by
    have h2 := h.nodes.two
    obtain ⟨m, rfl⟩ : ∃ m, n = m + 2 := ⟨n - 2, by omega⟩
    rw [mk'_noverlap]; exact nov_pos f
  have hzero : ∀ (v : List ℝ) (k g : Nat), (∀ y ∈ v, y = 0) → globalValue k v g = 0 := by
    intro v k g hv
    unfold globalValue
    split_ifs
    · rw [List.getD_eq_getElem?_getD]
      cases hh : v[g - k]? with
      | none => rfl
      | some y => exact hv y (List.mem_of_getElem? hh)
    · rfl
  have hb := Poly.C44_boundary_values f n ne true zdl true zdr x0 h.nodes h.nelem bval h.len h.inc 0 hnov
  have hne := h.nelem
  refine ⟨h.nelem, h0, fun e (he : e < ne) => ?_, fun e (he : e < ne) => ?_, fun e he a ha => h.outside φ hφ e he a (fun hc => by simp only at ha; omega), fun e (he : e + 1 < ne) a => ?_, fun a => ?_, fun a => ?_⟩
  · simp only
    rw [hget e (by omega), hget (e + 1) (by omega)]
    exact List.pairwise_iff_getElem.1 h.inc e (e + 1) (by omega) (by omega) (by omega)
  · exact ⟨(h.count e he 0).2, l4 e he⟩
  · simp only
    obtain ⟨tab, a0, b0, a1, b1, vL, vR, c1, c2, c3, c4, c5, c6, c7, c8⟩ := Poly.C43_continuity f n ne true zdl true zdr x0 h.nodes bval h.len h.inc e he 0 hnov
    rw [l2, Res.ok.injEq] at c1
    subst c1
    have i1 := h.idx e (by omega)
    have i2 := h.idx (e + 1) he
    rw [c2, Res.ok.injEq, Prod.mk.injEq] at i1
    rw [c3, Res.ok.injEq, Prod.mk.injEq] at i2
    obtain ⟨v, d1, d2⟩ := hval e (by omega) a 1
    obtain ⟨w, e1, e2⟩ := hval (e + 1) he a (-1)
    rw [← Nat.cast_zero (R := Int), c4, Res.ok.injEq] at d1
    rw [← Nat.cast_zero (R := Int), c5, Res.ok.injEq] at e1
    subst d1 e1
    rw [show 1 / 2 * (bval.getD e 0 + bval.getD (e + 1) 0) + (bval.getD (e + 1) 0 - bval.getD e 0) / 2 * 1 = bval.getD (e + 1) 0 by ring] at d2
    rw [show 1 / 2 * (bval.getD (e + 1) 0 + bval.getD (e + 1 + 1) 0) + (bval.getD (e + 1 + 1) 0 - bval.getD (e + 1) 0) / 2 * (-1) = bval.getD (e + 1) 0 by ring] at e2
    rw [d2, e2, ← i1.1, ← i2.1]
    exact c8 a
  · simp only
    obtain ⟨w, e1, e2⟩ := hb.1 rfl
    obtain ⟨v, d1, d2⟩ := hval 0 (by omega) a (-1)
    rw [← Nat.cast_zero (R := Int), e1, Res.ok.injEq] at d1
    subst d1
    rw [show 1 / 2 * (bval.getD 0 0 + bval.getD (0 + 1) 0) + (bval.getD (0 + 1) 0 - bval.getD 0 0) / 2 * (-1) = bval.getD 0 0 by ring] at d2
    rw [d2]
    exact hzero _ _ _ e2
  · simp only
    obtain ⟨w, e1, e2⟩ := hb.2 rfl
    obtain ⟨v, d1, d2⟩ := hval (ne - 1) (by omega) a 1
    rw [← Nat.cast_zero (R := Int), e1, Res.ok.injEq] at d1
    subst d1
    rw [show ne - 1 + 1 = ne by omega, show 1 / 2 * (bval.getD (ne - 1) 0 + bval.getD ne 0) + (bval.getD ne 0 - bval.getD (ne - 1) 0) / 2 * 1 = bval.getD ne 0 by ring] at d2
    rw [d2]
    exact hzero _ _ _ e2

/-! ### Examples -/

/-- two elements on `0 < 1 < 2` with three functions: a bubble on each and one that is shared -/
noncomputable def exFun (e a : Nat) : ℝ[X] := match e, a with
  | 0, 0 => X * (1 - X)
  | 0, 1 => X
  | 1, 1 => 2 - X
  | 1, 2 => (X - 1) * (2 - X)
  | _, _ => 0

/-- exact integrals as element matrices -/
noncomputable def exRadial : Radial where
  nel := 2
  nbf := 3
  first e := e
  last e := e + 1
  bnd e := e
  elem k k' w e := ⟨2, 2, fun a b => ∫ r in (e : ℝ)..((e + 1 : Nat) : ℝ), Spec.value k (exFun e (e + a)) r * Spec.value k' (exFun e (e + b)) r * w r⟩

/-- an atom with charges at the origin and at distance one, with s, p and d functions -/
noncomputable def exAtom (fin : Option (ℝ → ℝ)) (R : ℝ) : Atom := ⟨exRadial, [(0, 0), (1, 0), (1, -1), (2, 0)], 2, 1, 3, R, fin⟩

theorem exGood (fin : Option (ℝ → ℝ)) (R : ℝ) : Spec.Good (exAtom fin R) exFun where
  functions := by
    refine ⟨by simp [exAtom, exRadial], by simp [exAtom, exRadial], fun e _ => by simp [exAtom, exRadial], fun e he => ?_, fun e he a ha => ?_, fun e he a => ?_, fun a => ?_, fun a => ?_⟩
    · simp only [exAtom, exRadial] at he ⊢; omega
    · simp only [exAtom, exRadial] at he ha
      interval_cases e
      · obtain ⟨b, rfl⟩ : ∃ b, a = b + 2 := ⟨a - 2, by omega⟩
        simp [exFun]
      · rcases ha with ha | ha
        · rw [show a = 0 by omega]; simp [exFun]
        · obtain ⟨b, rfl⟩ : ∃ b, a = b + 3 := ⟨a - 3, by omega⟩
          simp [exFun]
    · simp only [exAtom, exRadial] at he ⊢
      obtain rfl : e = 0 := by omega
      rcases a with _ | _ | _ | a
      iterate 3 norm_num [exFun]
      rw [show exFun 0 (a + 1 + 1 + 1) = 0 from rfl, show exFun (0 + 1) (a + 1 + 1 + 1) = 0 from rfl, eval_zero]
    · simp only [exAtom, exRadial]
      rcases a with _ | _ | _ | a <;> norm_num [exFun]
    · simp only [exAtom, exRadial]
      rcases a with _ | _ | _ | a
      iterate 3 norm_num [exFun]
      rw [show exFun (2 - 1) (a + 1 + 1 + 1) = 0 from rfl, eval_zero]
  exact := by
    refine ⟨fun k k' w e _ => ?_, fun k k' w e _ => ?_, fun k k' w e _ a _ b _ => rfl⟩ <;> simp only [exAtom, exRadial] <;> omega
  nodup := by simp [exAtom]
  m_le := by
    intro p hp
    simp only [exAtom, List.mem_cons, List.not_mem_nil, or_false] at hp
    rcases hp with rfl | rfl | rfl | rfl <;> norm_num

/-- The charges on the axis are dropped for a finite nucleus: the matrix is not that of the whole attraction. -/
theorem C70_finite_drops_charges : ∃ (A : Atom) (φ : Nat → Nat → ℝ[X]) (v : ℝ → ℝ), Spec.Good A φ ∧ A.finite = some v ∧ 0 < A.Rhalf ∧ A.Zr ≠ 0 ∧
    ∀ G fill sched V, A.nuclear G fill sched = .ok V → ¬ Spec.IsMatrix A V (Spec.potential A φ fun r c => v r + Spec.attraction 0 A.Zl A.Zr A.Rhalf r c) := by
  refine ⟨exAtom (some fun _ => 0) 1, exFun, fun _ => 0, exGood _ _, rfl, by norm_num [exAtom], by norm_num [exAtom], ?_⟩
  intro G fill sched V hV hM
  obtain ⟨V', h1, h2⟩ := C70_finite_matrix (exGood (some fun _ => 0) 1) (fun _ => 0) rfl G fill sched
  rw [hV, Res.ok.injEq] at h1
  subst h1
  have e1 := hM.2.2 0 (by simp [exAtom]) 0 (by simp [exAtom, exRadial]) 0 (by simp [exAtom]) 0 (by simp [exAtom, exRadial])
  have e2 := h2.2.2 0 (by simp [exAtom]) 0 (by simp [exAtom, exRadial]) 0 (by simp [exAtom]) 0 (by simp [exAtom, exRadial])
  rw [e1] at e2
  obtain ⟨A, hA⟩ : ∃ A : Atom, A = { exAtom none 1 with Z := 0 } := ⟨_, rfl⟩
  have hg : Spec.Good A exFun := by
    have := exGood none 1
    rw [hA]
    exact ⟨this.functions, this.exact, this.nodup, this.m_le⟩
  have hx : ∀ e < A.rad.nel, A.Rhalf ≤ A.rad.bnd e ∨ A.rad.bnd (e + 1) ≤ A.Rhalf := by
    rw [hA]
    intro e he
    simp only [exAtom, exRadial] at he ⊢
    interval_cases e
    · right; norm_num
    · left; norm_num
  have hp := attraction_potential (A := A) hg.functions (by rw [hA]; norm_num [exAtom]) hx 0 0 0 0 (by simp [hA, exAtom, Atom.m, Atom.l]) (by simp [hA, exAtom, Atom.m, Atom.l])
  have e3 : Spec.potential (exAtom (some fun _ => 0) 1) exFun (fun r c => (fun _ => 0 : ℝ → ℝ) r + Spec.attraction 0 (exAtom (some fun _ => 0) 1).Zl (exAtom (some fun _ => 0) 1).Zr (exAtom (some fun _ => 0) 1).Rhalf r c) 0 0 0 0 =
      Spec.potential A exFun (Spec.attraction A.Z A.Zl A.Zr A.Rhalf) 0 0 0 0 := by
    rw [hA]
    simp only [zero_add]
    rfl
  have e4 : Spec.potential (exAtom (some fun _ => 0) 1) exFun (fun r _ => (fun _ => 0 : ℝ → ℝ) r) 0 0 0 0 = 0 := by
    unfold Spec.potential Spec.ball Harm.Spec.sphere
    simp
  rw [e4] at e2
  rw [e3] at e2
  rw [hp] at e2
  have hd : Gaunt.direct Harm.Spec.gaunt 0 0 0 0 0 0 = 1 / √(4 * Real.pi) := C69_monopole 0 0 (by simp)
  rw [hA] at e2
  simp only [exAtom, exRadial, Atom.m, Atom.l, List.getD_cons_zero, offS, offW, sum_range_succ, sum_range_zero] at e2
  simp only [Nat.cast_zero] at e2
  norm_num [hd, exFun] at e2
  rcases e2 with e2 | e2
  · exact (Real.sqrt_pos.2 Real.pi_pos).ne' e2
  · have : (∫ r in (0 : ℝ)..1, r * (1 - r) / r * (r * (1 - r) / r) * r ^ 2) = ∫ r in (0 : ℝ)..1, (r ^ 2 - 2 * r ^ 3 + r ^ 4) := by
      refine intervalIntegral.integral_congr fun r _ => ?_
      by_cases hr : r = 0
      · simp [hr]
      · field_simp
        ring
    rw [this, intervalIntegral.integral_add, intervalIntegral.integral_sub, intervalIntegral.integral_const_mul, integral_pow, integral_pow, integral_pow] at e2
    · norm_num at e2
    all_goals exact (by fun_prop : Continuous _).intervalIntegrable _ _

/-- the theorems apply to this atom: the matrices exist -/
example : (∃ V, (exAtom none 1).kinetic = .ok V ∧ Spec.IsMatrix (exAtom none 1) V (Spec.kinetic (exAtom none 1) exFun)) ∧ (exAtom none 1).gmax = .ok 2 :=
  ⟨C70_kinetic (exGood none 1), by decide⟩

example : ∃ V, (exAtom none 1).nuclear Harm.Spec.gaunt [4, 3, 2, 1, 0] (exAtom none 1).pairs.reverse = .ok V ∧
    Spec.IsMatrix (exAtom none 1) V (Spec.potential (exAtom none 1) exFun (Spec.attraction 2 1 3 1)) := by
  refine C70_nuclear (exGood none 1) rfl (by norm_num [exAtom]) (fun e he => ?_) 2 (by decide) _ (by decide) _ (List.reverse_perm _)
  simp only [exAtom, exRadial] at he ⊢
  interval_cases e
  · right; norm_num
  · left; norm_num

example : ∃ V, (exAtom none 1).dipole Harm.Spec.gaunt [2, 0, 1] = .ok V ∧ Spec.IsMatrix (exAtom none 1) V (Spec.potential (exAtom none 1) exFun fun r c => r * c) :=
  C70_dipole (exGood none 1) 2 (by decide) _ (by decide)

example : ∃ V, (exAtom none 1).magnetic (1 / 2) Harm.Spec.gaunt [2, 0, 1, 4, 3] = .ok V ∧ Spec.IsMatrix (exAtom none 1) V (Spec.magnetic (exAtom none 1) exFun (1 / 2)) :=
  C70_magnetic (exGood none 1) (1 / 2) 2 (by decide) _ (by decide)

/-- a charge inside the first element -/
example : (exAtom none (1 / 2)).nuclear Harm.Spec.gaunt [] [] = .throw .logicError :=
  C70_nuclear_throws (exGood none (1 / 2)) rfl (Or.inl (by decide)) (by simp [exAtom]) 0 (by decide) (by norm_num [exAtom, exRadial]) (by norm_num [exAtom, exRadial]) _ _ _

/-- linear elements on 0 < 1 < 3 that vanish at both ends: one hat function -/
example : ∃ o φ, Assembly.Basis .lip 2 2 true false true false (fun k => 2 * (k : ℝ) - 1) [0, 1, 3] o 1 (fun _ => 0) (fun _ => 0) ∧
    Spec.Functions ⟨2, 1, fun _ => 0, fun _ => 0, fun e => [0, 1, 3].getD e 0, exRadial.elem⟩ φ := by
  obtain ⟨o, ho⟩ : ∃ o, Assembly.Basis .lip 2 2 true false true false (fun k => 2 * (k : ℝ) - 1) [0, 1, 3] o 1 (fun _ => 0) (fun _ => 0) := by
    refine ⟨_, good_two, by omega, rfl, by norm_num, rfl, by decide, by omega, ?_⟩
    intro e he
    interval_cases e <;> rfl
  exact ⟨o, _, ho, C70_fem ho _ (Assembly.Basis.piece_isPieces 0 ho) rfl _⟩

/-- a cross overlap with a basis with another list of angular functions -/
example (S : Mat ℝ) (hr : S.rows = 3) (hc : S.cols = 3) : ∃ V, (exAtom none 1).crossOverlap ⟨exRadial, [(1, 0), (3, 2)], 0, 0, 0, 0, none⟩ S = .ok V ∧ V.rows = 12 ∧ V.cols = 6 := by
  obtain ⟨V, h1, h2, h3, _⟩ := C70_cross_overlap (exAtom none 1) ⟨exRadial, [(1, 0), (3, 2)], 0, 0, 0, 0, none⟩ (exGood none 1).m_le (by decide) S hr hc
  exact ⟨V, h1, h2, h3⟩

end OneE
end HelFEM
