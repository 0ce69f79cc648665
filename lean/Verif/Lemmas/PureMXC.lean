import Verif.Lemmas.PureMIndex

/-!
# One radial point of the grid without azimuthal quadrature: values and blocks
-/

namespace HelFEM
namespace XC

open Matrix

/-! ### The functions -/

section vals
variable (lm : List (Int × Int)) (nrad : Nat) (y : Int → Int → ℝ → ℝ) (R : Nat → ℝ → ℝ) (e : PmPoint) (ia : Fin e.nang)

/-- the angle -/
noncomputable def nu : ℝ := Real.arccos (e.cth ia)
/-- the scale factor of `μ` and `ν` -/
noncomputable def hs : ℝ := e.Rhalf * √(Real.sinh e.mu ^ 2 + Real.sin (nu e ia) ^ 2)
/-- the scale factor of `φ` -/
noncomputable def hp : ℝ := e.Rhalf * Real.sinh e.mu * Real.sin (nu e ia)

/-- the functions at azimuth zero, by their padded index -/
noncomputable def kF (k : Nat) : ℝ := R (k % nrad) e.mu * y (Spec.lOf lm nrad k) (Spec.mOf lm nrad k) (nu e ia)
/-- `∂_μ` -/
noncomputable def kR (k : Nat) : ℝ := deriv (R (k % nrad)) e.mu * y (Spec.lOf lm nrad k) (Spec.mOf lm nrad k) (nu e ia)
/-- `∂_ν` -/
noncomputable def kT (k : Nat) : ℝ := R (k % nrad) e.mu * deriv (y (Spec.lOf lm nrad k) (Spec.mOf lm nrad k)) (nu e ia)
/-- the Laplacian -/
noncomputable def kL (k : Nat) : ℝ :=
  (hs e ia ^ 2)⁻¹ * ((deriv (deriv (R (k % nrad))) e.mu + Real.cosh e.mu / Real.sinh e.mu * deriv (R (k % nrad)) e.mu) * y (Spec.lOf lm nrad k) (Spec.mOf lm nrad k) (nu e ia) +
    R (k % nrad) e.mu * (deriv (deriv (y (Spec.lOf lm nrad k) (Spec.mOf lm nrad k))) (nu e ia) +
      Real.cos (nu e ia) / Real.sin (nu e ia) * deriv (y (Spec.lOf lm nrad k) (Spec.mOf lm nrad k)) (nu e ia))) -
    (hp e ia ^ 2)⁻¹ * (Spec.mOf lm nrad k ^ 2 * (R (k % nrad) e.mu * y (Spec.lOf lm nrad k) (Spec.mOf lm nrad k) (nu e ia)))

variable {lm nrad y R e}

theorem flip_vals (hy : Spec.Harmonics y) {k k' : Nat} (hk : |Spec.mOf lm nrad k| ≤ Spec.lOf lm nrad k) (hf : Spec.Flip lm nrad k k') :
    ∃ σ : ℝ, σ * σ = 1 ∧ σ = (-1) ^ (Spec.mOf lm nrad k).natAbs ∧ kF lm nrad y R e ia k' = σ * kF lm nrad y R e ia k ∧ kR lm nrad y R e ia k' = σ * kR lm nrad y R e ia k ∧
      kT lm nrad y R e ia k' = σ * kT lm nrad y R e ia k ∧ kL lm nrad y R e ia k' = σ * kL lm nrad y R e ia k := by
  obtain ⟨h1, h2, h3⟩ := hf
  refine ⟨(-1) ^ (Spec.mOf lm nrad k).natAbs, ?_, rfl, ?_⟩
  · rw [← mul_pow]; norm_num
  · have e0 : y (Spec.lOf lm nrad k) (-Spec.mOf lm nrad k) = fun ν => (-1) ^ (Spec.mOf lm nrad k).natAbs * y (Spec.lOf lm nrad k) (Spec.mOf lm nrad k) ν :=
      funext fun ν => hy.neg _ _ hk ν
    have e1 : deriv (y (Spec.lOf lm nrad k) (-Spec.mOf lm nrad k)) = fun ν => (-1) ^ (Spec.mOf lm nrad k).natAbs * deriv (y (Spec.lOf lm nrad k) (Spec.mOf lm nrad k)) ν := by
      rw [e0]
      exact funext fun ν => deriv_const_mul_field _
    have e2 : deriv (deriv (y (Spec.lOf lm nrad k) (-Spec.mOf lm nrad k))) = fun ν => (-1) ^ (Spec.mOf lm nrad k).natAbs * deriv (deriv (y (Spec.lOf lm nrad k) (Spec.mOf lm nrad k))) ν := by
      rw [e1]
      exact funext fun ν => deriv_const_mul_field _
    simp only [kF, kR, kT, kL, h1, h2, h3]
    refine ⟨?_, ?_, ?_, ?_⟩
    · rw [e0]; ring
    · rw [e0]; ring
    · rw [e1]; ring
    · rw [e2, e1, e0]
      push_cast
      ring

end vals

/-! ### The blocks hold the functions -/

section block
variable {lm : List (Int × Int)} {nrad : Nat} {y : Int → Int → ℝ → ℝ} {R : Nat → ℝ → ℝ} {e : PmPoint} (hS : Spec.Sampled nrad y R e) (hy : Spec.Harmonics y) (hang : Spec.Angular lm)

include hS in
theorem nu_mem (ia : Fin e.nang) : 0 < nu e ia ∧ nu e ia < Real.pi := by
  obtain ⟨h1, h2⟩ := hS.cth ia
  exact ⟨Real.arccos_pos.2 h2, lt_of_le_of_ne (Real.arccos_le_pi _) fun h => by rw [nu, Real.arccos_eq_pi] at h; linarith⟩

include hS in
theorem cos_nu (ia : Fin e.nang) : Real.cos (nu e ia) = e.cth ia := by
  obtain ⟨h1, h2⟩ := hS.cth ia
  exact Real.cos_arccos h1.le h2.le

include hS in
theorem sin_nu (ia : Fin e.nang) : pmSin (e.cth ia) = Real.sin (nu e ia) := by
  obtain ⟨h1, h2⟩ := hS.cth ia
  rw [nu, Real.sin_arccos, pmSin, max_eq_left (by nlinarith)]
  congr 1
  ring

include hS in
theorem sin_pos (ia : Fin e.nang) : 0 < Real.sin (nu e ia) := Real.sin_pos_of_pos_of_lt_pi (nu_mem hS ia).1 (nu_mem hS ia).2

include hS in
theorem sinh_mu : 0 < Real.sinh e.mu := Real.sinh_pos_iff.2 hS.mu

include hS in
theorem hmu_eq (ia : Fin e.nang) : e.hmu ia = hs e ia := by
  rw [PmPoint.hmu, hs, sin_nu hS, pow_two, pow_two]

include hS in
theorem hphi_eq (ia : Fin e.nang) : e.hphi ia = hp e ia := by
  rw [PmPoint.hphi, hp, sin_nu hS]

include hS in
theorem hs_pos (ia : Fin e.nang) : 0 < hs e ia := by
  have := sinh_mu hS
  have := hS.Rhalf
  exact mul_pos hS.Rhalf (Real.sqrt_pos.2 (by positivity))

include hS in
theorem hp_pos (ia : Fin e.nang) : 0 < hp e ia := by
  have := sinh_mu hS
  have := hS.Rhalf
  have := sin_pos hS ia
  unfold hp
  positivity

include hS in
theorem ir2_eq (ia : Fin e.nang) : (pmGeo e).ir2 ia = (hs e ia)⁻¹ * (hs e ia)⁻¹ := by
  simp only [pmGeo, hmu_eq hS]
  rw [if_pos (hs_pos hS ia), one_div, mul_inv]

include hS in
theorem ip2_eq (ia : Fin e.nang) : (pmGeo e).ip2 ia = (hp e ia)⁻¹ * (hp e ia)⁻¹ := by
  simp only [pmGeo, hphi_eq hS]
  rw [if_pos (hp_pos hS ia), one_div, mul_inv]

include hS in
theorem sc_eq (ia : Fin e.nang) : (pmGeo e).sc ia = hs e ia := hmu_eq hS ia

include hS in
theorem w_eq (φ : ℝ) (ia : Fin e.nang) : (pmGeo e).w ia = (Spec.pmPoint lm nrad y R φ e ia).w := by
  simp only [pmGeo, Spec.pmPoint, sin_nu hS]
  have : nu e ia = Real.arccos (e.cth ia) := rfl
  rw [← this]
  ring

include hS hy in
theorem pmDY_eq {l m : Int} (h : |m| ≤ l) (ia : Fin e.nang) : pmDY e.Y l m (e.cth ia) = deriv (y l m) (nu e ia) := by
  obtain ⟨h1, h2⟩ := hS.cth ia
  rw [(hy.ladder l m h (nu e ia) (nu_mem hS ia).1 (nu_mem hS ia).2).deriv]
  unfold pmDY
  simp only [sin_nu hS, if_pos (sin_pos hS ia), hS.Y l m h _ h1.le h2.le, cos_nu hS]
  by_cases hml : m < l
  · have h' : |m + 1| ≤ l := by rw [abs_le] at h ⊢; omega
    rw [if_pos hml, if_pos hml, hS.Y l (m + 1) h' _ h1.le h2.le]
    rfl
  · rw [if_neg hml, if_neg hml, add_zero]
    rfl

include hS hy in
theorem lap_eq {l m : Int} (h : |m| ≤ l) {j : Nat} (hj : j ≤ e.last - e.first) (ia : Fin e.nang) :
    e.Y l m (e.cth ia) * (pmGeo e).ir2 ia * e.radop l m j =
      (hs e ia ^ 2)⁻¹ * ((deriv (deriv (R (e.first + j))) e.mu + Real.cosh e.mu / Real.sinh e.mu * deriv (R (e.first + j)) e.mu) * y l m (nu e ia) +
        R (e.first + j) e.mu * (deriv (deriv (y l m)) (nu e ia) + Real.cos (nu e ia) / Real.sin (nu e ia) * deriv (y l m) (nu e ia))) -
        (hp e ia ^ 2)⁻¹ * (m ^ 2 * (R (e.first + j) e.mu * y l m (nu e ia))) := by
  obtain ⟨h1, h2⟩ := hS.cth ia
  have hY : e.Y l m (e.cth ia) = y l m (nu e ia) := hS.Y l m h _ h1.le h2.le
  rw [(hy.legendre l m h (nu e ia) (nu_mem hS ia).1 (nu_mem hS ia).2).deriv, ir2_eq hS, hY]
  unfold PmPoint.radop
  simp only [if_pos (sinh_mu hS), hS.f j hj, hS.df j hj, hS.d2f j hj]
  have hsin := (sin_pos hS ia).ne'
  have hsinh := (sinh_mu hS).ne'
  have hR := hS.Rhalf.ne'
  have hh : hs e ia ^ 2 = e.Rhalf ^ 2 * (Real.sinh e.mu ^ 2 + Real.sin (nu e ia) ^ 2) := by
    rw [hs, mul_pow, Real.sq_sqrt (by positivity)]
  have hh0 : (hs e ia)⁻¹ * (hs e ia)⁻¹ = (e.Rhalf ^ 2 * (Real.sinh e.mu ^ 2 + Real.sin (nu e ia) ^ 2))⁻¹ := by
    rw [← hh, pow_two, mul_inv]
  rw [hh0, hh, hp]
  have hpos : Real.sinh e.mu ^ 2 + Real.sin (nu e ia) ^ 2 ≠ 0 := by
    have := sq_pos_of_pos (sinh_mu hS)
    positivity
  generalize Real.cos (nu e ia) = cn at *
  generalize Real.sin (nu e ia) = sn at *
  generalize Real.sinh e.mu = sm at *
  generalize Real.cosh e.mu = cm at *
  generalize deriv (y l m) (nu e ia) = dy
  generalize y l m (nu e ia) = yy
  generalize deriv (deriv (R (e.first + j))) e.mu = r2
  generalize deriv (R (e.first + j)) e.mu = r1
  generalize R (e.first + j) e.mu = r0
  push_cast
  field_simp
  ring

variable (fl : Flags) (m : Int)

/-- the functions of a block -/
theorem block_idx : (pmBlock fl lm nrad e m).idx = Dia.bfListDummyM lm nrad e.first e.last m := rfl

include hS hang in
theorem row_abs (a : Fin (pmBlock fl lm nrad e m).idx.length) : |Spec.mOf lm nrad (pmBlock fl lm nrad e m).idx[a]| ≤ Spec.lOf lm nrad (pmBlock fl lm nrad e m).idx[a] :=
  hang _ (block_row lm nrad e.first e.last m hS.first hS.last a a.2).2.2.2

include hS hang in
theorem block_f : (pmBlock fl lm nrad e m).f = Matrix.of fun a ia => kF lm nrad y R e ia (pmBlock fl lm nrad e m).idx[a] := by
  funext a ia
  obtain ⟨h1, h2, h3, -⟩ := block_row lm nrad e.first e.last m hS.first hS.last a a.2
  have ha := row_abs hS hang fl m a
  have hc := hS.cth ia
  have hj : (a : Nat) % (e.last - e.first + 1) ≤ e.last - e.first := Nat.lt_succ_iff.1 (Nat.mod_lt _ (by omega))
  simp only [Matrix.of_apply, kF]
  have e1 : Spec.lOf lm nrad (pmBlock fl lm nrad e m).idx[a] = (pmShells lm m).getD (a / (e.last - e.first + 1)) 0 := h1
  have e2 : Spec.mOf lm nrad (pmBlock fl lm nrad e m).idx[a] = m := h2
  have e3 : (pmBlock fl lm nrad e m).idx[a] % nrad = e.first + a % (e.last - e.first + 1) := h3
  rw [e1, e2] at ha
  rw [e1, e2, e3, ← hS.f _ hj]
  have : nu e ia = Real.arccos (e.cth ia) := rfl
  rw [this, ← hS.Y _ _ ha _ hc.1.le hc.2.le, mul_comm]
  rfl

include hS hang in
theorem block_r (hd : (fl.grad || fl.tau || fl.lapl) = true) :
    (pmBlock fl lm nrad e m).dr = some (Matrix.of fun a ia => kR lm nrad y R e ia (pmBlock fl lm nrad e m).idx[a]) := by
  have : (pmBlock fl lm nrad e m).dr = some (Matrix.of fun (a : Fin (pmBlock fl lm nrad e m).idx.length) ia =>
      e.Y ((pmShells lm m).getD (a / e.nr) 0) m (e.cth ia) * e.df (a % e.nr)) := by
    simp only [pmBlock, hd, if_true]
    rfl
  rw [this]
  congr 2
  funext a ia
  obtain ⟨h1, h2, h3, -⟩ := block_row lm nrad e.first e.last m hS.first hS.last a a.2
  have ha := row_abs hS hang fl m a
  have hc := hS.cth ia
  have hj : (a : Nat) % (e.last - e.first + 1) ≤ e.last - e.first := Nat.lt_succ_iff.1 (Nat.mod_lt _ (by omega))
  simp only [kR]
  have e1 : Spec.lOf lm nrad (pmBlock fl lm nrad e m).idx[a] = (pmShells lm m).getD (a / (e.last - e.first + 1)) 0 := h1
  have e2 : Spec.mOf lm nrad (pmBlock fl lm nrad e m).idx[a] = m := h2
  have e3 : (pmBlock fl lm nrad e m).idx[a] % nrad = e.first + a % (e.last - e.first + 1) := h3
  rw [e1, e2] at ha
  rw [e1, e2, e3, ← hS.df _ hj]
  have : nu e ia = Real.arccos (e.cth ia) := rfl
  rw [this, ← hS.Y _ _ ha _ hc.1.le hc.2.le, mul_comm]
  rfl

include hS hang hy in
theorem block_t (hd : (fl.grad || fl.tau || fl.lapl) = true) :
    (pmBlock fl lm nrad e m).dth = some (Matrix.of fun a ia => kT lm nrad y R e ia (pmBlock fl lm nrad e m).idx[a]) := by
  have : (pmBlock fl lm nrad e m).dth = some (Matrix.of fun (a : Fin (pmBlock fl lm nrad e m).idx.length) ia =>
      pmDY e.Y ((pmShells lm m).getD (a / e.nr) 0) m (e.cth ia) * e.f (a % e.nr)) := by
    simp only [pmBlock, hd, if_true]
    rfl
  rw [this]
  congr 2
  funext a ia
  obtain ⟨h1, h2, h3, -⟩ := block_row lm nrad e.first e.last m hS.first hS.last a a.2
  have ha := row_abs hS hang fl m a
  have hj : (a : Nat) % (e.last - e.first + 1) ≤ e.last - e.first := Nat.lt_succ_iff.1 (Nat.mod_lt _ (by omega))
  simp only [kT]
  have e1 : Spec.lOf lm nrad (pmBlock fl lm nrad e m).idx[a] = (pmShells lm m).getD (a / (e.last - e.first + 1)) 0 := h1
  have e2 : Spec.mOf lm nrad (pmBlock fl lm nrad e m).idx[a] = m := h2
  have e3 : (pmBlock fl lm nrad e m).idx[a] % nrad = e.first + a % (e.last - e.first + 1) := h3
  rw [e1, e2] at ha
  rw [e1, e2, e3, ← hS.f _ hj, ← pmDY_eq hS hy ha ia, mul_comm]
  rfl

include hS hang hy in
theorem block_l (hd : fl.lapl = true) :
    (pmBlock fl lm nrad e m).lap = some (Matrix.of fun a ia => kL lm nrad y R e ia (pmBlock fl lm nrad e m).idx[a]) := by
  have : (pmBlock fl lm nrad e m).lap = some (Matrix.of fun (a : Fin (pmBlock fl lm nrad e m).idx.length) ia =>
      e.Y ((pmShells lm m).getD (a / e.nr) 0) m (e.cth ia) * (pmGeo e).ir2 ia * e.radop ((pmShells lm m).getD (a / e.nr) 0) m (a % e.nr)) := by
    simp only [pmBlock, hd, if_true]
    rfl
  rw [this]
  congr 2
  funext a ia
  obtain ⟨h1, h2, h3, -⟩ := block_row lm nrad e.first e.last m hS.first hS.last a a.2
  have ha := row_abs hS hang fl m a
  have hj : (a : Nat) % (e.last - e.first + 1) ≤ e.last - e.first := Nat.lt_succ_iff.1 (Nat.mod_lt _ (by omega))
  simp only [kL]
  have e1 : Spec.lOf lm nrad (pmBlock fl lm nrad e m).idx[a] = (pmShells lm m).getD (a / (e.last - e.first + 1)) 0 := h1
  have e2 : Spec.mOf lm nrad (pmBlock fl lm nrad e m).idx[a] = m := h2
  have e3 : (pmBlock fl lm nrad e m).idx[a] % nrad = e.first + a % (e.last - e.first + 1) := h3
  rw [e1, e2] at ha
  rw [e1, e2, e3, ← lap_eq hS hy ha hj ia]
  rfl

end block

end XC
end HelFEM
