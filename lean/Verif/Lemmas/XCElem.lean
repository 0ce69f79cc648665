import Verif.Lemmas.XCFunc

/-!
# One batch of points of the atomic and diatomic grids
-/

namespace HelFEM
namespace XC

open Matrix

variable {n N : Nat}

/-- the stored functions at a point, derivatives divided by the scale factors -/
noncomputable def vpoint (idx : List Nat) (V : Vals idx.length N) (g : Fin 3 → Matrix (Fin idx.length) (Fin N) ℂ) (l : Matrix (Fin idx.length) (Fin N) ℂ) (p : Fin N) : Spec.Point 3 :=
  ⟨idx, V.w p, fun a => V.f a p, fun c a => ((V.sc c p)⁻¹ : ℝ) * g c a p, fun a => l a p⟩

/-- the buffers are there when the flags ask for them -/
structure Ready (fl : Flags) (V : Vals n N) (g : Fin 3 → Matrix (Fin n) (Fin N) ℂ) (l : Matrix (Fin n) (Fin N) ℂ) : Prop where
  g : fl.grad = true → V.g = some g
  l : fl.lapl = true → V.lap = some l
  tl : fl.tau = true ∨ fl.lapl = true → fl.grad = true
  isc : ∀ c p, V.isc c p = ((V.sc c p) ^ 2)⁻¹

section forms
variable (idx : List Nat) (V : Vals idx.length N) (g : Fin 3 → Matrix (Fin idx.length) (Fin N) ℂ) (l : Matrix (Fin idx.length) (Fin N) ℂ) (D : Nat → Nat → ℝ) (p : Fin N)

theorem vrho_eq : Spec.rho D (vpoint idx V g l p) = lform (sub D idx) (fun i => V.f i p) fun i => V.f i p := rfl

theorem vgrad_eq (c : Fin 3) : Spec.grad D (vpoint idx V g l p) c =
    (lform (sub D idx) (fun i => g c i p) (fun i => V.f i p) + lform (sub D idx) (fun i => V.f i p) fun i => g c i p) / V.sc c p := by
  unfold Spec.grad vpoint
  have e1 := lform_smul (sub D idx) (V.sc c p)⁻¹ 1 (fun i => g c i p) fun i => V.f i p
  have e2 := lform_smul (sub D idx) 1 (V.sc c p)⁻¹ (fun i => V.f i p) fun i => g c i p
  simp only [Complex.ofReal_one, one_mul] at e1 e2
  simp only [← lform_sub] at *
  rw [e1, e2]
  ring

theorem vkin_eq : ∑ c, Spec.form D idx (fun a => ((V.sc c p)⁻¹ : ℝ) * g c a p) (fun a => ((V.sc c p)⁻¹ : ℝ) * g c a p) =
    ∑ c, lform (sub D idx) (fun i => g c i p) (fun i => g c i p) / V.sc c p ^ 2 := by
  refine Finset.sum_congr rfl fun c _ => ?_
  rw [← lform_sub, lform_smul]
  ring

theorem vtau_eq : Spec.tau D (vpoint idx V g l p) = 1 / 2 * ∑ c, lform (sub D idx) (fun i => g c i p) (fun i => g c i p) / V.sc c p ^ 2 := by
  rw [← vkin_eq]
  rfl

theorem vlapl_eq : Spec.lapl D (vpoint idx V g l p) = lform (sub D idx) (fun i => l i p) (fun i => V.f i p) +
    2 * ∑ c, lform (sub D idx) (fun i => g c i p) (fun i => g c i p) / V.sc c p ^ 2 + lform (sub D idx) (fun i => V.f i p) fun i => l i p := by
  rw [← vkin_eq]
  rfl

end forms

/-- symmetric on the functions `idx` -/
theorem sub_symm {m : Nat} {P : Mat ℝ} (hP : Spec.Symm m P) {idx : List Nat} (h : ∀ i ∈ idx, i < m) : (sub P.get idx)ᵀ = sub P.get idx := by
  ext a b
  exact hP.2.2 _ (h _ (List.getElem_mem _)) _ (h _ (List.getElem_mem _))

theorem lform_comm {P : Matrix (Fin n) (Fin n) ℝ} (h : Pᵀ = P) (u v : Fin n → ℂ) : lform P u v = lform P v u := by
  rw [← lform_transpose, h]

section density
variable {m : Nat} {P : Mat ℝ} (hP : Spec.Symm m P) {idx : List Nat} (hidx : ∀ i ∈ idx, i < m) {fl : Flags} {V : Vals idx.length N}
  {g : Fin 3 → Matrix (Fin idx.length) (Fin N) ℂ} {l : Matrix (Fin idx.length) (Fin N) ℂ} (hV : Ready fl V g l)
include hP hidx

theorem gradc_eq (c : Fin 3) (p : Fin N) : gradc (sub P.get idx) V g c p = Spec.grad P.get (vpoint idx V g l p) c := by
  rw [gradc, dens_eq, vgrad_eq, lform_comm (sub_symm hP hidx) (fun i => V.f i p)]
  ring

omit hP hidx in
theorem kinc_eq (D : Nat → Nat → ℝ) (p : Fin N) : kinc (sub D idx) V g p = ∑ c, lform (sub D idx) (fun i => g c i p) (fun i => g c i p) / V.sc c p ^ 2 := by
  simp only [kinc, dens_eq, Fin.sum_univ_three]

include hV in
theorem gradPart1_ok : ∃ gr, gradPart1 fl.grad (sub P.get idx) V = .ok gr ∧
    (fl.grad = true → gr = some (fun c p => Spec.grad P.get (vpoint idx V g l p) c, fun p => (Spec.input P.get (vpoint idx V g l p)).sigma)) := by
  unfold gradPart1
  by_cases hb : fl.grad = true
  · rw [if_pos hb, hV.g hb]
    refine ⟨_, rfl, fun _ => ?_⟩
    simp only [Spec.input, Fin.sum_univ_three]
    congr 2
    · funext c p; exact gradc_eq hP hidx c p
    · funext p
      simp only [gradc_eq (l := l) hP hidx]
  · rw [if_neg hb]
    exact ⟨_, rfl, fun h => absurd h hb⟩

omit hP hidx in
include hV in
theorem tauPart_ok (D : Nat → Nat → ℝ) (b : Bool) (hb : b = true → fl.grad = true) : ∃ ta, tauPart b (sub D idx) V = .ok ta ∧
    (b = true → ta = some fun p => Spec.tau D (vpoint idx V g l p)) := by
  unfold tauPart
  by_cases h : b = true
  · rw [if_pos h, hV.g (hb h)]
    refine ⟨_, rfl, fun _ => ?_⟩
    congr 1
    funext p
    rw [kinc_eq, vtau_eq]
    norm_num
  · rw [if_neg h]
    exact ⟨_, rfl, fun h' => absurd h' h⟩

include hV in
theorem laplPart_ok : ∃ la, laplPart fl.lapl (sub P.get idx) V = .ok la ∧ (fl.lapl = true → la = some fun p => Spec.lapl P.get (vpoint idx V g l p)) := by
  unfold laplPart
  by_cases h : fl.lapl = true
  · rw [if_pos h, hV.g (hV.tl (Or.inr h)), hV.l h]
    refine ⟨_, rfl, fun _ => ?_⟩
    congr 1
    funext p
    rw [kinc_eq, vlapl_eq, dens_eq, lform_comm (sub_symm hP hidx) (fun i => V.f i p)]
    ring
  · rw [if_neg h]
    exact ⟨_, rfl, fun h' => absurd h' h⟩

omit hidx in
theorem symm_pos (hm : 0 < m) : ¬ P.rows * P.cols = 0 := by
  rw [hP.1, hP.2.1]
  exact Nat.mul_ne_zero hm.ne' hm.ne'

include hV in
theorem atomDensity1_ok (hm : 0 < m) : ∃ q, atomDensity1 fl P idx V = .ok q ∧ HoldsQ fl q (fun p => Spec.input P.get (vpoint idx V g l p)) ∧
    (fl.grad = true → q.grho = some fun c p => Spec.grad P.get (vpoint idx V g l p) c) := by
  obtain ⟨gr, h1, h1'⟩ := gradPart1_ok hP hidx hV
  obtain ⟨ta, h2, h2'⟩ := tauPart_ok hV P.get (fl.tau || fl.lapl) fun h => hV.tl (by simpa using h)
  obtain ⟨la, h3, h3'⟩ := laplPart_ok hP hidx hV
  unfold atomDensity1
  rw [if_neg (symm_pos hP hm), gatherMat_ok P idx hP.1 hP.2.1 hidx, Res.ok_bind, h1, Res.ok_bind, h2, Res.ok_bind, h3, Res.ok_bind]
  refine ⟨_, rfl, ⟨?_, ?_, ?_, h3'⟩, ?_⟩
  · funext p
    exact dens_eq _ _ _ _
  · intro h; rw [h1' h]; rfl
  · intro h; exact h2' (by simp [h])
  · intro h; rw [h1' h]; rfl

include hV in
theorem diaDensity1_ok (hm : 0 < m) (hl : fl.lapl = false) : ∃ q, diaDensity1 fl P idx V = .ok q ∧ HoldsQ fl q (fun p => Spec.input P.get (vpoint idx V g l p)) ∧
    (fl.grad = true → q.grho = some fun c p => Spec.grad P.get (vpoint idx V g l p) c) := by
  obtain ⟨gr, h1, h1'⟩ := gradPart1_ok hP hidx hV
  obtain ⟨ta, h2, h2'⟩ := tauPart_ok hV P.get fl.tau fun h => hV.tl (Or.inl h)
  unfold diaDensity1
  rw [if_neg (symm_pos hP hm), gatherMat_ok P idx hP.1 hP.2.1 hidx, Res.ok_bind, h1, Res.ok_bind, h2, Res.ok_bind, if_neg (by simp [hl])]
  refine ⟨_, rfl, ⟨?_, ?_, h2', ?_⟩, ?_⟩
  · funext p
    exact dens_eq _ _ _ _
  · intro h; rw [h1' h]; rfl
  · intro h; rw [hl] at h; exact absurd h (by simp)
  · intro h; rw [h1' h]; rfl

end density

/-! ### The increments as contractions -/

section steps
variable {idx : List Nat} {fl : Flags} {V : Vals idx.length N} {g : Fin 3 → Matrix (Fin idx.length) (Fin N) ℂ} {l : Matrix (Fin idx.length) (Fin N) ℂ} (hV : Ready fl V g l)
include hV

theorem ggaStep_ok (b : Bool) (hb : b = true → fl.grad = true) (gn : Res (Fin N → Fin 3 → ℝ)) (s : Fin N → Fin 3 → ℝ)
    (hs : b = true → gn = .ok fun p c => s p c / V.sc c p) (hz : b = false → ∀ p c, s p c = 0) (H : Matrix (Fin idx.length) (Fin idx.length) ℝ) :
    ∃ H', ggaStep b V gn H = .ok H' ∧ ∀ D : Nat → Nat → ℝ, pair H' (sub D idx) = pair H (sub D idx) + ∑ p, ∑ c, s p c * Spec.grad D (vpoint idx V g l p) c := by
  unfold ggaStep
  rcases b with _ | _
  · refine ⟨H, rfl, fun D => ?_⟩
    simp [hz rfl]
  · rw [if_pos rfl, hs rfl, hV.g (hb rfl)]
    refine ⟨_, rfl, fun D => ?_⟩
    rw [pair_ggaSplit]
    congr 1
    refine Finset.sum_congr rfl fun p _ => Finset.sum_congr rfl fun c _ => ?_
    rw [vgrad_eq]
    ring

theorem kinSum (v : Fin N → ℝ) (D : Nat → Nat → ℝ) :
    ((∑ p, v p * V.isc 0 p * lform (sub D idx) (fun i => g 0 i p) (fun i => g 0 i p)) + ∑ p, v p * V.isc 1 p * lform (sub D idx) (fun i => g 1 i p) (fun i => g 1 i p)) +
      (∑ p, v p * V.isc 2 p * lform (sub D idx) (fun i => g 2 i p) (fun i => g 2 i p)) =
    ∑ p, v p * ∑ c, lform (sub D idx) (fun i => g c i p) (fun i => g c i p) / V.sc c p ^ 2 := by
  rw [← Finset.sum_add_distrib, ← Finset.sum_add_distrib]
  refine Finset.sum_congr rfl fun p _ => ?_
  rw [Fin.sum_univ_three]
  simp only [hV.isc]
  ring

theorem kinStep_ok (b : Bool) (hb : b = true → fl.grad = true) (vtl : Res (Fin N → ℝ)) (v : Fin N → ℝ) (hv : b = true → vtl = .ok v) (hz : b = false → ∀ p, v p = 0)
    (H : Matrix (Fin idx.length) (Fin idx.length) ℝ) : ∃ H', kinStep b V vtl H = .ok H' ∧
      ∀ D : Nat → Nat → ℝ, pair H' (sub D idx) = pair H (sub D idx) + ∑ p, v p * ∑ c, lform (sub D idx) (fun i => g c i p) (fun i => g c i p) / V.sc c p ^ 2 := by
  unfold kinStep
  rcases b with _ | _
  · refine ⟨H, rfl, fun D => ?_⟩
    simp [hz rfl]
  · rw [if_pos rfl, hv rfl, hV.g (hb rfl)]
    refine ⟨_, rfl, fun D => ?_⟩
    rw [pair_ldaSplit, pair_ldaSplit, pair_ldaSplit, ← kinSum hV]
    ring

theorem kinStepC_ok (b : Bool) (hb : b = true → fl.grad = true) (vtl : Res (Fin N → ℝ)) (v : Fin N → ℝ) (hv : b = true → vtl = .ok v) (hz : b = false → ∀ p, v p = 0)
    (H : Matrix (Fin idx.length) (Fin idx.length) ℝ) : ∃ H', kinStepC b V vtl H = .ok H' ∧
      ∀ D : Nat → Nat → ℝ, pair H' (sub D idx) = pair H (sub D idx) + ∑ p, v p * ∑ c, lform (sub D idx) (fun i => g c i p) (fun i => g c i p) / V.sc c p ^ 2 := by
  unfold kinStepC
  rcases b with _ | _
  · refine ⟨H, rfl, fun D => ?_⟩
    simp [hz rfl]
  · rw [if_pos rfl, hv rfl, hV.g (hb rfl)]
    refine ⟨_, rfl, fun D => ?_⟩
    rw [pair_ldaC, pair_ldaC, pair_ldaC, ← kinSum hV]
    ring

theorem laplStep_ok (b : Bool) (hb : b = true → fl.lapl = true) (o : Buf N) (v : Fin N → ℝ) (hv : b = true → o = some v) (hz : b = false → ∀ p, v p = 0)
    (H : Matrix (Fin idx.length) (Fin idx.length) ℝ) : ∃ H', laplStep b V o H = .ok H' ∧
      ∀ D : Nat → Nat → ℝ, pair H' (sub D idx) = pair H (sub D idx) +
        ∑ p, v p * V.w p * (lform (sub D idx) (fun i => l i p) (fun i => V.f i p) + lform (sub D idx) (fun i => V.f i p) fun i => l i p) := by
  unfold laplStep
  rcases b with _ | _
  · refine ⟨H, rfl, fun D => ?_⟩
    simp [hz rfl]
  · rw [if_pos rfl, hv rfl, hV.l (hb rfl)]
    refine ⟨_, rfl, fun D => ?_⟩
    rw [pair_laplSplit]

end steps

theorem vtlWeights_ok (w : Fin N → ℝ) (t l : Bool) (vtau vlapl : Buf N) (vt vl : Fin N → ℝ) (ht : t = true → vtau = some vt) (hl : l = true → vlapl = some vl) (ht0 : t = false → ∀ p, vt p = 0)
    (hl0 : l = false → ∀ p, vl p = 0) : vtlWeights w t l vtau vlapl = .ok fun p => (1 / 2 * vt p + 2 * vl p) * w p := by
  unfold vtlWeights
  rw [needIf_ok ht, Res.ok_bind, needIf_ok hl, Res.ok_bind]
  congr 1
  funext p
  have e1 : (if t = true then 0.5 * (if t = true then vt p else 0) else 0) = 1 / 2 * vt p := by
    rcases t with _ | _
    · simp [ht0 rfl]
    · norm_num
  have e2 : (if l = true then 2 * (if l = true then vl p else 0) else 0) = 2 * vl p := by
    rcases l with _ | _
    · simp [hl0 rfl]
    · norm_num
  rw [e1, e2]

/-- what the potential matrix contracted with `D` has to be -/
noncomputable def elemDeriv (O : Fin N → Out1) (x : Fin N → Spec.Point 3) (P D : Nat → Nat → ℝ) : ℝ :=
  ∑ p, (x p).w * ((O p).vrho * Spec.rho D (x p) + (O p).vsigma * (2 * ∑ c, Spec.grad P (x p) c * Spec.grad D (x p) c) + (O p).vlapl * Spec.lapl D (x p) + (O p).vtau * Spec.tau D (x p))

section fock
variable {idx : List Nat} {fl : Flags} {V : Vals idx.length N} {g : Fin 3 → Matrix (Fin idx.length) (Fin N) ℂ} {l : Matrix (Fin idx.length) (Fin N) ℂ} (hV : Ready fl V g l)
  {u : Spec.Uses} (hcov : Covers fl u) {q : Dens1 3 N} {P : Nat → Nat → ℝ} (hg : fl.grad = true → q.grho = some fun c p => Spec.grad P (vpoint idx V g l p) c)
  {a : Acc1 N} {O : Fin N → Out1} (ha : Holds fl a O u)
include hV hcov hg ha

theorem ggaPart1 (H : Matrix (Fin idx.length) (Fin idx.length) ℝ) : ∃ H', ggaStep a.gga V (ggaWeights1 V q a) H = .ok H' ∧ ∀ D : Nat → Nat → ℝ,
    pair H' (sub D idx) = pair H (sub D idx) + ∑ p, ∑ c, (2 * V.w p * (O p).vsigma * Spec.grad P (vpoint idx V g l p) c) * Spec.grad D (vpoint idx V g l p) c := by
  obtain ⟨a1, a2, a3, a4, a5, a6, a7, a8, a9, a10, a11⟩ := ha
  rw [a6]
  refine ggaStep_ok hV _ hcov.1 _ (fun p c => 2 * V.w p * (O p).vsigma * Spec.grad P (vpoint idx V g l p) c) ?_ ?_ H
  · intro h
    unfold ggaWeights1
    rw [a3 (hcov.1 h), hg (hcov.1 h)]
    simp only [need, Res.ok_bind]
    congr 1
    funext p c
    ring
  · intro h p c
    rw [a9 h]
    ring

theorem atomFxc1_ok (hu : u.tau = true ∨ u.lapl = true → u.grad = true) : ∃ H, atomFxc1 V q a = .ok H ∧ ∀ D : Nat → Nat → ℝ, pair H (sub D idx) = elemDeriv O (vpoint idx V g l) P D := by
  obtain ⟨H1, h1, e1⟩ := ggaPart1 hV hcov hg ha (incLdaSplit 0 (fun p => a.vxc p * V.w p) (re V.f) (im V.f))
  obtain ⟨a1, a2, a3, a4, a5, a6, a7, a8, a9, a10, a11⟩ := ha
  have hw := vtlWeights_ok V.w a.t a.l a.vtau a.vlapl (fun p => (O p).vtau) (fun p => (O p).vlapl) (fun h => a4 (hcov.2.1 (a7 ▸ h))) (fun h => a5 (hcov.2.2 (a8 ▸ h)))
    (fun h => a10 (a7 ▸ h)) (fun h => a11 (a8 ▸ h))
  obtain ⟨H2, h2, e2⟩ := kinStep_ok hV (a.t || a.l) (fun h => hcov.1 (hu (by rw [a7, a8] at h; simpa using h))) _ _ (fun _ => hw)
    (fun h p => by
      rw [Bool.or_eq_false_iff, a7, a8] at h
      rw [a10 h.1, a11 h.2]; ring) H1
  obtain ⟨H3, h3, e3⟩ := laplStep_ok hV a.l (fun h => hcov.2.2 (a8 ▸ h)) a.vlapl (fun p => (O p).vlapl) (fun h => a5 (hcov.2.2 (a8 ▸ h))) (fun h => a11 (a8 ▸ h)) H2
  refine ⟨H3, ?_, fun D => ?_⟩
  · unfold atomFxc1
    rw [h1, Res.ok_bind, h2, Res.ok_bind, h3]
  · rw [e3, e2, e1, pair_ldaSplit, pair_zero, zero_add, a2, ← Finset.sum_add_distrib, ← Finset.sum_add_distrib, ← Finset.sum_add_distrib, elemDeriv]
    refine Finset.sum_congr rfl fun p _ => ?_
    rw [vrho_eq, vlapl_eq, vtau_eq, Finset.mul_sum, Finset.mul_sum]
    have : ∀ c, 2 * V.w p * (O p).vsigma * Spec.grad P (vpoint idx V g l p) c * Spec.grad D (vpoint idx V g l p) c =
        V.w p * (O p).vsigma * (2 * (Spec.grad P (vpoint idx V g l p) c * Spec.grad D (vpoint idx V g l p) c)) := by intro c; ring
    simp only [this, ← Finset.mul_sum]
    have hw' : (vpoint idx V g l p).w = V.w p := rfl
    rw [hw']
    ring

theorem diaFxc1_ok (hu : u.tau = true ∨ u.lapl = true → u.grad = true) (hl : u.lapl = false) : ∃ H, diaFxc1 V q a = .ok H ∧
    ∀ D : Nat → Nat → ℝ, pair H (sub D idx) = elemDeriv O (vpoint idx V g l) P D := by
  obtain ⟨H1, h1, e1⟩ := ggaPart1 hV hcov hg ha (incLdaSplit 0 (fun p => a.vxc p * V.w p) (re V.f) (im V.f))
  obtain ⟨a1, a2, a3, a4, a5, a6, a7, a8, a9, a10, a11⟩ := ha
  obtain ⟨H2, h2, e2⟩ := kinStep_ok hV a.t (fun h => hcov.1 (hu (Or.inl (a7 ▸ h)))) (vtWeights V.w a.vtau) (fun p => (O p).vtau * V.w p * 0.5)
    (fun h => by rw [vtWeights, a4 (hcov.2.1 (a7 ▸ h))]; rfl)
    (fun h p => by rw [a10 (a7 ▸ h)]; ring) H1
  refine ⟨H2, ?_, fun D => ?_⟩
  · unfold diaFxc1
    rw [h1, Res.ok_bind, h2, Res.ok_bind, if_neg]
    rw [a8, hl]
    simp
  · rw [e2, e1, pair_ldaSplit, pair_zero, zero_add, a2, ← Finset.sum_add_distrib, ← Finset.sum_add_distrib, elemDeriv]
    refine Finset.sum_congr rfl fun p _ => ?_
    rw [vrho_eq, vtau_eq, a11 hl, zero_mul, Finset.mul_sum]
    have : ∀ c, 2 * V.w p * (O p).vsigma * Spec.grad P (vpoint idx V g l p) c * Spec.grad D (vpoint idx V g l p) c =
        V.w p * (O p).vsigma * (2 * (Spec.grad P (vpoint idx V g l p) c * Spec.grad D (vpoint idx V g l p) c)) := by intro c; ring
    simp only [this, ← Finset.mul_sum]
    have hw' : (vpoint idx V g l p).w = V.w p := rfl
    rw [hw']
    ring

end fock

/-! ### Derivatives along a line -/

theorem form_line (P D : Nat → Nat → ℝ) (idx : List Nat) (t : ℝ) (u v : Fin idx.length → ℂ) :
    Spec.form (fun i j => P i j + t * D i j) idx u v = Spec.form P idx u v + t * Spec.form D idx u v := by
  simp only [Spec.form, Finset.mul_sum, ← Finset.sum_add_distrib]
  refine Finset.sum_congr rfl fun i _ => Finset.sum_congr rfl fun j _ => ?_
  ring

theorem hasDerivAt_form (P D : Nat → Nat → ℝ) (idx : List Nat) (u v : Fin idx.length → ℂ) :
    HasDerivAt (fun t : ℝ => Spec.form (fun i j => P i j + t * D i j) idx u v) (Spec.form D idx u v) 0 := by
  simp only [form_line]
  simpa using (((hasDerivAt_id (0 : ℝ)).mul_const (Spec.form D idx u v)).const_add (Spec.form P idx u v))

section line
variable {d : Nat} (P D : Nat → Nat → ℝ) (x : Spec.Point d)

theorem hasDerivAt_rho : HasDerivAt (fun t : ℝ => Spec.rho (fun i j => P i j + t * D i j) x) (Spec.rho D x) 0 := hasDerivAt_form P D _ _ _

theorem hasDerivAt_grad (c : Fin d) : HasDerivAt (fun t : ℝ => Spec.grad (fun i j => P i j + t * D i j) x c) (Spec.grad D x c) 0 :=
  (hasDerivAt_form P D _ _ _).add (hasDerivAt_form P D _ _ _)

theorem hasDerivAt_tau : HasDerivAt (fun t : ℝ => Spec.tau (fun i j => P i j + t * D i j) x) (Spec.tau D x) 0 :=
  (HasDerivAt.fun_sum fun c _ => hasDerivAt_form P D _ _ _).const_mul (1 / 2 : ℝ)

theorem hasDerivAt_lapl : HasDerivAt (fun t : ℝ => Spec.lapl (fun i j => P i j + t * D i j) x) (Spec.lapl D x) 0 :=
  ((hasDerivAt_form P D _ _ _).add ((HasDerivAt.fun_sum fun c _ => hasDerivAt_form P D _ _ _).const_mul (2 : ℝ))).add (hasDerivAt_form P D _ _ _)

theorem line_zero : (fun i j => P i j + (0 : ℝ) * D i j) = P := by funext i j; ring

theorem hasDerivAt_dot (A B A' B' : Nat → Nat → ℝ) : HasDerivAt (fun t : ℝ => ∑ c, Spec.grad (fun i j => A i j + t * A' i j) x c * Spec.grad (fun i j => B i j + t * B' i j) x c)
    (∑ c, (Spec.grad A' x c * Spec.grad B x c + Spec.grad A x c * Spec.grad B' x c)) 0 := by
  refine HasDerivAt.fun_sum fun c _ => ?_
  refine ((hasDerivAt_grad A A' x c).mul (hasDerivAt_grad B B' x c)).congr_deriv ?_
  rw [line_zero, line_zero]

theorem hasDerivAt_sigma : HasDerivAt (fun t : ℝ => (Spec.input (fun i j => P i j + t * D i j) x).sigma) (2 * ∑ c, Spec.grad P x c * Spec.grad D x c) 0 := by
  refine (hasDerivAt_dot x P P D D).congr_deriv ?_
  rw [Finset.mul_sum]
  exact Finset.sum_congr rfl fun c _ => by ring

end line

/-- the derivative of the energy of a batch of points -/
theorem elem_deriv (env : Libxc) {x c : Int} {xp cp : List ℝ} {thr : ℝ} (pts : Fin N → Spec.Point 3) (P D : Nat → Nat → ℝ)
    (h : ∀ p, Spec.Consistent env x xp thr (Spec.input P (pts p)) ∧ Spec.Consistent env c cp thr (Spec.input P (pts p))) :
    HasDerivAt (fun t : ℝ => ∑ p, (pts p).w * (Spec.rho (fun i j => P i j + t * D i j) (pts p) *
      (Spec.exc env x xp thr (Spec.input (fun i j => P i j + t * D i j) (pts p)) + Spec.exc env c cp thr (Spec.input (fun i j => P i j + t * D i j) (pts p)))))
      (elemDeriv (fun p => outBoth env x c xp cp thr (Spec.input P (pts p))) pts P D) 0 := by
  refine HasDerivAt.fun_sum fun p _ => ?_
  refine HasDerivAt.const_mul _ ?_
  have h0 : Spec.input (fun i j => P i j + (0 : ℝ) * D i j) (pts p) = Spec.input P (pts p) := by rw [line_zero]
  have := deriv_both env (X := fun t => Spec.input (fun i j => P i j + t * D i j) (pts p)) (t0 := 0) (by simp only [h0]; exact (h p).1) (by simp only [h0]; exact (h p).2)
    (hasDerivAt_rho P D (pts p)) (hasDerivAt_sigma P D (pts p)) (hasDerivAt_lapl P D (pts p)) (hasDerivAt_tau P D (pts p))
  simp only [h0] at this
  exact this

end XC
end HelFEM
