import Verif.Lemmas.OneElectronKin
import Verif.Props.Couplings

/-!
# Lemmas for C70: matrices of potentials
-/

namespace HelFEM
namespace OneE

open Polynomial Finset Harm MeasureTheory

theorem foldl_max_ge (r : List (Nat × Int)) (a : Nat) : a ≤ r.foldl (fun a q => max a q.1) a ∧ ∀ q ∈ r, q.1 ≤ r.foldl (fun a q => max a q.1) a := by
  induction r generalizing a with
  | nil => simp
  | cons q r ih =>
    obtain ⟨h1, h2⟩ := ih (max a q.1)
    simp only [List.foldl_cons, List.mem_cons, forall_eq_or_imp]
    exact ⟨by omega, by omega, h2⟩

theorem lm_mem (A : Atom) {i : Nat} (hi : i < A.nang) : A.lm.getD i (0, 0) ∈ A.lm := by
  rw [List.getD_eq_getElem?_getD, List.getElem?_eq_getElem hi]
  exact List.getElem_mem hi

theorem l_le_lmax (A : Atom) {g : Nat} (h : A.lmax = .ok g) {i : Nat} (hi : i < A.nang) : A.l i ≤ g := by
  have hm := lm_mem A hi
  unfold Atom.l
  unfold Atom.lmax at h
  rcases hA : A.lm with _ | ⟨p, r⟩
  · rw [hA] at h; simp at h
  · rw [hA] at h hm
    simp only [Res.ok.injEq] at h
    obtain ⟨h1, h2⟩ := foldl_max_ge r p.1
    rw [← h]
    rcases List.mem_cons.1 hm with h | h
    · rw [h]; exact h1
    · exact h2 _ h

theorem l_le_gmax (A : Atom) {g : Nat} (h : A.gmax = .ok g) {i : Nat} (hi : i < A.nang) : A.l i ≤ g := by
  have hm := lm_mem A hi
  unfold Atom.l
  unfold Atom.gmax at h
  rcases hA : A.lm with _ | ⟨p, r⟩
  · rw [hA] at h; simp at h
  · rw [hA] at h hm
    simp only [Res.ok.injEq] at h
    obtain ⟨h1, h2⟩ := foldl_max_ge r p.1
    have : (List.getD (p :: r) i (0, 0)).1 ≤ r.foldl (fun a q => max a q.1) p.1 := by
      rcases List.mem_cons.1 hm with h | h
      · rw [h]; exact h1
      · exact h2 _ h
    omega

theorem lm_inj (A : Atom) (hnd : A.lm.Nodup) {i j : Nat} (hi : i < A.nang) (hj : j < A.nang) : (A.l i = A.l j ∧ A.m i = A.m j) ↔ i = j := by
  constructor
  · rintro ⟨h1, h2⟩
    have : A.lm.getD i (0, 0) = A.lm.getD j (0, 0) := Prod.ext h1 h2
    rw [List.getD_eq_getElem?_getD, List.getElem?_eq_getElem hi, List.getD_eq_getElem?_getD, List.getElem?_eq_getElem hj] at this
    exact (hnd.getElem_inj_iff).1 this
  · rintro rfl
    exact ⟨rfl, rfl⟩

/-- harmonics are orthonormal -/
theorem sphere_orth (l : Nat) (m : Int) (l' : Nat) (m' : Int) (h : m.natAbs ≤ l) (h' : m'.natAbs ≤ l') (z : ℝ) :
    Harm.Spec.sphere (fun c p => (starRingEnd ℂ) (sph l m c p) * (z : ℝ) * sph l' m' c p) = ((if l = l' ∧ m = m' then z else 0 : ℝ) : ℂ) := by
  rw [sphere_pair l m l' m' (fun _ => z)]
  congr 1
  by_cases hm : m = m'
  · subst hm
    rw [if_pos rfl]
    have e : ∫ c in (-1 : ℝ)..1, yx l m c * z * yx l' m c = z * ∫ c in (-1 : ℝ)..1, yx l m c * yx l' m c := by
      rw [← intervalIntegral.integral_const_mul]
      refine intervalIntegral.integral_congr fun c _ => ?_
      beta_reduce
      ring
    rw [e, yx_orth l l' m h h']
    have := Real.pi_ne_zero
    by_cases hl : l = l'
    · rw [if_pos hl, if_pos ⟨hl, rfl⟩]
      field_simp
    · rw [if_neg hl, if_neg fun h => hl h.1]
      simp
  · rw [if_neg hm, if_neg fun h => hm h.2]

theorem sphere_swap (l : Nat) (m : Int) (l' : Nat) (m' : Int) (g : ℝ → ℝ) :
    Harm.Spec.sphere (fun c p => (starRingEnd ℂ) (sph l m c p) * (g c : ℝ) * sph l' m' c p) = Harm.Spec.sphere (fun c p => (starRingEnd ℂ) (sph l' m' c p) * (g c : ℝ) * sph l m c p) := by
  rw [sphere_pair, sphere_pair]
  congr 1
  by_cases h : m = m'
  · subst h
    simp only [if_true]
    congr 2
    funext c
    ring
  · rw [if_neg h, if_neg (Ne.symm h)]

/-- a potential that is a product -/
theorem potential_sep {A : Atom} {φ : Nat → Nat → ℝ[X]} (hF : Spec.Functions A.rad φ) (v f : ℝ → ℝ) (i a j b : Nat) (z : ℝ)
    (hz : (z : ℂ) = Harm.Spec.sphere (fun c p => (starRingEnd ℂ) (sph (A.l i) (A.m i) c p) * (f c : ℝ) * sph (A.l j) (A.m j) c p)) :
    Spec.potential A φ (fun r c => v r * f c) i a j b =
      ((z * ∑ e ∈ range A.rad.nel, ∫ r in (A.rad.bnd e)..(A.rad.bnd (e + 1)), (φ e a).eval r / r * ((φ e b).eval r / r) * (r ^ 2 * v r) : ℝ) : ℂ) := by
  rw [potential_eq hF _ i a j b (fun _ r => z * v r) 0]
  · rw [mul_sum]
    congr 1
    refine sum_congr rfl fun e _ => ?_
    rw [← intervalIntegral.integral_const_mul]
    refine intervalIntegral.integral_congr fun r _ => ?_
    beta_reduce
    ring
  · intro e _ r _ _ _
    have : (fun c p => (starRingEnd ℂ) (sph (A.l i) (A.m i) c p) * ((v r * f c : ℝ) : ℂ) * sph (A.l j) (A.m j) c p) =
        fun c p => ((v r : ℝ) : ℂ) * ((starRingEnd ℂ) (sph (A.l i) (A.m i) c p) * (f c : ℝ) * sph (A.l j) (A.m j) c p) := by
      funext c p
      push_cast
      ring
    rw [this, sphere_const_mul, ← hz]
    push_cast
    ring

/-- only the points inside the elements matter -/
theorem radial_congr {R : Radial} {φ : Nat → Nat → ℝ[X]} (hF : Spec.Functions R φ) (f g : Nat → ℝ → ℝ) (h : ∀ e < R.nel, ∀ r, R.bnd e < r → r ≤ R.bnd (e + 1) → 0 < r → f e r = g e r) :
    ∑ e ∈ range R.nel, ∫ r in (R.bnd e)..(R.bnd (e + 1)), f e r = ∑ e ∈ range R.nel, ∫ r in (R.bnd e)..(R.bnd (e + 1)), g e r := by
  refine sum_congr rfl fun e he => ?_
  rw [mem_range] at he
  refine intervalIntegral.integral_congr_ae (Filter.Eventually.of_forall fun r hr => ?_)
  rw [Set.uIoc_of_le (hF.inc e he).le] at hr
  exact h e he r hr.1 hr.2 (lt_of_le_of_lt (bnd_nonneg hF e he.le).1 hr.1)

/-- integrability on one element -/
theorem elem_int {R : Radial} {φ : Nat → Nat → ℝ[X]} (hF : Spec.Functions R φ) {e : Nat} (he : e < R.nel) (a b : Nat) (w : ℝ → ℝ) (hw : ContinuousOn w (Set.Icc (R.bnd e) (R.bnd (e + 1)))) :
    IntervalIntegrable (fun r => (φ e a).eval r / r * ((φ e b).eval r / r) * w r) volume (R.bnd e) (R.bnd (e + 1)) := by
  have hab := hF.inc e he
  rcases Nat.eq_zero_or_pos e with rfl | hpos
  · have h0 := hF.left
    rw [hF.origin] at h0 hw hab ⊢
    obtain ⟨u, hu⟩ : X ∣ φ 0 a := by rw [X_dvd_iff, coeff_zero_eq_eval_zero, h0]
    obtain ⟨v, hv⟩ : X ∣ φ 0 b := by rw [X_dvd_iff, coeff_zero_eq_eval_zero, h0]
    have hi : IntervalIntegrable (fun r => (u * v).eval r * w r) volume 0 (R.bnd (0 + 1)) := by
      refine ContinuousOn.intervalIntegrable ?_
      rw [Set.uIcc_of_le hab.le]
      exact (Polynomial.continuous _).continuousOn.mul hw
    refine hi.congr fun r hr => ?_
    rw [Set.uIoc_of_le hab.le] at hr
    have := hr.1.ne'
    simp only [hu, hv, eval_mul, eval_X]
    field_simp
  · have hp := (bnd_nonneg hF e he.le).2 hpos
    refine ContinuousOn.intervalIntegrable ?_
    rw [Set.uIcc_of_le hab.le]
    have hne : ∀ r ∈ Set.Icc (R.bnd e) (R.bnd (e + 1)), r ≠ 0 := fun r hr => (hp.trans_le hr.1).ne'
    have ca := Polynomial.continuous (φ e a)
    have cb := Polynomial.continuous (φ e b)
    exact ((ContinuousOn.div ca.continuousOn continuousOn_id hne).mul (ContinuousOn.div cb.continuousOn continuousOn_id hne)).mul hw

/-! ### Outer charges -/

theorem offTerms_ent (A : Atom) (T : Gaunt.Table ℝ) (aux : List (Mat ℝ)) (i j : Nat) (hi : i < A.nang) (hj : j < A.nang) (cpl : Nat → ℝ) (W : Nat → Mat ℝ) (Ls : List Nat)
    (hT : ∀ L ∈ Ls, T.coeff (A.l i) (A.m i) L 0 (A.l j) = .ok (cpl L)) (ha : ∀ L ∈ Ls, aux[L]? = some (W L)) (hr : ∀ L, (W L).rows = A.rad.nbf) (hc : ∀ L, (W L).cols = A.rad.nbf)
    (V : Mat ℝ) (h1 : V.rows = A.nang * A.rad.nbf) (h2 : V.cols = A.nang * A.rad.nbf) :
    ∃ V', Ls.foldlM (A.offTerm T aux i j) V = .ok V' ∧ V'.rows = A.nang * A.rad.nbf ∧ V'.cols = A.nang * A.rad.nbf ∧
      ∀ i' a j' b, a < A.rad.nbf → b < A.rad.nbf → ent A.rad.nbf A.rad.nbf V' i' a j' b =
        if (i', j') = (i, j) then ent A.rad.nbf A.rad.nbf V i' a j' b + (Ls.map fun L => cpl L * ((-1) ^ L * A.Zl + A.Zr) * (W L).get a b).sum else ent A.rad.nbf A.rad.nbf V i' a j' b := by
  induction Ls generalizing V with
  | nil => exact ⟨V, rfl, h1, h2, fun i' a j' b _ _ => by simp⟩
  | cons L Ls ih =>
    have hsign : ∀ L : Nat, (if L % 2 = 1 then (-1 : ℝ) else 1) = (-1) ^ L := by
      intro L
      split_ifs with h
      · rw [Odd.neg_one_pow (Nat.odd_iff.2 h)]
      · rw [Even.neg_one_pow (Nat.even_iff.2 (by omega))]
    have step : ∃ V1, A.offTerm T aux i j V L = .ok V1 ∧ V1.rows = A.nang * A.rad.nbf ∧ V1.cols = A.nang * A.rad.nbf ∧ ∀ i' a j' b, a < A.rad.nbf → b < A.rad.nbf → ent A.rad.nbf A.rad.nbf V1 i' a j' b =
        if i' = i ∧ j' = j then ent A.rad.nbf A.rad.nbf V i' a j' b + cpl L * ((-1) ^ L * A.Zl + A.Zr) * (W L).get a b else ent A.rad.nbf A.rad.nbf V i' a j' b := by
      unfold Atom.offTerm
      rw [hT L (by simp), Res.ok_bind, ha L (by simp), hsign]
      by_cases h0 : cpl L = 0
      · rw [if_pos h0]
        exact ⟨V, rfl, h1, h2, fun i' a j' b _ _ => by rw [h0]; simp⟩
      · rw [if_neg h0]
        exact addBlock_ent (M := (W L).smul _) h1 h2 (hr L) (hc L) hi hj
    obtain ⟨V1, s1, s2, s3, s4⟩ := step
    obtain ⟨V2, t1, t2, t3, t4⟩ := ih (fun L hL => hT L (by simp [hL])) (fun L hL => ha L (by simp [hL])) V1 s2 s3
    refine ⟨V2, ?_, t2, t3, fun i' a j' b hai hbj => ?_⟩
    · rw [List.foldlM_cons, s1]; exact t1
    · rw [t4 i' a j' b hai hbj, s4 i' a j' b hai hbj, List.map_cons, List.sum_cons]
      by_cases h : i' = i ∧ j' = j
      · obtain ⟨rfl, rfl⟩ := h
        rw [if_pos rfl, if_pos rfl, if_pos ⟨rfl, rfl⟩, add_assoc]
      · rw [if_neg h, if_neg (fun hh => h (Prod.ext_iff.1 hh)), if_neg (fun hh => h (Prod.ext_iff.1 hh))]

/-- the multipoles left out do not contribute -/
theorem multipoles_sum (l l' : Nat) (f : Nat → ℝ) (hf : ∀ L, l + L < l' ∨ l' + L < l → f L = 0) : ((multipoles l l').map f).sum = ∑ L ∈ range (l + l' + 1), f L := by
  obtain ⟨d, hd⟩ : ∃ d, d = (l - l') + (l' - l) := ⟨_, rfl⟩
  have hle : d ≤ l + l' + 1 := by omega
  unfold multipoles
  rw [← hd]
  have e : l + l' + 1 = d + (l + l' + 1 - d) := by omega
  have key : ∀ k, ((List.range' d k).map f).sum = ∑ L ∈ range k, f (d + L) := by
    intro k
    induction k with
    | zero => simp
    | succ k ih => rw [List.range'_concat, List.map_append, List.sum_append, ih, sum_range_succ]; simp
  rw [key, e, sum_range_add, sum_eq_zero fun L hL => hf L (by rw [mem_range] at hL; omega), zero_add, ← e]

/-- weight and factor of one multipole on one element -/
noncomputable def offW (R : Radial) (Rh : ℝ) (L e : Nat) (r : ℝ) : ℝ := if Rh ≤ R.bnd e then r ^ (-(L : Int) - 1 + 2) else r ^ ((L : Int) + 2)
noncomputable def offS (R : Radial) (Rh : ℝ) (L e : Nat) : ℝ := -√(4 * Real.pi / (2 * L + 1)) * (if Rh ≤ R.bnd e then Rh ^ L else Rh ^ (-(L : Int) - 1))

theorem off_kernel (R : Radial) (Rh : ℝ) (hx : ∀ e < R.nel, Rh ≤ R.bnd e ∨ R.bnd (e + 1) ≤ Rh) (L e : Nat) (he : e < R.nel) :
    R.nuclearOffcenter Rh L e = .ok ((R.elem .R0 .R0 (offW R Rh L e) e).smul (offS R Rh L e)) := by
  unfold Radial.nuclearOffcenter Radial.radialIntegral
  by_cases h : Rh ≤ R.bnd e
  · have e1 : offW R Rh L e = fun r => r ^ (-(L : Int) - 1 + 2) := by funext r; simp only [offW, if_pos h]
    rw [if_pos h, e1, offS, if_pos h]
  · have e1 : offW R Rh L e = fun r => r ^ ((L : Int) + 2) := by funext r; simp only [offW, if_neg h]
    rw [if_neg h, if_pos ((hx e he).resolve_left h), e1, offS, if_neg h]

theorem off_multi (R : Radial) (Rh : ℝ) (hx : ∀ e < R.nel, Rh ≤ R.bnd e ∨ R.bnd (e + 1) ≤ Rh) (L e : Nat) (he : e < R.nel) (r : ℝ) (h0 : R.bnd e < r) (h1 : r ≤ R.bnd (e + 1)) (hr : 0 < r) (hne : r ≠ Rh) :
    offS R Rh L e * offW R Rh L e r = r ^ 2 * (-√(4 * Real.pi / (2 * L + 1)) * multi Rh L r) := by
  unfold offS offW multi
  by_cases h : Rh ≤ R.bnd e
  · rw [if_pos h, if_pos h, if_neg (by linarith), zpow_add₀ hr.ne', zpow_ofNat]
    ring
  · have := (hx e he).resolve_left h
    rw [if_neg h, if_neg h, if_pos (lt_of_le_of_ne (h1.trans this) hne), zpow_add₀ hr.ne', zpow_ofNat, zpow_natCast]
    ring

theorem offW_cont {R : Radial} {φ : Nat → Nat → ℝ[X]} (hF : Spec.Functions R φ) (Rh : ℝ) (hR : 0 < Rh) (L e : Nat) : ContinuousOn (offW R Rh L e) (Set.Icc (R.bnd e) (R.bnd (e + 1))) := by
  unfold offW
  by_cases h : Rh ≤ R.bnd e
  · simp only [if_pos h]
    exact continuousOn_id.zpow₀ _ fun r hr => Or.inl (by have := hr.1; simp only [id]; linarith)
  · simp only [if_neg h]
    have : (fun r : ℝ => r ^ ((L : Int) + 2)) = fun r => r ^ (L + 2) := by
      funext r
      rw [show (L : Int) + 2 = ((L + 2 : Nat) : Int) by push_cast; ring, zpow_natCast]
    rw [this]
    fun_prop

/-- the entry of the attraction matrix from its radial parts -/
theorem attraction_potential {A : Atom} {φ : Nat → Nat → ℝ[X]} (hF : Spec.Functions A.rad φ) (hR : 0 < A.Rhalf) (hx : ∀ e < A.rad.nel, A.Rhalf ≤ A.rad.bnd e ∨ A.rad.bnd (e + 1) ≤ A.Rhalf)
    (i a j b : Nat) (hi : (A.m i).natAbs ≤ A.l i) (hj : (A.m j).natAbs ≤ A.l j) :
    Spec.potential A φ (Spec.attraction A.Z A.Zl A.Zr A.Rhalf) i a j b =
      (((if A.l i = A.l j ∧ A.m i = A.m j then -(A.Z : ℝ) * ∑ e ∈ range A.rad.nel, ∫ r in (A.rad.bnd e)..(A.rad.bnd (e + 1)), (φ e a).eval r / r * ((φ e b).eval r / r) * r ^ ((-1 : Int) + 2) else 0) +
        (if A.m i = A.m j then ∑ L ∈ range (A.l i + A.l j + 1), Gaunt.direct Harm.Spec.gaunt (A.l i) (A.m i) L 0 (A.l j) (A.m i) * ((-1) ^ L * A.Zl + A.Zr) *
          ∑ e ∈ range A.rad.nel, offS A.rad A.Rhalf L e * ∫ r in (A.rad.bnd e)..(A.rad.bnd (e + 1)), (φ e a).eval r / r * ((φ e b).eval r / r) * offW A.rad A.Rhalf L e r else 0) : ℝ) : ℂ) := by
  by_cases hm : A.m i = A.m j
  swap
  · rw [potential_eq hF _ i a j b (fun _ _ => 0) 0]
    · rw [if_neg (fun h => hm h.2), if_neg hm]
      simp
    · intro e _ r _ _ _
      rw [sphere_pair, if_neg hm]
  have hj' : (A.m i).natAbs ≤ A.l j := by rw [hm]; exact hj
  rw [potential_eq hF _ i a j b (fun _ r => (if A.l i = A.l j then -(A.Z : ℝ) / r else 0) +
      ∑ L ∈ range (A.l i + A.l j + 1), Gaunt.direct Harm.Spec.gaunt (A.l i) (A.m i) L 0 (A.l j) (A.m i) * ((-1) ^ L * A.Zl + A.Zr) * (-√(4 * Real.pi / (2 * L + 1)) * multi A.Rhalf L r)) A.Rhalf]
  swap
  · intro e he r h0 h1 hne
    have hr : 0 < r := lt_of_le_of_lt (bnd_nonneg hF e he.le).1 h0
    rw [sphere_pair, if_pos hm, Complex.ofReal_inj, ← hm]
    exact attraction_sphere hr hR hne A.Z A.Zl A.Zr (A.l i) (A.m i) (A.l j) hi hj'
  rw [Complex.ofReal_inj, if_pos hm]
  have per : ∀ e ∈ range A.rad.nel, ∫ r in (A.rad.bnd e)..(A.rad.bnd (e + 1)), (φ e a).eval r / r * ((φ e b).eval r / r) * (r ^ 2 * ((if A.l i = A.l j then -(A.Z : ℝ) / r else 0) +
      ∑ L ∈ range (A.l i + A.l j + 1), Gaunt.direct Harm.Spec.gaunt (A.l i) (A.m i) L 0 (A.l j) (A.m i) * ((-1) ^ L * A.Zl + A.Zr) * (-√(4 * Real.pi / (2 * L + 1)) * multi A.Rhalf L r))) =
      (if A.l i = A.l j then -(A.Z : ℝ) else 0) * (∫ r in (A.rad.bnd e)..(A.rad.bnd (e + 1)), (φ e a).eval r / r * ((φ e b).eval r / r) * r ^ ((-1 : Int) + 2)) +
      ∑ L ∈ range (A.l i + A.l j + 1), (Gaunt.direct Harm.Spec.gaunt (A.l i) (A.m i) L 0 (A.l j) (A.m i) * ((-1) ^ L * A.Zl + A.Zr) * offS A.rad A.Rhalf L e) *
        ∫ r in (A.rad.bnd e)..(A.rad.bnd (e + 1)), (φ e a).eval r / r * ((φ e b).eval r / r) * offW A.rad A.Rhalf L e r := by
    intro e he
    rw [mem_range] at he
    have hone : ContinuousOn (fun r : ℝ => r ^ ((-1 : Int) + 2)) (Set.Icc (A.rad.bnd e) (A.rad.bnd (e + 1))) := by
      have : (fun r : ℝ => r ^ ((-1 : Int) + 2)) = fun r => r := by funext r; norm_num
      rw [this]; exact continuousOn_id
    have iz := elem_int hF he a b _ hone
    have iL := fun L => elem_int hF he a b _ (offW_cont hF A.Rhalf hR L e)
    rw [← intervalIntegral.integral_const_mul]
    simp only [← intervalIntegral.integral_const_mul]
    rw [← intervalIntegral.integral_finsetSum fun L _ => (iL L).const_mul _, ← intervalIntegral.integral_add (iz.const_mul _)]
    · refine intervalIntegral.integral_congr_ae ?_
      have h1 : ∀ᵐ r : ℝ, r ≠ A.Rhalf := compl_mem_ae_iff.2 (measure_singleton A.Rhalf)
      filter_upwards [h1] with r hne hm
      rw [Set.uIoc_of_le (hF.inc e he).le] at hm
      have hr : 0 < r := lt_of_le_of_lt (bnd_nonneg hF e he.le).1 hm.1
      have hsum : ∑ L ∈ range (A.l i + A.l j + 1), Gaunt.direct Harm.Spec.gaunt (A.l i) (A.m i) L 0 (A.l j) (A.m i) * ((-1) ^ L * A.Zl + A.Zr) * offS A.rad A.Rhalf L e * ((φ e a).eval r / r * ((φ e b).eval r / r) * offW A.rad A.Rhalf L e r) =
          (φ e a).eval r / r * ((φ e b).eval r / r) * (r ^ 2 * ∑ L ∈ range (A.l i + A.l j + 1), Gaunt.direct Harm.Spec.gaunt (A.l i) (A.m i) L 0 (A.l j) (A.m i) * ((-1) ^ L * A.Zl + A.Zr) * (-√(4 * Real.pi / (2 * L + 1)) * multi A.Rhalf L r)) := by
        rw [mul_sum, mul_sum]
        refine sum_congr rfl fun L _ => ?_
        have := off_multi A.rad A.Rhalf hx L e he r hm.1 hm.2 hr hne
        linear_combination (Gaunt.direct Harm.Spec.gaunt (A.l i) (A.m i) L 0 (A.l j) (A.m i) * ((-1) ^ L * A.Zl + A.Zr) * ((φ e a).eval r / r * ((φ e b).eval r / r))) * this
      rw [hsum, mul_add, mul_add]
      congr 1
      have : r ^ ((-1 : Int) + 2) = r := by norm_num
      rw [this]
      split_ifs
      · field_simp
      · simp
    · have := IntervalIntegrable.sum (range (A.l i + A.l j + 1)) fun L _ => (iL L).const_mul (Gaunt.direct Harm.Spec.gaunt (A.l i) (A.m i) L 0 (A.l j) (A.m i) * ((-1) ^ L * A.Zl + A.Zr) * offS A.rad A.Rhalf L e)
      refine this.congr fun r _ => ?_
      simp only [Finset.sum_apply]
  rw [sum_congr rfl per, sum_add_distrib, ← mul_sum]
  congr 1
  · by_cases hl : A.l i = A.l j
    · rw [if_pos hl, if_pos ⟨hl, hm⟩]
    · rw [if_neg hl, if_neg fun h => hl h.1, zero_mul]
  · rw [sum_comm]
    refine sum_congr rfl fun L _ => ?_
    rw [mul_sum]
    refine sum_congr rfl fun e _ => ?_
    ring

end OneE
end HelFEM
