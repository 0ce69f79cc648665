import Verif.Lemmas.TwoDGrid
import Verif.Lemmas.ALegCF

/-!
# C90: model potentials and probe orbitals on the diatomic quadrature grid
-/

namespace HelFEM.TGrid

open Harm Dia Polynomial

/-! ### Coordinates -/

/-- **C90, distances and angles.** The radii at which potentials and orbitals are evaluated are the distances of the grid point from the left nucleus, the right nucleus and the bond
centre, the radii for the nuclei are positive, and the cosines given to the Legendre function for the outer probes are the cosines of the polar angle. Clamping them has no effect. -/
theorem C90_geometry (g : Grid) (hv : Spec.Valid g) (p : Pt) (hp : p ∈ g.pts) (ia : Nat) (ha : ia < g.ang.length) :
    (∀ pr, radius g p ia pr = Spec.dist g.Rhalf p.mu (g.cth ia) pr) ∧ 0 < Spec.dist g.Rhalf p.mu (g.cth ia) .left ∧ 0 < Spec.dist g.Rhalf p.mu (g.cth ia) .right ∧
    (∀ pr, pr ≠ .middle → cthval g p ia pr = Spec.cosine g.Rhalf p.mu (g.cth ia) pr) ∧
    ∀ pr l m, evalPlm l m (cthval g p ia pr) = sphLegendre l m.natAbs (Real.arccos (cthval g p ia pr)) := by
  obtain ⟨-, -, hμ⟩ := hv.pts p hp
  have hc := cth_le hv ha
  have h1 := one_lt_cosh hμ
  have h2 := abs_le.1 hc
  have hR := hv.R
  have h3 : ∀ pr, pr ≠ .middle → cthval g p ia pr = Spec.cosine g.Rhalf p.mu (g.cth ia) pr := by
    intro pr hpr
    cases pr with
    | left => rw [cosine_left hR hμ hc]; rfl
    | right => rw [cosine_right hR hμ hc]; rfl
    | middle => exact absurd rfl hpr
  refine ⟨fun pr => ?_, ?_, ?_, h3, fun pr l m => ?_⟩
  · cases pr with
    | left => rw [dist_left hR hμ hc]; rfl
    | right => rw [dist_right hR hμ hc]; rfl
    | middle =>
      rw [dist_middle hR hc]
      simp only [radius]
      rw [max_eq_left (by nlinarith [mul_self_nonneg (g.cth ia)])]
  · rw [dist_left hR hμ hc]
    exact mul_pos hR (by linarith)
  · rw [dist_right hR hμ hc]
    exact mul_pos hR (by linarith)
  · by_cases hpr : pr = .middle
    · subst hpr
      exact evalPlm_eq l m h2
    · exact evalPlm_eq l m (by rw [h3 pr hpr]; exact cosine_range _ _ _ _)

/-- **C90, volume element.** Away from the axis, the weight used for a grid point is `2π ρ` times the area of the image of a unit square of the coordinates `μ` and `cos ν`. -/
theorem C90_volume (R μ c : ℝ) (hR : 0 < R) (hμ : 0 < μ) (hc : |c| < 1) : ∃ xμ xc zμ zc : ℝ, HasDerivAt (fun s => Spec.rho R s c) xμ μ ∧ HasDerivAt (fun s => Spec.rho R μ s) xc c ∧
    HasDerivAt (fun s => Spec.zed R s c) zμ μ ∧ HasDerivAt (fun s => Spec.zed R μ s) zc c ∧ Spec.volume R μ c = 2 * Real.pi * Spec.rho R μ c * |xμ * zc - xc * zμ| := by
  have hs : 0 < 1 - c ^ 2 := by
    have := sq_abs c
    nlinarith [abs_nonneg c]
  have hq : 0 < √(1 - c ^ 2) := Real.sqrt_pos.2 hs
  have hq2 := Real.sq_sqrt hs.le
  have hsh : 0 < Real.sinh μ := Real.sinh_pos_iff.2 hμ
  have hch := Real.cosh_pos μ
  refine ⟨R * Real.cosh μ * √(1 - c ^ 2), R * Real.sinh μ * (-(2 * c) / (2 * √(1 - c ^ 2))), R * Real.sinh μ * c, R * Real.cosh μ, ?_, ?_, ?_, ?_, ?_⟩
  · exact ((Real.hasDerivAt_sinh μ).const_mul R).mul_const _
  · have h1 : HasDerivAt (fun s : ℝ => 1 - s ^ 2) (-(2 * c)) c := by
      have := (hasDerivAt_pow 2 c).const_sub 1
      simpa using this
    exact (h1.sqrt hs.ne').const_mul _
  · exact ((Real.hasDerivAt_cosh μ).const_mul R).mul_const _
  · have h1 := (hasDerivAt_id c).const_mul (R * Real.cosh μ)
    rw [mul_one] at h1
    exact h1
  · have e : R * Real.cosh μ * √(1 - c ^ 2) * (R * Real.cosh μ) - R * Real.sinh μ * (-(2 * c) / (2 * √(1 - c ^ 2))) * (R * Real.sinh μ * c) =
        R ^ 2 * (Real.cosh μ ^ 2 * √(1 - c ^ 2) + Real.sinh μ ^ 2 * (c ^ 2 / √(1 - c ^ 2))) := by
      field_simp
      ring
    rw [e, abs_of_nonneg (by positivity)]
    unfold Spec.volume Spec.rho
    have e2 : √(1 - c ^ 2) * (Real.cosh μ ^ 2 * √(1 - c ^ 2) + Real.sinh μ ^ 2 * (c ^ 2 / √(1 - c ^ 2))) = Real.sinh μ ^ 2 + (1 - c ^ 2) := by
      rw [mul_add, show √(1 - c ^ 2) * (Real.cosh μ ^ 2 * √(1 - c ^ 2)) = Real.cosh μ ^ 2 * √(1 - c ^ 2) ^ 2 by ring, hq2,
        show √(1 - c ^ 2) * (Real.sinh μ ^ 2 * (c ^ 2 / √(1 - c ^ 2))) = Real.sinh μ ^ 2 * c ^ 2 by field_simp, Real.cosh_sq]
      ring
    rw [← e2]
    ring

/-- **C90, weights.** The weight of a grid point is its radial weight times its angular weight times the volume element; it is not negative if the two weights are not. -/
theorem C90_weight (g : Grid) (hv : Spec.Valid g) (p : Pt) (hp : p ∈ g.pts) (ia : Nat) (ha : ia < g.ang.length) :
    wtot g p ia = p.w * g.wang ia * Spec.volume g.Rhalf p.mu (g.cth ia) ∧ 0 ≤ Spec.volume g.Rhalf p.mu (g.cth ia) := by
  obtain ⟨-, -, hμ⟩ := hv.pts p hp
  refine ⟨wtot_eq g p ia (cth_le hv ha), ?_⟩
  have := c_sq (cth_le hv ha)
  have h1 : 0 < Real.sinh p.mu := Real.sinh_pos_iff.2 hμ
  have h2 := hv.R
  have h3 : 0 ≤ 1 - g.cth ia ^ 2 := by linarith
  unfold Spec.volume
  positivity

/-! ### Orientation -/

theorem pP_iter_neg (l : Nat) (x : ℝ) : ∀ m, (derivative^[m] (Poly.pP l)).eval (-x) = (-1) ^ (l + m) * (derivative^[m] (Poly.pP l)).eval x := by
  intro m
  have key : (derivative^[m] (Poly.pP l)).comp (-X) = C ((-1) ^ (l + m)) * derivative^[m] (Poly.pP l) := by
    induction m with
    | zero =>
      apply Polynomial.funext
      intro t
      simpa using ALeg.pP_neg t l
    | succ m ih =>
      have h := congrArg derivative ih
      rw [derivative_comp, derivative_C_mul, derivative_neg, derivative_X] at h
      rw [Function.iterate_succ_apply']
      have h2 : (derivative (derivative^[m] (Poly.pP l))).comp (-X) = -(-1 * (derivative (derivative^[m] (Poly.pP l))).comp (-X)) := by ring
      rw [h2, h, ← add_assoc, pow_succ, C_mul, C_neg, C_1]
      ring
  have h := congrArg (Polynomial.eval x) key
  simpa using h

theorem sphLegendre_flip (l m : Nat) (θ : ℝ) : sphLegendre l m (Real.pi - θ) = (-1) ^ (l + m) * sphLegendre l m θ := by
  unfold sphLegendre
  rw [Real.sin_pi_sub, Real.cos_pi_sub, pP_iter_neg]
  ring

/-- **C90, orientation.** The polar axis of the right probe is reversed, which multiplies its orbitals by the sign `(-1)^(l+m)`: the orbital is that of an atom at the right nucleus up to
its sign, and no completeness or importance depends on the sign. -/
theorem C90_orientation (ao : ℝ → ℝ) (l : Nat) (m : Int) (R μ c : ℝ) :
    Spec.orbital ao l m R .right μ c =
      (-1) ^ (l + m.natAbs) * (ao (Spec.dist R μ c .right) * sphLegendre l m.natAbs (Real.arccos ((Spec.zed R μ c - Spec.centre R .right) / Spec.dist R μ c .right))) := by
  unfold Spec.orbital
  have : Spec.cosine R μ c .right = -((Spec.zed R μ c - Spec.centre R .right) / Spec.dist R μ c .right) := by
    unfold Spec.cosine
    simp only [Spec.axis]
    ring
  rw [this, Real.arccos_neg, sphLegendre_flip]
  ring

/-! ### Projections -/

theorem quad_congr {g : Grid} (hv : Spec.Valid g) {F G : Pt → ℝ → ℝ} (h : ∀ p ∈ g.pts, ∀ c, 0 < p.mu → |c| ≤ 1 → F p c = G p c) : Spec.quad g F = Spec.quad g G := by
  unfold Spec.quad
  congr 1
  apply List.map_congr_left
  intro p hp
  congr 1
  apply List.map_congr_left
  intro a ha
  rw [h p hp a.1 (hv.pts p hp).2.2 (hv.ang a ha)]

/-- what a projection of outer probe orbitals is -/
theorem projectionOf_spec {g : Grid} (hv : Spec.Valid g) (n : Nat) (ao : ℝ → Nat → ℝ) (l : Nat) (m : Int) {pr : Probe} (hpr : pr ≠ .middle) :
    ∃ S, projectionOf g n ao l m pr = .ok S ∧ S.rows = n ∧ S.cols = (Sym.pureIndices g.lm g.nrad).length ∧ ∀ i, ∀ j < S.cols,
      S.get i j = if (Spec.ang g ((Sym.pureIndices g.lm g.nrad).getD j 0)).2 = m then
        Spec.quad g fun p c => Spec.orbital (fun r => ao r i) l m g.Rhalf pr p.mu c * Spec.fn g ((Sym.pureIndices g.lm g.nrad).getD j 0) p c else 0 := by
  obtain ⟨S, h1, h2, h3, h4⟩ := projectionOf_ok hv n ao l m pr
  refine ⟨S, h1, h2, h3, fun i j hj => ?_⟩
  rw [h4 i j hj]
  congr 1
  apply quad_congr hv
  intro p _ c hμ hc
  rw [codeOrb_outer hv.R hμ hc hpr]

/-- **C90, projections of the outer probes.** The projection of Gaussian or Slater orbitals at a nucleus on the basis never fails; row `i` column `j` is the quadrature of orbital `i` times
basis function `j` if that function has the probe's `m`, and zero otherwise. -/
theorem C90_projection (g : Grid) (hv : Spec.Valid g) (l : Nat) (m : Int) (expn : List ℝ) (pr : Probe) (hpr : pr ≠ .middle) :
    (∃ S, gtoProjection g l m expn pr = .ok S ∧ S.rows = expn.length ∧ S.cols = (Sym.pureIndices g.lm g.nrad).length ∧ ∀ i < S.rows, ∀ j < S.cols,
      S.get i j = if (Spec.ang g ((Sym.pureIndices g.lm g.nrad).getD j 0)).2 = m then
        Spec.quad g fun p c => Spec.orbital (fun r => Lcao.radialGTO Real.pi r l (expn.getD i 0)) l m g.Rhalf pr p.mu c * Spec.fn g ((Sym.pureIndices g.lm g.nrad).getD j 0) p c else 0) ∧
    (∃ S, stoProjection g l m expn pr = .ok S ∧ S.rows = expn.length ∧ S.cols = (Sym.pureIndices g.lm g.nrad).length ∧ ∀ i < S.rows, ∀ j < S.cols,
      S.get i j = if (Spec.ang g ((Sym.pureIndices g.lm g.nrad).getD j 0)).2 = m then
        Spec.quad g fun p c => Spec.orbital (fun r => Lcao.radialSTO r l (expn.getD i 0)) l m g.Rhalf pr p.mu c * Spec.fn g ((Sym.pureIndices g.lm g.nrad).getD j 0) p c else 0) := by
  constructor
  · obtain ⟨S, h1, h2, h3, h4⟩ := projectionOf_spec hv expn.length (computeGto l expn) l m hpr
    exact ⟨S, h1, h2, h3, fun i _ j hj => h4 i j hj⟩
  · obtain ⟨S, h1, h2, h3, h4⟩ := projectionOf_spec hv expn.length (computeSto l expn) l m hpr
    exact ⟨S, h1, h2, h3, fun i _ j hj => h4 i j hj⟩

/-- **C90, overlaps of the outer probes.** The overlap matrix of Gaussian or Slater orbitals at a nucleus is the quadrature of their products; so it is symmetric and, if no weight is
negative, positive semidefinite. -/
theorem C90_overlap (g : Grid) (hv : Spec.Valid g) (l : Nat) (m : Int) (expn : List ℝ) (pr : Probe) (hpr : pr ≠ .middle) :
    (∃ S, gtoOverlap g l m expn pr = .ok S ∧ S.rows = expn.length ∧ S.cols = expn.length ∧
      (∀ i j, S.get i j = Spec.quad g fun p c => Spec.orbital (fun r => Lcao.radialGTO Real.pi r l (expn.getD i 0)) l m g.Rhalf pr p.mu c *
        Spec.orbital (fun r => Lcao.radialGTO Real.pi r l (expn.getD j 0)) l m g.Rhalf pr p.mu c) ∧ (∀ i j, S.get i j = S.get j i)) ∧
    (∃ S, stoOverlap g l m expn pr = .ok S ∧ S.rows = expn.length ∧ S.cols = expn.length ∧
      (∀ i j, S.get i j = Spec.quad g fun p c => Spec.orbital (fun r => Lcao.radialSTO r l (expn.getD i 0)) l m g.Rhalf pr p.mu c *
        Spec.orbital (fun r => Lcao.radialSTO r l (expn.getD j 0)) l m g.Rhalf pr p.mu c) ∧ (∀ i j, S.get i j = S.get j i)) := by
  have key : ∀ ao : ℝ → Nat → ℝ, ∃ S, overlapOf g expn.length ao l m pr = .ok S ∧ S.rows = expn.length ∧ S.cols = expn.length ∧
      (∀ i j, S.get i j = Spec.quad g fun p c => Spec.orbital (fun r => ao r i) l m g.Rhalf pr p.mu c * Spec.orbital (fun r => ao r j) l m g.Rhalf pr p.mu c) ∧
      ∀ i j, S.get i j = S.get j i := by
    intro ao
    obtain ⟨S, h1, h2, h3, h4⟩ := overlap_loop hv expn.length ao l m pr g.pts (Mat.zero expn.length expn.length) rfl rfl
    have h5 : ∀ i j, S.get i j = Spec.quad g fun p c => Spec.orbital (fun r => ao r i) l m g.Rhalf pr p.mu c * Spec.orbital (fun r => ao r j) l m g.Rhalf pr p.mu c := by
      intro i j
      rw [h4]
      simp only [Mat.zero, zero_add]
      refine Eq.trans (b := Spec.quad g fun p c => codeOrb (fun r => ao r i) l m g.Rhalf pr p.mu c * codeOrb (fun r => ao r j) l m g.Rhalf pr p.mu c) rfl ?_
      apply quad_congr hv
      intro p _ c hμ hc
      rw [codeOrb_outer hv.R hμ hc hpr, codeOrb_outer hv.R hμ hc hpr]
    refine ⟨S, h1, h2, h3, h5, fun i j => ?_⟩
    rw [h5, h5]
    apply quad_congr hv
    intro p _ c _ _
    ring
  exact ⟨key _, key _⟩

theorem quad_add (g : Grid) (F G : Pt → ℝ → ℝ) : Spec.quad g (fun p c => F p c + G p c) = Spec.quad g F + Spec.quad g G := by
  unfold Spec.quad
  simp only [mul_add, List.sum_map_add]

theorem quad_zero (g : Grid) : Spec.quad g (fun _ _ => 0) = 0 := by simp [Spec.quad]

theorem quad_smul (g : Grid) (s : ℝ) (F : Pt → ℝ → ℝ) : Spec.quad g (fun p c => s * F p c) = s * Spec.quad g F := by
  unfold Spec.quad
  rw [← List.sum_map_mul_left]
  congr 1
  apply List.map_congr_left
  intro p _
  rw [← List.sum_map_mul_left]
  congr 1
  apply List.map_congr_left
  intro a _
  ring

theorem quad_sum (g : Grid) (s : Finset Nat) (F : Nat → Pt → ℝ → ℝ) : Spec.quad g (fun p c => ∑ i ∈ s, F i p c) = ∑ i ∈ s, Spec.quad g (F i) := by
  induction s using Finset.induction_on with
  | empty => simp [quad_zero]
  | insert a s ha ih => simp only [Finset.sum_insert ha, quad_add, ih]

theorem quad_nonneg {g : Grid} (hv : Spec.Valid g) (hw : ∀ p ∈ g.pts, 0 ≤ p.w) (ha : ∀ a ∈ g.ang, 0 ≤ a.2) {F : Pt → ℝ → ℝ} (h : ∀ p c, 0 ≤ F p c) : 0 ≤ Spec.quad g F := by
  apply List.sum_nonneg
  intro x hx
  obtain ⟨p, hp, rfl⟩ := List.mem_map.1 hx
  apply List.sum_nonneg
  intro y hy
  obtain ⟨a, haa, rfl⟩ := List.mem_map.1 hy
  have h1 : 0 < Real.sinh p.mu := Real.sinh_pos_iff.2 (hv.pts p hp).2.2
  have h2 := hv.R
  have h3 : 0 ≤ 1 - a.1 ^ 2 := by linarith [c_sq (hv.ang a haa)]
  have h4 := hw p hp
  have h5 := ha a haa
  have h6 := h p a.1
  unfold Spec.volume
  positivity

/-- **C90, overlaps are Gram matrices.** With weights that are not negative, no combination of Gaussian or Slater probe orbitals at a nucleus has a negative norm. -/
theorem C90_overlap_psd (g : Grid) (hv : Spec.Valid g) (hw : ∀ p ∈ g.pts, 0 ≤ p.w) (ha : ∀ a ∈ g.ang, 0 ≤ a.2) (l : Nat) (m : Int) (expn : List ℝ) (pr : Probe) (hpr : pr ≠ .middle)
    (S : Mat ℝ) (hS : gtoOverlap g l m expn pr = .ok S ∨ stoOverlap g l m expn pr = .ok S) (x : Nat → ℝ) :
    0 ≤ ∑ i ∈ Finset.range expn.length, ∑ j ∈ Finset.range expn.length, x i * S.get i j * x j := by
  have key : ∀ ao : Nat → ℝ → ℝ, (∀ i j, S.get i j = Spec.quad g fun p c => Spec.orbital (ao i) l m g.Rhalf pr p.mu c * Spec.orbital (ao j) l m g.Rhalf pr p.mu c) →
      0 ≤ ∑ i ∈ Finset.range expn.length, ∑ j ∈ Finset.range expn.length, x i * S.get i j * x j := by
    intro ao hq
    have e : ∑ i ∈ Finset.range expn.length, ∑ j ∈ Finset.range expn.length, x i * S.get i j * x j =
        Spec.quad g fun p c => (∑ i ∈ Finset.range expn.length, x i * Spec.orbital (ao i) l m g.Rhalf pr p.mu c) ^ 2 := by
      have e1 : (fun (p : Pt) (c : ℝ) => (∑ i ∈ Finset.range expn.length, x i * Spec.orbital (ao i) l m g.Rhalf pr p.mu c) ^ 2) = fun p c =>
          ∑ i ∈ Finset.range expn.length, ∑ j ∈ Finset.range expn.length, x i * x j * (Spec.orbital (ao i) l m g.Rhalf pr p.mu c * Spec.orbital (ao j) l m g.Rhalf pr p.mu c) := by
        funext p c
        rw [sq, Finset.sum_mul_sum]
        refine Finset.sum_congr rfl fun i _ => Finset.sum_congr rfl fun j _ => by ring
      rw [e1, quad_sum g (Finset.range expn.length) fun i p c => ∑ j ∈ Finset.range expn.length, x i * x j * (Spec.orbital (ao i) l m g.Rhalf pr p.mu c * Spec.orbital (ao j) l m g.Rhalf pr p.mu c)]
      refine Finset.sum_congr rfl fun i _ => ?_
      rw [quad_sum g (Finset.range expn.length) fun j p c => x i * x j * (Spec.orbital (ao i) l m g.Rhalf pr p.mu c * Spec.orbital (ao j) l m g.Rhalf pr p.mu c)]
      refine Finset.sum_congr rfl fun j _ => ?_
      rw [quad_smul g (x i * x j) fun p c => Spec.orbital (ao i) l m g.Rhalf pr p.mu c * Spec.orbital (ao j) l m g.Rhalf pr p.mu c, hq]
      ring
    rw [e]
    exact quad_nonneg hv hw ha fun p c => sq_nonneg _
  obtain ⟨⟨A, h1, -, -, h2, -⟩, B, h3, -, -, h4, -⟩ := C90_overlap g hv l m expn pr hpr
  rcases hS with h | h
  · rw [h1] at h
    cases h
    exact key (fun i r => Lcao.radialGTO Real.pi r l (expn.getD i 0)) h2
  · rw [h3] at h
    cases h
    exact key (fun i r => Lcao.radialSTO r l (expn.getD i 0)) h4

/-- **C90, the two nuclei are alike.** If the angular rule is symmetric about zero, the probes at the two nuclei have the same overlap matrix. -/
theorem C90_mirror (g : Grid) (hv : Spec.Valid g) (hs : (g.ang.map fun a => (-a.1, a.2)).Perm g.ang) (l : Nat) (m : Int) (expn : List ℝ) :
    ∃ S T, stoOverlap g l m expn .left = .ok S ∧ stoOverlap g l m expn .right = .ok T ∧ S.Same T := by
  obtain ⟨-, S, h1, h2, h3, h4, -⟩ := C90_overlap g hv l m expn .left (by decide)
  obtain ⟨-, T, e1, e2, e3, e4, -⟩ := C90_overlap g hv l m expn .right (by decide)
  refine ⟨S, T, h1, e1, h2.trans e2.symm, h3.trans e3.symm, fun i _ j _ => ?_⟩
  rw [h4, e4]
  unfold Spec.quad
  congr 1
  apply List.map_congr_left
  intro p hp
  obtain ⟨-, -, hμ⟩ := hv.pts p hp
  refine Eq.trans ((hs.map fun a => p.w * a.2 * Spec.volume g.Rhalf p.mu a.1 * (Spec.orbital (fun r => Lcao.radialSTO r l (expn.getD i 0)) l m g.Rhalf .left p.mu a.1 *
        Spec.orbital (fun r => Lcao.radialSTO r l (expn.getD j 0)) l m g.Rhalf .left p.mu a.1)).sum_eq).symm ?_
  rw [List.map_map]
  congr 1
  apply List.map_congr_left
  intro a ha
  have hc := hv.ang a ha
  have hc' : |-a.1| ≤ 1 := by rwa [abs_neg]
  have ho : ∀ ao : ℝ → ℝ, Spec.orbital ao l m g.Rhalf .left p.mu (-a.1) = Spec.orbital ao l m g.Rhalf .right p.mu a.1 := by
    intro ao
    unfold Spec.orbital
    rw [dist_left hv.R hμ hc', dist_right hv.R hμ hc, cosine_left hv.R hμ hc', cosine_right hv.R hμ hc]
    simp only [← sub_eq_add_neg, mul_neg]
  simp only [Function.comp_apply, ho]
  congr 2
  unfold Spec.volume
  ring

/-! ### The bond centre -/

/-- **C90, the middle probe.** A projection on orbitals at the bond centre takes their radial part at the right distance, but gives the Legendre function the coordinate `cos ν` instead of
the cosine of the polar angle. -/
theorem C90_middle (g : Grid) (hv : Spec.Valid g) (l : Nat) (m : Int) (expn : List ℝ) :
    ∃ S, stoProjection g l m expn .middle = .ok S ∧ S.rows = expn.length ∧ S.cols = (Sym.pureIndices g.lm g.nrad).length ∧ ∀ i < S.rows, ∀ j < S.cols,
      S.get i j = if (Spec.ang g ((Sym.pureIndices g.lm g.nrad).getD j 0)).2 = m then
        Spec.quad g fun p c => Lcao.radialSTO (Spec.dist g.Rhalf p.mu c .middle) l (expn.getD i 0) * sphLegendre l m.natAbs (Real.arccos c) *
          Spec.fn g ((Sym.pureIndices g.lm g.nrad).getD j 0) p c else 0 := by
  obtain ⟨S, h1, h2, h3, h4⟩ := projectionOf_ok hv expn.length (computeSto l expn) l m .middle
  refine ⟨S, h1, h2, h3, fun i _ j hj => ?_⟩
  rw [h4 i j hj]
  congr 1
  apply quad_congr hv
  intro p _ c hμ hc
  rw [codeOrb_middle hv.R hμ hc]
  rfl

/-- **C90, s orbitals at the bond centre.** Orbitals with `l = 0` have no angle, so their projections at the bond centre are right. -/
theorem C90_middle_s (g : Grid) (hv : Spec.Valid g) (expn : List ℝ) :
    ∃ S, stoProjection g 0 0 expn .middle = .ok S ∧ ∀ i < S.rows, ∀ j < S.cols,
      S.get i j = if (Spec.ang g ((Sym.pureIndices g.lm g.nrad).getD j 0)).2 = 0 then
        Spec.quad g fun p c => Spec.orbital (fun r => Lcao.radialSTO r 0 (expn.getD i 0)) 0 0 g.Rhalf .middle p.mu c * Spec.fn g ((Sym.pureIndices g.lm g.nrad).getD j 0) p c else 0 := by
  obtain ⟨S, h1, -, -, h4⟩ := C90_middle g hv 0 0 expn
  refine ⟨S, h1, fun i hi j hj => ?_⟩
  rw [h4 i hi j hj]
  congr 1
  apply quad_congr hv
  intro p _ c _ _
  unfold Spec.orbital sphLegendre
  simp [Poly.pP]

/-- a basis with one function and a grid with one point -/
noncomputable def onePoint : Grid := ⟨1, [(0, 0)], 1, [⟨0, 0, Real.log 2, 1, fun _ => 1⟩], [(3 / 5, 1)]⟩

theorem onePoint_valid : Spec.Valid onePoint := by
  refine ⟨by norm_num [onePoint], ?_, ?_⟩
  · intro p hp
    simp only [onePoint, List.mem_singleton] at hp
    subst hp
    exact ⟨le_refl _, by norm_num [onePoint], Real.log_pos (by norm_num)⟩
  · intro a ha
    simp only [onePoint, List.mem_singleton] at ha
    subst ha
    norm_num [abs_of_pos]

theorem sphLegendre_one (θ : ℝ) : sphLegendre 1 0 θ = √(3 / (4 * Real.pi)) * Real.cos θ := by
  unfold sphLegendre
  norm_num [Poly.pP]

theorem sphLegendre_zero (θ : ℝ) : sphLegendre 0 0 θ = √(1 / (4 * Real.pi)) := by
  unfold sphLegendre
  norm_num [Poly.pP]

/-- **C90, finding: orbitals at the bond centre are distorted.** For a p orbital at the bond centre the projection differs from the quadrature of the orbital with the basis function: the
completeness and importance profiles of `diatomic_cpl` for the middle probe are those of other functions as soon as `l > 0`. -/
theorem C90_middle_wrong : ∃ S, stoProjection onePoint 1 0 [1] .middle = .ok S ∧ S.rows = 1 ∧ S.cols = 1 ∧
    S.get 0 0 ≠ Spec.quad onePoint fun p c => Spec.orbital (fun r => Lcao.radialSTO r 1 1) 1 0 onePoint.Rhalf .middle p.mu c * Spec.fn onePoint 0 p c := by
  obtain ⟨S, h1, h2, h3, h4⟩ := C90_middle onePoint onePoint_valid 1 0 [1]
  have hp : Sym.pureIndices onePoint.lm onePoint.nrad = [0] := by decide
  rw [hp] at h3 h4
  refine ⟨S, h1, h2, h3, ?_⟩
  rw [h4 0 (by rw [h2]; decide) 0 (by rw [h3]; decide)]
  have hch : Real.cosh (Real.log 2) = 5 / 4 := by rw [Real.cosh_log (by norm_num)]; norm_num
  have hsh : Real.sinh (Real.log 2) = 3 / 4 := by rw [Real.sinh_log (by norm_num)]; norm_num
  have hd : Spec.dist 1 (Real.log 2) (3 / 5) .middle = √(369 / 400) := by
    rw [dist_middle one_pos (by norm_num [abs_of_pos]), hch, one_mul]
    norm_num
  have hr : (0 : ℝ) < √(369 / 400) := Real.sqrt_pos.2 (by norm_num)
  have hcos : Spec.cosine 1 (Real.log 2) (3 / 5) .middle ≠ 3 / 5 := by
    intro h
    unfold Spec.cosine at h
    rw [hd, div_eq_iff hr.ne'] at h
    simp only [Spec.axis, Spec.zed, Spec.centre, hch] at h
    have h5 : √(369 / 400 : ℝ) = 5 / 4 := by linarith
    have h6 := Real.sq_sqrt (show (0 : ℝ) ≤ 369 / 400 by norm_num)
    rw [h5] at h6
    norm_num at h6
  have hc0 := cosine_range 1 (Real.log 2) (3 / 5) .middle
  have hang : (Spec.ang onePoint (([0] : List Nat).getD 0 0)).2 = 0 := rfl
  rw [if_pos hang]
  have hfn : Spec.fn onePoint 0 ⟨0, 0, Real.log 2, 1, fun _ => 1⟩ (3 / 5) = √(1 / (4 * Real.pi)) := by
    have hs : (sph 0 0 (3 / 5) 0).re = √(1 / (4 * Real.pi)) := by
      rw [← sphLegendre_zero (Real.arccos (3 / 5))]
      unfold sph sphPos
      simp
    simpa [Spec.fn, Spec.ang, onePoint] using hs
  have hsto : 0 < Lcao.radialSTO (√(369 / 400)) 1 1 := by
    unfold Lcao.radialSTO
    have hf : 0 < Lcao.factorial (2 * 1 + 2) := by norm_num [Lcao.factorial, List.range', List.foldl]
    have := Real.sqrt_pos.2 hf
    positivity
  have hv : 0 < Spec.volume 1 (Real.log 2) (3 / 5) := by
    unfold Spec.volume
    rw [hsh]
    have := Real.pi_pos
    norm_num
    exact this
  have h3pi : 0 < √(3 / (4 * Real.pi)) := Real.sqrt_pos.2 (by have := Real.pi_pos; positivity)
  have h1pi : 0 < √(1 / (4 * Real.pi)) := Real.sqrt_pos.2 (by have := Real.pi_pos; positivity)
  have hq : ∀ F : Pt → ℝ → ℝ, Spec.quad onePoint F = Spec.volume 1 (Real.log 2) (3 / 5) * F ⟨0, 0, Real.log 2, 1, fun _ => 1⟩ (3 / 5) := by
    intro F
    simp [Spec.quad, onePoint]
  rw [hq, hq]
  simp only [Spec.orbital, List.getD_cons_zero, Int.natAbs_zero]
  rw [show onePoint.Rhalf = 1 from rfl, hd, hfn, sphLegendre_one, sphLegendre_one, Real.cos_arccos (by norm_num) (by norm_num), Real.cos_arccos hc0.1 hc0.2]
  intro h
  apply hcos
  have h7 := mul_left_cancel₀ hv.ne' h
  have h8 := mul_right_cancel₀ h1pi.ne' h7
  have h9 := mul_left_cancel₀ hsto.ne' h8
  exact (mul_left_cancel₀ h3pi.ne' h9).symm

/-! ### Model potentials -/

/-- **C90, model potentials.** The matrix of a sum of two spherical potentials, one at each nucleus, never fails; between functions of the same `m` it is the quadrature of the potentials at
the distances from their nuclei times the two functions, leaving out values that are not normal numbers, and between functions of different `m` it is zero. It is symmetric. -/
theorem C90_model_potential (g : Grid) (hv : Spec.Valid g) (V1 V2 : ℝ → Option ℝ) :
    ∃ H, modelPotentialMatrix g V1 V2 = .ok H ∧ H.rows = (Sym.pureIndices g.lm g.nrad).length ∧ H.cols = (Sym.pureIndices g.lm g.nrad).length ∧
      (∀ i < H.rows, ∀ j < H.cols, H.get i j =
        if (Spec.ang g ((Sym.pureIndices g.lm g.nrad).getD i 0)).2 = (Spec.ang g ((Sym.pureIndices g.lm g.nrad).getD j 0)).2 then
          Spec.quad g fun p c => ((V1 (Spec.dist g.Rhalf p.mu c .left)).getD 0 + (V2 (Spec.dist g.Rhalf p.mu c .right)).getD 0) *
            Spec.fn g ((Sym.pureIndices g.lm g.nrad).getD i 0) p c * Spec.fn g ((Sym.pureIndices g.lm g.nrad).getD j 0) p c else 0) ∧
      ∀ i < H.rows, ∀ j < H.cols, H.get i j = H.get j i := by
  obtain ⟨V, h1, h2, h3, h4⟩ := pot_outer hv V1 V2 (Sym.uniqueM g.lm) (XC.unique_nodup g.lm) (Mat.zero (nDummy g.lm g.nrad) (nDummy g.lm g.nrad)) rfl rfl
  unfold modelPotentialMatrix
  rw [h1, Res.ok_bind]
  unfold removeBoundaries
  rw [if_neg (by simp [h2, h3])]
  have key : ∀ i < (Sym.pureIndices g.lm g.nrad).length, ∀ j < (Sym.pureIndices g.lm g.nrad).length, V.get ((Sym.pureIndices g.lm g.nrad).getD i 0) ((Sym.pureIndices g.lm g.nrad).getD j 0) =
      if (Spec.ang g ((Sym.pureIndices g.lm g.nrad).getD i 0)).2 = (Spec.ang g ((Sym.pureIndices g.lm g.nrad).getD j 0)).2 then
          Spec.quad g fun p c => ((V1 (Spec.dist g.Rhalf p.mu c .left)).getD 0 + (V2 (Spec.dist g.Rhalf p.mu c .right)).getD 0) *
            Spec.fn g ((Sym.pureIndices g.lm g.nrad).getD i 0) p c * Spec.fn g ((Sym.pureIndices g.lm g.nrad).getD j 0) p c else 0 := by
    intro i hi j hj
    have hI := pure_getD_lt g.lm g.nrad i hi
    have hm : (Spec.ang g ((Sym.pureIndices g.lm g.nrad).getD i 0)).2 ∈ Sym.uniqueM g.lm := by
      refine (Sym.mem_unique g.lm _).2 ⟨_, ?_, rfl⟩
      unfold Spec.ang
      have hlt : (Sym.pureIndices g.lm g.nrad).getD i 0 / g.nrad < g.lm.length := Nat.div_lt_of_lt_mul (by rw [mul_comm]; exact hI)
      rw [List.getD_eq_getElem?_getD (l := g.lm), List.getElem?_eq_getElem hlt]
      exact List.getElem_mem _
    rw [h4 _ _ hI (pure_getD_lt g.lm g.nrad j hj)]
    simp only [Mat.zero, zero_add, hm, and_true]
    rfl
  refine ⟨_, rfl, rfl, rfl, key, fun i hi j hj => ?_⟩
  refine (key i hi j hj).trans (Eq.trans ?_ (key j hj i hi).symm)
  by_cases h : (Spec.ang g ((Sym.pureIndices g.lm g.nrad).getD i 0)).2 = (Spec.ang g ((Sym.pureIndices g.lm g.nrad).getD j 0)).2
  · rw [if_pos h, if_pos h.symm]
    apply quad_congr hv
    intro p _ c _ _
    ring
  · rw [if_neg h, if_neg fun hh => h hh.symm]

/-! ### Orbitals of the atoms -/

/-- the occupied orbitals of a shell hold its electrons, and no fewer do -/
theorem nocc_spec (occ : Int) (l : Nat) : occ ≤ nocc occ l * (2 * (2 * l + 1)) ∧ (nocc occ l - 1) * (2 * (2 * l + 1)) < occ := by
  have hp : (0 : ℝ) < 2 * (2 * l + 1) := by positivity
  have h1 := Int.le_ceil ((occ : ℝ) / (2 * (2 * l + 1)))
  have h2 := Int.ceil_lt_add_one ((occ : ℝ) / (2 * (2 * l + 1)))
  unfold nocc
  constructor
  · rw [div_le_iff₀ hp] at h1
    exact_mod_cast h1
  · have h3 : ((⌈(occ : ℝ) / (2 * (2 * l + 1))⌉ : ℝ) - 1) * (2 * (2 * l + 1)) < occ := by
      rw [← lt_div_iff₀ hp]
      linarith
    exact_mod_cast h3

/-- **C90, orbitals of the atoms.** The projection of the orbitals of an atom: an exception for the bond centre; an empty matrix exactly if the atom has no electrons in the shell; otherwise, if
the atom has enough orbitals, one row for each orbital in the least number of orbitals that hold the shell's electrons, the quadrature of the orbital with the basis functions of its `m`. -/
theorem C90_atomic (g : Grid) (hv : Spec.Valid g) (lh rh : Atom) (l : Nat) (m : Int) :
    atomicProjection g lh rh l m .middle = .throw .logicError ∧
    ∀ pr a, (pr = Probe.left ∧ a = lh) ∨ (pr = Probe.right ∧ a = rh) → 0 ≤ a.occs.getD l 0 →
      (a.occs.getD l 0 = 0 → atomicProjection g lh rh l m pr = .ok none) ∧
      ∀ n : Nat, a.occs.getD l 0 ≤ n * (2 * (2 * l + 1)) → ((n : Int) - 1) * (2 * (2 * l + 1)) < a.occs.getD l 0 → 0 < a.occs.getD l 0 →
        (a.ncols l < n → atomicProjection g lh rh l m pr = .ub) ∧
        (n ≤ a.ncols l → ∃ S, atomicProjection g lh rh l m pr = .ok (some S) ∧ S.rows = n ∧ S.cols = (Sym.pureIndices g.lm g.nrad).length ∧ ∀ i < S.rows, ∀ j < S.cols,
          S.get i j = if (Spec.ang g ((Sym.pureIndices g.lm g.nrad).getD j 0)).2 = m then
            Spec.quad g fun p c => Spec.orbital (fun r => a.orb l r i) l m g.Rhalf pr p.mu c * Spec.fn g ((Sym.pureIndices g.lm g.nrad).getD j 0) p c else 0) := by
  refine ⟨rfl, fun pr a hpa h0 => ?_⟩
  have hside : atomicProjection g lh rh l m pr = if a.occs.length ≤ l then .ok none
    else if nocc (a.occs.getD l 0) l = 0 then .ok none
      else if nocc (a.occs.getD l 0) l < 0 ∨ (a.ncols l : Int) < nocc (a.occs.getD l 0) l then .ub
      else projectionOf g (nocc (a.occs.getD l 0) l).toNat (a.orb l) l m pr >>= fun S => .ok (some S) := by
    rcases hpa with ⟨rfl, rfl⟩ | ⟨rfl, rfl⟩ <;> rfl
  have hpr : pr ≠ .middle := by rcases hpa with ⟨rfl, -⟩ | ⟨rfl, -⟩ <;> decide
  rw [hside]
  constructor
  · intro hz
    have : nocc (a.occs.getD l 0) l = 0 := by rw [hz]; simp [nocc]
    rw [if_pos this, ite_self]
  · intro n hn1 hn2 hpos
    have hlen : ¬a.occs.length ≤ l := by
      intro h
      rw [List.getD_eq_getElem?_getD, List.getElem?_eq_none h] at hpos
      simp at hpos
    obtain ⟨e1, e2⟩ := nocc_spec (a.occs.getD l 0) l
    have hn : nocc (a.occs.getD l 0) l = n := by
      have hp : (0 : Int) < 2 * (2 * l + 1) := by positivity
      apply le_antisymm
      · by_contra h
        have h2 : (n : Int) ≤ nocc (a.occs.getD l 0) l - 1 := by omega
        have := mul_le_mul_of_nonneg_right h2 hp.le
        omega
      · by_contra h
        have h2 : nocc (a.occs.getD l 0) l ≤ (n : Int) - 1 := by omega
        have := mul_le_mul_of_nonneg_right h2 hp.le
        omega
    have hn0 : n ≠ 0 := by
      rintro rfl
      rw [Nat.cast_zero, zero_mul] at hn1
      omega
    rw [if_neg hlen, hn, if_neg (by exact_mod_cast hn0)]
    constructor
    · intro h
      rw [if_pos (Or.inr (by exact_mod_cast h))]
    · intro h
      rw [if_neg (by omega)]
      obtain ⟨S, h1, h2, h3, h4⟩ := projectionOf_spec hv n (a.orb l) l m hpr
      refine ⟨S, ?_, h2, h3, fun i _ j hj => h4 i j hj⟩
      rw [Int.toNat_natCast, h1, Res.ok_bind]

/-! ### The hypotheses can be met -/

example : ∃ S, stoProjection onePoint 2 0 [1, 3] .right = .ok S ∧ S.rows = 2 ∧ S.cols = 1 := by
  obtain ⟨-, S, h1, h2, h3, -⟩ := C90_projection onePoint onePoint_valid 2 0 [1, 3] .right (by decide)
  exact ⟨S, h1, h2, h3⟩

example : ∃ S, gtoOverlap onePoint 1 1 [1, 3] .left = .ok S ∧ S.rows = 2 ∧ 0 ≤ ∑ i ∈ Finset.range 2, ∑ j ∈ Finset.range 2, 1 * S.get i j * 1 := by
  obtain ⟨⟨S, h1, h2, -⟩, -⟩ := C90_overlap onePoint onePoint_valid 1 1 [1, 3] .left (by decide)
  exact ⟨S, h1, h2, C90_overlap_psd onePoint onePoint_valid (by simp [onePoint]) (by simp [onePoint]) 1 1 [1, 3] .left (by decide) S (Or.inl h1) fun _ => 1⟩

example : ((([(1 / 2, 1), (-1 / 2, 1)] : List (ℚ × ℚ)).map fun a => (-a.1, a.2)).Perm [(1 / 2, 1), (-1 / 2, 1)]) := by decide +kernel

example : ∃ H, modelPotentialMatrix onePoint (fun r => some (-1 / r)) (fun _ => none) = .ok H ∧ H.rows = 1 := by
  obtain ⟨H, h1, h2, -⟩ := C90_model_potential onePoint onePoint_valid (fun r => some (-1 / r)) fun _ => none
  exact ⟨H, h1, h2⟩

/-- oxygen: two s orbitals and one p shell -/
example : ∃ S, atomicProjection onePoint ⟨[4, 4], fun _ => 5, fun _ r _ => r⟩ ⟨[], fun _ => 0, fun _ _ _ => 0⟩ 0 0 .left = .ok (some S) ∧ S.rows = 2 := by
  obtain ⟨S, h1, h2, -⟩ := (((C90_atomic onePoint onePoint_valid ⟨[4, 4], fun _ => 5, fun _ r _ => r⟩ ⟨[], fun _ => 0, fun _ _ _ => 0⟩ 0 0).2 .left _ (Or.inl ⟨rfl, rfl⟩)
    (by simp)).2 2 (by simp) (by simp) (by simp)).2 (by simp)
  exact ⟨S, h1, h2⟩

end HelFEM.TGrid
