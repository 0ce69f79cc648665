import Verif.Lemmas.PureMForm

/-!
# One radial point of the grid without azimuthal quadrature
-/

namespace HelFEM
namespace XC

open Matrix

/-! ### Sums with mirror images -/

theorem mirror_sum (ms : List Int) (hnd : ms.Nodup) (has : Int → Prop) (hhas : ∀ m ∈ ms, has m → -m ∈ ms ∧ has (-m)) (f g : Int → ℝ)
    (h0 : ∀ m ∈ ms, ¬has m → f m = g m) (hz : f 0 = g 0) (hp : ∀ m ∈ ms, has m → f m + f (-m) = g m + g (-m)) : (ms.map f).sum = (ms.map g).sum := by
  classical
  rw [← List.sum_toFinset f hnd, ← List.sum_toFinset g hnd, ← sub_eq_zero, ← Finset.sum_sub_distrib]
  refine Finset.sum_involution (fun m _ => if has m then -m else m) ?_ ?_ ?_ ?_
  · intro m hm
    rw [List.mem_toFinset] at hm
    beta_reduce
    split_ifs with h
    · have := hp m hm h
      linarith
    · rw [h0 m hm h]; ring
  · intro m hm hne
    rw [List.mem_toFinset] at hm
    beta_reduce
    split_ifs with h
    · intro he
      have : m = 0 := by omega
      rw [this, hz, sub_self] at hne
      exact hne rfl
    · rw [h0 m hm h, sub_self] at hne
      exact absurd rfl hne
  · intro m hm
    rw [List.mem_toFinset] at hm
    rw [List.mem_toFinset]
    split_ifs with h
    · exact (hhas m hm h).1
    · exact hm
  · intro m hm
    rw [List.mem_toFinset] at hm
    beta_reduce
    by_cases h : has m
    · rw [if_pos h, if_pos (hhas m hm h).2, neg_neg]
    · rw [if_neg h, if_neg h]

section
variable {n N : Nat}

theorem pair_ggaReal2 (H : Matrix (Fin n) (Fin n) ℝ) (gn : Fin N → Fin 2 → ℝ) (f g0 g1 : Matrix (Fin n) (Fin N) ℝ) (D : Matrix (Fin n) (Fin n) ℝ) :
    pair (incGgaReal H gn f ![g0, g1]) D =
      pair H D + ∑ p, (gn p 0 * (rform D (fun i => g0 i p) (fun i => f i p) + rform D (fun i => f i p) fun i => g0 i p) +
        gn p 1 * (rform D (fun i => g1 i p) (fun i => f i p) + rform D (fun i => f i p) fun i => g1 i p)) := by
  have half : ∀ D : Matrix (Fin n) (Fin n) ℝ, pair (gradWeighted gn ![g0, g1] * fᵀ) D =
      ∑ p, (gn p 0 * rform D (fun i => g0 i p) (fun i => f i p) + gn p 1 * rform D (fun i => g1 i p) fun i => f i p) := by
    intro D
    rw [pair_outer]
    refine Finset.sum_congr rfl fun p _ => ?_
    simp only [rform, gradWeighted_apply, Fin.sum_univ_two, Finset.mul_sum, ← Finset.sum_add_distrib]
    refine Finset.sum_congr rfl fun i _ => Finset.sum_congr rfl fun j _ => ?_
    simp only [Matrix.cons_val_zero, Matrix.cons_val_one]
    ring
  unfold incGgaReal
  simp only
  rw [pair_add, pair_add, pair_transpose, half, half, add_assoc, ← Finset.sum_add_distrib]
  congr 1
  refine Finset.sum_congr rfl fun p _ => ?_
  rw [rform_transpose, rform_transpose]
  ring

theorem pmMirror_eq (ms : List Int) (blk : Int → PmBlock N) (m : Int) :
    pmMirror ms blk m = if -m ∈ ms ∧ (blk (-m)).idx.length = (blk m).idx.length then some (-m) else none := by
  unfold pmMirror
  split_ifs with h
  · rcases hf : ms.find? (fun k => decide (k = -m ∧ (blk k).idx.length = (blk m).idx.length)) with _ | k
    · rw [List.find?_eq_none] at hf
      exact absurd (by simpa using h.2) (by simpa using hf (-m) h.1)
    · have := List.find?_some hf
      simp only [decide_eq_true_eq] at this
      rw [this.1]
  · rw [List.find?_eq_none]
    intro k hk
    simp only [decide_eq_true_eq]
    rintro ⟨rfl, h2⟩
    exact h ⟨hk, h2⟩

theorem pmMirror_some (ms : List Int) (blk : Int → PmBlock N) {m k : Int} (h : pmMirror ms blk m = some k) : k = -m ∧ -m ∈ ms ∧ (blk (-m)).idx.length = (blk m).idx.length := by
  rw [pmMirror_eq] at h
  split_ifs at h with h'
  exact ⟨(Option.some.inj h).symm, h'⟩

theorem pmMirror_neg (ms : List Int) (blk : Int → PmBlock N) {m : Int} (hm : m ∈ ms) (h : (pmMirror ms blk m).isSome = true) : -m ∈ ms ∧ (pmMirror ms blk (-m)).isSome = true := by
  obtain ⟨k, hk⟩ := Option.isSome_iff_exists.1 h
  obtain ⟨-, h1, h2⟩ := pmMirror_some ms blk hk
  refine ⟨h1, ?_⟩
  rw [pmMirror_eq, neg_neg, if_pos ⟨hm, h2.symm⟩]
  rfl

end

/-! ### Block terms -/

section point
variable (lm : List (Int × Int)) (nrad : Nat) (y : Int → Int → ℝ → ℝ) (R : Nat → ℝ → ℝ) (e : PmPoint)

/-- what `pmTerm` computes -/
noncomputable def termOf (fl : Flags) (D : Nat → Nat → ℝ) (m : Int) : PmSum e.nang where
  rho := fun ia => bRho lm nrad y R e ia m D
  gm := fun ia => if fl.grad then hs e ia * bGrad lm nrad y R e ia m D 0 else 0
  gn := fun ia => if fl.grad then hs e ia * bGrad lm nrad y R e ia m D 1 else 0
  kin := fun ia => if fl.tau || fl.lapl then bKin lm nrad y R e ia m D else 0
  lap := fun ia => if fl.lapl then bLap lm nrad y R e ia m D - 2 * bKin lm nrad y R e ia m D else 0

/-- the potential matrix of a block, contracted with a matrix -/
noncomputable def bChan (vr : ℝ) (s : Fin 2 → ℝ) (vl vt : ℝ) (m : Int) (X : Matrix (Fin (Dia.bfListDummyM lm nrad e.first e.last m).length) (Fin (Dia.bfListDummyM lm nrad e.first e.last m).length) ℝ) (ia : Fin e.nang) : ℝ :=
  let B : (Nat → ℝ) → (Nat → ℝ) → ℝ := fun u v => rform X (fun a => u (Dia.bfListDummyM lm nrad e.first e.last m)[a]) fun b => v (Dia.bfListDummyM lm nrad e.first e.last m)[b]
  let F := kF lm nrad y R e ia
  let kin := (hs e ia)⁻¹ * (hs e ia)⁻¹ * (B (kR lm nrad y R e ia) (kR lm nrad y R e ia) + B (kT lm nrad y R e ia) (kT lm nrad y R e ia)) + (hp e ia)⁻¹ * (hp e ia)⁻¹ * (m * m) * B F F
  (pmGeo e).w ia * (vr * B F F + (s 0 * ((hs e ia)⁻¹ * (B (kR lm nrad y R e ia) F + B F (kR lm nrad y R e ia))) + s 1 * ((hs e ia)⁻¹ * (B (kT lm nrad y R e ia) F + B F (kT lm nrad y R e ia)))) +
    vl * (B (kL lm nrad y R e ia) F + B F (kL lm nrad y R e ia) + 2 * kin) + vt * (1 / 2 * kin))

theorem bChan_sub (vr : ℝ) (s : Fin 2 → ℝ) (vl vt : ℝ) (m : Int) (D : Nat → Nat → ℝ) (ia : Fin e.nang) :
    bChan lm nrad y R e vr s vl vt m (sub D (Dia.bfListDummyM lm nrad e.first e.last m)) ia =
      (pmGeo e).w ia * (vr * bRho lm nrad y R e ia m D + (s 0 * bGrad lm nrad y R e ia m D 0 + s 1 * bGrad lm nrad y R e ia m D 1) + vl * bLap lm nrad y R e ia m D + vt * (1 / 2 * bKin lm nrad y R e ia m D)) := rfl

variable {lm nrad y R e}

theorem idx_lt (hf : e.first ≤ e.last) (hl : e.last < nrad) (m : Int) : ∀ i ∈ Dia.bfListDummyM lm nrad e.first e.last m, i < lm.length * nrad := by
  intro i hi
  rw [Dia.C38_bf_list_m lm nrad e.first e.last m hf hl] at hi
  have hi' := (List.mem_filter.1 hi).1
  simp only [Dia.bfListDummy, List.mem_flatMap, List.mem_map, List.mem_range] at hi'
  obtain ⟨k, hk, j, hj, rfl⟩ := hi'
  have : nrad * (k + 1) ≤ nrad * lm.length := Nat.mul_le_mul_left _ hk
  rw [Nat.mul_comm lm.length]
  rw [Nat.mul_add, Nat.mul_one] at this
  omega

theorem idx_ne (m : Int) (hm : m ∈ Sym.uniqueM lm) : Dia.bfListDummyM lm nrad e.first e.last m ≠ [] := by
  intro h
  have hl := block_length lm nrad e.first e.last m
  rw [h] at hl
  obtain ⟨p, hp, hpm⟩ := (Sym.mem_unique lm m).1 hm
  have : 0 < (Spec.lsOf lm m).length := by
    unfold Spec.lsOf
    rw [List.length_map]
    exact List.length_pos_of_mem (List.mem_filter.2 ⟨hp, by simpa using hpm⟩)
  have h2 := Nat.mul_pos this (show 0 < e.last - e.first + 1 by omega)
  rw [← hl] at h2
  simp at h2

variable (hS : Spec.Sampled nrad y R e) (hy : Spec.Harmonics y) (hang : Spec.Angular lm) (fl : Flags)

theorem sub_transpose {n : Nat} {P : Mat ℝ} (hP : Spec.Symm n P) (idx : List Nat) (h : ∀ i ∈ idx, i < n) : (sub P.get idx)ᵀ = sub P.get idx := by
  funext a b
  exact hP.2.2 _ (h _ (List.getElem_mem _)) _ (h _ (List.getElem_mem _))

include hS hy hang in
theorem pmTerm_ok {P : Mat ℝ} (hP : Spec.Symm (lm.length * nrad) P) (m : Int) : pmTerm fl (pmGeo e) P (pmBlock fl lm nrad e m) = .ok (termOf lm nrad y R e fl P.get m) := by
  have hG : gatherMat P (pmBlock fl lm nrad e m).idx = .ok (sub P.get (pmBlock fl lm nrad e m).idx) := gatherMat_ok P _ hP.1 hP.2.1 (idx_lt hS.first hS.last m)
  have hT : (sub P.get (pmBlock fl lm nrad e m).idx)ᵀ = sub P.get (pmBlock fl lm nrad e m).idx := sub_transpose hP _ (idx_lt hS.first hS.last m)
  have hsym : ∀ u v, rform (sub P.get (pmBlock fl lm nrad e m).idx) u v = rform (sub P.get (pmBlock fl lm nrad e m).idx) v u := by
    intro u v
    conv_lhs => rw [← hT]
    exact rform_transpose _ _ _
  have hfv := block_f hS hang fl m
  have hpos : ∀ ia, hs e ia ≠ 0 := fun ia => (hs_pos hS ia).ne'
  -- gradient-like terms
  have hg : ∀ (b : Bool) (g : Option (Matrix (Fin (pmBlock fl lm nrad e m).idx.length) (Fin e.nang) ℝ)) (k : Fin e.nang → Nat → ℝ),
      (b = true → g = some (Matrix.of fun a ia => k ia (pmBlock fl lm nrad e m).idx[a])) → pmGradTerm b (sub P.get (pmBlock fl lm nrad e m).idx) (pmBlock fl lm nrad e m).f g =
        .ok fun ia => if b then bform lm nrad e m P.get (k ia) (kF lm nrad y R e ia) + bform lm nrad e m P.get (kF lm nrad y R e ia) (k ia) else 0 := by
    intro b g k hk
    unfold pmGradTerm
    rcases b with _ | _
    · simp only [if_neg (show ¬ false = true by simp)]; rfl
    · rw [hk rfl, if_pos rfl]
      simp only [need, Res.ok_bind, if_true]
      congr 1
      funext ia
      have h2 := hsym (fun a => kF lm nrad y R e ia (pmBlock fl lm nrad e m).idx[a]) fun a => k ia (pmBlock fl lm nrad e m).idx[a]
      rw [quad_rform, hfv, two_mul]
      exact congrArg₂ (· + ·) rfl h2.symm
  have hk : pmKinTerm (fl.tau || fl.lapl) (pmGeo e) m (sub P.get (pmBlock fl lm nrad e m).idx) (pmBlock fl lm nrad e m).f (pmBlock fl lm nrad e m).dr (pmBlock fl lm nrad e m).dth =
      .ok fun ia => if fl.tau || fl.lapl then bKin lm nrad y R e ia m P.get else 0 := by
    unfold pmKinTerm
    by_cases h : (fl.tau || fl.lapl) = true
    · have hd : (fl.grad || fl.tau || fl.lapl) = true := by rw [Bool.or_assoc, h, Bool.or_true]
      rw [if_pos h, block_r hS hang fl m hd, block_t hS hy hang fl m hd]
      simp only [need, Res.ok_bind, h, if_true]
      congr 1
      funext ia
      rw [quad_rform, quad_rform, quad_rform, hfv, ir2_eq hS, ip2_eq hS]
      change bform lm nrad e m P.get (kR lm nrad y R e ia) (kR lm nrad y R e ia) * _ + bform lm nrad e m P.get (kT lm nrad y R e ia) (kT lm nrad y R e ia) * _ +
        ((m * m : Int) : ℝ) * bform lm nrad e m P.get (kF lm nrad y R e ia) (kF lm nrad y R e ia) * _ = _
      unfold bKin bRho
      push_cast
      ring
    · rw [if_neg h]
      simp only [h]
      rfl
  unfold pmTerm
  rw [hG, Res.ok_bind, hg fl.grad _ (fun ia => kR lm nrad y R e ia) (fun h => block_r hS hang fl m (by simp [h])), Res.ok_bind,
    hg fl.grad _ (fun ia => kT lm nrad y R e ia) (fun h => block_t hS hy hang fl m (by simp [h])), Res.ok_bind]
  have hm : (pmBlock fl lm nrad e m).m = m := rfl
  rw [hm, hk, Res.ok_bind, hg fl.lapl _ (fun ia => kL lm nrad y R e ia) (fun h => block_l hS hy hang fl m h), Res.ok_bind]
  congr 1
  unfold termOf
  rw [PmSum.mk.injEq]
  refine ⟨?_, ?_, ?_, rfl, ?_⟩
  · funext ia
    rw [quad_rform, hfv]
    rfl
  · funext ia
    unfold bGrad
    rw [← mul_assoc, mul_inv_cancel₀ (hpos ia), one_mul]
    rfl
  · funext ia
    unfold bGrad
    rw [← mul_assoc, mul_inv_cancel₀ (hpos ia), one_mul]
    rfl
  · funext ia
    unfold bLap
    rw [add_sub_cancel_right]

/-! ### Mirror images -/

variable (hpair : Spec.Paired lm)

/-- the functions change by the sign `(-1)^m` -/
def Signed (lm : List (Int × Int)) (nrad : Nat) (u : Nat → ℝ) : Prop :=
  ∀ k k', |Spec.mOf lm nrad k| ≤ Spec.lOf lm nrad k → Spec.Flip lm nrad k k' → ∃ σ : ℝ, σ * σ = 1 ∧ σ = (-1) ^ (Spec.mOf lm nrad k).natAbs ∧ u k' = σ * u k

include hy in
theorem signed_vals (ia : Fin e.nang) : Signed lm nrad (kF lm nrad y R e ia) ∧ Signed lm nrad (kR lm nrad y R e ia) ∧ Signed lm nrad (kT lm nrad y R e ia) ∧ Signed lm nrad (kL lm nrad y R e ia) := by
  refine ⟨?_, ?_, ?_, ?_⟩ <;> intro k k' hk hf <;> obtain ⟨σ, h1, h2, h3, h4, h5, h6⟩ := flip_vals (R := R) ia hy hk hf
  · exact ⟨σ, h1, h2, h3⟩
  · exact ⟨σ, h1, h2, h4⟩
  · exact ⟨σ, h1, h2, h5⟩
  · exact ⟨σ, h1, h2, h6⟩

include hS hy hang hpair in
theorem bChan_flip (vr : ℝ) (s : Fin 2 → ℝ) (vl vt : ℝ) {m : Int} (hlen : (Dia.bfListDummyM lm nrad e.first e.last (-m)).length = (Dia.bfListDummyM lm nrad e.first e.last m).length)
    (X : Matrix (Fin (Dia.bfListDummyM lm nrad e.first e.last (-m)).length) (Fin (Dia.bfListDummyM lm nrad e.first e.last (-m)).length) ℝ) (ia : Fin e.nang) :
    bChan lm nrad y R e vr s vl vt m (X.submatrix (Fin.cast hlen.symm) (Fin.cast hlen.symm)) ia = bChan lm nrad y R e vr s vl vt (-m) X ia := by
  obtain ⟨sF, sR, sT, sL⟩ := signed_vals (lm := lm) (nrad := nrad) (y := y) (R := R) (e := e) hy ia
  unfold bChan
  simp only
  rw [bform_flip hS hy hang hpair hlen ia _ _ sF sF X, bform_flip hS hy hang hpair hlen ia _ _ sR sF X, bform_flip hS hy hang hpair hlen ia _ _ sF sR X,
    bform_flip hS hy hang hpair hlen ia _ _ sT sF X, bform_flip hS hy hang hpair hlen ia _ _ sF sT X, bform_flip hS hy hang hpair hlen ia _ _ sR sR X,
    bform_flip hS hy hang hpair hlen ia _ _ sT sT X, bform_flip hS hy hang hpair hlen ia _ _ sL sF X, bform_flip hS hy hang hpair hlen ia _ _ sF sL X]
  push_cast
  rw [neg_mul_neg]

/-- elements that agree between mirror images -/
def Mirrored (lm : List (Int × Int)) (nrad : Nat) (D : Nat → Nat → ℝ) : Prop :=
  ∀ a b a' b' : Nat, a < lm.length * nrad → b < lm.length * nrad → a' < lm.length * nrad → b' < lm.length * nrad → Spec.Flip lm nrad a a' → Spec.Flip lm nrad b b' → D a' b' = D a b

include hS hy hang hpair in
theorem bform_mirrored {D : Nat → Nat → ℝ} (hD : Mirrored lm nrad D) {m : Int} (hlen : (Dia.bfListDummyM lm nrad e.first e.last (-m)).length = (Dia.bfListDummyM lm nrad e.first e.last m).length)
    (ia : Fin e.nang) {u v : Nat → ℝ} (hu : Signed lm nrad u) (hv : Signed lm nrad v) : bform lm nrad e (-m) D u v = bform lm nrad e m D u v := by
  unfold bform
  rw [← bform_flip hS hy hang hpair hlen ia u v hu hv]
  congr 1
  funext a b
  have ha := row_flip hS hpair hlen (Fin.cast hlen.symm a)
  have hb := row_flip hS hpair hlen (Fin.cast hlen.symm b)
  exact hD _ _ _ _ (idx_lt hS.first hS.last m _ (List.getElem_mem _)) (idx_lt hS.first hS.last m _ (List.getElem_mem _)) (idx_lt hS.first hS.last (-m) _ (List.getElem_mem _))
    (idx_lt hS.first hS.last (-m) _ (List.getElem_mem _)) ha hb

include hS hy hang hpair in
theorem termOf_mirrored {D : Nat → Nat → ℝ} (hD : Mirrored lm nrad D) {m : Int} (hlen : (Dia.bfListDummyM lm nrad e.first e.last (-m)).length = (Dia.bfListDummyM lm nrad e.first e.last m).length) :
    termOf lm nrad y R e fl D (-m) = termOf lm nrad y R e fl D m := by
  have h : ∀ (ia : Fin e.nang) {u v : Nat → ℝ}, Signed lm nrad u → Signed lm nrad v → bform lm nrad e (-m) D u v = bform lm nrad e m D u v :=
    fun ia {u v} hu hv => bform_mirrored hS hy hang hpair hD hlen ia hu hv
  have hr : ∀ ia, bRho lm nrad y R e ia (-m) D = bRho lm nrad y R e ia m D := by
    intro ia
    obtain ⟨sF, sR, sT, sL⟩ := signed_vals (lm := lm) (nrad := nrad) (y := y) (R := R) (e := e) hy ia
    exact h ia sF sF
  have hg : ∀ ia c, bGrad lm nrad y R e ia (-m) D c = bGrad lm nrad y R e ia m D c := by
    intro ia c
    obtain ⟨sF, sR, sT, sL⟩ := signed_vals (lm := lm) (nrad := nrad) (y := y) (R := R) (e := e) hy ia
    unfold bGrad
    have hc : Signed lm nrad (![kR lm nrad y R e ia, kT lm nrad y R e ia] c) := by
      fin_cases c
      · exact sR
      · exact sT
    rw [h ia hc sF, h ia sF hc]
  have hk : ∀ ia, bKin lm nrad y R e ia (-m) D = bKin lm nrad y R e ia m D := by
    intro ia
    obtain ⟨sF, sR, sT, sL⟩ := signed_vals (lm := lm) (nrad := nrad) (y := y) (R := R) (e := e) hy ia
    unfold bKin
    rw [h ia sR sR, h ia sT sT, hr]
    push_cast
    rw [neg_mul_neg]
  have hl : ∀ ia, bLap lm nrad y R e ia (-m) D = bLap lm nrad y R e ia m D := by
    intro ia
    obtain ⟨sF, sR, sT, sL⟩ := signed_vals (lm := lm) (nrad := nrad) (y := y) (R := R) (e := e) hy ia
    unfold bLap
    rw [h ia sL sF, h ia sF sL, hk]
  unfold termOf
  simp only [hr, hg, hk, hl]

/-! ### Sums over the blocks -/

theorem plus_zero {N : Nat} (s t : PmSum N) : s.plus 0 t = s := by
  unfold PmSum.plus
  simp

theorem fold_plus {N : Nat} (step : PmSum N → Int → Res (PmSum N)) (T : Int → PmSum N) (wt : Int → ℝ) (l : List Int) (h : ∀ m ∈ l, ∀ s, step s m = .ok (s.plus (wt m) (T m))) (s : PmSum N) :
    l.foldlM step s = .ok ⟨fun p => s.rho p + (l.map fun m => wt m * (T m).rho p).sum, fun p => s.gm p + (l.map fun m => wt m * (T m).gm p).sum, fun p => s.gn p + (l.map fun m => wt m * (T m).gn p).sum,
      fun p => s.kin p + (l.map fun m => wt m * (T m).kin p).sum, fun p => s.lap p + (l.map fun m => wt m * (T m).lap p).sum⟩ := by
  induction l generalizing s with
  | nil => simp
  | cons a r ih =>
    rw [List.foldlM_cons, h a List.mem_cons_self, Res.ok_bind, ih (fun m hm => h m (List.mem_cons_of_mem _ hm))]
    simp only [PmSum.plus, List.map_cons, List.sum_cons, add_assoc]

/-- sums of block terms -/
noncomputable def sumsOf (lm : List (Int × Int)) (nrad : Nat) (y : Int → Int → ℝ → ℝ) (R : Nat → ℝ → ℝ) (e : PmPoint) (fl : Flags) (D : Nat → Nat → ℝ) : PmSum e.nang :=
  ⟨fun p => ((Sym.uniqueM lm).map fun m => (termOf lm nrad y R e fl D m).rho p).sum, fun p => ((Sym.uniqueM lm).map fun m => (termOf lm nrad y R e fl D m).gm p).sum,
    fun p => ((Sym.uniqueM lm).map fun m => (termOf lm nrad y R e fl D m).gn p).sum, fun p => ((Sym.uniqueM lm).map fun m => (termOf lm nrad y R e fl D m).kin p).sum,
    fun p => ((Sym.uniqueM lm).map fun m => (termOf lm nrad y R e fl D m).lap p).sum⟩

include hS hy hang in
theorem pmSums_ok {P : Mat ℝ} (hP : Spec.Symm (lm.length * nrad) P) (share : Bool) (hsh : share = true → Spec.Paired lm ∧ Mirrored lm nrad P.get) :
    pmSums fl share (pmGeo e) P (Sym.uniqueM lm) (pmBlock fl lm nrad e) = .ok (sumsOf lm nrad y R e fl P.get) := by
  obtain ⟨mir, hmir⟩ : ∃ mir : Int → Option Int, mir = fun m => if share then pmMirror (Sym.uniqueM lm) (pmBlock fl lm nrad e) m else none := ⟨_, rfl⟩
  have hstep : ∀ m ∈ Sym.uniqueM lm, ∀ s, pmDensStep fl share (pmGeo e) P (Sym.uniqueM lm) (pmBlock fl lm nrad e) s m =
      .ok (s.plus (if m < 0 ∧ (mir m).isSome = true then 0 else if 0 < m ∧ (mir m).isSome = true then 2 else 1) (termOf lm nrad y R e fl P.get m)) := by
    intro m hm s
    have hm' : mir m = if share then pmMirror (Sym.uniqueM lm) (pmBlock fl lm nrad e) m else none := by rw [hmir]
    unfold pmDensStep
    rw [if_neg (show ¬(pmBlock fl lm nrad e m).idx = [] from idx_ne m hm)]
    simp only
    rw [← hm']
    split_ifs with h1 h2
    · rw [plus_zero]
    · rw [pmTerm_ok hS hy hang fl hP, Res.ok_bind]
    · rw [pmTerm_ok hS hy hang fl hP, Res.ok_bind]
  unfold pmSums
  rw [fold_plus _ _ _ _ hstep]
  have hsum : ∀ F : PmSum e.nang → ℝ, ((Sym.uniqueM lm).map fun m => (if m < 0 ∧ (mir m).isSome = true then (0 : ℝ) else if 0 < m ∧ (mir m).isSome = true then 2 else 1) * F (termOf lm nrad y R e fl P.get m)).sum =
      ((Sym.uniqueM lm).map fun m => F (termOf lm nrad y R e fl P.get m)).sum := by
    intro F
    have hS' : ∀ m, (mir m).isSome = true → share = true ∧ (pmMirror (Sym.uniqueM lm) (pmBlock fl lm nrad e) m).isSome = true := by
      intro m h
      rw [hmir] at h
      rcases share with _ | _
      · simp at h
      · exact ⟨rfl, by simpa using h⟩
    have hneg : ∀ m ∈ Sym.uniqueM lm, (mir m).isSome = true → -m ∈ Sym.uniqueM lm ∧ (mir (-m)).isSome = true := by
      intro m hm h
      obtain ⟨h1, h2⟩ := hS' m h
      have := pmMirror_neg _ _ hm h2
      refine ⟨this.1, ?_⟩
      rw [hmir]
      simp only [h1, if_true]
      exact this.2
    refine mirror_sum _ (unique_nodup lm) (fun m => (mir m).isSome = true) hneg _ _ ?_ ?_ ?_
    · intro m _ h
      rw [if_neg (fun hh => h hh.2), if_neg (fun hh => h hh.2), one_mul]
    · simp
    · intro m hm h
      obtain ⟨h1, h2⟩ := hS' m h
      obtain ⟨hp, hM⟩ := hsh h1
      obtain ⟨k, hk⟩ := Option.isSome_iff_exists.1 h2
      obtain ⟨-, -, hlen⟩ := pmMirror_some _ _ hk
      have ht := termOf_mirrored hS hy hang fl hp hM (m := m) hlen
      have h' := (hneg m hm h).2
      simp only [h, h', and_true, ht]
      rcases lt_trichotomy m 0 with hm0 | hm0 | hm0
      · rw [if_pos hm0, if_neg (by omega), if_pos (by omega)]; ring
      · subst hm0; simp
      · rw [if_neg (by omega), if_pos hm0, if_pos (by omega)]; ring
  congr 1
  unfold sumsOf PmSum.zero
  rw [PmSum.mk.injEq]
  refine ⟨?_, ?_, ?_, ?_, ?_⟩ <;> funext p <;> simp only [Pi.zero_apply, zero_add]
  · exact hsum fun t => t.rho p
  · exact hsum fun t => t.gm p
  · exact hsum fun t => t.gn p
  · exact hsum fun t => t.kin p
  · exact hsum fun t => t.lap p

end point

end XC
end HelFEM
