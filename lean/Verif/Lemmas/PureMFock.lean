import Verif.Lemmas.PureMGrid

/-!
# The grid without azimuthal quadrature, over all points
-/

namespace HelFEM
namespace XC

open Matrix

section point
variable {lm : List (Int × Int)} {nrad : Nat} {y : Int → Int → ℝ → ℝ} {R : Nat → ℝ → ℝ} {e : PmPoint}
  (hS : Spec.Sampled nrad y R e) (hy : Spec.Harmonics y) (hang : Spec.Angular lm) {fl : Flags}

/-! ### Densities -/

include hS in
theorem grad_sums (hg : fl.grad = true) (D : Nat → Nat → ℝ) (c : Fin 2) (p : Fin e.nang) :
    (sumsOf lm nrad y R e fl D).grad (pmGeo e) c p = Spec.grad (bd lm nrad D) (Spec.pmPoint lm nrad y R 0 e p) (Fin.castSucc c) := by
  have hpos : hs e p ≠ 0 := (hs_pos hS p).ne'
  rw [grad_blocks lm nrad y R e p hS.first hS.last]
  have h : ∀ c : Fin 2, ((Sym.uniqueM lm).map fun m => hs e p * bGrad lm nrad y R e p m D c).sum / hs e p = ((Sym.uniqueM lm).map fun m => bGrad lm nrad y R e p m D c).sum := by
    intro c
    rw [lsum_mul, mul_comm, mul_div_assoc, div_self hpos, mul_one]
  unfold PmSum.grad
  fin_cases c
  · rw [← h]
    simp [sumsOf, termOf, hg, sc_eq hS]
  · rw [← h]
    simp [sumsOf, termOf, hg, sc_eq hS]

include hS in
theorem sigma_sums (hg : fl.grad = true) (A B : Nat → Nat → ℝ) (p : Fin e.nang) :
    (sumsOf lm nrad y R e fl A).grad (pmGeo e) 0 p * (sumsOf lm nrad y R e fl B).grad (pmGeo e) 0 p +
      (sumsOf lm nrad y R e fl A).grad (pmGeo e) 1 p * (sumsOf lm nrad y R e fl B).grad (pmGeo e) 1 p =
      ∑ c, Spec.grad (bd lm nrad A) (Spec.pmPoint lm nrad y R 0 e p) c * Spec.grad (bd lm nrad B) (Spec.pmPoint lm nrad y R 0 e p) c := by
  rw [grad_sums hS hg, grad_sums hS hg, grad_sums hS hg, grad_sums hS hg, Fin.sum_univ_three, grad_phi lm nrad y R e p hS.first hS.last, zero_mul, add_zero]
  rfl

include hS in
theorem tau_sums (ht : fl.tau = true) (D : Nat → Nat → ℝ) (p : Fin e.nang) : 0.5 * (sumsOf lm nrad y R e fl D).kin p = Spec.tau (bd lm nrad D) (Spec.pmPoint lm nrad y R 0 e p) := by
  rw [tau_blocks lm nrad y R e p hS.first hS.last, lsum_mul]
  simp only [sumsOf, termOf, ht, Bool.true_or, if_true]
  norm_num

include hS in
theorem lapl_sums (hl : fl.lapl = true) (D : Nat → Nat → ℝ) (p : Fin e.nang) :
    (sumsOf lm nrad y R e fl D).lap p + 2 * (sumsOf lm nrad y R e fl D).kin p = Spec.lapl (bd lm nrad D) (Spec.pmPoint lm nrad y R 0 e p) := by
  rw [lapl_blocks lm nrad y R e p hS.first hS.last]
  simp only [sumsOf, termOf, hl, Bool.or_true, if_true]
  rw [← lsum_mul, ← lsum_add]
  refine congrArg List.sum (List.map_congr_left fun m _ => ?_)
  ring

include hS in
theorem rho_sums (D : Nat → Nat → ℝ) (p : Fin e.nang) : (sumsOf lm nrad y R e fl D).rho p = Spec.rho (bd lm nrad D) (Spec.pmPoint lm nrad y R 0 e p) :=
  (rho_blocks lm nrad y R e p hS.first hS.last D).symm

include hS hy hang in
theorem pmDensity1_ok {P : Mat ℝ} (hP : Spec.Symm (lm.length * nrad) P) (share : Bool) (hsh : share = true → Spec.Paired lm ∧ Mirrored lm nrad P.get) :
    ∃ q, pmDensity1 fl share (pmGeo e) P (Sym.uniqueM lm) (pmBlock fl lm nrad e) = .ok q ∧
      HoldsQ fl q (fun p => Spec.input (bd lm nrad P.get) (Spec.pmPoint lm nrad y R 0 e p)) ∧
      (fl.grad = true → q.grho = some fun c p => Spec.grad (bd lm nrad P.get) (Spec.pmPoint lm nrad y R 0 e p) (Fin.castSucc c)) := by
  unfold pmDensity1
  rw [pmSums_ok hS hy hang fl hP share hsh, Res.ok_bind]
  refine ⟨_, rfl, ⟨?_, ?_, ?_, ?_⟩, ?_⟩
  · funext p
    exact rho_sums hS _ p
  · intro h
    simp only [h, if_true]
    congr 1
    funext p
    exact sigma_sums hS h _ _ p
  · intro h
    simp only [h, if_true]
    congr 1
    funext p
    exact tau_sums hS h _ p
  · intro h
    simp only [h, if_true]
    congr 1
    funext p
    exact lapl_sums hS h _ p
  · intro h
    simp only [h, if_true]
    congr 1
    funext c p
    exact grad_sums hS h _ c p

include hS hy hang in
theorem pmDensity2_ok {A B : Mat ℝ} (hA : Spec.Symm (lm.length * nrad) A) (hB : Spec.Symm (lm.length * nrad) B) :
    ∃ q, pmDensity2 fl (pmGeo e) A B (Sym.uniqueM lm) (pmBlock fl lm nrad e) = .ok q ∧
      HoldsQ2 fl q (fun p => Spec.inputs (bd lm nrad A.get) (bd lm nrad B.get) (Spec.pmPoint lm nrad y R 0 e p)) ∧
      (fl.grad = true → q.grho = some (fun c p => Spec.grad (bd lm nrad A.get) (Spec.pmPoint lm nrad y R 0 e p) (Fin.castSucc c),
        fun c p => Spec.grad (bd lm nrad B.get) (Spec.pmPoint lm nrad y R 0 e p) (Fin.castSucc c))) := by
  unfold pmDensity2
  rw [pmSums_ok hS hy hang fl hA false (by simp), Res.ok_bind, pmSums_ok hS hy hang fl hB false (by simp), Res.ok_bind]
  refine ⟨_, rfl, ⟨?_, ?_, ?_, ?_, ?_⟩, ?_⟩
  · funext p
    exact rho_sums hS _ p
  · funext p
    exact rho_sums hS _ p
  · intro h
    simp only [h, if_true]
    congr 1
    refine Prod.ext ?_ (Prod.ext ?_ ?_) <;> funext p <;> exact sigma_sums hS h _ _ p
  · intro h
    simp only [h, if_true]
    congr 1
    refine Prod.ext ?_ ?_ <;> funext p <;> exact tau_sums hS h _ p
  · intro h
    simp only [h, if_true]
    congr 1
    refine Prod.ext ?_ ?_ <;> funext p <;> exact lapl_sums hS h _ p
  · intro h
    simp only [h, if_true]
    congr 1
    refine Prod.ext ?_ ?_ <;> funext c p <;> exact grad_sums hS h _ c p

/-! ### Potential matrices -/

include hS hy hang in
theorem pmChannel_ok {u : Spec.Uses} (hcov : Covers fl u) (m : Int) {vrho vt vl : Fin e.nang → ℝ} {s : Fin e.nang → Fin 2 → ℝ} {gn : Res (Fin e.nang → Fin 2 → ℝ)} {vtau vlapl : Buf e.nang}
    (hgn : u.grad = true → ∃ g, gn = .ok g ∧ ∀ p c, g p c = (pmGeo e).w p * s p c * (hs e p)⁻¹) (ht : u.tau = true → vtau = some vt) (hl : u.lapl = true → vlapl = some vl)
    (hs0 : u.grad = false → ∀ p c, s p c = 0) (ht0 : u.tau = false → ∀ p, vt p = 0) (hl0 : u.lapl = false → ∀ p, vl p = 0) :
    ∃ H, pmChannel u.grad u.tau u.lapl (pmGeo e) (pmBlock fl lm nrad e m) vrho gn vtau vlapl = .ok H ∧
      ∀ X : Matrix (Fin (Dia.bfListDummyM lm nrad e.first e.last m).length) (Fin (Dia.bfListDummyM lm nrad e.first e.last m).length) ℝ,
        pair H X = ∑ p, bChan lm nrad y R e (vrho p) (s p) (vl p) (vt p) m X p := by
  obtain ⟨B, hB⟩ : ∃ B : Matrix (Fin (pmBlock fl lm nrad e m).idx.length) (Fin (pmBlock fl lm nrad e m).idx.length) ℝ → (Nat → ℝ) → (Nat → ℝ) → ℝ,
    B = fun X u v => rform X (fun a => u (pmBlock fl lm nrad e m).idx[a]) fun b => v (pmBlock fl lm nrad e m).idx[b] := ⟨_, rfl⟩
  have hfv := block_f hS hang fl m
  obtain ⟨F, hF⟩ : ∃ F, F = kF lm nrad y R e := ⟨_, rfl⟩
  obtain ⟨Kr, hKr⟩ : ∃ F, F = kR lm nrad y R e := ⟨_, rfl⟩
  obtain ⟨Kt, hKt⟩ : ∃ F, F = kT lm nrad y R e := ⟨_, rfl⟩
  obtain ⟨Kl, hKl⟩ : ∃ F, F = kL lm nrad y R e := ⟨_, rfl⟩
  have h0 : ∀ X : Matrix (Fin (pmBlock fl lm nrad e m).idx.length) (Fin (pmBlock fl lm nrad e m).idx.length) ℝ,
      pair (incLda 0 (fun p => vrho p * (pmGeo e).w p) (pmBlock fl lm nrad e m).f) X = ∑ p, vrho p * (pmGeo e).w p * B X (F p) (F p) := by
    intro X
    rw [pair_lda, pair_zero, zero_add, hfv, hF, hB]
    rfl
  obtain ⟨H0, hH0⟩ : ∃ H, H = incLda 0 (fun p => vrho p * (pmGeo e).w p) (pmBlock fl lm nrad e m).f := ⟨_, rfl⟩
  rw [← hH0] at h0
  have h1 : ∃ H, pmGga u.grad (pmBlock fl lm nrad e m) gn H0 = .ok H ∧ ∀ X, pair H X = pair H0 X + ∑ p, ((pmGeo e).w p * s p 0 * (hs e p)⁻¹ * (B X (Kr p) (F p) + B X (F p) (Kr p)) +
      (pmGeo e).w p * s p 1 * (hs e p)⁻¹ * (B X (Kt p) (F p) + B X (F p) (Kt p))) := by
    unfold pmGga
    by_cases h : u.grad = true
    · have hd : (fl.grad || fl.tau || fl.lapl) = true := by rw [hcov.1 h]; rfl
      obtain ⟨g, e1, e2⟩ := hgn h
      rw [if_pos h, e1, Res.ok_bind, block_r hS hang fl m hd, block_t hS hy hang fl m hd]
      simp only [need, Res.ok_bind]
      refine ⟨_, rfl, fun X => ?_⟩
      rw [pair_ggaReal2, hfv, hF, hKr, hKt, hB]
      congr 1
      refine Finset.sum_congr rfl fun p _ => ?_
      rw [e2, e2]
      rfl
    · rw [if_neg h]
      refine ⟨_, rfl, fun X => ?_⟩
      have h' : u.grad = false := by simpa using h
      simp [hs0 h']
  obtain ⟨H1, e1, p1⟩ := h1
  have hw := vtlWeights_ok (pmGeo e).w u.tau u.lapl vtau vlapl vt vl ht hl ht0 hl0
  have h2 : ∃ H, pmKin (u.tau || u.lapl) (pmGeo e) (pmBlock fl lm nrad e m) (vtlWeights (pmGeo e).w u.tau u.lapl vtau vlapl) H1 = .ok H ∧ ∀ X, pair H X = pair H1 X +
      ∑ p, (1 / 2 * vt p + 2 * vl p) * (pmGeo e).w p * ((hs e p)⁻¹ * (hs e p)⁻¹ * (B X (Kr p) (Kr p) + B X (Kt p) (Kt p)) + (hp e p)⁻¹ * (hp e p)⁻¹ * (m * m) * B X (F p) (F p)) := by
    unfold pmKin
    by_cases h : (u.tau || u.lapl) = true
    · have hd : (fl.grad || fl.tau || fl.lapl) = true := by
        rcases Bool.or_eq_true_iff.1 h with h | h
        · rw [hcov.2.1 h]; simp
        · rw [hcov.2.2 h]; simp
      rw [if_pos h, hw, Res.ok_bind, block_r hS hang fl m hd, block_t hS hy hang fl m hd]
      simp only [need, Res.ok_bind]
      refine ⟨_, rfl, fun X => ?_⟩
      have hbm : (pmBlock fl lm nrad e m).m = m := rfl
      rw [hbm]
      have key : ∀ H : Matrix (Fin (pmBlock fl lm nrad e m).idx.length) (Fin (pmBlock fl lm nrad e m).idx.length) ℝ,
          pair (if m * m ≠ 0 then incLda H (fun p => (1 / 2 * vt p + 2 * vl p) * (pmGeo e).w p * (pmGeo e).ip2 p * (m * m : Int)) (pmBlock fl lm nrad e m).f else H) X =
            pair H X + ∑ p, (1 / 2 * vt p + 2 * vl p) * (pmGeo e).w p * ((hp e p)⁻¹ * (hp e p)⁻¹ * (m * m) * B X (F p) (F p)) := by
        intro H
        split_ifs with h0
        · rw [pair_lda, hfv, hF, hB]
          congr 1
          refine Finset.sum_congr rfl fun p _ => ?_
          rw [ip2_eq hS]
          push_cast
          simp only [Matrix.of_apply]
          ring
        · have : m = 0 := by
            push Not at h0
            simpa using h0
          simp [this]
      refine (key _).trans ?_
      rw [pair_lda, pair_lda, add_assoc, add_assoc, ← Finset.sum_add_distrib, ← Finset.sum_add_distrib, hKr, hKt]
      congr 1
      refine Finset.sum_congr rfl fun p _ => ?_
      rw [ir2_eq hS]
      rw [hB]
      simp only [Matrix.of_apply]
      ring
    · rw [if_neg h]
      refine ⟨_, rfl, fun X => ?_⟩
      simp only [Bool.or_eq_true, not_or, Bool.not_eq_true] at h
      simp [ht0 h.1, hl0 h.2]
  obtain ⟨H2, e2, p2⟩ := h2
  have h3 : ∃ H, pmLapl u.lapl (pmGeo e) (pmBlock fl lm nrad e m) vlapl H2 = .ok H ∧ ∀ X, pair H X = pair H2 X + ∑ p, vl p * (pmGeo e).w p * (B X (Kl p) (F p) + B X (F p) (Kl p)) := by
    unfold pmLapl
    by_cases h : u.lapl = true
    · rw [if_pos h, hl h, block_l hS hy hang fl m (hcov.2.2 h)]
      simp only [need, Res.ok_bind]
      refine ⟨_, rfl, fun X => ?_⟩
      rw [pair_lapl, hfv, hF, hKl, hB]
      rfl
    · rw [if_neg h]
      refine ⟨_, rfl, fun X => ?_⟩
      have h' : u.lapl = false := by simpa using h
      simp [hl0 h']
  obtain ⟨H3, e3, p3⟩ := h3
  have hfin : ∀ X, pair H3 X = ∑ p, (pmGeo e).w p * (vrho p * B X (F p) (F p) + (s p 0 * ((hs e p)⁻¹ * (B X (Kr p) (F p) + B X (F p) (Kr p))) + s p 1 * ((hs e p)⁻¹ * (B X (Kt p) (F p) + B X (F p) (Kt p)))) +
      vl p * (B X (Kl p) (F p) + B X (F p) (Kl p) + 2 * ((hs e p)⁻¹ * (hs e p)⁻¹ * (B X (Kr p) (Kr p) + B X (Kt p) (Kt p)) + (hp e p)⁻¹ * (hp e p)⁻¹ * (m * m) * B X (F p) (F p))) +
      vt p * (1 / 2 * ((hs e p)⁻¹ * (hs e p)⁻¹ * (B X (Kr p) (Kr p) + B X (Kt p) (Kt p)) + (hp e p)⁻¹ * (hp e p)⁻¹ * (m * m) * B X (F p) (F p)))) := by
    intro X
    rw [p3, p2, p1, h0, ← Finset.sum_add_distrib, ← Finset.sum_add_distrib, ← Finset.sum_add_distrib]
    exact Finset.sum_congr rfl fun p _ => by ring
  refine ⟨H3, ?_, fun X => ?_⟩
  · unfold pmChannel
    rw [← hH0, e1, Res.ok_bind, e2, Res.ok_bind, e3]
  · refine (hfin X).trans ?_
    rw [hB, hF, hKr, hKt, hKl]
    rfl

include hS hy hang in
/-- all blocks of one spin -/
theorem pmFock_ok (hpair : Spec.Paired lm) {ch : (B : PmBlock e.nang) → Res (Matrix (Fin B.idx.length) (Fin B.idx.length) ℝ)} {vrho vt vl : Fin e.nang → ℝ} {s : Fin e.nang → Fin 2 → ℝ}
    (hch : ∀ m ∈ Sym.uniqueM lm, ∃ H, ch (pmBlock fl lm nrad e m) = .ok H ∧
      ∀ X : Matrix (Fin (Dia.bfListDummyM lm nrad e.first e.last m).length) (Fin (Dia.bfListDummyM lm nrad e.first e.last m).length) ℝ,
        pair H X = ∑ p, bChan lm nrad y R e (vrho p) (s p) (vl p) (vt p) m X p) (H : Mat ℝ) (hr : H.rows = lm.length * nrad) (hc : H.cols = lm.length * nrad) :
    ∃ Hn, pmFock (Sym.uniqueM lm) (pmBlock fl lm nrad e) ch H = .ok Hn ∧ Hn.rows = lm.length * nrad ∧ Hn.cols = lm.length * nrad ∧ ∀ D : Mat ℝ, Spec.pairing (lm.length * nrad) Hn D =
      Spec.pairing (lm.length * nrad) H D + ∑ p, (pmGeo e).w p * (vrho p * Spec.rho (bd lm nrad D.get) (Spec.pmPoint lm nrad y R 0 e p) +
        (s p 0 * Spec.grad (bd lm nrad D.get) (Spec.pmPoint lm nrad y R 0 e p) 0 + s p 1 * Spec.grad (bd lm nrad D.get) (Spec.pmPoint lm nrad y R 0 e p) 1) +
        vl p * Spec.lapl (bd lm nrad D.get) (Spec.pmPoint lm nrad y R 0 e p) + vt p * Spec.tau (bd lm nrad D.get) (Spec.pmPoint lm nrad y R 0 e p)) := by
  classical
  obtain ⟨T, hT⟩ : ∃ T : (Nat → Nat → ℝ) → Int → ℝ, T = fun D m => ∑ p, bChan lm nrad y R e (vrho p) (s p) (vl p) (vt p) m (sub D (Dia.bfListDummyM lm nrad e.first e.last m)) p := ⟨_, rfl⟩
  obtain ⟨has, hhas⟩ : ∃ has : Int → Prop, has = fun m => (pmMirror (Sym.uniqueM lm) (pmBlock fl lm nrad e) m).isSome = true := ⟨_, rfl⟩
  have hhas' : ∀ m, has m ↔ (pmMirror (Sym.uniqueM lm) (pmBlock fl lm nrad e) m).isSome = true := fun m => by rw [hhas]
  have hstep : ∀ m ∈ Sym.uniqueM lm, ∀ H : Mat ℝ, H.rows = lm.length * nrad → H.cols = lm.length * nrad →
      ∃ Hn, pmFockStep (Sym.uniqueM lm) (pmBlock fl lm nrad e) ch H m = .ok Hn ∧ Hn.rows = lm.length * nrad ∧ Hn.cols = lm.length * nrad ∧
        ∀ D : Mat ℝ, Spec.pairing (lm.length * nrad) Hn D = Spec.pairing (lm.length * nrad) H D +
          if m < 0 ∧ has m then 0 else T D.get m + if 0 < m ∧ has m then T D.get (-m) else 0 := by
    intro m hm H hr hc
    unfold pmFockStep
    rw [if_neg (show ¬(pmBlock fl lm nrad e m).idx = [] from idx_ne m hm)]
    by_cases hsk : m < 0 ∧ has m
    · rw [if_pos ⟨hsk.1, (hhas' m).1 hsk.2⟩]
      exact ⟨H, rfl, hr, hc, fun D => by rw [if_pos hsk, add_zero]⟩
    · rw [if_neg (fun h => hsk ⟨h.1, (hhas' m).2 h.2⟩)]
      obtain ⟨Hm, hHm, pHm⟩ := hch m hm
      obtain ⟨H1, q1, r1, c1, -, pr1⟩ := scatterMat_ok (lm.length * nrad) H hr hc (pmBlock fl lm nrad e m).idx (idx_lt hS.first hS.last m) Hm
      have hT1 : ∀ D : Mat ℝ, pair Hm (sub D.get (pmBlock fl lm nrad e m).idx) = T D.get m := fun D => by
        rw [hT]
        exact pHm _
      rw [hHm, Res.ok_bind]
      unfold pmScatter
      rw [q1, Res.ok_bind]
      rcases hmir : pmMirror (Sym.uniqueM lm) (pmBlock fl lm nrad e) m with _ | k
      · have hno : ¬has m := by rw [hhas', hmir]; simp
        refine ⟨H1, rfl, r1, c1, fun D => ?_⟩
        rw [pr1, hT1, if_neg hsk, if_neg (fun h => hno h.2), add_zero]
      · have hyes : has m := by rw [hhas', hmir]; rfl
        obtain ⟨rfl, hk, hlen⟩ := pmMirror_some _ _ hmir
        by_cases hm0 : 0 < m
        · simp only
          rw [if_pos hm0]
          unfold pmScatterTo
          rw [dif_pos hlen]
          obtain ⟨H2, q2, r2, c2, -, pr2⟩ := scatterMat_ok (lm.length * nrad) H1 r1 c1 (pmBlock fl lm nrad e (-m)).idx (idx_lt hS.first hS.last (-m)) (Hm.submatrix (Fin.cast hlen) (Fin.cast hlen))
          refine ⟨H2, q2, r2, c2, fun D => ?_⟩
          rw [pr2, pr1, hT1, if_neg hsk, if_pos ⟨hm0, hyes⟩, add_assoc]
          congr 2
          refine (pair_cast hlen Hm _).trans ?_
          refine (pHm _).trans ?_
          rw [hT]
          exact Finset.sum_congr rfl fun p _ => bChan_flip hS hy hang hpair _ _ _ _ hlen _ p
        · simp only
          rw [if_neg hm0]
          refine ⟨H1, rfl, r1, c1, fun D => ?_⟩
          rw [pr1, hT1, if_neg hsk, if_neg (fun h => hm0 h.1), add_zero]
  have hfold : ∀ (l : List Int), (∀ m ∈ l, m ∈ Sym.uniqueM lm) → ∀ H : Mat ℝ, H.rows = lm.length * nrad → H.cols = lm.length * nrad →
      ∃ Hn, l.foldlM (pmFockStep (Sym.uniqueM lm) (pmBlock fl lm nrad e) ch) H = .ok Hn ∧ Hn.rows = lm.length * nrad ∧ Hn.cols = lm.length * nrad ∧
        ∀ D : Mat ℝ, Spec.pairing (lm.length * nrad) Hn D = Spec.pairing (lm.length * nrad) H D + (l.map fun m => if m < 0 ∧ has m then 0 else T D.get m + if 0 < m ∧ has m then T D.get (-m) else 0).sum := by
    intro l
    induction l with
    | nil => intro _ H hr hc; exact ⟨H, rfl, hr, hc, fun D => by simp⟩
    | cons a r ih =>
      intro hl H hr hc
      obtain ⟨H1, q1, r1, c1, p1⟩ := hstep a (hl a List.mem_cons_self) H hr hc
      obtain ⟨H2, q2, r2, c2, p2⟩ := ih (fun m hm => hl m (List.mem_cons_of_mem _ hm)) H1 r1 c1
      refine ⟨H2, ?_, r2, c2, fun D => ?_⟩
      · rw [List.foldlM_cons, q1, Res.ok_bind, q2]
      · rw [p2, p1, List.map_cons, List.sum_cons, add_assoc]
  obtain ⟨Hn, q, r, c, p⟩ := hfold _ (fun _ h => h) H hr hc
  refine ⟨Hn, q, r, c, fun D => ?_⟩
  rw [p]
  congr 1
  have hneg : ∀ m ∈ Sym.uniqueM lm, has m → -m ∈ Sym.uniqueM lm ∧ has (-m) := by
    intro m hm h
    rw [hhas'] at h ⊢
    exact pmMirror_neg _ _ hm h
  have hms : ((Sym.uniqueM lm).map fun m => if m < 0 ∧ has m then (0 : ℝ) else T D.get m + if 0 < m ∧ has m then T D.get (-m) else 0).sum = ((Sym.uniqueM lm).map fun m => T D.get m).sum := by
    refine mirror_sum _ (unique_nodup lm) has hneg _ _ ?_ ?_ ?_
    · intro m _ h
      rw [if_neg (fun hh => h hh.2), if_neg (fun hh => h hh.2), add_zero]
    · simp
    · intro m hm h
      have h' := (hneg m hm h).2
      simp only [h, h', and_true]
      rcases lt_trichotomy m 0 with hm0 | hm0 | hm0
      · rw [if_pos hm0, if_neg (by omega), if_pos (by omega), neg_neg]; ring
      · subst hm0; simp
      · rw [if_neg (by omega), if_pos hm0, if_pos (by omega)]; ring
  rw [hms, hT]
  have hcomm : ((Sym.uniqueM lm).map fun m => ∑ p, bChan lm nrad y R e (vrho p) (s p) (vl p) (vt p) m (sub D.get (Dia.bfListDummyM lm nrad e.first e.last m)) p).sum =
      ∑ p, ((Sym.uniqueM lm).map fun m => bChan lm nrad y R e (vrho p) (s p) (vl p) (vt p) m (sub D.get (Dia.bfListDummyM lm nrad e.first e.last m)) p).sum := by
    induction (Sym.uniqueM lm) with
    | nil => simp
    | cons a r ih => simp only [List.map_cons, List.sum_cons, Finset.sum_add_distrib, ih]
  refine hcomm.trans (Finset.sum_congr rfl fun p _ => ?_)
  have hg0 := grad_blocks lm nrad y R e p hS.first hS.last D.get 0
  have hg1 := grad_blocks lm nrad y R e p hS.first hS.last D.get 1
  have hg0' : Spec.grad (bd lm nrad D.get) (Spec.pmPoint lm nrad y R 0 e p) 0 = ((Sym.uniqueM lm).map fun m => bGrad lm nrad y R e p m D.get 0).sum := hg0
  have hg1' : Spec.grad (bd lm nrad D.get) (Spec.pmPoint lm nrad y R 0 e p) 1 = ((Sym.uniqueM lm).map fun m => bGrad lm nrad y R e p m D.get 1).sum := hg1
  rw [rho_blocks lm nrad y R e p hS.first hS.last, hg0', hg1', lapl_blocks lm nrad y R e p hS.first hS.last, tau_blocks lm nrad y R e p hS.first hS.last]
  simp only [← lsum_mul, ← lsum_add, bChan_sub]

end point

end XC
end HelFEM
