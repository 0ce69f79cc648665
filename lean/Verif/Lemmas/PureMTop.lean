import Verif.Lemmas.PureMFock

/-!
# Totals of the grid without azimuthal quadrature
-/

namespace HelFEM
namespace XC

open Matrix

variable {env : Libxc} {fn : Funcs} {lm : List (Int × Int)} {nrad : Nat} {y : Int → Int → ℝ → ℝ} {R : Nat → ℝ → ℝ}

/-- what a run over some points adds to the totals -/
structure PmAdds (env : Libxc) (fn : Funcs) (lm : List (Int × Int)) (nrad : Nat) (P : Nat → Nat → ℝ) (tau : Bool) (pts : List (Spec.Point 3)) (s s' : Tot1) : Prop where
  exc : s'.exc = s.exc + Spec.energy env fn.x fn.c fn.xp fn.cp fn.thr pts P
  nel : s'.nel = s.nel + Spec.electrons pts P
  ekin : s'.ekin = s.ekin + if tau then Spec.kinetic pts P else 0
  rows : s'.H.rows = lm.length * nrad
  cols : s'.H.cols = lm.length * nrad
  pairs : ∀ D : Mat ℝ, Spec.pairing (lm.length * nrad) s'.H D = Spec.pairing (lm.length * nrad) s.H D + (pts.map (deriv1 env fn P (bd lm nrad D.get))).sum

theorem fold_pmadds {α : Type} {P : Nat → Nat → ℝ} {tau : Bool} (step : Tot1 → α → Res Tot1) (pts : α → List (Spec.Point 3)) (l : List α)
    (h : ∀ e ∈ l, ∀ s : Tot1, s.H.rows = lm.length * nrad → s.H.cols = lm.length * nrad → ∃ s', step s e = .ok s' ∧ PmAdds env fn lm nrad P tau (pts e) s s') (s : Tot1) (hr : s.H.rows = lm.length * nrad)
    (hc : s.H.cols = lm.length * nrad) : ∃ s', l.foldlM step s = .ok s' ∧ PmAdds env fn lm nrad P tau (l.flatMap pts) s s' := by
  induction l generalizing s with
  | nil => exact ⟨s, rfl, by simp [Spec.energy], by simp [Spec.electrons], by simp [Spec.kinetic], hr, hc, by simp⟩
  | cons a r ih =>
    obtain ⟨s1, e1, a1⟩ := h a List.mem_cons_self s hr hc
    obtain ⟨s2, e2, a2⟩ := ih (fun e he => h e (List.mem_cons_of_mem _ he)) s1 a1.rows a1.cols
    refine ⟨s2, by rw [List.foldlM_cons, e1, Res.ok_bind, e2], ?_, ?_, ?_, a2.rows, a2.cols, fun D => ?_⟩
    · rw [a2.exc, a1.exc]; simp [Spec.energy, add_assoc]
    · rw [a2.nel, a1.nel]; simp [Spec.electrons, add_assoc]
    · rw [a2.ekin, a1.ekin]
      split_ifs <;> simp [Spec.kinetic, add_assoc]
    · rw [a2.pairs, a1.pairs]; simp [add_assoc]

/-- the same for two spins -/
structure PmAdds2 (env : Libxc) (fn : Funcs) (lm : List (Int × Int)) (nrad : Nat) (A B : Nat → Nat → ℝ) (tau beta : Bool) (pts : List (Spec.Point 3)) (s s' : Tot2) : Prop where
  exc : s'.exc = s.exc + Spec.energy2 env fn.x fn.c fn.xp fn.cp fn.thr pts A B
  nel : s'.nel = s.nel + (Spec.electrons pts A + Spec.electrons pts B)
  ekin : s'.ekin = s.ekin + if tau then Spec.kinetic pts A + Spec.kinetic pts B else 0
  rowsA : s'.Ha.rows = lm.length * nrad
  colsA : s'.Ha.cols = lm.length * nrad
  rowsB : s'.Hb.rows = lm.length * nrad
  colsB : s'.Hb.cols = lm.length * nrad
  pairsA : ∀ D : Mat ℝ, Spec.pairing (lm.length * nrad) s'.Ha D = Spec.pairing (lm.length * nrad) s.Ha D + (pts.map (derivA env fn false A B (bd lm nrad D.get))).sum
  pairsB : ∀ D : Mat ℝ, Spec.pairing (lm.length * nrad) s'.Hb D = Spec.pairing (lm.length * nrad) s.Hb D + if beta then (pts.map (derivB env fn false A B (bd lm nrad D.get))).sum else 0

theorem fold_pmadds2 {α : Type} {A B : Nat → Nat → ℝ} {tau beta : Bool} (step : Tot2 → α → Res Tot2) (pts : α → List (Spec.Point 3)) (l : List α)
    (h : ∀ e ∈ l, ∀ s : Tot2, s.Ha.rows = lm.length * nrad → s.Ha.cols = lm.length * nrad → s.Hb.rows = lm.length * nrad → s.Hb.cols = lm.length * nrad →
      ∃ s', step s e = .ok s' ∧ PmAdds2 env fn lm nrad A B tau beta (pts e) s s') (s : Tot2) (h1 : s.Ha.rows = lm.length * nrad)
    (h2 : s.Ha.cols = lm.length * nrad) (h3 : s.Hb.rows = lm.length * nrad) (h4 : s.Hb.cols = lm.length * nrad) :
    ∃ s', l.foldlM step s = .ok s' ∧ PmAdds2 env fn lm nrad A B tau beta (l.flatMap pts) s s' := by
  induction l generalizing s with
  | nil => exact ⟨s, rfl, by simp [Spec.energy2], by simp [Spec.electrons], by simp [Spec.kinetic], h1, h2, h3, h4, by simp, by simp⟩
  | cons a r ih =>
    obtain ⟨s1, e1, a1⟩ := h a List.mem_cons_self s h1 h2 h3 h4
    obtain ⟨s2, e2, a2⟩ := ih (fun e he => h e (List.mem_cons_of_mem _ he)) s1 a1.rowsA a1.colsA a1.rowsB a1.colsB
    refine ⟨s2, by rw [List.foldlM_cons, e1, Res.ok_bind, e2], ?_, ?_, ?_, a2.rowsA, a2.colsA, a2.rowsB, a2.colsB, fun D => ?_, fun D => ?_⟩
    · rw [a2.exc, a1.exc]; simp [Spec.energy2, add_assoc]
    · rw [a2.nel, a1.nel]
      simp only [Spec.electrons, List.flatMap_cons, List.map_append, List.sum_append]
      ring
    · rw [a2.ekin, a1.ekin]
      split_ifs
      · simp only [Spec.kinetic, List.flatMap_cons, List.map_append, List.sum_append]
        ring
      · simp
    · rw [a2.pairsA, a1.pairsA]; simp [add_assoc]
    · rw [a2.pairsB, a1.pairsB]
      split_ifs <;> simp [add_assoc]

theorem sum_pmPoints (e : PmPoint) (F : Spec.Point 3 → ℝ) : ((Spec.pmPoints lm nrad y R e).map F).sum = ∑ p, F (Spec.pmPoint lm nrad y R 0 e p) := by
  unfold Spec.pmPoints
  rw [List.map_map, Fin.sum_univ_def]
  rfl

section step
variable (hx : Spec.Usable env fn.x fn.xp) (hc : Spec.Usable env fn.c fn.cp) {fl : Flags}
  (hcx : Covers fl (usesOf env fn.x)) (hcc : Covers fl (usesOf env fn.c)) (hy : Spec.Harmonics y) (hang : Spec.Angular lm) (hpair : Spec.Paired lm) {e : PmPoint} (hS : Spec.Sampled nrad y R e)
  (hn : 0 < (Spec.functions lm nrad).length)
include hx hc hcx hcc hy hang hpair hS hn

theorem pmStep1_ok {P : Mat ℝ} (hP : Spec.Symm (Spec.functions lm nrad).length P) (share : Bool) (hsh : share = true → Spec.FlipSymm lm nrad P) (s : Tot1) (hr : s.H.rows = lm.length * nrad)
    (hcl : s.H.cols = lm.length * nrad) : ∃ s', pmStep1 env lm nrad share fn fl P s e = .ok s' ∧ PmAdds env fn lm nrad (bd lm nrad (Spec.padded lm nrad P)) fl.tau (Spec.pmPoints lm nrad y R e) s s' := by
  obtain ⟨E, hE, er, ec, eg⟩ := expand_padded lm nrad P hP.1 hP.2.1
  obtain ⟨q, hq, hqX, hg⟩ := pmDensity1_ok hS hy hang (fl := fl) (symm_expand hP er ec eg) share (fun h => ⟨hpair, by rw [eg]; exact hsh h⟩)
  rw [eg] at hqX hg
  obtain ⟨a, ha, hO⟩ := computeBoth1_ok env hx hc fn.thr fl hcx hcc q _ hqX
  have hcov := covers_or hcx hcc
  have hO' := hO
  obtain ⟨a1, a2, a3, a4, a5, a6, a7, a8, a9, a10, a11⟩ := hO
  have hw : ∀ p, (pmGeo e).w p = (Spec.pmPoint lm nrad y R 0 e p).w := w_eq hS 0
  obtain ⟨Hn, hF, hnr, hnc, hnp⟩ := pmFock_ok hS hy hang (fl := fl) hpair (ch := pmFxc1 (pmGeo e) q a) (vrho := a.vxc)
    (s := fun p c => 2 * (outBoth env fn.x fn.c fn.xp fn.cp fn.thr (Spec.input (bd lm nrad (Spec.padded lm nrad P)) (Spec.pmPoint lm nrad y R 0 e p))).vsigma *
      Spec.grad (bd lm nrad (Spec.padded lm nrad P)) (Spec.pmPoint lm nrad y R 0 e p) (Fin.castSucc c))
    (vt := fun p => (outBoth env fn.x fn.c fn.xp fn.cp fn.thr (Spec.input (bd lm nrad (Spec.padded lm nrad P)) (Spec.pmPoint lm nrad y R 0 e p))).vtau)
    (vl := fun p => (outBoth env fn.x fn.c fn.xp fn.cp fn.thr (Spec.input (bd lm nrad (Spec.padded lm nrad P)) (Spec.pmPoint lm nrad y R 0 e p))).vlapl)
    (fun m _ => by
      unfold pmFxc1
      rw [a6, a7, a8]
      refine pmChannel_ok hS hy hang hcov m (fun h => ?_) (fun h => a4 (hcov.2.1 h)) (fun h => a5 (hcov.2.2 h)) (fun h p c => by rw [a9 h p]; ring) a10 a11
      rw [pmWeights1, a3 (hcov.1 h), hg (hcov.1 h)]
      refine ⟨_, rfl, fun p c => ?_⟩
      rw [sc_eq hS, div_eq_mul_inv]
      ring) s.H hr hcl
  refine ⟨⟨s.exc + evalExc1 (pmGeo e).w q a, s.nel + nel1 (pmGeo e).w q,
    s.ekin + if fl.tau then ∑ p, (pmGeo e).w p * (Spec.input (bd lm nrad (Spec.padded lm nrad P)) (Spec.pmPoint lm nrad y R 0 e p)).tau else 0, Hn⟩, ?_, ?_, ?_, ?_, hnr, hnc, fun D => ?_⟩
  · unfold pmStep1
    rw [if_neg (by rw [hP.1, hP.2.1]; exact (Nat.mul_pos hn hn).ne'), hE, Res.ok_bind, hq, Res.ok_bind, ekin1_ok hqX, Res.ok_bind, ha, Res.ok_bind, hF, Res.ok_bind]
  · simp only
    rw [evalExc1_eq hqX hO', Spec.energy, sum_pmPoints]
    simp only [hw]
    rfl
  · simp only
    rw [nel1, hqX.1, Spec.electrons, sum_pmPoints]
    simp only [hw]
    rfl
  · simp only
    rw [Spec.kinetic, sum_pmPoints]
    simp only [hw]
    rfl
  · simp only
    rw [hnp, sum_pmPoints]
    congr 1
    refine Finset.sum_congr rfl fun p _ => ?_
    unfold deriv1
    simp only
    rw [a2, hw, Fin.sum_univ_three, grad_phi lm nrad y R e p hS.first hS.last, zero_mul, add_zero]
    have c0 : Fin.castSucc (0 : Fin 2) = (0 : Fin 3) := rfl
    have c1 : Fin.castSucc (1 : Fin 2) = (1 : Fin 3) := rfl
    rw [c0, c1]
    ring

theorem pmFockBeta_ok (beta : Bool) {ch : (B : PmBlock e.nang) → Res (Matrix (Fin B.idx.length) (Fin B.idx.length) ℝ)} {H Hn : Mat ℝ} (h : beta = true → pmFock (Sym.uniqueM lm) (pmBlock fl lm nrad e) ch H = .ok Hn) :
    pmFockBeta beta (Sym.uniqueM lm) (pmBlock fl lm nrad e) ch H = .ok (if beta then Hn else H) := by
  unfold pmFockBeta
  rcases beta with _ | _
  · rfl
  · rw [if_pos rfl, h rfl]; rfl

theorem pmStep2_ok {A B : Mat ℝ} (hA : Spec.Symm (Spec.functions lm nrad).length A) (hB : Spec.Symm (Spec.functions lm nrad).length B) (beta : Bool) (s : Tot2) (h1 : s.Ha.rows = lm.length * nrad)
    (h2 : s.Ha.cols = lm.length * nrad) (h3 : s.Hb.rows = lm.length * nrad) (h4 : s.Hb.cols = lm.length * nrad) :
    ∃ s', pmStep2 env lm nrad fn fl A B beta s e = .ok s' ∧
      PmAdds2 env fn lm nrad (bd lm nrad (Spec.padded lm nrad A)) (bd lm nrad (Spec.padded lm nrad B)) fl.tau beta (Spec.pmPoints lm nrad y R e) s s' := by
  obtain ⟨E, hE, er, ec, eg⟩ := expand_padded lm nrad A hA.1 hA.2.1
  obtain ⟨E', hE', er', ec', eg'⟩ := expand_padded lm nrad B hB.1 hB.2.1
  obtain ⟨q, hq, hqX, hg⟩ := pmDensity2_ok hS hy hang (fl := fl) (symm_expand hA er ec eg) (symm_expand hB er' ec' eg')
  rw [eg, eg'] at hqX hg
  obtain ⟨a, ha, hO⟩ := computeBoth2_ok env hx hc fn.thr fl hcx hcc q _ hqX
  have hcov := covers_or hcx hcc
  have hO' := hO
  have hw : ∀ p, (pmGeo e).w p = (Spec.pmPoint lm nrad y R 0 e p).w := w_eq hS 0
  obtain ⟨a1, a2, a2', a3, a4, a5, a6, a7, a8, a9, a10, a11⟩ := hO
  obtain ⟨O, hOd⟩ : ∃ O : Fin e.nang → Out2,
    O = fun p => outBoth2 env fn.x fn.c fn.xp fn.cp fn.thr (Spec.inputs (bd lm nrad (Spec.padded lm nrad A)) (bd lm nrad (Spec.padded lm nrad B)) (Spec.pmPoint lm nrad y R 0 e p)) := ⟨_, rfl⟩
  have hOp : ∀ p, outBoth2 env fn.x fn.c fn.xp fn.cp fn.thr (Spec.inputs (bd lm nrad (Spec.padded lm nrad A)) (bd lm nrad (Spec.padded lm nrad B)) (Spec.pmPoint lm nrad y R 0 e p)) = O p := fun p => by rw [hOd]
  simp only [hOp] at a1 a2 a2' a3 a4 a5 a9 a10 a11
  obtain ⟨Hn, hF, hnr, hnc, hnp⟩ := pmFock_ok hS hy hang (fl := fl) hpair (ch := pmFxcA (pmGeo e) q a) (vrho := a.va)
    (s := fun p c => 2 * (O p).vsaa * Spec.grad (bd lm nrad (Spec.padded lm nrad A)) (Spec.pmPoint lm nrad y R 0 e p) (Fin.castSucc c) +
      (O p).vsab * Spec.grad (bd lm nrad (Spec.padded lm nrad B)) (Spec.pmPoint lm nrad y R 0 e p) (Fin.castSucc c))
    (vt := fun p => (O p).vta) (vl := fun p => (O p).vla)
    (fun m _ => by
      unfold pmFxcA
      rw [a6, a7, a8]
      refine pmChannel_ok hS hy hang hcov m (fun h => ?_) (fun h => by rw [a4 (hcov.2.1 h)]; rfl) (fun h => by rw [a5 (hcov.2.2 h)]; rfl)
        (fun h p c => by rw [(a9 h p).1, (a9 h p).2.1]; ring) (fun h p => (a10 h p).1) (fun h p => (a11 h p).1)
      rw [pmWeightsA, a3 (hcov.1 h), hg (hcov.1 h)]
      refine ⟨_, rfl, fun p c => ?_⟩
      unfold pmWeights2
      rw [sc_eq hS, div_eq_mul_inv]
      ring) s.Ha h1 h2
  obtain ⟨Kn, hK, knr, knc, knp⟩ := pmFock_ok hS hy hang (fl := fl) hpair (ch := pmFxcB (pmGeo e) q a) (vrho := a.vb)
    (s := fun p c => 2 * (O p).vsbb * Spec.grad (bd lm nrad (Spec.padded lm nrad B)) (Spec.pmPoint lm nrad y R 0 e p) (Fin.castSucc c) +
      (O p).vsab * Spec.grad (bd lm nrad (Spec.padded lm nrad A)) (Spec.pmPoint lm nrad y R 0 e p) (Fin.castSucc c))
    (vt := fun p => (O p).vtb) (vl := fun p => (O p).vlb)
    (fun m _ => by
      unfold pmFxcB
      rw [a6, a7, a8]
      refine pmChannel_ok hS hy hang hcov m (fun h => ?_) (fun h => by rw [a4 (hcov.2.1 h)]; rfl) (fun h => by rw [a5 (hcov.2.2 h)]; rfl)
        (fun h p c => by rw [(a9 h p).2.2, (a9 h p).2.1]; ring) (fun h p => (a10 h p).2) (fun h p => (a11 h p).2)
      rw [pmWeightsB, a3 (hcov.1 h), hg (hcov.1 h)]
      refine ⟨_, rfl, fun p c => ?_⟩
      unfold pmWeights2
      rw [sc_eq hS, div_eq_mul_inv]
      ring) s.Hb h3 h4
  have hBeta := pmFockBeta_ok hx hc hcx hcc hy hang hpair hS hn beta (fun _ => hK)
  have c0 : Fin.castSucc (0 : Fin 2) = (0 : Fin 3) := rfl
  have c1 : Fin.castSucc (1 : Fin 2) = (1 : Fin 3) := rfl
  refine ⟨⟨s.exc + evalExc2 (pmGeo e).w q a, s.nel + nel2 (pmGeo e).w q,
    s.ekin + if fl.tau then ∑ p, (pmGeo e).w p * ((Spec.inputs (bd lm nrad (Spec.padded lm nrad A)) (bd lm nrad (Spec.padded lm nrad B)) (Spec.pmPoint lm nrad y R 0 e p)).ta +
      (Spec.inputs (bd lm nrad (Spec.padded lm nrad A)) (bd lm nrad (Spec.padded lm nrad B)) (Spec.pmPoint lm nrad y R 0 e p)).tb) else 0, Hn, if beta then Kn else s.Hb⟩, ?_, ?_, ?_, ?_, hnr, hnc, ?_, ?_, fun D => ?_, fun D => ?_⟩
  · unfold pmStep2
    rw [if_neg (by rw [hA.1, hA.2.1, hB.1, hB.2.1, or_self]; exact (Nat.mul_pos hn hn).ne'), hE, Res.ok_bind, hE', Res.ok_bind, hq, Res.ok_bind, ekin2_ok hqX, Res.ok_bind, ha, Res.ok_bind, hF, Res.ok_bind,
      hBeta, Res.ok_bind]
  · simp only
    rw [evalExc2_eq hqX hO', Spec.energy2, sum_pmPoints]
    simp only [hw]
    rfl
  · simp only
    rw [nel2, hqX.1, hqX.2.1, Spec.electrons, Spec.electrons, sum_pmPoints, sum_pmPoints, ← Finset.sum_add_distrib]
    simp only [hw, ← mul_add]
    rfl
  · simp only
    rw [Spec.kinetic, Spec.kinetic, sum_pmPoints, sum_pmPoints, ← Finset.sum_add_distrib]
    simp only [hw, ← mul_add]
    rfl
  · simp only
    split_ifs
    · exact knr
    · exact h3
  · simp only
    split_ifs
    · exact knc
    · exact h4
  · simp only
    rw [hnp, sum_pmPoints]
    congr 1
    refine Finset.sum_congr rfl fun p _ => ?_
    unfold derivA
    simp only [hOp]
    rw [a2, hw, Fin.sum_univ_three, grad_phi lm nrad y R e p hS.first hS.last D.get, mul_zero, add_zero, c0, c1]
    simp
  · simp only
    rcases beta with _ | _
    · simp
    · simp only [if_true]
      rw [knp, sum_pmPoints]
      congr 1
      refine Finset.sum_congr rfl fun p _ => ?_
      unfold derivB
      simp only [hOp]
      rw [a2', hw, Fin.sum_univ_three, grad_phi lm nrad y R e p hS.first hS.last D.get, mul_zero, add_zero, c0, c1]
      simp

end step

/-! ### Block-diagonal matrices -/

/-- a block-diagonal matrix is its own block-diagonal part -/
theorem bd_padded {P : Mat ℝ} (h : Spec.MDiag lm nrad P) : bd lm nrad (Spec.padded lm nrad P) = Spec.padded lm nrad P := by
  funext a b
  unfold bd
  split_ifs with hab
  · rfl
  · unfold Spec.padded
    split_ifs with hm
    · have h1 := List.idxOf_lt_length_iff.2 hm.1
      have h2 := List.idxOf_lt_length_iff.2 hm.2
      refine (h _ h1 _ h2 ?_).symm
      rw [Dia.getD_lt _ _ h1, Dia.getD_lt _ _ h2, List.getElem_idxOf, List.getElem_idxOf]
      exact hab
    · rfl

theorem mdiag_line {P D : Mat ℝ} (hP : Spec.MDiag lm nrad P) (hD : Spec.MDiag lm nrad D) (t : ℝ) : Spec.MDiag lm nrad (Spec.line P D t) := by
  intro i hi j hj h
  simp [Spec.line, hP i hi j hj h, hD i hi j hj h]

theorem flipSymm_line {P D : Mat ℝ} (hP : Spec.FlipSymm lm nrad P) (hD : Spec.FlipSymm lm nrad D) (t : ℝ) : Spec.FlipSymm lm nrad (Spec.line P D t) := by
  intro a b a' b' h1 h2 h3 h4 h5 h6
  rw [padded_line]
  simp only
  rw [hP a b a' b' h1 h2 h3 h4 h5 h6, hD a b a' b' h1 h2 h3 h4 h5 h6]

theorem bd_transpose (D : Nat → Nat → ℝ) : bd lm nrad (fun i j => D j i) = fun i j => bd lm nrad D j i := by
  funext a b
  unfold bd
  by_cases h : Spec.mOf lm nrad a = Spec.mOf lm nrad b
  · rw [if_pos h, if_pos h.symm]
  · rw [if_neg h, if_neg fun h' => h h'.symm]

theorem deriv1_zero (P : Nat → Nat → ℝ) (x : Spec.Point 3) : deriv1 env fn P (fun _ _ => 0) x = 0 := by
  have h0 : ∀ u v : Fin x.idx.length → ℂ, Spec.form (fun _ _ => 0) x.idx u v = 0 := fun u v => by simp [Spec.form]
  simp [deriv1, Spec.rho, Spec.grad, Spec.tau, Spec.lapl, h0]

theorem derivA_zero (A B : Nat → Nat → ℝ) (x : Spec.Point 3) : derivA env fn false A B (fun _ _ => 0) x = 0 := by
  have h0 : ∀ u v : Fin x.idx.length → ℂ, Spec.form (fun _ _ => 0) x.idx u v = 0 := fun u v => by simp [Spec.form]
  simp [derivA, Spec.rho, Spec.grad, Spec.tau, Spec.lapl, h0]

theorem derivB_zero (A B : Nat → Nat → ℝ) (x : Spec.Point 3) : derivB env fn false A B (fun _ _ => 0) x = 0 := by
  have h0 : ∀ u v : Fin x.idx.length → ℂ, Spec.form (fun _ _ => 0) x.idx u v = 0 := fun u v => by simp [Spec.form]
  simp [derivB, Spec.rho, Spec.grad, Spec.tau, Spec.lapl, h0]

/-- a matrix whose contractions only see the block-diagonal part of the other matrix -/
theorem fock_shape {n : Nat} {H : Mat ℝ} (hr : H.rows = n) (hc : H.cols = n) {pts : List (Spec.Point 3)} {F : (Nat → Nat → ℝ) → Spec.Point 3 → ℝ}
    (ht : ∀ D x, F (fun i j => D j i) x = F D x) (hz : ∀ x, F (fun _ _ => 0) x = 0)
    (hp : ∀ D : Mat ℝ, Spec.pairing n H D = (pts.map (F (bd lm nrad D.get))).sum) :
    Spec.Symm n H ∧ ∀ i < n, ∀ j < n, Spec.mOf lm nrad i ≠ Spec.mOf lm nrad j → H.get i j = 0 := by
  refine ⟨symm_of_pairing n H hr hc fun D => ?_, fun i hi j hj h => ?_⟩
  · rw [hp, hp]
    simp only [bd_transpose]
    rw [show F (fun i j => bd lm nrad D.get j i) = F (bd lm nrad D.get) from funext fun x => ht _ x]
  · rw [← entry_of_pairing n H hi hj, hp]
    have h0 : bd lm nrad (fun a b => if a = i ∧ b = j then (1 : ℝ) else 0) = fun _ _ => 0 := by
      funext a b
      unfold bd
      by_cases h1 : Spec.mOf lm nrad a = Spec.mOf lm nrad b
      · rw [if_pos h1]
        refine if_neg ?_
        rintro ⟨rfl, rfl⟩
        exact h h1
      · rw [if_neg h1]
    simp only [h0]
    rw [show F (fun _ _ => 0) = fun _ => 0 from funext hz]
    simp

section top
variable (hx : Spec.Usable env fn.x fn.xp) (hc : Spec.Usable env fn.c fn.cp) (hy : Spec.Harmonics y) (hang : Spec.Angular lm) (hpair : Spec.Paired lm) (hn : 0 < (Spec.functions lm nrad).length)
include hx hc hy hang hpair hn

theorem pmGrid1_ok {P : Mat ℝ} (hP : Spec.Symm (Spec.functions lm nrad).length P) (hM : Spec.MDiag lm nrad P) (share : Bool) (hsh : share = true → Spec.FlipSymm lm nrad P) (pts : List PmPoint)
    (hpts : ∀ e ∈ pts, Spec.Sampled nrad y R e) :
    ∃ s, pmGrid1 env lm nrad share fn P pts = .ok s ∧ s.exc = Spec.energy env fn.x fn.c fn.xp fn.cp fn.thr (pts.flatMap (Spec.pmPoints lm nrad y R)) (Spec.padded lm nrad P) ∧
      s.nel = Spec.electrons (pts.flatMap (Spec.pmPoints lm nrad y R)) (Spec.padded lm nrad P) ∧
      (s.ekin = if useTau env fn then Spec.kinetic (pts.flatMap (Spec.pmPoints lm nrad y R)) (Spec.padded lm nrad P) else 0) ∧ Spec.Symm (Spec.functions lm nrad).length s.H ∧ Spec.MDiag lm nrad s.H ∧
      ∀ D : Mat ℝ, Spec.MDiag lm nrad D → Spec.pairing (Spec.functions lm nrad).length s.H D =
        ((pts.flatMap (Spec.pmPoints lm nrad y R)).map (deriv1 env fn (Spec.padded lm nrad P) (Spec.padded lm nrad D))).sum := by
  obtain ⟨fl, hfl, hcx, hcc, ht, hl'⟩ := checkFlags_ok env hx hc
  obtain ⟨s, hs, ha⟩ := fold_pmadds (env := env) (fn := fn) (lm := lm) (nrad := nrad) (tau := fl.tau) (pmStep1 env lm nrad share fn fl P) (Spec.pmPoints lm nrad y R) pts
    (fun e he s h1 h2 => pmStep1_ok hx hc hcx hcc hy hang hpair (hpts e he) hn hP share hsh s h1 h2) ⟨0, 0, 0, Mat.zero (lm.length * nrad) (lm.length * nrad)⟩ rfl rfl
  rw [ht, bd_padded hM] at ha
  obtain ⟨G, hG, gr, gc, gg, gp⟩ := remove_pairing lm nrad s.H ha.rows ha.cols
  have hpz : ∀ D : Mat ℝ, Spec.pairing (lm.length * nrad) s.H D = ((pts.flatMap (Spec.pmPoints lm nrad y R)).map (deriv1 env fn (Spec.padded lm nrad P) (bd lm nrad D.get))).sum := by
    intro D
    rw [ha.pairs, pairing_zero, zero_add]
  obtain ⟨k1, k2⟩ := fock_shape ha.rows ha.cols (F := deriv1 env fn (Spec.padded lm nrad P)) (fun D x => deriv1_transpose env fn _ D x) (fun x => deriv1_zero _ x) hpz
  refine ⟨⟨s.exc, s.nel, s.ekin, G⟩, ?_, ?_, ?_, ?_, ?_, ?_, ?_⟩
  · rw [pmGrid1, hfl, Res.ok_bind]
    have hs' : pts.foldlM (pmStep1 env lm nrad share fn fl P) ⟨0, 0, 0, Mat.zero (Dia.nDummy lm nrad) (Dia.nDummy lm nrad)⟩ = .ok s := hs
    rw [hs', Res.ok_bind, hG, Res.ok_bind]
  · rw [ha.exc]; simp
  · rw [ha.nel]; simp
  · rw [ha.ekin, zero_add]; rfl
  · refine ⟨gr, gc, fun i hi j hj => ?_⟩
    simp only
    rw [physical_list] at hi hj
    rw [gg, gg]
    exact k1.2.2 _ (Dia.pure_getD_lt lm nrad i hi) _ (Dia.pure_getD_lt lm nrad j hj)
  · intro i hi j hj h
    simp only
    rw [physical_list] at hi hj h
    rw [gg]
    exact k2 _ (Dia.pure_getD_lt lm nrad i hi) _ (Dia.pure_getD_lt lm nrad j hj) h
  · intro D hD
    simp only
    rw [gp, hpz, bd_padded hD]

theorem pmGrid2_ok {A B : Mat ℝ} (hA : Spec.Symm (Spec.functions lm nrad).length A) (hAM : Spec.MDiag lm nrad A) (hB : Spec.Symm (Spec.functions lm nrad).length B) (hBM : Spec.MDiag lm nrad B)
    (beta : Bool) (pts : List PmPoint) (hpts : ∀ e ∈ pts, Spec.Sampled nrad y R e) :
    ∃ s, pmGrid2 env lm nrad fn A B beta pts = .ok s ∧
      s.exc = Spec.energy2 env fn.x fn.c fn.xp fn.cp fn.thr (pts.flatMap (Spec.pmPoints lm nrad y R)) (Spec.padded lm nrad A) (Spec.padded lm nrad B) ∧
      s.nel = Spec.electrons (pts.flatMap (Spec.pmPoints lm nrad y R)) (Spec.padded lm nrad A) + Spec.electrons (pts.flatMap (Spec.pmPoints lm nrad y R)) (Spec.padded lm nrad B) ∧
      (s.ekin = if useTau env fn then Spec.kinetic (pts.flatMap (Spec.pmPoints lm nrad y R)) (Spec.padded lm nrad A) + Spec.kinetic (pts.flatMap (Spec.pmPoints lm nrad y R)) (Spec.padded lm nrad B) else 0) ∧
      Spec.Symm (Spec.functions lm nrad).length s.Ha ∧ Spec.MDiag lm nrad s.Ha ∧ Spec.Symm (Spec.functions lm nrad).length s.Hb ∧ Spec.MDiag lm nrad s.Hb ∧
      (∀ D : Mat ℝ, Spec.MDiag lm nrad D → Spec.pairing (Spec.functions lm nrad).length s.Ha D =
        ((pts.flatMap (Spec.pmPoints lm nrad y R)).map (derivA env fn false (Spec.padded lm nrad A) (Spec.padded lm nrad B) (Spec.padded lm nrad D))).sum) ∧
      (∀ D : Mat ℝ, Spec.MDiag lm nrad D → Spec.pairing (Spec.functions lm nrad).length s.Hb D =
        if beta then ((pts.flatMap (Spec.pmPoints lm nrad y R)).map (derivB env fn false (Spec.padded lm nrad A) (Spec.padded lm nrad B) (Spec.padded lm nrad D))).sum else 0) ∧
      (beta = false → ∀ i < (Spec.functions lm nrad).length, ∀ j < (Spec.functions lm nrad).length, s.Hb.get i j = 0) := by
  obtain ⟨fl, hfl, hcx, hcc, ht, hl'⟩ := checkFlags_ok env hx hc
  obtain ⟨s, hs, ha⟩ := fold_pmadds2 (env := env) (fn := fn) (lm := lm) (nrad := nrad) (tau := fl.tau) (beta := beta) (pmStep2 env lm nrad fn fl A B beta) (Spec.pmPoints lm nrad y R) pts
    (fun e he s h1 h2 h3 h4 => pmStep2_ok hx hc hcx hcc hy hang hpair (hpts e he) hn hA hB beta s h1 h2 h3 h4)
    ⟨0, 0, 0, Mat.zero (lm.length * nrad) (lm.length * nrad), Mat.zero (lm.length * nrad) (lm.length * nrad)⟩ rfl rfl rfl rfl
  rw [ht, bd_padded hAM, bd_padded hBM] at ha
  obtain ⟨G, hG, gr, gc, gg, gp⟩ := remove_pairing lm nrad s.Ha ha.rowsA ha.colsA
  obtain ⟨G', hG', gr', gc', gg', gp'⟩ := remove_pairing lm nrad s.Hb ha.rowsB ha.colsB
  have hpz : ∀ D : Mat ℝ, Spec.pairing (lm.length * nrad) s.Ha D = ((pts.flatMap (Spec.pmPoints lm nrad y R)).map (derivA env fn false (Spec.padded lm nrad A) (Spec.padded lm nrad B) (bd lm nrad D.get))).sum := by
    intro D
    rw [ha.pairsA, pairing_zero, zero_add]
  have hpz' : ∀ D : Mat ℝ, Spec.pairing (lm.length * nrad) s.Hb D =
      ((pts.flatMap (Spec.pmPoints lm nrad y R)).map ((fun (D : Nat → Nat → ℝ) (x : Spec.Point 3) => if beta then derivB env fn false (Spec.padded lm nrad A) (Spec.padded lm nrad B) D x else 0) (bd lm nrad D.get))).sum := by
    intro D
    rw [ha.pairsB, pairing_zero, zero_add]
    rcases beta with _ | _ <;> simp
  obtain ⟨k1, k2⟩ := fock_shape ha.rowsA ha.colsA (F := derivA env fn false (Spec.padded lm nrad A) (Spec.padded lm nrad B)) (fun D x => derivA_transpose false _ _ D x) (fun x => derivA_zero _ _ x) hpz
  obtain ⟨k1', k2'⟩ := fock_shape ha.rowsB ha.colsB (F := fun D x => if beta then derivB env fn false (Spec.padded lm nrad A) (Spec.padded lm nrad B) D x else 0)
    (fun D x => by
      split_ifs
      · exact derivB_transpose false _ _ D x
      · rfl) (fun x => by rw [derivB_zero]; simp) hpz'
  refine ⟨⟨s.exc, s.nel, s.ekin, G, G'⟩, ?_, ?_, ?_, ?_, ?_, ?_, ?_, ?_, ?_, ?_, ?_⟩
  · rw [pmGrid2, hfl, Res.ok_bind]
    have hs' : pts.foldlM (pmStep2 env lm nrad fn fl A B beta) ⟨0, 0, 0, Mat.zero (Dia.nDummy lm nrad) (Dia.nDummy lm nrad), Mat.zero (Dia.nDummy lm nrad) (Dia.nDummy lm nrad)⟩ = .ok s := hs
    rw [hs', Res.ok_bind, hG, Res.ok_bind, hG', Res.ok_bind]
  · rw [ha.exc]; simp
  · rw [ha.nel]; simp
  · rw [ha.ekin, zero_add]; rfl
  · refine ⟨gr, gc, fun i hi j hj => ?_⟩
    simp only
    rw [physical_list] at hi hj
    rw [gg, gg]
    exact k1.2.2 _ (Dia.pure_getD_lt lm nrad i hi) _ (Dia.pure_getD_lt lm nrad j hj)
  · intro i hi j hj h
    simp only
    rw [physical_list] at hi hj h
    rw [gg]
    exact k2 _ (Dia.pure_getD_lt lm nrad i hi) _ (Dia.pure_getD_lt lm nrad j hj) h
  · refine ⟨gr', gc', fun i hi j hj => ?_⟩
    simp only
    rw [physical_list] at hi hj
    rw [gg', gg']
    exact k1'.2.2 _ (Dia.pure_getD_lt lm nrad i hi) _ (Dia.pure_getD_lt lm nrad j hj)
  · intro i hi j hj h
    simp only
    rw [physical_list] at hi hj h
    rw [gg']
    exact k2' _ (Dia.pure_getD_lt lm nrad i hi) _ (Dia.pure_getD_lt lm nrad j hj) h
  · intro D hD
    simp only
    rw [gp, hpz, bd_padded hD]
  · intro D hD
    simp only
    rw [gp', hpz', bd_padded hD]
    rcases beta with _ | _ <;> simp
  · intro hb i hi j hj
    simp only
    rw [← entry_of_pairing _ G' hi hj, gp', hpz', hb]
    simp

end top

end XC
end HelFEM
