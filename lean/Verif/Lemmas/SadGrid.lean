import Verif.Lemmas.SadXC

/-!
# Runs of the spherically averaged grid
-/

namespace HelFEM
namespace XC

open Matrix

variable {env : Libxc} {fn : Funcs}

/-- the derivative of the energy density in one spin channel, times the weight -/
noncomputable def chan (vr s vl vt : ℝ) (D : Spec.Shells) (x : Spec.SPoint) : ℝ := x.w * (vr * D.rho x + s * D.drho x + vl * D.lapl x + vt * D.tau x)

/-- restricted -/
noncomputable def sderiv (env : Libxc) (fn : Funcs) (P D : Spec.Shells) (x : Spec.SPoint) : ℝ :=
  let O := outBoth env fn.x fn.c fn.xp fn.cp fn.thr (P.input x)
  chan O.vrho (2 * O.vsigma * P.drho x) O.vlapl O.vtau D x

/-- alpha -/
noncomputable def sderivA (env : Libxc) (fn : Funcs) (A B D : Spec.Shells) (x : Spec.SPoint) : ℝ :=
  let O := outBoth2 env fn.x fn.c fn.xp fn.cp fn.thr (Spec.sinputs A B x)
  chan O.va (2 * O.vsaa * A.drho x + O.vsab * B.drho x) O.vla O.vta D x

/-- beta -/
noncomputable def sderivB (env : Libxc) (fn : Funcs) (A B D : Spec.Shells) (x : Spec.SPoint) : ℝ :=
  let O := outBoth2 env fn.x fn.c fn.xp fn.cp fn.thr (Spec.sinputs A B x)
  chan O.vb (2 * O.vsbb * B.drho x + O.vsab * A.drho x) O.vlb O.vtb D x

/-- a cube of `L` square matrices -/
def Shaped (m L : Nat) (C : Cube) : Prop := C.size = L ∧ ∀ l < L, (C.slice l).rows = m ∧ (C.slice l).cols = m

/-- the first `L` slices as shells -/
def shellsOf (L : Nat) (D : Cube) : Spec.Shells := ⟨L, fun l => (D.slice l).get⟩

theorem sum_sadPoints (e : SadElem) (F : Spec.SPoint → ℝ) : ((Spec.sadPoints e).map F).sum = ∑ p, F (Spec.sadPoint e p) := by
  rw [Spec.sadPoints, List.map_map, Fin.sum_univ_def]
  rfl

/-- the matrices of a channel, added to the totals -/
theorem sadScatter_chan {m L : Nat} {Ho : Cube} (hHo : Shaped m L Ho) (e : SadElem) (hidx : ∀ i ∈ e.idx, i < m) {H : Matrix (Fin e.idx.length) (Fin e.idx.length) ℝ × Matrix (Fin e.idx.length) (Fin e.idx.length) ℝ}
    {F : Spec.Shells → Spec.SPoint → ℝ}
    (hH : ∀ D : Spec.Shells, ∑ l ∈ Finset.range D.L, (pair H.1 (sub (D.D l) e.idx) + ll1 l * pair H.2 (sub (D.D l) e.idx)) = ∑ p, F D (Spec.sadPoint e p)) :
    ∃ Hn, sadScatter Ho e.idx H.1 H.2 = .ok Hn ∧ Shaped m L Hn ∧ ∀ D, Spec.cubePairing m Hn D = Spec.cubePairing m Ho D + ((Spec.sadPoints e).map (F (shellsOf L D))).sum := by
  obtain ⟨hs, hr⟩ := hHo
  subst hs
  obtain ⟨Hn, h1, h2, h3, h4⟩ := sadScatter_ok hr e.idx hidx H.1 H.2
  refine ⟨Hn, h1, ⟨h2, h3⟩, fun D => ?_⟩
  rw [cubePairing_scatter e.idx h2 h4, sum_sadPoints, ← hH]
  rfl

/-- what a run over some points adds to the totals -/
structure SAdds (env : Libxc) (fn : Funcs) (m L : Nat) (P : Spec.Shells) (pts : List Spec.SPoint) (s s' : SadTot1) : Prop where
  exc : s'.exc = s.exc + Spec.senergy env fn.x fn.c fn.xp fn.cp fn.thr pts P
  nel : s'.nel = s.nel + Spec.selectrons pts P
  shaped : Shaped m L s'.H
  pairs : ∀ D : Cube, Spec.cubePairing m s'.H D = Spec.cubePairing m s.H D + (pts.map (sderiv env fn P (shellsOf L D))).sum

theorem fold_sadds {m L : Nat} {P : Spec.Shells} (step : SadTot1 → SadElem → Res SadTot1) (l : List SadElem)
    (h : ∀ e ∈ l, ∀ s : SadTot1, Shaped m L s.H → ∃ s', step s e = .ok s' ∧ SAdds env fn m L P (Spec.sadPoints e) s s') (s : SadTot1) (hs : Shaped m L s.H) :
    ∃ s', l.foldlM step s = .ok s' ∧ SAdds env fn m L P (l.flatMap Spec.sadPoints) s s' := by
  induction l generalizing s with
  | nil => exact ⟨s, rfl, by simp [Spec.senergy], by simp [Spec.selectrons], hs, fun D => by simp⟩
  | cons e r ih =>
    obtain ⟨s1, h1, a1⟩ := h e List.mem_cons_self s hs
    obtain ⟨s2, h2, a2⟩ := ih (fun e' he' => h e' (List.mem_cons_of_mem _ he')) s1 a1.shaped
    refine ⟨s2, by rw [List.foldlM_cons, h1, Res.ok_bind, h2], ?_, ?_, a2.shaped, fun D => ?_⟩
    · rw [a2.exc, a1.exc]; simp [Spec.senergy, add_assoc]
    · rw [a2.nel, a1.nel]; simp [Spec.selectrons, add_assoc]
    · rw [a2.pairs, a1.pairs]; simp [add_assoc]

/-- what a run over some points adds to the totals, two spins -/
structure SAdds2 (env : Libxc) (fn : Funcs) (m La Lb : Nat) (A B : Spec.Shells) (beta : Bool) (pts : List Spec.SPoint) (s s' : SadTot2) : Prop where
  exc : s'.exc = s.exc + Spec.senergy2 env fn.x fn.c fn.xp fn.cp fn.thr pts A B
  nel : s'.nel = s.nel + (Spec.selectrons pts A + Spec.selectrons pts B)
  shapedA : Shaped m La s'.Ha
  shapedB : Shaped m Lb s'.Hb
  pairsA : ∀ D : Cube, Spec.cubePairing m s'.Ha D = Spec.cubePairing m s.Ha D + (pts.map (sderivA env fn A B (shellsOf La D))).sum
  pairsB : ∀ D : Cube, Spec.cubePairing m s'.Hb D = Spec.cubePairing m s.Hb D + if beta then (pts.map (sderivB env fn A B (shellsOf Lb D))).sum else 0

theorem fold_sadds2 {m La Lb : Nat} {A B : Spec.Shells} {beta : Bool} (step : SadTot2 → SadElem → Res SadTot2) (l : List SadElem)
    (h : ∀ e ∈ l, ∀ s : SadTot2, Shaped m La s.Ha → Shaped m Lb s.Hb → ∃ s', step s e = .ok s' ∧ SAdds2 env fn m La Lb A B beta (Spec.sadPoints e) s s') (s : SadTot2)
    (ha : Shaped m La s.Ha) (hb : Shaped m Lb s.Hb) : ∃ s', l.foldlM step s = .ok s' ∧ SAdds2 env fn m La Lb A B beta (l.flatMap Spec.sadPoints) s s' := by
  induction l generalizing s with
  | nil => exact ⟨s, rfl, by simp [Spec.senergy2], by simp [Spec.selectrons], ha, hb, fun D => by simp, fun D => by simp⟩
  | cons e r ih =>
    obtain ⟨s1, h1, a1⟩ := h e List.mem_cons_self s ha hb
    obtain ⟨s2, h2, a2⟩ := ih (fun e' he' => h e' (List.mem_cons_of_mem _ he')) s1 a1.shapedA a1.shapedB
    refine ⟨s2, by rw [List.foldlM_cons, h1, Res.ok_bind, h2], ?_, ?_, a2.shapedA, a2.shapedB, fun D => ?_, fun D => ?_⟩
    · rw [a2.exc, a1.exc]; simp [Spec.senergy2, add_assoc]
    · rw [a2.nel, a1.nel]; simp [Spec.selectrons]; ring
    · rw [a2.pairsA, a1.pairsA]; simp [add_assoc]
    · rw [a2.pairsB, a1.pairsB]
      split_ifs <;> simp [add_assoc]

section step
variable (hx : Spec.Usable env fn.x fn.xp) (hc : Spec.Usable env fn.c fn.cp) {fl : Flags}
  (hcx : Covers fl (usesOf env fn.x)) (hcc : Covers fl (usesOf env fn.c)) (htau : fl.tau = ((usesOf env fn.x).tau || (usesOf env fn.c).tau))
  (hlapl : fl.lapl = ((usesOf env fn.x).lapl || (usesOf env fn.c).lapl)) {m : Nat} (e : SadElem) (hidx : ∀ i ∈ e.idx, i < m) (hr : ∀ p, e.r p ≠ 0)
include hx hc hcx hcc htau hlapl hidx hr

theorem sadStep1_ok {L : Nat} {P : Cube} (hP : Spec.CubeSymm m P) (hpsd : Spec.CubePSD m P) (s : SadTot1) (hs : Shaped m L s.H) :
    ∃ s', sadStep1 env fn fl P s e = .ok s' ∧ SAdds env fn m L (Spec.shells P) (Spec.sadPoints e) s s' := by
  obtain ⟨q, hq, hqX, hg⟩ := sadDensity1_ok (flags_tl hx hc hcx hcc htau hlapl) hP hpsd e hidx
  obtain ⟨a, ha, hO⟩ := computeBoth1_ok env hx hc fn.thr fl hcx hcc q _ hqX
  have hcov := covers_or hcx hcc
  have hO' := hO
  obtain ⟨a1, a2, a3, a4, a5, a6, a7, a8, a9, a10, a11⟩ := hO
  have hF := sadChannel_ok hcov (uses_tl hx hc) e hr (vrho := a.vxc)
    (s := fun p => 2 * (outBoth env fn.x fn.c fn.xp fn.cp fn.thr ((Spec.shells P).input (Spec.sadPoint e p))).vsigma * (Spec.shells P).drho (Spec.sadPoint e p))
    (vt := fun p => (outBoth env fn.x fn.c fn.xp fn.cp fn.thr ((Spec.shells P).input (Spec.sadPoint e p))).vtau)
    (vl := fun p => (outBoth env fn.x fn.c fn.xp fn.cp fn.thr ((Spec.shells P).input (Spec.sadPoint e p))).vlapl)
    (gn := sadWeights1 (sadBf fl e) q a) (vtau := a.vtau) (vlapl := a.vlapl)
    (fun h => by
      rw [sadWeights1, a3 (hcov.1 h), hg (hcov.1 h)]
      simp only [need, Res.ok_bind]
      congr 1
      funext p
      ring) (fun h => a4 (hcov.2.1 h)) (fun h => a5 (hcov.2.2 h)) (fun h p => by rw [a9 h p]; ring) a10 a11
  obtain ⟨H, hH, hHD⟩ := hF
  obtain ⟨Hn, hn, hsh, hp⟩ := sadScatter_chan hs e hidx (H := H) (F := fun D x => sderiv env fn (Spec.shells P) D x) (fun D => by
    rw [hHD, a2]
    rfl)
  refine ⟨⟨s.exc + evalExc1 (sadBf fl e).w q a, s.nel + nel1 (sadBf fl e).w q, Hn⟩, ?_, ?_, ?_, hsh, hp⟩
  · unfold sadStep1 sadFxc1
    rw [hq, Res.ok_bind, ha, Res.ok_bind, a6, a7, a8, hH, Res.ok_bind, hn, Res.ok_bind]
  · simp only
    rw [evalExc1_eq hqX hO', Spec.senergy, sum_sadPoints]
    congr 1
    refine Finset.sum_congr rfl fun p _ => ?_
    simp only [sadBf, Spec.sadPoint, Spec.Shells.input]
    ring
  · simp only
    rw [nel1, hqX.1, Spec.selectrons, sum_sadPoints]
    congr 1
    refine Finset.sum_congr rfl fun p _ => ?_
    simp only [sadBf, Spec.sadPoint, Spec.Shells.input]
    ring

theorem sadStep2_ok {La Lb : Nat} {A B : Cube} (hA : Spec.CubeSymm m A) (hAp : Spec.CubePSD m A) (hB : Spec.CubeSymm m B) (hBp : Spec.CubePSD m B) (beta : Bool) (s : SadTot2)
    (hsa : Shaped m La s.Ha) (hsb : Shaped m Lb s.Hb) :
    ∃ s', sadStep2 env fn fl A B beta s e = .ok s' ∧ SAdds2 env fn m La Lb (Spec.shells A) (Spec.shells B) beta (Spec.sadPoints e) s s' := by
  obtain ⟨q, hq, hqX, hg⟩ := sadDensity2_ok (flags_tl hx hc hcx hcc htau hlapl) hA hAp hB hBp e hidx
  obtain ⟨a, ha, hO⟩ := computeBoth2_ok env hx hc fn.thr fl hcx hcc q _ hqX
  have hcov := covers_or hcx hcc
  have hO' := hO
  obtain ⟨a1, a2, a2', a3, a4, a5, a6, a7, a8, a9, a10, a11⟩ := hO
  obtain ⟨O, hOd⟩ : ∃ O : Fin e.npt → Out2, O = fun p => outBoth2 env fn.x fn.c fn.xp fn.cp fn.thr (Spec.sinputs (Spec.shells A) (Spec.shells B) (Spec.sadPoint e p)) := ⟨_, rfl⟩
  have hOp : ∀ p, outBoth2 env fn.x fn.c fn.xp fn.cp fn.thr (Spec.sinputs (Spec.shells A) (Spec.shells B) (Spec.sadPoint e p)) = O p := fun p => by rw [hOd]
  simp only [hOp] at a1 a2 a2' a3 a4 a5 a9 a10 a11
  obtain ⟨H, hH, hHD⟩ := sadChannel_ok hcov (uses_tl hx hc) e hr (vrho := a.va)
    (s := fun p => 2 * (O p).vsaa * (Spec.shells A).drho (Spec.sadPoint e p) + (O p).vsab * (Spec.shells B).drho (Spec.sadPoint e p))
    (vt := fun p => (O p).vta) (vl := fun p => (O p).vla) (gn := sadWeightsA (sadBf fl e) q a) (vtau := a.vtau.map (·.1)) (vlapl := a.vlapl.map (·.1))
    (fun h => by
      rw [sadWeightsA, a3 (hcov.1 h), hg (hcov.1 h)]
      rfl) (fun h => by rw [a4 (hcov.2.1 h)]; rfl) (fun h => by rw [a5 (hcov.2.2 h)]; rfl) (fun h p => by rw [(a9 h p).1, (a9 h p).2.1]; ring) (fun h p => (a10 h p).1) (fun h p => (a11 h p).1)
  obtain ⟨K, hK, hKD⟩ := sadChannel_ok hcov (uses_tl hx hc) e hr (vrho := a.vb)
    (s := fun p => 2 * (O p).vsbb * (Spec.shells B).drho (Spec.sadPoint e p) + (O p).vsab * (Spec.shells A).drho (Spec.sadPoint e p))
    (vt := fun p => (O p).vtb) (vl := fun p => (O p).vlb) (gn := sadWeightsB (sadBf fl e) q a) (vtau := a.vtau.map (·.2)) (vlapl := a.vlapl.map (·.2))
    (fun h => by
      rw [sadWeightsB, a3 (hcov.1 h), hg (hcov.1 h)]
      rfl) (fun h => by rw [a4 (hcov.2.1 h)]; rfl) (fun h => by rw [a5 (hcov.2.2 h)]; rfl) (fun h p => by rw [(a9 h p).2.2, (a9 h p).2.1]; ring) (fun h p => (a10 h p).2) (fun h p => (a11 h p).2)
  obtain ⟨Hn, hn, hsh, hp⟩ := sadScatter_chan hsa e hidx (H := H) (F := fun D x => sderivA env fn (Spec.shells A) (Spec.shells B) D x) (fun D => by
    rw [hHD, a2]
    refine Finset.sum_congr rfl fun p _ => ?_
    simp only [sderivA, chan, hOp])
  obtain ⟨Kn, kn, ksh, kp⟩ := sadScatter_chan hsb e hidx (H := K) (F := fun D x => sderivB env fn (Spec.shells A) (Spec.shells B) D x) (fun D => by
    rw [hKD, a2']
    refine Finset.sum_congr rfl fun p _ => ?_
    simp only [sderivB, chan, hOp])
  refine ⟨⟨s.exc + evalExc2 (sadBf fl e).w q a, s.nel + nel2 (sadBf fl e).w q, Hn, if beta then Kn else s.Hb⟩, ?_, ?_, ?_, hsh, ?_, hp, ?_⟩
  · unfold sadStep2 sadFxcA sadFxcB
    rw [hq, Res.ok_bind, ha, Res.ok_bind, a6, a7, a8, hH, Res.ok_bind, hn, Res.ok_bind]
    rcases beta with _ | _
    · rw [if_neg (by simp), Res.ok_bind]
      rfl
    · rw [if_pos rfl, hK, Res.ok_bind, kn, Res.ok_bind]
      rfl
  · simp only
    rw [evalExc2_eq hqX hO', Spec.senergy2, sum_sadPoints]
    congr 1
    refine Finset.sum_congr rfl fun p _ => ?_
    simp only [sadBf, Spec.sadPoint, Spec.sinputs]
    ring
  · simp only
    rw [nel2, hqX.1, hqX.2.1, Spec.selectrons, Spec.selectrons, sum_sadPoints, sum_sadPoints, ← Finset.sum_add_distrib]
    congr 1
    refine Finset.sum_congr rfl fun p _ => ?_
    simp only [sadBf, Spec.sadPoint, Spec.sinputs]
    ring
  · rcases beta with _ | _
    · exact hsb
    · exact ksh
  · intro D
    rcases beta with _ | _
    · simp
    · simp [kp]

end step

theorem sadZero_ok {m : Nat} {P : Cube} (hP : Spec.CubeSymm m P) : sadZero P = .ok ⟨P.size, fun _ => Mat.zero m m⟩ := by
  rw [sadZero, if_neg hP.1.ne', (hP.2 0 hP.1).1]

theorem sadGrid1_ok (hx : Spec.Usable env fn.x fn.xp) (hc : Spec.Usable env fn.c fn.cp) {m : Nat} {P : Cube} (hP : Spec.CubeSymm m P) (hpsd : Spec.CubePSD m P) (elems : List SadElem)
    (hidx : ∀ e ∈ elems, ∀ i ∈ e.idx, i < m) (hr : ∀ e ∈ elems, ∀ p, e.r p ≠ 0) :
    ∃ s, sadGrid1 env fn P elems = .ok s ∧ SAdds env fn m P.size (Spec.shells P) (elems.flatMap Spec.sadPoints) ⟨0, 0, ⟨P.size, fun _ => Mat.zero m m⟩⟩ s := by
  obtain ⟨fl, hfl, hcx, hcc, ht, hl⟩ := checkFlags_ok env hx hc
  obtain ⟨s, hs, ha⟩ := fold_sadds (env := env) (fn := fn) (sadStep1 env fn fl P) elems
    (fun e he s h1 => sadStep1_ok hx hc hcx hcc ht hl e (hidx e he) (hr e he) hP hpsd s h1) ⟨0, 0, ⟨P.size, fun _ => Mat.zero m m⟩⟩ ⟨rfl, fun _ _ => ⟨rfl, rfl⟩⟩
  refine ⟨s, ?_, ha⟩
  rw [sadGrid1, sadZero_ok hP, Res.ok_bind, hfl, Res.ok_bind, hs]

theorem cubePairing_zero (m L : Nat) (D : Cube) : Spec.cubePairing m ⟨L, fun _ => Mat.zero m m⟩ D = 0 := by
  simp [Spec.cubePairing, pairing_zero]

/-- without the beta flag nothing is added to the beta matrices -/
theorem sadGrid2_ok (hx : Spec.Usable env fn.x fn.xp) (hc : Spec.Usable env fn.c fn.cp) {m : Nat} {A B : Cube} (hA : Spec.CubeSymm m A) (hAp : Spec.CubePSD m A) (hB : Spec.CubeSymm m B)
    (hBp : Spec.CubePSD m B) (beta : Bool) (elems : List SadElem) (hidx : ∀ e ∈ elems, ∀ i ∈ e.idx, i < m) (hr : ∀ e ∈ elems, ∀ p, e.r p ≠ 0) :
    ∃ s, sadGrid2 env fn A B beta elems = .ok s ∧ SAdds2 env fn m A.size B.size (Spec.shells A) (Spec.shells B) beta (elems.flatMap Spec.sadPoints)
      ⟨0, 0, ⟨A.size, fun _ => Mat.zero m m⟩, ⟨B.size, fun _ => Mat.zero m m⟩⟩ s := by
  obtain ⟨fl, hfl, hcx, hcc, ht, hl⟩ := checkFlags_ok env hx hc
  obtain ⟨s, hs, ha⟩ := fold_sadds2 (env := env) (fn := fn) (sadStep2 env fn fl A B beta) elems
    (fun e he s h1 h2 => sadStep2_ok hx hc hcx hcc ht hl e (hidx e he) (hr e he) hA hAp hB hBp beta s h1 h2)
    ⟨0, 0, ⟨A.size, fun _ => Mat.zero m m⟩, ⟨B.size, fun _ => Mat.zero m m⟩⟩ ⟨rfl, fun _ _ => ⟨rfl, rfl⟩⟩ ⟨rfl, fun _ _ => ⟨rfl, rfl⟩⟩
  refine ⟨if beta then s else ⟨s.exc, s.nel, s.Ha, ⟨B.size, fun _ => Mat.zero m m⟩⟩, ?_, ?_⟩
  · rw [sadGrid2, sadZero_ok hA, Res.ok_bind, sadZero_ok hB, Res.ok_bind, hfl, Res.ok_bind, hs, Res.ok_bind]
    rcases beta <;> rfl
  · rcases beta with _ | _
    · exact ⟨ha.exc, ha.nel, ha.shapedA, ⟨rfl, fun _ _ => ⟨rfl, rfl⟩⟩, ha.pairsA, fun D => by simp [cubePairing_zero]⟩
    · exact ha

/-! ### Entries, symmetry, order -/

/-- one slice -/
def single (l : Nat) (D : Mat ℝ) : Cube := ⟨0, fun k => if k = l then D else Mat.zero 0 0⟩

theorem cubePairing_single (m : Nat) (H : Cube) {l : Nat} (hl : l < H.size) (D : Mat ℝ) : Spec.cubePairing m H (single l D) = Spec.pairing m (H.slice l) D := by
  unfold Spec.cubePairing
  rw [Finset.sum_eq_single l]
  · simp [single]
  · intro k _ hk
    simp [single, hk, Spec.pairing, Mat.zero]
  · intro hn; exact absurd (Finset.mem_range.2 hl) hn

theorem sform_transpose (D : Nat → Nat → ℝ) (idx : List Nat) (u v : Fin idx.length → ℝ) : Spec.sform (fun i j => D j i) idx u v = Spec.sform D idx v u := by
  unfold Spec.sform
  rw [Finset.sum_comm]
  refine Finset.sum_congr rfl fun i _ => Finset.sum_congr rfl fun j _ => ?_
  ring

theorem chan_transpose (vr s vl vt : ℝ) (L : Nat) (D : Nat → Nat → Nat → ℝ) (x : Spec.SPoint) : chan vr s vl vt ⟨L, fun l i j => D l j i⟩ x = chan vr s vl vt ⟨L, D⟩ x := by
  have h1 : Spec.Shells.rho ⟨L, fun l i j => D l j i⟩ x = Spec.Shells.rho ⟨L, D⟩ x := by simp only [Spec.Shells.rho, sform_transpose]
  have h2 : Spec.Shells.drho ⟨L, fun l i j => D l j i⟩ x = Spec.Shells.drho ⟨L, D⟩ x := by
    simp only [Spec.Shells.drho, sform_transpose]
    exact Finset.sum_congr rfl fun l _ => by ring
  have h3 : Spec.Shells.ddrho ⟨L, fun l i j => D l j i⟩ x = Spec.Shells.ddrho ⟨L, D⟩ x := by
    simp only [Spec.Shells.ddrho, sform_transpose]
    exact Finset.sum_congr rfl fun l _ => by ring
  have h4 : Spec.Shells.tau ⟨L, fun l i j => D l j i⟩ x = Spec.Shells.tau ⟨L, D⟩ x := by simp only [Spec.Shells.tau, sform_transpose]
  simp only [chan, Spec.Shells.lapl, h1, h2, h3, h4]

/-- contractions that do not see transposition belong to symmetric matrices -/
theorem cube_symm {m L : Nat} {H : Cube} (hH : Shaped m L H) (hL : 0 < L) {pts : List Spec.SPoint} {F : Spec.Shells → Spec.SPoint → ℝ}
    (hF : ∀ D x, F ⟨L, fun l i j => D l j i⟩ x = F ⟨L, D⟩ x) (hp : ∀ D, Spec.cubePairing m H D = (pts.map (F (shellsOf L D))).sum) : Spec.CubeSymm m H := by
  refine ⟨by rw [hH.1]; exact hL, fun l hl => ?_⟩
  have hl' : l < L := by rw [← hH.1]; exact hl
  refine symm_of_pairing m _ (hH.2 l hl').1 (hH.2 l hl').2 fun D => ?_
  rw [← cubePairing_single m H hl, ← cubePairing_single m H hl, hp, hp]
  congr 1
  refine List.map_congr_left fun x _ => ?_
  have e : shellsOf L (single l ⟨D.rows, D.cols, fun i j => D.get j i⟩) = ⟨L, fun k i j => ((single l D).slice k).get j i⟩ := by
    unfold shellsOf
    congr 1
    funext k i j
    simp only [single]
    split_ifs <;> rfl
  rw [e, hF]
  rfl

/-- cubes with the same contractions have the same entries -/
theorem cube_same {m L : Nat} {H K : Cube} (hH : Shaped m L H) (hK : Shaped m L K) (h : ∀ D, Spec.cubePairing m H D = Spec.cubePairing m K D) :
    H.size = K.size ∧ ∀ l < H.size, (H.slice l).Same (K.slice l) := by
  refine ⟨by rw [hH.1, hK.1], fun l hl => ?_⟩
  have hl' : l < L := by rw [← hH.1]; exact hl
  obtain ⟨r1, c1⟩ := hH.2 l hl'
  obtain ⟨r2, c2⟩ := hK.2 l hl'
  refine ⟨by rw [r1, r2], by rw [c1, c2], fun i hi j hj => ?_⟩
  rw [r1] at hi
  rw [c1] at hj
  rw [← entry_of_pairing m (H.slice l) hi hj, ← entry_of_pairing m (K.slice l) hi hj, ← cubePairing_single m H hl, ← cubePairing_single m K (by rw [hK.1]; exact hl'), h]

/-! ### Derivatives along a line -/

/-- `P + t D` -/
noncomputable def sline (P D : Spec.Shells) (t : ℝ) : Spec.Shells := ⟨P.L, fun l i j => P.D l i j + t * D.D l i j⟩

theorem sform_line (P D : Nat → Nat → ℝ) (idx : List Nat) (t : ℝ) (u v : Fin idx.length → ℝ) :
    Spec.sform (fun i j => P i j + t * D i j) idx u v = Spec.sform P idx u v + t * Spec.sform D idx u v := by
  simp only [Spec.sform, Finset.mul_sum, ← Finset.sum_add_distrib]
  exact Finset.sum_congr rfl fun i _ => Finset.sum_congr rfl fun j _ => by ring

theorem affine_deriv {F : ℝ → ℝ} {a b : ℝ} (h : ∀ t, F t = a + t * b) : HasDerivAt F b 0 := by
  have : F = fun t => a + t * b := funext h
  rw [this]
  simpa using ((hasDerivAt_id (0 : ℝ)).mul_const b).const_add a

section line
variable (P D : Spec.Shells) (hL : D.L = P.L) (x : Spec.SPoint)
include hL

theorem srho_line (t : ℝ) : (sline P D t).rho x = P.rho x + t * D.rho x := by
  simp only [Spec.Shells.rho, sline, sform_line, hL, Finset.sum_add_distrib, Finset.mul_sum]

theorem sdrho_line (t : ℝ) : (sline P D t).drho x = P.drho x + t * D.drho x := by
  simp only [Spec.Shells.drho, sline, sform_line, hL, Finset.mul_sum, ← Finset.sum_add_distrib]
  exact Finset.sum_congr rfl fun l _ => by ring

theorem sddrho_line (t : ℝ) : (sline P D t).ddrho x = P.ddrho x + t * D.ddrho x := by
  simp only [Spec.Shells.ddrho, sline, sform_line, hL, Finset.mul_sum, ← Finset.sum_add_distrib]
  exact Finset.sum_congr rfl fun l _ => by ring

theorem slapl_line (t : ℝ) : (sline P D t).lapl x = P.lapl x + t * D.lapl x := by
  simp only [Spec.Shells.lapl, sddrho_line P D hL, sdrho_line P D hL]
  ring

theorem stau_line (t : ℝ) : (sline P D t).tau x = P.tau x + t * D.tau x := by
  simp only [Spec.Shells.tau, sline, sform_line, hL, Finset.mul_sum, ← Finset.sum_add_distrib]
  exact Finset.sum_congr rfl fun l _ => by ring

omit hL in
theorem sline_zero : sline P D 0 = P := by simp [sline]

theorem sdot_deriv (A B A' B' : Spec.Shells) (hA : A'.L = A.L) (hB : B'.L = B.L) :
    HasDerivAt (fun t => (sline A A' t).drho x * (sline B B' t).drho x) (A'.drho x * B.drho x + A.drho x * B'.drho x) 0 := by
  refine ((affine_deriv (sdrho_line A A' hA x)).mul (affine_deriv (sdrho_line B B' hB x))).congr_deriv ?_
  rw [sline_zero, sline_zero]

end line

theorem senergy_deriv (pts : List Spec.SPoint) (P D : Spec.Shells) (hL : D.L = P.L)
    (h : ∀ x ∈ pts, Spec.Consistent env fn.x fn.xp fn.thr (P.input x) ∧ Spec.Consistent env fn.c fn.cp fn.thr (P.input x)) :
    HasDerivAt (fun t => Spec.senergy env fn.x fn.c fn.xp fn.cp fn.thr pts (sline P D t)) ((pts.map (sderiv env fn P D)).sum) 0 := by
  induction pts with
  | nil =>
    simp only [Spec.senergy, List.map_nil, List.sum_nil]
    exact hasDerivAt_const _ _
  | cons x r ih =>
    simp only [Spec.senergy, List.map_cons, List.sum_cons]
    refine HasDerivAt.add ?_ (ih fun y hy => h y (List.mem_cons_of_mem _ hy))
    obtain ⟨hx, hc⟩ := h x List.mem_cons_self
    have h0 : (sline P D 0).input x = P.input x := by rw [sline_zero]
    have hsig : HasDerivAt (fun t => ((sline P D t).input x).sigma) (2 * (P.drho x * D.drho x)) 0 := by
      have := sdot_deriv P D hL x P P D D hL hL
      refine (this.congr_deriv (by ring)).congr_of_eventuallyEq (Filter.Eventually.of_forall fun t => ?_)
      simp only [Spec.Shells.input, pow_two]
    have := deriv_both env (X := fun t => (sline P D t).input x) (t0 := 0) (by simp only [h0]; exact hx) (by simp only [h0]; exact hc)
      (affine_deriv (srho_line P D hL x)) hsig (affine_deriv (slapl_line P D hL x)) (affine_deriv (stau_line P D hL x))
    simp only [h0] at this
    refine (this.const_mul x.w).congr_deriv ?_
    simp only [sderiv, chan]
    ring

theorem senergy2_deriv (pts : List Spec.SPoint) (A B DA DB : Spec.Shells) (hA : DA.L = A.L) (hB : DB.L = B.L)
    (h : ∀ x ∈ pts, Spec.Consistent2 env fn.x fn.xp fn.thr (Spec.sinputs A B x) ∧ Spec.Consistent2 env fn.c fn.cp fn.thr (Spec.sinputs A B x)) :
    HasDerivAt (fun t => Spec.senergy2 env fn.x fn.c fn.xp fn.cp fn.thr pts (sline A DA t) (sline B DB t))
      ((pts.map (sderivA env fn A B DA)).sum + (pts.map (sderivB env fn A B DB)).sum) 0 := by
  induction pts with
  | nil =>
    simp only [Spec.senergy2, List.map_nil, List.sum_nil, add_zero]
    exact hasDerivAt_const _ _
  | cons x r ih =>
    simp only [Spec.senergy2, List.map_cons, List.sum_cons]
    obtain ⟨hx, hc⟩ := h x List.mem_cons_self
    have h0 : Spec.sinputs (sline A DA 0) (sline B DB 0) x = Spec.sinputs A B x := by rw [sline_zero, sline_zero]
    have hd : HasDeriv2 (fun t => Spec.sinputs (sline A DA t) (sline B DB t) x)
        ⟨DA.rho x, DB.rho x, 2 * (A.drho x * DA.drho x), DA.drho x * B.drho x + A.drho x * DB.drho x, 2 * (B.drho x * DB.drho x), DA.lapl x, DB.lapl x, DA.tau x, DB.tau x⟩ 0 := by
      refine ⟨affine_deriv (srho_line A DA hA x), affine_deriv (srho_line B DB hB x), ?_, sdot_deriv A DA hA x A B DA DB hA hB, ?_, affine_deriv (slapl_line A DA hA x),
        affine_deriv (slapl_line B DB hB x), affine_deriv (stau_line A DA hA x), affine_deriv (stau_line B DB hB x)⟩
      · refine ((sdot_deriv A DA hA x A A DA DA hA hA).congr_deriv (by ring)).congr_of_eventuallyEq (Filter.Eventually.of_forall fun t => ?_)
        simp only [Spec.sinputs, pow_two]
      · refine ((sdot_deriv A DA hA x B B DB DB hB hB).congr_deriv (by ring)).congr_of_eventuallyEq (Filter.Eventually.of_forall fun t => ?_)
        simp only [Spec.sinputs, pow_two]
    have := deriv_both2 env (X := fun t => Spec.sinputs (sline A DA t) (sline B DB t) x) (t0 := 0) (by simp only [h0]; exact hx) (by simp only [h0]; exact hc) hd
    simp only [h0] at this
    refine ((this.const_mul x.w).add (ih fun y hy => h y (List.mem_cons_of_mem _ hy))).congr_deriv ?_
    simp only [sderivA, sderivB, chan, Out2.dot]
    ring

end XC
end HelFEM
