import Verif.Lemmas.XCElem
import Verif.Spec.GridXC
import Verif.Lemmas.DiaIndex

/-!
# The restricted grids
-/

namespace HelFEM
namespace XC

open Matrix

variable {N : Nat}

/-! ### Conjugated functions -/

/-- the complex conjugate functions -/
noncomputable def cc {d : Nat} (x : Spec.Point d) : Spec.Point d := ⟨x.idx, x.w, fun a => star (x.f a), fun c a => star (x.g c a), fun a => star (x.l a)⟩

theorem form_conj (D : Nat → Nat → ℝ) (idx : List Nat) (u v : Fin idx.length → ℂ) : Spec.form D idx (fun a => star (u a)) (fun a => star (v a)) = Spec.form D idx u v :=
  lform_conj (sub D idx) u v

theorem rho_cc {d : Nat} (D : Nat → Nat → ℝ) (x : Spec.Point d) : Spec.rho D (cc x) = Spec.rho D x := form_conj _ _ _ _
theorem grad_cc {d : Nat} (D : Nat → Nat → ℝ) (x : Spec.Point d) (c : Fin d) : Spec.grad D (cc x) c = Spec.grad D x c := by
  have h1 := form_conj D x.idx (x.g c) x.f
  have h2 := form_conj D x.idx x.f (x.g c)
  simp only [Spec.grad, cc, h1, h2]
theorem tau_cc {d : Nat} (D : Nat → Nat → ℝ) (x : Spec.Point d) : Spec.tau D (cc x) = Spec.tau D x := by
  simp only [Spec.tau, cc, form_conj D x.idx]
theorem lapl_cc {d : Nat} (D : Nat → Nat → ℝ) (x : Spec.Point d) : Spec.lapl D (cc x) = Spec.lapl D x := by
  have h1 := form_conj D x.idx x.l x.f
  have h2 := form_conj D x.idx x.f x.l
  simp only [Spec.lapl, cc, form_conj D x.idx, h1, h2]
theorem input_cc {d : Nat} (D : Nat → Nat → ℝ) (x : Spec.Point d) : Spec.input D (cc x) = Spec.input D x := by
  simp only [Spec.input, rho_cc, grad_cc, tau_cc, lapl_cc]
theorem inputs_cc {d : Nat} (A B : Nat → Nat → ℝ) (x : Spec.Point d) : Spec.inputs A B (cc x) = Spec.inputs A B x := by
  simp only [Spec.inputs, rho_cc, grad_cc, tau_cc, lapl_cc]

/-! ### The stored buffers -/

/-- the derivatives as stored -/
noncomputable def atomG (e : AtomElem) : Fin 3 → Matrix (Fin e.idx.length) (Fin (e.nang * e.nrad)) ℂ := fun c => storeAdjoint fun ia => e.df ia c
/-- the Laplacians as stored -/
noncomputable def atomL (e : AtomElem) : Matrix (Fin e.idx.length) (Fin (e.nang * e.nrad)) ℂ := storeAdjoint e.lf

theorem atom_ready (fl : Flags) (hfl : fl.tau = true ∨ fl.lapl = true → fl.grad = true) (e : AtomElem) : Ready fl (atomBf fl e) (atomG e) (atomL e) where
  g := fun h => by simp only [atomBf, h, if_true]; rfl
  l := fun h => by simp only [atomBf, h, if_true]; rfl
  tl := hfl
  isc := fun c p => by
    simp only [atomBf]
    split_ifs with h
    · simp [AtomElem.scale, h]
    · rfl

theorem atom_vpoint (fl : Flags) (e : AtomElem) (p : Fin (e.nang * e.nrad)) : vpoint e.idx (atomBf fl e) (atomG e) (atomL e) p = cc (Spec.atomPoint e (pt p).1 (pt p).2) := by
  unfold vpoint cc Spec.atomPoint
  simp only [Spec.Point.mk.injEq, heq_eq_eq, true_and]
  refine ⟨rfl, rfl, ?_, rfl⟩
  funext c a
  fin_cases c
  · simp [atomBf, AtomElem.scale, atomG, storeAdjoint]
  · simp [atomBf, AtomElem.scale, atomG, storeAdjoint]
  · simp [atomBf, AtomElem.scale, atomG, storeAdjoint, Spec.sine]

/-- the derivatives as stored -/
noncomputable def diaG (e : DiaPoint) : Fin 3 → Matrix (Fin e.idx.length) (Fin (e.nang * 1)) ℂ := fun c => storeAdjoint fun ia => e.df ia c

theorem dia_ready (fl : Flags) (hl : fl.lapl = false) (hfl : fl.tau = true ∨ fl.lapl = true → fl.grad = true) (e : DiaPoint) :
    ∃ V, diaBf fl e = .ok V ∧ Ready fl V (diaG e) 0 ∧ ∀ p, vpoint e.idx V (diaG e) 0 p = cc (Spec.diaPoint e (pt p).1) := by
  unfold diaBf
  rw [if_neg (by simp [hl])]
  refine ⟨_, rfl, ⟨fun h => by simp only [h, if_true]; rfl, fun h => by rw [hl] at h; simp at h, hfl, fun c p => rfl⟩, fun p => ?_⟩
  unfold vpoint cc Spec.diaPoint
  simp only [Spec.Point.mk.injEq, heq_eq_eq, true_and]
  have h0 : (pt p).2 = (0 : Fin 1) := Subsingleton.elim _ _
  refine ⟨rfl, ?_, ?_, ?_⟩
  · funext a
    simp [storeAdjoint, h0]
  · funext c a
    fin_cases c
    · simp [DiaPoint.scale, diaG, storeAdjoint, h0, Spec.sine]
    · simp [DiaPoint.scale, diaG, storeAdjoint, h0, Spec.sine]
    · have : (starRingEnd ℂ) (Complex.sinh (e.mu : ℂ)) = Complex.sinh (e.mu : ℂ) := by rw [← Complex.ofReal_sinh, Complex.conj_ofReal]
      simp [DiaPoint.scale, diaG, storeAdjoint, h0, Spec.sine, this]
  · funext a
    simp

/-! ### Sums over points -/

theorem sum_flatMap {α β : Type} (l : List α) (g : α → List β) (F : β → ℝ) : ((l.flatMap g).map F).sum = (l.map fun a => ((g a).map F).sum).sum := by
  induction l with
  | nil => rfl
  | cons a r ih => rw [List.flatMap_cons, List.map_append, List.sum_append, ih, List.map_cons, List.sum_cons]

theorem sum_pt {nang nrad : Nat} (F : Fin nang → Fin nrad → ℝ) : ∑ p : Fin (nang * nrad), F (pt p).1 (pt p).2 = ∑ ia, ∑ ir, F ia ir := by
  rw [← Fintype.sum_prod_type']
  exact Equiv.sum_comp finProdFinEquiv.symm fun x : Fin nang × Fin nrad => F x.1 x.2

theorem sum_atomPoints (e : AtomElem) (F : Spec.Point 3 → ℝ) : ((Spec.atomPoints e).map F).sum = ∑ p : Fin (e.nang * e.nrad), F (Spec.atomPoint e (pt p).1 (pt p).2) := by
  rw [sum_pt fun ia ir => F (Spec.atomPoint e ia ir), Spec.atomPoints, sum_flatMap]
  simp only [List.map_map, Fin.sum_univ_def]
  rfl

theorem sum_diaPoints (e : DiaPoint) (F : Spec.Point 3 → ℝ) : ((Spec.diaPoints e).map F).sum = ∑ p : Fin (e.nang * 1), F (Spec.diaPoint e (pt p).1) := by
  rw [sum_pt fun ia (_ : Fin 1) => F (Spec.diaPoint e ia), Spec.diaPoints]
  simp only [List.map_map, Fin.sum_univ_def, List.finRange_succ, List.finRange_zero]
  simp
  rfl

/-! ### Folding over the elements -/

/-- the derivative of the energy at the points, in the direction `D` -/
noncomputable def deriv1 (env : Libxc) (fn : Funcs) (P D : Nat → Nat → ℝ) (x : Spec.Point 3) : ℝ :=
  let O := outBoth env fn.x fn.c fn.xp fn.cp fn.thr (Spec.input P x)
  x.w * (O.vrho * Spec.rho D x + O.vsigma * (2 * ∑ c, Spec.grad P x c * Spec.grad D x c) + O.vlapl * Spec.lapl D x + O.vtau * Spec.tau D x)

/-- what a run over some points adds to the totals -/
structure Adds (env : Libxc) (fn : Funcs) (m : Nat) (P : Nat → Nat → ℝ) (tau : Bool) (pts : List (Spec.Point 3)) (s s' : Tot1) : Prop where
  exc : s'.exc = s.exc + Spec.energy env fn.x fn.c fn.xp fn.cp fn.thr pts P
  nel : s'.nel = s.nel + Spec.electrons pts P
  ekin : s'.ekin = s.ekin + if tau then Spec.kinetic pts P else 0
  rows : s'.H.rows = m
  cols : s'.H.cols = m
  pairs : ∀ D : Mat ℝ, Spec.pairing m s'.H D = Spec.pairing m s.H D + (pts.map (deriv1 env fn P D.get)).sum

theorem Adds.trans {env : Libxc} {fn : Funcs} {m : Nat} {P : Nat → Nat → ℝ} {tau : Bool} {p q : List (Spec.Point 3)} {s s' s'' : Tot1} (h : Adds env fn m P tau p s s')
    (h' : Adds env fn m P tau q s' s'') : Adds env fn m P tau (p ++ q) s s'' where
  exc := by rw [h'.exc, h.exc]; simp [Spec.energy, add_assoc]
  nel := by rw [h'.nel, h.nel]; simp [Spec.electrons, add_assoc]
  ekin := by
    rw [h'.ekin, h.ekin]
    split_ifs <;> simp [Spec.kinetic, add_assoc]
  rows := h'.rows
  cols := h'.cols
  pairs := fun D => by rw [h'.pairs, h.pairs]; simp [add_assoc]

theorem fold_adds {α : Type} {env : Libxc} {fn : Funcs} {m : Nat} {P : Nat → Nat → ℝ} {tau : Bool} (step : Tot1 → α → Res Tot1) (pts : α → List (Spec.Point 3)) (l : List α)
    (h : ∀ e ∈ l, ∀ s : Tot1, s.H.rows = m → s.H.cols = m → ∃ s', step s e = .ok s' ∧ Adds env fn m P tau (pts e) s s') (s : Tot1) (hr : s.H.rows = m) (hc : s.H.cols = m) :
    ∃ s', l.foldlM step s = .ok s' ∧ Adds env fn m P tau (l.flatMap pts) s s' := by
  induction l generalizing s with
  | nil =>
    refine ⟨s, rfl, ?_⟩
    constructor
    · simp [Spec.energy]
    · simp [Spec.electrons]
    · simp [Spec.kinetic]
    · exact hr
    · exact hc
    · intro D; simp
  | cons e r ih =>
    obtain ⟨s1, h1, a1⟩ := h e List.mem_cons_self s hr hc
    obtain ⟨s2, h2, a2⟩ := ih (fun e' he' => h e' (List.mem_cons_of_mem _ he')) s1 a1.rows a1.cols
    refine ⟨s2, ?_, ?_⟩
    · rw [List.foldlM_cons, h1, Res.ok_bind, h2]
    · rw [List.flatMap_cons]
      exact a1.trans a2

theorem ekin1_ok {d : Nat} {fl : Flags} {w : Fin N → ℝ} {q : Dens1 d N} {X : Fin N → In1} (hq : HoldsQ fl q X) :
    ekin1 fl w q = .ok (if fl.tau then ∑ p, w p * (X p).tau else 0) := by
  unfold ekin1
  by_cases h : fl.tau = true
  · rw [if_pos h, hq.2.2.1 h, if_pos h]; rfl
  · rw [if_neg h, if_neg h]

theorem evalExc1_eq {env : Libxc} {fn : Funcs} {d : Nat} {fl : Flags} {w : Fin N → ℝ} {q : Dens1 d N} {X : Fin N → In1} (hq : HoldsQ fl q X) {a : Acc1 N} {u : Spec.Uses}
    (ha : Holds fl a (fun p => outBoth env fn.x fn.c fn.xp fn.cp fn.thr (X p)) u) :
    evalExc1 w q a = ∑ p, w p * ((X p).rho * (Spec.exc env fn.x fn.xp fn.thr (X p) + Spec.exc env fn.c fn.cp fn.thr (X p))) := by
  unfold evalExc1
  rw [ha.1, hq.1]
  refine Finset.sum_congr rfl fun p _ => ?_
  simp only [outBoth, Out1.plus, outOf_exc]
  ring

section step
variable {env : Libxc} {fn : Funcs} (hx : Spec.Usable env fn.x fn.xp) (hc : Spec.Usable env fn.c fn.cp) {fl : Flags}
  (hcx : Covers fl (usesOf env fn.x)) (hcc : Covers fl (usesOf env fn.c)) (htau : fl.tau = ((usesOf env fn.x).tau || (usesOf env fn.c).tau))
  (hlapl : fl.lapl = ((usesOf env fn.x).lapl || (usesOf env fn.c).lapl)) {m : Nat} (hm : 0 < m) {P : Mat ℝ} (hP : Spec.Symm m P)

include hx hc hcx hcc htau hlapl in
theorem flags_tl : fl.tau = true ∨ fl.lapl = true → fl.grad = true := by
  intro h
  rw [htau, hlapl] at h
  have h1 := usesOf_grad env hx
  have h2 := usesOf_grad env hc
  rcases h with h | h <;> rcases Bool.or_eq_true_iff.1 h with h | h
  · exact hcx.1 (h1 (Or.inl h))
  · exact hcc.1 (h2 (Or.inl h))
  · exact hcx.1 (h1 (Or.inr h))
  · exact hcc.1 (h2 (Or.inr h))

include hx hc in
theorem uses_tl : ((usesOf env fn.x).or (usesOf env fn.c)).tau = true ∨ ((usesOf env fn.x).or (usesOf env fn.c)).lapl = true → ((usesOf env fn.x).or (usesOf env fn.c)).grad = true := by
  intro h
  have h1 := usesOf_grad env hx
  have h2 := usesOf_grad env hc
  simp only [Spec.Uses.or, Bool.or_eq_true] at *
  tauto

include hcx hcc in
theorem covers_or : Covers fl ((usesOf env fn.x).or (usesOf env fn.c)) := by
  obtain ⟨a, b, c⟩ := hcx
  obtain ⟨a', b', c'⟩ := hcc
  simp only [Covers, Spec.Uses.or, Bool.or_eq_true]
  tauto

include hx hc hcx hcc htau hlapl hm hP in
theorem atomStep1_ok (e : AtomElem) (hidx : ∀ i ∈ e.idx, i < m) (s : Tot1) (hr : s.H.rows = m) (hcl : s.H.cols = m) :
    ∃ s', atomStep1 env fn fl P s e = .ok s' ∧ Adds env fn m P.get fl.tau (Spec.atomPoints e) s s' := by
  have hV := atom_ready fl (flags_tl hx hc hcx hcc htau hlapl) e
  obtain ⟨q, hq, hqX, hg⟩ := atomDensity1_ok hP hidx hV hm
  obtain ⟨a, ha, hO⟩ := computeBoth1_ok env hx hc fn.thr fl hcx hcc q _ hqX
  obtain ⟨H, hH, hp⟩ := atomFxc1_ok hV (covers_or hcx hcc) hg hO (uses_tl hx hc)
  obtain ⟨Hn, hn, hnr, hnc, -, hnp⟩ := scatterMat_ok m s.H hr hcl e.idx hidx H
  refine ⟨⟨s.exc + evalExc1 (atomBf fl e).w q a, s.nel + nel1 (atomBf fl e).w q, s.ekin +
    if fl.tau then ∑ p, (atomBf fl e).w p * (Spec.input P.get (vpoint e.idx (atomBf fl e) (atomG e) (atomL e) p)).tau else 0, Hn⟩, ?_, ?_⟩
  · unfold atomStep1
    rw [hq, Res.ok_bind, ekin1_ok hqX, Res.ok_bind, ha, Res.ok_bind, hH, Res.ok_bind, hn, Res.ok_bind]
  · constructor
    · simp only
      rw [evalExc1_eq hqX hO, Spec.energy, sum_atomPoints]
      simp only [atom_vpoint, input_cc]
      rfl
    · simp only
      rw [nel1, hqX.1, Spec.electrons, sum_atomPoints]
      simp only [atom_vpoint, input_cc]
      rfl
    · simp only
      rw [Spec.kinetic, sum_atomPoints]
      simp only [atom_vpoint, input_cc]
      rfl
    · exact hnr
    · exact hnc
    · intro D
      simp only
      rw [hnp, hp, sum_atomPoints, elemDeriv]
      simp only [atom_vpoint, input_cc, rho_cc, grad_cc, lapl_cc, tau_cc]
      rfl

include hx hc hcx hcc htau hlapl hm hP in
theorem diaStep1_ok (hl : fl.lapl = false) (e : DiaPoint) (hidx : ∀ i ∈ e.idx, i < m) (s : Tot1) (hr : s.H.rows = m) (hcl : s.H.cols = m) :
    ∃ s', diaStep1 env fn fl P s e = .ok s' ∧ Adds env fn m P.get fl.tau (Spec.diaPoints e) s s' := by
  obtain ⟨V, hV0, hV, hVp⟩ := dia_ready fl hl (flags_tl hx hc hcx hcc htau hlapl) e
  obtain ⟨q, hq, hqX, hg⟩ := diaDensity1_ok hP hidx hV hm hl
  obtain ⟨a, ha, hO⟩ := computeBoth1_ok env hx hc fn.thr fl hcx hcc q _ hqX
  obtain ⟨H, hH, hp⟩ := diaFxc1_ok hV (covers_or hcx hcc) hg hO (uses_tl hx hc) (by rw [← hl, hlapl]; rfl)
  obtain ⟨Hn, hn, hnr, hnc, -, hnp⟩ := scatterMat_ok m s.H hr hcl e.idx hidx H
  have hw : ∀ p, V.w p = (Spec.diaPoint e (pt p).1).w := fun p => congrArg Spec.Point.w (hVp p)
  refine ⟨⟨s.exc + evalExc1 V.w q a, s.nel + nel1 V.w q, s.ekin + if fl.tau then ∑ p, V.w p * (Spec.input P.get (vpoint e.idx V (diaG e) 0 p)).tau else 0, Hn⟩, ?_, ?_⟩
  · unfold diaStep1
    rw [hV0, Res.ok_bind, hq, Res.ok_bind, ekin1_ok hqX, Res.ok_bind, ha, Res.ok_bind, hH, Res.ok_bind, hn, Res.ok_bind]
  · constructor
    · simp only
      rw [evalExc1_eq hqX hO, Spec.energy, sum_diaPoints]
      simp only [hVp, input_cc, hw]
      rfl
    · simp only
      rw [nel1, hqX.1, Spec.electrons, sum_diaPoints]
      simp only [hVp, input_cc, hw]
      rfl
    · simp only
      rw [Spec.kinetic, sum_diaPoints]
      simp only [hVp, input_cc, hw]
      rfl
    · exact hnr
    · exact hnc
    · intro D
      simp only
      rw [hnp, hp, sum_diaPoints, elemDeriv]
      simp only [hVp, input_cc, rho_cc, grad_cc, lapl_cc, tau_cc]
      rfl

end step

/-! ### Symmetry and derivative -/

theorem form_transpose (D : Nat → Nat → ℝ) (idx : List Nat) (u v : Fin idx.length → ℂ) : Spec.form (fun i j => D j i) idx u v = Spec.form D idx v u :=
  lform_transpose (sub D idx) u v

theorem deriv1_transpose (env : Libxc) (fn : Funcs) (P D : Nat → Nat → ℝ) (x : Spec.Point 3) : deriv1 env fn P (fun i j => D j i) x = deriv1 env fn P D x := by
  have h1 : Spec.rho (fun i j => D j i) x = Spec.rho D x := form_transpose _ _ _ _
  have h2 : ∀ c, Spec.grad (fun i j => D j i) x c = Spec.grad D x c := by
    intro c
    simp only [Spec.grad, form_transpose]
    ring
  have h3 : Spec.tau (fun i j => D j i) x = Spec.tau D x := by simp only [Spec.tau, form_transpose]
  have h4 : Spec.lapl (fun i j => D j i) x = Spec.lapl D x := by
    simp only [Spec.lapl, form_transpose]
    ring
  simp only [deriv1, h1, h2, h3, h4]

/-- a matrix whose contractions do not see transposition is symmetric -/
theorem symm_of_pairing (m : Nat) (H : Mat ℝ) (hr : H.rows = m) (hc : H.cols = m) (h : ∀ D : Mat ℝ, Spec.pairing m H ⟨D.rows, D.cols, fun i j => D.get j i⟩ = Spec.pairing m H D) :
    Spec.Symm m H := by
  refine ⟨hr, hc, fun i hi j hj => ?_⟩
  have key : ∀ i < m, ∀ j < m, Spec.pairing m H ⟨m, m, fun a b => if a = i ∧ b = j then 1 else 0⟩ = H.get i j := by
    intro i hi j hj
    unfold Spec.pairing
    rw [Finset.sum_eq_single i, Finset.sum_eq_single j]
    · simp
    · intro b _ hb; simp [hb]
    · intro hn; exact absurd (Finset.mem_range.2 hj) hn
    · intro a _ ha; simp [ha]
    · intro hn; exact absurd (Finset.mem_range.2 hi) hn
  have e := h ⟨m, m, fun a b => if a = i ∧ b = j then 1 else 0⟩
  rw [key i hi j hj] at e
  rw [← e, ← key j hj i hi]
  congr 2
  funext a b
  simp only [and_comm]

theorem symm_line {m : Nat} {P D : Mat ℝ} (hP : Spec.Symm m P) (hD : Spec.Symm m D) (t : ℝ) : Spec.Symm m (Spec.line P D t) :=
  ⟨hP.1, hP.2.1, fun i hi j hj => by simp only [Spec.line]; rw [hP.2.2 i hi j hj, hD.2.2 i hi j hj]⟩

/-- the derivative of the energy over a list of points -/
theorem energy_deriv (env : Libxc) (fn : Funcs) (pts : List (Spec.Point 3)) (P D : Nat → Nat → ℝ)
    (h : ∀ x ∈ pts, Spec.Consistent env fn.x fn.xp fn.thr (Spec.input P x) ∧ Spec.Consistent env fn.c fn.cp fn.thr (Spec.input P x)) :
    HasDerivAt (fun t : ℝ => Spec.energy env fn.x fn.c fn.xp fn.cp fn.thr pts fun i j => P i j + t * D i j) ((pts.map (deriv1 env fn P D)).sum) 0 := by
  induction pts with
  | nil =>
    simp only [Spec.energy, List.map_nil, List.sum_nil]
    exact hasDerivAt_const _ _
  | cons x r ih =>
    simp only [Spec.energy, List.map_cons, List.sum_cons]
    refine HasDerivAt.add ?_ (ih fun y hy => h y (List.mem_cons_of_mem _ hy))
    have := elem_deriv (N := 1) env (x := fn.x) (c := fn.c) (xp := fn.xp) (cp := fn.cp) (thr := fn.thr) (fun _ => x) P D fun _ => h x List.mem_cons_self
    simpa [elemDeriv, deriv1] using this

end XC
end HelFEM
