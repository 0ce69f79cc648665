import Verif.Lemmas.XCFunc2

/-!
# The unrestricted grids: elements and totals
-/

namespace HelFEM
namespace XC

open Matrix

variable {N : Nat}

section density
variable {m : Nat} {A B : Mat ℝ} (hA : Spec.Symm m A) (hB : Spec.Symm m B) {idx : List Nat} (hidx : ∀ i ∈ idx, i < m) {fl : Flags} {V : Vals idx.length N}
  {g : Fin 3 → Matrix (Fin idx.length) (Fin N) ℂ} {l : Matrix (Fin idx.length) (Fin N) ℂ} (hV : Ready fl V g l)
include hA hB hidx hV

theorem gradPart2_ok : ∃ gr, gradPart2 fl.grad (sub A.get idx) (sub B.get idx) V = .ok gr ∧
    (fl.grad = true → gr = some ((fun c p => Spec.grad A.get (vpoint idx V g l p) c, fun c p => Spec.grad B.get (vpoint idx V g l p) c),
      (fun p => (Spec.inputs A.get B.get (vpoint idx V g l p)).saa, fun p => (Spec.inputs A.get B.get (vpoint idx V g l p)).sab,
        fun p => (Spec.inputs A.get B.get (vpoint idx V g l p)).sbb))) := by
  unfold gradPart2
  by_cases hb : fl.grad = true
  · rw [if_pos hb, hV.g hb]
    refine ⟨_, rfl, fun _ => ?_⟩
    have ea : gradc (sub A.get idx) V g = fun c p => Spec.grad A.get (vpoint idx V g l p) c := by funext c p; exact gradc_eq hA hidx c p
    have eb : gradc (sub B.get idx) V g = fun c p => Spec.grad B.get (vpoint idx V g l p) c := by funext c p; exact gradc_eq hB hidx c p
    simp only [Spec.inputs, Fin.sum_univ_three, ea, eb]
  · rw [if_neg hb]
    exact ⟨_, rfl, fun h => absurd h hb⟩

theorem atomDensity2_ok (hm : 0 < m) : ∃ q, atomDensity2 fl A B idx V = .ok q ∧ HoldsQ2 fl q (fun p => Spec.inputs A.get B.get (vpoint idx V g l p)) ∧
    (fl.grad = true → q.grho = some (fun c p => Spec.grad A.get (vpoint idx V g l p) c, fun c p => Spec.grad B.get (vpoint idx V g l p) c)) := by
  obtain ⟨gr, h1, h1'⟩ := gradPart2_ok hA hB hidx hV
  obtain ⟨ta, h2, h2'⟩ := tauPart_ok hV A.get (fl.tau || fl.lapl) fun h => hV.tl (by simpa using h)
  obtain ⟨tb, h3, h3'⟩ := tauPart_ok hV B.get (fl.tau || fl.lapl) fun h => hV.tl (by simpa using h)
  obtain ⟨la, h4, h4'⟩ := laplPart_ok hA hidx hV
  obtain ⟨lb, h5, h5'⟩ := laplPart_ok hB hidx hV
  unfold atomDensity2
  rw [if_neg (by rintro (h | h); exacts [symm_pos hA hm h, symm_pos hB hm h]), gatherMat_ok A idx hA.1 hA.2.1 hidx, Res.ok_bind, gatherMat_ok B idx hB.1 hB.2.1 hidx, Res.ok_bind, h1,
    Res.ok_bind, h2, Res.ok_bind, h3, Res.ok_bind, h4, Res.ok_bind, h5, Res.ok_bind]
  refine ⟨_, rfl, ⟨?_, ?_, ?_, ?_, ?_⟩, ?_⟩
  · funext p; exact dens_eq _ _ _ _
  · funext p; exact dens_eq _ _ _ _
  · intro h; rw [h1' h]; rfl
  · intro h
    simp only
    rw [h2' (by simp [h]), h3' (by simp [h])]; rfl
  · intro h
    simp only
    rw [h4' h, h5' h]; rfl
  · intro h; rw [h1' h]; rfl

theorem diaDensity2_ok (hm : 0 < m) (hl : fl.lapl = false) : ∃ q, diaDensity2 fl A B idx V = .ok q ∧ HoldsQ2 fl q (fun p => Spec.inputs A.get B.get (vpoint idx V g l p)) ∧
    (fl.grad = true → q.grho = some (fun c p => Spec.grad A.get (vpoint idx V g l p) c, fun c p => Spec.grad B.get (vpoint idx V g l p) c)) := by
  obtain ⟨gr, h1, h1'⟩ := gradPart2_ok hA hB hidx hV
  obtain ⟨ta, h2, h2'⟩ := tauPart_ok hV A.get fl.tau fun h => hV.tl (Or.inl h)
  obtain ⟨tb, h3, h3'⟩ := tauPart_ok hV B.get fl.tau fun h => hV.tl (Or.inl h)
  unfold diaDensity2
  rw [if_neg (by rintro (h | h); exacts [symm_pos hA hm h, symm_pos hB hm h]), gatherMat_ok A idx hA.1 hA.2.1 hidx, Res.ok_bind, gatherMat_ok B idx hB.1 hB.2.1 hidx, Res.ok_bind, h1,
    Res.ok_bind, h2, Res.ok_bind, h3, Res.ok_bind, if_neg (by simp [hl])]
  refine ⟨_, rfl, ⟨?_, ?_, ?_, ?_, ?_⟩, ?_⟩
  · funext p; exact dens_eq _ _ _ _
  · funext p; exact dens_eq _ _ _ _
  · intro h; rw [h1' h]; rfl
  · intro h
    simp only
    rw [h2' h, h3' h]; rfl
  · intro h; rw [hl] at h; simp at h
  · intro h; rw [h1' h]; rfl

end density

/-- one spin's potential contracted with `D`; with `miss` the kinetic part of the Laplacian is left out -/
noncomputable def spinDeriv (miss : Bool) (v : Fin N → ℝ) (s : Fin N → Fin 3 → ℝ) (vl vt : Fin N → ℝ) (x : Fin N → Spec.Point 3) (D : Nat → Nat → ℝ) : ℝ :=
  ∑ p, (x p).w * (v p * Spec.rho D (x p) + ∑ c, s p c * Spec.grad D (x p) c + vl p * (Spec.lapl D (x p) - if miss then 4 * Spec.tau D (x p) else 0) + vt p * Spec.tau D (x p))

section fock
variable {idx : List Nat} {fl : Flags} {V : Vals idx.length N} {g : Fin 3 → Matrix (Fin idx.length) (Fin N) ℂ} {l : Matrix (Fin idx.length) (Fin N) ℂ} (hV : Ready fl V g l)
include hV

theorem ggaSpin (b : Bool) (hb : b = true → fl.grad = true) (gn : Res (Fin N → Fin 3 → ℝ)) (s : Fin N → Fin 3 → ℝ) (hs : b = true → gn = .ok fun p c => V.w p * s p c / V.sc c p)
    (hz : b = false → ∀ p c, s p c = 0) (v : Fin N → ℝ) : ∃ H, ggaStep b V gn (incLdaSplit 0 (fun p => v p * V.w p) (re V.f) (im V.f)) = .ok H ∧
      ∀ D : Nat → Nat → ℝ, pair H (sub D idx) = ∑ p, V.w p * (v p * Spec.rho D (vpoint idx V g l p) + ∑ c, s p c * Spec.grad D (vpoint idx V g l p) c) := by
  obtain ⟨H, h, e⟩ := ggaStep_ok hV b hb gn (fun p c => V.w p * s p c) hs (fun h p c => by rw [hz h]; ring) (incLdaSplit 0 (fun p => v p * V.w p) (re V.f) (im V.f))
  refine ⟨H, h, fun D => ?_⟩
  rw [e, pair_ldaSplit, pair_zero, zero_add, ← Finset.sum_add_distrib]
  refine Finset.sum_congr rfl fun p _ => ?_
  rw [vrho_eq, mul_add, Finset.mul_sum]
  congr 1
  · ring
  · exact Finset.sum_congr rfl fun c _ => by ring

theorem atomSpin {u : Spec.Uses} (hcov : Covers fl u) (hu : u.tau = true ∨ u.lapl = true → u.grad = true) (gn : Res (Fin N → Fin 3 → ℝ))
    (s : Fin N → Fin 3 → ℝ) (hs : u.grad = true → gn = .ok fun p c => V.w p * s p c / V.sc c p) (hz : u.grad = false → ∀ p c, s p c = 0) (v vt vl : Fin N → ℝ) (bt bl : Buf N)
    (ht : u.tau = true → bt = some vt) (hl : u.lapl = true → bl = some vl) (ht0 : u.tau = false → ∀ p, vt p = 0) (hl0 : u.lapl = false → ∀ p, vl p = 0) :
    ∃ H, (ggaStep u.grad V gn (incLdaSplit 0 (fun p => v p * V.w p) (re V.f) (im V.f)) >>= fun H =>
      kinStepC u.tau V (vtlWeights V.w u.tau u.lapl bt bl) H >>= fun H => laplStep u.lapl V bl H) = .ok H ∧
      ∀ D : Nat → Nat → ℝ, pair H (sub D idx) = spinDeriv (u.lapl && !u.tau) v s vl vt (vpoint idx V g l) D := by
  obtain ⟨H1, h1, e1⟩ := ggaSpin hV u.grad hcov.1 gn s hs hz v
  have hw := vtlWeights_ok V.w u.tau u.lapl bt bl vt vl ht hl ht0 hl0
  obtain ⟨H2, h2, e2⟩ := kinStepC_ok hV u.tau (fun h => hcov.1 (hu (Or.inl h))) _ (fun p => if u.tau then (1 / 2 * vt p + 2 * vl p) * V.w p else 0) (fun h => by simp only [h, if_true]; exact hw)
    (fun h p => by simp [h]) H1
  obtain ⟨H3, h3, e3⟩ := laplStep_ok hV u.lapl hcov.2.2 bl vl hl hl0 H2
  refine ⟨H3, ?_, fun D => ?_⟩
  · rw [h1, Res.ok_bind, h2, Res.ok_bind, h3]
  · rw [e3, e2, e1, ← Finset.sum_add_distrib, ← Finset.sum_add_distrib, spinDeriv]
    refine Finset.sum_congr rfl fun p _ => ?_
    rw [vlapl_eq, vtau_eq]
    have hw' : (vpoint idx V g l p).w = V.w p := rfl
    rw [hw']
    rcases ht' : u.tau with _ | _
    · rcases hl' : u.lapl with _ | _
      · rw [ht0 ht', hl0 hl']
        simp
      · rw [ht0 ht']
        simp
        ring
    · simp
      ring

theorem diaSpin {u : Spec.Uses} (hcov : Covers fl u) (hu : u.tau = true ∨ u.lapl = true → u.grad = true) (hl : u.lapl = false) (gn : Res (Fin N → Fin 3 → ℝ))
    (s : Fin N → Fin 3 → ℝ) (hs : u.grad = true → gn = .ok fun p c => V.w p * s p c / V.sc c p) (hz : u.grad = false → ∀ p c, s p c = 0) (v vt : Fin N → ℝ) (bt : Buf N)
    (ht : u.tau = true → bt = some vt) (ht0 : u.tau = false → ∀ p, vt p = 0) :
    ∃ H, (ggaStep u.grad V gn (incLdaSplit 0 (fun p => v p * V.w p) (re V.f) (im V.f)) >>= fun H =>
      kinStep u.tau V (vtWeights V.w bt) H >>= fun H => if u.lapl then .throw .logicError else .ok H) = .ok H ∧
      ∀ D : Nat → Nat → ℝ, pair H (sub D idx) = spinDeriv false v s (fun _ => 0) vt (vpoint idx V g l) D := by
  obtain ⟨H1, h1, e1⟩ := ggaSpin hV u.grad hcov.1 gn s hs hz v
  obtain ⟨H2, h2, e2⟩ := kinStep_ok hV u.tau (fun h => hcov.1 (hu (Or.inl h))) (vtWeights V.w bt) (fun p => vt p * V.w p * 0.5) (fun h => by rw [vtWeights, ht h]; rfl)
    (fun h p => by rw [ht0 h]; ring) H1
  refine ⟨H2, ?_, fun D => ?_⟩
  · rw [h1, Res.ok_bind, h2, Res.ok_bind, if_neg (by simp [hl])]
  · rw [e2, e1, ← Finset.sum_add_distrib, spinDeriv]
    refine Finset.sum_congr rfl fun p _ => ?_
    rw [vtau_eq]
    have hw' : (vpoint idx V g l p).w = V.w p := rfl
    rw [hw']
    ring

end fock

/-- the energy's derivative at a point, in the direction `D` of the alpha density -/
noncomputable def derivA (env : Libxc) (fn : Funcs) (miss : Bool) (A B D : Nat → Nat → ℝ) (x : Spec.Point 3) : ℝ :=
  let O := outBoth2 env fn.x fn.c fn.xp fn.cp fn.thr (Spec.inputs A B x)
  x.w * (O.va * Spec.rho D x + ∑ c, (2 * O.vsaa * Spec.grad A x c + O.vsab * Spec.grad B x c) * Spec.grad D x c + O.vla * (Spec.lapl D x - if miss then 4 * Spec.tau D x else 0) + O.vta * Spec.tau D x)

/-- the energy's derivative at a point, in the direction `D` of the beta density -/
noncomputable def derivB (env : Libxc) (fn : Funcs) (miss : Bool) (A B D : Nat → Nat → ℝ) (x : Spec.Point 3) : ℝ :=
  let O := outBoth2 env fn.x fn.c fn.xp fn.cp fn.thr (Spec.inputs A B x)
  x.w * (O.vb * Spec.rho D x + ∑ c, (2 * O.vsbb * Spec.grad B x c + O.vsab * Spec.grad A x c) * Spec.grad D x c + O.vlb * (Spec.lapl D x - if miss then 4 * Spec.tau D x else 0) + O.vtb * Spec.tau D x)

/-- the derivative of the energy of two spin densities over a list of points -/
theorem energy_deriv2 (env : Libxc) (fn : Funcs) (pts : List (Spec.Point 3)) (A B A' B' : Nat → Nat → ℝ)
    (h : ∀ x ∈ pts, Spec.Consistent2 env fn.x fn.xp fn.thr (Spec.inputs A B x) ∧ Spec.Consistent2 env fn.c fn.cp fn.thr (Spec.inputs A B x)) :
    HasDerivAt (fun t : ℝ => Spec.energy2 env fn.x fn.c fn.xp fn.cp fn.thr pts (fun i j => A i j + t * A' i j) fun i j => B i j + t * B' i j)
      ((pts.map (derivA env fn false A B A')).sum + (pts.map (derivB env fn false A B B')).sum) 0 := by
  induction pts with
  | nil =>
    simp only [Spec.energy2, List.map_nil, List.sum_nil, add_zero]
    exact hasDerivAt_const _ _
  | cons x r ih =>
    simp only [Spec.energy2, List.map_cons, List.sum_cons]
    have h0 : Spec.inputs (fun i j => A i j + (0 : ℝ) * A' i j) (fun i j => B i j + (0 : ℝ) * B' i j) x = Spec.inputs A B x := by rw [line_zero, line_zero]
    have hd : HasDeriv2 (fun t => Spec.inputs (fun i j => A i j + t * A' i j) (fun i j => B i j + t * B' i j) x)
        ⟨Spec.rho A' x, Spec.rho B' x, ∑ c, (Spec.grad A' x c * Spec.grad A x c + Spec.grad A x c * Spec.grad A' x c),
          ∑ c, (Spec.grad A' x c * Spec.grad B x c + Spec.grad A x c * Spec.grad B' x c), ∑ c, (Spec.grad B' x c * Spec.grad B x c + Spec.grad B x c * Spec.grad B' x c),
          Spec.lapl A' x, Spec.lapl B' x, Spec.tau A' x, Spec.tau B' x⟩ 0 :=
      ⟨hasDerivAt_rho A A' x, hasDerivAt_rho B B' x, hasDerivAt_dot x A A A' A', hasDerivAt_dot x A B A' B', hasDerivAt_dot x B B B' B', hasDerivAt_lapl A A' x, hasDerivAt_lapl B B' x,
        hasDerivAt_tau A A' x, hasDerivAt_tau B B' x⟩
    have hp := deriv_both2 env (X := fun t => Spec.inputs (fun i j => A i j + t * A' i j) (fun i j => B i j + t * B' i j) x) (t0 := 0)
      (by simp only [h0]; exact (h x List.mem_cons_self).1) (by simp only [h0]; exact (h x List.mem_cons_self).2) hd
    simp only [h0] at hp
    refine ((hp.const_mul x.w).add (ih fun y hy => h y (List.mem_cons_of_mem _ hy))).congr_deriv ?_
    simp only [derivA, derivB, Out2.dot, Bool.false_eq_true, if_false, sub_zero]
    generalize outBoth2 env fn.x fn.c fn.xp fn.cp fn.thr (Spec.inputs A B x) = O
    have s1 : O.vsaa * ∑ c, (Spec.grad A' x c * Spec.grad A x c + Spec.grad A x c * Spec.grad A' x c) + O.vsab * ∑ c, (Spec.grad A' x c * Spec.grad B x c + Spec.grad A x c * Spec.grad B' x c) +
        O.vsbb * ∑ c, (Spec.grad B' x c * Spec.grad B x c + Spec.grad B x c * Spec.grad B' x c) =
        ∑ c, (2 * O.vsaa * Spec.grad A x c + O.vsab * Spec.grad B x c) * Spec.grad A' x c + ∑ c, (2 * O.vsbb * Spec.grad B x c + O.vsab * Spec.grad A x c) * Spec.grad B' x c := by
      simp only [Finset.mul_sum, ← Finset.sum_add_distrib]
      exact Finset.sum_congr rfl fun c _ => by ring
    linear_combination x.w * s1

/-- what a run over some points adds to the totals -/
structure Adds2 (env : Libxc) (fn : Funcs) (m : Nat) (A B : Nat → Nat → ℝ) (tau beta miss : Bool) (pts : List (Spec.Point 3)) (s s' : Tot2) : Prop where
  exc : s'.exc = s.exc + Spec.energy2 env fn.x fn.c fn.xp fn.cp fn.thr pts A B
  nel : s'.nel = s.nel + (Spec.electrons pts A + Spec.electrons pts B)
  ekin : s'.ekin = s.ekin + if tau then Spec.kinetic pts A + Spec.kinetic pts B else 0
  rowsA : s'.Ha.rows = m
  colsA : s'.Ha.cols = m
  rowsB : s'.Hb.rows = m
  colsB : s'.Hb.cols = m
  pairsA : ∀ D : Mat ℝ, Spec.pairing m s'.Ha D = Spec.pairing m s.Ha D + (pts.map (derivA env fn miss A B D.get)).sum
  pairsB : ∀ D : Mat ℝ, Spec.pairing m s'.Hb D = Spec.pairing m s.Hb D + if beta then (pts.map (derivB env fn miss A B D.get)).sum else 0

theorem Adds2.trans {env : Libxc} {fn : Funcs} {m : Nat} {A B : Nat → Nat → ℝ} {tau beta miss : Bool} {p q : List (Spec.Point 3)} {s s' s'' : Tot2} (h : Adds2 env fn m A B tau beta miss p s s')
    (h' : Adds2 env fn m A B tau beta miss q s' s'') : Adds2 env fn m A B tau beta miss (p ++ q) s s'' where
  exc := by rw [h'.exc, h.exc]; simp [Spec.energy2, add_assoc]
  nel := by
    rw [h'.nel, h.nel]
    simp only [Spec.electrons, List.map_append, List.sum_append]
    ring
  ekin := by
    rw [h'.ekin, h.ekin]
    simp only [Spec.kinetic, List.map_append, List.sum_append]
    split_ifs <;> ring
  rowsA := h'.rowsA
  colsA := h'.colsA
  rowsB := h'.rowsB
  colsB := h'.colsB
  pairsA := fun D => by rw [h'.pairsA, h.pairsA]; simp [add_assoc]
  pairsB := fun D => by
    rw [h'.pairsB, h.pairsB]
    simp only [List.map_append, List.sum_append]
    split_ifs <;> ring

theorem fold_adds2 {α : Type} {env : Libxc} {fn : Funcs} {m : Nat} {A B : Nat → Nat → ℝ} {tau beta miss : Bool} (step : Tot2 → α → Res Tot2) (pts : α → List (Spec.Point 3)) (l : List α)
    (h : ∀ e ∈ l, ∀ s : Tot2, s.Ha.rows = m → s.Ha.cols = m → s.Hb.rows = m → s.Hb.cols = m → ∃ s', step s e = .ok s' ∧ Adds2 env fn m A B tau beta miss (pts e) s s') (s : Tot2)
    (h1 : s.Ha.rows = m) (h2 : s.Ha.cols = m) (h3 : s.Hb.rows = m) (h4 : s.Hb.cols = m) :
    ∃ s', l.foldlM step s = .ok s' ∧ Adds2 env fn m A B tau beta miss (l.flatMap pts) s s' := by
  induction l generalizing s with
  | nil =>
    refine ⟨s, rfl, ?_⟩
    constructor
    · simp [Spec.energy2]
    · simp [Spec.electrons]
    · simp [Spec.kinetic]
    · exact h1
    · exact h2
    · exact h3
    · exact h4
    · intro D; simp
    · intro D; simp
  | cons e r ih =>
    obtain ⟨s1, e1, a1⟩ := h e List.mem_cons_self s h1 h2 h3 h4
    obtain ⟨s2, e2, a2⟩ := ih (fun e' he' => h e' (List.mem_cons_of_mem _ he')) s1 a1.rowsA a1.colsA a1.rowsB a1.colsB
    refine ⟨s2, ?_, ?_⟩
    · rw [List.foldlM_cons, e1, Res.ok_bind, e2]
    · rw [List.flatMap_cons]
      exact a1.trans a2

theorem ekin2_ok {d : Nat} {fl : Flags} {w : Fin N → ℝ} {q : Dens2 d N} {X : Fin N → In2} (hq : HoldsQ2 fl q X) :
    ekin2 fl w q = .ok (if fl.tau then ∑ p, w p * ((X p).ta + (X p).tb) else 0) := by
  unfold ekin2
  by_cases h : fl.tau = true
  · rw [if_pos h, hq.2.2.2.1 h, if_pos h]; rfl
  · rw [if_neg h, if_neg h]

theorem evalExc2_eq {env : Libxc} {fn : Funcs} {d : Nat} {fl : Flags} {w : Fin N → ℝ} {q : Dens2 d N} {X : Fin N → In2} (hq : HoldsQ2 fl q X) {a : Acc2 N} {u : Spec.Uses}
    (ha : Holds2 fl a (fun p => outBoth2 env fn.x fn.c fn.xp fn.cp fn.thr (X p)) u) :
    evalExc2 w q a = ∑ p, w p * (((X p).rhoa + (X p).rhob) * (Spec.exc2 env fn.x fn.xp fn.thr (X p) + Spec.exc2 env fn.c fn.cp fn.thr (X p))) := by
  unfold evalExc2
  rw [ha.1, hq.1, hq.2.1]
  refine Finset.sum_congr rfl fun p _ => ?_
  simp only [outBoth2, Out2.plus, outOf2_exc]
  ring

/-- scattering the beta matrix if there is one -/
theorem scatterOpt_ok (m : Nat) (Ho : Mat ℝ) (hr : Ho.rows = m) (hc : Ho.cols = m) (idx : List Nat) (h : ∀ i ∈ idx, i < m) (beta : Bool)
    (H : Option (Matrix (Fin idx.length) (Fin idx.length) ℝ)) (F : (Nat → Nat → ℝ) → ℝ)
    (hH : (beta = true → ∃ K, H = some K ∧ ∀ D : Nat → Nat → ℝ, pair K (sub D idx) = F D) ∧ (beta = false → H = none)) :
    ∃ Hn, scatterOpt Ho idx H = .ok Hn ∧ Hn.rows = m ∧ Hn.cols = m ∧ ∀ D : Mat ℝ, Spec.pairing m Hn D = Spec.pairing m Ho D + if beta then F D.get else 0 := by
  rcases beta with _ | _
  · rw [hH.2 rfl]
    exact ⟨Ho, rfl, hr, hc, fun D => by simp⟩
  · obtain ⟨K, rfl, hK⟩ := hH.1 rfl
    obtain ⟨Hn, e, r, c, -, p⟩ := scatterMat_ok m Ho hr hc idx h K
    exact ⟨Hn, e, r, c, fun D => by rw [p, hK]; simp⟩

section step
variable {env : Libxc} {fn : Funcs} (hx : Spec.Usable env fn.x fn.xp) (hc : Spec.Usable env fn.c fn.cp) {fl : Flags}
  (hcx : Covers fl (usesOf env fn.x)) (hcc : Covers fl (usesOf env fn.c)) (htau : fl.tau = ((usesOf env fn.x).tau || (usesOf env fn.c).tau))
  (hlapl : fl.lapl = ((usesOf env fn.x).lapl || (usesOf env fn.c).lapl)) {m : Nat} (hm : 0 < m) {A B : Mat ℝ} (hA : Spec.Symm m A) (hB : Spec.Symm m B)

theorem weightsA {idx : List Nat} {V : Vals idx.length N} {q : Dens2 3 N} {a : Acc2 N} {O : Fin N → Out2} {u : Spec.Uses} {ga gb : Fin 3 → Fin N → ℝ} (ha : Holds2 fl a O u)
    (hcov : Covers fl u) (hg : fl.grad = true → q.grho = some (ga, gb)) :
    u.grad = true → ggaWeightsA V q a = .ok fun p c => V.w p * (2 * (O p).vsaa * ga c p + (O p).vsab * gb c p) / V.sc c p := by
  intro h
  unfold ggaWeightsA
  rw [ha.2.2.2.1 (hcov.1 h), hg (hcov.1 h)]
  rfl

theorem weightsB {idx : List Nat} {V : Vals idx.length N} {q : Dens2 3 N} {a : Acc2 N} {O : Fin N → Out2} {u : Spec.Uses} {ga gb : Fin 3 → Fin N → ℝ} (ha : Holds2 fl a O u)
    (hcov : Covers fl u) (hg : fl.grad = true → q.grho = some (ga, gb)) :
    u.grad = true → ggaWeightsB V q a = .ok fun p c => V.w p * (2 * (O p).vsbb * gb c p + (O p).vsab * ga c p) / V.sc c p := by
  intro h
  unfold ggaWeightsB
  rw [ha.2.2.2.1 (hcov.1 h), hg (hcov.1 h)]
  rfl

include hx hc hcx hcc htau hlapl hm hA hB in
theorem atomStep2_ok (beta : Bool) (hbl : fl.lapl = true → beta = true) (e : AtomElem) (hidx : ∀ i ∈ e.idx, i < m) (s : Tot2)
    (h1 : s.Ha.rows = m) (h2 : s.Ha.cols = m) (h3 : s.Hb.rows = m) (h4 : s.Hb.cols = m) :
    ∃ s', atomStep2 env fn fl A B beta s e = .ok s' ∧ Adds2 env fn m A.get B.get fl.tau beta (fl.lapl && !fl.tau) (Spec.atomPoints e) s s' := by
  have hV := atom_ready fl (flags_tl hx hc hcx hcc htau hlapl) e
  obtain ⟨q, hq, hqX, hg⟩ := atomDensity2_ok hA hB hidx hV hm
  obtain ⟨a, ha, hO⟩ := computeBoth2_ok env hx hc fn.thr fl hcx hcc q _ hqX
  have hcov := covers_or hcx hcc
  have hu := uses_tl hx hc
  obtain ⟨u, hueq⟩ : ∃ u, u = (usesOf env fn.x).or (usesOf env fn.c) := ⟨_, rfl⟩
  have hut : fl.tau = u.tau := by rw [htau, hueq]; rfl
  have hul : fl.lapl = u.lapl := by rw [hlapl, hueq]; rfl
  rw [← hueq] at hcov hu hO
  have hO' := hO
  obtain ⟨a1, a2, a2', a3, a4, a5, a6, a7, a8, a9, a10, a11⟩ := hO
  obtain ⟨Ha, hHa, pA⟩ := atomSpin hV hcov hu _ _ (weightsA (V := atomBf fl e) hO' hcov hg) (fun h p c => by rw [(a9 h p).1, (a9 h p).2.1]; ring) _ _
    (a.vtau.map (·.1)) (a.vlapl.map (·.1)) (fun h => by rw [a4 (hcov.2.1 h)]; rfl) (fun h => by rw [a5 (hcov.2.2 h)]; rfl) (fun h p => (a10 h p).1) (fun h p => (a11 h p).1)
    (v := fun p => (outBoth2 env fn.x fn.c fn.xp fn.cp fn.thr (Spec.inputs A.get B.get (vpoint e.idx (atomBf fl e) (atomG e) (atomL e) p))).va)
  obtain ⟨Hb, hHb, pB⟩ := atomSpin hV hcov hu _ _ (weightsB (V := atomBf fl e) hO' hcov hg) (fun h p c => by rw [(a9 h p).2.2, (a9 h p).2.1]; ring) _ _
    (a.vtau.map (·.2)) (a.vlapl.map (·.2)) (fun h => by rw [a4 (hcov.2.1 h)]; rfl) (fun h => by rw [a5 (hcov.2.2 h)]; rfl) (fun h p => (a10 h p).2) (fun h p => (a11 h p).2)
    (v := fun p => (outBoth2 env fn.x fn.c fn.xp fn.cp fn.thr (Spec.inputs A.get B.get (vpoint e.idx (atomBf fl e) (atomG e) (atomL e) p))).vb)
  rw [← hut, ← hul] at pA pB
  have eA : atomFxcA (atomBf fl e) q a = .ok Ha := by
    unfold atomFxcA
    rw [a6, a7, a8, a2]
    exact hHa
  have eB0 : atomFxcB (atomBf fl e) q a = .ok Hb := by
    unfold atomFxcB
    rw [a6, a7, a8, a2']
    exact hHb
  obtain ⟨Ho, eB, hHo⟩ : ∃ Ho, atomFxcBeta beta (atomBf fl e) q a = .ok Ho ∧ ((beta = true → ∃ K, Ho = some K ∧ ∀ D : Nat → Nat → ℝ, pair K (sub D e.idx) = pair Hb (sub D e.idx)) ∧
      (beta = false → Ho = none)) := by
    unfold atomFxcBeta
    rcases beta with _ | _
    · have : ¬ (a.l = true ∧ 0 < e.idx.length) := by
        rintro ⟨h, -⟩
        rw [a8, ← hul] at h
        simpa using hbl h
      rw [if_neg (by simp), if_neg this]
      exact ⟨_, rfl, by simp, fun _ => rfl⟩
    · rw [if_pos rfl, eB0]
      exact ⟨_, rfl, fun _ => ⟨Hb, rfl, fun _ => rfl⟩, by simp⟩
  obtain ⟨Hna, na, nar, nac, -, nap⟩ := scatterMat_ok m s.Ha h1 h2 e.idx hidx Ha
  obtain ⟨Hnb, nb, nbr, nbc, nbp⟩ := scatterOpt_ok m s.Hb h3 h4 e.idx hidx beta Ho (fun D => pair Hb (sub D e.idx)) hHo
  refine ⟨⟨s.exc + evalExc2 (atomBf fl e).w q a, s.nel + nel2 (atomBf fl e).w q,
    s.ekin + if fl.tau then ∑ p, (atomBf fl e).w p * ((Spec.inputs A.get B.get (vpoint e.idx (atomBf fl e) (atomG e) (atomL e) p)).ta +
      (Spec.inputs A.get B.get (vpoint e.idx (atomBf fl e) (atomG e) (atomL e) p)).tb) else 0, Hna, Hnb⟩, ?_, ?_⟩
  · unfold atomStep2
    rw [hq, Res.ok_bind, ekin2_ok hqX, Res.ok_bind, ha, Res.ok_bind, eA, Res.ok_bind, eB, Res.ok_bind, na, Res.ok_bind, nb, Res.ok_bind]
  · constructor
    · simp only
      rw [evalExc2_eq hqX hO', Spec.energy2, sum_atomPoints]
      simp only [atom_vpoint, inputs_cc]
      rfl
    · simp only
      rw [nel2, hqX.1, hqX.2.1, Spec.electrons, Spec.electrons, sum_atomPoints, sum_atomPoints, ← Finset.sum_add_distrib]
      simp only [atom_vpoint, inputs_cc, ← mul_add]
      rfl
    · simp only
      rw [Spec.kinetic, Spec.kinetic, sum_atomPoints, sum_atomPoints, ← Finset.sum_add_distrib]
      simp only [atom_vpoint, inputs_cc, ← mul_add]
      rfl
    · exact nar
    · exact nac
    · exact nbr
    · exact nbc
    · intro D
      simp only
      rw [nap, pA, sum_atomPoints, spinDeriv]
      simp only [atom_vpoint, inputs_cc, rho_cc, grad_cc, lapl_cc, tau_cc]
      rfl
    · intro D
      simp only
      rw [nbp, pB, sum_atomPoints, spinDeriv]
      simp only [atom_vpoint, inputs_cc, rho_cc, grad_cc, lapl_cc, tau_cc]
      rfl

include hx hc hcx hcc htau hlapl hm hA hB in
/-- without the beta matrix, the Laplacian term of an unrestricted run writes to an empty matrix -/
theorem atomStep2_ub (hl : fl.lapl = true) (e : AtomElem) (he : e.idx ≠ []) (hidx : ∀ i ∈ e.idx, i < m) (s : Tot2) : atomStep2 env fn fl A B false s e = .ub := by
  have hV := atom_ready fl (flags_tl hx hc hcx hcc htau hlapl) e
  obtain ⟨q, hq, hqX, hg⟩ := atomDensity2_ok hA hB hidx hV hm
  obtain ⟨a, ha, hO⟩ := computeBoth2_ok env hx hc fn.thr fl hcx hcc q _ hqX
  have hcov := covers_or hcx hcc
  have hu := uses_tl hx hc
  obtain ⟨u, hueq⟩ : ∃ u, u = (usesOf env fn.x).or (usesOf env fn.c) := ⟨_, rfl⟩
  have hul : fl.lapl = u.lapl := by rw [hlapl, hueq]; rfl
  rw [← hueq] at hcov hu hO
  have hO' := hO
  obtain ⟨a1, a2, a2', a3, a4, a5, a6, a7, a8, a9, a10, a11⟩ := hO
  obtain ⟨Ha, hHa, pA⟩ := atomSpin hV hcov hu _ _ (weightsA (V := atomBf fl e) hO' hcov hg) (fun h p c => by rw [(a9 h p).1, (a9 h p).2.1]; ring) _ _
    (a.vtau.map (·.1)) (a.vlapl.map (·.1)) (fun h => by rw [a4 (hcov.2.1 h)]; rfl) (fun h => by rw [a5 (hcov.2.2 h)]; rfl) (fun h p => (a10 h p).1) (fun h p => (a11 h p).1)
    (v := fun p => (outBoth2 env fn.x fn.c fn.xp fn.cp fn.thr (Spec.inputs A.get B.get (vpoint e.idx (atomBf fl e) (atomG e) (atomL e) p))).va)
  have eA : atomFxcA (atomBf fl e) q a = .ok Ha := by
    unfold atomFxcA
    rw [a6, a7, a8, a2]
    exact hHa
  have eB : atomFxcBeta false (atomBf fl e) q a = .ub := by
    unfold atomFxcBeta
    rw [if_neg (by simp), if_pos ⟨by rw [a8, ← hul, hl], List.length_pos_iff.2 he⟩]
  unfold atomStep2
  rw [hq, Res.ok_bind, ekin2_ok hqX, Res.ok_bind, ha, Res.ok_bind, eA, Res.ok_bind, eB, Res.ub_bind]

include hx hc hcx hcc htau hlapl hm hA hB in
theorem diaStep2_ok (beta : Bool) (hl : fl.lapl = false) (e : DiaPoint) (hidx : ∀ i ∈ e.idx, i < m) (s : Tot2)
    (h1 : s.Ha.rows = m) (h2 : s.Ha.cols = m) (h3 : s.Hb.rows = m) (h4 : s.Hb.cols = m) :
    ∃ s', diaStep2 env fn fl A B beta s e = .ok s' ∧ Adds2 env fn m A.get B.get fl.tau beta false (Spec.diaPoints e) s s' := by
  obtain ⟨V, hV0, hV, hVp⟩ := dia_ready fl hl (flags_tl hx hc hcx hcc htau hlapl) e
  obtain ⟨q, hq, hqX, hg⟩ := diaDensity2_ok hA hB hidx hV hm hl
  obtain ⟨a, ha, hO⟩ := computeBoth2_ok env hx hc fn.thr fl hcx hcc q _ hqX
  have hcov := covers_or hcx hcc
  have hu := uses_tl hx hc
  have hw : ∀ p, V.w p = (Spec.diaPoint e (pt p).1).w := fun p => congrArg Spec.Point.w (hVp p)
  obtain ⟨u, hueq⟩ : ∃ u, u = (usesOf env fn.x).or (usesOf env fn.c) := ⟨_, rfl⟩
  have hul : u.lapl = false := by rw [← hl, hlapl, hueq]; rfl
  rw [← hueq] at hcov hu hO
  have hO' := hO
  obtain ⟨a1, a2, a2', a3, a4, a5, a6, a7, a8, a9, a10, a11⟩ := hO
  obtain ⟨Ha, hHa, pA⟩ := diaSpin hV hcov hu hul _ _ (weightsA (V := V) hO' hcov hg) (fun h p c => by rw [(a9 h p).1, (a9 h p).2.1]; ring) _
    (a.vtau.map (·.1)) (fun h => by rw [a4 (hcov.2.1 h)]; rfl) (fun h p => (a10 h p).1)
    (v := fun p => (outBoth2 env fn.x fn.c fn.xp fn.cp fn.thr (Spec.inputs A.get B.get (vpoint e.idx V (diaG e) 0 p))).va)
  obtain ⟨Hb, hHb, pB⟩ := diaSpin hV hcov hu hul _ _ (weightsB (V := V) hO' hcov hg) (fun h p c => by rw [(a9 h p).2.2, (a9 h p).2.1]; ring) _
    (a.vtau.map (·.2)) (fun h => by rw [a4 (hcov.2.1 h)]; rfl) (fun h p => (a10 h p).2)
    (v := fun p => (outBoth2 env fn.x fn.c fn.xp fn.cp fn.thr (Spec.inputs A.get B.get (vpoint e.idx V (diaG e) 0 p))).vb)
  have eA : diaFxcA V q a = .ok Ha := by
    unfold diaFxcA
    rw [a6, a7, a8, a2]
    exact hHa
  have eB0 : diaFxcB V q a = .ok Hb := by
    unfold diaFxcB
    rw [a6, a7, a8, a2']
    exact hHb
  obtain ⟨Ho, eB, hHo⟩ : ∃ Ho, diaFxcBeta beta V q a = .ok Ho ∧ ((beta = true → ∃ K, Ho = some K ∧ ∀ D : Nat → Nat → ℝ, pair K (sub D e.idx) = pair Hb (sub D e.idx)) ∧
      (beta = false → Ho = none)) := by
    unfold diaFxcBeta
    rcases beta with _ | _
    · exact ⟨_, rfl, by simp, fun _ => rfl⟩
    · rw [if_pos rfl, eB0]
      exact ⟨_, rfl, fun _ => ⟨Hb, rfl, fun _ => rfl⟩, by simp⟩
  obtain ⟨Hna, na, nar, nac, -, nap⟩ := scatterMat_ok m s.Ha h1 h2 e.idx hidx Ha
  obtain ⟨Hnb, nb, nbr, nbc, nbp⟩ := scatterOpt_ok m s.Hb h3 h4 e.idx hidx beta Ho (fun D => pair Hb (sub D e.idx)) hHo
  refine ⟨⟨s.exc + evalExc2 V.w q a, s.nel + nel2 V.w q,
    s.ekin + if fl.tau then ∑ p, V.w p * ((Spec.inputs A.get B.get (vpoint e.idx V (diaG e) 0 p)).ta + (Spec.inputs A.get B.get (vpoint e.idx V (diaG e) 0 p)).tb) else 0, Hna, Hnb⟩, ?_, ?_⟩
  · unfold diaStep2
    rw [hV0, Res.ok_bind, hq, Res.ok_bind, ekin2_ok hqX, Res.ok_bind, ha, Res.ok_bind, eA, Res.ok_bind, eB, Res.ok_bind, na, Res.ok_bind, nb, Res.ok_bind]
  · constructor
    · simp only
      rw [evalExc2_eq hqX hO', Spec.energy2, sum_diaPoints]
      simp only [hVp, inputs_cc, hw]
      rfl
    · simp only
      rw [nel2, hqX.1, hqX.2.1, Spec.electrons, Spec.electrons, sum_diaPoints, sum_diaPoints, ← Finset.sum_add_distrib]
      simp only [hVp, inputs_cc, ← mul_add, hw]
      rfl
    · simp only
      rw [Spec.kinetic, Spec.kinetic, sum_diaPoints, sum_diaPoints, ← Finset.sum_add_distrib]
      simp only [hVp, inputs_cc, ← mul_add, hw]
      rfl
    · exact nar
    · exact nac
    · exact nbr
    · exact nbc
    · intro D
      simp only
      rw [nap, pA, sum_diaPoints, spinDeriv]
      refine congrArg _ (Finset.sum_congr rfl fun p _ => ?_)
      simp only [hVp, inputs_cc, rho_cc, grad_cc, lapl_cc, tau_cc, derivA]
      have := (a11 hul p).1
      simp only [hVp, inputs_cc] at this
      rw [this]
      rfl
    · intro D
      simp only
      rw [nbp, pB, sum_diaPoints, spinDeriv]
      refine congrArg _ (if_congr Iff.rfl (Finset.sum_congr rfl fun p _ => ?_) rfl)
      simp only [hVp, inputs_cc, rho_cc, grad_cc, lapl_cc, tau_cc, derivB]
      have := (a11 hul p).2
      simp only [hVp, inputs_cc] at this
      rw [this]
      rfl

end step

end XC
end HelFEM
