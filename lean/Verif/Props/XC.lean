import Verif.Lemmas.XCTop
import Verif.Props.FEIndex
import Verif.Props.DiaIndex

/-!
# C65: the exchange-correlation Fock matrix is the derivative of the exchange-correlation energy
-/

namespace HelFEM
namespace XC

variable {env : Libxc} {fn : Funcs}

/-! ### A functional library for the examples -/

/-- functional 1: `ρε = ρ²`; functional 2: `ρε = ρ (σ + ∇²ρ + τ)`; functional 3: `ρε = ρ ∇²ρ`; functional 4: `ρε = ρ (σ + τ)` -/
noncomputable def toy : Libxc where
  info := fun id => if id = 1 then some ⟨.lda, false, false, true, 0⟩ else if id = 2 then some ⟨.mgga, true, true, true, 0⟩ else if id = 3 then some ⟨.mgga, false, true, true, 0⟩
    else if id = 4 then some ⟨.mgga, true, false, true, 0⟩ else none
  unpol := fun id _ _ x => if id = 1 then ⟨x.rho, 2 * x.rho, 0, 0, 0⟩ else if id = 2 then ⟨x.sigma + x.lapl + x.tau, x.sigma + x.lapl + x.tau, x.rho, x.rho, x.rho⟩
    else if id = 3 then ⟨x.lapl, x.lapl, 0, x.rho, 0⟩ else ⟨x.sigma + x.tau, x.sigma + x.tau, x.rho, 0, x.rho⟩
  pol := fun id _ _ x => if id = 1 then ⟨x.rhoa + x.rhob, 2 * (x.rhoa + x.rhob), 2 * (x.rhoa + x.rhob), 0, 0, 0, 0, 0, 0, 0⟩
    else if id = 2 then
      ⟨x.saa + x.sab + x.sbb + x.la + x.lb + x.ta + x.tb, x.saa + x.sab + x.sbb + x.la + x.lb + x.ta + x.tb, x.saa + x.sab + x.sbb + x.la + x.lb + x.ta + x.tb,
        x.rhoa + x.rhob, x.rhoa + x.rhob, x.rhoa + x.rhob, x.rhoa + x.rhob, x.rhoa + x.rhob, x.rhoa + x.rhob, x.rhoa + x.rhob⟩
    else if id = 3 then ⟨x.la + x.lb, x.la + x.lb, x.la + x.lb, 0, 0, 0, x.rhoa + x.rhob, x.rhoa + x.rhob, 0, 0⟩
    else ⟨x.saa + x.sab + x.sbb + x.ta + x.tb, x.saa + x.sab + x.sbb + x.ta + x.tb, x.saa + x.sab + x.sbb + x.ta + x.tb,
        x.rhoa + x.rhob, x.rhoa + x.rhob, x.rhoa + x.rhob, 0, 0, x.rhoa + x.rhob, x.rhoa + x.rhob⟩

theorem toy_usable {id : Int} (h : id ≤ 4) (pars : List ℝ) (hp : pars = []) : Spec.Usable toy id pars := by
  intro h0
  have : id = 1 ∨ id = 2 ∨ id = 3 ∨ id = 4 := by omega
  rcases this with rfl | rfl | rfl | rfl
  · exact ⟨_, rfl, by simp, Or.inl hp⟩
  · exact ⟨_, rfl, by simp, Or.inl hp⟩
  · exact ⟨_, rfl, by simp, Or.inl hp⟩
  · exact ⟨_, rfl, by simp, Or.inl hp⟩

theorem toy_consistent {id : Int} (h : id ≤ 4) (pars : List ℝ) (thr : ℝ) (x : In1) : Spec.Consistent toy id pars thr x := by
  have hp : ∀ k : Fin 4, HasFDerivAt (fun y : Fin 4 → ℝ => y k) (ContinuousLinearMap.proj (R := ℝ) (φ := fun _ : Fin 4 => ℝ) k) ![x.rho, x.sigma, x.lapl, x.tau] := fun k =>
    (ContinuousLinearMap.proj (R := ℝ) (φ := fun _ : Fin 4 => ℝ) k).hasFDerivAt
  intro h0 i hi
  have : id = 1 ∨ id = 2 ∨ id = 3 ∨ id = 4 := by omega
  rcases this with rfl | rfl | rfl | rfl
  · simp only [toy, if_true, Option.some.injEq] at hi
    subst hi
    refine ⟨rfl, ((hp 0).mul (hp 0)).congr_fderiv ?_⟩
    ext y
    simp [Spec.uses, Spec.seen, toy]
    ring
  · simp [toy] at hi
    subst hi
    refine ⟨rfl, ((hp 0).mul (((hp 1).add (hp 2)).add (hp 3))).congr_fderiv ?_⟩
    ext y
    simp [Spec.uses, Spec.seen, toy]
    ring
  · simp [toy] at hi
    subst hi
    refine ⟨rfl, ((hp 0).mul (hp 2)).congr_fderiv ?_⟩
    ext y
    simp [Spec.uses, Spec.seen, toy]
    ring
  · simp [toy] at hi
    subst hi
    refine ⟨rfl, ((hp 0).mul ((hp 1).add (hp 3))).congr_fderiv ?_⟩
    ext y
    simp [Spec.uses, Spec.seen, toy]
    ring

theorem toy_consistent2 {id : Int} (h : id ≤ 4) (pars : List ℝ) (thr : ℝ) (x : In2) : Spec.Consistent2 toy id pars thr x := by
  have hp : ∀ k : Fin 9, HasFDerivAt (fun y : Fin 9 → ℝ => y k) (ContinuousLinearMap.proj (R := ℝ) (φ := fun _ : Fin 9 => ℝ) k)
      ![x.rhoa, x.rhob, x.saa, x.sab, x.sbb, x.la, x.lb, x.ta, x.tb] := fun k => (ContinuousLinearMap.proj (R := ℝ) (φ := fun _ : Fin 9 => ℝ) k).hasFDerivAt
  intro h0 i hi
  have : id = 1 ∨ id = 2 ∨ id = 3 ∨ id = 4 := by omega
  rcases this with rfl | rfl | rfl | rfl
  · simp only [toy, if_true, Option.some.injEq] at hi
    subst hi
    refine ⟨rfl, (((hp 0).add (hp 1)).mul ((hp 0).add (hp 1))).congr_fderiv ?_⟩
    ext y
    simp [Spec.uses, Spec.seen2, toy, Fin.sum_univ_succ]
    ring
  · simp [toy] at hi
    subst hi
    refine ⟨rfl, (((hp 0).add (hp 1)).mul (((((((hp 2).add (hp 3)).add (hp 4)).add (hp 5)).add (hp 6)).add (hp 7)).add (hp 8))).congr_fderiv ?_⟩
    ext y
    simp [Spec.uses, Spec.seen2, toy, Fin.sum_univ_succ]
    ring
  · simp [toy] at hi
    subst hi
    refine ⟨rfl, (((hp 0).add (hp 1)).mul ((hp 5).add (hp 6))).congr_fderiv ?_⟩
    ext y
    simp [Spec.uses, Spec.seen2, toy, Fin.sum_univ_succ]
    ring
  · simp [toy] at hi
    subst hi
    refine ⟨rfl, (((hp 0).add (hp 1)).mul (((((hp 2).add (hp 3)).add (hp 4)).add (hp 7)).add (hp 8))).congr_fderiv ?_⟩
    ext y
    simp [Spec.uses, Spec.seen2, toy, Fin.sum_univ_succ]
    ring

/-- one point with one function of value 1 and gradient `(1, 0, 0)` -/
noncomputable def toyElem : AtomElem where
  nrad := 1
  nang := 1
  idx := [0]
  r := fun _ => 1
  wrad := fun _ => 1
  cth := fun _ => 0
  wang := fun _ => 1
  bf := fun _ _ _ => 1
  df := fun _ c _ _ => if c = 0 then 1 else 0
  lf := fun _ _ _ => 0

/-- the `1 × 1` matrix `p` -/
def one (p : ℝ) : Mat ℝ := ⟨1, 1, fun _ _ => p⟩

theorem one_symm (p : ℝ) : Spec.Symm 1 (one p) := ⟨rfl, rfl, fun _ _ _ _ => rfl⟩

theorem toy_idx : ∀ e ∈ [toyElem], ∀ i ∈ e.idx, i < 1 := by
  intro e he i hi
  simp only [List.mem_singleton] at he
  subst he
  simp [toyElem] at hi
  omega

/-! ### The atomic grid -/

/-- **C65, values.** On the atomic grid, with functionals libxc knows and a symmetric density matrix, the run succeeds; the energy, the number of electrons and, if the kinetic energy density is
used, the kinetic energy are the quadrature sums over all points of all elements, in whatever order the elements are worked on. -/
theorem C65_atomic_values (hx : Spec.Usable env fn.x fn.xp) (hc : Spec.Usable env fn.c fn.cp) {m : Nat} (hm : 0 < m) {P : Mat ℝ} (hP : Spec.Symm m P) (elems sched : List AtomElem)
    (hs : sched.Perm elems) (hidx : ∀ e ∈ elems, ∀ i ∈ e.idx, i < m) :
    ∃ s, atomGrid1 env fn P sched = .ok s ∧ s.exc = Spec.energy env fn.x fn.c fn.xp fn.cp fn.thr (elems.flatMap Spec.atomPoints) P.get ∧
      s.nel = Spec.electrons (elems.flatMap Spec.atomPoints) P.get ∧
      s.ekin = (if Spec.anyUses env fn.x fn.c (·.tau) then Spec.kinetic (elems.flatMap Spec.atomPoints) P.get else 0) ∧ Spec.Symm m s.H := by
  obtain ⟨s, e, a⟩ := atomGrid1_ok hx hc hm hP sched fun e he => hidx e (hs.mem_iff.1 he)
  have hp := hs.flatMap_right Spec.atomPoints
  refine ⟨s, e, ?_, ?_, ?_, a.symm⟩
  · rw [a.exc, zero_add, Spec.energy, Spec.energy, (hp.map _).sum_eq]
  · rw [a.nel, zero_add, Spec.electrons, Spec.electrons, (hp.map _).sum_eq]
  · rw [a.ekin, zero_add, useTau_eq, Spec.kinetic, Spec.kinetic, (hp.map _).sum_eq]

example : ∃ s, atomGrid1 toy ⟨2, [], 1, [], 0⟩ (one 3) [toyElem] = .ok s ∧ s.exc = 279 / 2 := by
  obtain ⟨s, e, h, _⟩ := C65_atomic_values (env := toy) (fn := ⟨2, [], 1, [], 0⟩) (toy_usable (by norm_num) _ rfl) (toy_usable (by norm_num) _ rfl) (m := 1) (by norm_num) (one_symm 3)
    [toyElem] [toyElem] (List.Perm.refl _) toy_idx
  refine ⟨s, e, ?_⟩
  rw [h]
  simp [Spec.energy, Spec.exc, Spec.atomPoints, Spec.atomPoint, toyElem, List.finRange_succ, Spec.rho, Spec.form, Spec.input, Spec.grad, Spec.lapl, Spec.tau, Fin.sum_univ_three, toy, Spec.uses,
    Spec.seen, one, Spec.sine]
  norm_num

/-- **C65, derivative.** On the atomic grid the Fock matrix is the derivative of the energy the same grid returns: along every symmetric direction `D`, the energy at `P + tD` has the derivative
`∑ H_ij D_ij` at `t = 0`. The functionals need only be differentiable, with the derivatives libxc returns, at the densities of `P`. -/
theorem C65_atomic_derivative (hx : Spec.Usable env fn.x fn.xp) (hc : Spec.Usable env fn.c fn.cp) {m : Nat} (hm : 0 < m) {P D : Mat ℝ} (hP : Spec.Symm m P) (hD : Spec.Symm m D)
    (elems sched : List AtomElem) (hs : sched.Perm elems) (hidx : ∀ e ∈ elems, ∀ i ∈ e.idx, i < m)
    (hcon : ∀ x ∈ elems.flatMap Spec.atomPoints, Spec.Consistent env fn.x fn.xp fn.thr (Spec.input P.get x) ∧ Spec.Consistent env fn.c fn.cp fn.thr (Spec.input P.get x)) :
    ∃ E : ℝ → ℝ, (∀ t, ∃ s, atomGrid1 env fn (Spec.line P D t) sched = .ok s ∧ s.exc = E t) ∧
      ∃ s, atomGrid1 env fn P sched = .ok s ∧ Spec.Symm m s.H ∧ HasDerivAt E (Spec.pairing m s.H D) 0 := by
  have hi : ∀ e ∈ sched, ∀ i ∈ e.idx, i < m := fun e he => hidx e (hs.mem_iff.1 he)
  refine ⟨fun t => Spec.energy env fn.x fn.c fn.xp fn.cp fn.thr (sched.flatMap Spec.atomPoints) fun i j => P.get i j + t * D.get i j, fun t => ?_, ?_⟩
  · obtain ⟨s, e, a⟩ := atomGrid1_ok hx hc hm (symm_line hP hD t) sched hi
    exact ⟨s, e, by rw [a.exc, zero_add]; rfl⟩
  · obtain ⟨s, e, a⟩ := atomGrid1_ok hx hc hm hP sched hi
    refine ⟨s, e, a.symm, ?_⟩
    rw [a.pairs, pairing_zero, zero_add]
    exact energy_deriv env fn _ P.get D.get fun x hx => hcon x ((hs.flatMap_right Spec.atomPoints).mem_iff.1 hx)

example : ∃ E : ℝ → ℝ, (∀ t, ∃ s, atomGrid1 toy ⟨2, [], 1, [], 0⟩ (Spec.line (one 3) (one 1) t) [toyElem] = .ok s ∧ s.exc = E t) ∧
    ∃ s, atomGrid1 toy ⟨2, [], 1, [], 0⟩ (one 3) [toyElem] = .ok s ∧ Spec.Symm 1 s.H ∧ HasDerivAt E (Spec.pairing 1 s.H (one 1)) 0 :=
  C65_atomic_derivative (toy_usable (by norm_num) _ rfl) (toy_usable (by norm_num) _ rfl) (by norm_num) (one_symm 3) (one_symm 1) [toyElem] [toyElem] (List.Perm.refl _) toy_idx
    fun _ _ => ⟨toy_consistent (by norm_num) _ _ _, toy_consistent (by norm_num) _ _ _⟩

/-- **C65, schedule.** The order in which elements are worked on changes nothing. -/
theorem C65_atomic_order (hx : Spec.Usable env fn.x fn.xp) (hc : Spec.Usable env fn.c fn.cp) {m : Nat} (hm : 0 < m) {P : Mat ℝ} (hP : Spec.Symm m P) (elems sched : List AtomElem)
    (hs : sched.Perm elems) (hidx : ∀ e ∈ elems, ∀ i ∈ e.idx, i < m) :
    ∃ s s', atomGrid1 env fn P elems = .ok s ∧ atomGrid1 env fn P sched = .ok s' ∧ s'.exc = s.exc ∧ s'.nel = s.nel ∧ s'.ekin = s.ekin ∧ s'.H.Same s.H := by
  obtain ⟨s, e, a⟩ := atomGrid1_ok hx hc hm hP elems hidx
  obtain ⟨s', e', a'⟩ := atomGrid1_ok hx hc hm hP sched fun e he => hidx e (hs.mem_iff.1 he)
  exact ⟨s, s', e, e', a.perm (hs.flatMap_right _).symm a'⟩

example : ∃ s s', atomGrid1 toy ⟨2, [], 1, [], 0⟩ (one 3) [toyElem, { toyElem with r := fun _ => 2 }] = .ok s ∧
    atomGrid1 toy ⟨2, [], 1, [], 0⟩ (one 3) [{ toyElem with r := fun _ => 2 }, toyElem] = .ok s' ∧ s'.exc = s.exc ∧ s'.nel = s.nel ∧ s'.ekin = s.ekin ∧ s'.H.Same s.H :=
  C65_atomic_order (toy_usable (by norm_num) _ rfl) (toy_usable (by norm_num) _ rfl) (m := 1) (by norm_num) (one_symm 3) _ _ (List.Perm.swap _ _ _) (by
    intro e he i hi
    simp only [List.mem_cons, List.not_mem_nil, or_false] at he
    rcases he with rfl | rfl <;> · simp [toyElem] at hi; omega)

/-- **C65, batches.** The two parallel loops, over the even and then the odd elements, work on every element exactly once. -/
theorem C65_batches {α : Type} (l : List α) : (batches l).Perm l := by
  have key : ∀ q : List Nat, ((q.filter fun i => decide (i % 2 = 0)) ++ q.filter fun i => decide (i % 2 = 1)).Perm q := by
    intro q
    have e : (q.filter fun i => decide (i % 2 = 1)) = q.filter fun i => !decide (i % 2 = 0) := by
      refine List.filter_congr fun i _ => ?_
      rw [← decide_not]
      exact decide_eq_decide.2 (by omega)
    rw [e]
    exact List.filter_append_perm _ q
  unfold batches
  rw [← List.filterMap_append]
  refine ((key (List.range l.length)).filterMap _).trans ?_
  have : (List.range l.length).filterMap (fun i => l[i]?) = l := by
    clear key
    induction l with
    | nil => rfl
    | cons a r ih =>
      rw [List.length_cons, List.range_succ_eq_map, List.filterMap_cons]
      simp only [List.getElem?_cons_zero, List.filterMap_map, Function.comp_def, List.getElem?_cons_succ, Nat.succ_eq_add_one]
      rw [ih]
  rw [this]

example : batches [0, 1, 2, 3, 4] = [0, 2, 4, 1, 3] := by decide

/-- **C65, no races.** Two elements of the same parallel loop share no basis function, so no two threads write to the same entry of the Fock matrix; and all functions are functions of the basis. -/
theorem C65_no_race (f : HelFEM.Family) (n ne : Nat) (zfl zdl zfr zdr : Bool) (hn : 2 ≤ n) (hne : 1 ≤ ne) (nang : Nat) :
    ∃ tab N, (FEShape.updateBfList (feShape f n ne zfl zdl zfr zdr)) = .ok tab ∧ FEShape.getNbf tab = .ok N ∧ (0 < N → ∃ fns : Nat → List Nat,
      (∀ e < ne, (FEShape.getIdx tab e >>= fun p => .ok (atomBfList nang N p.1 p.2)) = .ok (fns e)) ∧ (∀ e < ne, ∀ i ∈ fns e, i < nang * N) ∧
      ∀ e < ne, ∀ e' < ne, e ≠ e' → e % 2 = e' % 2 → ∀ i ∈ fns e, i ∉ fns e') := by
  obtain ⟨tab, N, h1, -, h2, h3⟩ := C01_numbering f n ne zfl zdl zfr zdr hn hne
  refine ⟨tab, N, h1, h2, fun hN => ?_⟩
  obtain ⟨first, last, count, hidx, -, hok⟩ := h3 hN
  have hmem : ∀ e < ne, ∀ i ∈ atomBfList nang N (first e) (last e), ∃ a r, a < nang ∧ first e ≤ r ∧ r ≤ last e ∧ i = N * a + r := by
    intro e _ i hi
    simp only [atomBfList, List.mem_flatMap, List.mem_range, List.mem_map] at hi
    obtain ⟨a, ha, j, hj, rfl⟩ := hi
    exact ⟨a, first e + j, ha, by omega, by omega, by ring⟩
  refine ⟨fun e => atomBfList nang N (first e) (last e), fun e he => by rw [hidx e he, Res.ok_bind], fun e he i hi => ?_, fun e he e' he' hee hp i hi hi' => ?_⟩
  · obtain ⟨a, r, ha, -, hr, rfl⟩ := hmem e he i hi
    have hb := hok.bound e he
    calc N * a + r < N * a + N := by omega
      _ = N * (a + 1) := by ring
      _ ≤ N * nang := Nat.mul_le_mul_left _ ha
      _ = nang * N := by ring
  · obtain ⟨a, r, ha, hr1, hr2, e1⟩ := hmem e he i hi
    obtain ⟨a', r', ha', hr1', hr2', e2⟩ := hmem e' he' i hi'
    have hb := hok.bound e he
    have hb' := hok.bound e' he'
    have er : r = r' := by
      have : (N * a + r) % N = (N * a' + r') % N := by rw [← e1, ← e2]
      rw [Nat.mul_add_mod, Nat.mul_add_mod, Nat.mod_eq_of_lt (by omega), Nat.mod_eq_of_lt (by omega)] at this
      exact this
    rcases Nat.lt_or_gt_of_ne hee with h | h
    · have := hok.disjoint e e' (by omega) he'
      omega
    · have := hok.disjoint e' e (by omega) he
      omega

example : ∃ tab, FEShape.updateBfList (feShape .lip 3 4 true false true false) = .ok tab ∧ FEShape.getNbf tab = .ok 7 ∧
    (FEShape.getIdx tab 0 >>= fun p => .ok (atomBfList 2 7 p.1 p.2)) = .ok [0, 1, 7, 8] ∧ (FEShape.getIdx tab 2 >>= fun p => .ok (atomBfList 2 7 p.1 p.2)) = .ok [3, 4, 5, 10, 11, 12] := by
  refine ⟨_, rfl, ?_, ?_, ?_⟩ <;> decide

/-- **C65, unknown functionals.** A functional libxc does not know is refused before anything is computed. -/
theorem C65_unknown (P : Mat ℝ) (elems : List AtomElem) (h : 0 < fn.x) (hn : env.info fn.x = none) : atomGrid1 env fn P elems = .throw .runtimeError := by
  simp [atomGrid1, checkFlags, either, orRes, gradientNeeded, h, hn]

example : atomGrid1 toy ⟨9, [], 1, [], 0⟩ (one 3) [toyElem] = .throw .runtimeError := C65_unknown _ _ (by norm_num) (by simp [toy])

/-! ### Two spins -/

/-- **C65, two spins, values.** The same for two spin densities. The Fock matrices are those of C65's derivative theorem below. -/
theorem C65_atomic_spins_values (hx : Spec.Usable env fn.x fn.xp) (hc : Spec.Usable env fn.c fn.cp) {m : Nat} (hm : 0 < m) {A B : Mat ℝ} (hA : Spec.Symm m A) (hB : Spec.Symm m B) (beta : Bool)
    (hb : Spec.anyUses env fn.x fn.c (·.lapl) = true → beta = true) (elems sched : List AtomElem) (hs : sched.Perm elems) (hidx : ∀ e ∈ elems, ∀ i ∈ e.idx, i < m) :
    ∃ s, atomGrid2 env fn A B beta sched = .ok s ∧ s.exc = Spec.energy2 env fn.x fn.c fn.xp fn.cp fn.thr (elems.flatMap Spec.atomPoints) A.get B.get ∧
      s.nel = Spec.electrons (elems.flatMap Spec.atomPoints) A.get + Spec.electrons (elems.flatMap Spec.atomPoints) B.get ∧
      s.ekin = (if Spec.anyUses env fn.x fn.c (·.tau) then Spec.kinetic (elems.flatMap Spec.atomPoints) A.get + Spec.kinetic (elems.flatMap Spec.atomPoints) B.get else 0) ∧
      Spec.Symm m s.Ha ∧ Spec.Symm m s.Hb := by
  obtain ⟨s, e, a⟩ := atomGrid2_ok hx hc hm hA hB beta (fun h => hb (by rwa [← useLapl_eq])) sched fun e he => hidx e (hs.mem_iff.1 he)
  have hp := hs.flatMap_right Spec.atomPoints
  refine ⟨s, e, ?_, ?_, ?_, a.symm⟩
  · rw [a.exc, zero_add, Spec.energy2, Spec.energy2, (hp.map _).sum_eq]
  · rw [a.nel, zero_add]
    simp only [Spec.electrons]
    rw [(hp.map _).sum_eq, (hp.map _).sum_eq]
  · rw [a.ekin, zero_add, useTau_eq]
    simp only [Spec.kinetic]
    rw [(hp.map _).sum_eq, (hp.map _).sum_eq]

example : ∃ s, atomGrid2 toy ⟨2, [], 1, [], 0⟩ (one 3) (one 1) true [toyElem] = .ok s ∧ s.nel = 4 := by
  obtain ⟨s, e, _, h, _⟩ := C65_atomic_spins_values (env := toy) (fn := ⟨2, [], 1, [], 0⟩) (toy_usable (by norm_num) _ rfl) (toy_usable (by norm_num) _ rfl) (m := 1) (by norm_num) (one_symm 3)
    (one_symm 1) true (fun _ => rfl) [toyElem] [toyElem] (List.Perm.refl _) toy_idx
  refine ⟨s, e, ?_⟩
  rw [h]
  simp [Spec.electrons, Spec.atomPoints, Spec.atomPoint, toyElem, List.finRange_succ, Spec.rho, Spec.form, one]
  norm_num

/-- **C65, two spins, derivative (partial).** On the atomic grid the two Fock matrices are the derivative of the energy with respect to the two density matrices, provided a Laplacian-dependent
functional depends on the kinetic energy density too. Missing: functionals of the Laplacian alone, where the claim is false (`C65_laplacian_only_wrong`). -/
theorem C65_atomic_spins_derivative_partial (hx : Spec.Usable env fn.x fn.xp) (hc : Spec.Usable env fn.c fn.cp) {m : Nat} (hm : 0 < m) {A B DA DB : Mat ℝ} (hA : Spec.Symm m A) (hB : Spec.Symm m B)
    (hDA : Spec.Symm m DA) (hDB : Spec.Symm m DB) (hlt : Spec.anyUses env fn.x fn.c (·.lapl) = true → Spec.anyUses env fn.x fn.c (·.tau) = true)
    (elems sched : List AtomElem) (hs : sched.Perm elems) (hidx : ∀ e ∈ elems, ∀ i ∈ e.idx, i < m)
    (hcon : ∀ x ∈ elems.flatMap Spec.atomPoints, Spec.Consistent2 env fn.x fn.xp fn.thr (Spec.inputs A.get B.get x) ∧ Spec.Consistent2 env fn.c fn.cp fn.thr (Spec.inputs A.get B.get x)) :
    ∃ E : ℝ → ℝ, (∀ t, ∃ s, atomGrid2 env fn (Spec.line A DA t) (Spec.line B DB t) true sched = .ok s ∧ s.exc = E t) ∧
      ∃ s, atomGrid2 env fn A B true sched = .ok s ∧ Spec.Symm m s.Ha ∧ Spec.Symm m s.Hb ∧ HasDerivAt E (Spec.pairing m s.Ha DA + Spec.pairing m s.Hb DB) 0 := by
  have hi : ∀ e ∈ sched, ∀ i ∈ e.idx, i < m := fun e he => hidx e (hs.mem_iff.1 he)
  refine ⟨fun t => Spec.energy2 env fn.x fn.c fn.xp fn.cp fn.thr (sched.flatMap Spec.atomPoints) (fun i j => A.get i j + t * DA.get i j) fun i j => B.get i j + t * DB.get i j, fun t => ?_, ?_⟩
  · obtain ⟨s, e, a⟩ := atomGrid2_ok hx hc hm (symm_line hA hDA t) (symm_line hB hDB t) true (fun _ => rfl) sched hi
    exact ⟨s, e, by rw [a.exc, zero_add]; rfl⟩
  · obtain ⟨s, e, a⟩ := atomGrid2_ok hx hc hm hA hB true (fun _ => rfl) sched hi
    refine ⟨s, e, a.symm.1, a.symm.2, ?_⟩
    have hmiss : (useLapl env fn && !useTau env fn) = false := by
      rw [useLapl_eq, useTau_eq]
      rcases h : Spec.anyUses env fn.x fn.c (·.lapl) with _ | _
      · rfl
      · rw [hlt h]; rfl
    rw [hmiss] at a
    rw [a.pairsA, a.pairsB, pairing_zero, pairing_zero, zero_add, zero_add, if_pos rfl]
    exact energy_deriv2 env fn _ A.get B.get DA.get DB.get fun x hx => hcon x ((hs.flatMap_right Spec.atomPoints).mem_iff.1 hx)

example : ∃ E : ℝ → ℝ, (∀ t, ∃ s, atomGrid2 toy ⟨2, [], 1, [], 0⟩ (Spec.line (one 3) (one 1) t) (Spec.line (one 1) (one 2) t) true [toyElem] = .ok s ∧ s.exc = E t) ∧
    ∃ s, atomGrid2 toy ⟨2, [], 1, [], 0⟩ (one 3) (one 1) true [toyElem] = .ok s ∧ Spec.Symm 1 s.Ha ∧ Spec.Symm 1 s.Hb ∧
      HasDerivAt E (Spec.pairing 1 s.Ha (one 1) + Spec.pairing 1 s.Hb (one 2)) 0 :=
  C65_atomic_spins_derivative_partial (toy_usable (by norm_num) _ rfl) (toy_usable (by norm_num) _ rfl) (by norm_num) (one_symm 3) (one_symm 1) (one_symm 1) (one_symm 2) (fun _ => by
    simp [Spec.anyUses, Spec.oneUses, toy, Spec.uses]) [toyElem] [toyElem] (List.Perm.refl _) toy_idx
    fun _ _ => ⟨toy_consistent2 (by norm_num) _ _ _, toy_consistent2 (by norm_num) _ _ _⟩

/-- **C65, two spins without the beta matrix.** When the beta matrix is not asked for it is zero, and the alpha matrix is still the derivative with respect to the alpha density, for functionals that
do not use the Laplacian. -/
theorem C65_atomic_alpha_only (hx : Spec.Usable env fn.x fn.xp) (hc : Spec.Usable env fn.c fn.cp) {m : Nat} (hm : 0 < m) {A B DA : Mat ℝ} (hA : Spec.Symm m A) (hB : Spec.Symm m B)
    (hDA : Spec.Symm m DA) (hl : Spec.anyUses env fn.x fn.c (·.lapl) = false) (elems sched : List AtomElem) (hs : sched.Perm elems) (hidx : ∀ e ∈ elems, ∀ i ∈ e.idx, i < m)
    (hcon : ∀ x ∈ elems.flatMap Spec.atomPoints, Spec.Consistent2 env fn.x fn.xp fn.thr (Spec.inputs A.get B.get x) ∧ Spec.Consistent2 env fn.c fn.cp fn.thr (Spec.inputs A.get B.get x)) :
    ∃ E : ℝ → ℝ, (∀ t, ∃ s, atomGrid2 env fn (Spec.line A DA t) B false sched = .ok s ∧ s.exc = E t) ∧
      ∃ s, atomGrid2 env fn A B false sched = .ok s ∧ (∀ i < m, ∀ j < m, s.Hb.get i j = 0) ∧ HasDerivAt E (Spec.pairing m s.Ha DA) 0 := by
  have hi : ∀ e ∈ sched, ∀ i ∈ e.idx, i < m := fun e he => hidx e (hs.mem_iff.1 he)
  have hl' : useLapl env fn = false := by rw [useLapl_eq]; exact hl
  refine ⟨fun t => Spec.energy2 env fn.x fn.c fn.xp fn.cp fn.thr (sched.flatMap Spec.atomPoints) (fun i j => A.get i j + t * DA.get i j) fun i j => B.get i j + t * (fun _ _ => 0) i j,
    fun t => ?_, ?_⟩
  · obtain ⟨s, e, a⟩ := atomGrid2_ok hx hc hm (symm_line hA hDA t) hB false (fun h => by rw [hl'] at h; simp at h) sched hi
    refine ⟨s, e, ?_⟩
    rw [a.exc, zero_add]
    simp only [mul_zero, add_zero]
    rfl
  · obtain ⟨s, e, a⟩ := atomGrid2_ok hx hc hm hA hB false (fun h => by rw [hl'] at h; simp at h) sched hi
    refine ⟨s, e, fun i hi j hj => ?_, ?_⟩
    · rw [← entry_of_pairing m s.Hb hi hj, a.pairsB, pairing_zero]
      simp
    · rw [hl'] at a
      rw [a.pairsA, pairing_zero, zero_add]
      refine (energy_deriv2 env fn _ A.get B.get DA.get (fun _ _ => 0) fun x hx => hcon x ((hs.flatMap_right Spec.atomPoints).mem_iff.1 hx)).congr_deriv ?_
      have hz : ∀ x : Spec.Point 3, derivB env fn false A.get B.get (fun _ _ => 0) x = 0 := by
        intro x
        have h0 : ∀ u v : Fin x.idx.length → ℂ, Spec.form (fun _ _ => 0) x.idx u v = 0 := fun u v => by simp [Spec.form]
        simp [derivB, Spec.rho, Spec.grad, Spec.tau, Spec.lapl, h0]
      rw [funext hz]
      simp

example : ∃ E : ℝ → ℝ, (∀ t, ∃ s, atomGrid2 toy ⟨4, [], 1, [], 0⟩ (Spec.line (one 3) (one 1) t) (one 1) false [toyElem] = .ok s ∧ s.exc = E t) ∧
    ∃ s, atomGrid2 toy ⟨4, [], 1, [], 0⟩ (one 3) (one 1) false [toyElem] = .ok s ∧ (∀ i < 1, ∀ j < 1, s.Hb.get i j = 0) ∧ HasDerivAt E (Spec.pairing 1 s.Ha (one 1)) 0 :=
  C65_atomic_alpha_only (toy_usable (by norm_num) _ rfl) (toy_usable (by norm_num) _ rfl) (by norm_num) (one_symm 3) (one_symm 1) (one_symm 1) (by
    simp [Spec.anyUses, Spec.oneUses, toy, Spec.uses]) [toyElem] [toyElem] (List.Perm.refl _) toy_idx
    fun _ _ => ⟨toy_consistent2 (by norm_num) _ _ _, toy_consistent2 (by norm_num) _ _ _⟩

/-- **C65 fails without the beta matrix** if a functional uses the Laplacian: the code adds to a matrix of size zero. -/
theorem C65_alpha_only_laplacian_ub (hx : Spec.Usable env fn.x fn.xp) (hc : Spec.Usable env fn.c fn.cp) {m : Nat} (hm : 0 < m) {A B : Mat ℝ} (hA : Spec.Symm m A) (hB : Spec.Symm m B)
    (hl : Spec.anyUses env fn.x fn.c (·.lapl) = true) (e : AtomElem) (he : e.idx ≠ []) (hidx : ∀ i ∈ e.idx, i < m) (elems : List AtomElem) :
    atomGrid2 env fn A B false (e :: elems) = .ub := by
  obtain ⟨fl, hfl, hcx, hcc, ht, hl'⟩ := checkFlags_ok env hx hc
  rw [← useLapl_eq] at hl
  rw [atomGrid2, hfl, Res.ok_bind, List.foldlM_cons, atomStep2_ub hx hc hcx hcc ht hl' hm hA hB (hl'.trans hl) e he hidx, Res.ub_bind]

example : atomGrid2 toy ⟨2, [], 1, [], 0⟩ (one 3) (one 1) false [toyElem] = .ub :=
  C65_alpha_only_laplacian_ub (toy_usable (by norm_num) _ rfl) (toy_usable (by norm_num) _ rfl) (m := 1) (by norm_num) (one_symm 3) (one_symm 1) (by
    simp [Spec.anyUses, Spec.oneUses, toy, Spec.uses]) toyElem (by simp [toyElem]) (by intro i hi; simp [toyElem] at hi; omega) []

/-- **C65, what is missing for functionals of the Laplacian alone.** With two spins, the alpha Fock matrix of a functional that uses the Laplacian but not the kinetic energy density lacks the
term from `∇φ_i·∇φ_j`: paired with `D` it is the derivative of the energy minus `4 ∑ w v_lapl τ_D`. -/
theorem C65_laplacian_only (hx : Spec.Usable env fn.x fn.xp) (hc : fn.c ≤ 0) (h0 : 0 < fn.x) {m : Nat} (hm : 0 < m) {A B D : Mat ℝ} (hA : Spec.Symm m A) (hB : Spec.Symm m B)
    (hl : Spec.anyUses env fn.x fn.c (·.lapl) = true) (ht : Spec.anyUses env fn.x fn.c (·.tau) = false) (elems : List AtomElem) (hidx : ∀ e ∈ elems, ∀ i ∈ e.idx, i < m)
    (hcon : ∀ x ∈ elems.flatMap Spec.atomPoints, Spec.Consistent2 env fn.x fn.xp fn.thr (Spec.inputs A.get B.get x)) :
    ∃ i s, env.info fn.x = some i ∧ atomGrid2 env fn A B true elems = .ok s ∧
      HasDerivAt (fun t : ℝ => Spec.energy2 env fn.x fn.c fn.xp fn.cp fn.thr (elems.flatMap Spec.atomPoints) (fun i j => A.get i j + t * D.get i j) B.get)
        (Spec.pairing m s.Ha D + ((elems.flatMap Spec.atomPoints).map fun x =>
          x.w * ((env.pol fn.x fn.xp fn.thr (Spec.seen2 (Spec.uses i) (Spec.inputs A.get B.get x))).vla * (4 * Spec.tau D.get x))).sum) 0 := by
  obtain ⟨i, hi, -⟩ := hx h0
  have huc : Spec.Usable env fn.c fn.cp := fun h => absurd h (by omega)
  obtain ⟨s, e, a⟩ := atomGrid2_ok hx huc hm hA hB true (fun _ => rfl) elems hidx
  refine ⟨i, s, hi, e, ?_⟩
  rw [useLapl_eq, useTau_eq, hl, ht] at a
  rw [a.pairsA, pairing_zero, zero_add]
  have hd := energy_deriv2 env fn (elems.flatMap Spec.atomPoints) A.get B.get D.get (fun _ _ => 0) fun x hx => ⟨hcon x hx, fun h => absurd h (by omega)⟩
  simp only [mul_zero, add_zero] at hd
  refine hd.congr_deriv ?_
  have hz : ∀ x : Spec.Point 3, derivB env fn false A.get B.get (fun _ _ => 0) x = 0 := by
    intro x
    have h0 : ∀ u v : Fin x.idx.length → ℂ, Spec.form (fun _ _ => 0) x.idx u v = 0 := fun u v => by simp [Spec.form]
    simp [derivB, Spec.rho, Spec.grad, Spec.tau, Spec.lapl, h0]
  have hlu : (Spec.uses i).lapl = true := by
    have : ¬ 0 < fn.c := by omega
    simpa [Spec.anyUses, Spec.oneUses, h0, hi, this] using hl
  have hO : ∀ x : Spec.Point 3, (outBoth2 env fn.x fn.c fn.xp fn.cp fn.thr (Spec.inputs A.get B.get x)).vla =
      (env.pol fn.x fn.xp fn.thr (Spec.seen2 (Spec.uses i) (Spec.inputs A.get B.get x))).vla := by
    intro x
    have : ¬ 0 < fn.c := by omega
    simp [outBoth2, Out2.plus, outOf2, h0, hi, this, mask2, hlu, Out2.nil]
  rw [funext hz]
  have key : ∀ l : List (Spec.Point 3), (l.map (derivA env fn false A.get B.get D.get)).sum + (l.map fun _ => (0 : ℝ)).sum = (l.map (derivA env fn (true && !false) A.get B.get D.get)).sum +
      (l.map fun x => x.w * ((env.pol fn.x fn.xp fn.thr (Spec.seen2 (Spec.uses i) (Spec.inputs A.get B.get x))).vla * (4 * Spec.tau D.get x))).sum := by
    intro l
    induction l with
    | nil => simp
    | cons x r ih =>
      simp only [List.map_cons, List.sum_cons]
      rw [← hO x]
      have : derivA env fn (true && !false) A.get B.get D.get x + x.w * ((outBoth2 env fn.x fn.c fn.xp fn.cp fn.thr (Spec.inputs A.get B.get x)).vla * (4 * Spec.tau D.get x)) =
          derivA env fn false A.get B.get D.get x := by
        simp only [derivA, Bool.true_and, Bool.not_false, if_true, Bool.false_eq_true, if_false]
        ring
      linear_combination ih - this
  simpa using key (elems.flatMap Spec.atomPoints)

/-- **C65 fails for functionals of the Laplacian alone**: with `ρε = ρ∇²ρ` and one function the derivative of the energy is not the Fock matrix. -/
theorem C65_laplacian_only_wrong : ∃ s, atomGrid2 toy ⟨3, [], 0, [], 0⟩ (one 1) (one 1) true [toyElem] = .ok s ∧
    ¬ HasDerivAt (fun t : ℝ => Spec.energy2 toy 3 0 [] [] 0 ([toyElem].flatMap Spec.atomPoints) (fun _ _ => 1 + t * 1) (fun _ _ => 1)) (Spec.pairing 1 s.Ha (one 1)) 0 := by
  obtain ⟨i, s, hi, e, h⟩ := C65_laplacian_only (env := toy) (fn := ⟨3, [], 0, [], 0⟩) (toy_usable (by norm_num) _ rfl) le_rfl (by norm_num) (m := 1) (by norm_num) (D := one 1) (one_symm 1) (one_symm 1)
    (by simp [Spec.anyUses, Spec.oneUses, toy, Spec.uses]) (by simp [Spec.anyUses, Spec.oneUses, toy, Spec.uses]) [toyElem] toy_idx fun _ _ => toy_consistent2 (by norm_num) _ _ _
  refine ⟨s, e, fun h' => ?_⟩
  have := h'.unique h
  simp [toy] at hi
  subst hi
  simp [Spec.atomPoints, Spec.atomPoint, toyElem, List.finRange_succ, Spec.rho, Spec.form, Spec.inputs, Spec.grad, Spec.lapl, Spec.tau, Fin.sum_univ_three, toy, Spec.uses,
    Spec.seen2, one, Spec.sine] at this

/-! ### The diatomic grid -/

section dia
open Dia
variable {lm : List (Int × Int)} {nrad : Nat}

/-- **C65, diatomic values.** On the diatomic grid, for functionals without the Laplacian, the run succeeds and returns the quadrature sums over all points. The density matrix is over the functions of
the basis. -/
theorem C65_diatomic_values (hx : Spec.Usable env fn.x fn.xp) (hc : Spec.Usable env fn.c fn.cp) (hl : Spec.anyUses env fn.x fn.c (·.lapl) = false) (hm : 0 < lm.length * nrad) {P : Mat ℝ}
    (hP : Spec.Symm (Spec.functions lm nrad).length P) (pts : List DiaPoint) (hidx : ∀ e ∈ pts, ∀ i ∈ e.idx, i < lm.length * nrad) :
    ∃ s, diaGrid1 env lm nrad fn P pts = .ok s ∧ s.exc = Spec.energy env fn.x fn.c fn.xp fn.cp fn.thr (pts.flatMap Spec.diaPoints) (Spec.padded lm nrad P) ∧
      s.nel = Spec.electrons (pts.flatMap Spec.diaPoints) (Spec.padded lm nrad P) ∧
      s.ekin = (if Spec.anyUses env fn.x fn.c (·.tau) then Spec.kinetic (pts.flatMap Spec.diaPoints) (Spec.padded lm nrad P) else 0) ∧ Spec.Symm (Spec.functions lm nrad).length s.H := by
  obtain ⟨s, e, h1, h2, h3, h4, -⟩ := diaGrid1_ok hx hc (by rw [useLapl_eq]; exact hl) hm hP pts hidx
  exact ⟨s, e, h1, h2, by rw [h3, useTau_eq], h4⟩

/-- **C65, diatomic derivative.** The Fock matrix is the derivative of the energy along every symmetric direction. -/
theorem C65_diatomic_derivative (hx : Spec.Usable env fn.x fn.xp) (hc : Spec.Usable env fn.c fn.cp) (hl : Spec.anyUses env fn.x fn.c (·.lapl) = false) (hm : 0 < lm.length * nrad) {P D : Mat ℝ}
    (hP : Spec.Symm (Spec.functions lm nrad).length P) (hD : Spec.Symm (Spec.functions lm nrad).length D) (pts : List DiaPoint) (hidx : ∀ e ∈ pts, ∀ i ∈ e.idx, i < lm.length * nrad)
    (hcon : ∀ x ∈ pts.flatMap Spec.diaPoints, Spec.Consistent env fn.x fn.xp fn.thr (Spec.input (Spec.padded lm nrad P) x) ∧
      Spec.Consistent env fn.c fn.cp fn.thr (Spec.input (Spec.padded lm nrad P) x)) :
    ∃ E : ℝ → ℝ, (∀ t, ∃ s, diaGrid1 env lm nrad fn (Spec.line P D t) pts = .ok s ∧ s.exc = E t) ∧
      ∃ s, diaGrid1 env lm nrad fn P pts = .ok s ∧ Spec.Symm (Spec.functions lm nrad).length s.H ∧ HasDerivAt E (Spec.pairing (Spec.functions lm nrad).length s.H D) 0 := by
  have hl' : useLapl env fn = false := by rw [useLapl_eq]; exact hl
  refine ⟨fun t => Spec.energy env fn.x fn.c fn.xp fn.cp fn.thr (pts.flatMap Spec.diaPoints) fun i j => Spec.padded lm nrad P i j + t * Spec.padded lm nrad D i j, fun t => ?_, ?_⟩
  · obtain ⟨s, e, h, -⟩ := diaGrid1_ok hx hc hl' hm (symm_line hP hD t) pts hidx
    exact ⟨s, e, by rw [h, padded_line]⟩
  · obtain ⟨s, e, -, -, -, h4, h5⟩ := diaGrid1_ok hx hc hl' hm hP pts hidx
    refine ⟨s, e, h4, ?_⟩
    rw [h5]
    exact energy_deriv env fn _ _ _ hcon

/-- **C65, diatomic, two spins.** The two Fock matrices are the derivative of the energy with respect to the two density matrices; without `beta` the beta matrix is zero. -/
theorem C65_diatomic_spins_derivative (hx : Spec.Usable env fn.x fn.xp) (hc : Spec.Usable env fn.c fn.cp) (hl : Spec.anyUses env fn.x fn.c (·.lapl) = false) (hm : 0 < lm.length * nrad)
    {A B DA DB : Mat ℝ} (hA : Spec.Symm (Spec.functions lm nrad).length A) (hB : Spec.Symm (Spec.functions lm nrad).length B) (hDA : Spec.Symm (Spec.functions lm nrad).length DA)
    (hDB : Spec.Symm (Spec.functions lm nrad).length DB) (beta : Bool) (hbeta : beta = false → ∀ i < (Spec.functions lm nrad).length, ∀ j < (Spec.functions lm nrad).length, DB.get i j = 0)
    (pts : List DiaPoint) (hidx : ∀ e ∈ pts, ∀ i ∈ e.idx, i < lm.length * nrad)
    (hcon : ∀ x ∈ pts.flatMap Spec.diaPoints, Spec.Consistent2 env fn.x fn.xp fn.thr (Spec.inputs (Spec.padded lm nrad A) (Spec.padded lm nrad B) x) ∧
      Spec.Consistent2 env fn.c fn.cp fn.thr (Spec.inputs (Spec.padded lm nrad A) (Spec.padded lm nrad B) x)) :
    ∃ E : ℝ → ℝ, (∀ t, ∃ s, diaGrid2 env lm nrad fn (Spec.line A DA t) (Spec.line B DB t) beta pts = .ok s ∧ s.exc = E t) ∧
      ∃ s, diaGrid2 env lm nrad fn A B beta pts = .ok s ∧ s.exc = Spec.energy2 env fn.x fn.c fn.xp fn.cp fn.thr (pts.flatMap Spec.diaPoints) (Spec.padded lm nrad A) (Spec.padded lm nrad B) ∧
        s.nel = Spec.electrons (pts.flatMap Spec.diaPoints) (Spec.padded lm nrad A) + Spec.electrons (pts.flatMap Spec.diaPoints) (Spec.padded lm nrad B) ∧
        s.ekin = (if Spec.anyUses env fn.x fn.c (·.tau) then Spec.kinetic (pts.flatMap Spec.diaPoints) (Spec.padded lm nrad A) + Spec.kinetic (pts.flatMap Spec.diaPoints) (Spec.padded lm nrad B)
          else 0) ∧
        Spec.Symm (Spec.functions lm nrad).length s.Ha ∧ Spec.Symm (Spec.functions lm nrad).length s.Hb ∧
        (beta = false → ∀ i < (Spec.functions lm nrad).length, ∀ j < (Spec.functions lm nrad).length, s.Hb.get i j = 0) ∧
        HasDerivAt E (Spec.pairing (Spec.functions lm nrad).length s.Ha DA + Spec.pairing (Spec.functions lm nrad).length s.Hb DB) 0 := by
  have hl' : useLapl env fn = false := by rw [useLapl_eq]; exact hl
  refine ⟨fun t => Spec.energy2 env fn.x fn.c fn.xp fn.cp fn.thr (pts.flatMap Spec.diaPoints) (fun i j => Spec.padded lm nrad A i j + t * Spec.padded lm nrad DA i j)
    fun i j => Spec.padded lm nrad B i j + t * Spec.padded lm nrad DB i j, fun t => ?_, ?_⟩
  · obtain ⟨s, e, h, -⟩ := diaGrid2_ok hx hc hl' hm (symm_line hA hDA t) (symm_line hB hDB t) beta pts hidx
    exact ⟨s, e, by rw [h, padded_line, padded_line]⟩
  · obtain ⟨s, e, h1, h2, h3, h4, h4', h5, h6⟩ := diaGrid2_ok hx hc hl' hm hA hB beta pts hidx
    refine ⟨s, e, h1, h2, by rw [h3, useTau_eq], h4, h4', fun hb i hi j hj => ?_, ?_⟩
    · rw [← entry_of_pairing _ s.Hb hi hj, h6, hb]
      simp
    · rw [h5, h6]
      refine (energy_deriv2 env fn _ _ _ (Spec.padded lm nrad DA) (Spec.padded lm nrad DB) hcon).congr_deriv ?_
      rcases beta with _ | _
      · have h0 : Spec.padded lm nrad DB = fun _ _ => 0 := by
          funext a b
          unfold Spec.padded
          split_ifs with h
          · exact hbeta rfl _ (List.idxOf_lt_length_iff.2 h.1) _ (List.idxOf_lt_length_iff.2 h.2)
          · rfl
        have hz : ∀ x : Spec.Point 3, derivB env fn false (Spec.padded lm nrad A) (Spec.padded lm nrad B) (fun _ _ => 0) x = 0 := by
          intro x
          have h0 : ∀ u v : Fin x.idx.length → ℂ, Spec.form (fun _ _ => 0) x.idx u v = 0 := fun u v => by simp [Spec.form]
          simp [derivB, Spec.rho, Spec.grad, Spec.tau, Spec.lapl, h0]
        rw [h0, funext hz]
        simp
      · rw [if_pos rfl]

/-- **C65, diatomic, Laplacian.** Functionals of the Laplacian are refused. -/
theorem C65_diatomic_laplacian (hx : Spec.Usable env fn.x fn.xp) (hc : Spec.Usable env fn.c fn.cp) (hl : Spec.anyUses env fn.x fn.c (·.lapl) = true) {P : Mat ℝ}
    (hP : Spec.Symm (Spec.functions lm nrad).length P) (e : DiaPoint) (pts : List DiaPoint) : diaGrid1 env lm nrad fn P (e :: pts) = .throw .logicError := by
  obtain ⟨fl, hfl, hcx, hcc, ht, hl'⟩ := checkFlags_ok env hx hc
  obtain ⟨E, hE, -⟩ := expand_padded lm nrad P hP.1 hP.2.1
  rw [← useLapl_eq] at hl
  rw [diaGrid1, hfl, Res.ok_bind, hE, Res.ok_bind, List.foldlM_cons, diaStep1, diaBf, if_pos (hl'.trans hl)]
  rfl

/-- two angular functions with three radial ones each: `σ` keeps its first, `π` does not -/
noncomputable def toyDia : DiaPoint where
  nang := 1
  idx := [0, 1, 3, 4]
  mu := 1
  wrad := 1
  Rhalf := 1
  cth := fun _ => 0
  wang := fun _ => 1
  bf := fun _ _ a => if a.1 = 2 then 0 else 1
  df := fun _ _ _ _ => 1

/-- the basis: `σ` with `l = 0`, `π` with `l = 1` -/
def toyLm : List (Int × Int) := [(0, 0), (1, 1)]

theorem toy_functions : Spec.functions toyLm 3 = [0, 1, 2, 4, 5] := by
  rw [physical_list]
  decide

theorem toy_dia_idx : ∀ e ∈ [toyDia], ∀ i ∈ e.idx, i < toyLm.length * 3 := by
  intro e he i hi
  simp only [List.mem_singleton] at he
  subst he
  simp [toyDia] at hi
  simp [toyLm]
  omega

/-- the identity -/
def eye : Mat ℝ := ⟨5, 5, fun i j => if i = j then 1 else 0⟩

theorem eye_symm : Spec.Symm (Spec.functions toyLm 3).length eye := by
  rw [toy_functions]
  exact ⟨rfl, rfl, fun i _ j _ => by simp [eye, eq_comm]⟩

example : ∃ E : ℝ → ℝ, (∀ t, ∃ s, diaGrid1 toy toyLm 3 ⟨4, [], 1, [], 0⟩ (Spec.line eye eye t) [toyDia] = .ok s ∧ s.exc = E t) ∧
    ∃ s, diaGrid1 toy toyLm 3 ⟨4, [], 1, [], 0⟩ eye [toyDia] = .ok s ∧ Spec.Symm (Spec.functions toyLm 3).length s.H ∧
      HasDerivAt E (Spec.pairing (Spec.functions toyLm 3).length s.H eye) 0 :=
  C65_diatomic_derivative (toy_usable (by norm_num) _ rfl) (toy_usable (by norm_num) _ rfl) (by simp [Spec.anyUses, Spec.oneUses, toy, Spec.uses]) (by simp [toyLm]) eye_symm eye_symm [toyDia] toy_dia_idx
    fun _ _ => ⟨toy_consistent (by norm_num) _ _ _, toy_consistent (by norm_num) _ _ _⟩

example : ∃ s, diaGrid1 toy toyLm 3 ⟨4, [], 1, [], 0⟩ eye [toyDia] = .ok s ∧ s.nel = 3 * (Real.sinh 1 * (Real.sinh 1 ^ 2 + 1)) := by
  obtain ⟨s, e, -, h, -⟩ := C65_diatomic_values (env := toy) (fn := ⟨4, [], 1, [], 0⟩) (toy_usable (by norm_num) _ rfl) (toy_usable (by norm_num) _ rfl)
    (by simp [Spec.anyUses, Spec.oneUses, toy, Spec.uses]) (by simp [toyLm]) eye_symm [toyDia] toy_dia_idx
  refine ⟨s, e, ?_⟩
  rw [h]
  have hp : ∀ a b, Spec.padded toyLm 3 eye a b = if a ∈ [0, 1, 2, 4, 5] ∧ b ∈ [0, 1, 2, 4, 5] then (if [0, 1, 2, 4, 5].idxOf a = [0, 1, 2, 4, 5].idxOf b then 1 else 0) else 0 := by
    intro a b
    unfold Spec.padded
    rw [toy_functions]
    rfl
  have e1 : ([toyDia].flatMap Spec.diaPoints) = [Spec.diaPoint toyDia (0 : Fin 1)] := by
    simp [Spec.diaPoints, toyDia, List.finRange_succ]
  have e2 : Spec.rho (Spec.padded toyLm 3 eye) (Spec.diaPoint toyDia (0 : Fin 1)) = 3 := by
    unfold Spec.rho Spec.form
    simp only [hp]
    change ∑ a : Fin 4, ∑ b : Fin 4, _ = _
    simp [Fin.sum_univ_four, Spec.diaPoint, toyDia]
    norm_num
  rw [e1, Spec.electrons, List.map_cons, List.map_nil, List.sum_cons, List.sum_nil, e2]
  simp [Spec.diaPoint, toyDia, Spec.sine]
  ring

example : ∃ E : ℝ → ℝ, (∀ t, ∃ s, diaGrid2 toy toyLm 3 ⟨4, [], 1, [], 0⟩ (Spec.line eye eye t) (Spec.line eye eye t) true [toyDia] = .ok s ∧ s.exc = E t) ∧
    ∃ s, diaGrid2 toy toyLm 3 ⟨4, [], 1, [], 0⟩ eye eye true [toyDia] = .ok s ∧
      HasDerivAt E (Spec.pairing (Spec.functions toyLm 3).length s.Ha eye + Spec.pairing (Spec.functions toyLm 3).length s.Hb eye) 0 := by
  obtain ⟨E, h, s, e, -, -, -, -, -, -, h'⟩ := C65_diatomic_spins_derivative (env := toy) (fn := ⟨4, [], 1, [], 0⟩) (toy_usable (by norm_num) _ rfl) (toy_usable (by norm_num) _ rfl)
    (by simp [Spec.anyUses, Spec.oneUses, toy, Spec.uses]) (by simp [toyLm]) eye_symm eye_symm eye_symm eye_symm true (by simp) [toyDia] toy_dia_idx
    fun _ _ => ⟨toy_consistent2 (by norm_num) _ _ _, toy_consistent2 (by norm_num) _ _ _⟩
  exact ⟨E, h, s, e, h'⟩

example : diaGrid1 toy toyLm 3 ⟨2, [], 1, [], 0⟩ eye [toyDia] = .throw .logicError :=
  C65_diatomic_laplacian (toy_usable (by norm_num) _ rfl) (toy_usable (by norm_num) _ rfl) (by simp [Spec.anyUses, Spec.oneUses, toy, Spec.uses]) eye_symm _ _

end dia

end XC
end HelFEM
