import Verif.Lemmas.SadGrid
import Verif.Props.XC

/-!
# C66: the exchange-correlation matrices of the spherically averaged atom
-/

namespace HelFEM
namespace XC

variable {env : Libxc} {fn : Funcs}

/-! ### The specification is about derivatives of the density -/

/-- the radial functions `F`, with first and second derivatives `G` and `H`, at the radius `r` -/
def pointAt (idx : List Nat) (F G H : Nat → ℝ → ℝ) (w r : ℝ) : Spec.SPoint := ⟨idx, r, w, fun a => F idx[a] r, fun a => G idx[a] r, fun a => H idx[a] r⟩

theorem sform_deriv (D : Nat → Nat → ℝ) (idx : List Nat) {u v u' v' : Nat → ℝ → ℝ} {r : ℝ} (hu : ∀ i, HasDerivAt (u i) (u' i r) r) (hv : ∀ i, HasDerivAt (v i) (v' i r) r) :
    HasDerivAt (fun r => Spec.sform D idx (fun a => u idx[a] r) fun a => v idx[a] r)
      (Spec.sform D idx (fun a => u' idx[a] r) (fun a => v idx[a] r) + Spec.sform D idx (fun a => u idx[a] r) fun a => v' idx[a] r) r := by
  unfold Spec.sform
  rw [← Finset.sum_add_distrib]
  refine HasDerivAt.fun_sum fun a _ => ?_
  rw [← Finset.sum_add_distrib]
  refine HasDerivAt.fun_sum fun b _ => ?_
  refine (((hu idx[a]).mul (hv idx[b])).const_mul (D idx[a] idx[b])).congr_deriv ?_
  ring

/-- **C66, specification.** What the specification calls the first and second derivative of the density are the derivatives of the density as a function of the radius, and its Laplacian is
`ρ'' + 2ρ'/r`. -/
theorem C66_density_derivatives (S : Spec.Shells) (idx : List Nat) (F G H : Nat → ℝ → ℝ) (w r : ℝ) (hF : ∀ i, HasDerivAt (F i) (G i r) r) (hG : ∀ i, HasDerivAt (G i) (H i r) r) :
    HasDerivAt (fun r => S.rho (pointAt idx F G H w r)) (S.drho (pointAt idx F G H w r)) r ∧
    HasDerivAt (fun r => S.drho (pointAt idx F G H w r)) (S.ddrho (pointAt idx F G H w r)) r := by
  constructor
  · refine HasDerivAt.fun_sum fun l _ => ?_
    exact sform_deriv (S.D l) idx hF hF
  · refine HasDerivAt.fun_sum fun l _ => ?_
    refine ((sform_deriv (S.D l) idx hG hF).add (sform_deriv (S.D l) idx hF hG)).congr_deriv ?_
    simp only [pointAt]
    ring

example : HasDerivAt (fun r : ℝ => (⟨1, fun _ _ _ => 1⟩ : Spec.Shells).rho (pointAt [0] (fun _ r => r ^ 2) (fun _ r => 2 * r) (fun _ _ => 2) 1 r))
    ((⟨1, fun _ _ _ => 1⟩ : Spec.Shells).drho (pointAt [0] (fun _ r => r ^ 2) (fun _ r => 2 * r) (fun _ _ => 2) 1 3)) 3 :=
  (C66_density_derivatives _ _ _ _ _ 1 3 (fun _ => by simpa using hasDerivAt_pow 2 (3 : ℝ)) (fun _ => by simpa using (hasDerivAt_id (3 : ℝ)).const_mul 2)).1

/-! ### A grid for the examples -/

/-- one point at radius 2 with one function of value 1, first derivative 1 and second derivative 3 -/
noncomputable def toySad : SadElem where
  npt := 1
  idx := [0]
  r := fun _ => 2
  wrad := fun _ => 1
  bf := fun _ _ => 1
  df := fun _ _ => 1
  lf := fun _ _ => 3

/-- an s and a p shell with the `1 × 1` matrices `p` and `q` -/
def two (p q : ℝ) : Cube := ⟨2, fun l => one (if l = 0 then p else q)⟩

theorem two_symm (p q : ℝ) : Spec.CubeSymm 1 (two p q) := ⟨by simp [two], fun _ _ => one_symm _⟩

theorem two_psd {p q : ℝ} (hp : 0 ≤ p) (hq : 0 ≤ q) : Spec.CubePSD 1 (two p q) := by
  intro l _ v
  simp only [two, one, Finset.sum_range_one]
  split_ifs
  · exact mul_nonneg hp (mul_self_nonneg _)
  · exact mul_nonneg hq (mul_self_nonneg _)

theorem toySad_idx : ∀ e ∈ [toySad], ∀ i ∈ e.idx, i < 1 := by
  intro e he i hi
  simp only [List.mem_singleton] at he
  subst he
  simp [toySad] at hi
  omega

theorem toySad_r : ∀ e ∈ [toySad], ∀ p, e.r p ≠ 0 := by
  intro e he p
  simp only [List.mem_singleton] at he
  subst he
  simp [toySad]

/-! ### One density -/

/-- **C66, values.** With functionals libxc knows, symmetric positive semidefinite shell density matrices and no point at the nucleus, the run succeeds; the energy and the number of electrons are
the quadrature sums over all points of all elements, in whatever order the elements are worked on, and the Fock matrices are symmetric. -/
theorem C66_values (hx : Spec.Usable env fn.x fn.xp) (hc : Spec.Usable env fn.c fn.cp) {m : Nat} {P : Cube} (hP : Spec.CubeSymm m P) (hpsd : Spec.CubePSD m P) (elems sched : List SadElem)
    (hs : sched.Perm elems) (hidx : ∀ e ∈ elems, ∀ i ∈ e.idx, i < m) (hr : ∀ e ∈ elems, ∀ p, e.r p ≠ 0) :
    ∃ s, sadGrid1 env fn P sched = .ok s ∧ s.exc = Spec.senergy env fn.x fn.c fn.xp fn.cp fn.thr (elems.flatMap Spec.sadPoints) (Spec.shells P) ∧
      s.nel = Spec.selectrons (elems.flatMap Spec.sadPoints) (Spec.shells P) ∧ s.H.size = P.size ∧ Spec.CubeSymm m s.H := by
  obtain ⟨s, e, a⟩ := sadGrid1_ok hx hc hP hpsd sched (fun e he => hidx e (hs.mem_iff.1 he)) (fun e he => hr e (hs.mem_iff.1 he))
  have hp := hs.flatMap_right Spec.sadPoints
  refine ⟨s, e, ?_, ?_, a.shaped.1, cube_symm a.shaped hP.1 (F := sderiv env fn (Spec.shells P)) (fun D x => chan_transpose _ _ _ _ _ _ _) fun D => by rw [a.pairs, cubePairing_zero, zero_add]⟩
  · rw [a.exc, zero_add, Spec.senergy, Spec.senergy, (hp.map _).sum_eq]
  · rw [a.nel, zero_add, Spec.selectrons, Spec.selectrons, (hp.map _).sum_eq]

example : ∃ s, sadGrid1 toy ⟨2, [], 1, [], 0⟩ (two 1 2) [toySad] = .ok s ∧ s.nel = 48 * Real.pi ∧ s.exc = 16 * Real.pi * (3 * (36 + (24 + 6) + 1 / 2 * (3 + 1) + 3)) := by
  obtain ⟨s, e, h, h', _⟩ := C66_values (env := toy) (fn := ⟨2, [], 1, [], 0⟩) (toy_usable (by norm_num) _ rfl) (toy_usable (by norm_num) _ rfl) (two_symm 1 2) (two_psd (by norm_num) (by norm_num))
    [toySad] [toySad] (List.Perm.refl _) toySad_idx toySad_r
  refine ⟨s, e, ?_, ?_⟩
  · rw [h']
    simp [Spec.selectrons, Spec.sadPoints, Spec.sadPoint, toySad, List.finRange_succ, Spec.Shells.rho, Spec.sform, Spec.shells, two, one, Finset.sum_range_succ]
    ring
  · rw [h]
    simp [Spec.senergy, Spec.exc, Spec.sadPoints, Spec.sadPoint, toySad, List.finRange_succ, Spec.Shells.rho, Spec.Shells.drho, Spec.Shells.ddrho, Spec.Shells.lapl, Spec.Shells.tau,
      Spec.Shells.input, Spec.sform, Spec.shells, two, one, Finset.sum_range_succ, toy, Spec.uses, Spec.seen]
    ring

theorem cubeLine_shells (P D : Cube) (t : ℝ) : Spec.shells (Spec.cubeLine P D t) = sline (Spec.shells P) (shellsOf P.size D) t := rfl

theorem cubeLine_symm {m : Nat} {P D : Cube} (hP : Spec.CubeSymm m P) (hD : ∀ l < P.size, Spec.Symm m (D.slice l)) (t : ℝ) : Spec.CubeSymm m (Spec.cubeLine P D t) :=
  ⟨hP.1, fun l hl => symm_line (hP.2 l hl) (hD l hl) t⟩

/-- **C66, derivative.** There is a function `E` which, wherever `P + tD` is positive semidefinite, is the energy the grid returns for `P + tD`; its derivative at `t = 0` is
`∑_l ∑ H^l_ij D^l_ij` with the Fock matrices the grid returns for `P`, for every direction `D`. -/
theorem C66_derivative (hx : Spec.Usable env fn.x fn.xp) (hc : Spec.Usable env fn.c fn.cp) {m : Nat} {P D : Cube} (hP : Spec.CubeSymm m P) (hpsd : Spec.CubePSD m P)
    (hD : ∀ l < P.size, Spec.Symm m (D.slice l)) (elems sched : List SadElem) (hs : sched.Perm elems) (hidx : ∀ e ∈ elems, ∀ i ∈ e.idx, i < m) (hr : ∀ e ∈ elems, ∀ p, e.r p ≠ 0)
    (hcon : ∀ x ∈ elems.flatMap Spec.sadPoints, Spec.Consistent env fn.x fn.xp fn.thr ((Spec.shells P).input x) ∧ Spec.Consistent env fn.c fn.cp fn.thr ((Spec.shells P).input x)) :
    ∃ E : ℝ → ℝ, (∀ t, Spec.CubePSD m (Spec.cubeLine P D t) → ∃ s, sadGrid1 env fn (Spec.cubeLine P D t) sched = .ok s ∧ s.exc = E t) ∧
      (∀ t, E t = Spec.senergy env fn.x fn.c fn.xp fn.cp fn.thr (elems.flatMap Spec.sadPoints) (Spec.shells (Spec.cubeLine P D t))) ∧
      ∃ s, sadGrid1 env fn P sched = .ok s ∧ HasDerivAt E (Spec.cubePairing m s.H D) 0 := by
  have hi : ∀ e ∈ sched, ∀ i ∈ e.idx, i < m := fun e he => hidx e (hs.mem_iff.1 he)
  have hr' : ∀ e ∈ sched, ∀ p, e.r p ≠ 0 := fun e he => hr e (hs.mem_iff.1 he)
  have hp := hs.flatMap_right Spec.sadPoints
  refine ⟨fun t => Spec.senergy env fn.x fn.c fn.xp fn.cp fn.thr (sched.flatMap Spec.sadPoints) (Spec.shells (Spec.cubeLine P D t)), fun t ht => ?_, fun t => ?_, ?_⟩
  · obtain ⟨s, e, a⟩ := sadGrid1_ok hx hc (cubeLine_symm hP hD t) ht sched hi hr'
    exact ⟨s, e, by rw [a.exc, zero_add]⟩
  · simp only [Spec.senergy, (hp.map _).sum_eq]
  · obtain ⟨s, e, a⟩ := sadGrid1_ok hx hc hP hpsd sched hi hr'
    refine ⟨s, e, ?_⟩
    rw [a.pairs, cubePairing_zero, zero_add]
    simp only [cubeLine_shells]
    exact senergy_deriv _ _ _ rfl fun x hx => hcon x (hp.mem_iff.1 hx)

example : ∃ E : ℝ → ℝ, (∀ t, Spec.CubePSD 1 (Spec.cubeLine (two 1 2) (two 1 (-1)) t) → ∃ s, sadGrid1 toy ⟨2, [], 1, [], 0⟩ (Spec.cubeLine (two 1 2) (two 1 (-1)) t) [toySad] = .ok s ∧ s.exc = E t) ∧
    (∀ t, E t = Spec.senergy toy 2 1 [] [] 0 ([toySad].flatMap Spec.sadPoints) (Spec.shells (Spec.cubeLine (two 1 2) (two 1 (-1)) t))) ∧
    ∃ s, sadGrid1 toy ⟨2, [], 1, [], 0⟩ (two 1 2) [toySad] = .ok s ∧ HasDerivAt E (Spec.cubePairing 1 s.H (two 1 (-1))) 0 :=
  C66_derivative (fn := ⟨2, [], 1, [], 0⟩) (toy_usable (by norm_num) _ rfl) (toy_usable (by norm_num) _ rfl) (two_symm 1 2) (two_psd (by norm_num) (by norm_num)) (fun _ _ => one_symm _) [toySad] [toySad]
    (List.Perm.refl _) toySad_idx toySad_r fun _ _ => ⟨toy_consistent (by norm_num) _ _ _, toy_consistent (by norm_num) _ _ _⟩

/-- around a positive definite start the line stays positive semidefinite -/
example (t : ℝ) (h : |t| ≤ 1) : Spec.CubePSD 1 (Spec.cubeLine (two 1 2) (two 1 (-1)) t) := by
  have h := abs_le.1 h
  intro l _ v
  simp only [Spec.cubeLine, Spec.line, two, one, Finset.sum_range_one]
  split_ifs <;> exact mul_nonneg (by linarith) (mul_self_nonneg _)

/-- **C66, schedule.** The order in which elements are worked on changes nothing. -/
theorem C66_order (hx : Spec.Usable env fn.x fn.xp) (hc : Spec.Usable env fn.c fn.cp) {m : Nat} {P : Cube} (hP : Spec.CubeSymm m P) (hpsd : Spec.CubePSD m P) (elems sched : List SadElem)
    (hs : sched.Perm elems) (hidx : ∀ e ∈ elems, ∀ i ∈ e.idx, i < m) (hr : ∀ e ∈ elems, ∀ p, e.r p ≠ 0) :
    ∃ s s', sadGrid1 env fn P elems = .ok s ∧ sadGrid1 env fn P sched = .ok s' ∧ s'.exc = s.exc ∧ s'.nel = s.nel ∧ s'.H.size = s.H.size ∧
      ∀ l < s'.H.size, (s'.H.slice l).Same (s.H.slice l) := by
  obtain ⟨s, e, a⟩ := sadGrid1_ok hx hc hP hpsd elems hidx hr
  obtain ⟨s', e', a'⟩ := sadGrid1_ok hx hc hP hpsd sched (fun e he => hidx e (hs.mem_iff.1 he)) (fun e he => hr e (hs.mem_iff.1 he))
  have hp := hs.flatMap_right Spec.sadPoints
  refine ⟨s, s', e, e', ?_, ?_, cube_same a'.shaped a.shaped fun D => ?_⟩
  · rw [a.exc, a'.exc, Spec.senergy, Spec.senergy, (hp.map _).sum_eq]
  · rw [a.nel, a'.nel, Spec.selectrons, Spec.selectrons, (hp.map _).sum_eq]
  · rw [a.pairs, a'.pairs, (hp.map _).sum_eq]

example : ∃ s s', sadGrid1 toy ⟨2, [], 1, [], 0⟩ (two 1 2) [toySad, { toySad with r := fun _ => 3 }] = .ok s ∧
    sadGrid1 toy ⟨2, [], 1, [], 0⟩ (two 1 2) [{ toySad with r := fun _ => 3 }, toySad] = .ok s' ∧ s'.exc = s.exc ∧ s'.nel = s.nel ∧ s'.H.size = s.H.size ∧
      ∀ l < s'.H.size, (s'.H.slice l).Same (s.H.slice l) :=
  C66_order (toy_usable (by norm_num) _ rfl) (toy_usable (by norm_num) _ rfl) (two_symm 1 2) (two_psd (by norm_num) (by norm_num)) _ _ (List.Perm.swap _ _ _) (by
    intro e he i hi
    simp only [List.mem_cons, List.not_mem_nil, or_false] at he
    rcases he with rfl | rfl <;> · simp [toySad] at hi; omega) (by
    intro e he p
    simp only [List.mem_cons, List.not_mem_nil, or_false] at he
    rcases he with rfl | rfl <;> simp [toySad])

/-! ### Two spins -/

/-- **C66, two spins, values.** The same for two spin densities. If the caller asks for no beta matrix, it is zero. -/
theorem C66_spins_values (hx : Spec.Usable env fn.x fn.xp) (hc : Spec.Usable env fn.c fn.cp) {m : Nat} {A B : Cube} (hA : Spec.CubeSymm m A) (hAp : Spec.CubePSD m A) (hB : Spec.CubeSymm m B)
    (hBp : Spec.CubePSD m B) (beta : Bool) (elems sched : List SadElem) (hs : sched.Perm elems) (hidx : ∀ e ∈ elems, ∀ i ∈ e.idx, i < m) (hr : ∀ e ∈ elems, ∀ p, e.r p ≠ 0) :
    ∃ s, sadGrid2 env fn A B beta sched = .ok s ∧ s.exc = Spec.senergy2 env fn.x fn.c fn.xp fn.cp fn.thr (elems.flatMap Spec.sadPoints) (Spec.shells A) (Spec.shells B) ∧
      s.nel = Spec.selectrons (elems.flatMap Spec.sadPoints) (Spec.shells A) + Spec.selectrons (elems.flatMap Spec.sadPoints) (Spec.shells B) ∧
      s.Ha.size = A.size ∧ s.Hb.size = B.size ∧ Spec.CubeSymm m s.Ha ∧ Spec.CubeSymm m s.Hb ∧
      (beta = false → ∀ l < B.size, (s.Hb.slice l).Same (Mat.zero m m)) := by
  obtain ⟨s, e, a⟩ := sadGrid2_ok hx hc hA hAp hB hBp beta sched (fun e he => hidx e (hs.mem_iff.1 he)) (fun e he => hr e (hs.mem_iff.1 he))
  have hp := hs.flatMap_right Spec.sadPoints
  refine ⟨s, e, ?_, ?_, a.shapedA.1, a.shapedB.1,
    cube_symm a.shapedA hA.1 (F := sderivA env fn (Spec.shells A) (Spec.shells B)) (fun D x => chan_transpose _ _ _ _ _ _ _) fun D => by rw [a.pairsA, cubePairing_zero, zero_add],
    cube_symm a.shapedB hB.1 (pts := sched.flatMap Spec.sadPoints) (F := fun D x => if beta then sderivB env fn (Spec.shells A) (Spec.shells B) D x else 0) (fun D x => ?_) fun D => ?_, fun hb l hl => ?_⟩
  · rw [a.exc, zero_add, Spec.senergy2, Spec.senergy2, (hp.map _).sum_eq]
  · rw [a.nel, zero_add, Spec.selectrons, Spec.selectrons, Spec.selectrons, Spec.selectrons, (hp.map _).sum_eq, (hp.map _).sum_eq]
  · rcases beta with _ | _
    · rfl
    · exact chan_transpose _ _ _ _ _ _ _
  · rw [a.pairsB, cubePairing_zero, zero_add]
    rcases beta with _ | _ <;> simp
  · have := cube_same (K := ⟨B.size, fun _ => Mat.zero m m⟩) a.shapedB ⟨rfl, fun _ _ => ⟨rfl, rfl⟩⟩ fun D => by
      rw [a.pairsB, hb]
      simp
    exact this.2 l (by rw [this.1]; exact hl)

example : ∃ s, sadGrid2 toy ⟨2, [], 1, [], 0⟩ (two 1 2) (two 1 0) true [toySad] = .ok s ∧ s.nel = 64 * Real.pi := by
  obtain ⟨s, e, _, h, _⟩ := C66_spins_values (env := toy) (fn := ⟨2, [], 1, [], 0⟩) (toy_usable (by norm_num) _ rfl) (toy_usable (by norm_num) _ rfl) (two_symm 1 2)
    (two_psd (by norm_num) (by norm_num)) (two_symm 1 0) (two_psd (by norm_num) le_rfl) true [toySad] [toySad] (List.Perm.refl _) toySad_idx toySad_r
  refine ⟨s, e, ?_⟩
  rw [h]
  simp [Spec.selectrons, Spec.sadPoints, Spec.sadPoint, toySad, List.finRange_succ, Spec.Shells.rho, Spec.sform, Spec.shells, two, one, Finset.sum_range_succ]
  ring

/-- **C66, two spins, derivative.** The alpha and beta Fock matrices are the derivatives of the energy in the two densities; they may have different numbers of shells. Meta-GGA functionals, with or
without the Laplacian, are no exception (compare the atomic grid of C65). -/
theorem C66_spins_derivative (hx : Spec.Usable env fn.x fn.xp) (hc : Spec.Usable env fn.c fn.cp) {m : Nat} {A B DA DB : Cube} (hA : Spec.CubeSymm m A) (hAp : Spec.CubePSD m A)
    (hB : Spec.CubeSymm m B) (hBp : Spec.CubePSD m B) (hDA : ∀ l < A.size, Spec.Symm m (DA.slice l)) (hDB : ∀ l < B.size, Spec.Symm m (DB.slice l)) (elems sched : List SadElem)
    (hs : sched.Perm elems) (hidx : ∀ e ∈ elems, ∀ i ∈ e.idx, i < m) (hr : ∀ e ∈ elems, ∀ p, e.r p ≠ 0)
    (hcon : ∀ x ∈ elems.flatMap Spec.sadPoints, Spec.Consistent2 env fn.x fn.xp fn.thr (Spec.sinputs (Spec.shells A) (Spec.shells B) x) ∧
      Spec.Consistent2 env fn.c fn.cp fn.thr (Spec.sinputs (Spec.shells A) (Spec.shells B) x)) :
    ∃ E : ℝ → ℝ, (∀ t, Spec.CubePSD m (Spec.cubeLine A DA t) → Spec.CubePSD m (Spec.cubeLine B DB t) →
        ∃ s, sadGrid2 env fn (Spec.cubeLine A DA t) (Spec.cubeLine B DB t) true sched = .ok s ∧ s.exc = E t) ∧
      (∀ t, E t = Spec.senergy2 env fn.x fn.c fn.xp fn.cp fn.thr (elems.flatMap Spec.sadPoints) (Spec.shells (Spec.cubeLine A DA t)) (Spec.shells (Spec.cubeLine B DB t))) ∧
      ∃ s, sadGrid2 env fn A B true sched = .ok s ∧ HasDerivAt E (Spec.cubePairing m s.Ha DA + Spec.cubePairing m s.Hb DB) 0 := by
  have hi : ∀ e ∈ sched, ∀ i ∈ e.idx, i < m := fun e he => hidx e (hs.mem_iff.1 he)
  have hr' : ∀ e ∈ sched, ∀ p, e.r p ≠ 0 := fun e he => hr e (hs.mem_iff.1 he)
  have hp := hs.flatMap_right Spec.sadPoints
  refine ⟨fun t => Spec.senergy2 env fn.x fn.c fn.xp fn.cp fn.thr (sched.flatMap Spec.sadPoints) (Spec.shells (Spec.cubeLine A DA t)) (Spec.shells (Spec.cubeLine B DB t)),
    fun t ht ht' => ?_, fun t => ?_, ?_⟩
  · obtain ⟨s, e, a⟩ := sadGrid2_ok hx hc (cubeLine_symm hA hDA t) ht (cubeLine_symm hB hDB t) ht' true sched hi hr'
    exact ⟨s, e, by rw [a.exc, zero_add]⟩
  · simp only [Spec.senergy2, (hp.map _).sum_eq]
  · obtain ⟨s, e, a⟩ := sadGrid2_ok hx hc hA hAp hB hBp true sched hi hr'
    refine ⟨s, e, ?_⟩
    rw [a.pairsA, a.pairsB, cubePairing_zero, cubePairing_zero, zero_add, zero_add, if_pos rfl]
    simp only [cubeLine_shells]
    exact senergy2_deriv _ _ _ _ _ rfl rfl fun x hx => hcon x (hp.mem_iff.1 hx)

example : ∃ E : ℝ → ℝ, (∀ t, Spec.CubePSD 1 (Spec.cubeLine (two 1 2) (two 1 (-1)) t) → Spec.CubePSD 1 (Spec.cubeLine (two 1 1) (two 0 1) t) →
      ∃ s, sadGrid2 toy ⟨2, [], 3, [], 0⟩ (Spec.cubeLine (two 1 2) (two 1 (-1)) t) (Spec.cubeLine (two 1 1) (two 0 1) t) true [toySad] = .ok s ∧ s.exc = E t) ∧
    (∀ t, E t = Spec.senergy2 toy 2 3 [] [] 0 ([toySad].flatMap Spec.sadPoints) (Spec.shells (Spec.cubeLine (two 1 2) (two 1 (-1)) t)) (Spec.shells (Spec.cubeLine (two 1 1) (two 0 1) t))) ∧
    ∃ s, sadGrid2 toy ⟨2, [], 3, [], 0⟩ (two 1 2) (two 1 1) true [toySad] = .ok s ∧ HasDerivAt E (Spec.cubePairing 1 s.Ha (two 1 (-1)) + Spec.cubePairing 1 s.Hb (two 0 1)) 0 :=
  C66_spins_derivative (fn := ⟨2, [], 3, [], 0⟩) (toy_usable (by norm_num) _ rfl) (toy_usable (by norm_num) _ rfl) (two_symm 1 2) (two_psd (by norm_num) (by norm_num)) (two_symm 1 1)
    (two_psd (by norm_num) (by norm_num)) (fun _ _ => one_symm _) (fun _ _ => one_symm _) [toySad] [toySad] (List.Perm.refl _) toySad_idx toySad_r
    fun _ _ => ⟨toy_consistent2 (by norm_num) _ _ _, toy_consistent2 (by norm_num) _ _ _⟩

/-- **C66, alpha alone.** Without the beta matrix, the alpha Fock matrix is still the derivative of the energy in the alpha density. -/
theorem C66_alpha_only (hx : Spec.Usable env fn.x fn.xp) (hc : Spec.Usable env fn.c fn.cp) {m : Nat} {A B : Cube} (hA : Spec.CubeSymm m A) (hAp : Spec.CubePSD m A)
    (hB : Spec.CubeSymm m B) (hBp : Spec.CubePSD m B) (elems sched : List SadElem) (hs : sched.Perm elems) (hidx : ∀ e ∈ elems, ∀ i ∈ e.idx, i < m) (hr : ∀ e ∈ elems, ∀ p, e.r p ≠ 0) :
    ∃ s s', sadGrid2 env fn A B false sched = .ok s ∧ sadGrid2 env fn A B true elems = .ok s' ∧ s.exc = s'.exc ∧ s.nel = s'.nel ∧ s.Ha.size = s'.Ha.size ∧
      ∀ l < s.Ha.size, (s.Ha.slice l).Same (s'.Ha.slice l) := by
  obtain ⟨s', e', a'⟩ := sadGrid2_ok hx hc hA hAp hB hBp true elems hidx hr
  obtain ⟨s, e, a⟩ := sadGrid2_ok hx hc hA hAp hB hBp false sched (fun e he => hidx e (hs.mem_iff.1 he)) (fun e he => hr e (hs.mem_iff.1 he))
  have hp := hs.flatMap_right Spec.sadPoints
  refine ⟨s, s', e, e', ?_, ?_, cube_same a.shapedA a'.shapedA fun D => ?_⟩
  · rw [a.exc, a'.exc, Spec.senergy2, Spec.senergy2, (hp.map _).sum_eq]
  · rw [a.nel, a'.nel, Spec.selectrons, Spec.selectrons, Spec.selectrons, Spec.selectrons, (hp.map _).sum_eq, (hp.map _).sum_eq]
  · rw [a.pairsA, a'.pairsA, (hp.map _).sum_eq]

example : ∃ s s', sadGrid2 toy ⟨2, [], 1, [], 0⟩ (two 1 2) (two 1 0) false [toySad] = .ok s ∧ sadGrid2 toy ⟨2, [], 1, [], 0⟩ (two 1 2) (two 1 0) true [toySad] = .ok s' ∧ s.exc = s'.exc ∧
    s.nel = s'.nel ∧ s.Ha.size = s'.Ha.size ∧ ∀ l < s.Ha.size, (s.Ha.slice l).Same (s'.Ha.slice l) :=
  C66_alpha_only (toy_usable (by norm_num) _ rfl) (toy_usable (by norm_num) _ rfl) (two_symm 1 2) (two_psd (by norm_num) (by norm_num)) (two_symm 1 0) (two_psd (by norm_num) le_rfl) [toySad] [toySad]
    (List.Perm.refl _) toySad_idx toySad_r

/-- **C66, unknown functional.** A functional libxc does not know is refused. -/
theorem C66_unknown {m : Nat} {P : Cube} (hP : Spec.CubeSymm m P) (elems : List SadElem) (h : 0 < fn.x) (hn : env.info fn.x = none) : sadGrid1 env fn P elems = .throw .runtimeError := by
  rw [sadGrid1, sadZero_ok hP, Res.ok_bind]
  simp [checkFlags, either, orRes, gradientNeeded, h, hn]

example : sadGrid1 toy ⟨9, [], 1, [], 0⟩ (two 1 2) [toySad] = .throw .runtimeError := C66_unknown (two_symm 1 2) _ (by norm_num) (by simp [toy])

end XC
end HelFEM
