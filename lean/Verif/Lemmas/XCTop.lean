import Verif.Lemmas.XCGrid2
import Verif.Lemmas.DiaIndex
import Verif.Spec.PadXC

/-!
# Whole runs of the exchange-correlation grids
-/

namespace HelFEM
namespace XC

variable {env : Libxc} {fn : Funcs}

/-- a functional that is in use -/
theorem usesOf_some {id : Int} {i : Info} (h : 0 < id) (hi : env.info id = some i) : usesOf env id = Spec.uses i := by
  simp [usesOf, h, hi]

theorem pairing_zero (m a b : Nat) (D : Mat ℝ) : Spec.pairing m (Mat.zero a b) D = 0 := by
  simp [Spec.pairing, Mat.zero]

/-- two matrices with the same pairings have the same entries -/
theorem entry_of_pairing (m : Nat) (H : Mat ℝ) {i j : Nat} (hi : i < m) (hj : j < m) :
    Spec.pairing m H ⟨m, m, fun a b => if a = i ∧ b = j then 1 else 0⟩ = H.get i j := by
  unfold Spec.pairing
  rw [Finset.sum_eq_single i, Finset.sum_eq_single j]
  · simp
  · intro b _ hb; simp [hb]
  · intro hn; exact absurd (Finset.mem_range.2 hj) hn
  · intro a _ ha; simp [ha]
  · intro hn; exact absurd (Finset.mem_range.2 hi) hn

theorem derivA_transpose (miss : Bool) (A B D : Nat → Nat → ℝ) (x : Spec.Point 3) : derivA env fn miss A B (fun i j => D j i) x = derivA env fn miss A B D x := by
  have h1 : Spec.rho (fun i j => D j i) x = Spec.rho D x := form_transpose _ _ _ _
  have h2 : ∀ c, Spec.grad (fun i j => D j i) x c = Spec.grad D x c := by
    intro c
    simp only [Spec.grad, form_transpose]
    ring
  have h3 : Spec.tau (fun i j => D j i) x = Spec.tau D x := by simp only [Spec.tau, form_transpose]
  have h4 : Spec.lapl (fun i j => D j i) x = Spec.lapl D x := by
    simp only [Spec.lapl, form_transpose]
    ring
  simp only [derivA, h1, h2, h3, h4]

theorem derivB_transpose (miss : Bool) (A B D : Nat → Nat → ℝ) (x : Spec.Point 3) : derivB env fn miss A B (fun i j => D j i) x = derivB env fn miss A B D x := by
  have h1 : Spec.rho (fun i j => D j i) x = Spec.rho D x := form_transpose _ _ _ _
  have h2 : ∀ c, Spec.grad (fun i j => D j i) x c = Spec.grad D x c := by
    intro c
    simp only [Spec.grad, form_transpose]
    ring
  have h3 : Spec.tau (fun i j => D j i) x = Spec.tau D x := by simp only [Spec.tau, form_transpose]
  have h4 : Spec.lapl (fun i j => D j i) x = Spec.lapl D x := by
    simp only [Spec.lapl, form_transpose]
    ring
  simp only [derivB, h1, h2, h3, h4]

/-- the kinetic energy density is evaluated -/
def useTau (env : Libxc) (fn : Funcs) : Bool := (usesOf env fn.x).tau || (usesOf env fn.c).tau
/-- the Laplacian is evaluated -/
def useLapl (env : Libxc) (fn : Funcs) : Bool := (usesOf env fn.x).lapl || (usesOf env fn.c).lapl

theorem useTau_eq : useTau env fn = Spec.anyUses env fn.x fn.c (·.tau) := by
  have h : ∀ id, (usesOf env id).tau = Spec.oneUses env id (·.tau) := by
    intro id
    simp only [usesOf, Spec.oneUses]
    split_ifs
    · cases env.info id <;> rfl
    · rfl
  rw [useTau, h, h]; rfl

theorem useLapl_eq : useLapl env fn = Spec.anyUses env fn.x fn.c (·.lapl) := by
  have h : ∀ id, (usesOf env id).lapl = Spec.oneUses env id (·.lapl) := by
    intro id
    simp only [usesOf, Spec.oneUses]
    split_ifs
    · cases env.info id <;> rfl
    · rfl
  rw [useLapl, h, h]; rfl

theorem atomGrid1_ok (hx : Spec.Usable env fn.x fn.xp) (hc : Spec.Usable env fn.c fn.cp) {m : Nat} (hm : 0 < m) {P : Mat ℝ} (hP : Spec.Symm m P) (elems : List AtomElem)
    (hidx : ∀ e ∈ elems, ∀ i ∈ e.idx, i < m) :
    ∃ s, atomGrid1 env fn P elems = .ok s ∧ Adds env fn m P.get (useTau env fn) (elems.flatMap Spec.atomPoints) ⟨0, 0, 0, Mat.zero m m⟩ s := by
  obtain ⟨fl, hfl, hcx, hcc, ht, hl⟩ := checkFlags_ok env hx hc
  obtain ⟨s, hs, ha⟩ := fold_adds (env := env) (fn := fn) (tau := fl.tau) (atomStep1 env fn fl P) Spec.atomPoints elems
    (fun e he s h1 h2 => atomStep1_ok hx hc hcx hcc ht hl hm hP e (hidx e he) s h1 h2) ⟨0, 0, 0, Mat.zero m m⟩ rfl rfl
  rw [ht] at ha
  refine ⟨s, ?_, ha⟩
  rw [atomGrid1, hfl, Res.ok_bind, hP.1, hs]

theorem Adds.symm {m : Nat} {P : Nat → Nat → ℝ} {b : Bool} {pts : List (Spec.Point 3)} {e n k : ℝ} {s : Tot1} (h : Adds env fn m P b pts ⟨e, n, k, Mat.zero m m⟩ s) : Spec.Symm m s.H := by
  refine symm_of_pairing m s.H h.rows h.cols fun D => ?_
  rw [h.pairs, h.pairs, pairing_zero, pairing_zero]
  simp only [funext fun x => deriv1_transpose env fn P D.get x]

theorem Adds2.symm {m : Nat} {A B : Nat → Nat → ℝ} {b be miss : Bool} {pts : List (Spec.Point 3)} {e n k : ℝ} {s : Tot2}
    (h : Adds2 env fn m A B b be miss pts ⟨e, n, k, Mat.zero m m, Mat.zero m m⟩ s) : Spec.Symm m s.Ha ∧ Spec.Symm m s.Hb := by
  refine ⟨symm_of_pairing m s.Ha h.rowsA h.colsA fun D => ?_, symm_of_pairing m s.Hb h.rowsB h.colsB fun D => ?_⟩
  · rw [h.pairsA, h.pairsA, pairing_zero, pairing_zero]
    simp only [funext fun x => derivA_transpose (env := env) (fn := fn) miss A B D.get x]
  · rw [h.pairsB, h.pairsB, pairing_zero, pairing_zero]
    simp only [funext fun x => derivB_transpose (env := env) (fn := fn) miss A B D.get x]

/-- the order of the points does not matter -/
theorem Adds.perm {m : Nat} {P : Nat → Nat → ℝ} {b : Bool} {p q : List (Spec.Point 3)} (hpq : p.Perm q) {s0 s s' : Tot1} (h : Adds env fn m P b p s0 s) (h' : Adds env fn m P b q s0 s') :
    s'.exc = s.exc ∧ s'.nel = s.nel ∧ s'.ekin = s.ekin ∧ s'.H.Same s.H := by
  refine ⟨?_, ?_, ?_, ?_, ?_, ?_⟩
  · rw [h.exc, h'.exc]; simp only [Spec.energy]; rw [(hpq.map _).sum_eq]
  · rw [h.nel, h'.nel]; simp only [Spec.electrons]; rw [(hpq.map _).sum_eq]
  · rw [h.ekin, h'.ekin]; simp only [Spec.kinetic]; rw [(hpq.map _).sum_eq]
  · rw [h.rows, h'.rows]
  · rw [h.cols, h'.cols]
  · intro i hi j hj
    rw [h'.rows] at hi
    rw [h'.cols] at hj
    rw [← entry_of_pairing m s'.H hi hj, ← entry_of_pairing m s.H hi hj, h.pairs, h'.pairs, (hpq.map _).sum_eq]

theorem Adds2.perm {m : Nat} {A B : Nat → Nat → ℝ} {b be miss : Bool} {p q : List (Spec.Point 3)} (hpq : p.Perm q) {s0 s s' : Tot2} (h : Adds2 env fn m A B b be miss p s0 s)
    (h' : Adds2 env fn m A B b be miss q s0 s') : s'.exc = s.exc ∧ s'.nel = s.nel ∧ s'.ekin = s.ekin ∧ s'.Ha.Same s.Ha ∧ s'.Hb.Same s.Hb := by
  refine ⟨?_, ?_, ?_, ⟨?_, ?_, ?_⟩, ⟨?_, ?_, ?_⟩⟩
  · rw [h.exc, h'.exc]; simp only [Spec.energy2]; rw [(hpq.map _).sum_eq]
  · rw [h.nel, h'.nel]; simp only [Spec.electrons]; rw [(hpq.map _).sum_eq, (hpq.map _).sum_eq]
  · rw [h.ekin, h'.ekin]; simp only [Spec.kinetic]; rw [(hpq.map _).sum_eq, (hpq.map _).sum_eq]
  · rw [h.rowsA, h'.rowsA]
  · rw [h.colsA, h'.colsA]
  · intro i hi j hj
    rw [h'.rowsA] at hi
    rw [h'.colsA] at hj
    rw [← entry_of_pairing m s'.Ha hi hj, ← entry_of_pairing m s.Ha hi hj, h.pairsA, h'.pairsA, (hpq.map _).sum_eq]
  · rw [h.rowsB, h'.rowsB]
  · rw [h.colsB, h'.colsB]
  · intro i hi j hj
    rw [h'.rowsB] at hi
    rw [h'.colsB] at hj
    rw [← entry_of_pairing m s'.Hb hi hj, ← entry_of_pairing m s.Hb hi hj, h.pairsB, h'.pairsB, (hpq.map _).sum_eq]

theorem atomGrid2_ok (hx : Spec.Usable env fn.x fn.xp) (hc : Spec.Usable env fn.c fn.cp) {m : Nat} (hm : 0 < m) {A B : Mat ℝ} (hA : Spec.Symm m A) (hB : Spec.Symm m B) (beta : Bool)
    (hbl : useLapl env fn = true → beta = true) (elems : List AtomElem) (hidx : ∀ e ∈ elems, ∀ i ∈ e.idx, i < m) :
    ∃ s, atomGrid2 env fn A B beta elems = .ok s ∧
      Adds2 env fn m A.get B.get (useTau env fn) beta (useLapl env fn && !useTau env fn) (elems.flatMap Spec.atomPoints) ⟨0, 0, 0, Mat.zero m m, Mat.zero m m⟩ s := by
  obtain ⟨fl, hfl, hcx, hcc, ht, hl⟩ := checkFlags_ok env hx hc
  obtain ⟨s, hs, ha⟩ := fold_adds2 (env := env) (fn := fn) (tau := fl.tau) (beta := beta) (miss := fl.lapl && !fl.tau) (atomStep2 env fn fl A B beta) Spec.atomPoints elems
    (fun e he s h1 h2 h3 h4 => atomStep2_ok hx hc hcx hcc ht hl hm hA hB beta (fun h => hbl (hl.symm.trans h)) e (hidx e he) s h1 h2 h3 h4)
    ⟨0, 0, 0, Mat.zero m m, Mat.zero m m⟩ rfl rfl rfl rfl
  rw [ht, hl] at ha
  refine ⟨s, ?_, ha⟩
  rw [atomGrid2, hfl, Res.ok_bind, hA.1, hB.1, hs]

/-! ### Padding -/

section pad
open Dia Sym
variable (lm : List (Int × Int)) (nrad : Nat)

theorem physical_list : Spec.functions lm nrad = pureIndices lm nrad := by
  have h1 : (Spec.functions lm nrad).Pairwise (· < ·) := List.Pairwise.filter _ List.pairwise_lt_range
  have h2 := pure_sorted lm nrad
  refine List.Perm.eq_of_pairwise (le := (· < ·)) (fun a b _ _ h h' => absurd (lt_trans h h') (lt_irrefl _)) h1 h2 ?_
  refine (List.perm_ext_iff_of_nodup (h1.imp fun h => Nat.ne_of_lt h) (h2.imp fun h => Nat.ne_of_lt h)).2 fun k => ?_
  simp only [Spec.functions, List.mem_filter, List.mem_range, decide_eq_true_eq]
  exact ⟨fun h => (mem_pure lm nrad k).2 h.2, fun h => ⟨physical_lt lm nrad k ((mem_pure lm nrad k).1 h), (mem_pure lm nrad k).1 h⟩⟩

theorem expand_padded (P : Mat ℝ) (hr : P.rows = (Spec.functions lm nrad).length) (hc : P.cols = (Spec.functions lm nrad).length) :
    ∃ E, expandBoundaries lm nrad P = .ok E ∧ E.rows = lm.length * nrad ∧ E.cols = lm.length * nrad ∧ E.get = Spec.padded lm nrad P := by
  rw [physical_list] at hr hc
  obtain ⟨E, e, r, c, h1, h2⟩ := expand_ok lm nrad P hr hc
  refine ⟨E, e, r, c, ?_⟩
  funext a b
  unfold Spec.padded
  rw [physical_list]
  split_ifs with h
  · have key : ∀ a ∈ pureIndices lm nrad, (pureIndices lm nrad).getD ((pureIndices lm nrad).idxOf a) 0 = a := by
      intro a ha
      rw [getD_lt _ _ (List.idxOf_lt_length_iff.2 ha), List.getElem_idxOf]
    have := h1 _ (List.idxOf_lt_length_iff.2 h.1) _ (List.idxOf_lt_length_iff.2 h.2)
    rw [key a h.1, key b h.2] at this
    exact this
  · refine h2 a b fun h' => h ⟨(mem_pure _ _ _).2 h'.1, (mem_pure _ _ _).2 h'.2⟩

theorem padded_getD (P : Mat ℝ) {i j : Nat} (hi : i < (pureIndices lm nrad).length) (hj : j < (pureIndices lm nrad).length) :
    Spec.padded lm nrad P ((pureIndices lm nrad).getD i 0) ((pureIndices lm nrad).getD j 0) = P.get i j := by
  unfold Spec.padded
  rw [physical_list, getD_lt _ _ hi, getD_lt _ _ hj, if_pos ⟨List.getElem_mem hi, List.getElem_mem hj⟩, (pure_nodup lm nrad).idxOf_getElem, (pure_nodup lm nrad).idxOf_getElem]

theorem padded_symm {P : Mat ℝ} (h : Spec.Symm (Spec.functions lm nrad).length P) (a b : Nat) : Spec.padded lm nrad P a b = Spec.padded lm nrad P b a := by
  unfold Spec.padded
  by_cases h' : a ∈ Spec.functions lm nrad ∧ b ∈ Spec.functions lm nrad
  · rw [if_pos h', if_pos h'.symm]
    exact h.2.2 _ (List.idxOf_lt_length_iff.2 h'.1) _ (List.idxOf_lt_length_iff.2 h'.2)
  · rw [if_neg h', if_neg fun h => h' h.symm]

theorem padded_line (P D : Mat ℝ) (t : ℝ) : Spec.padded lm nrad (Spec.line P D t) = fun i j => Spec.padded lm nrad P i j + t * Spec.padded lm nrad D i j := by
  funext a b
  unfold Spec.padded Spec.line
  split_ifs
  · rfl
  · simp

/-- a sum over the padded functions that vanishes off the physical ones -/
theorem sum_padded (F : Nat → ℝ) (h : ∀ a, a ∉ pureIndices lm nrad → F a = 0) :
    ∑ a ∈ Finset.range (lm.length * nrad), F a = ∑ i ∈ Finset.range (pureIndices lm nrad).length, F ((pureIndices lm nrad).getD i 0) := by
  rw [← Finset.sum_image (s := Finset.range (pureIndices lm nrad).length) (g := fun i => (pureIndices lm nrad).getD i 0) (f := F)]
  · symm
    refine Finset.sum_subset ?_ ?_
    · intro a ha
      obtain ⟨i, hi, rfl⟩ := Finset.mem_image.1 ha
      exact Finset.mem_range.2 (pure_getD_lt lm nrad i (Finset.mem_range.1 hi))
    · intro a _ ha
      refine h a fun hm => ha ?_
      obtain ⟨i, hi, e⟩ := List.getElem_of_mem hm
      exact Finset.mem_image.2 ⟨i, Finset.mem_range.2 hi, by rw [getD_lt _ _ hi]; exact e⟩
  · intro i hi j hj h
    exact pure_inj lm nrad (Finset.mem_range.1 hi) (Finset.mem_range.1 hj) h

theorem remove_pairing (F : Mat ℝ) (hr : F.rows = lm.length * nrad) (hc : F.cols = lm.length * nrad) :
    ∃ G, removeBoundaries lm nrad F = .ok G ∧ G.rows = (Spec.functions lm nrad).length ∧ G.cols = (Spec.functions lm nrad).length ∧
      (∀ i j, G.get i j = F.get ((pureIndices lm nrad).getD i 0) ((pureIndices lm nrad).getD j 0)) ∧
      ∀ D : Mat ℝ, Spec.pairing (Spec.functions lm nrad).length G D = Spec.pairing (lm.length * nrad) F ⟨0, 0, Spec.padded lm nrad D⟩ := by
  unfold removeBoundaries
  rw [if_neg (by rw [hr, hc]; simp [nDummy]), physical_list]
  refine ⟨_, rfl, rfl, rfl, fun _ _ => rfl, fun D => ?_⟩
  unfold Spec.pairing
  have hz : ∀ a b, a ∉ pureIndices lm nrad ∨ b ∉ pureIndices lm nrad → Spec.padded lm nrad D a b = 0 := by
    intro a b h
    unfold Spec.padded
    rw [physical_list, if_neg]
    tauto
  rw [sum_padded lm nrad _ fun a ha => Finset.sum_eq_zero fun b _ => by simp only [hz a b (Or.inl ha), mul_zero]]
  refine Finset.sum_congr rfl fun i hi => ?_
  rw [sum_padded lm nrad _ fun b hb => by simp only [hz _ b (Or.inr hb), mul_zero]]
  refine Finset.sum_congr rfl fun j hj => ?_
  simp only
  rw [padded_getD lm nrad D (Finset.mem_range.1 hi) (Finset.mem_range.1 hj)]

variable {lm nrad}

theorem symm_expand {P E : Mat ℝ} (h : Spec.Symm (Spec.functions lm nrad).length P) (r : E.rows = lm.length * nrad) (c : E.cols = lm.length * nrad) (g : E.get = Spec.padded lm nrad P) :
    Spec.Symm (lm.length * nrad) E := ⟨r, c, fun i _ j _ => by rw [g]; exact padded_symm lm nrad h i j⟩

theorem diaGrid1_ok (hx : Spec.Usable env fn.x fn.xp) (hc : Spec.Usable env fn.c fn.cp) (hl : useLapl env fn = false) (hm : 0 < lm.length * nrad) {P : Mat ℝ}
    (hP : Spec.Symm (Spec.functions lm nrad).length P) (pts : List DiaPoint) (hidx : ∀ e ∈ pts, ∀ i ∈ e.idx, i < lm.length * nrad) :
    ∃ s, diaGrid1 env lm nrad fn P pts = .ok s ∧ s.exc = Spec.energy env fn.x fn.c fn.xp fn.cp fn.thr (pts.flatMap Spec.diaPoints) (Spec.padded lm nrad P) ∧
      s.nel = Spec.electrons (pts.flatMap Spec.diaPoints) (Spec.padded lm nrad P) ∧
      (s.ekin = if useTau env fn then Spec.kinetic (pts.flatMap Spec.diaPoints) (Spec.padded lm nrad P) else 0) ∧ Spec.Symm (Spec.functions lm nrad).length s.H ∧
      ∀ D : Mat ℝ, Spec.pairing (Spec.functions lm nrad).length s.H D =
        ((pts.flatMap Spec.diaPoints).map (deriv1 env fn (Spec.padded lm nrad P) (Spec.padded lm nrad D))).sum := by
  obtain ⟨fl, hfl, hcx, hcc, ht, hl'⟩ := checkFlags_ok env hx hc
  obtain ⟨E, hE, er, ec, eg⟩ := expand_padded lm nrad P hP.1 hP.2.1
  obtain ⟨s, hs, ha⟩ := fold_adds (env := env) (fn := fn) (tau := fl.tau) (diaStep1 env fn fl E) Spec.diaPoints pts
    (fun e he s h1 h2 => diaStep1_ok hx hc hcx hcc ht hl' hm (symm_expand hP er ec eg) (hl'.trans hl) e (hidx e he) s h1 h2) ⟨0, 0, 0, Mat.zero (lm.length * nrad) (lm.length * nrad)⟩ rfl rfl
  rw [ht, eg] at ha
  obtain ⟨G, hG, gr, gc, gg, gp⟩ := remove_pairing lm nrad s.H ha.rows ha.cols
  refine ⟨⟨s.exc, s.nel, s.ekin, G⟩, ?_, ?_, ?_, ?_, ?_, ?_⟩
  · rw [diaGrid1, hfl, Res.ok_bind, hE, Res.ok_bind]
    have hs' : pts.foldlM (diaStep1 env fn fl E) ⟨0, 0, 0, Mat.zero (nDummy lm nrad) (nDummy lm nrad)⟩ = .ok s := hs
    rw [hs', Res.ok_bind, hG, Res.ok_bind]
  · rw [ha.exc]; simp
  · rw [ha.nel]; simp
  · rw [ha.ekin, zero_add]; rfl
  · refine ⟨gr, gc, fun i hi j hj => ?_⟩
    simp only
    rw [physical_list] at hi hj
    rw [gg, gg]
    exact ha.symm.2.2 _ (pure_getD_lt lm nrad i hi) _ (pure_getD_lt lm nrad j hj)
  · intro D
    simp only
    rw [gp, ha.pairs, pairing_zero, zero_add]

theorem diaGrid2_ok (hx : Spec.Usable env fn.x fn.xp) (hc : Spec.Usable env fn.c fn.cp) (hl : useLapl env fn = false) (hm : 0 < lm.length * nrad) {A B : Mat ℝ}
    (hA : Spec.Symm (Spec.functions lm nrad).length A) (hB : Spec.Symm (Spec.functions lm nrad).length B) (beta : Bool) (pts : List DiaPoint) (hidx : ∀ e ∈ pts, ∀ i ∈ e.idx, i < lm.length * nrad) :
    ∃ s, diaGrid2 env lm nrad fn A B beta pts = .ok s ∧
      s.exc = Spec.energy2 env fn.x fn.c fn.xp fn.cp fn.thr (pts.flatMap Spec.diaPoints) (Spec.padded lm nrad A) (Spec.padded lm nrad B) ∧
      s.nel = Spec.electrons (pts.flatMap Spec.diaPoints) (Spec.padded lm nrad A) + Spec.electrons (pts.flatMap Spec.diaPoints) (Spec.padded lm nrad B) ∧
      (s.ekin = if useTau env fn then Spec.kinetic (pts.flatMap Spec.diaPoints) (Spec.padded lm nrad A) + Spec.kinetic (pts.flatMap Spec.diaPoints) (Spec.padded lm nrad B) else 0) ∧
      Spec.Symm (Spec.functions lm nrad).length s.Ha ∧ Spec.Symm (Spec.functions lm nrad).length s.Hb ∧
      (∀ D : Mat ℝ, Spec.pairing (Spec.functions lm nrad).length s.Ha D =
        ((pts.flatMap Spec.diaPoints).map (derivA env fn false (Spec.padded lm nrad A) (Spec.padded lm nrad B) (Spec.padded lm nrad D))).sum) ∧
      ∀ D : Mat ℝ, Spec.pairing (Spec.functions lm nrad).length s.Hb D =
        if beta then ((pts.flatMap Spec.diaPoints).map (derivB env fn false (Spec.padded lm nrad A) (Spec.padded lm nrad B) (Spec.padded lm nrad D))).sum else 0 := by
  obtain ⟨fl, hfl, hcx, hcc, ht, hl'⟩ := checkFlags_ok env hx hc
  obtain ⟨E, hE, er, ec, eg⟩ := expand_padded lm nrad A hA.1 hA.2.1
  obtain ⟨E', hE', er', ec', eg'⟩ := expand_padded lm nrad B hB.1 hB.2.1
  obtain ⟨s, hs, ha⟩ := fold_adds2 (env := env) (fn := fn) (tau := fl.tau) (beta := beta) (miss := false) (diaStep2 env fn fl E E' beta) Spec.diaPoints pts
    (fun e he s h1 h2 h3 h4 => diaStep2_ok hx hc hcx hcc ht hl' hm (symm_expand hA er ec eg) (symm_expand hB er' ec' eg') beta (hl'.trans hl) e (hidx e he) s h1 h2 h3 h4)
    ⟨0, 0, 0, Mat.zero (lm.length * nrad) (lm.length * nrad), Mat.zero (lm.length * nrad) (lm.length * nrad)⟩ rfl rfl rfl rfl
  rw [ht, eg, eg'] at ha
  obtain ⟨G, hG, gr, gc, gg, gp⟩ := remove_pairing lm nrad s.Ha ha.rowsA ha.colsA
  obtain ⟨G', hG', gr', gc', gg', gp'⟩ := remove_pairing lm nrad s.Hb ha.rowsB ha.colsB
  refine ⟨⟨s.exc, s.nel, s.ekin, G, G'⟩, ?_, ?_, ?_, ?_, ?_, ?_, ?_, ?_⟩
  · rw [diaGrid2, hfl, Res.ok_bind, hE, Res.ok_bind, hE', Res.ok_bind]
    have hs' : pts.foldlM (diaStep2 env fn fl E E' beta) ⟨0, 0, 0, Mat.zero (nDummy lm nrad) (nDummy lm nrad), Mat.zero (nDummy lm nrad) (nDummy lm nrad)⟩ = .ok s := hs
    rw [hs', Res.ok_bind, hG, Res.ok_bind, hG', Res.ok_bind]
  · rw [ha.exc]; simp
  · rw [ha.nel]; simp
  · rw [ha.ekin, zero_add]; rfl
  · refine ⟨gr, gc, fun i hi j hj => ?_⟩
    simp only
    rw [physical_list] at hi hj
    rw [gg, gg]
    exact ha.symm.1.2.2 _ (pure_getD_lt lm nrad i hi) _ (pure_getD_lt lm nrad j hj)
  · refine ⟨gr', gc', fun i hi j hj => ?_⟩
    simp only
    rw [physical_list] at hi hj
    rw [gg', gg']
    exact ha.symm.2.2.2 _ (pure_getD_lt lm nrad i hi) _ (pure_getD_lt lm nrad j hj)
  · intro D
    simp only
    rw [gp, ha.pairsA, pairing_zero, zero_add]
  · intro D
    simp only
    rw [gp', ha.pairsB, pairing_zero, zero_add]

end pad

end XC
end HelFEM
