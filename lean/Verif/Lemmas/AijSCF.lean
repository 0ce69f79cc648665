import Verif.Spec.AijSCF
import Verif.Lemmas.SadFock

/-!
# The builders of an atom in jellium as those of the spherically averaged atom
-/

namespace HelFEM
namespace Aij

open Matrix Finset XC AtomJK SadSCF

variable {j : Job}

theorem flags_clamp (env : Libxc) (x c : Int) : checkFlags env (max x 0) (max c 0) = checkFlags env x c := by
  have h : ∀ f : Int → Res Bool, either f (max x 0) (max c 0) = either f x c := fun f => by
    unfold either
    rcases lt_or_ge 0 x with hx | hx <;> rcases lt_or_ge 0 c with hc | hc
    · rw [max_eq_left hx.le, max_eq_left hc.le]
    · rw [max_eq_left hx.le, max_eq_right hc]
      simp [not_lt.2 hc]
    · rw [max_eq_right hx, max_eq_left hc.le]
      simp [not_lt.2 hx]
    · rw [max_eq_right hx, max_eq_right hc]
      simp [not_lt.2 hx, not_lt.2 hc]
  unfold checkFlags
  rw [h, h, h]

theorem both1_clamp {d N : Nat} (env : Libxc) (x c : Int) (xp cp : List ℝ) (thr : ℝ) (q : Dens1 d N) (a : Acc1 N) :
    computeBoth1 env (max x 0) (max c 0) xp cp thr q a = computeBoth1 env x c xp cp thr q a := by
  unfold computeBoth1
  rcases lt_or_ge 0 x with hx | hx <;> rcases lt_or_ge 0 c with hc | hc
  · rw [max_eq_left hx.le, max_eq_left hc.le]
  · rw [max_eq_left hx.le, max_eq_right hc]
    simp [not_lt.2 hc]
  · rw [max_eq_right hx, max_eq_left hc.le]
    simp [not_lt.2 hx]
  · rw [max_eq_right hx, max_eq_right hc]
    simp [not_lt.2 hx, not_lt.2 hc]

theorem both2_clamp {d N : Nat} (env : Libxc) (x c : Int) (xp cp : List ℝ) (thr : ℝ) (q : Dens2 d N) (a : Acc2 N) :
    computeBoth2 env (max x 0) (max c 0) xp cp thr q a = computeBoth2 env x c xp cp thr q a := by
  unfold computeBoth2
  rcases lt_or_ge 0 x with hx | hx <;> rcases lt_or_ge 0 c with hc | hc
  · rw [max_eq_left hx.le, max_eq_left hc.le]
  · rw [max_eq_left hx.le, max_eq_right hc]
    simp [not_lt.2 hc]
  · rw [max_eq_right hx, max_eq_left hc.le]
    simp [not_lt.2 hx]
  · rw [max_eq_right hx, max_eq_right hc]
    simp [not_lt.2 hx, not_lt.2 hc]

theorem grid1_clamp (env : Libxc) (fn : Funcs) (P : Cube) (elems : List SadElem) : sadGrid1 env { fn with x := max fn.x 0, c := max fn.c 0 } P elems = sadGrid1 env fn P elems := by
  have h : sadStep1 env { fn with x := max fn.x 0, c := max fn.c 0 } = sadStep1 env fn := by
    funext fl P s e
    unfold sadStep1
    simp only [both1_clamp]
  unfold sadGrid1
  rw [h]
  simp only [flags_clamp]

theorem grid2_clamp (env : Libxc) (fn : Funcs) (A B : Cube) (beta : Bool) (elems : List SadElem) :
    sadGrid2 env { fn with x := max fn.x 0, c := max fn.c 0 } A B beta elems = sadGrid2 env fn A B beta elems := by
  have h : sadStep2 env { fn with x := max fn.x 0, c := max fn.c 0 } = sadStep2 env fn := by
    funext fl A B beta s e
    unfold sadStep2
    simp only [both2_clamp]
  unfold sadGrid2
  rw [h]
  simp only [flags_clamp]

theorem haveXC_iff (r : Bool) : (Spec.atom j r).haveXC ↔ j.hasXC := by
  show (max j.s.fn.x 0 ≠ 0 ∨ max j.s.fn.c 0 ≠ 0) ↔ (0 < j.s.fn.x ∨ 0 < j.s.fn.c)
  omega

theorem not_haveExx (r : Bool) : ¬ (Spec.atom j r).haveExx := by
  rintro (h | h) <;> exact h rfl

theorem xcOne_eq (r : Bool) (sch : Sched) (a : Chan j.s.N) : xcOne j sch a = xcR (Spec.atom j r) sch a := by
  unfold xcOne xcR
  simp only [haveXC_iff]
  split
  · show _ = (sadGrid1 j.s.env { j.s.fn with x := max j.s.fn.x 0, c := max j.s.fn.c 0 } _ _ >>= _)
    rw [grid1_clamp]
    rfl
  · rfl

theorem xcTwo_eq (r : Bool) (sch : Sched) (a b : Chan j.s.N) : xcTwo j sch a b = xcU (Spec.atom j r) sch a b := by
  unfold xcTwo xcU
  simp only [haveXC_iff]
  split
  · show _ = (sadGrid2 j.s.env { j.s.fn with x := max j.s.fn.x 0, c := max j.s.fn.c 0 } _ _ _ _ >>= _)
    rw [grid2_clamp]
    rfl
  · rfl

theorem block_eq (r : Bool) (J : Matrix (Fin j.s.N) (Fin j.s.N) ℝ) (xc : Cube) (l : Nat) (p q : Prop) [Decidable p] [Decidable q] (hp : p ↔ j.hasXC) (hq : ¬ q) (K : List (Matrix (Fin j.s.N) (Fin j.s.N) ℝ)) :
    block j J xc l = fockBlock (Spec.atom j r) J l xc p K q := by
  have e : (if 0 < l then j.s.T + j.s.Vnuc + J + j.s.Vconf + (l * (l + 1) : ℝ) • j.s.Tl else j.s.T + j.s.Vnuc + J + j.s.Vconf) = j.s.T + (l * (l + 1) : ℝ) • j.s.Tl + j.s.Vnuc + j.s.Vconf + J := by
    split
    · abel
    · have : l = 0 := by omega
      subst this
      simp only [Nat.cast_zero, zero_mul, zero_smul]
      abel
  show _ = ((if p then (xcAt (Spec.atom j r) xc l >>= fun H => .ok ((if 0 < l then j.s.T + j.s.Vnuc + J + j.s.Vconf + (l * (l + 1) : ℝ) • j.s.Tl else j.s.T + j.s.Vnuc + J + j.s.Vconf) + H))
    else .ok (if 0 < l then j.s.T + j.s.Vnuc + J + j.s.Vconf + (l * (l + 1) : ℝ) • j.s.Tl else j.s.T + j.s.Vnuc + J + j.s.Vconf)) >>= fun F =>
      (if q then (readAt K l >>= fun A => Res.ok (F + A)) else .ok F) >>= fun F => .ok (j.s.Xᵀ * F * j.s.X))
  rw [e]
  unfold block
  simp only [hp, if_neg hq, Res.ok_bind]
  rfl

theorem accR_eq (r : Bool) (a : Chan j.s.N) (E : ℝ) (l : Nat) (o : Dens.Orbs j.s.M) : accR j a E l o = accDensity (Spec.atom j r) a E l o := by
  unfold accR accDensity
  split
  · rfl
  split
  · rfl
  show Res.ok (_, _) = Res.ok (_, _)
  congr 2
  split
  · show _ = E + (shellDensity j.s o * j.s.T).trace + _
    rw [add_assoc]
    rfl
  · have : l = 0 := by omega
    subst this
    simp only [Nat.cast_zero, zero_mul, add_zero]
    rfl

theorem densR_eq (r : Bool) (dm : List (Dens.Orbs j.s.M)) : densR j dm = gatherR (Spec.atom j r) dm := by
  unfold densR gatherR
  have : (fun (st : Chan j.s.N × ℝ) l => readAt dm l >>= accR j st.1 st.2 l) = fun (st : Chan j.s.N × ℝ) l => readAt dm l >>= accDensity (Spec.atom j r) st.1 st.2 l := by
    funext st l
    congr 1
    funext o
    exact accR_eq r _ _ _ _
  rw [this]
  rfl

/-- the constants added to what the builder of the atom returns -/
noncomputable def shift (j : Job) {α : Type} (x : ℝ × α) : ℝ × α := (x.1 + j.Enucfield + j.Erep, x.2)

open Classical in
theorem builderR_eq {c : Caches} {k : SadSCF.Spec.Kernels} (hk : SadSCF.Spec.Represents (Spec.atom j true) c k) (sch : Sched) (dm : List (Dens.Orbs j.s.M)) :
    builderR j c sch dm = buildFock (Spec.atom j true) c sch dm >>= fun x => .ok (shift j x) := by
  unfold builderR buildFock
  rw [if_pos (show (Spec.atom j true).restricted = true from rfl), densR_eq true]
  unfold buildR
  cases hg : gatherR (Spec.atom j true) dm with
  | ub => rfl
  | throw e => rfl
  | ok a =>
    have hJ : coulombJ j.s c a.1.P = .ok (jMat k.q a.1.P) := coulombJ_ok hk a.1.P
    have hJ' : coulombJ (Spec.atom j true) c a.1.P = .ok (jMat k.q a.1.P) := coulombJ_ok hk a.1.P
    rw [Res.ok_bind, Res.ok_bind, hJ, Res.ok_bind, xcOne_eq true]
    cases hx : xcR (Spec.atom j true) sch a.1 with
    | ub => rfl
    | throw e => rfl
    | ok xc =>
      rw [Res.ok_bind, Res.ok_bind, hJ', Res.ok_bind]
      unfold exxR
      rw [if_neg (not_haveExx true), Res.ok_bind]
      have hb : block j (jMat k.q a.1.P) xc.1 = fun l => fockBlock (Spec.atom j true) (jMat k.q a.1.P) l xc.1 (Spec.atom j true).haveXC [] (Spec.atom j true).haveExx :=
        funext fun l => block_eq true _ _ _ _ _ (haveXC_iff true) (not_haveExx true) _
      rw [hb]
      show ((List.range (Spec.atom j true).nblock).mapM _ >>= _) = _
      cases (List.range (Spec.atom j true).nblock).mapM fun l => fockBlock (Spec.atom j true) (jMat k.q a.1.P) l xc.1 (Spec.atom j true).haveXC [] (Spec.atom j true).haveExx with
      | ub => rfl
      | throw e => rfl
      | ok F =>
        rw [Res.ok_bind, Res.ok_bind, Res.ok_bind]
        unfold shift potential
        congr 2
        show _ = a.2 + ((a.1.P * j.s.Vnuc).trace + (a.1.P * j.s.Vconf).trace) + 0.5 * (a.1.P * jMat k.q a.1.P).trace + xc.2 + 0 + j.Enucfield + j.Erep
        ring

/-! ### Two spins -/

/-- the beta orbitals the builder sees: none where there are no alpha electrons -/
noncomputable def seen (oa ob : Nat → Dens.Orbs j.s.M) : Nat → Dens.Orbs j.s.M := by
  classical exact fun l => if Spec.Empty (oa l) then oa l else ob l

theorem empty_abs {M : Nat} (o : Dens.Orbs M) : (∀ i, |o.occ i| = 0) ↔ Spec.Empty o := by simp only [abs_eq_zero, Spec.Empty]

theorem seen_ind (Q : Dens.Orbs j.s.M → Prop) {oa ob : Nat → Dens.Orbs j.s.M} {l : Nat} (ha : Q (oa l)) (hb : Q (ob l)) : Q (seen (j := j) oa ob l) := by
  unfold seen
  split
  · exact ha
  · exact hb

theorem density_empty {N M : Nat} (X : Matrix (Fin N) (Fin M) ℝ) (o : Dens.Orbs M) (h : Spec.Empty o) : SadSCF.Spec.density X o = 0 := density_zero X o ((empty_abs o).2 h)

theorem holds_ext {s : Setup} {D : Nat → Matrix (Fin s.N) (Fin s.N) ℝ} {n : Nat} {a b : Chan s.N} (ha : Holds s D n a) (hb : Holds s D n b) : a = b := by
  obtain ⟨P, Pl⟩ := a
  obtain ⟨Q, Ql⟩ := b
  have h1 : P = Q := ha.1.trans hb.1.symm
  have h2 : Pl = Ql := funext fun l => (ha.2 l).trans (hb.2 l).symm
  rw [h1, h2]

theorem holds_step {s : Setup} {D : Nat → Matrix (Fin s.N) (Fin s.N) ℝ} {n : Nat} {a : Chan s.N} (h : Holds s D n a) (P : Matrix (Fin s.N) (Fin s.N) ℝ) (hP : P = D n) :
    Holds s D (n + 1) ⟨a.P + P, Function.update a.Pl n P⟩ := by
  subst hP
  refine ⟨by rw [sum_range_succ, ← h.1], fun l => ?_⟩
  simp only [Function.update_apply]
  split
  · rename_i e
    subst e
    rw [if_pos (by omega)]
  · rw [h.2 l]
    rcases Nat.lt_or_ge l n with h1 | h1
    · rw [if_pos h1, if_pos (by omega)]
    · rw [if_neg (by omega), if_neg (by omega)]

theorem holds_zero {s : Setup} {D : Nat → Matrix (Fin s.N) (Fin s.N) ℝ} {n : Nat} {a : Chan s.N} (h : Holds s D n a) (h0 : D n = 0) : Holds s D (n + 1) a := by
  have := holds_step h 0 h0.symm
  refine ⟨by rw [sum_range_succ, h0, add_zero, h.1], fun l => ?_⟩
  rw [h.2 l]
  rcases lt_trichotomy l n with h1 | rfl | h1
  · rw [if_pos h1, if_pos (by omega)]
  · rw [if_neg (by omega), if_pos (by omega), h0]
  · rw [if_neg (by omega), if_neg (by omega)]

theorem densU_ok (dm : List (Dens.Orbs j.s.M)) (oa ob : Nat → Dens.Orbs j.s.M) (ha : ∀ l < j.s.lmax + 1, readAt dm l = .ok (oa l)) (hb : ∀ l < j.s.lmax + 1, readAt dm (l + j.s.lmax + 1) = .ok (ob l))
    (hpa : ∀ l < j.s.lmax + 1, (oa l).p ≠ 0) :
    ∃ a b, densU j dm = .ok ((a, b), ∑ l ∈ range (j.s.lmax + 1), kin (Spec.atom j false) l (SadSCF.Spec.density j.s.X (oa l) + SadSCF.Spec.density j.s.X (seen oa ob l))) ∧
      Holds (Spec.atom j false) (fun l => SadSCF.Spec.density j.s.X (oa l)) (j.s.lmax + 1) a ∧ Holds (Spec.atom j false) (fun l => SadSCF.Spec.density j.s.X (seen oa ob l)) (j.s.lmax + 1) b := by
  obtain ⟨b, e, h1, h2, h3⟩ := fold_range (stepDens j dm)
    (fun n st => Holds (Spec.atom j false) (fun l => SadSCF.Spec.density j.s.X (oa l)) n st.1.1 ∧ Holds (Spec.atom j false) (fun l => SadSCF.Spec.density j.s.X (seen oa ob l)) n st.1.2 ∧
      st.2 = ∑ l ∈ range n, kin (Spec.atom j false) l (SadSCF.Spec.density j.s.X (oa l) + SadSCF.Spec.density j.s.X (seen oa ob l))) (j.s.lmax + 1) (by
      rintro n hn st ⟨h1, h2, h3⟩
      unfold stepDens
      rw [ha n hn, Res.ok_bind, if_neg (hpa n hn)]
      by_cases hz : ∀ i, |(oa n).occ i| = 0
      · have e1 : SadSCF.Spec.density j.s.X (oa n) = 0 := density_zero _ _ hz
        have e2 : SadSCF.Spec.density j.s.X (seen oa ob n) = 0 := by
          refine density_empty _ _ ?_
          unfold seen
          rw [if_pos ((empty_abs _).1 hz)]
          exact (empty_abs _).1 hz
        rw [if_pos hz]
        refine ⟨st, rfl, holds_zero h1 e1, holds_zero h2 e2, ?_⟩
        rw [sum_range_succ, ← h3, e1, e2]
        simp only [kin, add_zero, Matrix.zero_mul, Matrix.trace_zero, mul_zero]
      · have e2 : seen oa ob n = ob n := by
          unfold seen
          rw [if_neg fun h => hz ((empty_abs _).2 h)]
        rw [if_neg hz, hb n hn, Res.ok_bind]
        refine ⟨_, rfl, holds_step h1 _ (shellDensity_eq j.s _), holds_step h2 _ (by rw [e2]; exact shellDensity_eq j.s _), ?_⟩
        rw [sum_range_succ, ← h3, e2]
        rw [← shellDensity_eq, ← shellDensity_eq]
        rfl) ((Chan.empty j.s.N, Chan.empty j.s.N), 0) ⟨holds_empty (Spec.atom j false) _, holds_empty (Spec.atom j false) _, by simp⟩
  refine ⟨b.1.1, b.1.2, ?_, h1, h2⟩
  unfold densU
  rw [e, ← h3]

theorem read_first {M n : Nat} (oa ob : Nat → Dens.Orbs M) {l : Nat} (h : l < n) : readAt ((List.range n).map oa ++ (List.range n).map ob) l = .ok (oa l) := by
  unfold readAt
  rw [List.getElem?_append_left (by simpa using h), List.getElem?_map, List.getElem?_range h]
  rfl

theorem read_second {M n : Nat} (oa ob : Nat → Dens.Orbs M) {l : Nat} (h : l < n) : readAt ((List.range n).map oa ++ (List.range n).map ob) (n + l) = .ok (ob l) := by
  unfold readAt
  rw [List.getElem?_append_right (by simp)]
  simp only [List.length_map, List.length_range, Nat.add_sub_cancel_left]
  rw [List.getElem?_map, List.getElem?_range h]
  rfl

/-- the blocks of both spins -/
def both (j : Job) (oa ob : Nat → Dens.Orbs j.s.M) : List (Dens.Orbs j.s.M) := (List.range (j.s.lmax + 1)).map oa ++ (List.range (j.s.lmax + 1)).map ob

open Classical in
theorem builderU_eq {c : Caches} {k : SadSCF.Spec.Kernels} (hk : SadSCF.Spec.Represents (Spec.atom j false) c k) (sch : Sched) (oa ob : Nat → Dens.Orbs j.s.M) (hpa : ∀ l ≤ j.s.lmax, (oa l).p ≠ 0)
    (hpb : ∀ l ≤ j.s.lmax, (ob l).p ≠ 0) :
    builderU j c sch (both j oa ob) = buildFock (Spec.atom j false) c sch (both j oa (seen oa ob)) >>= fun x => .ok (shift j x) := by
  obtain ⟨a, b, e1, h1, h2⟩ := densU_ok (j := j) (both j oa ob) oa ob (fun l hl => read_first oa ob hl) (fun l hl => by
    rw [show l + j.s.lmax + 1 = j.s.lmax + 1 + l by omega]
    exact read_second oa ob hl) fun l hl => hpa l (by omega)
  obtain ⟨a', b', e2, h1', h2'⟩ := gatherU_ok (Spec.atom j false) (both j oa (seen oa ob)) oa (seen oa ob) (fun l hl => read_first oa (seen oa ob) hl)
    (fun l hl => read_second oa (seen oa ob) hl) (fun l hl => hpa l (Nat.lt_succ_iff.1 hl)) fun l hl => seen_ind (fun o => o.p ≠ 0) (hpa l (Nat.lt_succ_iff.1 hl)) (hpb l (Nat.lt_succ_iff.1 hl))
  obtain rfl := holds_ext h1 h1'
  obtain rfl := holds_ext h2 h2'
  unfold builderU buildFock
  rw [if_neg (show ¬ ((Spec.atom j false).restricted = true) by simp), e1]
  unfold buildU
  rw [e2, Res.ok_bind, Res.ok_bind]
  have hJ : coulombJ j.s c (a.P + b.P) = .ok (jMat k.q (a.P + b.P)) := coulombJ_ok hk (a.P + b.P)
  have hJ' : coulombJ (Spec.atom j false) c (a.P + b.P) = .ok (jMat k.q (a.P + b.P)) := coulombJ_ok hk (a.P + b.P)
  rw [hJ, Res.ok_bind, xcTwo_eq false]
  cases hx : xcU (Spec.atom j false) sch a b with
  | ub => rfl
  | throw e => rfl
  | ok xc =>
    rw [Res.ok_bind, Res.ok_bind, hJ', Res.ok_bind]
    unfold exxU
    rw [if_neg (not_haveExx false), Res.ok_bind]
    have hba : block j (jMat k.q (a.P + b.P)) xc.1.1 = fun l => fockBlock (Spec.atom j false) (jMat k.q (a.P + b.P)) l xc.1.1 (Spec.atom j false).haveXC [] (Spec.atom j false).haveExx :=
      funext fun l => block_eq false _ _ _ _ _ (haveXC_iff false) (not_haveExx false) _
    have hbb : block j (jMat k.q (a.P + b.P)) xc.1.2 = fun l => fockBlock (Spec.atom j false) (jMat k.q (a.P + b.P)) l xc.1.2 ((Spec.atom j false).haveXC ∧ 0 < (Spec.atom j false).nelb) []
        ((Spec.atom j false).haveExx ∧ 0 < (Spec.atom j false).nelb) :=
      funext fun l => block_eq false _ _ _ _ _ ((and_iff_left (show (0 : Int) < 1 by norm_num)).trans (haveXC_iff false)) (fun h => not_haveExx false h.1) _
    rw [hba, hbb]
    show ((List.range (Spec.atom j false).nblock).mapM _ >>= _) = _
    cases (List.range (Spec.atom j false).nblock).mapM fun l => fockBlock (Spec.atom j false) (jMat k.q (a.P + b.P)) l xc.1.1 (Spec.atom j false).haveXC [] (Spec.atom j false).haveExx with
    | ub => rfl
    | throw e => rfl
    | ok Fa =>
      rw [Res.ok_bind, Res.ok_bind]
      show ((List.range (Spec.atom j false).nblock).mapM _ >>= _) = _
      cases (List.range (Spec.atom j false).nblock).mapM fun l => fockBlock (Spec.atom j false) (jMat k.q (a.P + b.P)) l xc.1.2 ((Spec.atom j false).haveXC ∧ 0 < (Spec.atom j false).nelb) []
        ((Spec.atom j false).haveExx ∧ 0 < (Spec.atom j false).nelb) with
      | ub => rfl
      | throw e => rfl
      | ok Fb =>
        rw [Res.ok_bind, Res.ok_bind, Res.ok_bind]
        unfold shift potential
        congr 2
        show (∑ l ∈ range (j.s.lmax + 1), _) + _ + _ + _ + _ + _ + _ = (∑ l ∈ range (j.s.lmax + 1), _) + (((a.P + b.P) * j.s.Vnuc).trace + ((a.P + b.P) * j.s.Vconf).trace) + 0.5 * ((a.P + b.P) * jMat k.q (a.P + b.P)).trace + xc.2 + 0 + j.Enucfield + j.Erep
        ring

/-! ### Files -/

theorem flat_index {α β : Type} (f : α → List β) (w : Nat) : ∀ (L : List α) (_ : ∀ a ∈ L, (f a).length = w) (i : Nat) (a : α) (_ : L[i]? = some a) (c : Nat) (_ : c < w), (L.flatMap f)[i * w + c]? = (f a)[c]?
  | [], _, i, a, h, _, _ => by simp at h
  | x :: L, hL, 0, a, h, c, hc => by
    simp only [List.getElem?_cons_zero, Option.some.injEq] at h
    subst h
    rw [List.flatMap_cons, Nat.zero_mul, Nat.zero_add, List.getElem?_append_left (by rw [hL x (by simp)]; exact hc)]
  | x :: L, hL, i + 1, a, h, c, hc => by
    rw [List.flatMap_cons, show (i + 1) * w + c = w + (i * w + c) by ring, List.getElem?_append_right (by rw [hL x (by simp)]; omega), hL x (by simp), Nat.add_sub_cancel_left]
    exact flat_index f w L (fun a ha => hL a (List.mem_cons_of_mem _ ha)) i a (by simpa using h) c hc

theorem flat_length {α β : Type} (f : α → List β) (w : Nat) : ∀ (L : List α) (_ : ∀ a ∈ L, (f a).length = w), (L.flatMap f).length = L.length * w
  | [], _ => by simp
  | x :: L, hL => by
    rw [List.flatMap_cons, List.length_append, hL x (by simp), flat_length f w L fun a ha => hL a (List.mem_cons_of_mem _ ha), List.length_cons]
    ring

/-- the words of a matrix -/
noncomputable def words (F : Mat ℝ) : List (Option ℝ) := (List.range F.rows).flatMap fun r => (List.range F.cols).map fun c => some (F.get r c)

theorem words_length (F : Mat ℝ) : (words F).length = F.rows * F.cols := by
  unfold words
  rw [flat_length _ F.cols _ fun a _ => by simp, List.length_range]

theorem words_at (F : Mat ℝ) {r c : Nat} (hr : r < F.rows) (hc : c < F.cols) : (words F)[r * F.cols + c]? = some (some (F.get r c)) := by
  unfold words
  rw [flat_index _ F.cols _ (fun a _ => by simp) r r (List.getElem?_range hr) c hc, List.getElem?_map, List.getElem?_range hc]
  rfl

theorem words_some (F : Mat ℝ) : ∀ w ∈ words F, w.isSome := by
  intro w hw
  unfold words at hw
  obtain ⟨r, -, hr⟩ := List.mem_flatMap.1 hw
  obtain ⟨c, -, rfl⟩ := List.mem_map.1 hr
  rfl

end Aij
end HelFEM
