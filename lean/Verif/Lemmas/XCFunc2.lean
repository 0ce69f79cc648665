import Verif.Lemmas.XCGrid

/-!
# The unrestricted grids
-/

namespace HelFEM
namespace XC

open Matrix

variable {d N : Nat}

/-- sum of outputs -/
def Out2.plus (a b : Out2) : Out2 :=
  ⟨a.exc + b.exc, a.va + b.va, a.vb + b.vb, a.vsaa + b.vsaa, a.vsab + b.vsab, a.vsbb + b.vsbb, a.vla + b.vla, a.vlb + b.vlb, a.vta + b.vta, a.vtb + b.vtb⟩

/-- nothing -/
def Out2.nil : Out2 := ⟨0, 0, 0, 0, 0, 0, 0, 0, 0, 0⟩

/-- the outputs that count -/
noncomputable def mask2 (e : Bool) (u : Spec.Uses) (o : Out2) : Out2 :=
  ⟨if e then o.exc else 0, o.va, o.vb, if u.grad then o.vsaa else 0, if u.grad then o.vsab else 0, if u.grad then o.vsbb else 0, if u.lapl then o.vla else 0,
    if u.lapl then o.vlb else 0, if u.tau then o.vta else 0, if u.tau then o.vtb else 0⟩

variable (env : Libxc)

noncomputable def outOf2 (id : Int) (pars : List ℝ) (thr : ℝ) (x : In2) : Out2 :=
  if 0 < id then
    match env.info id with
    | none => .nil
    | some i => mask2 i.hasExc (Spec.uses i) (env.pol id pars thr (Spec.seen2 (Spec.uses i) x))
  else .nil

theorem outOf2_exc (id : Int) (pars : List ℝ) (thr : ℝ) (x : In2) : (outOf2 env id pars thr x).exc = Spec.exc2 env id pars thr x := by
  unfold outOf2 Spec.exc2
  split_ifs
  · rcases env.info id with _ | i <;> rfl
  · rfl

/-- the density buffers hold `X` -/
def HoldsQ2 (fl : Flags) (q : Dens2 d N) (X : Fin N → In2) : Prop :=
  q.rhoa = (fun p => (X p).rhoa) ∧ q.rhob = (fun p => (X p).rhob) ∧ (fl.grad = true → q.sigma = some (fun p => (X p).saa, fun p => (X p).sab, fun p => (X p).sbb)) ∧
    (fl.tau = true → q.tau = some (fun p => (X p).ta, fun p => (X p).tb)) ∧ (fl.lapl = true → q.lapl = some (fun p => (X p).la, fun p => (X p).lb))

/-- the functional buffers hold `O` -/
def Holds2 (fl : Flags) (a : Acc2 N) (O : Fin N → Out2) (u : Spec.Uses) : Prop :=
  a.exc = (fun p => (O p).exc) ∧ a.va = (fun p => (O p).va) ∧ a.vb = (fun p => (O p).vb) ∧
    (fl.grad = true → a.vsigma = some (fun p => (O p).vsaa, fun p => (O p).vsab, fun p => (O p).vsbb)) ∧ (fl.tau = true → a.vtau = some (fun p => (O p).vta, fun p => (O p).vtb)) ∧
    (fl.lapl = true → a.vlapl = some (fun p => (O p).vla, fun p => (O p).vlb)) ∧ a.gga = u.grad ∧ a.t = u.tau ∧ a.l = u.lapl ∧
    (u.grad = false → ∀ p, (O p).vsaa = 0 ∧ (O p).vsab = 0 ∧ (O p).vsbb = 0) ∧ (u.tau = false → ∀ p, (O p).vta = 0 ∧ (O p).vtb = 0) ∧
    (u.lapl = false → ∀ p, (O p).vla = 0 ∧ (O p).vlb = 0)

theorem holds_init2 (fl : Flags) : Holds2 fl (init2 N fl) (fun _ => .nil) ⟨false, false, false⟩ := by
  refine ⟨rfl, rfl, rfl, ?_, ?_, ?_, rfl, rfl, rfl, fun _ _ => ⟨rfl, rfl, rfl⟩, fun _ _ => ⟨rfl, rfl⟩, fun _ _ => ⟨rfl, rfl⟩⟩ <;> intro h <;> simp [init2, h, Out2.nil]

theorem needPair_ok {b : Bool} {o : Option ((Fin N → ℝ) × (Fin N → ℝ))} {v w : Fin N → ℝ} (h : b = true → o = some (v, w)) :
    needPair b o = .ok (fun p => if b then v p else 0, fun p => if b then w p else 0) := by
  unfold needPair
  rcases b with _ | _
  · simp
  · simp [h rfl, need]

theorem needTriple_ok {b : Bool} {o : Option ((Fin N → ℝ) × (Fin N → ℝ) × (Fin N → ℝ))} {v w z : Fin N → ℝ} (h : b = true → o = some (v, w, z)) :
    needTriple b o = .ok (fun p => if b then v p else 0, fun p => if b then w p else 0, fun p => if b then z p else 0) := by
  unfold needTriple
  rcases b with _ | _
  · simp
  · simp [h rfl, need]

theorem addPair_ok {b : Bool} {o : Option ((Fin N → ℝ) × (Fin N → ℝ))} {v w : Fin N → ℝ} (x y : Fin N → ℝ) (h : b = true → o = some (v, w)) :
    addPair b o x y = .ok (if b then some (fun p => v p + x p, fun p => w p + y p) else o) := by
  unfold addPair
  rcases b with _ | _
  · simp
  · simp [h rfl, need]

theorem addTriple_ok {b : Bool} {o : Option ((Fin N → ℝ) × (Fin N → ℝ) × (Fin N → ℝ))} {v w z : Fin N → ℝ} (x y t : Fin N → ℝ) (h : b = true → o = some (v, w, z)) :
    addTriple b o x y t = .ok (if b then some (fun p => v p + x p, fun p => w p + y p, fun p => z p + t p) else o) := by
  unfold addTriple
  rcases b with _ | _
  · simp
  · simp [h rfl, need]

theorem accumulate2_ok (fl : Flags) (q : Dens2 d N) (X : Fin N → In2) (hq : HoldsQ2 fl q X) (a : Acc2 N) (O : Fin N → Out2) (u : Spec.Uses) (ha : Holds2 fl a O u)
    (fn : In2 → Out2) (e g t l : Bool) (hcov : Covers fl ⟨g || t || l, t, l⟩) :
    ∃ a', accumulate2 fn e g t l q a = .ok a' ∧ Holds2 fl a' (fun p => (O p).plus (mask2 e ⟨g || t || l, t, l⟩ (fn (Spec.seen2 ⟨g || t || l, t, l⟩ (X p))))) (u.or ⟨g || t || l, t, l⟩) := by
  obtain ⟨q1, q1', q2, q3, q4⟩ := hq
  obtain ⟨a1, a2, a2', a3, a4, a5, a6, a7, a8, a9, a10, a11⟩ := ha
  obtain ⟨c1, c2, c3⟩ := hcov
  simp only at c1 c2 c3
  unfold accumulate2
  rw [needTriple_ok (fun h => q2 (c1 h)), Res.ok_bind, needPair_ok (fun h => q4 (c3 h)), Res.ok_bind, needPair_ok (fun h => q3 (c2 h)), Res.ok_bind]
  rw [addPair_ok _ _ (fun h => a5 (c3 h)), Res.ok_bind, addPair_ok _ _ (fun h => a4 (c2 h)), Res.ok_bind, addTriple_ok _ _ _ (fun h => a3 (c1 (by
    rcases g <;> rcases t <;> rcases l <;> simp_all))), Res.ok_bind]
  have hin : ∀ p, input2 q (fun p => if (g || t || l) = true then (X p).saa else 0, fun p => if (g || t || l) = true then (X p).sab else 0,
      fun p => if (g || t || l) = true then (X p).sbb else 0) (fun p => if l = true then (X p).la else 0, fun p => if l = true then (X p).lb else 0)
      (fun p => if t = true then (X p).ta else 0, fun p => if t = true then (X p).tb else 0) p = Spec.seen2 ⟨g || t || l, t, l⟩ (X p) := by
    intro p
    unfold input2
    rw [q1, q1']
    rfl
  have hor : (t || l || g) = (g || t || l) := by rcases g <;> rcases t <;> rcases l <;> rfl
  refine ⟨_, rfl, ?_⟩
  simp only [hin, hor]
  refine ⟨?_, ?_, ?_, ?_, ?_, ?_, ?_, ?_, ?_, ?_, ?_, ?_⟩
  · funext p
    rcases e <;> simp [Out2.plus, mask2, a1]
  · funext p
    simp [Out2.plus, mask2, a2]
  · funext p
    simp [Out2.plus, mask2, a2']
  · intro h
    by_cases hb : (g || t || l) = true
    · simp only [hb, if_true, Out2.plus, mask2]
    · simp only [hb, Bool.false_eq_true, if_false, Out2.plus, mask2, add_zero]
      exact a3 h
  · intro h
    by_cases hb : t = true
    · simp only [hb, if_true, Out2.plus, mask2]
    · simp only [hb, Bool.false_eq_true, if_false, Out2.plus, mask2, add_zero]
      exact a4 h
  · intro h
    by_cases hb : l = true
    · simp only [hb, if_true, Out2.plus, mask2]
    · simp only [hb, Bool.false_eq_true, if_false, Out2.plus, mask2, add_zero]
      exact a5 h
  · simp only [Spec.Uses.or, a6, Bool.or_assoc]
  · simp only [Spec.Uses.or, a7]
  · simp only [Spec.Uses.or, a8]
  · intro h p
    simp only [Spec.Uses.or, Bool.or_eq_false_iff] at h
    obtain ⟨x1, x2, x3⟩ := a9 h.1 p
    have hb : ¬ (g || t || l) = true := by simp [h.2]
    simp only [Out2.plus, mask2, x1, x2, x3, zero_add, hb, Bool.false_eq_true, if_false, and_self]
  · intro h p
    simp only [Spec.Uses.or, Bool.or_eq_false_iff] at h
    obtain ⟨x1, x2⟩ := a10 h.1 p
    have hb : ¬ t = true := by simp [h.2]
    simp only [Out2.plus, mask2, x1, x2, zero_add, hb, Bool.false_eq_true, if_false, and_self]
  · intro h p
    simp only [Spec.Uses.or, Bool.or_eq_false_iff] at h
    obtain ⟨x1, x2⟩ := a11 h.1 p
    have hb : ¬ l = true := by simp [h.2]
    simp only [Out2.plus, mask2, x1, x2, zero_add, hb, Bool.false_eq_true, if_false, and_self]

theorem computeXc2_ok {id : Int} {pars : List ℝ} (h : Spec.Usable env id pars) (thr : ℝ) (fl : Flags) (hcov : Covers fl (usesOf env id)) (q : Dens2 d N) (X : Fin N → In2)
    (hq : HoldsQ2 fl q X) (a : Acc2 N) (O : Fin N → Out2) (u : Spec.Uses) (ha : Holds2 fl a O u) :
    ∃ a', (if 0 < id then computeXc2 env id pars thr true q a else .ok a) = .ok a' ∧
      Holds2 fl a' (fun p => (O p).plus (outOf2 env id pars thr (X p))) (u.or (usesOf env id)) := by
  by_cases h0 : 0 < id
  · obtain ⟨i, hi, hui, _, _, _, he, hp, g, t, l, hk, hu⟩ := queries env h h0
    rw [hu] at hcov
    obtain ⟨a', ha', hh⟩ := accumulate2_ok fl q X hq a O u ha (env.pol id pars thr) i.hasExc g t l hcov
    refine ⟨a', ?_, ?_⟩
    · rw [if_pos h0]
      unfold computeXc2
      rw [hk, he]
      simp only [Res.ok_bind, hi]
      rw [if_neg, if_neg (by simp), ha']
      intro hh
      rcases hp with hp | hp
      · exact hh.1 hp
      · exact hh.2 hp
    · rw [hu]
      have : ∀ x, outOf2 env id pars thr x = mask2 i.hasExc ⟨g || t || l, t, l⟩ (env.pol id pars thr (Spec.seen2 ⟨g || t || l, t, l⟩ x)) := by
        intro x
        simp only [outOf2, if_pos h0, hi, ← hui, hu]
      simp only [this]
      exact hh
  · refine ⟨a, by rw [if_neg h0], ?_⟩
    have e1 : usesOf env id = ⟨false, false, false⟩ := by simp [usesOf, h0]
    have e2 : ∀ x, outOf2 env id pars thr x = .nil := by intro x; simp [outOf2, h0]
    have e3 : u.or ⟨false, false, false⟩ = u := by simp [Spec.Uses.or]
    have e4 : ∀ o : Out2, o.plus .nil = o := by intro o; simp [Out2.plus, Out2.nil]
    simp only [e1, e2, e3, e4]
    exact ha

/-- both functionals -/
noncomputable def outBoth2 (x c : Int) (xp cp : List ℝ) (thr : ℝ) (X : In2) : Out2 := (outOf2 env x xp thr X).plus (outOf2 env c cp thr X)

theorem computeBoth2_ok {x c : Int} {xp cp : List ℝ} (hx : Spec.Usable env x xp) (hc : Spec.Usable env c cp) (thr : ℝ) (fl : Flags) (hcx : Covers fl (usesOf env x))
    (hcc : Covers fl (usesOf env c)) (q : Dens2 d N) (X : Fin N → In2) (hq : HoldsQ2 fl q X) :
    ∃ a, computeBoth2 env x c xp cp thr q (init2 N fl) = .ok a ∧ Holds2 fl a (fun p => outBoth2 env x c xp cp thr (X p)) ((usesOf env x).or (usesOf env c)) := by
  obtain ⟨a1, h1, hh1⟩ := computeXc2_ok env hx thr fl hcx q X hq _ _ _ (holds_init2 fl)
  obtain ⟨a2, h2, hh2⟩ := computeXc2_ok env hc thr fl hcc q X hq _ _ _ hh1
  refine ⟨a2, ?_, ?_⟩
  · unfold computeBoth2
    rw [h1, Res.ok_bind, h2]
  · have e1 : ∀ o p : Out2, (Out2.nil.plus o).plus p = o.plus p := by intro o p; simp [Out2.plus, Out2.nil]
    have e2 : ∀ a b : Spec.Uses, ((⟨false, false, false⟩ : Spec.Uses).or a).or b = a.or b := by intro a b; simp [Spec.Uses.or]
    simp only [e1, e2] at hh2
    exact hh2

/-- outputs against changes of the inputs -/
def Out2.dot (o : Out2) (x : In2) : ℝ :=
  o.va * x.rhoa + o.vb * x.rhob + o.vsaa * x.saa + o.vsab * x.sab + o.vsbb * x.sbb + o.vla * x.la + o.vlb * x.lb + o.vta * x.ta + o.vtb * x.tb

/-- a path of inputs has the derivative `x` -/
structure HasDeriv2 (X : ℝ → In2) (x : In2) (t : ℝ) : Prop where
  rhoa : HasDerivAt (fun y => (X y).rhoa) x.rhoa t
  rhob : HasDerivAt (fun y => (X y).rhob) x.rhob t
  saa : HasDerivAt (fun y => (X y).saa) x.saa t
  sab : HasDerivAt (fun y => (X y).sab) x.sab t
  sbb : HasDerivAt (fun y => (X y).sbb) x.sbb t
  la : HasDerivAt (fun y => (X y).la) x.la t
  lb : HasDerivAt (fun y => (X y).lb) x.lb t
  ta : HasDerivAt (fun y => (X y).ta) x.ta t
  tb : HasDerivAt (fun y => (X y).tb) x.tb t

theorem deriv_exc2 {id : Int} {pars : List ℝ} {thr : ℝ} {X : ℝ → In2} {x : In2} {t0 : ℝ} (h : Spec.Consistent2 env id pars thr (X t0)) (hX : HasDeriv2 X x t0) :
    HasDerivAt (fun y => ((X y).rhoa + (X y).rhob) * Spec.exc2 env id pars thr (X y)) ((outOf2 env id pars thr (X t0)).dot x) t0 := by
  by_cases h0 : 0 < id
  · rcases hi : env.info id with _ | i
    · simp only [Spec.exc2, outOf2, if_pos h0, hi, mul_zero, Out2.dot, Out2.nil, zero_mul, add_zero]
      exact hasDerivAt_const _ _
    · obtain ⟨he, hd⟩ := h h0 i hi
      simp only [Spec.exc2, outOf2, if_pos h0, hi, he, if_true]
      have hcurve : HasDerivAt (fun y => (![(X y).rhoa, (X y).rhob, (X y).saa, (X y).sab, (X y).sbb, (X y).la, (X y).lb, (X y).ta, (X y).tb] : Fin 9 → ℝ))
          ![x.rhoa, x.rhob, x.saa, x.sab, x.sbb, x.la, x.lb, x.ta, x.tb] t0 := by
        rw [hasDerivAt_pi]
        intro k
        fin_cases k
        · exact hX.rhoa
        · exact hX.rhob
        · exact hX.saa
        · exact hX.sab
        · exact hX.sbb
        · exact hX.la
        · exact hX.lb
        · exact hX.ta
        · exact hX.tb
      have := HasFDerivAt.comp_hasDerivAt (x := t0) (f := fun y => (![(X y).rhoa, (X y).rhob, (X y).saa, (X y).sab, (X y).sbb, (X y).la, (X y).lb, (X y).ta, (X y).tb] : Fin 9 → ℝ)) hd hcurve
      refine this.congr_deriv ?_
      simp only [Fin.sum_univ_succ, ContinuousLinearMap.add_apply, ContinuousLinearMap.smul_apply, ContinuousLinearMap.proj_apply, smul_eq_mul]
      simp [Out2.dot, mask2]
      ring
  · simp only [Spec.exc2, outOf2, if_neg h0, mul_zero, Out2.dot, Out2.nil, zero_mul, add_zero]
    exact hasDerivAt_const _ _

theorem deriv_both2 {x c : Int} {xp cp : List ℝ} {thr : ℝ} {X : ℝ → In2} {x' : In2} {t0 : ℝ} (hx : Spec.Consistent2 env x xp thr (X t0)) (hc : Spec.Consistent2 env c cp thr (X t0))
    (hX : HasDeriv2 X x' t0) :
    HasDerivAt (fun y => ((X y).rhoa + (X y).rhob) * (Spec.exc2 env x xp thr (X y) + Spec.exc2 env c cp thr (X y))) ((outBoth2 env x c xp cp thr (X t0)).dot x') t0 := by
  have h := (deriv_exc2 env hx hX).add (deriv_exc2 env hc hX)
  refine (h.congr_of_eventuallyEq ?_).congr_deriv ?_
  · exact Filter.Eventually.of_forall fun y => by simp only [Pi.add_apply]; ring
  · simp only [outBoth2, Out2.plus, Out2.dot]; ring

end XC
end HelFEM
