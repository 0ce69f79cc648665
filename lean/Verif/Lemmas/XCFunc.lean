import Verif.Lemmas.XC

/-!
# What the accumulated functionals hold, and their derivatives along a line
-/

namespace HelFEM
namespace XC

open Matrix

variable {d N : Nat}

/-- sum of outputs -/
def Out1.plus (a b : Out1) : Out1 := ⟨a.exc + b.exc, a.vrho + b.vrho, a.vsigma + b.vsigma, a.vlapl + b.vlapl, a.vtau + b.vtau⟩

/-- what is needed by either -/
def Spec.Uses.or (a b : Spec.Uses) : Spec.Uses := ⟨a.grad || b.grad, a.tau || b.tau, a.lapl || b.lapl⟩

variable (env : Libxc)

/-- what the functional depends on -/
def usesOf (id : Int) : Spec.Uses :=
  if 0 < id then
    match env.info id with
    | none => ⟨false, false, false⟩
    | some i => Spec.uses i
  else ⟨false, false, false⟩

/-- the outputs that count -/
noncomputable def outOf (id : Int) (pars : List ℝ) (thr : ℝ) (x : In1) : Out1 :=
  if 0 < id then
    match env.info id with
    | none => ⟨0, 0, 0, 0, 0⟩
    | some i =>
      let o := env.unpol id pars thr (Spec.seen (Spec.uses i) x)
      ⟨if i.hasExc then o.exc else 0, o.vrho, if (Spec.uses i).grad then o.vsigma else 0, if (Spec.uses i).lapl then o.vlapl else 0,
        if (Spec.uses i).tau then o.vtau else 0⟩
  else ⟨0, 0, 0, 0, 0⟩

theorem outOf_exc (id : Int) (pars : List ℝ) (thr : ℝ) (x : In1) : (outOf env id pars thr x).exc = Spec.exc env id pars thr x := by
  unfold outOf Spec.exc
  split_ifs
  · rcases env.info id with _ | i <;> rfl
  · rfl

/-- the flags cover what the functional depends on -/
def Covers (fl : Flags) (u : Spec.Uses) : Prop := (u.grad = true → fl.grad = true) ∧ (u.tau = true → fl.tau = true) ∧ (u.lapl = true → fl.lapl = true)

theorem usesOf_grad {id : Int} {pars : List ℝ} (h : Spec.Usable env id pars) : (usesOf env id).tau = true ∨ (usesOf env id).lapl = true → (usesOf env id).grad = true := by
  unfold usesOf
  split_ifs with h0
  · obtain ⟨i, hi, _, _⟩ := h h0
    rw [hi]
    simp only [Spec.uses]
    rcases i.family <;> simp
  · simp

/-- what a positive, usable functional gives to the queries -/
theorem queries {id : Int} {pars : List ℝ} (h : Spec.Usable env id pars) (h0 : 0 < id) : ∃ i, env.info id = some i ∧ usesOf env id = Spec.uses i ∧
    (∃ g, gradientNeeded env id = .ok g ∧ ((usesOf env id).grad = true → g = true)) ∧ tauNeeded env id = .ok (usesOf env id).tau ∧ laplNeeded env id = .ok (usesOf env id).lapl ∧
    hasExc env id = .ok i.hasExc ∧ (pars = [] ∨ pars.length = i.nPar) ∧
    ∃ g t l, isGgaMgga env id = .ok (g, t, l) ∧ (usesOf env id) = ⟨g || t || l, t, l⟩ := by
  obtain ⟨i, hi, hf, hp⟩ := h h0
  have hu : usesOf env id = Spec.uses i := by simp [usesOf, h0, hi]
  refine ⟨i, hi, hu, ?_, ?_, ?_, ?_, hp, ?_⟩
  · refine ⟨decide (i.family = .gga ∨ i.family = .mgga), by simp [gradientNeeded, h0, hi], ?_⟩
    rw [hu, Spec.uses]
    rcases i.family <;> simp
  · rw [hu]
    simp only [tauNeeded, h0, if_true, hi, Spec.uses]
    rcases i.family <;> simp
  · rw [hu]
    simp only [laplNeeded, h0, if_true, hi, Spec.uses]
    rcases i.family <;> simp
  · simp [hasExc, h0, hi]
  · rw [hu]
    simp only [isGgaMgga, not_le.2 h0, if_false, hi, Spec.uses]
    rcases hfam : i.family with _ | _ | _ | _
    · exact ⟨false, false, false, rfl, rfl⟩
    · exact ⟨true, false, false, rfl, rfl⟩
    · exact ⟨false, i.needsTau, i.needsLapl, rfl, by simp⟩
    · exact absurd hfam hf

theorem either_ok {f : Int → Res Bool} {x c : Int} {bx bc : Bool} (hx : 0 < x → f x = .ok bx) (hx' : ¬ 0 < x → bx = false) (hc : 0 < c → f c = .ok bc) (hc' : ¬ 0 < c → bc = false) :
    either f x c = .ok (bx || bc) := by
  unfold either orRes
  by_cases h1 : 0 < x <;> by_cases h2 : 0 < c
  · rw [if_pos h1, hx h1]
    simp only [Res.ok_bind, if_pos h2, hc h2, Bool.false_eq_true, if_false]
    rcases bx <;> rfl
  · rw [if_pos h1, hx h1, hc' h2]
    simp [h2]
  · rw [if_neg h1, hx' h1]
    simp [h2, hc h2]
  · rw [if_neg h1, hx' h1, hc' h2]
    simp [h2]

/-- the flags are found, and they are what the functionals depend on -/
theorem checkFlags_ok {x c : Int} {xp cp : List ℝ} (hx : Spec.Usable env x xp) (hc : Spec.Usable env c cp) :
    ∃ fl, checkFlags env x c = .ok fl ∧ Covers fl (usesOf env x) ∧ Covers fl (usesOf env c) ∧
      fl.tau = ((usesOf env x).tau || (usesOf env c).tau) ∧ fl.lapl = ((usesOf env x).lapl || (usesOf env c).lapl) := by
  have hg : ∀ {id : Int} {pars : List ℝ}, Spec.Usable env id pars → ∃ g, (0 < id → gradientNeeded env id = .ok g) ∧ (¬ 0 < id → g = false) ∧ ((usesOf env id).grad = true → g = true) := by
    intro id pars h
    by_cases h0 : 0 < id
    · obtain ⟨i, _, _, ⟨g, hg, hgu⟩, _⟩ := queries env h h0
      exact ⟨g, fun _ => hg, fun hn => absurd h0 hn, hgu⟩
    · exact ⟨false, fun hp => absurd hp h0, fun _ => rfl, by simp [usesOf, h0]⟩
  have ht : ∀ {id : Int} {pars : List ℝ}, Spec.Usable env id pars → (0 < id → tauNeeded env id = .ok (usesOf env id).tau) ∧ (¬ 0 < id → (usesOf env id).tau = false) := by
    intro id pars h
    exact ⟨fun h0 => (queries env h h0).choose_spec.2.2.2.1, fun h0 => by simp [usesOf, h0]⟩
  have hl : ∀ {id : Int} {pars : List ℝ}, Spec.Usable env id pars → (0 < id → laplNeeded env id = .ok (usesOf env id).lapl) ∧ (¬ 0 < id → (usesOf env id).lapl = false) := by
    intro id pars h
    exact ⟨fun h0 => (queries env h h0).choose_spec.2.2.2.2.1, fun h0 => by simp [usesOf, h0]⟩
  obtain ⟨gx, hgx, hgx', hgxu⟩ := hg hx
  obtain ⟨gc, hgc, hgc', hgcu⟩ := hg hc
  refine ⟨⟨gx || gc, (usesOf env x).tau || (usesOf env c).tau, (usesOf env x).lapl || (usesOf env c).lapl⟩, ?_, ⟨?_, ?_, ?_⟩, ⟨?_, ?_, ?_⟩, rfl, rfl⟩
  · unfold checkFlags
    rw [either_ok hgx hgx' hgc hgc', either_ok (ht hx).1 (ht hx).2 (ht hc).1 (ht hc).2, either_ok (hl hx).1 (hl hx).2 (hl hc).1 (hl hc).2]
    rfl
  · intro h; simp [hgxu h]
  · intro h; simp [h]
  · intro h; simp [h]
  · intro h; simp [hgcu h]
  · intro h; simp [h]
  · intro h; simp [h]

/-- the density buffers hold `X` -/
def HoldsQ (fl : Flags) (q : Dens1 d N) (X : Fin N → In1) : Prop :=
  q.rho = (fun p => (X p).rho) ∧ (fl.grad = true → q.sigma = some fun p => (X p).sigma) ∧ (fl.tau = true → q.tau = some fun p => (X p).tau) ∧
    (fl.lapl = true → q.lapl = some fun p => (X p).lapl)

/-- the functional buffers hold `O` -/
def Holds (fl : Flags) (a : Acc1 N) (O : Fin N → Out1) (u : Spec.Uses) : Prop :=
  a.exc = (fun p => (O p).exc) ∧ a.vxc = (fun p => (O p).vrho) ∧ (fl.grad = true → a.vsigma = some fun p => (O p).vsigma) ∧ (fl.tau = true → a.vtau = some fun p => (O p).vtau) ∧
    (fl.lapl = true → a.vlapl = some fun p => (O p).vlapl) ∧ a.gga = u.grad ∧ a.t = u.tau ∧ a.l = u.lapl ∧
    (u.grad = false → ∀ p, (O p).vsigma = 0) ∧ (u.tau = false → ∀ p, (O p).vtau = 0) ∧ (u.lapl = false → ∀ p, (O p).vlapl = 0)

theorem holds_init (fl : Flags) : Holds fl (init1 N fl) (fun _ => ⟨0, 0, 0, 0, 0⟩) ⟨false, false, false⟩ := by
  refine ⟨rfl, rfl, ?_, ?_, ?_, rfl, rfl, rfl, fun _ _ => rfl, fun _ _ => rfl, fun _ _ => rfl⟩ <;> intro h <;> simp [init1, zeroIf, h]

theorem needIf_ok {b : Bool} {o : Buf N} {v : Fin N → ℝ} (h : b = true → o = some v) : needIf b o = .ok fun p => if b then v p else 0 := by
  unfold needIf
  rcases b with _ | _
  · simp
  · simp [h rfl, need]

theorem addIf_ok {b : Bool} {o : Buf N} {v : Fin N → ℝ} (x : Fin N → ℝ) (h : b = true → o = some v) : addIf b o x = .ok (if b then some fun p => v p + x p else o) := by
  unfold addIf
  rcases b with _ | _
  · simp
  · simp [h rfl, need]

theorem accumulate1_ok (fl : Flags) (q : Dens1 d N) (X : Fin N → In1) (hq : HoldsQ fl q X) (a : Acc1 N) (O : Fin N → Out1) (u : Spec.Uses) (ha : Holds fl a O u)
    (fn : In1 → Out1) (e g t l : Bool) (hcov : Covers fl ⟨g || t || l, t, l⟩) :
    ∃ a', accumulate1 fn e g t l q a = .ok a' ∧ Holds fl a' (fun p => (O p).plus
      (let o := fn (Spec.seen ⟨g || t || l, t, l⟩ (X p))
       ⟨if e then o.exc else 0, o.vrho, if g || t || l then o.vsigma else 0, if l then o.vlapl else 0, if t then o.vtau else 0⟩)) (u.or ⟨g || t || l, t, l⟩) := by
  obtain ⟨q1, q2, q3, q4⟩ := hq
  obtain ⟨a1, a2, a3, a4, a5, a6, a7, a8, a9, a10, a11⟩ := ha
  obtain ⟨c1, c2, c3⟩ := hcov
  simp only at c1 c2 c3
  unfold accumulate1
  rw [needIf_ok (fun h => q2 (c1 h)), Res.ok_bind, needIf_ok (fun h => q4 (c3 h)), Res.ok_bind, needIf_ok (fun h => q3 (c2 h)), Res.ok_bind]
  rw [addIf_ok _ (fun h => a5 (c3 h)), Res.ok_bind, addIf_ok _ (fun h => a4 (c2 h)), Res.ok_bind, addIf_ok _ (fun h => a3 (c1 (by
    rcases g <;> rcases t <;> rcases l <;> simp_all))), Res.ok_bind]
  have hin : ∀ p, (⟨q.rho p, if (g || t || l) = true then (X p).sigma else 0, if l = true then (X p).lapl else 0, if t = true then (X p).tau else 0⟩ : In1) =
      Spec.seen ⟨g || t || l, t, l⟩ (X p) := by
    intro p
    rw [q1]
    rfl
  have hor : (t || l || g) = (g || t || l) := by rcases g <;> rcases t <;> rcases l <;> rfl
  refine ⟨_, rfl, ?_⟩
  simp only [hin, hor]
  refine ⟨?_, ?_, ?_, ?_, ?_, ?_, ?_, ?_, ?_, ?_, ?_⟩
  · funext p
    rcases e <;> simp [Out1.plus, a1]
  · funext p
    simp [Out1.plus, a2]
  · intro h
    by_cases hb : (g || t || l) = true
    · simp only [hb, if_true, Out1.plus]
    · simp only [hb, Bool.false_eq_true, if_false, Out1.plus, add_zero]
      exact a3 h
  · intro h
    by_cases hb : t = true
    · simp only [hb, if_true, Out1.plus]
    · simp only [hb, Bool.false_eq_true, if_false, Out1.plus, add_zero]
      exact a4 h
  · intro h
    by_cases hb : l = true
    · simp only [hb, if_true, Out1.plus]
    · simp only [hb, Bool.false_eq_true, if_false, Out1.plus, add_zero]
      exact a5 h
  · simp only [Spec.Uses.or, a6, Bool.or_assoc]
  · simp only [Spec.Uses.or, a7]
  · simp only [Spec.Uses.or, a8]
  · intro h p
    simp only [Spec.Uses.or, Bool.or_eq_false_iff] at h
    simp only [Out1.plus, a9 h.1 p, zero_add]
    rw [if_neg]
    simp [h.2]
  · intro h p
    simp only [Spec.Uses.or, Bool.or_eq_false_iff] at h
    simp only [Out1.plus, a10 h.1 p, zero_add]
    rw [if_neg]
    simp [h.2]
  · intro h p
    simp only [Spec.Uses.or, Bool.or_eq_false_iff] at h
    simp only [Out1.plus, a11 h.1 p, zero_add]
    rw [if_neg]
    simp [h.2]

theorem computeXc1_ok {id : Int} {pars : List ℝ} (h : Spec.Usable env id pars) (thr : ℝ) (fl : Flags) (hcov : Covers fl (usesOf env id)) (q : Dens1 d N) (X : Fin N → In1)
    (hq : HoldsQ fl q X) (a : Acc1 N) (O : Fin N → Out1) (u : Spec.Uses) (ha : Holds fl a O u) :
    ∃ a', (if 0 < id then computeXc1 env id pars thr true q a else .ok a) = .ok a' ∧
      Holds fl a' (fun p => (O p).plus (outOf env id pars thr (X p))) (u.or (usesOf env id)) := by
  by_cases h0 : 0 < id
  · obtain ⟨i, hi, hui, _, _, _, he, hp, g, t, l, hk, hu⟩ := queries env h h0
    rw [hu] at hcov
    obtain ⟨a', ha', hh⟩ := accumulate1_ok fl q X hq a O u ha (env.unpol id pars thr) i.hasExc g t l hcov
    refine ⟨a', ?_, ?_⟩
    · rw [if_pos h0]
      unfold computeXc1
      rw [hk, he]
      simp only [Res.ok_bind, hi]
      rw [if_neg, if_neg (by simp), ha']
      intro hh
      rcases hp with hp | hp
      · exact hh.1 hp
      · exact hh.2 hp
    · rw [hu]
      have : ∀ x, outOf env id pars thr x =
          (let o := env.unpol id pars thr (Spec.seen ⟨g || t || l, t, l⟩ x)
           ⟨if i.hasExc then o.exc else 0, o.vrho, if g || t || l then o.vsigma else 0, if l then o.vlapl else 0, if t then o.vtau else 0⟩) := by
        intro x
        simp only [outOf, if_pos h0, hi, ← hui, hu]
      simp only [this]
      exact hh
  · refine ⟨a, by rw [if_neg h0], ?_⟩
    have e1 : usesOf env id = ⟨false, false, false⟩ := by simp [usesOf, h0]
    have e2 : ∀ x, outOf env id pars thr x = ⟨0, 0, 0, 0, 0⟩ := by intro x; simp [outOf, h0]
    have e3 : u.or ⟨false, false, false⟩ = u := by simp [Spec.Uses.or]
    have e4 : ∀ o : Out1, o.plus ⟨0, 0, 0, 0, 0⟩ = o := by intro o; simp [Out1.plus]
    simp only [e1, e2, e3, e4]
    exact ha

/-- both functionals -/
noncomputable def outBoth (x c : Int) (xp cp : List ℝ) (thr : ℝ) (X : In1) : Out1 := (outOf env x xp thr X).plus (outOf env c cp thr X)

theorem computeBoth1_ok {x c : Int} {xp cp : List ℝ} (hx : Spec.Usable env x xp) (hc : Spec.Usable env c cp) (thr : ℝ) (fl : Flags) (hcx : Covers fl (usesOf env x))
    (hcc : Covers fl (usesOf env c)) (q : Dens1 d N) (X : Fin N → In1) (hq : HoldsQ fl q X) :
    ∃ a, computeBoth1 env x c xp cp thr q (init1 N fl) = .ok a ∧ Holds fl a (fun p => outBoth env x c xp cp thr (X p)) ((usesOf env x).or (usesOf env c)) := by
  obtain ⟨a1, h1, hh1⟩ := computeXc1_ok env hx thr fl hcx q X hq _ _ _ (holds_init fl)
  obtain ⟨a2, h2, hh2⟩ := computeXc1_ok env hc thr fl hcc q X hq _ _ _ hh1
  refine ⟨a2, ?_, ?_⟩
  · unfold computeBoth1
    rw [h1, Res.ok_bind, h2]
  · have e1 : ∀ o p : Out1, ((⟨0, 0, 0, 0, 0⟩ : Out1).plus o).plus p = o.plus p := by intro o p; simp [Out1.plus]
    have e2 : ∀ a b : Spec.Uses, ((⟨false, false, false⟩ : Spec.Uses).or a).or b = a.or b := by intro a b; simp [Spec.Uses.or]
    simp only [e1, e2] at hh2
    exact hh2

/-- the derivative of `ρ ε` along a differentiable path of densities, for one functional -/
theorem deriv_exc {id : Int} {pars : List ℝ} {thr : ℝ} {X : ℝ → In1} {r s l t : ℝ} {t0 : ℝ} (h : Spec.Consistent env id pars thr (X t0))
    (hr : HasDerivAt (fun y => (X y).rho) r t0) (hs : HasDerivAt (fun y => (X y).sigma) s t0) (hl : HasDerivAt (fun y => (X y).lapl) l t0) (ht : HasDerivAt (fun y => (X y).tau) t t0) :
    HasDerivAt (fun y => (X y).rho * Spec.exc env id pars thr (X y))
      ((outOf env id pars thr (X t0)).vrho * r + (outOf env id pars thr (X t0)).vsigma * s + (outOf env id pars thr (X t0)).vlapl * l + (outOf env id pars thr (X t0)).vtau * t) t0 := by
  by_cases h0 : 0 < id
  · rcases hi : env.info id with _ | i
    · simp only [Spec.exc, outOf, if_pos h0, hi, mul_zero, zero_mul, add_zero]
      exact hasDerivAt_const _ _
    · obtain ⟨he, hd⟩ := h h0 i hi
      simp only [Spec.exc, outOf, if_pos h0, hi, he, if_true]
      have hcurve : HasDerivAt (fun y => (![(X y).rho, (X y).sigma, (X y).lapl, (X y).tau] : Fin 4 → ℝ)) ![r, s, l, t] t0 := by
        rw [hasDerivAt_pi]
        intro k
        fin_cases k <;> simpa
      have := HasFDerivAt.comp_hasDerivAt (x := t0) (f := fun y => (![(X y).rho, (X y).sigma, (X y).lapl, (X y).tau] : Fin 4 → ℝ)) hd hcurve
      refine this.congr_deriv ?_
      simp only [ContinuousLinearMap.add_apply, ContinuousLinearMap.smul_apply, ContinuousLinearMap.proj_apply, smul_eq_mul]
      rfl
  · simp only [Spec.exc, outOf, if_neg h0, mul_zero, zero_mul, add_zero]
    exact hasDerivAt_const _ _

theorem deriv_both {x c : Int} {xp cp : List ℝ} {thr : ℝ} {X : ℝ → In1} {r s l t : ℝ} {t0 : ℝ} (hx : Spec.Consistent env x xp thr (X t0)) (hc : Spec.Consistent env c cp thr (X t0))
    (hr : HasDerivAt (fun y => (X y).rho) r t0) (hs : HasDerivAt (fun y => (X y).sigma) s t0) (hl : HasDerivAt (fun y => (X y).lapl) l t0) (ht : HasDerivAt (fun y => (X y).tau) t t0) :
    HasDerivAt (fun y => (X y).rho * (Spec.exc env x xp thr (X y) + Spec.exc env c cp thr (X y)))
      ((outBoth env x c xp cp thr (X t0)).vrho * r + (outBoth env x c xp cp thr (X t0)).vsigma * s + (outBoth env x c xp cp thr (X t0)).vlapl * l +
        (outBoth env x c xp cp thr (X t0)).vtau * t) t0 := by
  have h := (deriv_exc env hx hr hs hl ht).add (deriv_exc env hc hr hs hl ht)
  refine (h.congr_of_eventuallyEq ?_).congr_deriv ?_
  · exact Filter.Eventually.of_forall fun y => by simp only [Pi.add_apply]; ring
  · simp only [outBoth, Out1.plus]; ring

end XC
end HelFEM
