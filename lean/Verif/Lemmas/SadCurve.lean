import Verif.Lemmas.SadGrid

/-!
# The exchange-correlation energy of shell densities along a curve
-/

namespace HelFEM
namespace XC

/-- `S'` is the derivative of the shell densities at `t0` -/
structure SCurve (S : ℝ → Spec.Shells) (S' : Spec.Shells) (t0 : ℝ) : Prop where
  shells : ∀ t, (S t).L = S'.L
  deriv : ∀ l i j, HasDerivAt (fun t => (S t).D l i j) (S'.D l i j) t0

section point
variable {S : ℝ → Spec.Shells} {S' : Spec.Shells} {t0 : ℝ} (h : SCurve S S' t0) (x : Spec.SPoint)
include h

theorem sform_curve (l : Nat) (idx : List Nat) (u v : Fin idx.length → ℝ) : HasDerivAt (fun t => Spec.sform ((S t).D l) idx u v) (Spec.sform (S'.D l) idx u v) t0 :=
  HasDerivAt.fun_sum fun a _ => HasDerivAt.fun_sum fun b _ => (h.deriv l _ _).mul_const _

theorem srho_curve : HasDerivAt (fun t => (S t).rho x) (S'.rho x) t0 := by
  unfold Spec.Shells.rho
  simp only [h.shells]
  exact HasDerivAt.fun_sum fun l _ => sform_curve h l _ _ _

theorem sdrho_curve : HasDerivAt (fun t => (S t).drho x) (S'.drho x) t0 := by
  unfold Spec.Shells.drho
  simp only [h.shells]
  exact HasDerivAt.fun_sum fun l _ => (sform_curve h l _ _ _).add (sform_curve h l _ _ _)

theorem sddrho_curve : HasDerivAt (fun t => (S t).ddrho x) (S'.ddrho x) t0 := by
  unfold Spec.Shells.ddrho
  simp only [h.shells]
  exact HasDerivAt.fun_sum fun l _ => ((sform_curve h l _ _ _).add ((sform_curve h l _ _ _).const_mul _)).add (sform_curve h l _ _ _)

theorem slapl_curve : HasDerivAt (fun t => (S t).lapl x) (S'.lapl x) t0 := (sddrho_curve h x).add ((sdrho_curve h x).const_mul _)

theorem stau_curve : HasDerivAt (fun t => (S t).tau x) (S'.tau x) t0 := by
  unfold Spec.Shells.tau
  simp only [h.shells]
  exact (HasDerivAt.fun_sum fun l _ => (sform_curve h l _ _ _).add ((sform_curve h l _ _ _).const_mul _)).const_mul _

end point

variable {env : Libxc} {fn : Funcs}

theorem senergy_curve (pts : List Spec.SPoint) {S : ℝ → Spec.Shells} {S' : Spec.Shells} {t0 : ℝ} (hS : SCurve S S' t0)
    (h : ∀ x ∈ pts, Spec.Consistent env fn.x fn.xp fn.thr ((S t0).input x) ∧ Spec.Consistent env fn.c fn.cp fn.thr ((S t0).input x)) :
    HasDerivAt (fun t => Spec.senergy env fn.x fn.c fn.xp fn.cp fn.thr pts (S t)) ((pts.map (sderiv env fn (S t0) S')).sum) t0 := by
  induction pts with
  | nil =>
    simp only [Spec.senergy, List.map_nil, List.sum_nil]
    exact hasDerivAt_const _ _
  | cons x r ih =>
    simp only [Spec.senergy, List.map_cons, List.sum_cons]
    refine HasDerivAt.add ?_ (ih fun y hy => h y (List.mem_cons_of_mem _ hy))
    obtain ⟨hx, hc⟩ := h x List.mem_cons_self
    have hsig : HasDerivAt (fun t => ((S t).input x).sigma) (2 * ((S t0).drho x * S'.drho x)) t0 := by
      refine ((((sdrho_curve hS x).mul (sdrho_curve hS x))).congr_deriv (by ring)).congr_of_eventuallyEq (Filter.Eventually.of_forall fun t => ?_)
      simp only [Spec.Shells.input, pow_two, Pi.mul_apply]
    have := deriv_both env (X := fun t => (S t).input x) (t0 := t0) hx hc (srho_curve hS x) hsig (slapl_curve hS x) (stau_curve hS x)
    refine (this.const_mul x.w).congr_deriv ?_
    simp only [sderiv, chan]
    ring

theorem senergy2_curve (pts : List Spec.SPoint) {A B : ℝ → Spec.Shells} {A' B' : Spec.Shells} {t0 : ℝ} (hA : SCurve A A' t0) (hB : SCurve B B' t0)
    (h : ∀ x ∈ pts, Spec.Consistent2 env fn.x fn.xp fn.thr (Spec.sinputs (A t0) (B t0) x) ∧ Spec.Consistent2 env fn.c fn.cp fn.thr (Spec.sinputs (A t0) (B t0) x)) :
    HasDerivAt (fun t => Spec.senergy2 env fn.x fn.c fn.xp fn.cp fn.thr pts (A t) (B t))
      ((pts.map (sderivA env fn (A t0) (B t0) A')).sum + (pts.map (sderivB env fn (A t0) (B t0) B')).sum) t0 := by
  induction pts with
  | nil =>
    simp only [Spec.senergy2, List.map_nil, List.sum_nil, add_zero]
    exact hasDerivAt_const _ _
  | cons x r ih =>
    simp only [Spec.senergy2, List.map_cons, List.sum_cons]
    obtain ⟨hx, hc⟩ := h x List.mem_cons_self
    have hd : HasDeriv2 (fun t => Spec.sinputs (A t) (B t) x)
        ⟨A'.rho x, B'.rho x, 2 * ((A t0).drho x * A'.drho x), A'.drho x * (B t0).drho x + (A t0).drho x * B'.drho x, 2 * ((B t0).drho x * B'.drho x), A'.lapl x, B'.lapl x, A'.tau x, B'.tau x⟩ t0 := by
      refine ⟨srho_curve hA x, srho_curve hB x, ?_, (sdrho_curve hA x).mul (sdrho_curve hB x), ?_, slapl_curve hA x, slapl_curve hB x, stau_curve hA x, stau_curve hB x⟩
      · refine (((sdrho_curve hA x).mul (sdrho_curve hA x)).congr_deriv (by ring)).congr_of_eventuallyEq (Filter.Eventually.of_forall fun t => ?_)
        simp only [Spec.sinputs, pow_two, Pi.mul_apply]
      · refine (((sdrho_curve hB x).mul (sdrho_curve hB x)).congr_deriv (by ring)).congr_of_eventuallyEq (Filter.Eventually.of_forall fun t => ?_)
        simp only [Spec.sinputs, pow_two, Pi.mul_apply]
    have := deriv_both2 env (X := fun t => Spec.sinputs (A t) (B t) x) (t0 := t0) hx hc hd
    refine ((this.const_mul x.w).add (ih fun y hy => h y (List.mem_cons_of_mem _ hy))).congr_deriv ?_
    simp only [sderivA, sderivB, chan, Out2.dot]
    ring

end XC
end HelFEM
