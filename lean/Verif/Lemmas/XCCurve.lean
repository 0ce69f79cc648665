import Verif.Lemmas.XCTop

/-!
# The exchange-correlation energy along a curve of density matrices
-/

namespace HelFEM
namespace XC

section point
variable {P : ℝ → Nat → Nat → ℝ} {P' : Nat → Nat → ℝ} {t0 : ℝ} (h : ∀ i j, HasDerivAt (fun t => P t i j) (P' i j) t0) (x : Spec.Point 3)
include h

theorem form_curve (idx : List Nat) (u v : Fin idx.length → ℂ) : HasDerivAt (fun t => Spec.form (P t) idx u v) (Spec.form P' idx u v) t0 := by
  unfold Spec.form
  exact HasDerivAt.fun_sum fun a _ => HasDerivAt.fun_sum fun b _ => (h _ _).mul_const _

theorem rho_curve : HasDerivAt (fun t => Spec.rho (P t) x) (Spec.rho P' x) t0 := form_curve h _ _ _

theorem grad_curve (c : Fin 3) : HasDerivAt (fun t => Spec.grad (P t) x c) (Spec.grad P' x c) t0 := by
  unfold Spec.grad
  exact (form_curve h _ _ _).add (form_curve h _ _ _)

theorem lapl_curve : HasDerivAt (fun t => Spec.lapl (P t) x) (Spec.lapl P' x) t0 := by
  unfold Spec.lapl
  exact ((form_curve h _ _ _).add ((HasDerivAt.fun_sum fun c _ => form_curve h _ _ _).const_mul _)).add (form_curve h _ _ _)

theorem tau_curve : HasDerivAt (fun t => Spec.tau (P t) x) (Spec.tau P' x) t0 := by
  unfold Spec.tau
  exact (HasDerivAt.fun_sum fun c _ => form_curve h _ _ _).const_mul _

end point

theorem dot_curve {P Q : ℝ → Nat → Nat → ℝ} {P' Q' : Nat → Nat → ℝ} {t0 : ℝ} (h : ∀ i j, HasDerivAt (fun t => P t i j) (P' i j) t0) (h' : ∀ i j, HasDerivAt (fun t => Q t i j) (Q' i j) t0)
    (x : Spec.Point 3) : HasDerivAt (fun t => ∑ c, Spec.grad (P t) x c * Spec.grad (Q t) x c)
      (∑ c, (Spec.grad P' x c * Spec.grad (Q t0) x c + Spec.grad (P t0) x c * Spec.grad Q' x c)) t0 :=
  HasDerivAt.fun_sum fun c _ => (grad_curve h x c).mul (grad_curve h' x c)

variable {env : Libxc} {fn : Funcs}

theorem energy_curve (pts : List (Spec.Point 3)) {P : ℝ → Nat → Nat → ℝ} {P' : Nat → Nat → ℝ} {t0 : ℝ} (hP : ∀ i j, HasDerivAt (fun t => P t i j) (P' i j) t0)
    (h : ∀ x ∈ pts, Spec.Consistent env fn.x fn.xp fn.thr (Spec.input (P t0) x) ∧ Spec.Consistent env fn.c fn.cp fn.thr (Spec.input (P t0) x)) :
    HasDerivAt (fun t => Spec.energy env fn.x fn.c fn.xp fn.cp fn.thr pts (P t)) ((pts.map (deriv1 env fn (P t0) P')).sum) t0 := by
  induction pts with
  | nil =>
    simp only [Spec.energy, List.map_nil, List.sum_nil]
    exact hasDerivAt_const _ _
  | cons x r ih =>
    simp only [Spec.energy, List.map_cons, List.sum_cons]
    refine HasDerivAt.add ?_ (ih fun y hy => h y (List.mem_cons_of_mem _ hy))
    obtain ⟨hx, hc⟩ := h x List.mem_cons_self
    have hsig : HasDerivAt (fun t => (Spec.input (P t) x).sigma) (2 * ∑ c, Spec.grad (P t0) x c * Spec.grad P' x c) t0 := by
      refine ((dot_curve hP hP x).congr_deriv ?_).congr_of_eventuallyEq (Filter.Eventually.of_forall fun t => ?_)
      · rw [Finset.mul_sum]
        exact Finset.sum_congr rfl fun c _ => by ring
      · simp only [Spec.input]
    have := deriv_both env (X := fun t => Spec.input (P t) x) (t0 := t0) hx hc (rho_curve hP x) hsig (lapl_curve hP x) (tau_curve hP x)
    refine (this.const_mul x.w).congr_deriv ?_
    simp only [deriv1]

theorem energy2_curve (pts : List (Spec.Point 3)) {A B : ℝ → Nat → Nat → ℝ} {A' B' : Nat → Nat → ℝ} {t0 : ℝ} (hA : ∀ i j, HasDerivAt (fun t => A t i j) (A' i j) t0)
    (hB : ∀ i j, HasDerivAt (fun t => B t i j) (B' i j) t0)
    (h : ∀ x ∈ pts, Spec.Consistent2 env fn.x fn.xp fn.thr (Spec.inputs (A t0) (B t0) x) ∧ Spec.Consistent2 env fn.c fn.cp fn.thr (Spec.inputs (A t0) (B t0) x)) :
    HasDerivAt (fun t => Spec.energy2 env fn.x fn.c fn.xp fn.cp fn.thr pts (A t) (B t))
      ((pts.map (derivA env fn false (A t0) (B t0) A')).sum + (pts.map (derivB env fn false (A t0) (B t0) B')).sum) t0 := by
  induction pts with
  | nil =>
    simp only [Spec.energy2, List.map_nil, List.sum_nil, add_zero]
    exact hasDerivAt_const _ _
  | cons x r ih =>
    simp only [Spec.energy2, List.map_cons, List.sum_cons]
    have hd : HasDeriv2 (fun t => Spec.inputs (A t) (B t) x)
        ⟨Spec.rho A' x, Spec.rho B' x, ∑ c, (Spec.grad A' x c * Spec.grad (A t0) x c + Spec.grad (A t0) x c * Spec.grad A' x c),
          ∑ c, (Spec.grad A' x c * Spec.grad (B t0) x c + Spec.grad (A t0) x c * Spec.grad B' x c), ∑ c, (Spec.grad B' x c * Spec.grad (B t0) x c + Spec.grad (B t0) x c * Spec.grad B' x c),
          Spec.lapl A' x, Spec.lapl B' x, Spec.tau A' x, Spec.tau B' x⟩ t0 :=
      ⟨rho_curve hA x, rho_curve hB x, dot_curve hA hA x, dot_curve hA hB x, dot_curve hB hB x, lapl_curve hA x, lapl_curve hB x, tau_curve hA x, tau_curve hB x⟩
    have hp := deriv_both2 env (X := fun t => Spec.inputs (A t) (B t) x) (t0 := t0) (h x List.mem_cons_self).1 (h x List.mem_cons_self).2 hd
    refine ((hp.const_mul x.w).add (ih fun y hy => h y (List.mem_cons_of_mem _ hy))).congr_deriv ?_
    simp only [derivA, derivB, Out2.dot, Bool.false_eq_true, if_false, sub_zero]
    generalize outBoth2 env fn.x fn.c fn.xp fn.cp fn.thr (Spec.inputs (A t0) (B t0) x) = O
    have s1 : O.vsaa * ∑ c, (Spec.grad A' x c * Spec.grad (A t0) x c + Spec.grad (A t0) x c * Spec.grad A' x c) +
        O.vsab * ∑ c, (Spec.grad A' x c * Spec.grad (B t0) x c + Spec.grad (A t0) x c * Spec.grad B' x c) +
        O.vsbb * ∑ c, (Spec.grad B' x c * Spec.grad (B t0) x c + Spec.grad (B t0) x c * Spec.grad B' x c) =
        ∑ c, (2 * O.vsaa * Spec.grad (A t0) x c + O.vsab * Spec.grad (B t0) x c) * Spec.grad A' x c + ∑ c, (2 * O.vsbb * Spec.grad (B t0) x c + O.vsab * Spec.grad (A t0) x c) * Spec.grad B' x c := by
      simp only [Finset.mul_sum, ← Finset.sum_add_distrib]
      exact Finset.sum_congr rfl fun c _ => by ring
    linear_combination x.w * s1

end XC
end HelFEM
