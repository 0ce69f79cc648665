import Verif.Model.AssocLegendre
import Verif.Spec.AssocLegendre
import Verif.Lemmas.LegendreOrtho
import Mathlib.Analysis.Calculus.ContDiff.Deriv
import Mathlib.Analysis.SpecialFunctions.Log.Deriv
import Mathlib.Analysis.Calculus.Deriv.Polynomial
import Mathlib.Tactic.FieldSimp
import Mathlib.Tactic.LinearCombination

/-!
# Lemmas on associated Legendre functions
-/

namespace HelFEM
namespace ALeg
open Polynomial

/-! ## Jets of families obeying the two first-order Legendre relations -/

/-- `y l k x` is the `k`th derivative of the `l`th function, on the set `U` -/
structure Jet (U : Set ℝ) (y : Nat → Nat → ℝ → ℝ) : Prop where
  isOpen : IsOpen U
  der : ∀ l k x, x ∈ U → HasDerivAt (y l k) (y l (k + 1) x) x
  A : ∀ l x, x ∈ U → y (l + 1) 1 x = x * y l 1 x + (l + 1) * y l 0 x
  B : ∀ l x, x ∈ U → x * y (l + 1) 1 x = y l 1 x + (l + 1) * y (l + 1) 0 x
  bonnet : ∀ l x, x ∈ U → (l + 2) * y (l + 2) 0 x = (2 * l + 3) * x * y (l + 1) 0 x - (l + 1) * y l 0 x
  /-- differential equation at `l = 0`, once integrated -/
  const : ∃ c : ℝ, ∀ x, x ∈ U → (1 - x ^ 2) * y 0 1 x = c

theorem deriv_eq_of_eqOn {U : Set ℝ} (hU : IsOpen U) {f g : ℝ → ℝ} (h : ∀ x ∈ U, f x = g x) {x f' g' : ℝ} (hx : x ∈ U)
    (hf : HasDerivAt f f' x) (hg : HasDerivAt g g' x) : f' = g' :=
  hf.unique (hg.congr_of_eventuallyEq (Filter.eventually_of_mem (hU.mem_nhds hx) h))

namespace Jet
variable {U : Set ℝ} {y : Nat → Nat → ℝ → ℝ} (J : Jet U y)
include J

theorem Ak (l k : Nat) : ∀ x ∈ U, y (l + 1) (k + 1) x = x * y l (k + 1) x + (l + 1 + k) * y l k x := by
  induction k with
  | zero => intro x hx; simpa using J.A l x hx
  | succ k ih =>
    intro x hx
    have h1 := J.der (l + 1) (k + 1) x hx
    have h2 := ((hasDerivAt_id x).mul (J.der l (k + 1) x hx)).add ((J.der l k x hx).const_mul ((l : ℝ) + 1 + k))
    have := deriv_eq_of_eqOn J.isOpen (g := fun x => x * y l (k + 1) x + (l + 1 + k) * y l k x) ih hx h1 h2
    rw [this]; push_cast; simp only [id]; ring

theorem Bk (l k : Nat) : ∀ x ∈ U, x * y (l + 1) (k + 1) x + k * y (l + 1) k x = y l (k + 1) x + (l + 1) * y (l + 1) k x := by
  induction k with
  | zero => intro x hx; simpa using J.B l x hx
  | succ k ih =>
    intro x hx
    have h1 := ((hasDerivAt_id x).mul (J.der (l + 1) (k + 1) x hx)).add ((J.der (l + 1) k x hx).const_mul (k : ℝ))
    have h2 := (J.der l (k + 1) x hx).add ((J.der (l + 1) k x hx).const_mul ((l : ℝ) + 1))
    have := deriv_eq_of_eqOn J.isOpen (f := fun x => x * y (l + 1) (k + 1) x + k * y (l + 1) k x)
      (g := fun x => y l (k + 1) x + (l + 1) * y (l + 1) k x) ih hx h1 h2
    simp only [id] at this
    push_cast; linarith

/-- the recurrence in the degree at every order -/
theorem recL (l m : Nat) (x : ℝ) (hx : x ∈ U) :
    ((l : ℝ) + 2 - m) * y (l + 2) m x = (2 * l + 3) * x * y (l + 1) m x - (l + 1 + m) * y l m x := by
  cases m with
  | zero => simpa using J.bonnet l x hx
  | succ k =>
    have a := J.Ak (l + 1) k x hx
    have b := J.Bk l k x hx
    push_cast at *
    linear_combination ((l : ℝ) + 1 - k) * a - (l + 2 + k) * b

theorem zeroM (m : Nat) : ∀ x ∈ U, (1 - x ^ 2) * y 0 (m + 2) x = 2 * (m + 1) * x * y 0 (m + 1) x + (m + 1) * m * y 0 m x := by
  have h0 : ∀ x ∈ U, (1 - x ^ 2) * y 0 2 x = 2 * x * y 0 1 x := by
    intro x hx
    obtain ⟨c, hc⟩ := J.const
    have h1 := (((hasDerivAt_id x).pow 2).const_sub 1).mul (J.der 0 1 x hx)
    have := deriv_eq_of_eqOn J.isOpen (f := fun x => (1 - x ^ 2) * y 0 1 x) hc hx h1 (hasDerivAt_const x c)
    simp at this
    linarith
  induction m with
  | zero => intro x hx; simpa using h0 x hx
  | succ m ih =>
    intro x hx
    have h1 := (((hasDerivAt_id x).pow 2).const_sub 1).mul (J.der 0 (m + 2) x hx)
    have h2 := (((hasDerivAt_id x).const_mul (2 * ((m : ℝ) + 1))).mul (J.der 0 (m + 1) x hx)).add
      ((J.der 0 m x hx).const_mul (((m : ℝ) + 1) * m))
    have := deriv_eq_of_eqOn J.isOpen (f := fun x => (1 - x ^ 2) * y 0 (m + 2) x)
      (g := fun x => 2 * (m + 1) * x * y 0 (m + 1) x + (m + 1) * m * y 0 m x) ih hx h1 h2
    simp at this
    push_cast; linarith

/-- the recurrence in the order at every degree -/
theorem recM (l m : Nat) (x : ℝ) (hx : x ∈ U) :
    (1 - x ^ 2) * y l (m + 2) x = 2 * (m + 1) * x * y l (m + 1) x - (l + (m + 1)) * (l - (m + 1) + 1) * y l m x := by
  cases l with
  | zero => have := J.zeroM m x hx; push_cast; linarith
  | succ l =>
    have a := J.Ak l (m + 1) x hx
    have b := J.Bk l (m + 1) x hx
    have b' := J.Bk l m x hx
    push_cast at *
    linear_combination a - x * b + ((l : ℝ) + 2 + m) * (-b')

end Jet

/-! ## First kind -/

theorem jetP : Jet Set.univ (fun l k x => (derivative^[k] (Poly.pP l)).eval x) where
  isOpen := isOpen_univ
  der l k x _ := by
    rw [Function.iterate_succ_apply']
    exact Polynomial.hasDerivAt _ x
  A l x _ := by
    have := congrArg (eval x) (Poly.pP_AB l).1
    simpa using this
  B l x _ := by
    have := congrArg (eval x) (Poly.pP_AB l).2
    simpa using this
  bonnet l x _ := by
    have := congrArg (eval x) (Poly.pP_rec l)
    simp only [eval_mul, eval_C, eval_sub, eval_X] at this
    simp only [Function.iterate_zero, id]
    linarith
  const := ⟨0, fun x _ => by simp [Poly.pP]⟩

theorem pP_iter_zero (l m : Nat) (h : l < m) : derivative^[m] (Poly.pP l) = 0 := by
  have hd : ∀ l, (Poly.pP l).natDegree ≤ l := by
    intro l
    induction l using Nat.strong_induction_on with
    | _ l ih =>
      match l with
      | 0 => simp [Poly.pP]
      | 1 => simp [Poly.pP]
      | n + 2 =>
        rw [Poly.pP]
        refine (natDegree_C_mul_le _ _).trans ((natDegree_sub_le _ _).trans (max_le ?_ ?_))
        · refine (natDegree_C_mul_le _ _).trans (natDegree_mul_le.trans ?_)
          have := ih (n + 1) (by omega)
          have := natDegree_X_le (R := ℝ)
          omega
        · refine (natDegree_C_mul_le _ _).trans ?_
          have := ih n (by omega)
          omega
  exact iterate_derivative_eq_zero ((hd l).trans_lt h)

/-! ## Second kind -/

/-- the arguments away from the singularities -/
def offSing : Set ℝ := {x | x ≠ 1 ∧ x ≠ -1}

theorem isOpen_offSing : IsOpen offSing := by
  have : offSing = {1}ᶜ ∩ {-1}ᶜ := by ext x; simp [offSing]
  rw [this]
  exact isOpen_compl_singleton.inter isOpen_compl_singleton

theorem legQ_zero_eq (x : ℝ) (hx : x ∈ offSing) : legQ 0 x = 1 / 2 * (Real.log (x + 1) - Real.log (x - 1)) := by
  have h1 : x + 1 ≠ 0 := fun h => hx.2 (by linarith)
  have h2 : x - 1 ≠ 0 := fun h => hx.1 (by linarith)
  rw [legQ, Real.log_abs, Real.log_div h1 h2]

theorem smooth_legQ (l : Nat) : ∀ x ∈ offSing, ContDiffAt ℝ (↑(⊤ : ℕ∞)) (legQ l) x := by
  induction l using Nat.strong_induction_on with
  | _ l ih =>
    intro x hx
    have h1 : x + 1 ≠ 0 := fun h => hx.2 (by linarith)
    have h2 : x - 1 ≠ 0 := fun h => hx.1 (by linarith)
    match l with
    | 0 =>
      have : ContDiffAt ℝ (↑(⊤ : ℕ∞)) (fun x => 1 / 2 * (Real.log (x + 1) - Real.log (x - 1))) x :=
        contDiffAt_const.mul (((contDiffAt_id.add contDiffAt_const).log h1).sub ((contDiffAt_id.sub contDiffAt_const).log h2))
      exact this.congr_of_eventuallyEq (Filter.eventually_of_mem (isOpen_offSing.mem_nhds hx) legQ_zero_eq)
    | 1 =>
      have : legQ 1 = fun x => x * legQ 0 x - 1 := by funext x; rw [legQ, legQ]
      rw [this]
      exact (contDiffAt_id.mul (ih 0 (by omega) x hx)).sub contDiffAt_const
    | n + 2 =>
      have : legQ (n + 2) = fun x => ((2 * n + 3) * x * legQ (n + 1) x - (n + 1) * legQ n x) / (n + 2) := by funext x; rw [legQ]
      rw [this]
      exact (((contDiffAt_const.mul contDiffAt_id).mul (ih (n + 1) (by omega) x hx)).sub
        (contDiffAt_const.mul (ih n (by omega) x hx))).div_const _

theorem smooth_iter {f : ℝ → ℝ} {x : ℝ} (h : ContDiffAt ℝ (↑(⊤ : ℕ∞)) f x) (k : Nat) : ContDiffAt ℝ (↑(⊤ : ℕ∞)) (iteratedDeriv k f) x := by
  induction k with
  | zero => simpa using h
  | succ k ih => rw [iteratedDeriv_succ]; exact ContDiffAt.derivWithin ih (by rfl)

theorem hasDerivAt_iter {f : ℝ → ℝ} {x : ℝ} (h : ContDiffAt ℝ (↑(⊤ : ℕ∞)) f x) (k : Nat) :
    HasDerivAt (iteratedDeriv k f) (iteratedDeriv (k + 1) f x) x := by
  rw [iteratedDeriv_succ]
  exact ((smooth_iter h k).differentiableAt (by simp)).hasDerivAt

theorem legQ_der (l : Nat) (x : ℝ) (hx : x ∈ offSing) : HasDerivAt (legQ l) (deriv (legQ l) x) x :=
  ((smooth_legQ l x hx).differentiableAt (by simp)).hasDerivAt

theorem legQ_zero_deriv (x : ℝ) (hx : x ∈ offSing) : (1 - x ^ 2) * deriv (legQ 0) x = 1 := by
  have h1 : x + 1 ≠ 0 := fun h => hx.2 (by linarith)
  have h2 : x - 1 ≠ 0 := fun h => hx.1 (by linarith)
  have h3 : HasDerivAt (fun x => 1 / 2 * (Real.log (x + 1) - Real.log (x - 1))) (1 / 2 * (1 / (x + 1) - 1 / (x - 1))) x :=
    ((((hasDerivAt_id x).add_const 1).log h1).sub (((hasDerivAt_id x).sub_const 1).log h2)).const_mul _
  have := deriv_eq_of_eqOn isOpen_offSing legQ_zero_eq hx (legQ_der 0 x hx) h3
  rw [this]; field_simp; ring

theorem legQ_one_deriv (x : ℝ) (hx : x ∈ offSing) : deriv (legQ 1) x = legQ 0 x + x * deriv (legQ 0) x := by
  have e : legQ 1 = fun x => x * legQ 0 x - 1 := by funext x; rw [legQ, legQ]
  have := ((hasDerivAt_id x).mul (legQ_der 0 x hx)).sub_const 1
  have h := (legQ_der 1 x hx).unique (by rw [e]; exact this)
  simpa using h

theorem legQ_bonnet (l : Nat) (x : ℝ) : ((l : ℝ) + 2) * legQ (l + 2) x = (2 * l + 3) * x * legQ (l + 1) x - (l + 1) * legQ l x := by
  have : (l : ℝ) + 2 ≠ 0 := by positivity
  rw [legQ]; field_simp

theorem legQ_bonnet_deriv (l : Nat) (x : ℝ) (hx : x ∈ offSing) : ((l : ℝ) + 2) * deriv (legQ (l + 2)) x =
    (2 * l + 3) * (legQ (l + 1) x + x * deriv (legQ (l + 1)) x) - (l + 1) * deriv (legQ l) x := by
  have h1 := (legQ_der (l + 2) x hx).const_mul ((l : ℝ) + 2)
  have h2 := (((hasDerivAt_id x).const_mul (2 * (l : ℝ) + 3)).mul (legQ_der (l + 1) x hx)).sub
    ((legQ_der l x hx).const_mul ((l : ℝ) + 1))
  have := deriv_eq_of_eqOn isOpen_offSing (f := fun x => ((l : ℝ) + 2) * legQ (l + 2) x)
    (g := fun x => (2 * l + 3) * x * legQ (l + 1) x - (l + 1) * legQ l x) (fun x _ => legQ_bonnet l x) hx h1 h2
  simp only [id] at this
  linarith

theorem legQ_AB (l : Nat) (x : ℝ) (hx : x ∈ offSing) :
    deriv (legQ (l + 1)) x = x * deriv (legQ l) x + (l + 1) * legQ l x ∧
    x * deriv (legQ (l + 1)) x = deriv (legQ l) x + (l + 1) * legQ (l + 1) x := by
  induction l with
  | zero =>
    have h1 := legQ_one_deriv x hx
    have h0 := legQ_zero_deriv x hx
    have e : legQ 1 x = x * legQ 0 x - 1 := by rw [legQ, legQ]
    constructor
    · push_cast; linarith
    · rw [h1]; push_cast; simp only [zero_add, e]; linear_combination -h0
  | succ l ih =>
    obtain ⟨hA, hB⟩ := ih
    have hb := legQ_bonnet l x
    have hd := legQ_bonnet_deriv l x hx
    have hp : (l : ℝ) + 2 ≠ 0 := by positivity
    have A' : deriv (legQ (l + 1 + 1)) x = x * deriv (legQ (l + 1)) x + ((l + 1 : Nat) + 1) * legQ (l + 1) x := by
      apply mul_left_cancel₀ hp
      push_cast
      linear_combination hd - ((l : ℝ) + 1) * (-hB)
    refine ⟨A', ?_⟩
    push_cast at *
    linear_combination x * A' + x * hB - hA - hb

theorem jetQ : Jet offSing (fun l k => iteratedDeriv k (legQ l)) where
  isOpen := isOpen_offSing
  der l k x hx := hasDerivAt_iter (smooth_legQ l x hx) k
  A l x hx := by simpa using (legQ_AB l x hx).1
  B l x hx := by simpa using (legQ_AB l x hx).2
  bonnet l x _ := by simpa using legQ_bonnet l x
  const := ⟨1, fun x hx => by simpa using legQ_zero_deriv x hx⟩

end ALeg
end HelFEM
