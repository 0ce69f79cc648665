import Mathlib.MeasureTheory.Integral.Gamma
import Mathlib.Analysis.SpecialFunctions.Gaussian.GaussianIntegral
import Mathlib.Analysis.SpecialFunctions.Gamma.Basic
import Mathlib.LinearAlgebra.Matrix.NonsingularInverse
import Mathlib.Tactic.Linarith
import Mathlib.Tactic.Positivity
import Mathlib.Tactic.FieldSimp
import Mathlib.Tactic.Ring
import Mathlib.Tactic.NormNum
import Verif.Model.Lcao
import Verif.Spec.Lcao

/-!
# Lemmas on the trial orbitals and their profiles
-/

namespace HelFEM.Lcao

open Matrix XC MeasureTheory

/-! ### Normalisation -/

theorem doubleFactorialLoop_eq : ∀ (k : Nat) (v : ℝ), doubleFactorialLoop k v = v * (Nat.doubleFactorial k : ℝ) := by
  intro k
  induction k using Nat.strongRecOn with
  | ind k ih =>
    intro v
    rw [doubleFactorialLoop]
    by_cases h : 2 ≤ k
    · obtain ⟨j, rfl⟩ : ∃ j, k = j + 2 := ⟨k - 2, by omega⟩
      rw [if_pos h, Nat.add_sub_cancel, ih j (by omega), Nat.doubleFactorial_add_two]
      push_cast; ring
    · rw [if_neg h]
      have : k = 0 ∨ k = 1 := by omega
      rcases this with rfl | rfl <;> simp

theorem doubleFactorial_eq (n : Nat) : doubleFactorial n = (Nat.doubleFactorial n : ℝ) := by
  rw [doubleFactorial, doubleFactorialLoop_eq, one_mul]

theorem factorial_eq (n : Nat) : factorial n = (Nat.factorial n : ℝ) := by
  unfold factorial
  induction n with
  | zero => simp
  | succ n ih =>
    rcases Nat.eq_zero_or_pos n with h | h
    · subst h; simp
    · rw [show n + 1 - 1 = (n - 1) + 1 by omega, List.range'_1_concat, List.foldl_append, ih]
      simp only [List.foldl_cons, List.foldl_nil]
      rw [Nat.factorial_succ, show 2 + (n - 1) = n + 1 by omega]
      push_cast; ring

theorem gto_norm (l : Nat) {α : ℝ} (hα : 0 < α) : Spec.radialNorm (fun r => radialGTO Real.pi r l α) = 1 := by
  have hpi := Real.pi_pos
  have hdf : (0 : ℝ) < (Nat.doubleFactorial (2 * l + 1) : ℝ) := by exact_mod_cast Nat.doubleFactorial_pos _
  have hI := integral_rpow_mul_exp_neg_mul_rpow (p := 2) (q := 2 * (l : ℝ) + 2) (b := 2 * α) (by norm_num)
    (by have : (0 : ℝ) ≤ l := Nat.cast_nonneg l; linarith) (by linarith)
  have hG := Real.Gamma_nat_add_one_add_half l
  have hpt : ∀ r ∈ Set.Ioi (0 : ℝ), r ^ 2 * radialGTO Real.pi r l α ^ 2
      = (2 ^ (2 * l + 4) * α ^ ((l : ℝ) + 3 / 2) / (Real.sqrt (2 * Real.pi) * (Nat.doubleFactorial (2 * l + 1) : ℝ)))
        * (r ^ (2 * (l : ℝ) + 2) * Real.exp (-(2 * α) * r ^ (2 : ℝ))) := by
    intro r hr
    have hr : 0 < r := hr
    rw [radialGTO, doubleFactorial_eq, div_pow, mul_pow, mul_pow, mul_pow, mul_pow, Real.sq_sqrt hdf.le]
    rw [show ((2 * Real.pi) ^ ((1 : ℝ) / 4)) ^ 2 = Real.sqrt (2 * Real.pi) by
      rw [Real.sqrt_eq_rpow, ← Real.rpow_natCast, ← Real.rpow_mul (by positivity)]; norm_num]
    rw [show (α ^ ((2 * (l : ℝ) + 3) / 4)) ^ 2 = α ^ ((l : ℝ) + 3 / 2) by
      rw [← Real.rpow_natCast, ← Real.rpow_mul hα.le]; congr 1; push_cast; ring]
    rw [show r ^ (2 * (l : ℝ) + 2) = r ^ (2 * l + 2) by rw [← Real.rpow_natCast]; push_cast; rfl]
    rw [show r ^ (2 : ℝ) = r * r by rw [show (2 : ℝ) = ((2 : ℕ) : ℝ) by norm_num, Real.rpow_natCast]; ring]
    rw [show Real.exp (-α * r * r) ^ 2 = Real.exp (-(2 * α) * (r * r)) by rw [← Real.exp_nat_mul]; congr 1; push_cast; ring]
    ring
  rw [Spec.radialNorm, setIntegral_congr_fun measurableSet_Ioi hpt, integral_const_mul, hI]
  rw [show (2 * (l : ℝ) + 2 + 1) / 2 = (l : ℝ) + 1 + 1 / 2 by ring, hG]
  rw [show -(2 * (l : ℝ) + 2 + 1) / 2 = -((l : ℝ) + 3 / 2) by ring, Real.mul_rpow (by norm_num) hα.le, Real.rpow_neg hα.le,
    Real.rpow_neg (by norm_num)]
  rw [show (2 : ℝ) ^ ((l : ℝ) + 3 / 2) = 2 ^ (l + 1) * Real.sqrt 2 by
    rw [show (l : ℝ) + 3 / 2 = ((l + 1 : ℕ) : ℝ) + 1 / 2 by push_cast; ring, Real.rpow_add (by norm_num), Real.rpow_natCast, Real.sqrt_eq_rpow]]
  rw [Real.sqrt_mul (by norm_num)]
  have ha : 0 < α ^ ((l : ℝ) + 3 / 2) := by positivity
  have h2 : Real.sqrt 2 * Real.sqrt 2 = 2 := Real.mul_self_sqrt (by norm_num)
  have hs : 0 < Real.sqrt Real.pi := Real.sqrt_pos.mpr hpi
  have hs2 : 0 < Real.sqrt 2 := Real.sqrt_pos.mpr (by norm_num)
  generalize α ^ ((l : ℝ) + 3 / 2) = a at ha
  generalize (Nat.doubleFactorial (2 * l + 1) : ℝ) = d at hdf
  generalize Real.sqrt Real.pi = sp at hs
  generalize Real.sqrt 2 = s at h2 hs2
  have e : (2 : ℝ) ^ (2 * l + 4) = 4 * (2 ^ (l + 1) * 2 ^ (l + 1)) := by rw [← pow_add, show 2 * l + 4 = (l + 1 + (l + 1)) + 2 by ring, pow_add]; ring
  rw [e]
  have hp : (0 : ℝ) < 2 ^ (l + 1) := by positivity
  generalize (2 : ℝ) ^ (l + 1) = t at hp
  field_simp
  nlinarith

theorem sto_norm (l : Nat) {ζ : ℝ} (hζ : 0 < ζ) : Spec.radialNorm (fun r => radialSTO r l ζ) = 1 := by
  have hf : (0 : ℝ) < (Nat.factorial (2 * l + 2) : ℝ) := by exact_mod_cast Nat.factorial_pos _
  have hI := integral_rpow_mul_exp_neg_mul_rpow (p := 1) (q := 2 * (l : ℝ) + 2) (b := 2 * ζ) (by norm_num)
    (by have : (0 : ℝ) ≤ l := Nat.cast_nonneg l; linarith) (by linarith)
  have hG := Real.Gamma_nat_eq_factorial (2 * l + 2)
  have hpt : ∀ r ∈ Set.Ioi (0 : ℝ), r ^ 2 * radialSTO r l ζ ^ 2
      = ((2 * ζ) ^ (2 * (l : ℝ) + 3) / (Nat.factorial (2 * l + 2) : ℝ)) * (r ^ (2 * (l : ℝ) + 2) * Real.exp (-(2 * ζ) * r ^ (1 : ℝ))) := by
    intro r hr
    have hr : 0 < r := hr
    rw [radialSTO, factorial_eq, mul_pow, mul_pow, div_pow, Real.sq_sqrt hf.le, Real.rpow_one]
    rw [show ((2 * ζ) ^ ((l : ℝ) + 3 / 2)) ^ 2 = (2 * ζ) ^ (2 * (l : ℝ) + 3) by
      rw [← Real.rpow_natCast, ← Real.rpow_mul (by positivity)]; congr 1; push_cast; ring]
    rw [show r ^ (2 * (l : ℝ) + 2) = r ^ (2 * l + 2) by rw [← Real.rpow_natCast]; push_cast; rfl]
    rw [show Real.exp (-ζ * r) ^ 2 = Real.exp (-(2 * ζ) * r) by rw [← Real.exp_nat_mul]; congr 1; push_cast; ring]
    ring
  rw [Spec.radialNorm, setIntegral_congr_fun measurableSet_Ioi hpt, integral_const_mul, hI]
  rw [show (2 * (l : ℝ) + 2 + 1) / 1 = ((2 * l + 2 : ℕ) : ℝ) + 1 by push_cast; ring, hG]
  rw [show -(2 * (l : ℝ) + 2 + 1) / 1 = -(2 * (l : ℝ) + 3) by ring, Real.rpow_neg (by positivity)]
  have ha : 0 < (2 * ζ) ^ (2 * (l : ℝ) + 3) := by positivity
  field_simp

/-! ### Projections -/

variable {N : Nat}

/-- All points of all elements -/
abbrev Pt (es : List SadElem) := (c : Fin es.length) × Fin (es[c.1]).npt

/-- weights, radii -/
def wOf (es : List SadElem) (p : Pt es) : ℝ := (es[p.1.1]).wrad p.2
def rOf (es : List SadElem) (p : Pt es) : ℝ := (es[p.1.1]).r p.2

/-- basis function `i` at the points of an element: what stands in the columns with this index -/
noncomputable def chiEl (e : SadElem) (i : Nat) (p : Fin e.npt) : ℝ := ∑ j : Fin e.idx.length, if i = e.idx[j] then e.bf p j else 0

/-- basis function `i` at all points -/
noncomputable def chi (es : List SadElem) (i : Nat) (p : Pt es) : ℝ := chiEl es[p.1.1] i p.2

theorem addCols_eq {m : Nat} (idx : List Nat) (h : ∀ j ∈ idx, j < N) (c : Matrix (Fin m) (Fin idx.length) ℝ) (A : Matrix (Fin m) (Fin N) ℝ) :
    addCols idx c A = .ok (A + Matrix.of fun x i => ∑ j : Fin idx.length, if i.1 = idx[j] then c x j else 0) := by
  unfold addCols
  have key : ∀ (l : List (Fin idx.length)) (A : Matrix (Fin m) (Fin N) ℝ),
      l.foldlM (fun (A : Matrix (Fin m) (Fin N) ℝ) j =>
        if idx[j] < N then (.ok (Matrix.of fun x i => if i.1 = idx[j] then A x i + c x j else A x i) : Res _) else .ub) A
      = .ok (A + Matrix.of fun x i => (l.map fun j => if i.1 = idx[j] then c x j else 0).sum) := by
    intro l
    induction l with
    | nil => intro A; simp; ext; simp
    | cons j l ih =>
      intro A
      have hj : idx[j] < N := h _ (List.getElem_mem _)
      rw [List.foldlM_cons, if_pos hj, Res.ok_bind, ih]
      congr 1
      ext x i
      simp only [Matrix.add_apply, Matrix.of_apply, List.map_cons, List.sum_cons]
      split_ifs <;> ring
  rw [key]
  rfl

theorem foldlM_add {α : Type} {m k : Nat} (f : Matrix (Fin m) (Fin k) ℝ → α → Res (Matrix (Fin m) (Fin k) ℝ)) (g : α → Matrix (Fin m) (Fin k) ℝ)
    (l : List α) (h : ∀ a ∈ l, ∀ A, f A a = .ok (A + g a)) (A : Matrix (Fin m) (Fin k) ℝ) : l.foldlM f A = .ok (A + (l.map g).sum) := by
  induction l generalizing A with
  | nil => simp
  | cons a l ih =>
    rw [List.foldlM_cons, h a (by simp), Res.ok_bind, ih (fun b hb => h b (by simp [hb]))]
    simp [add_assoc]

theorem sum_apply {α : Type} {m k : Nat} (g : α → Matrix (Fin m) (Fin k) ℝ) (l : List α) (x : Fin m) (i : Fin k) :
    (l.map g).sum x i = (l.map fun a => g a x i).sum := by
  induction l with
  | nil => rfl
  | cons a l ih => simp [Matrix.add_apply, ih]

theorem sum_points (es : List SadElem) (F : (e : SadElem) → Fin e.npt → ℝ) :
    (es.map fun e => ∑ p, F e p).sum = ∑ p : Pt es, F es[p.1.1] p.2 := by
  rw [Fintype.sum_sigma, ← Fin.sum_univ_fun_getElem]

theorem projection_eq {m : Nat} (ao : ℝ → ℝ → ℝ) (expn : Fin m → ℝ) (es : List SadElem) (h : ∀ e ∈ es, ∀ j ∈ e.idx, j < N) :
    projection N ao expn es
      = .ok (Matrix.of fun x i => Spec.quad (wOf es) (rOf es) fun p => ao (rOf es p) (expn x) * chi es i.1 p) := by
  unfold projection
  rw [foldlM_add _ (fun e => Matrix.of fun x i => ∑ j : Fin e.idx.length, if i.1 = e.idx[j] then contrib ao expn e x j else 0) es
    (fun e he A => addCols_eq _ (h e he) _ _), zero_add]
  congr 1
  ext x i
  rw [sum_apply]
  simp only [Matrix.of_apply, Spec.quad]
  refine Eq.trans ?_ (sum_points es fun e p => e.wrad p * e.r p ^ 2 * (ao (e.r p) (expn x) * chiEl e i.1 p))
  congr 1
  refine List.map_congr_left fun e _ => ?_
  simp only [contrib, Matrix.mul_apply, Matrix.transpose_apply, aoMatrix, Matrix.of_apply, Matrix.diagonal_apply, chiEl, mul_ite, mul_zero,
    Finset.sum_ite_eq', Finset.mem_univ, if_true, Finset.mul_sum]
  rw [Finset.sum_comm]
  refine Finset.sum_congr rfl fun j _ => ?_
  split_ifs
  · refine Finset.sum_congr rfl fun p _ => ?_
    ring
  · simp

theorem orbProjection_eq {m k : Nat} (C : Matrix (Fin N) (Fin k) ℝ) (ao : ℝ → ℝ → ℝ) (expn : Fin m → ℝ) (es : List SadElem)
    (h : ∀ e ∈ es, ∀ j ∈ e.idx, j < N) :
    orbProjection C ao expn es
      = .ok (Matrix.of fun x i => Spec.quad (wOf es) (rOf es) fun p => ao (rOf es p) (expn i) * ∑ n : Fin N, chi es n.1 p * C n x) := by
  have hg : ∀ e ∈ es, ∃ G, gatherRows C e.idx = .ok G ∧ ∀ p x, (e.bf * G) p x = ∑ n : Fin N, chiEl e n.1 p * C n x := by
    intro e he
    have hh : ∀ j : Fin e.idx.length, e.idx[j] < N := fun j => h e he _ (List.getElem_mem _)
    refine ⟨_, by rw [gatherRows, dif_pos hh], fun p x => ?_⟩
    simp only [Matrix.mul_apply, Matrix.of_apply, chiEl, Finset.sum_mul, ite_mul, zero_mul]
    rw [Finset.sum_comm]
    refine Finset.sum_congr rfl fun j _ => ?_
    rw [Finset.sum_eq_single ⟨e.idx[j], hh j⟩]
    · simp
    · intro b _ hb
      rw [if_neg]
      intro hc; exact hb (Fin.ext hc)
    · simp
  unfold orbProjection
  rw [foldlM_add _ (fun e => Matrix.of fun x i => ∑ p, e.wrad p * e.r p ^ 2 * (ao (e.r p) (expn i) * ∑ n : Fin N, chiEl e n.1 p * C n x)) es
    (fun e he A => ?_), zero_add]
  · congr 1
    ext x i
    rw [sum_apply]
    simp only [Matrix.of_apply, Spec.quad]
    rw [sum_points es fun e p => e.wrad p * e.r p ^ 2 * (ao (e.r p) (expn i) * ∑ n : Fin N, chiEl e n.1 p * C n x)]
    rfl
  · obtain ⟨G, hG, hb⟩ := hg e he
    rw [hG, Res.ok_bind]
    congr 2
    ext x i
    simp only [Matrix.mul_apply, Matrix.transpose_apply, aoMatrix, Matrix.of_apply, Matrix.diagonal_apply, mul_ite, mul_zero,
      Finset.sum_ite_eq', Finset.mem_univ, if_true]
    refine Finset.sum_congr rfl fun p _ => ?_
    rw [← hb p x, Matrix.mul_apply]
    ring

theorem quad_comb {ι : Type} [Fintype ι] {k : Nat} (w r : ι → ℝ) (c : Fin k → ℝ) (g : Fin k → ι → ℝ) :
    (Spec.quad w r fun p => ∑ a, c a * g a p) = ∑ a, c a * Spec.quad w r (g a) := by
  simp only [Spec.quad, Finset.mul_sum]
  rw [Finset.sum_comm]
  refine Finset.sum_congr rfl fun a _ => Finset.sum_congr rfl fun p _ => ?_
  ring

theorem quad_mul_comb {ι : Type} [Fintype ι] {k : Nat} (w r f : ι → ℝ) (c : Fin k → ℝ) (ψ : Fin k → ι → ℝ) :
    (Spec.quad w r fun p => f p * ∑ a, c a * ψ a p) = ∑ a, c a * Spec.quad w r fun p => f p * ψ a p := by
  rw [← quad_comb]
  congr 1; funext p
  rw [Finset.mul_sum]
  refine Finset.sum_congr rfl fun a _ => ?_
  ring

theorem quad_comb_comb {ι : Type} [Fintype ι] {k m : Nat} (w r : ι → ℝ) (c : Fin k → ℝ) (d : Fin m → ℝ) (ψ : Fin k → ι → ℝ) (φ : Fin m → ι → ℝ) :
    (Spec.quad w r fun p => (∑ a, c a * ψ a p) * ∑ b, d b * φ b p) = ∑ a, c a * ∑ b, d b * Spec.quad w r fun p => ψ a p * φ b p := by
  rw [show (fun p => (∑ a, c a * ψ a p) * ∑ b, d b * φ b p) = fun p => ∑ a, c a * (ψ a p * ∑ b, d b * φ b p) by
    funext p; rw [Finset.sum_mul]; exact Finset.sum_congr rfl fun a _ => by ring, quad_comb w r c fun a p => ψ a p * ∑ b, d b * φ b p]
  refine Finset.sum_congr rfl fun a _ => ?_
  rw [quad_mul_comb]

/-- Bessel's inequality for a quadrature with weights that are not negative -/
theorem bessel {ι : Type} [Fintype ι] {k : Nat} (w r : ι → ℝ) (hw : ∀ p, 0 ≤ w p) (f : ι → ℝ) (ψ : Fin k → ι → ℝ)
    (ho : ∀ a b, Spec.quad w r (fun p => ψ a p * ψ b p) = if a = b then 1 else 0) :
    ∑ a, (Spec.quad w r fun p => f p * ψ a p) ^ 2 ≤ Spec.quad w r fun p => f p ^ 2 := by
  set c : Fin k → ℝ := fun a => Spec.quad w r fun p => f p * ψ a p with hc
  have h0 : 0 ≤ Spec.quad w r fun p => (f p - ∑ a, c a * ψ a p) ^ 2 :=
    Finset.sum_nonneg fun p _ => mul_nonneg (mul_nonneg (hw p) (sq_nonneg _)) (sq_nonneg _)
  have e1 : (Spec.quad w r fun p => f p * ∑ a, c a * ψ a p) = ∑ a, c a ^ 2 := by
    rw [quad_mul_comb]
    exact Finset.sum_congr rfl fun a _ => by rw [sq]
  have e2 : (Spec.quad w r fun p => (∑ a, c a * ψ a p) * ∑ b, c b * ψ b p) = ∑ a, c a ^ 2 := by
    rw [quad_comb_comb]
    refine Finset.sum_congr rfl fun a _ => ?_
    rw [Finset.sum_eq_single a, ho, if_pos rfl]
    · ring
    · intro b _ hb; rw [ho, if_neg (Ne.symm hb), mul_zero]
    · simp
  have e : (Spec.quad w r fun p => (f p - ∑ a, c a * ψ a p) ^ 2) = (Spec.quad w r fun p => f p ^ 2)
      - 2 * (Spec.quad w r fun p => f p * ∑ a, c a * ψ a p) + Spec.quad w r fun p => (∑ a, c a * ψ a p) * ∑ b, c b * ψ b p := by
    simp only [Spec.quad]
    rw [Finset.mul_sum, ← Finset.sum_sub_distrib, ← Finset.sum_add_distrib]
    refine Finset.sum_congr rfl fun p _ => ?_
    ring
  rw [e, e1, e2] at h0
  linarith

/-- The overlap matrix of the basis functions by the quadrature -/
noncomputable def overlapQ (es : List SadElem) (N : Nat) : Matrix (Fin N) (Fin N) ℝ :=
  Matrix.of fun i j => Spec.quad (wOf es) (rOf es) fun p => chi es i.1 p * chi es j.1 p

theorem orbitals_orthonormal {M : Nat} (es : List SadElem) (C : Matrix (Fin N) (Fin M) ℝ) (ho : Cᵀ * overlapQ es N * C = 1) (a b : Fin M) :
    (Spec.quad (wOf es) (rOf es) fun p => (∑ n : Fin N, chi es n.1 p * C n a) * ∑ n : Fin N, chi es n.1 p * C n b) = if a = b then 1 else 0 := by
  have := congrFun (congrFun ho a) b
  rw [Matrix.one_apply] at this
  rw [← this]
  simp only [mul_comm (chi es _ _) (C _ _)]
  rw [quad_comb_comb (wOf es) (rOf es) (fun n => C n a) (fun n => C n b) (fun n => chi es n.1) (fun n => chi es n.1)]
  simp only [Matrix.mul_apply, Matrix.transpose_apply, overlapQ, Matrix.of_apply, Finset.mul_sum, Finset.sum_mul]
  rw [Finset.sum_comm]
  refine Finset.sum_congr rfl fun i _ => Finset.sum_congr rfl fun j _ => ?_
  ring

end HelFEM.Lcao
