import Verif.Model.Completeness
import Verif.Spec.Completeness
import Mathlib.Analysis.InnerProductSpace.Orthonormal
import Mathlib.LinearAlgebra.Matrix.NonsingularInverse

/-! Lemmas for C92 -/

namespace HelFEM
namespace Compl
open ComplSpec Matrix
open scoped RealInnerProductSpace

variable {H : Type*} [NormedAddCommGroup H] [InnerProductSpace ℝ H]

theorem isProj_unique {W : Submodule ℝ H} {x p p' : H} (h : IsProj W x p) (h' : IsProj W x p') : p = p' := by
  have hd : p - p' ∈ W := W.sub_mem h.1 h'.1
  have e : ⟪p - p', p - p'⟫ = 0 := by
    have a := h.2 _ hd
    have b := h'.2 _ hd
    have : p - p' = (x - p') - (x - p) := by abel
    rw [congrArg (fun z => ⟪z, p - p'⟫) this, inner_sub_left, a, b, sub_zero]
  exact sub_eq_zero.1 (inner_self_eq_zero.1 e)

theorem sqProj_unique {W : Submodule ℝ H} {x : H} {v v' : ℝ} (h : SqProj W x v) (h' : SqProj W x v') : v = v' := by
  obtain ⟨p, hp, ho, rfl⟩ := h
  obtain ⟨p', hp', ho', rfl⟩ := h'
  rw [isProj_unique ⟨hp, ho⟩ ⟨hp', ho'⟩]

theorem isProj_pyth {W : Submodule ℝ H} {x p : H} (h : IsProj W x p) : ‖x‖ ^ 2 = ‖p‖ ^ 2 + ‖x - p‖ ^ 2 := by
  have e := h.2 p h.1
  have : x = (x - p) + p := by abel
  have hn := norm_add_sq_real (x - p) p
  rw [e, ← this] at hn
  linarith

theorem sqProj_le {W : Submodule ℝ H} {x : H} {v : ℝ} (h : SqProj W x v) : 0 ≤ v ∧ v ≤ ‖x‖ ^ 2 := by
  obtain ⟨p, hp, ho, rfl⟩ := h
  have := isProj_pyth ⟨hp, ho⟩
  exact ⟨sq_nonneg _, by nlinarith [sq_nonneg ‖x - p‖]⟩

theorem sqProj_eq_iff {W : Submodule ℝ H} {x : H} {v : ℝ} (h : SqProj W x v) : v = ‖x‖ ^ 2 ↔ x ∈ W := by
  obtain ⟨p, hp, ho, rfl⟩ := h
  have := isProj_pyth ⟨hp, ho⟩
  constructor
  · intro e
    have h0 : ‖x - p‖ ^ 2 = 0 := by linarith
    have : x - p = 0 := by simpa using h0
    rw [sub_eq_zero.1 this]; exact hp
  · intro hx
    have e := isProj_unique ⟨hp, ho⟩ (⟨hx, fun w _ => by simp⟩ : IsProj W x x)
    rw [e]

theorem sqProj_mono {W W' : Submodule ℝ H} (hW : W ≤ W') {x : H} {v v' : ℝ} (h : SqProj W x v) (h' : SqProj W' x v') : v ≤ v' := by
  obtain ⟨p, hp, ho, rfl⟩ := h
  obtain ⟨p', hp', ho', rfl⟩ := h'
  have : IsProj W p' p := ⟨hp, fun w hw => by
    have : p' - p = (x - p) - (x - p') := by abel
    rw [this, inner_sub_left, ho w hw, ho' w (hW hw), sub_zero]⟩
  have := isProj_pyth this
  nlinarith [sq_nonneg ‖p' - p‖]

theorem sumProj_le {ι : Type*} [Fintype ι] {W : Submodule ℝ H} {c : ι → H} {v : ℝ} (h : SumProj W c v) : 0 ≤ v ∧ v ≤ ∑ i, ‖c i‖ ^ 2 := by
  obtain ⟨f, hf, rfl⟩ := h
  exact ⟨Finset.sum_nonneg fun i _ => (sqProj_le (hf i)).1, Finset.sum_le_sum fun i _ => (sqProj_le (hf i)).2⟩

theorem sumProj_mono {ι : Type*} [Fintype ι] {W W' : Submodule ℝ H} (hW : W ≤ W') {c : ι → H} {v v' : ℝ} (h : SumProj W c v) (h' : SumProj W' c v') : v ≤ v' := by
  obtain ⟨f, hf, rfl⟩ := h
  obtain ⟨f', hf', rfl⟩ := h'
  exact Finset.sum_le_sum fun i _ => sqProj_mono hW (hf i) (hf' i)

theorem sumProj_unique {ι : Type*} [Fintype ι] {W : Submodule ℝ H} {c : ι → H} {v v' : ℝ} (h : SumProj W c v) (h' : SumProj W c v') : v = v' :=
  le_antisymm (sumProj_mono le_rfl h h') (sumProj_mono le_rfl h' h)

/-- projection on the span of an orthogonal family -/
theorem isProj_orth {ι : Type*} [Fintype ι] [DecidableEq ι] (s : Finset ι) (y : ι → H) (lam : ι → ℝ) (hpos : ∀ i ∈ s, 0 < lam i)
    (ho : ∀ i ∈ s, ∀ j ∈ s, ⟪y i, y j⟫ = if i = j then lam i else 0) (x : H) :
    IsProj (Submodule.span ℝ (y '' s)) x (∑ i ∈ s, (⟪y i, x⟫ / lam i) • y i) := by
  constructor
  · exact Submodule.sum_mem _ fun i hi => Submodule.smul_mem _ _ (Submodule.subset_span ⟨i, hi, rfl⟩)
  · intro w hw
    induction hw using Submodule.span_induction with
    | mem w hw =>
      obtain ⟨j, hj, rfl⟩ := hw
      have hj : j ∈ s := hj
      rw [inner_sub_left, sum_inner, Finset.sum_eq_single_of_mem j hj, inner_smul_left, ho j hj j hj, if_pos rfl, real_inner_comm]
      · have := (hpos j hj).ne'
        simp only [conj_trivial]; field_simp; ring
      · intro i hi hne
        rw [inner_smul_left, ho i hi j hj, if_neg hne, mul_zero]
    | zero => simp
    | add a b _ _ ha hb => rw [inner_add_right, ha, hb, add_zero]
    | smul t a _ ha => rw [inner_smul_right, ha, mul_zero]

theorem sqProj_orth {ι : Type*} [Fintype ι] [DecidableEq ι] (s : Finset ι) (y : ι → H) (lam : ι → ℝ) (hpos : ∀ i ∈ s, 0 < lam i)
    (ho : ∀ i ∈ s, ∀ j ∈ s, ⟪y i, y j⟫ = if i = j then lam i else 0) (x : H) :
    SqProj (Submodule.span ℝ (y '' s)) x (∑ i ∈ s, ⟪y i, x⟫ ^ 2 / lam i) := by
  have h := isProj_orth s y lam hpos ho x
  refine ⟨_, h.1, h.2, ?_⟩
  rw [← real_inner_self_eq_norm_sq, sum_inner]
  refine Finset.sum_congr rfl fun i hi => ?_
  rw [inner_sum, Finset.sum_eq_single_of_mem i hi, inner_smul_left, inner_smul_right, ho i hi i hi, if_pos rfl]
  · have := (hpos i hi).ne'
    simp only [conj_trivial]; field_simp
  · intro j hj hne
    rw [inner_smul_left, inner_smul_right, ho i hi j hj, if_neg (Ne.symm hne)]; ring

theorem formSinv_apply {n : Nat} (es : Eig n) (a b : Fin n) :
    formSinv es a b = ∑ i, if es.val i ≥ 1 / 1000000 then 1 / es.val i * (es.vec a i * es.vec b i) else 0 := by
  have key : ∀ (l : List (Fin n)) (R : Matrix (Fin n) (Fin n) ℝ),
      (l.foldl (fun result i => if es.val i ≥ 1 / 1000000 then result + (1 / es.val i) • Matrix.of (fun a b => es.vec a i * es.vec b i) else result) R) a b
        = R a b + (l.map fun i => if es.val i ≥ 1 / 1000000 then 1 / es.val i * (es.vec a i * es.vec b i) else 0).sum := by
    intro l
    induction l with
    | nil => intro R; simp
    | cons i l ih =>
      intro R
      rw [List.foldl_cons, ih, List.map_cons, List.sum_cons]
      split_ifs
      · simp only [Matrix.add_apply, Matrix.smul_apply, Matrix.of_apply, smul_eq_mul]; ring
      · ring
  unfold formSinv
  rw [key, Matrix.zero_apply, zero_add, ← List.ofFn_eq_map, List.sum_ofFn]

/-- the eigenvectors that are kept -/
noncomputable def kept {n : Nat} (es : Eig n) : Finset (Fin n) := Finset.univ.filter fun i => es.val i ≥ 1 / 1000000

theorem projTrace_eq {na q : Nat} (A : Matrix (Fin na) (Fin q) ℝ) (es : Eig q) :
    projTrace A (formSinv es) = ∑ a, ∑ j ∈ kept es, (∑ u, es.vec u j * A a u) ^ 2 / es.val j := by
  unfold projTrace Matrix.trace kept
  refine Finset.sum_congr rfl fun a _ => ?_
  simp only [Matrix.diag_apply, Matrix.mul_apply, Matrix.transpose_apply, formSinv_apply]
  rw [Finset.sum_filter]
  simp only [Finset.mul_sum, Finset.sum_mul]
  rw [Finset.sum_congr rfl fun _ _ => Finset.sum_comm, Finset.sum_comm]
  refine Finset.sum_congr rfl fun j _ => ?_
  split_ifs
  · rw [sq, Finset.sum_mul_sum, Finset.sum_div]
    refine Finset.sum_congr rfl fun u _ => ?_
    rw [Finset.sum_div]
    exact Finset.sum_congr rfl fun v _ => by ring
  · simp

/-- inner products of the combinations by eigenvectors of the Gram matrix -/
theorem comb_orth {q : Nat} (x : Fin q → H) (es : Eig q) (h : EigOf (fun i j => ⟪x i, x j⟫) es.vec es.val) (i j : Fin q) :
    ⟪comb x es.vec i, comb x es.vec j⟫ = if i = j then es.val i else 0 := by
  unfold comb
  rw [sum_inner]
  have : ∀ a, ⟪es.vec a i • x a, ∑ b, es.vec b j • x b⟫ = es.vec a i * (es.vec a j * es.val j) := by
    intro a
    rw [inner_smul_left, inner_sum, ← h.2 a j]
    simp only [conj_trivial, inner_smul_right]
    exact congrArg _ (Finset.sum_congr rfl fun b _ => mul_comm _ _)
  rw [Finset.sum_congr rfl fun a _ => this a, Finset.sum_congr rfl fun a _ => (mul_assoc _ _ _).symm, ← Finset.sum_mul, h.1 i j]
  split_ifs with e
  · rw [e, one_mul]
  · rw [zero_mul]

theorem sumProj_trace {na q : Nat} (x : Fin q → H) (es : Eig q) (h : EigOf (fun i j => ⟪x i, x j⟫) es.vec es.val) (c : Fin na → H) (A : Matrix (Fin na) (Fin q) ℝ)
    (hA : ∀ a u, A a u = ⟪x u, c a⟫) : SumProj (Submodule.span ℝ (comb x es.vec '' (kept es : Finset (Fin q)))) c (projTrace A (formSinv es)) := by
  rw [projTrace_eq]
  refine ⟨_, fun a => ?_, rfl⟩
  have := sqProj_orth (kept es) (comb x es.vec) es.val (fun i hi => by have := (Finset.mem_filter.1 hi).2; norm_num at this ⊢; linarith)
    (fun i _ j _ => comb_orth x es h i j) (c a)
  convert this using 3 with j hj
  unfold comb
  rw [sum_inner]
  refine congrArg (· ^ 2) (Finset.sum_congr rfl fun u _ => ?_)
  rw [inner_smul_left, hA]; rfl

theorem span_kept {q : Nat} (x : Fin q → H) (es : Eig q) (h : EigOf (fun i j => ⟪x i, x j⟫) es.vec es.val) (hk : ∀ i, 1 / 1000000 ≤ es.val i) :
    Submodule.span ℝ (comb x es.vec '' (kept es : Finset (Fin q))) = Submodule.span ℝ (Set.range x) := by
  have hv : es.vecᵀ * es.vec = 1 := by
    ext i j; rw [Matrix.mul_apply, Matrix.one_apply, ← h.1 i j]; rfl
  have hv' : es.vec * es.vecᵀ = 1 := mul_eq_one_comm.1 hv
  apply le_antisymm
  · rw [Submodule.span_le]
    rintro _ ⟨j, _, rfl⟩
    exact Submodule.sum_mem _ fun i _ => Submodule.smul_mem _ _ (Submodule.subset_span ⟨i, rfl⟩)
  · rw [Submodule.span_le]
    rintro _ ⟨i, rfl⟩
    have : x i = ∑ j, es.vec i j • comb x es.vec j := by
      unfold comb
      simp only [Finset.smul_sum, smul_smul]
      rw [Finset.sum_comm]
      simp only [← Finset.sum_smul]
      have e : ∀ u, ∑ j, es.vec i j * es.vec u j = if i = u then 1 else 0 := by
        intro u
        have := congrFun (congrFun hv' i) u
        rw [Matrix.mul_apply, Matrix.one_apply] at this
        exact this
      simp [e]
    rw [this]
    exact Submodule.sum_mem _ fun j _ => Submodule.smul_mem _ _ (Submodule.subset_span ⟨j, by simpa [kept] using hk j, rfl⟩)

end Compl
end HelFEM
