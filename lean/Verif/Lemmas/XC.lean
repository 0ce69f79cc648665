import Verif.Spec.XC
import Verif.Model.GridXC
import Mathlib.Analysis.Calculus.Deriv.Add
import Mathlib.Analysis.Calculus.Deriv.Mul
import Mathlib.Analysis.Calculus.Deriv.Comp
import Mathlib.Analysis.Calculus.Deriv.Prod
import Mathlib.Tactic.Ring
import Mathlib.Tactic.FieldSimp
import Mathlib.Tactic.Linarith

/-!
# Contractions of the potential matrices and derivatives of the energy at a point
-/

namespace HelFEM
namespace XC

open Matrix

variable {n N : Nat}

/-- `∑ H_ij D_ij` -/
def pair (H D : Matrix (Fin n) (Fin n) ℝ) : ℝ := ∑ i, ∑ j, H i j * D i j

/-- `∑ D_ij Re(u_i v_j*)` -/
noncomputable def lform (D : Matrix (Fin n) (Fin n) ℝ) (u v : Fin n → ℂ) : ℝ := ∑ i, ∑ j, D i j * (u i * (starRingEnd ℂ) (v j)).re

theorem lform_re (D : Matrix (Fin n) (Fin n) ℝ) (u v : Fin n → ℂ) :
    lform D u v = ∑ i, ∑ j, D i j * ((u i).re * (v j).re + (u i).im * (v j).im) := by
  simp only [lform, Complex.mul_re, Complex.conj_re, Complex.conj_im, mul_neg, sub_neg_eq_add]

/-- taking conjugates of both arguments changes nothing -/
theorem lform_conj (D : Matrix (Fin n) (Fin n) ℝ) (u v : Fin n → ℂ) : lform D (fun i => star (u i)) (fun i => star (v i)) = lform D u v := by
  simp only [lform_re]
  refine Finset.sum_congr rfl fun i _ => Finset.sum_congr rfl fun j _ => ?_
  simp

theorem lform_transpose (D : Matrix (Fin n) (Fin n) ℝ) (u v : Fin n → ℂ) : lform Dᵀ u v = lform D v u := by
  rw [lform_re, lform_re, Finset.sum_comm]
  refine Finset.sum_congr rfl fun i _ => Finset.sum_congr rfl fun j _ => ?_
  rw [Matrix.transpose_apply]
  ring

theorem lform_smul (D : Matrix (Fin n) (Fin n) ℝ) (s t : ℝ) (u v : Fin n → ℂ) : lform D (fun i => (s : ℂ) * u i) (fun i => (t : ℂ) * v i) = s * t * lform D u v := by
  simp only [lform_re, Finset.mul_sum]
  refine Finset.sum_congr rfl fun i _ => Finset.sum_congr rfl fun j _ => ?_
  simp only [Complex.re_ofReal_mul, Complex.im_ofReal_mul]
  ring

theorem lform_line (P D : Matrix (Fin n) (Fin n) ℝ) (t : ℝ) (u v : Fin n → ℂ) : lform (P + t • D) u v = lform P u v + t * lform D u v := by
  simp only [lform, Finset.mul_sum, ← Finset.sum_add_distrib]
  refine Finset.sum_congr rfl fun i _ => Finset.sum_congr rfl fun j _ => ?_
  simp only [Matrix.add_apply, Matrix.smul_apply, smul_eq_mul]
  ring

/-- a product summed over the points -/
theorem pair_outer (x y : Matrix (Fin n) (Fin N) ℝ) (D : Matrix (Fin n) (Fin n) ℝ) : pair (x * yᵀ) D = ∑ p, ∑ i, ∑ j, D i j * (x i p * y j p) := by
  unfold pair
  simp only [Matrix.mul_apply, Matrix.transpose_apply, Finset.sum_mul]
  have : ∀ i : Fin n, ∑ j, ∑ p, x i p * y j p * D i j = ∑ p, ∑ j, D i j * (x i p * y j p) := by
    intro i
    rw [Finset.sum_comm]
    exact Finset.sum_congr rfl fun p _ => Finset.sum_congr rfl fun j _ => by ring
  simp only [this]
  rw [Finset.sum_comm]

theorem pair_add (H K D : Matrix (Fin n) (Fin n) ℝ) : pair (H + K) D = pair H D + pair K D := by
  simp only [pair, Matrix.add_apply, add_mul, Finset.sum_add_distrib]

theorem pair_zero (D : Matrix (Fin n) (Fin n) ℝ) : pair 0 D = 0 := by simp [pair]

theorem pair_transpose (H D : Matrix (Fin n) (Fin n) ℝ) : pair Hᵀ D = pair H Dᵀ := by
  unfold pair
  rw [Finset.sum_comm]
  rfl

theorem quad_eq (P : Matrix (Fin n) (Fin n) ℝ) (f g : Matrix (Fin n) (Fin N) ℝ) (p : Fin N) : quad P f g p = ∑ i, ∑ j, P i j * (g i p * f j p) := by
  unfold quad
  simp only [Matrix.mul_apply, Finset.sum_mul]
  exact Finset.sum_congr rfl fun i _ => Finset.sum_congr rfl fun j _ => by ring

theorem dens_eq (P : Matrix (Fin n) (Fin n) ℝ) (f g : Matrix (Fin n) (Fin N) ℂ) (p : Fin N) : dens P f g p = lform P (fun i => g i p) fun i => f i p := by
  rw [dens, quad_eq, quad_eq, lform_re, ← Finset.sum_add_distrib]
  refine Finset.sum_congr rfl fun i _ => ?_
  rw [← Finset.sum_add_distrib]
  refine Finset.sum_congr rfl fun j _ => ?_
  simp only [re, im, Matrix.map_apply]
  ring

theorem pair_ldaSplit (H : Matrix (Fin n) (Fin n) ℝ) (v : Fin N → ℝ) (f : Matrix (Fin n) (Fin N) ℂ) (D : Matrix (Fin n) (Fin n) ℝ) :
    pair (incLdaSplit H v (re f) (im f)) D = pair H D + ∑ p, v p * lform D (fun i => f i p) fun i => f i p := by
  rw [incLdaSplit, pair_add, pair_add, pair_outer, pair_outer, add_assoc, ← Finset.sum_add_distrib]
  congr 1
  refine Finset.sum_congr rfl fun p _ => ?_
  rw [lform_re, Finset.mul_sum, ← Finset.sum_add_distrib]
  refine Finset.sum_congr rfl fun i _ => ?_
  rw [Finset.mul_sum, ← Finset.sum_add_distrib]
  refine Finset.sum_congr rfl fun j _ => ?_
  simp only [scaleCols, re, im, Matrix.map_apply, Matrix.of_apply]
  ring

theorem pair_ldaC (H : Matrix (Fin n) (Fin n) ℝ) (v : Fin N → ℝ) (f : Matrix (Fin n) (Fin N) ℂ) (D : Matrix (Fin n) (Fin n) ℝ) :
    pair (incLdaC H v f) D = pair H D + ∑ p, v p * lform D (fun i => f i p) fun i => f i p := by
  rw [incLdaC, pair_add]
  congr 1
  have e : (scaleCols f (fun p => (v p : ℂ)) * fᴴ).map Complex.re = scaleCols (re f) v * (re f)ᵀ + scaleCols (im f) v * (im f)ᵀ := by
    ext i j
    simp only [Matrix.map_apply, Matrix.mul_apply, Matrix.add_apply, scaleCols, Matrix.of_apply, Matrix.conjTranspose_apply, Matrix.transpose_apply, re, im, Complex.re_sum,
      ← Finset.sum_add_distrib]
    refine Finset.sum_congr rfl fun p _ => ?_
    simp [Complex.mul_re, Complex.mul_im]
  have := pair_ldaSplit (0 : Matrix (Fin n) (Fin n) ℝ) v f D
  rw [incLdaSplit, pair_add, pair_add, pair_zero, zero_add, zero_add] at this
  rw [e, pair_add, this]

theorem gradWeighted_apply {d : Nat} (gn : Fin N → Fin d → ℝ) (ga : Fin d → Matrix (Fin n) (Fin N) ℝ) (i : Fin n) (j : Fin N) :
    gradWeighted gn ga i j = ∑ c, gn j c * ga c i j := by
  have key : ∀ (l : List (Fin d)) (m : Matrix (Fin n) (Fin N) ℝ),
      (l.foldl (fun (m : Matrix (Fin n) (Fin N) ℝ) c => Matrix.of fun i j => m i j + gn j c * ga c i j) m) i j = m i j + (l.map fun c => gn j c * ga c i j).sum := by
    intro l
    induction l with
    | nil => intro m; simp
    | cons c r ih =>
      intro m
      rw [List.foldl_cons, ih, List.map_cons, List.sum_cons, Matrix.of_apply]
      ring
  rw [gradWeighted, key, Matrix.zero_apply, zero_add, Fin.sum_univ_def]

theorem pair_ggaSplit {d : Nat} (H : Matrix (Fin n) (Fin n) ℝ) (gn : Fin N → Fin d → ℝ) (f : Matrix (Fin n) (Fin N) ℂ) (g : Fin d → Matrix (Fin n) (Fin N) ℂ)
    (D : Matrix (Fin n) (Fin n) ℝ) :
    pair (incGgaSplit H gn (re f) (im f) (fun c => re (g c)) fun c => im (g c)) D =
      pair H D + ∑ p, ∑ c, gn p c * (lform D (fun i => g c i p) (fun i => f i p) + lform D (fun i => f i p) fun i => g c i p) := by
  have half : ∀ D : Matrix (Fin n) (Fin n) ℝ, pair (gradWeighted gn (fun c => re (g c)) * (re f)ᵀ + gradWeighted gn (fun c => im (g c)) * (im f)ᵀ) D =
      ∑ p, ∑ c, gn p c * lform D (fun i => g c i p) fun i => f i p := by
    intro D
    rw [pair_add, pair_outer, pair_outer, ← Finset.sum_add_distrib]
    refine Finset.sum_congr rfl fun p _ => ?_
    simp only [lform_re, gradWeighted_apply, re, im, Matrix.map_apply, Finset.mul_sum, Finset.sum_mul, ← Finset.sum_add_distrib]
    rw [Finset.sum_comm' (s := Finset.univ) (t := fun _ => Finset.univ) (t' := Finset.univ) (s' := fun _ => Finset.univ) (by simp)]
    have : ∀ j : Fin n, ∑ i, ∑ c, (D i j * (gn p c * (g c i p).re * (f j p).re) + D i j * (gn p c * (g c i p).im * (f j p).im)) =
        ∑ c, ∑ i, gn p c * (D i j * ((g c i p).re * (f j p).re + (g c i p).im * (f j p).im)) := by
      intro j
      rw [Finset.sum_comm]
      exact Finset.sum_congr rfl fun c _ => Finset.sum_congr rfl fun i _ => by ring
    simp only [this]
    rw [Finset.sum_comm]
    refine Finset.sum_congr rfl fun c _ => ?_
    rw [Finset.sum_comm]
  unfold incGgaSplit
  simp only
  rw [pair_add, pair_add, pair_transpose, half, half, add_assoc, ← Finset.sum_add_distrib]
  congr 1
  refine Finset.sum_congr rfl fun p _ => ?_
  rw [← Finset.sum_add_distrib]
  refine Finset.sum_congr rfl fun c _ => ?_
  rw [lform_transpose]
  ring

theorem pair_laplSplit (H : Matrix (Fin n) (Fin n) ℝ) (v : Fin N → ℝ) (f l : Matrix (Fin n) (Fin N) ℂ) (D : Matrix (Fin n) (Fin n) ℝ) :
    pair (incLaplSplit H v (re f) (im f) (re l) (im l)) D =
      pair H D + ∑ p, v p * (lform D (fun i => l i p) (fun i => f i p) + lform D (fun i => f i p) fun i => l i p) := by
  have half : ∀ D : Matrix (Fin n) (Fin n) ℝ, pair (scaleCols (re f) v * (re l)ᵀ + scaleCols (im f) v * (im l)ᵀ) D = ∑ p, v p * lform D (fun i => f i p) fun i => l i p := by
    intro D
    rw [pair_add, pair_outer, pair_outer, ← Finset.sum_add_distrib]
    refine Finset.sum_congr rfl fun p _ => ?_
    rw [lform_re, Finset.mul_sum, ← Finset.sum_add_distrib]
    refine Finset.sum_congr rfl fun i _ => ?_
    rw [Finset.mul_sum, ← Finset.sum_add_distrib]
    refine Finset.sum_congr rfl fun j _ => ?_
    simp only [scaleCols, re, im, Matrix.map_apply, Matrix.of_apply]
    ring
  unfold incLaplSplit
  simp only
  rw [pair_add, pair_add, pair_transpose, half, half, add_assoc, ← Finset.sum_add_distrib]
  congr 1
  refine Finset.sum_congr rfl fun p _ => ?_
  rw [lform_transpose]
  ring

/-! ### Gathering and scattering -/

theorem scatter_apply (Ho : Nat → Nat → ℝ) (idx : List Nat) (H : Matrix (Fin idx.length) (Fin idx.length) ℝ) (i j : Nat) :
    (List.finRange idx.length).foldl (fun (M : Nat → Nat → ℝ) (a : Fin idx.length) =>
      (List.finRange idx.length).foldl (fun (M : Nat → Nat → ℝ) (b : Fin idx.length) => fun i j => if i = idx[a] ∧ j = idx[b] then M i j + H a b else M i j) M) Ho i j =
      Ho i j + ∑ a : Fin idx.length, ∑ b : Fin idx.length, if i = idx[a] ∧ j = idx[b] then H a b else 0 := by
  have inner : ∀ (a : Fin idx.length) (l : List (Fin idx.length)) (M : Nat → Nat → ℝ) (i j : Nat),
      l.foldl (fun (M : Nat → Nat → ℝ) (b : Fin idx.length) => fun i j => if i = idx[a] ∧ j = idx[b] then M i j + H a b else M i j) M i j =
        M i j + (l.map fun b => if i = idx[a] ∧ j = idx[b] then H a b else 0).sum := by
    intro a l
    induction l with
    | nil => intro M i j; simp
    | cons b r ih =>
      intro M i j
      rw [List.foldl_cons, ih, List.map_cons, List.sum_cons]
      split_ifs <;> ring
  have outer : ∀ (l : List (Fin idx.length)) (M : Nat → Nat → ℝ) (i j : Nat),
      l.foldl (fun (M : Nat → Nat → ℝ) (a : Fin idx.length) => (List.finRange idx.length).foldl (fun (M : Nat → Nat → ℝ) (b : Fin idx.length) =>
        fun i j => if i = idx[a] ∧ j = idx[b] then M i j + H a b else M i j) M) M i j =
        M i j + (l.map fun a => ((List.finRange idx.length).map fun b => if i = idx[a] ∧ j = idx[b] then H a b else 0).sum).sum := by
    intro l
    induction l with
    | nil => intro M i j; simp
    | cons a r ih =>
      intro M i j
      rw [List.foldl_cons, ih, inner, List.map_cons, List.sum_cons]
      ring
  rw [outer]
  simp only [Fin.sum_univ_def]

/-- the part of a matrix on the functions `idx` -/
def sub (D : Nat → Nat → ℝ) (idx : List Nat) : Matrix (Fin idx.length) (Fin idx.length) ℝ := Matrix.of fun a b => D idx[a] idx[b]

theorem lform_sub (D : Nat → Nat → ℝ) (idx : List Nat) (u v : Fin idx.length → ℂ) : lform (sub D idx) u v = Spec.form D idx u v := rfl

theorem gatherMat_ok (P : Mat ℝ) (idx : List Nat) {m : Nat} (hr : P.rows = m) (hc : P.cols = m) (h : ∀ i ∈ idx, i < m) : gatherMat P idx = .ok (sub P.get idx) := by
  unfold gatherMat
  rw [if_pos fun i hi => ⟨hr ▸ h i hi, hc ▸ h i hi⟩]
  rfl

/-- what scattering does to a contraction -/
theorem scatterMat_ok (m : Nat) (Ho : Mat ℝ) (hr : Ho.rows = m) (hc : Ho.cols = m) (idx : List Nat) (h : ∀ i ∈ idx, i < m) (H : Matrix (Fin idx.length) (Fin idx.length) ℝ) :
    ∃ Hn, scatterMat Ho idx H = .ok Hn ∧ Hn.rows = m ∧ Hn.cols = m ∧ (∀ i j, Hn.get i j = Ho.get i j + ∑ a : Fin idx.length, ∑ b : Fin idx.length, if i = idx[a] ∧ j = idx[b] then H a b else 0) ∧
      ∀ D : Mat ℝ, Spec.pairing m Hn D = Spec.pairing m Ho D + pair H (sub D.get idx) := by
  unfold scatterMat
  rw [if_pos fun i hi => ⟨hr ▸ h i hi, hc ▸ h i hi⟩]
  refine ⟨_, rfl, hr, hc, fun i j => scatter_apply Ho.get idx H i j, ?_⟩
  intro D
  unfold Spec.pairing pair
  simp only [scatter_apply, add_mul, Finset.sum_add_distrib, Finset.sum_mul]
  congr 1
  have e1 : ∀ i ∈ Finset.range m, ∑ j ∈ Finset.range m, ∑ a : Fin idx.length, ∑ b : Fin idx.length, (if i = idx[a] ∧ j = idx[b] then H a b else 0) * D.get i j =
      ∑ a : Fin idx.length, ∑ b : Fin idx.length, ∑ j ∈ Finset.range m, (if i = idx[a] ∧ j = idx[b] then H a b else 0) * D.get i j := by
    intro i _
    rw [Finset.sum_comm]
    exact Finset.sum_congr rfl fun b _ => Finset.sum_comm
  rw [Finset.sum_congr rfl e1, Finset.sum_comm]
  refine Finset.sum_congr rfl fun a _ => ?_
  rw [Finset.sum_comm]
  refine Finset.sum_congr rfl fun b _ => ?_
  rw [Finset.sum_eq_single idx[a]]
  · rw [Finset.sum_eq_single idx[b]]
    · simp [sub]
    · intro j _ hj
      rw [if_neg (fun hh => hj hh.2), zero_mul]
    · intro hn
      exact absurd (Finset.mem_range.2 (h _ (List.getElem_mem _))) hn
  · intro i _ hi
    refine Finset.sum_eq_zero fun j _ => ?_
    rw [if_neg (fun hh => hi hh.1), zero_mul]
  · intro hn
    exact absurd (Finset.mem_range.2 (h _ (List.getElem_mem _))) hn

end XC
end HelFEM
