import Mathlib.Data.Fin.VecNotation
import Mathlib.Data.Matrix.Mul
import Mathlib.LinearAlgebra.Matrix.Notation
import Verif.Lemmas.Lcao

/-!
# C80: trial orbitals and how well a basis represents them
-/

namespace HelFEM

open Matrix XC Lcao

/-- C80. Every radial Gaussian function is normalised: `∫ R² r² dr = 1`. -/
theorem C80_gto (l : Nat) (α : ℝ) (hα : 0 < α) : Spec.radialNorm (fun r => radialGTO Real.pi r l α) = 1 := gto_norm l hα

/-- C80. Every radial Slater function is normalised. -/
theorem C80_sto (l : Nat) (ζ : ℝ) (hζ : 0 < ζ) : Spec.radialNorm (fun r => radialSTO r l ζ) = 1 := sto_norm l hζ

example : Spec.radialNorm (fun r => radialGTO Real.pi r 3 (5 / 2)) = Spec.radialNorm (fun r => radialSTO r 2 7) := by
  rw [C80_gto 3 _ (by norm_num), C80_sto 2 _ (by norm_num)]

variable {N : Nat}

theorem sum_first {k M : Nat} (h : k ≤ M) (f : Fin M → ℝ) :
    ∑ j : Fin k, f ⟨j.1, lt_of_lt_of_le j.2 h⟩ = ∑ i : Fin M, if i.1 < k then f i else 0 := by
  rw [← Finset.sum_filter]
  refine Finset.sum_bij (fun j _ => ⟨j.1, lt_of_lt_of_le j.2 h⟩) (fun j _ => by simp) (fun a _ b _ hab => ?_) (fun i hi => ?_) fun j _ => rfl
  · exact Fin.ext (by simpa using hab)
  · exact ⟨⟨i.1, (Finset.mem_filter.mp hi).2⟩, Finset.mem_univ _, rfl⟩

/-- Basis function `i` at the points -/
noncomputable abbrev bfAt (es : List SadElem) (i : Nat) := chi es i

/-- C80. The completeness of a trial orbital is the norm of its projection on the orthonormal functions, by the quadrature of the elements; it is at most
the norm of the trial orbital by the same quadrature, and equal to it if the trial orbital is a combination of the basis functions at all points.
Missing: that the quadrature gives the trial orbital a norm of at most 1, and that `Sinvh` is orthonormal with the overlap of this quadrature. -/
theorem C80_completeness_partial {m M : Nat} (X : Matrix (Fin N) (Fin M) ℝ) (ao : ℝ → ℝ → ℝ) (expn : Fin m → ℝ) (es : List SadElem)
    (hidx : ∀ e ∈ es, ∀ j ∈ e.idx, j < N) (hw : ∀ p, 0 ≤ wOf es p) (hX : Xᵀ * overlapQ es N * X = 1) :
    ∃ Y, completeness X ao expn es = .ok Y ∧ ∀ ix,
      0 ≤ Y ix ∧
      Y ix ^ 2 = ∑ k, (Spec.quad (wOf es) (rOf es) fun p => ao (rOf es p) (expn ix) * ∑ n : Fin N, X n k * bfAt es n.1 p) ^ 2 ∧
      Y ix ^ 2 ≤ (Spec.quad (wOf es) (rOf es) fun p => ao (rOf es p) (expn ix) ^ 2) ∧
      (N = M → (∃ a : Fin N → ℝ, ∀ p, ao (rOf es p) (expn ix) = ∑ n : Fin N, a n * bfAt es n.1 p) →
        Y ix ^ 2 = Spec.quad (wOf es) (rOf es) fun p => ao (rOf es p) (expn ix) ^ 2) := by
  have hp := projection_eq (N := N) ao expn es hidx
  refine ⟨_, by rw [completeness, hp]; rfl, fun ix => ?_⟩
  have hsq : ∀ k, ((Matrix.of fun x (i : Fin N) => Spec.quad (wOf es) (rOf es) fun p => ao (rOf es p) (expn x) * chi es i.1 p) * X)ᵀ k ix
      = Spec.quad (wOf es) (rOf es) fun p => ao (rOf es p) (expn ix) * ∑ n : Fin N, X n k * chi es n.1 p := by
    intro k
    rw [quad_mul_comb, Matrix.transpose_apply, Matrix.mul_apply]
    exact Finset.sum_congr rfl fun n _ => by rw [Matrix.of_apply]; ring
  have hY : Real.sqrt (∑ k, (((Matrix.of fun x (i : Fin N) => Spec.quad (wOf es) (rOf es) fun p => ao (rOf es p) (expn x) * chi es i.1 p) * X)ᵀ k ix) ^ 2) ^ 2
      = ∑ k, (Spec.quad (wOf es) (rOf es) fun p => ao (rOf es p) (expn ix) * ∑ n : Fin N, X n k * chi es n.1 p) ^ 2 := by
    rw [Real.sq_sqrt (Finset.sum_nonneg fun _ _ => sq_nonneg _)]
    exact Finset.sum_congr rfl fun k _ => by rw [hsq]
  have ho := orbitals_orthonormal es X hX
  simp only [mul_comm (chi es _ _) (X _ _)] at ho
  refine ⟨Real.sqrt_nonneg _, hY, ?_, fun hNM ⟨a, ha⟩ => ?_⟩
  · rw [hY]
    exact bessel (wOf es) (rOf es) hw (fun p => ao (rOf es p) (expn ix)) (fun k p => ∑ n : Fin N, X n k * chi es n.1 p) ho
  · subst hNM
    rw [hY]
    have h1 : X * (Xᵀ * overlapQ es N) = 1 := by rw [mul_eq_one_comm]; exact hX
    have hc : ∀ k, (Spec.quad (wOf es) (rOf es) fun p => ao (rOf es p) (expn ix) * ∑ n : Fin N, X n k * chi es n.1 p)
        = ((Xᵀ * overlapQ es N).mulVec a) k := by
      intro k
      rw [show (fun p => ao (rOf es p) (expn ix) * ∑ n : Fin N, X n k * chi es n.1 p)
          = fun p => (∑ n : Fin N, X n k * chi es n.1 p) * ∑ n : Fin N, a n * chi es n.1 p by funext p; rw [ha p]; ring,
        quad_comb_comb (wOf es) (rOf es) (fun n => X n k) a (fun n => chi es n.1) fun n => chi es n.1]
      simp only [Matrix.mulVec, dotProduct, Matrix.mul_apply, Matrix.transpose_apply, overlapQ, Matrix.of_apply, Finset.mul_sum, Finset.sum_mul]
      rw [Finset.sum_comm]
      exact Finset.sum_congr rfl fun i _ => Finset.sum_congr rfl fun j _ => by ring
    have hn : (Spec.quad (wOf es) (rOf es) fun p => ao (rOf es p) (expn ix) ^ 2) = a ⬝ᵥ (overlapQ es N).mulVec a := by
      rw [show (fun p => ao (rOf es p) (expn ix) ^ 2) = fun p => (∑ n : Fin N, a n * chi es n.1 p) * ∑ n : Fin N, a n * chi es n.1 p by
        funext p; rw [ha p]; ring,
        quad_comb_comb (wOf es) (rOf es) a a (fun n => chi es n.1) fun n => chi es n.1]
      simp only [Matrix.mulVec, dotProduct, overlapQ, Matrix.of_apply]
      exact Finset.sum_congr rfl fun i _ => by
        congr 1
        exact Finset.sum_congr rfl fun j _ => mul_comm _ _
    have hS : (overlapQ es N)ᵀ = overlapQ es N := by
      ext i j
      simp only [Matrix.transpose_apply, overlapQ, Matrix.of_apply, mul_comm]
    rw [hn, Finset.sum_congr rfl fun k _ => by rw [hc k, sq]]
    change ((Xᵀ * overlapQ es N) *ᵥ a) ⬝ᵥ ((Xᵀ * overlapQ es N) *ᵥ a) = _
    rw [dotProduct_mulVec, ← mulVec_transpose, dotProduct_comm, mulVec_mulVec, transpose_mul, transpose_transpose, hS, Matrix.mul_assoc, h1, Matrix.mul_one]

/-- Two elements' worth of points in one: functions 1 and 1/2 at radii 1 and 2, orthonormal -/
noncomputable def lcaoElem : SadElem where
  npt := 2
  idx := [0, 1]
  r := ![1, 2]
  wrad := ![1, 1]
  bf := !![1, 0; 0, 1 / 2]
  df := 0
  lf := 0

theorem lcaoElem_index : ∀ e ∈ [lcaoElem], ∀ j ∈ e.idx, j < 2 := by
  intro e he j hj
  rw [List.mem_singleton] at he
  subst he
  have : j = 0 ∨ j = 1 := by simpa [lcaoElem] using hj
  omega

theorem lcaoElem_sum (F : Pt [lcaoElem] → ℝ) : ∑ p, F p = F ⟨0, (0 : Fin 2)⟩ + F ⟨0, (1 : Fin 2)⟩ := by
  rw [Fintype.sum_sigma]
  change ∑ c : Fin 1, _ = _
  rw [Fin.sum_univ_one]
  change ∑ p : Fin 2, _ = _
  rw [Fin.sum_univ_two]

theorem lcaoElem_chi (i : Nat) : chi [lcaoElem] i ⟨0, (0 : Fin 2)⟩ = (if i = 0 then 1 else 0) ∧ chi [lcaoElem] i ⟨0, (1 : Fin 2)⟩ = (if i = 1 then 1 / 2 else 0) := by
  constructor
  · change ∑ j : Fin 2, (if i = [0, 1][j] then (!![1, 0; 0, 1 / 2] : Matrix (Fin 2) (Fin 2) ℝ) 0 j else 0) = _
    rw [Fin.sum_univ_two]; simp
  · change ∑ j : Fin 2, (if i = [0, 1][j] then (!![1, 0; 0, 1 / 2] : Matrix (Fin 2) (Fin 2) ℝ) 1 j else 0) = _
    rw [Fin.sum_univ_two]; simp

theorem lcaoElem_overlap : overlapQ [lcaoElem] 2 = 1 := by
  ext i j
  rw [overlapQ, Matrix.of_apply, Spec.quad, lcaoElem_sum]
  simp only [(lcaoElem_chi _).1, (lcaoElem_chi _).2]
  change (1 : ℝ) * 1 ^ 2 * _ + 1 * 2 ^ 2 * _ = _
  fin_cases i <;> fin_cases j <;> norm_num

theorem lcaoElem_weights : ∀ p, 0 ≤ wOf [lcaoElem] p := by
  rintro ⟨c, p⟩
  have : c = 0 := Subsingleton.elim (α := Fin 1) c 0
  subst this
  change (0 : ℝ) ≤ (![1, 1] : Fin 2 → ℝ) p
  have hp : ∀ q : Fin 2, (0 : ℝ) ≤ (![1, 1] : Fin 2 → ℝ) q := by intro q; fin_cases q <;> norm_num
  exact hp p

example : ∃ Y, completeness (1 : Matrix (Fin 2) (Fin 2) ℝ) (fun r ζ => radialSTO r 0 ζ) (fun _ : Fin 1 => 1) [lcaoElem] = .ok Y ∧ 0 ≤ Y 0 := by
  obtain ⟨Y, h, hY⟩ := C80_completeness_partial (1 : Matrix (Fin 2) (Fin 2) ℝ) (fun r ζ => radialSTO r 0 ζ) (fun _ : Fin 1 => 1) [lcaoElem]
    lcaoElem_index lcaoElem_weights (by rw [lcaoElem_overlap]; simp)
  exact ⟨Y, h, (hY 0).1⟩

/-- C80. The importance of a trial orbital is the norm of its projection on the first `nocc` orbitals. With orthonormal orbitals it is at most the norm of
the trial orbital by the quadrature, and at most its completeness if the orbitals are the orthonormal functions rotated. Missing: as for the completeness. -/
theorem C80_importance_partial {m M : Nat} (C : Matrix (Fin N) (Fin M) ℝ) (l : Nat) (occ : Int) (ho : 0 < occ)
    (ao : ℝ → ℝ → ℝ) (expn : Fin m → ℝ) (es : List SadElem)
    (hidx : ∀ e ∈ es, ∀ j ∈ e.idx, j < N) (hw : ∀ p, 0 ≤ wOf es p) (hC : Cᵀ * overlapQ es N * C = 1) (hM : (nocc l occ).toNat ≤ M) :
    ∃ I, importance C l occ ao expn es = .ok I ∧ ∀ ix,
      0 ≤ I ix ∧
      I ix ^ 2 = ∑ k : Fin M, (if k.1 < (nocc l occ).toNat then
        (Spec.quad (wOf es) (rOf es) fun p => ao (rOf es p) (expn ix) * ∑ n : Fin N, C n k * bfAt es n.1 p) ^ 2 else 0) ∧
      I ix ^ 2 ≤ (Spec.quad (wOf es) (rOf es) fun p => ao (rOf es p) (expn ix) ^ 2) ∧
      (∀ (X : Matrix (Fin N) (Fin M) ℝ) (U : Matrix (Fin M) (Fin M) ℝ), C = X * U → Uᵀ * U = 1 →
        ∀ Y, completeness X ao expn es = .ok Y → I ix ≤ Y ix) := by
  have hl : leftCols C (nocc l occ).toNat = .ok (Matrix.of fun i j => C i ⟨j.1, lt_of_lt_of_le j.2 hM⟩) := by rw [leftCols, dif_pos hM]
  have hp := orbProjection_eq (N := N) (Matrix.of fun i (j : Fin (nocc l occ).toNat) => C i ⟨j.1, lt_of_lt_of_le j.2 hM⟩) ao expn es hidx
  refine ⟨_, by rw [importance, if_neg (not_le.mpr ho), hl, Res.ok_bind, hp]; rfl, fun ix => ?_⟩
  have hI := Real.sq_sqrt (Finset.sum_nonneg (s := Finset.univ) fun (k : Fin (nocc l occ).toNat) _ =>
    sq_nonneg ((Matrix.of fun x i => Spec.quad (wOf es) (rOf es) fun p => ao (rOf es p) (expn i)
      * ∑ n : Fin N, chi es n.1 p * (Matrix.of fun i (j : Fin (nocc l occ).toNat) => C i ⟨j.1, lt_of_lt_of_le j.2 hM⟩) n x) k ix))
  have hs : ∑ k : Fin (nocc l occ).toNat, ((Matrix.of fun x i => Spec.quad (wOf es) (rOf es) fun p => ao (rOf es p) (expn i)
      * ∑ n : Fin N, chi es n.1 p * (Matrix.of fun i (j : Fin (nocc l occ).toNat) => C i ⟨j.1, lt_of_lt_of_le j.2 hM⟩) n x) k ix) ^ 2
      = ∑ k : Fin M, (if k.1 < (nocc l occ).toNat then
        (Spec.quad (wOf es) (rOf es) fun p => ao (rOf es p) (expn ix) * ∑ n : Fin N, C n k * chi es n.1 p) ^ 2 else 0) := by
    rw [← sum_first hM fun k => (Spec.quad (wOf es) (rOf es) fun p => ao (rOf es p) (expn ix) * ∑ n : Fin N, C n k * chi es n.1 p) ^ 2]
    refine Finset.sum_congr rfl fun k _ => ?_
    simp only [Matrix.of_apply, mul_comm (chi es _ _) (C _ _)]
  have hob := orbitals_orthonormal es C hC
  simp only [mul_comm (chi es _ _) (C _ _)] at hob
  have hle : ∑ k : Fin M, (if k.1 < (nocc l occ).toNat then
        (Spec.quad (wOf es) (rOf es) fun p => ao (rOf es p) (expn ix) * ∑ n : Fin N, C n k * chi es n.1 p) ^ 2 else 0)
      ≤ ∑ k : Fin M, (Spec.quad (wOf es) (rOf es) fun p => ao (rOf es p) (expn ix) * ∑ n : Fin N, C n k * chi es n.1 p) ^ 2 := by
    refine Finset.sum_le_sum fun k _ => ?_
    split_ifs
    · exact le_rfl
    · exact sq_nonneg _
  refine ⟨Real.sqrt_nonneg _, hI.trans hs, ?_, fun X U hXU hU Y hY => ?_⟩
  · rw [hI, hs]
    exact hle.trans (bessel (wOf es) (rOf es) hw (fun p => ao (rOf es p) (expn ix)) (fun k p => ∑ n : Fin N, C n k * chi es n.1 p) hob)
  · have hq := projection_eq (N := N) ao expn es hidx
    rw [completeness, hq, Res.ok_bind, Res.ok.injEq] at hY
    subst hY
    refine Real.sqrt_le_sqrt ?_
    rw [hs]
    refine hle.trans (le_of_eq ?_)
    set A : Matrix (Fin m) (Fin N) ℝ := Matrix.of fun x i => Spec.quad (wOf es) (rOf es) fun p => ao (rOf es p) (expn x) * chi es i.1 p with hA
    have e : ∀ k, (Spec.quad (wOf es) (rOf es) fun p => ao (rOf es p) (expn ix) * ∑ n : Fin N, C n k * chi es n.1 p)
        = ((fun j => (A * X) ix j) ᵥ* U) k := by
      intro k
      rw [quad_mul_comb]
      have : (A * C) ix k = ((fun j => (A * X) ix j) ᵥ* U) k := by
        rw [hXU, ← Matrix.mul_assoc, Matrix.mul_apply]; rfl
      rw [← this, Matrix.mul_apply]
      exact Finset.sum_congr rfl fun n _ => by rw [hA, Matrix.of_apply]; ring
    rw [Finset.sum_congr rfl fun k _ => by rw [e k, sq]]
    change ((fun j => (A * X) ix j) ᵥ* U) ⬝ᵥ ((fun j => (A * X) ix j) ᵥ* U) = _
    have hU' : U * Uᵀ = 1 := mul_eq_one_comm.mp hU
    rw [← dotProduct_mulVec, ← mulVec_transpose, mulVec_mulVec, hU', one_mulVec]
    exact Finset.sum_congr rfl fun k _ => by rw [Matrix.transpose_apply, sq]

example : ∃ I, importance (1 : Matrix (Fin 2) (Fin 2) ℝ) 0 2 (fun r ζ => radialGTO Real.pi r 0 ζ) (fun _ : Fin 1 => 1) [lcaoElem] = .ok I ∧ 0 ≤ I 0 := by
  have hn : nocc 0 2 = 1 := by rw [nocc]; norm_num
  obtain ⟨I, h, hI⟩ := C80_importance_partial (1 : Matrix (Fin 2) (Fin 2) ℝ) 0 2 (by norm_num) (fun r ζ => radialGTO Real.pi r 0 ζ) (fun _ : Fin 1 => 1)
    [lcaoElem] lcaoElem_index lcaoElem_weights (by rw [lcaoElem_overlap]; simp) (by rw [hn]; norm_num)
  exact ⟨I, h, (hI 0).1⟩

/-- C80. `nocc` is the number of orbitals of momentum `l` that hold `occ` electrons, two per orbital and magnetic quantum number: `n` filled shells of both
spins give `n`. -/
theorem C80_nocc (l : Nat) (occ : Int) :
    occ ≤ nocc l occ * (2 * (2 * l + 1)) ∧ (nocc l occ - 1) * (2 * (2 * l + 1)) < occ ∧ ∀ n : Nat, occ = n * (2 * (2 * l + 1)) → nocc l occ = n := by
  have hd : (0 : ℝ) < 2 * (2 * (l : ℝ) + 1) := by positivity
  have h1 : occ ≤ nocc l occ * (2 * (2 * l + 1)) := by
    have : (occ : ℝ) / (2 * (2 * (l : ℝ) + 1)) ≤ (nocc l occ : ℝ) := Int.le_ceil _
    rw [div_le_iff₀ hd] at this
    exact_mod_cast this
  have h2 : (nocc l occ - 1) * (2 * (2 * l + 1)) < occ := by
    have : (nocc l occ : ℝ) < (occ : ℝ) / (2 * (2 * (l : ℝ) + 1)) + 1 := Int.ceil_lt_add_one _
    rw [← sub_lt_iff_lt_add, lt_div_iff₀ hd] at this
    exact_mod_cast this
  refine ⟨h1, h2, fun n hn => ?_⟩
  rw [nocc, hn]
  push_cast
  rw [mul_div_assoc, div_self hd.ne', mul_one, Int.ceil_natCast]

/-- C80. In an unrestricted calculation the importance profile uses the alpha occupations with the count for two spins: `n` filled alpha shells give `(n+1)/2`
orbitals, rounded down, so from the second shell on occupied orbitals are left out. -/
theorem C80_importance_unrestricted (l n : Nat) :
    nocc l (n * (2 * l + 1)) = ((n + 1) / 2 : Nat) ∧ (2 ≤ n → nocc l (n * (2 * l + 1)) < n) := by
  have hd : (0 : ℝ) < 2 * (l : ℝ) + 1 := by positivity
  have e : nocc l (n * (2 * l + 1)) = ((n + 1) / 2 : Nat) := by
    obtain ⟨q, hq, h1, h2⟩ : ∃ q : Nat, q = (n + 1) / 2 ∧ 2 * q < n + 2 ∧ n ≤ 2 * q := ⟨_, rfl, by omega, by omega⟩
    have h1 : 2 * (q : ℝ) < n + 2 := by exact_mod_cast h1
    have h2 : (n : ℝ) ≤ 2 * q := by exact_mod_cast h2
    rw [← hq, nocc]
    push_cast
    rw [show (n : ℝ) * (2 * l + 1) / (2 * (2 * l + 1)) = (n : ℝ) / 2 by field_simp, Int.ceil_eq_iff]
    constructor <;> push_cast <;> linarith
  refine ⟨e, fun h => ?_⟩
  rw [e]
  have : (n + 1) / 2 < n := by omega
  exact_mod_cast this

/-- C80. What is left out matters: with two alpha electrons in s orbitals, a trial orbital equal to the second occupied orbital gets importance 0, although its
completeness and its norm are 1. -/
theorem C80_importance_misses_orbital : ∃ ao : ℝ → ℝ → ℝ,
    importance (1 : Matrix (Fin 2) (Fin 2) ℝ) 0 2 ao (fun _ : Fin 1 => 1) [lcaoElem] = .ok (fun _ => 0) ∧
    completeness (1 : Matrix (Fin 2) (Fin 2) ℝ) ao (fun _ : Fin 1 => 1) [lcaoElem] = .ok (fun _ => 1) ∧
    ∀ p, ao (rOf [lcaoElem] p) 1 = bfAt [lcaoElem] 1 p := by
  have hn : nocc 0 2 = 1 := by rw [nocc]; norm_num
  have hr0 : rOf [lcaoElem] ⟨0, (0 : Fin 2)⟩ = 1 := rfl
  have hr1 : rOf [lcaoElem] ⟨0, (1 : Fin 2)⟩ = 2 := rfl
  have hw0 : wOf [lcaoElem] ⟨0, (0 : Fin 2)⟩ = 1 := rfl
  have hw1 : wOf [lcaoElem] ⟨0, (1 : Fin 2)⟩ = 1 := rfl
  refine ⟨fun r _ => if r = 2 then 1 / 2 else 0, ?_, ?_, ?_⟩
  · obtain ⟨I, h, hI⟩ := C80_importance_partial (1 : Matrix (Fin 2) (Fin 2) ℝ) 0 2 (by norm_num) (fun r _ => if r = 2 then 1 / 2 else 0) (fun _ : Fin 1 => 1)
      [lcaoElem] lcaoElem_index lcaoElem_weights (by rw [lcaoElem_overlap]; simp) (by rw [hn]; norm_num)
    rw [h]
    congr 1
    funext ix
    have := (hI ix).2.1
    rw [hn] at this
    simp only [Fin.sum_univ_two, Spec.quad, lcaoElem_sum, bfAt, (lcaoElem_chi _).1, (lcaoElem_chi _).2, hr0, hr1, hw0, hw1] at this
    norm_num at this
    exact this
  · obtain ⟨Y, h, hY⟩ := C80_completeness_partial (1 : Matrix (Fin 2) (Fin 2) ℝ) (fun r _ => if r = 2 then 1 / 2 else 0) (fun _ : Fin 1 => 1) [lcaoElem]
      lcaoElem_index lcaoElem_weights (by rw [lcaoElem_overlap]; simp)
    rw [h]
    congr 1
    funext ix
    have h0 := (hY ix).1
    have := (hY ix).2.1
    simp only [Fin.sum_univ_two, Spec.quad, lcaoElem_sum, bfAt, (lcaoElem_chi _).1, (lcaoElem_chi _).2, hr0, hr1, hw0, hw1] at this
    norm_num at this
    rcases this with h | h
    · exact h
    · linarith
  · rintro ⟨c, p⟩
    have hc : c = 0 := Subsingleton.elim (α := Fin 1) c 0
    subst hc
    have hp : ∀ q : Fin 2, (if rOf [lcaoElem] ⟨0, q⟩ = 2 then (1 / 2 : ℝ) else 0) = chi [lcaoElem] 1 ⟨0, q⟩ := by
      intro q
      fin_cases q
      · change (if rOf [lcaoElem] ⟨0, (0 : Fin 2)⟩ = 2 then (1 / 2 : ℝ) else 0) = chi [lcaoElem] 1 ⟨0, (0 : Fin 2)⟩
        rw [hr0, (lcaoElem_chi 1).1]; norm_num
      · change (if rOf [lcaoElem] ⟨0, (1 : Fin 2)⟩ = 2 then (1 / 2 : ℝ) else 0) = chi [lcaoElem] 1 ⟨0, (1 : Fin 2)⟩
        rw [hr1, (lcaoElem_chi 1).2]; norm_num
    exact hp p

end HelFEM
