import Verif.Spec.Density
import Mathlib.Tactic.Ring
import Mathlib.Tactic.NoncommRing
import Mathlib.Tactic.Linarith
import Mathlib.Algebra.BigOperators.Ring.Finset
import Mathlib.LinearAlgebra.Matrix.Trace

/-!
# Scattering block densities
-/

namespace HelFEM
namespace Dens

open Matrix Orth

/-- the scattered matrix entry by entry -/
theorem scatterAdd_eq (P : Nat → Nat → ℝ) (idx : List Nat) (B : Matrix (Fin idx.length) (Fin idx.length) ℝ) (i j : Nat) :
    scatterAdd P idx B i j = P i j + ∑ b : Fin idx.length, ∑ a : Fin idx.length, if i = idx[a] ∧ j = idx[b] then B a b else 0 := by
  have inner : ∀ (b : Fin idx.length) (l : List (Fin idx.length)) (P : Nat → Nat → ℝ) (i j : Nat),
      l.foldl (fun (P : Nat → Nat → ℝ) (a : Fin idx.length) => fun i j => if i = idx[a] ∧ j = idx[b] then P i j + B a b else P i j) P i j =
        P i j + (l.map fun a => if i = idx[a] ∧ j = idx[b] then B a b else 0).sum := by
    intro b l
    induction l with
    | nil => intro P i j; simp
    | cons a r ih =>
      intro P i j
      rw [List.foldl_cons, ih, List.map_cons, List.sum_cons]
      split_ifs
      · ring
      · ring
  have outer : ∀ (l : List (Fin idx.length)) (P : Nat → Nat → ℝ) (i j : Nat),
      l.foldl (fun (P : Nat → Nat → ℝ) (b : Fin idx.length) => (List.finRange idx.length).foldl (fun (P : Nat → Nat → ℝ) (a : Fin idx.length) =>
        fun i j => if i = idx[a] ∧ j = idx[b] then P i j + B a b else P i j) P) P i j =
        P i j + (l.map fun b => ((List.finRange idx.length).map fun a => if i = idx[a] ∧ j = idx[b] then B a b else 0).sum).sum := by
    intro l
    induction l with
    | nil => intro P i j; simp
    | cons b r ih =>
      intro P i j
      rw [List.foldl_cons, ih, inner, List.map_cons, List.sum_cons]
      ring
  unfold scatterAdd
  rw [outer]
  simp only [Fin.sum_univ_def]

/-- scattering adds the electrons of the block -/
theorem electrons_scatterAdd (N : Nat) (S P : Nat → Nat → ℝ) (idx : List Nat) (h : ∀ i ∈ idx, i < N) (B : Matrix (Fin idx.length) (Fin idx.length) ℝ) :
    electrons N S (scatterAdd P idx B) = electrons N S P + (B * gather S idx).trace := by
  unfold electrons
  simp only [scatterAdd_eq, add_mul, Finset.sum_add_distrib, Finset.sum_mul]
  congr 1
  have e1 : ∀ i ∈ Finset.range N, ∑ j ∈ Finset.range N, ∑ b : Fin idx.length, ∑ a : Fin idx.length, (if i = idx[a] ∧ j = idx[b] then B a b else 0) * S j i =
      ∑ b : Fin idx.length, ∑ a : Fin idx.length, ∑ j ∈ Finset.range N, (if i = idx[a] ∧ j = idx[b] then B a b else 0) * S j i := by
    intro i _
    rw [Finset.sum_comm]
    apply Finset.sum_congr rfl
    intro b _
    rw [Finset.sum_comm]
  rw [Finset.sum_congr rfl e1, Finset.sum_comm]
  have e2 : ∀ b : Fin idx.length, ∑ i ∈ Finset.range N, ∑ a : Fin idx.length, ∑ j ∈ Finset.range N, (if i = idx[a] ∧ j = idx[b] then B a b else 0) * S j i =
      ∑ a : Fin idx.length, B a b * S idx[b] idx[a] := by
    intro b
    rw [Finset.sum_comm]
    apply Finset.sum_congr rfl
    intro a _
    rw [Finset.sum_eq_single idx[a]]
    · rw [Finset.sum_eq_single idx[b]]
      · simp
      · intro j _ hj
        rw [if_neg (fun hh => hj hh.2), zero_mul]
      · intro hn
        exact absurd (Finset.mem_range.2 (h _ (List.getElem_mem _))) hn
    · intro i _ hi
      apply Finset.sum_eq_zero
      intro j _
      rw [if_neg (fun hh => hi hh.1), zero_mul]
    · intro hn
      exact absurd (Finset.mem_range.2 (h _ (List.getElem_mem _))) hn
  rw [Finset.sum_congr rfl fun b _ => e2 b, Finset.sum_comm]
  simp only [Matrix.trace, Matrix.diag, Matrix.mul_apply, gather, Matrix.of_apply]

/-- electrons in a block density of orthonormal orbitals -/
theorem blockDensity_trace (b : Block) (S : Nat → Nat → ℝ) (hX : b.Orthonormalises S) (o : Orbs b.idx.length) (ho : o.Orthonormal) (c : ℝ) :
    (blockDensity b o c * gather S b.idx).trace = c * o.total := by
  unfold blockDensity
  have e : b.X * o.C * diagonal (fun i => c * o.occ i) * (b.X * o.C)ᵀ * gather S b.idx =
      (b.X * o.C) * (diagonal (fun i => c * o.occ i) * ((b.X * o.C)ᵀ * gather S b.idx)) := by simp only [Matrix.mul_assoc]
  rw [e, Matrix.trace_mul_comm]
  have e2 : diagonal (fun i => c * o.occ i) * ((b.X * o.C)ᵀ * gather S b.idx) * (b.X * o.C) =
      diagonal (fun i => c * o.occ i) * (o.Cᵀ * (b.Xᵀ * gather S b.idx * b.X) * o.C) := by
    rw [transpose_mul]; simp only [Matrix.mul_assoc]
  rw [e2, hX, Matrix.mul_one, ho, Matrix.mul_one, trace_diagonal, ← Finset.mul_sum, Orbs.total]

theorem blockDensity_smul (b : Block) (o : Orbs b.idx.length) (c : ℝ) : blockDensity b o c = c • blockDensity b o 1 := by
  unfold blockDensity
  have : diagonal (fun i => c * o.occ i) = c • diagonal (fun i => 1 * o.occ i) := by
    ext i j
    by_cases h : i = j
    · subst h; simp
    · simp [h]
  rw [this]; simp

/-- entries of a scatter at its own positions, for distinct positions -/
theorem scatterAdd_at (P : Nat → Nat → ℝ) (idx : List Nat) (hn : idx.Nodup) (B : Matrix (Fin idx.length) (Fin idx.length) ℝ) (a b : Fin idx.length) :
    scatterAdd P idx B idx[a] idx[b] = P idx[a] idx[b] + B a b := by
  rw [scatterAdd_eq]
  congr 1
  rw [Finset.sum_eq_single b]
  · rw [Finset.sum_eq_single a]
    · simp
    · intro c _ hc
      rw [if_neg]
      rintro ⟨h, _⟩
      exact hc (Fin.ext ((List.Nodup.getElem_inj_iff hn).1 h)).symm
    · intro h; exact absurd (Finset.mem_univ _) h
  · intro c _ hc
    apply Finset.sum_eq_zero
    intro d _
    rw [if_neg]
    rintro ⟨_, h⟩
    exact hc (Fin.ext ((List.Nodup.getElem_inj_iff hn).1 h)).symm
  · intro h; exact absurd (Finset.mem_univ _) h

/-- and elsewhere -/
theorem scatterAdd_off (P : Nat → Nat → ℝ) (idx : List Nat) (B : Matrix (Fin idx.length) (Fin idx.length) ℝ) (i j : Nat) (h : i ∉ idx ∨ j ∉ idx) :
    scatterAdd P idx B i j = P i j := by
  rw [scatterAdd_eq]
  have : ∑ b : Fin idx.length, ∑ a : Fin idx.length, (if i = idx[a] ∧ j = idx[b] then B a b else 0) = 0 := by
    apply Finset.sum_eq_zero
    intro b _
    apply Finset.sum_eq_zero
    intro a _
    rw [if_neg]
    rintro ⟨rfl, rfl⟩
    rcases h with h | h <;> exact h (List.getElem_mem _)
  rw [this, add_zero]

end Dens
end HelFEM
