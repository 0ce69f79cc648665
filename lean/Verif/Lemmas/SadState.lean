import Verif.Spec.SadState
import Verif.Lemmas.SadSCF
import Verif.Props.SadOccs
import Verif.Props.Density

/-!
# Lemmas for C84
-/

namespace HelFEM
namespace SadSCF

open Matrix Finset

theorem density_count {N M : Nat} {S : Matrix (Fin N) (Fin N) ℝ} {X : Matrix (Fin N) (Fin M) ℝ} (hX : Spec.Orthonormalises S X) (o : Dens.Orbs M) (ho : o.Orthonormal) :
    Spec.count S (Spec.density X o) = o.total := by
  have h1 : o.Cᵀ * o.C = 1 := ho
  unfold Spec.count Spec.density Spec.orthDensity Dens.Orbs.total
  calc (X * (o.C * diagonal o.occ * o.Cᵀ) * Xᵀ * S).trace = (X * ((o.C * diagonal o.occ * o.Cᵀ) * (Xᵀ * S))).trace := by simp only [Matrix.mul_assoc]
    _ = ((o.C * diagonal o.occ * o.Cᵀ) * (Xᵀ * S) * X).trace := trace_mul_comm _ _
    _ = ((o.C * diagonal o.occ * o.Cᵀ) * (Xᵀ * S * X)).trace := by simp only [Matrix.mul_assoc]
    _ = (o.C * (diagonal o.occ * o.Cᵀ)).trace := by rw [hX.2, Matrix.mul_one, Matrix.mul_assoc]
    _ = (diagonal o.occ * (o.Cᵀ * o.C)).trace := by rw [trace_mul_comm, Matrix.mul_assoc]
    _ = ∑ i, o.occ i := by rw [h1, Matrix.mul_one, trace_diagonal]

theorem cube_entry {N M : Nat} (X : Matrix (Fin N) (Fin M) ℝ) (o : Dens.Orbs M) : buildCube [(⟨o.p, X * o.C, o.occ⟩ : Dens.Orbs N)] = [Spec.density X o] := by
  have e : X * o.C * diagonal o.occ * (X * o.C)ᵀ = Spec.density X o := by
    unfold Spec.density Spec.orthDensity
    rw [transpose_mul]
    simp only [Matrix.mul_assoc]
  unfold buildCube
  simp only [List.map_cons, List.map_nil, List.cons.injEq, and_true]
  split_ifs with h
  · symm
    rcases h with h | h
    · refine density_zero X o fun i => ?_
      exact absurd i.2 (by simp [h])
    · exact density_zero X o h
  · exact e

theorem buildCube_map {N M : Nat} (X : Matrix (Fin N) (Fin M) ℝ) (l : List Nat) (o : Nat → Dens.Orbs M) :
    buildCube (l.map fun k => (⟨(o k).p, X * (o k).C, (o k).occ⟩ : Dens.Orbs N)) = l.map fun k => Spec.density X (o k) := by
  have : ∀ k, buildCube [(⟨(o k).p, X * (o k).C, (o k).occ⟩ : Dens.Orbs N)] = [Spec.density X (o k)] := fun k => cube_entry X (o k)
  unfold buildCube at this ⊢
  rw [List.map_map]
  refine List.map_congr_left fun k _ => ?_
  have h := this k
  simp only [List.map_cons, List.map_nil, List.cons.injEq, and_true] at h
  exact h

theorem foldl_add_range {N : Nat} (D : Nat → Matrix (Fin N) (Fin N) ℝ) (n : Nat) (P : Matrix (Fin N) (Fin N) ℝ) : ((List.range n).map D).foldl (· + ·) P = P + ∑ l ∈ range n, D l := by
  induction n with
  | zero => simp
  | succ n ih => rw [List.range_succ, List.map_append, List.foldl_append, ih, sum_range_succ, List.map_cons, List.map_nil, List.foldl_cons, List.foldl_nil, add_assoc]

theorem roundAway_near (x : ℝ) : |x - roundAway x| ≤ 1 / 2 := by
  unfold roundAway
  split_ifs with h
  · have h1 := Int.floor_le (x + 1 / 2)
    have h2 := Int.lt_floor_add_one (x + 1 / 2)
    rw [abs_le]
    constructor <;> linarith
  · have h1 := Int.le_ceil (x - 1 / 2)
    have h2 := Int.ceil_lt_add_one (x - 1 / 2)
    rw [abs_le]
    constructor <;> linarith

theorem toInt_round {x : ℝ} (h : |x| ≤ 2147483647) : toInt (roundAway x) = .ok (roundAway x) := by
  obtain ⟨h1, h2⟩ := abs_le.1 h
  obtain ⟨r1, r2⟩ := abs_le.1 (roundAway_near x)
  unfold toInt
  rw [if_pos]
  constructor
  · have : (-2147483649 : ℝ) < (roundAway x : ℝ) := by linarith
    have : (-2147483649 : Int) < roundAway x := by exact_mod_cast this
    omega
  · have : (roundAway x : ℝ) < 2147483648 := by linarith
    have : roundAway x < (2147483648 : Int) := by exact_mod_cast this
    omega

theorem extract_ok (s : Setup) (sol : List (Dens.Orbs s.M)) (t : Nat) (o : Nat → Dens.Orbs s.M) (h : ∀ l ≤ s.lmax, sol[t * (s.lmax + 1) + l]? = some (o l))
    (hs : ∀ l ≤ s.lmax, |∑ i, (o l).occ i| ≤ 2147483647) :
    extractChannel s sol t = .ok ((List.range (s.lmax + 1)).map fun l => (⟨(o l).p, s.X * (o l).C, (o l).occ⟩ : Dens.Orbs s.N), (List.range (s.lmax + 1)).map fun l => roundAway (o l).total) := by
  unfold extractChannel Setup.nblock
  rw [Res.mapM_ok _ fun l => ((⟨(o l).p, s.X * (o l).C, (o l).occ⟩ : Dens.Orbs s.N), roundAway (o l).total)]
  · rw [Res.ok_bind, List.map_map, List.map_map]
    rfl
  · intro l hl
    rw [List.mem_range] at hl
    rw [readAt, h l (by omega), Res.ok_bind, toInt_round (hs l (by omega)), Res.ok_bind]
    rfl

/-- eigenvalues of a density with occupations in `[0, c]` lie there too -/
theorem eig_within {M : Nat} (o : Dens.Orbs M) (ho : o.Orthonormal) {c : ℝ} (hm : 0 ≤ c) (hocc : Spec.Within o c) {v : Fin M → ℝ} {V : Matrix (Fin M) (Fin M) ℝ} (hV : Vᵀ * V = 1)
    (hA : Spec.orthDensity o = V * diagonal v * Vᵀ) (i : Fin M) : 0 ≤ v i ∧ v i ≤ c := by
  obtain ⟨W, hW⟩ : ∃ W, W = Vᵀ * o.C := ⟨_, rfl⟩
  have hvW : diagonal v = W * diagonal o.occ * Wᵀ := by
    calc diagonal v = (Vᵀ * V) * diagonal v * (Vᵀ * V) := by rw [hV, Matrix.one_mul, Matrix.mul_one]
      _ = Vᵀ * (V * diagonal v * Vᵀ) * V := by simp only [Matrix.mul_assoc]
      _ = Vᵀ * (o.C * diagonal o.occ * o.Cᵀ) * V := by rw [← hA]; rfl
      _ = W * diagonal o.occ * Wᵀ := by rw [hW, transpose_mul, transpose_transpose]; simp only [Matrix.mul_assoc]
  have hWW : 1 - W * Wᵀ = (Vᵀ - W * o.Cᵀ) * (Vᵀ - W * o.Cᵀ)ᵀ := by
    rw [transpose_sub, transpose_transpose, transpose_mul, transpose_transpose, Matrix.sub_mul, Matrix.mul_sub, Matrix.mul_sub, hV]
    have a1 : Vᵀ * (o.C * Wᵀ) = W * Wᵀ := by rw [← Matrix.mul_assoc, ← hW]
    have a2 : W * o.Cᵀ * V = W * Wᵀ := by rw [Matrix.mul_assoc]; congr 1; rw [hW, transpose_mul, transpose_transpose]
    have a3 : W * o.Cᵀ * (o.C * Wᵀ) = W * Wᵀ := by
      have : o.Cᵀ * o.C = 1 := ho
      rw [Matrix.mul_assoc, ← Matrix.mul_assoc o.Cᵀ, this, Matrix.one_mul]
    rw [a1, a2, a3]
    abel
  have hv : v i = ∑ k, W i k ^ 2 * o.occ k := by
    have := congrFun (congrFun hvW i) i
    rw [diagonal_apply_eq, Matrix.mul_apply] at this
    rw [this]
    refine Finset.sum_congr rfl fun k _ => ?_
    rw [Matrix.mul_diagonal, transpose_apply]
    ring
  have hw1 : ∑ k, W i k ^ 2 ≤ 1 := by
    have := congrFun (congrFun hWW i) i
    rw [Matrix.sub_apply, Matrix.one_apply_eq, Matrix.mul_apply, Matrix.mul_apply] at this
    have h0 : 0 ≤ ∑ j, (Vᵀ - W * o.Cᵀ) i j * (Vᵀ - W * o.Cᵀ)ᵀ j i := Finset.sum_nonneg fun j _ => by
      rw [transpose_apply]; exact mul_self_nonneg _
    have e : ∑ j, W i j * Wᵀ j i = ∑ k, W i k ^ 2 := Finset.sum_congr rfl fun k _ => by rw [transpose_apply]; ring
    linarith
  constructor
  · rw [hv]
    exact Finset.sum_nonneg fun k _ => mul_nonneg (sq_nonneg _) (hocc k).1
  · rw [hv]
    calc ∑ k, W i k ^ 2 * o.occ k ≤ ∑ k, W i k ^ 2 * c := Finset.sum_le_sum fun k _ => mul_le_mul_of_nonneg_left (hocc k).2 (sq_nonneg _)
      _ = (∑ k, W i k ^ 2) * c := by rw [Finset.sum_mul]
      _ ≤ 1 * c := mul_le_mul_of_nonneg_right hw1 hm
      _ = c := one_mul _

end SadSCF
end HelFEM
