import Verif.Spec.DrvSCF
import Verif.Lemmas.Density
import Mathlib.Analysis.Calculus.Deriv.Add
import Mathlib.Analysis.Calculus.Deriv.Mul

/-!
# Densities of symmetry blocks and expectation values
-/

namespace HelFEM
namespace Drv

open Matrix Finset Spec

/-! ### densities -/

theorem place_scatter (P : Nat → Nat → ℝ) (idx : List Nat) (B : Matrix (Fin idx.length) (Fin idx.length) ℝ) (i j : Nat) : Dens.scatterAdd P idx B i j = P i j + place idx B i j := by
  rw [Dens.scatterAdd_eq, place, sum_comm]

theorem place_smul (idx : List Nat) (c : ℝ) (B : Matrix (Fin idx.length) (Fin idx.length) ℝ) (i j : Nat) : place idx (c • B) i j = c * place idx B i j := by
  unfold place
  simp only [mul_sum, Matrix.smul_apply, smul_eq_mul, mul_ite, mul_zero]

theorem blockDensity_eq (b : Dens.Block) (o : Dens.Orbs b.idx.length) (c : ℝ) : Dens.blockDensity b o c = c • (b.X * orthDensity o * b.Xᵀ) := by
  rw [Dens.blockDensity_smul]
  unfold Dens.blockDensity orthDensity
  simp only [one_mul, Matrix.mul_assoc, Matrix.transpose_mul]

theorem accumulate_ok (P : Nat → Nat → ℝ) (b : Dens.Block) (o : Dens.Orbs b.idx.length) (mirror : List Nat) (h : mirror ≠ [] → mirror.length = b.idx.length) :
    Dens.accumulate P b o mirror = .ok fun i j => P i j + spreadBlock b mirror (orthDensity o) i j := by
  unfold Dens.accumulate
  by_cases hm : mirror = []
  · by_cases hb : b.idx = []
    · rw [if_pos hb]
      congr 1
      funext i j
      unfold spreadBlock place
      rw [if_pos hm]
      have : IsEmpty (Fin b.idx.length) := by rw [hb]; exact Fin.isEmpty
      simp
    · rw [if_neg hb, if_pos hm]
      congr 1
      funext i j
      rw [place_scatter, blockDensity_eq, one_smul, spreadBlock, if_pos hm]
  · have hl := h hm
    have hb : b.idx ≠ [] := by
      intro hb
      rw [hb] at hl
      exact hm (List.length_eq_zero_iff.1 hl)
    rw [if_neg hb, if_neg hm, dif_pos hl]
    congr 1
    funext i j
    rw [place_scatter, place_scatter, blockDensity_eq, place_smul, spreadBlock, if_neg hm, dif_pos hl]
    have : ((1 / 2 : ℝ) • (b.X * orthDensity o * b.Xᵀ)).submatrix (Fin.cast hl) (Fin.cast hl) = (1 / 2 : ℝ) • (b.X * orthDensity o * b.Xᵀ).submatrix (Fin.cast hl) (Fin.cast hl) := rfl
    rw [this, place_smul]
    ring

theorem accumulateAll_ok : ∀ (l : List ((b : Dens.Block) × Dens.Orbs b.idx.length × List Nat)), (∀ x ∈ l, x.2.2 ≠ [] → x.2.2.length = x.1.idx.length) → ∀ P : Nat → Nat → ℝ,
    Dens.accumulateAll l P = .ok fun i j => P i j + (l.map fun x => spreadBlock x.1 x.2.2 (orthDensity x.2.1) i j).sum
  | [], _, P => by simp [Dens.accumulateAll]
  | ⟨b, o, m⟩ :: r, h, P => by
    rw [Dens.accumulateAll, accumulate_ok P b o m (h ⟨b, o, m⟩ List.mem_cons_self)]
    simp only
    rw [accumulateAll_ok r fun x hx => h x (List.mem_cons_of_mem _ hx)]
    congr 1
    funext i j
    simp only [List.map_cons, List.sum_cons]
    ring

theorem density_ok {s : Setup} (hL : Layout s) (o : Orbitals s) : density s o = .ok (densityOf s o) := by
  unfold density
  rw [accumulateAll_ok]
  · congr 1
    funext i j
    rw [zero_add, densityOf, spread, List.map_map, ← List.sum_ofFn, List.ofFn_eq_map]
    rfl
  · intro x hx
    obtain ⟨k, _, rfl⟩ := List.mem_map.1 hx
    exact hL.length k

/-! ### expectation values -/

theorem mean_place {N : Nat} (F : Nat → Nat → ℝ) (idx : List Nat) (h : ∀ i ∈ idx, i < N) (B : Matrix (Fin idx.length) (Fin idx.length) ℝ) :
    mean N F (place idx B) = ∑ a, ∑ b, F idx[a] idx[b] * B a b := by
  unfold mean place
  simp only [mul_sum]
  have : ∀ a b : Fin idx.length, ∑ i ∈ range N, ∑ j ∈ range N, F i j * (if i = idx[a] ∧ j = idx[b] then B a b else 0) = F idx[a] idx[b] * B a b := by
    intro a b
    rw [sum_eq_single idx[a], sum_eq_single idx[b]]
    · simp
    · intro j _ hj; rw [if_neg (fun e => hj e.2), mul_zero]
    · intro hj; exact absurd (Finset.mem_range.2 (h _ (List.getElem_mem _))) hj
    · intro i _ hi
      apply sum_eq_zero; intro j _
      rw [if_neg (fun e => hi e.1), mul_zero]
    · intro hj; exact absurd (Finset.mem_range.2 (h _ (List.getElem_mem _))) hj
  simp only [← this]
  rw [sum_congr rfl fun i _ => sum_comm]
  rw [sum_comm]
  refine sum_congr rfl fun a _ => ?_
  rw [sum_congr rfl fun i _ => sum_comm]
  rw [sum_comm]

theorem mean_add (N : Nat) (F A B : Nat → Nat → ℝ) : mean N F (fun i j => A i j + B i j) = mean N F A + mean N F B := by
  unfold mean
  simp only [mul_add, sum_add_distrib]

theorem mean_smul (N : Nat) (F A : Nat → Nat → ℝ) (c : ℝ) : mean N F (fun i j => c * A i j) = c * mean N F A := by
  unfold mean
  simp only [mul_sum]
  exact sum_congr rfl fun i _ => sum_congr rfl fun j _ => by ring

theorem mean_zero (N : Nat) (F : Nat → Nat → ℝ) : mean N F (fun _ _ => 0) = 0 := by
  unfold mean
  simp

theorem mean_zero_left (N : Nat) (P : Nat → Nat → ℝ) : mean N (fun _ _ => 0) P = 0 := by
  unfold mean
  simp

theorem mean_add_left (N : Nat) (F G A : Nat → Nat → ℝ) : mean N (fun i j => F i j + G i j) A = mean N F A + mean N G A := by
  unfold mean
  simp only [add_mul, sum_add_distrib]

theorem mean_smul_left (N : Nat) (F A : Nat → Nat → ℝ) (c : ℝ) : mean N (fun i j => c * F i j) A = c * mean N F A := by
  unfold mean
  simp only [mul_sum]
  exact sum_congr rfl fun i _ => sum_congr rfl fun j _ => by ring

theorem mean_sum {ι : Type _} [Fintype ι] (N : Nat) (F : Nat → Nat → ℝ) (A : ι → Nat → Nat → ℝ) : mean N F (fun i j => ∑ k, A k i j) = ∑ k, mean N F (A k) := by
  unfold mean
  simp only [mul_sum]
  rw [sum_congr rfl fun i _ => sum_comm, sum_comm]

theorem mean_congr {N : Nat} {F G A B : Nat → Nat → ℝ} (h : ∀ i < N, ∀ j < N, F i j = G i j) (h' : ∀ i < N, ∀ j < N, A i j = B i j) : mean N F A = mean N G B := by
  unfold mean
  refine sum_congr rfl fun i hi => sum_congr rfl fun j hj => ?_
  rw [h i (Finset.mem_range.1 hi) j (Finset.mem_range.1 hj), h' i (Finset.mem_range.1 hi) j (Finset.mem_range.1 hj)]

/-- `∑ G_ab B_ab` is a trace -/
theorem sum_trace {n : Nat} (G B : Matrix (Fin n) (Fin n) ℝ) : ∑ a, ∑ b, G a b * B a b = (G * Bᵀ).trace := by
  unfold Matrix.trace
  simp only [Matrix.diag_apply, Matrix.mul_apply, Matrix.transpose_apply]

theorem block_trace (b : Dens.Block) (F : Nat → Nat → ℝ) (D : Matrix (Fin b.idx.length) (Fin b.idx.length) ℝ) (hD : Dᵀ = D) :
    ∑ a, ∑ c, F b.idx[a] b.idx[c] * (b.X * D * b.Xᵀ) a c = (Dens.orthFock b F * D).trace := by
  have e := sum_trace (Orth.gather F b.idx) (b.X * D * b.Xᵀ)
  rw [show ∑ a, ∑ c, F b.idx[a] b.idx[c] * (b.X * D * b.Xᵀ) a c = ∑ a, ∑ c, Orth.gather F b.idx a c * (b.X * D * b.Xᵀ) a c from rfl, e]
  unfold Dens.orthFock
  simp only [Matrix.transpose_mul, Matrix.transpose_transpose, hD]
  rw [show Orth.gather F b.idx * (b.X * (D * b.Xᵀ)) = (Orth.gather F b.idx * b.X * D) * b.Xᵀ by simp only [Matrix.mul_assoc], Matrix.trace_mul_comm]
  simp only [Matrix.mul_assoc]

theorem mean_spread {s : Setup} (hL : Layout s) {F : Nat → Nat → ℝ} (hF : MirrorInv s F) (D : Blocks s) (hD : ∀ k, (D k)ᵀ = D k) :
    mean s.N F (spread s D) = ∑ k, (Dens.orthFock (s.block k) F * D k).trace := by
  have e : spread s D = fun i j => ∑ k, spreadBlock (s.block k) (s.mirror k) (D k) i j := rfl
  rw [e, mean_sum]
  refine sum_congr rfl fun k _ => ?_
  by_cases hm : s.mirror k = []
  · rw [show spreadBlock (s.block k) (s.mirror k) (D k) = place (s.block k).idx ((s.block k).X * D k * (s.block k).Xᵀ) by funext i j; rw [spreadBlock, if_pos hm],
      mean_place _ _ (hL.within k), block_trace _ _ _ (hD k)]
  · have hl := hL.length k hm
    have e2 : spreadBlock (s.block k) (s.mirror k) (D k) = fun i j => 1 / 2 * place (s.block k).idx ((s.block k).X * D k * (s.block k).Xᵀ) i j +
        1 / 2 * place (s.mirror k) (((s.block k).X * D k * (s.block k).Xᵀ).submatrix (Fin.cast hl) (Fin.cast hl)) i j := by
      funext i j
      rw [spreadBlock, if_neg hm, dif_pos hl]
    rw [e2, mean_add, mean_smul, mean_smul, mean_place _ _ (hL.within k), mean_place _ _ (hL.mirror k), block_trace _ _ _ (hD k)]
    have e3 : ∑ a : Fin (s.mirror k).length, ∑ b : Fin (s.mirror k).length, F (s.mirror k)[a] (s.mirror k)[b] *
        (((s.block k).X * D k * (s.block k).Xᵀ).submatrix (Fin.cast hl) (Fin.cast hl)) a b = (Dens.orthFock (s.block k) F * D k).trace := by
      rw [← block_trace _ _ _ (hD k), ← Equiv.sum_comp (finCongr hl)]
      refine sum_congr rfl fun a _ => ?_
      rw [← Equiv.sum_comp (finCongr hl)]
      refine sum_congr rfl fun b _ => ?_
      have := hF k hm a b a.2 b.2 (hl ▸ a.2) (hl ▸ b.2)
      simp only [finCongr_apply, Matrix.submatrix_apply]
      rw [show (s.mirror k)[a] = (s.mirror k)[a.val] from rfl, show (s.mirror k)[b] = (s.mirror k)[b.val] from rfl, this]
      rfl
    rw [e3]
    ring

/-! ### along a curve -/

/-- `D'` is the derivative of the blocks' density matrices at `t0` -/
def Moves {s : Setup} (D : ℝ → Blocks s) (D' : Blocks s) (t0 : ℝ) : Prop := ∀ k i j, HasDerivAt (fun t => D t k i j) (D' k i j) t0

theorem back_deriv {n : Nat} {D : ℝ → Matrix (Fin n) (Fin n) ℝ} {D' : Matrix (Fin n) (Fin n) ℝ} {t0 : ℝ} (h : ∀ i j, HasDerivAt (fun t => D t i j) (D' i j) t0) (X : Matrix (Fin n) (Fin n) ℝ)
    (a b : Fin n) : HasDerivAt (fun t => (X * D t * Xᵀ) a b) ((X * D' * Xᵀ) a b) t0 := by
  simp only [Matrix.mul_apply, Matrix.transpose_apply]
  exact HasDerivAt.fun_sum fun c _ => (HasDerivAt.fun_sum fun d _ => (h d c).const_mul _).mul_const _

theorem place_deriv {idx : List Nat} {B : ℝ → Matrix (Fin idx.length) (Fin idx.length) ℝ} {B' : Matrix (Fin idx.length) (Fin idx.length) ℝ} {t0 : ℝ}
    (h : ∀ a b, HasDerivAt (fun t => B t a b) (B' a b) t0) (i j : Nat) : HasDerivAt (fun t => place idx (B t) i j) (place idx B' i j) t0 := by
  unfold place
  refine HasDerivAt.fun_sum fun a _ => HasDerivAt.fun_sum fun b _ => ?_
  by_cases hc : i = idx[a] ∧ j = idx[b]
  · simp only [if_pos hc]; exact h a b
  · simp only [if_neg hc]; exact hasDerivAt_const _ _

theorem spread_deriv {s : Setup} {D : ℝ → Blocks s} {D' : Blocks s} {t0 : ℝ} (h : Moves D D' t0) (i j : Nat) : HasDerivAt (fun t => spread s (D t) i j) (spread s D' i j) t0 := by
  unfold spread
  refine HasDerivAt.fun_sum fun k _ => ?_
  unfold spreadBlock
  by_cases hm : s.mirror k = []
  · simp only [if_pos hm]; exact place_deriv (back_deriv (h k) _) i j
  · simp only [if_neg hm]
    refine ((place_deriv (back_deriv (h k) _) i j).const_mul _).add (HasDerivAt.const_mul _ ?_)
    by_cases hl : (s.mirror k).length = (s.block k).idx.length
    · simp only [dif_pos hl]
      exact place_deriv (B := fun t => ((s.block k).X * D t k * (s.block k).Xᵀ).submatrix (Fin.cast hl) (Fin.cast hl)) (fun a b => back_deriv (h k) _ _ _) i j
    · simp only [dif_neg hl]; exact hasDerivAt_const _ _

theorem moves_symm {s : Setup} {D : ℝ → Blocks s} {D' : Blocks s} {t0 : ℝ} (h : Moves D D' t0) (hs : ∀ t k, (D t k)ᵀ = D t k) (k : Fin s.nsym) : (D' k)ᵀ = D' k := by
  ext i j
  have h1 := h k j i
  have e : (fun t => D t k j i) = fun t => D t k i j := funext fun t => congrFun (congrFun (hs t k) i) j
  rw [e] at h1
  exact h1.unique (h k i j)

theorem orthDensity_symm {n : Nat} (o : Dens.Orbs n) : (orthDensity o)ᵀ = orthDensity o := by
  unfold orthDensity
  simp only [Matrix.transpose_mul, Matrix.transpose_transpose, Matrix.diagonal_transpose, Matrix.mul_assoc]

theorem mean_deriv {N : Nat} (F : Nat → Nat → ℝ) {P : ℝ → Nat → Nat → ℝ} {P' : Nat → Nat → ℝ} {t0 : ℝ} (h : ∀ i j, HasDerivAt (fun t => P t i j) (P' i j) t0) :
    HasDerivAt (fun t => mean N F (P t)) (mean N F P') t0 := by
  unfold mean
  exact HasDerivAt.fun_sum fun i _ => HasDerivAt.fun_sum fun j _ => (h i j).const_mul _

/-! ### the two-electron energies -/

/-- the Coulomb matrix -/
noncomputable def jM (N : Nat) (q : Nat → Nat → Nat → Nat → ℝ) (P : Nat → Nat → ℝ) (i j : Nat) : ℝ := ∑ k ∈ range N, ∑ l ∈ range N, q i j k l * P k l
/-- the exchange matrix -/
noncomputable def kM (N : Nat) (x : Nat → Nat → Nat → Nat → ℝ) (P : Nat → Nat → ℝ) (j k : Nat) : ℝ := -∑ i ∈ range N, ∑ l ∈ range N, x i j k l * P i l

theorem coulomb_mean (N : Nat) (q : Nat → Nat → Nat → Nat → ℝ) (P : Nat → Nat → ℝ) : coulombEnergy N q P = 1 / 2 * mean N (jM N q P) P := by
  unfold coulombEnergy mean jM
  congr 1
  refine sum_congr rfl fun i _ => sum_congr rfl fun j _ => ?_
  simp only [sum_mul]
  exact sum_congr rfl fun k _ => sum_congr rfl fun l _ => by ring

theorem coulomb_deriv {N : Nat} {q : Nat → Nat → Nat → Nat → ℝ} (hq : ∀ i < N, ∀ j < N, ∀ k < N, ∀ l < N, q i j k l = q k l i j) {P : ℝ → Nat → Nat → ℝ} {P' : Nat → Nat → ℝ} {t0 : ℝ}
    (h : ∀ i j, HasDerivAt (fun t => P t i j) (P' i j) t0) : HasDerivAt (fun t => coulombEnergy N q (P t)) (mean N (jM N q (P t0)) P') t0 := by
  unfold coulombEnergy
  refine ((HasDerivAt.fun_sum fun i _ => HasDerivAt.fun_sum fun j _ => HasDerivAt.fun_sum fun k _ => HasDerivAt.fun_sum fun l _ => ((h i j).const_mul (q i j k l)).mul (h k l)).const_mul (1 / 2 : ℝ)).congr_deriv ?_
  simp only [sum_add_distrib]
  have e1 : ∑ i ∈ range N, ∑ j ∈ range N, ∑ k ∈ range N, ∑ l ∈ range N, q i j k l * P' i j * P t0 k l = mean N (jM N q (P t0)) P' := by
    unfold mean jM
    refine sum_congr rfl fun i _ => sum_congr rfl fun j _ => ?_
    simp only [sum_mul]
    exact sum_congr rfl fun k _ => sum_congr rfl fun l _ => by ring
  have e2 : ∑ i ∈ range N, ∑ j ∈ range N, ∑ k ∈ range N, ∑ l ∈ range N, q i j k l * P t0 i j * P' k l = mean N (jM N q (P t0)) P' := by
    rw [← e1]
    have : ∀ (f : Nat → Nat → Nat → Nat → ℝ), ∑ i ∈ range N, ∑ j ∈ range N, ∑ k ∈ range N, ∑ l ∈ range N, f i j k l = ∑ k ∈ range N, ∑ l ∈ range N, ∑ i ∈ range N, ∑ j ∈ range N, f i j k l := by
      intro f
      rw [sum_congr rfl fun i _ => sum_comm]
      rw [sum_comm]
      refine sum_congr rfl fun k _ => ?_
      rw [sum_congr rfl fun i _ => sum_congr rfl fun j _ => rfl]
      rw [sum_congr rfl fun i _ => sum_comm, sum_comm]
    rw [this]
    refine sum_congr rfl fun i hi => sum_congr rfl fun j hj => sum_congr rfl fun k hk => sum_congr rfl fun l hl => ?_
    rw [hq k (Finset.mem_range.1 hk) l (Finset.mem_range.1 hl) i (Finset.mem_range.1 hi) j (Finset.mem_range.1 hj)]
    ring
  rw [e1, e2]
  ring

theorem exchange_mean (N : Nat) (x : Nat → Nat → Nat → Nat → ℝ) (P : Nat → Nat → ℝ) : exchangeEnergy N x P = 1 / 2 * mean N (kM N x P) P := by
  unfold exchangeEnergy mean kM
  have : ∑ i ∈ range N, ∑ j ∈ range N, ∑ k ∈ range N, ∑ l ∈ range N, x i j k l * P i l * P j k = ∑ j ∈ range N, ∑ k ∈ range N, (∑ i ∈ range N, ∑ l ∈ range N, x i j k l * P i l) * P j k := by
    rw [sum_comm]
    refine sum_congr rfl fun j _ => ?_
    rw [sum_comm]
    refine sum_congr rfl fun k _ => ?_
    simp only [sum_mul]
  rw [this]
  simp only [neg_mul, sum_neg_distrib]
  ring

theorem exchange_deriv {N : Nat} {x : Nat → Nat → Nat → Nat → ℝ} (hx : ∀ i < N, ∀ j < N, ∀ k < N, ∀ l < N, x i j k l = x j i l k) {P : ℝ → Nat → Nat → ℝ} {P' : Nat → Nat → ℝ} {t0 : ℝ}
    (h : ∀ i j, HasDerivAt (fun t => P t i j) (P' i j) t0) : HasDerivAt (fun t => exchangeEnergy N x (P t)) (mean N (kM N x (P t0)) P') t0 := by
  unfold exchangeEnergy
  refine (((HasDerivAt.fun_sum fun i _ => HasDerivAt.fun_sum fun j _ => HasDerivAt.fun_sum fun k _ => HasDerivAt.fun_sum fun l _ => ((h i l).const_mul (x i j k l)).mul (h j k)).const_mul (1 / 2 : ℝ)).neg).congr_deriv ?_
  simp only [sum_add_distrib]
  have e2 : ∑ i ∈ range N, ∑ j ∈ range N, ∑ k ∈ range N, ∑ l ∈ range N, x i j k l * P t0 i l * P' j k = -mean N (kM N x (P t0)) P' := by
    unfold mean kM
    simp only [neg_mul, sum_neg_distrib, neg_neg]
    rw [sum_comm]
    refine sum_congr rfl fun j _ => ?_
    rw [sum_comm]
    refine sum_congr rfl fun k _ => ?_
    simp only [sum_mul]
  have e1 : ∑ i ∈ range N, ∑ j ∈ range N, ∑ k ∈ range N, ∑ l ∈ range N, x i j k l * P' i l * P t0 j k = -mean N (kM N x (P t0)) P' := by
    rw [← e2, sum_comm]
    refine sum_congr rfl fun i hi => sum_congr rfl fun j hj => ?_
    rw [sum_comm]
    refine sum_congr rfl fun k hk => sum_congr rfl fun l hl => ?_
    rw [hx j (Finset.mem_range.1 hj) i (Finset.mem_range.1 hi) l (Finset.mem_range.1 hl) k (Finset.mem_range.1 hk)]
    ring
  rw [e1, e2]
  ring

end Drv
end HelFEM
