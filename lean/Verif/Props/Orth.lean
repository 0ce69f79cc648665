import Verif.Spec.Orth
import Verif.Lemmas.Lists
import Mathlib.Analysis.Matrix.Spectrum
import Mathlib.Analysis.Matrix.PosDef
import Mathlib.Tactic.Linarith
import Mathlib.Tactic.Ring
import Mathlib.Tactic.NoncommRing
import Mathlib.Tactic.FieldSimp

/-!
# C28: the half-inverse overlap orthonormalises the basis
-/

namespace HelFEM
namespace Orth

open Matrix

variable {s : Solvers}

theorem diag_pos {n : Nat} {S : Matrix (Fin n) (Fin n) ℝ} (hS : S.PosDef) (i : Fin n) : 0 < S i i := hS.diag_pos

theorem scaled_posdef {n : Nat} {S : Matrix (Fin n) (Fin n) ℝ} (hS : S.PosDef) (d : Fin n → ℝ) (hd : ∀ i, d i ≠ 0) :
    (diagonal d * S * diagonal d).PosDef := by
  have h := hS.conjTranspose_mul_mul_same (B := diagonal d) (by
    intro x y h
    funext i
    have := congrFun h i
    simp only [mulVec_diagonal] at this
    exact mul_left_cancel₀ (hd i) this)
  rwa [diagonal_conjTranspose, show star d = d from rfl] at h

theorem core_spec (hs : s.Sound) {n : Nat} {S : Matrix (Fin n) (Fin n) ℝ} (hS : S.PosDef) (chol : Bool) (X : Matrix (Fin n) (Fin n) ℝ)
    (h : invhCore s S chol = .ok X) : Xᵀ * S * X = 1 := by
  unfold invhCore at h
  have hsym : Sᵀ = S := by have := hS.isHermitian; rwa [Matrix.IsHermitian, conjTranspose_eq_transpose_of_trivial] at this
  split_ifs at h
  · cases hL : s.llt n S with
    | none => rw [hL] at h; cases h
    | some L =>
      rw [hL] at h
      simp only [Res.ok.injEq] at h
      have hLL := hs.llt n S L hL
      have hdet : IsUnit (Lᵀ).det := by
        rw [det_transpose, isUnit_iff_ne_zero]
        intro h0
        have := hS.det_pos
        rw [← hLL, det_mul, h0, zero_mul] at this
        exact lt_irrefl _ this
      rw [← h, ← hLL, transpose_nonsing_inv, transpose_transpose]
      have h1 : L⁻¹ * L = 1 := nonsing_inv_mul _ (by rwa [det_transpose] at hdet)
      have h2 : Lᵀ * Lᵀ⁻¹ = 1 := mul_nonsing_inv _ hdet
      calc L⁻¹ * (L * Lᵀ) * Lᵀ⁻¹ = (L⁻¹ * L) * (Lᵀ * Lᵀ⁻¹) := by noncomm_ring
        _ = 1 := by rw [h1, h2, one_mul]
  · cases hE : s.eig n S with
    | none => rw [hE] at h; cases h
    | some p =>
      obtain ⟨v, V⟩ := p
      rw [hE] at h
      simp only [Res.ok.injEq] at h
      obtain ⟨hV, hA⟩ := hs.eig n S v V hsym hE
      have hV' : V * Vᵀ = 1 := mul_eq_one_comm.1 hV
      have hdiag : Vᵀ * S * V = diagonal v := by
        calc Vᵀ * S * V = Vᵀ * (V * diagonal v * Vᵀ) * V := by rw [← hA]
          _ = (Vᵀ * V) * diagonal v * (Vᵀ * V) := by noncomm_ring
          _ = diagonal v := by rw [hV, one_mul, mul_one]
      have hpos : ∀ i, 0 < v i := by
        have := hS.conjTranspose_mul_mul_same (B := V) (by
          intro x y h
          have := congrArg (fun z => Vᵀ *ᵥ z) h
          simpa [mulVec_mulVec, hV] using this)
        rw [conjTranspose_eq_transpose_of_trivial, hdiag] at this
        intro i
        have h2 := diag_pos this i
        simpa using h2
      have hw : diagonal (invSqrt v) * diagonal v * diagonal (invSqrt v) = (1 : Matrix (Fin n) (Fin n) ℝ) := by
        rw [diagonal_mul_diagonal, diagonal_mul_diagonal, ← diagonal_one]
        congr 1
        funext i
        have h2 : √(v i) ≠ 0 := Real.sqrt_ne_zero'.2 (hpos i)
        have h3 : √(v i) * √(v i) = v i := Real.mul_self_sqrt (hpos i).le
        simp only [invSqrt]
        calc (√(v i))⁻¹ * v i * (√(v i))⁻¹ = (√(v i))⁻¹ * (√(v i) * √(v i)) * (√(v i))⁻¹ := by rw [h3]
          _ = 1 := by field_simp
      rw [← h, transpose_mul, transpose_mul, transpose_transpose, diagonal_transpose]
      calc V * (diagonal (invSqrt v) * Vᵀ) * S * (V * diagonal (invSqrt v) * Vᵀ)
          = V * (diagonal (invSqrt v) * (Vᵀ * S * V) * diagonal (invSqrt v)) * Vᵀ := by noncomm_ring
        _ = 1 := by rw [hdiag, hw, mul_one, hV']

/-- **C28.** For every symmetric positive definite overlap the half-inverse (Cholesky or symmetric) satisfies `Xᵀ S X = 1`. -/
theorem C28_half_inverse (hs : s.Sound) {n : Nat} {S : Matrix (Fin n) (Fin n) ℝ} (hS : S.PosDef) (chol : Bool) (X : Matrix (Fin n) (Fin n) ℝ)
    (h : invh s S chol = .ok X) : Xᵀ * S * X = 1 := by
  have hd : ∀ i, invSqrt (fun i => S i i) i ≠ 0 := fun i => inv_ne_zero (Real.sqrt_ne_zero'.2 (diag_pos hS i))
  unfold invh at h
  simp only at h
  cases hc : invhCore s (diagonal (invSqrt fun i => S i i) * S * diagonal (invSqrt fun i => S i i)) chol with
  | throw e => rw [hc] at h; cases h
  | ub => rw [hc] at h; cases h
  | ok Y =>
    rw [hc] at h
    simp only [Res.ok.injEq] at h
    have hY := core_spec hs (scaled_posdef hS _ hd) chol Y hc
    rw [← h, transpose_mul, diagonal_transpose, ← hY]
    noncomm_ring

/-- and it is always produced when the decompositions succeed -/
theorem C28_half_inverse_exists (ht : s.Total) {n : Nat} {S : Matrix (Fin n) (Fin n) ℝ} (hS : S.PosDef) (chol : Bool) :
    ∃ X, invh s S chol = .ok X := by
  have hd : ∀ i, invSqrt (fun i => S i i) i ≠ 0 := fun i => inv_ne_zero (Real.sqrt_ne_zero'.2 (diag_pos hS i))
  have hP := scaled_posdef hS _ hd
  have hsym : (diagonal (invSqrt fun i => S i i) * S * diagonal (invSqrt fun i => S i i))ᵀ = diagonal (invSqrt fun i => S i i) * S * diagonal (invSqrt fun i => S i i) := by
    have := hP.isHermitian; rwa [Matrix.IsHermitian, conjTranspose_eq_transpose_of_trivial] at this
  obtain ⟨L, hL⟩ := ht.llt n _ hP
  obtain ⟨⟨v, V⟩, hE⟩ := ht.eig n _ hsym
  unfold invh invhCore
  cases chol <;> simp [hL, hE]

/-! ### Block assembly -/

/-- the scattered matrix after a block has been written -/
theorem scatter_spec (X : Nat → Nat → ℝ) (rows : List Nat) (hr : rows.Nodup) (ioff : Nat) (sub : Matrix (Fin rows.length) (Fin rows.length) ℝ) :
    (∀ a b : Fin rows.length, scatter X rows ioff sub rows[a] (ioff + b.1) = sub a b) ∧
    ∀ i p, (i ∉ rows ∨ p < ioff ∨ ioff + rows.length ≤ p) → scatter X rows ioff sub i p = X i p := by
  have inner : ∀ (a : Fin rows.length) (l : List (Fin rows.length)) (X : Nat → Nat → ℝ) (i p : Nat),
      l.foldl (fun (X : Nat → Nat → ℝ) (b : Fin rows.length) => fun i p => if i = rows[a] ∧ p = ioff + b.1 then sub a b else X i p) X i p =
        if i = rows[a] then (if h : ∃ b ∈ l, p = ioff + b.1 then sub a ⟨p - ioff, by obtain ⟨b, _, rfl⟩ := h; omega⟩ else X i p) else X i p := by
    intro a l
    induction l with
    | nil => intro X i p; simp
    | cons b r ih =>
      intro X i p
      rw [List.foldl_cons, ih]
      by_cases hi : i = rows[a]
      · rw [if_pos hi, if_pos hi]
        by_cases h1 : ∃ c ∈ r, p = ioff + c.1
        · rw [dif_pos h1, dif_pos (by obtain ⟨c, hc, h⟩ := h1; exact ⟨c, by simp [hc], h⟩)]
        · rw [dif_neg h1]
          by_cases h2 : p = ioff + b.1
          · rw [if_pos ⟨hi, h2⟩, dif_pos ⟨b, by simp, h2⟩]
            congr 1
            apply Fin.ext
            simp [h2]
          · rw [if_neg (fun h => h2 h.2), dif_neg]
            rintro ⟨c, hc, h⟩
            rcases List.mem_cons.1 hc with rfl | hc
            · exact h2 h
            · exact h1 ⟨c, hc, h⟩
      · rw [if_neg hi, if_neg hi, if_neg (fun h => hi h.1)]
  have inner' : ∀ (a : Fin rows.length) (X : Nat → Nat → ℝ) (i p : Nat),
      (List.finRange rows.length).foldl (fun (X : Nat → Nat → ℝ) (b : Fin rows.length) => fun i p => if i = rows[a] ∧ p = ioff + b.1 then sub a b else X i p) X i p =
        if h : i = rows[a] ∧ ioff ≤ p ∧ p < ioff + rows.length then sub a ⟨p - ioff, by omega⟩ else X i p := by
    intro a X i p
    rw [inner]
    by_cases hi : i = rows[a]
    · rw [if_pos hi]
      by_cases hp : ioff ≤ p ∧ p < ioff + rows.length
      · rw [dif_pos ⟨⟨p - ioff, by omega⟩, List.mem_finRange _, by simp; omega⟩, dif_pos ⟨hi, hp⟩]
      · rw [dif_neg, dif_neg (fun h => hp h.2)]
        rintro ⟨b, _, h⟩
        have := b.2
        omega
    · rw [if_neg hi, dif_neg (fun h => hi h.1)]
  have outer : ∀ (l : List (Fin rows.length)) (X : Nat → Nat → ℝ),
      (∀ a ∈ l, ∀ b : Fin rows.length, l.foldl (fun (X : Nat → Nat → ℝ) (a : Fin rows.length) => (List.finRange rows.length).foldl (fun (X : Nat → Nat → ℝ) (b : Fin rows.length) =>
        fun i p => if i = rows[a] ∧ p = ioff + b.1 then sub a b else X i p) X) X rows[a] (ioff + b.1) = sub a b) ∧
      ∀ i p, (i ∉ l.map (fun a => rows[a]) ∨ p < ioff ∨ ioff + rows.length ≤ p) → l.foldl (fun (X : Nat → Nat → ℝ) (a : Fin rows.length) => (List.finRange rows.length).foldl (fun (X : Nat → Nat → ℝ) (b : Fin rows.length) =>
        fun i p => if i = rows[a] ∧ p = ioff + b.1 then sub a b else X i p) X) X i p = X i p := by
    intro l
    induction l with
    | nil => intro X; simp
    | cons a r ih =>
      intro X
      have h := ih ((List.finRange rows.length).foldl (fun (X : Nat → Nat → ℝ) (b : Fin rows.length) => fun i p => if i = rows[a] ∧ p = ioff + b.1 then sub a b else X i p) X)
      refine ⟨?_, ?_⟩
      · intro a' ha' b
        rw [List.foldl_cons]
        by_cases hm : a' ∈ r
        · exact h.1 a' hm b
        · have hne : a' = a := by
            rcases List.mem_cons.1 ha' with h' | h'
            · exact h'
            · exact absurd h' hm
          subst hne
          rw [h.2 _ _ (Or.inl _), inner', dif_pos ⟨rfl, by omega, by omega⟩]
          · congr 1
            apply Fin.ext
            simp
          · intro hx
            obtain ⟨c, hc, he⟩ := List.mem_map.1 hx
            have : c = a' := Fin.ext ((hr.getElem_inj_iff).1 he)
            exact hm (this ▸ hc)
      · intro i p hip
        rw [List.foldl_cons, h.2, inner', dif_neg]
        · rintro ⟨h1, h2⟩
          rcases hip with h3 | h3
          · exact h3 (by simp [h1])
          · omega
        · rcases hip with h3 | h3
          · exact Or.inl fun h4 => h3 (by simp only [List.map_cons, List.mem_cons]; exact Or.inr h4)
          · exact Or.inr h3
  have h := outer (List.finRange rows.length) X
  refine ⟨fun a b => h.1 a (List.mem_finRange a) b, fun i p hip => h.2 i p ?_⟩
  rcases hip with h3 | h3
  · refine Or.inl fun h4 => h3 ?_
    obtain ⟨c, _, rfl⟩ := List.mem_map.1 h4
    exact List.getElem_mem _
  · exact Or.inr h3

/-- sum over the functions of a list -/
def lsum (l : List Nat) (f : Nat → ℝ) : ℝ := (l.map f).sum

theorem lsum_append (a b : List Nat) (f : Nat → ℝ) : lsum (a ++ b) f = lsum a f + lsum b f := by simp [lsum]

theorem lsum_congr {l : List Nat} {f g : Nat → ℝ} (h : ∀ i ∈ l, f i = g i) : lsum l f = lsum l g := by
  unfold lsum; rw [List.map_congr_left h]

theorem lsum_zero {l : List Nat} {f : Nat → ℝ} (h : ∀ i ∈ l, f i = 0) : lsum l f = 0 := by
  rw [lsum_congr h]; simp [lsum]

theorem lsum_fin (l : List Nat) (f : Nat → ℝ) : lsum l f = ∑ a : Fin l.length, f l[a] := by
  unfold lsum
  induction l with
  | nil => simp
  | cons x r ih =>
    rw [List.map_cons, List.sum_cons, ih]
    exact (Fin.sum_univ_succ (fun a : Fin (x :: r).length => f (x :: r)[a])).symm

/-- **C28, blocks.** Whatever positive definite overlap, when the blocks partition the basis and do not couple, the half-inverse assembled block by block
satisfies `Xᵀ S X = 1` for the whole basis. -/
theorem C28_blockwise (hs : s.Sound) (ht : s.Total) (N : Nat) (S : Nat → Nat → ℝ)
    (hS : (Matrix.of fun i j : Fin N => S i j).PosDef) (chol : Bool) (blocks : List (List Nat)) (hp : blocks.flatten.Perm (List.range N))
    (hc : blocks.Pairwise fun b c => ∀ i ∈ b, ∀ j ∈ c, S i j = 0 ∧ S j i = 0) :
    ∃ X, sinvh s S chol blocks = .ok X ∧ ∀ p < N, ∀ q < N,
      ∑ i ∈ Finset.range N, ∑ j ∈ Finset.range N, X i p * S i j * X j q = if p = q then 1 else 0 := by
  have hpd : ∀ b : List Nat, b.Nodup → (∀ i ∈ b, i < N) → (gather S b).PosDef := by
    intro b hb hlt
    have : gather S b = (Matrix.of fun i j : Fin N => S i j).submatrix (fun a : Fin b.length => ⟨b[a], hlt _ (List.getElem_mem _)⟩)
        (fun a : Fin b.length => ⟨b[a], hlt _ (List.getElem_mem _)⟩) := rfl
    rw [this]
    refine hS.submatrix ?_
    intro a c h
    simp only [Fin.mk.injEq] at h
    exact Fin.ext ((hb.getElem_inj_iff).1 h)
  have main : ∀ (bs : List (List Nat)) (X0 : Nat → Nat → ℝ) (ioff : Nat), bs.flatten.Nodup → (∀ i ∈ bs.flatten, i < N) →
      bs.Pairwise (fun b c => ∀ i ∈ b, ∀ j ∈ c, S i j = 0 ∧ S j i = 0) → (∀ i p, ioff ≤ p → X0 i p = 0) →
      ∃ X, sinvhLoop s S chol bs X0 ioff = .ok X ∧ (∀ i p, p < ioff → X i p = X0 i p) ∧ (∀ i p, ioff ≤ p → i ∉ bs.flatten → X i p = 0) ∧
        ∀ p q, ioff ≤ p → p < ioff + bs.flatten.length → ioff ≤ q → q < ioff + bs.flatten.length →
          lsum bs.flatten (fun i => lsum bs.flatten fun j => X i p * S i j * X j q) = if p = q then 1 else 0 := by
    intro bs
    induction bs with
    | nil =>
      intro X0 ioff _ _ _ h0
      exact ⟨X0, rfl, fun _ _ _ => rfl, fun i p h _ => h0 i p h, fun p q h1 h2 => by simp at h2; omega⟩
    | cons b bs ih =>
      intro X0 ioff hnd hlt hcp h0
      rw [List.flatten_cons] at hnd hlt ⊢
      rw [List.nodup_append] at hnd
      obtain ⟨hb, hbs, hdis⟩ := hnd
      rw [List.pairwise_cons] at hcp
      obtain ⟨hcp1, hcp2⟩ := hcp
      have hlt2 : ∀ i ∈ bs.flatten, i < N := fun i hi => hlt i (List.mem_append.2 (Or.inr hi))
      by_cases hlen : b.length = 0
      · have : b = [] := List.length_eq_zero_iff.1 hlen
        subst this
        obtain ⟨X, h1, h2⟩ := ih X0 ioff hbs hlt2 hcp2 h0
        refine ⟨X, ?_, ?_⟩
        · rw [sinvhLoop, if_pos hlen]; exact h1
        · rw [List.nil_append]; exact h2
      have hP := hpd b hb fun i hi => hlt i (List.mem_append.2 (Or.inl hi))
      obtain ⟨sub, hsub⟩ := C28_half_inverse_exists ht hP chol
      have horth := C28_half_inverse hs hP chol sub hsub
      obtain ⟨w1, w2⟩ := scatter_spec X0 b hb ioff sub
      obtain ⟨X, h1, h2, h3, h4⟩ := ih (scatter X0 b ioff sub) (ioff + b.length) hbs hlt2 hcp2 (by
        intro i p hp
        rw [w2 i p (Or.inr (Or.inr hp))]
        exact h0 i p (by omega))
      have hXb : ∀ (a : Fin b.length) (c : Nat) (hc : c < b.length), X b[a] (ioff + c) = sub a ⟨c, hc⟩ := by
        intro a c hc
        rw [h2 _ _ (by omega)]
        exact w1 a ⟨c, hc⟩
      have hXn : ∀ i p, ioff ≤ p → p < ioff + b.length → i ∉ b → X i p = 0 := by
        intro i p h5 h6 h7
        rw [h2 i p h6, w2 i p (Or.inl h7)]
        exact h0 i p h5
      have hXr : ∀ i p, ioff + b.length ≤ p → i ∈ b → X i p = 0 := by
        intro i p h5 h6
        exact h3 i p h5 fun h7 => hdis i h6 i h7 rfl
      refine ⟨X, ?_, ?_, ?_, ?_⟩
      · rw [sinvhLoop, if_neg hlen, hsub]; exact h1
      · intro i p h5
        rw [h2 i p (by omega), w2 i p (Or.inr (Or.inl h5))]
      · intro i p h5 h6
        rw [List.mem_append, not_or] at h6
        by_cases h7 : p < ioff + b.length
        · exact hXn i p h5 h7 h6.1
        · exact h3 i p (by omega) h6.2
      · intro p q hp1 hp2 hq1 hq2
        rw [List.length_append] at hp2 hq2
        have notb : ∀ i ∈ bs.flatten, i ∉ b := fun i hi hib => hdis i hib i hi rfl
        by_cases hpb : p < ioff + b.length <;> by_cases hqb : q < ioff + b.length
        · rw [lsum_append, lsum_zero (l := bs.flatten), add_zero]
          · rw [lsum_congr (g := fun i => lsum b fun j => X i p * S i j * X j q)]
            · obtain ⟨c, rfl⟩ : ∃ c, p = ioff + c := ⟨p - ioff, by omega⟩
              obtain ⟨d, rfl⟩ : ∃ d, q = ioff + d := ⟨q - ioff, by omega⟩
              have hc : c < b.length := by omega
              have hd : d < b.length := by omega
              have := congrFun (congrFun horth ⟨c, hc⟩) ⟨d, hd⟩
              rw [Matrix.one_apply] at this
              simp only [Fin.mk.injEq] at this
              rw [lsum_fin]
              simp only [lsum_fin, Nat.add_left_cancel_iff]
              rw [← this, Matrix.mul_apply]
              simp only [Matrix.mul_apply, Finset.sum_mul, transpose_apply]
              rw [Finset.sum_comm]
              refine Finset.sum_congr rfl fun x _ => Finset.sum_congr rfl fun y _ => ?_
              rw [hXb _ _ hc, hXb _ _ hd]
              rfl
            · intro i _
              rw [lsum_append, lsum_zero (l := bs.flatten), add_zero]
              intro j hj
              rw [hXn j q hq1 hqb (notb j hj), mul_zero]
          · intro i hi
            refine lsum_zero fun j _ => ?_
            rw [hXn i p hp1 hpb (notb i hi), zero_mul, zero_mul]
        · rw [if_neg (by omega)]
          rw [lsum_append, lsum_zero (l := bs.flatten), add_zero]
          · refine lsum_zero fun i hi => ?_
            rw [lsum_append, lsum_zero, lsum_zero, add_zero]
            · intro j hj
              obtain ⟨c, hc, hjc⟩ := List.mem_flatten.1 hj
              rw [(hcp1 c hc i hi j hjc).1, mul_zero, zero_mul]
            · intro j hj
              rw [hXr j q (by omega) hj, mul_zero]
          · intro i hi
            refine lsum_zero fun j _ => ?_
            rw [hXn i p hp1 hpb (notb i hi), zero_mul, zero_mul]
        · rw [if_neg (by omega)]
          rw [lsum_append, lsum_zero (l := b), zero_add]
          · refine lsum_zero fun i hi => ?_
            rw [lsum_append, lsum_zero, lsum_zero, add_zero]
            · intro j hj
              rw [hXn j q hq1 hqb (notb j hj), mul_zero]
            · intro j hj
              obtain ⟨c, hc, hic⟩ := List.mem_flatten.1 hi
              rw [(hcp1 c hc j hj i hic).2, mul_zero, zero_mul]
          · intro i hi
            refine lsum_zero fun j _ => ?_
            rw [hXr i p (by omega) hi, zero_mul, zero_mul]
        · rw [lsum_append, lsum_zero (l := b), zero_add]
          · rw [lsum_congr (g := fun i => lsum bs.flatten fun j => X i p * S i j * X j q)]
            · exact h4 p q (by omega) (by omega) (by omega) (by omega)
            · intro i _
              rw [lsum_append, lsum_zero (l := b), zero_add]
              intro j hj
              rw [hXr j q (by omega) hj, mul_zero]
          · intro i hi
            refine lsum_zero fun j _ => ?_
            rw [hXr i p (by omega) hi, zero_mul, zero_mul]
  obtain ⟨X, h1, _, _, h4⟩ := main blocks (fun _ _ => 0) 0 (hp.nodup_iff.2 List.nodup_range) (fun i hi => List.mem_range.1 (hp.mem_iff.1 hi)) hc (fun _ _ _ => rfl)
  have hlen : blocks.flatten.length = N := by rw [hp.length_eq, List.length_range]
  have hsum : ∀ f : Nat → ℝ, lsum blocks.flatten f = ∑ i ∈ Finset.range N, f i := by
    intro f
    unfold lsum
    rw [(hp.map f).sum_eq, sum_map_range]
  refine ⟨X, h1, fun p hp' q hq' => ?_⟩
  have := h4 p q (by omega) (by omega) (by omega) (by omega)
  rw [hsum] at this
  simp only [hsum] at this
  exact this

/-- **C51.** The orbitals returned for a symmetric Fock matrix are orthonormal with respect to the overlap and diagonalise the Fock matrix with the returned
energies; in a complete orthonormalised basis they solve `F C = S C E`. -/
theorem C51_generalised_eigenproblem (hs : s.Sound) {n k : Nat} (F S : Matrix (Fin n) (Fin n) ℝ) (hF : Fᵀ = F) (X : Matrix (Fin n) (Fin k) ℝ)
    (hX : Xᵀ * S * X = 1) (E : Fin k → ℝ) (C : Matrix (Fin n) (Fin k) ℝ) (h : eigGsym s F X = .ok (E, C)) :
    Cᵀ * S * C = 1 ∧ Cᵀ * F * C = diagonal E := by
  unfold eigGsym at h
  cases hE : s.eig k (Xᵀ * F * X) with
  | none => rw [hE] at h; cases h
  | some p =>
    obtain ⟨v, V⟩ := p
    rw [hE] at h
    simp only [Res.ok.injEq, Prod.mk.injEq] at h
    obtain ⟨rfl, rfl⟩ := h
    obtain ⟨hV, hA⟩ := hs.eig k _ _ V (by rw [transpose_mul, transpose_mul, transpose_transpose, hF, Matrix.mul_assoc]) hE
    rw [transpose_mul]
    constructor
    · calc Vᵀ * Xᵀ * S * (X * V) = Vᵀ * (Xᵀ * S * X) * V := by simp only [Matrix.mul_assoc]
        _ = 1 := by rw [hX, Matrix.mul_one, hV]
    · calc Vᵀ * Xᵀ * F * (X * V) = Vᵀ * (Xᵀ * F * X) * V := by simp only [Matrix.mul_assoc]
        _ = (Vᵀ * V) * diagonal v * (Vᵀ * V) := by rw [hA]; simp only [Matrix.mul_assoc]
        _ = diagonal v := by rw [hV, Matrix.one_mul, Matrix.mul_one]

theorem C51_complete_basis (hs : s.Sound) {n : Nat} (F S : Matrix (Fin n) (Fin n) ℝ) (hF : Fᵀ = F) (X : Matrix (Fin n) (Fin n) ℝ)
    (hX : Xᵀ * S * X = 1) (E : Fin n → ℝ) (C : Matrix (Fin n) (Fin n) ℝ) (h : eigGsym s F X = .ok (E, C)) :
    F * C = S * C * diagonal E := by
  obtain ⟨h1, h2⟩ := C51_generalised_eigenproblem hs F S hF X hX E C h
  -- `Cᵀ` is invertible with inverse `S C`
  have h3 : (S * C) * Cᵀ = 1 := mul_eq_one_comm.1 (by rw [← Matrix.mul_assoc]; exact h1)
  calc F * C = ((S * C) * Cᵀ) * F * C := by rw [h3, Matrix.one_mul]
    _ = (S * C) * (Cᵀ * F * C) := by simp only [Matrix.mul_assoc]
    _ = S * C * diagonal E := by rw [h2]

/-- decompositions with these guarantees exist -/
theorem solvers_exist : ∃ s : Solvers, s.Sound ∧ s.Total := by
  classical
  have key : ∀ (n : Nat) (A : Matrix (Fin n) (Fin n) ℝ) (h : A.IsHermitian), (h.eigenvectorUnitary : Matrix (Fin n) (Fin n) ℝ)ᵀ * h.eigenvectorUnitary = 1 ∧
      A = h.eigenvectorUnitary * diagonal h.eigenvalues * (h.eigenvectorUnitary : Matrix (Fin n) (Fin n) ℝ)ᵀ := by
    intro n A h
    have hu := Unitary.coe_star_mul_self h.eigenvectorUnitary
    rw [star_eq_conjTranspose, conjTranspose_eq_transpose_of_trivial] at hu
    refine ⟨hu, ?_⟩
    have := h.spectral_theorem
    rw [Unitary.conjStarAlgAut_apply, star_eq_conjTranspose, conjTranspose_eq_transpose_of_trivial] at this
    exact this
  have herm : ∀ (n : Nat) (A : Matrix (Fin n) (Fin n) ℝ), Aᵀ = A → A.IsHermitian := fun n A h => by
    rw [Matrix.IsHermitian, conjTranspose_eq_transpose_of_trivial]; exact h
  refine ⟨⟨fun n A => if h : A.PosDef then some (h.1.eigenvectorUnitary * diagonal fun i => √(h.1.eigenvalues i)) else none,
    fun n A => if h : A.IsHermitian then some (h.eigenvalues, h.eigenvectorUnitary) else none⟩, ⟨?_, ?_⟩, ⟨?_, ?_⟩⟩
  · intro n A L h
    simp only at h
    split_ifs at h with hA
    simp only [Option.some.injEq] at h
    obtain ⟨_, h2⟩ := key n A hA.1
    rw [← h, transpose_mul, diagonal_transpose]
    conv_rhs => rw [h2]
    have : diagonal hA.1.eigenvalues = (diagonal fun i => √(hA.1.eigenvalues i)) * diagonal fun i => √(hA.1.eigenvalues i) := by
      rw [diagonal_mul_diagonal]
      congr 1
      funext i
      exact (Real.mul_self_sqrt (hA.eigenvalues_pos i).le).symm
    rw [this]
    simp only [Matrix.mul_assoc]
  · intro n A v V hA h
    simp only at h
    rw [dif_pos (herm n A hA)] at h
    simp only [Option.some.injEq, Prod.mk.injEq] at h
    obtain ⟨rfl, rfl⟩ := h
    exact key n A (herm n A hA)
  · intro n A hA
    exact ⟨_, dif_pos hA⟩
  · intro n A hA
    exact ⟨_, dif_pos (herm n A hA)⟩

/-- a positive definite overlap with two uncoupled blocks, interleaved as in the symmetry lists -/
def exampleS (i j : Nat) : ℝ := if i = j then 2 else if i % 2 = j % 2 then 1 else 0

theorem exampleS_posdef : (Matrix.of fun i j : Fin 4 => exampleS i j).PosDef := by
  refine Matrix.PosDef.of_dotProduct_mulVec_pos ?_ ?_
  · ext i j
    simp only [conjTranspose_apply, of_apply, star_trivial, exampleS]
    simp only [eq_comm]
  · intro x hx
    have e : star x ⬝ᵥ ((Matrix.of fun i j : Fin 4 => exampleS i j) *ᵥ x) = (x 0 + x 2) ^ 2 + (x 1 + x 3) ^ 2 + x 0 ^ 2 + x 1 ^ 2 + x 2 ^ 2 + x 3 ^ 2 := by
      simp [dotProduct, mulVec, Fin.sum_univ_four, exampleS]
      ring
    rw [e]
    by_contra h
    apply hx
    have h0 := sq_nonneg (x 0 + x 2)
    have h1 := sq_nonneg (x 1 + x 3)
    have a0 := sq_nonneg (x 0)
    have a1 := sq_nonneg (x 1)
    have a2 := sq_nonneg (x 2)
    have a3 := sq_nonneg (x 3)
    funext i
    have z : ∀ y : ℝ, y ^ 2 = 0 → y = 0 := fun y hy => pow_eq_zero_iff (two_ne_zero) |>.1 hy
    have b0 : x 0 = 0 := z _ (by linarith)
    have b1 : x 1 = 0 := z _ (by linarith)
    have b2 : x 2 = 0 := z _ (by linarith)
    have b3 : x 3 = 0 := z _ (by linarith)
    fin_cases i
    · exact b0
    · exact b1
    · exact b2
    · exact b3

example : ∃ s : Solvers, ∃ X, sinvh s exampleS true [[0, 2], [], [1, 3]] = .ok X ∧ ∀ p < 4, ∀ q < 4,
    ∑ i ∈ Finset.range 4, ∑ j ∈ Finset.range 4, X i p * exampleS i j * X j q = if p = q then 1 else 0 := by
  obtain ⟨s, hs, ht⟩ := solvers_exist
  exact ⟨s, C28_blockwise hs ht 4 exampleS exampleS_posdef true [[0, 2], [], [1, 3]] (by decide) (by simp [exampleS])⟩

/-- the generalised eigenproblem in that basis for a symmetric Fock matrix -/
example : ∃ s : Solvers, ∃ X E C, invh s (Matrix.of fun i j : Fin 4 => exampleS i j) false = .ok X ∧
    eigGsym s (Matrix.of fun i j : Fin 4 => (i.1 + j.1 : ℝ)) X = .ok (E, C) ∧ Cᵀ * (Matrix.of fun i j : Fin 4 => exampleS i j) * C = 1 := by
  obtain ⟨s, hs, ht⟩ := solvers_exist
  obtain ⟨X, hX⟩ := C28_half_inverse_exists ht exampleS_posdef false
  have hF : (Matrix.of fun i j : Fin 4 => (i.1 + j.1 : ℝ))ᵀ = Matrix.of fun i j : Fin 4 => (i.1 + j.1 : ℝ) := by
    ext i j; simp [add_comm]
  obtain ⟨⟨E, V⟩, hE⟩ := ht.eig 4 (Xᵀ * (Matrix.of fun i j : Fin 4 => (i.1 + j.1 : ℝ)) * X)
    (by rw [transpose_mul, transpose_mul, transpose_transpose, hF, Matrix.mul_assoc])
  have h : eigGsym s (Matrix.of fun i j : Fin 4 => (i.1 + j.1 : ℝ)) X = .ok (E, X * V) := by rw [eigGsym, hE]
  exact ⟨s, X, E, X * V, hX, h, (C51_generalised_eigenproblem hs _ _ hF X (C28_half_inverse hs exampleS_posdef false X hX) E _ h).1⟩

end Orth
end HelFEM
