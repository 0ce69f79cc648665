import Verif.Lemmas.Density
import Verif.Props.Orth
import Mathlib.Data.Fin.Tuple.Sort

/-!
# C35, C54, C55, C56: densities of symmetry blocks
-/

namespace HelFEM
namespace Dens

open Matrix Orth

/-- **C35, loading.** Occupations rebuilt from a density lie between zero and the capacity, do not increase, and the orbitals are orthonormal. -/
theorem C35_load {s : Solvers} (hs : s.Sound) (ha : Ascending s) (P : Nat → Nat → ℝ) (hP : ∀ i j, P i j = P j i) (b : Block) (maxOcc : ℝ) (hm : 0 ≤ maxOcc)
    (o : Orbs b.idx.length) (h : fillBlock s P b maxOcc = .ok o) :
    (∀ i, 0 ≤ o.occ i ∧ o.occ i ≤ maxOcc) ∧ Antitone o.occ ∧ o.Orthonormal := by
  unfold fillBlock at h
  cases he : s.eig b.idx.length (b.Xᵀ * gather P b.idx * b.X) with
  | none => rw [he] at h; cases h
  | some p =>
    obtain ⟨v, V⟩ := p
    rw [he] at h
    simp only [Res.ok.injEq] at h
    subst h
    refine ⟨fun i => ⟨le_min (le_max_right _ _) hm, min_le_right _ _⟩, ?_, ?_⟩
    · intro i j hij
      exact min_le_min_right _ (max_le_max_right _ (ha _ _ _ _ he (Fin.rev_le_rev.2 hij)))
    · have hg : (gather P b.idx)ᵀ = gather P b.idx := by
        ext a c; exact hP _ _
      have hsym : (b.Xᵀ * gather P b.idx * b.X)ᵀ = b.Xᵀ * gather P b.idx * b.X := by
        rw [transpose_mul, transpose_mul, transpose_transpose, hg, Matrix.mul_assoc]
      obtain ⟨hV, _⟩ := hs.eig _ _ _ _ hsym he
      unfold Orbs.Orthonormal
      simp only
      ext i j
      have := congrFun (congrFun hV (Fin.rev i)) (Fin.rev j)
      simp only [Matrix.mul_apply, Matrix.transpose_apply, Matrix.submatrix_apply, id] at this ⊢
      rw [this]
      by_cases hij : i = j
      · subst hij; simp
      · rw [Matrix.one_apply_ne hij, Matrix.one_apply_ne (fun hh => hij (Fin.rev_injective hh))]

/-- **C35, building the density.** Accumulating a block adds exactly its occupations to the electron count, with and without a mirror block of the same overlap. -/
theorem C35_accumulate (N : Nat) (S P : Nat → Nat → ℝ) (b : Block) (hb : b.Within N) (hX : b.Orthonormalises S) (o : Orbs b.idx.length) (ho : o.Orthonormal)
    (hne : b.idx ≠ []) (mirror : List Nat) (hm : ∀ i ∈ mirror, i < N) (hl : mirror ≠ [] → ∃ h : mirror.length = b.idx.length, gather S mirror = (gather S b.idx).submatrix (Fin.cast h) (Fin.cast h)) :
    ∃ P', accumulate P b o mirror = .ok P' ∧ electrons N S P' = electrons N S P + o.total := by
  unfold accumulate
  rw [if_neg hne]
  by_cases hmi : mirror = []
  · rw [if_pos hmi]
    exact ⟨_, rfl, by rw [electrons_scatterAdd N S P _ hb, blockDensity_trace b S hX o ho, one_mul]⟩
  · obtain ⟨h, hg⟩ := hl hmi
    rw [if_neg hmi, dif_pos h]
    refine ⟨_, rfl, ?_⟩
    rw [electrons_scatterAdd N S _ _ hm, electrons_scatterAdd N S P _ hb, blockDensity_trace b S hX o ho, hg]
    have e : ((blockDensity b o (1 / 2)).submatrix (Fin.cast h) (Fin.cast h) * (gather S b.idx).submatrix (Fin.cast h) (Fin.cast h)).trace = (blockDensity b o (1 / 2) * gather S b.idx).trace := by
      rw [show (Fin.cast h : Fin mirror.length → Fin b.idx.length) = (finCongr h : Fin mirror.length ≃ Fin b.idx.length) from rfl, submatrix_mul_equiv]
      simp only [Matrix.trace, Matrix.diag, submatrix_apply]
      exact Equiv.sum_comp (finCongr h) fun i => (blockDensity b o (1 / 2) * gather S b.idx) i i
    rw [e, blockDensity_trace b S hX o ho]
    ring

/-- **C35, mirrored blocks.** A block and its mirror block receive the same density, entry by entry: half of the block's. -/
theorem C35_mirror (P : Nat → Nat → ℝ) (b : Block) (o : Orbs b.idx.length) (mirror : List Nat) (hb : b.idx.Nodup) (hm : mirror.Nodup) (hd : ∀ i ∈ b.idx, i ∉ mirror)
    (h : mirror.length = b.idx.length) (hne : mirror ≠ []) :
    ∃ P', accumulate P b o mirror = .ok P' ∧ ∀ a c : Fin mirror.length,
      P' mirror[a] mirror[c] - P mirror[a] mirror[c] = P' (b.idx[(Fin.cast h a)]) (b.idx[(Fin.cast h c)]) - P (b.idx[(Fin.cast h a)]) (b.idx[(Fin.cast h c)]) ∧
      P' mirror[a] mirror[c] - P mirror[a] mirror[c] = 1 / 2 * blockDensity b o 1 (Fin.cast h a) (Fin.cast h c) := by
  have hbn : b.idx ≠ [] := by
    intro hh
    rw [hh] at h
    exact hne (List.length_eq_zero_iff.1 h)
  unfold accumulate
  rw [if_neg hbn, if_neg hne, dif_pos h]
  refine ⟨_, rfl, fun a c => ?_⟩
  have hma : ∀ x : Fin mirror.length, mirror[x] ∉ b.idx := fun x hh => hd _ hh (List.getElem_mem _)
  have e1 := scatterAdd_at (scatterAdd P b.idx (blockDensity b o (1 / 2))) mirror hm ((blockDensity b o (1 / 2)).submatrix (Fin.cast h) (Fin.cast h)) a c
  have e2 := scatterAdd_off P b.idx (blockDensity b o (1 / 2)) mirror[a] mirror[c] (.inl (hma a))
  have e3 := scatterAdd_off (scatterAdd P b.idx (blockDensity b o (1 / 2))) mirror ((blockDensity b o (1 / 2)).submatrix (Fin.cast h) (Fin.cast h))
    (b.idx[(Fin.cast h a)]) (b.idx[(Fin.cast h c)]) (.inl (hd _ (List.getElem_mem _)))
  have e4 := scatterAdd_at P b.idx hb (blockDensity b o (1 / 2)) (Fin.cast h a) (Fin.cast h c)
  have e5 : (blockDensity b o (1 / 2)).submatrix (Fin.cast h) (Fin.cast h) a c = 1 / 2 * blockDensity b o 1 (Fin.cast h a) (Fin.cast h c) := by
    rw [blockDensity_smul]; rfl
  have e6 : blockDensity b o (1 / 2) (Fin.cast h a) (Fin.cast h c) = 1 / 2 * blockDensity b o 1 (Fin.cast h a) (Fin.cast h c) := e5
  rw [e3, e4, e1, e2, e5, e6]
  constructor <;> ring

theorem foldl_final (restricted : Bool) (N : Nat) (S : Nat → Nat → ℝ) : ∀ (blocks : List ((b : Block) × Orbs b.idx.length × Orbs b.idx.length)) (P : (Nat → Nat → ℝ) × (Nat → Nat → ℝ)),
    (∀ e ∈ blocks, e.1.Within N ∧ e.1.Orthonormalises S ∧ e.2.1.Orthonormal ∧ e.2.2.Orthonormal) →
    electrons N S (blocks.foldl (finalStep restricted) P).1 = electrons N S P.1 + (blocks.map fun e => if e.1.idx = [] then 0 else if restricted then 1 / 2 * e.2.1.total else e.2.1.total).sum ∧
    electrons N S (blocks.foldl (finalStep restricted) P).2 = electrons N S P.2 + (blocks.map fun e => if e.1.idx = [] then 0 else if restricted then 1 / 2 * e.2.1.total else e.2.2.total).sum := by
  intro blocks
  induction blocks with
  | nil => intro P _; simp
  | cons e r ih =>
    intro P h
    obtain ⟨h1, h2, h3, h4⟩ := h e (by simp)
    obtain ⟨i1, i2⟩ := ih (finalStep restricted P e) fun e' he' => h e' (by simp [he'])
    have tr : ∀ o : Orbs e.1.idx.length, o.Orthonormal → (blockDensity e.1 o 1 * gather S e.1.idx).trace = o.total := fun o ho => by
      rw [blockDensity_trace e.1 S h2 o ho, one_mul]
    simp only [List.foldl_cons, List.map_cons, List.sum_cons]
    rw [i1, i2]
    have sm : ((1 / 2 : ℝ) • blockDensity e.1 e.2.1 1 * gather S e.1.idx).trace = 1 / 2 * e.2.1.total := by
      rw [Matrix.smul_mul, Matrix.trace_smul, tr _ h3, smul_eq_mul]
    by_cases hi : e.1.idx = []
    · unfold finalStep
      rw [if_pos hi, if_pos hi, if_pos hi]
      constructor <;> ring
    · cases restricted
      · have r1 : finalStep false P e = (scatterAdd P.1 e.1.idx (blockDensity e.1 e.2.1 1), scatterAdd P.2 e.1.idx (blockDensity e.1 e.2.2 1)) := by
          unfold finalStep
          rw [if_neg hi]
          rfl
        rw [r1, if_neg hi, if_neg hi]
        simp only [electrons_scatterAdd N S _ _ h1, tr _ h3, tr _ h4, Bool.false_eq_true, if_false]
        constructor <;> ring
      · have r1 : finalStep true P e = (scatterAdd P.1 e.1.idx ((1 / 2 : ℝ) • blockDensity e.1 e.2.1 1), scatterAdd P.2 e.1.idx ((1 / 2 : ℝ) • blockDensity e.1 e.2.1 1)) := by
          unfold finalStep
          rw [if_neg hi]
          rfl
        rw [r1, if_neg hi, if_neg hi]
        simp only [electrons_scatterAdd N S _ _ h1, sm, if_true]
        constructor <;> ring

/-- **C35, saving.** The densities assembled from all blocks hold exactly the occupations: per spin in unrestricted mode, and one half of the total in each spin in restricted mode, where both spin densities
are the same matrix. -/
theorem C35_save (N : Nat) (S : Nat → Nat → ℝ) (blocks : List ((b : Block) × Orbs b.idx.length × Orbs b.idx.length))
    (h : ∀ e ∈ blocks, e.1.Within N ∧ e.1.Orthonormalises S ∧ e.2.1.Orthonormal ∧ e.2.2.Orthonormal) (hne : ∀ e ∈ blocks, e.1.idx ≠ []) :
    (electrons N S (assembleFinal false blocks).1 = (blocks.map fun e => e.2.1.total).sum ∧
      electrons N S (assembleFinal false blocks).2 = (blocks.map fun e => e.2.2.total).sum) ∧
    ((assembleFinal true blocks).1 = (assembleFinal true blocks).2 ∧
      electrons N S (assembleFinal true blocks).1 + electrons N S (assembleFinal true blocks).2 = (blocks.map fun e => e.2.1.total).sum) := by
  have z : electrons N S (fun _ _ => 0) = 0 := by simp [electrons]
  have cong : ∀ (f : ((b : Block) × Orbs b.idx.length × Orbs b.idx.length) → ℝ), (blocks.map fun e => if e.1.idx = [] then 0 else f e).sum = (blocks.map f).sum := by
    intro f
    congr 1
    exact List.map_congr_left fun e he => if_neg (hne e he)
  refine ⟨?_, ?_, ?_⟩
  · obtain ⟨a, b⟩ := foldl_final false N S blocks (fun _ _ => 0, fun _ _ => 0) h
    unfold assembleFinal
    rw [a, b, z, cong, cong]
    simp
  · unfold assembleFinal
    have : ∀ (bs : List ((b : Block) × Orbs b.idx.length × Orbs b.idx.length)) (P : (Nat → Nat → ℝ) × (Nat → Nat → ℝ)), P.1 = P.2 →
        (bs.foldl (finalStep true) P).1 = (bs.foldl (finalStep true) P).2 := by
      intro bs
      induction bs with
      | nil => intro P h; exact h
      | cons e r ih =>
        intro P hP
        rw [List.foldl_cons]
        apply ih
        unfold finalStep
        split_ifs
        · exact hP
        · simp [hP]
        · contradiction
    exact this _ _ rfl
  · obtain ⟨a, b⟩ := foldl_final true N S blocks (fun _ _ => 0, fun _ _ => 0) h
    unfold assembleFinal
    rw [a, b, z]
    simp only [if_true, zero_add]
    rw [cong]
    clear a b cong hne h
    induction blocks with
    | nil => simp
    | cons e r ih => simp only [List.map_cons, List.sum_cons] at ih ⊢; linarith

/-! ## C54: loading a saved density -/

/-- **C54, projection.** Into the same basis, with the right number of electrons, the projection and rescaling change nothing. -/
theorem C54_projection_same_basis {n : Nat} (X S P : Matrix (Fin n) (Fin n) ℝ) (hX : Xᵀ * S * X = 1) (hS : Sᵀ = S) (nel : ℝ) (hn : (P * S).trace = nel) :
    projectDensity X S S P nel = P := by
  have h1 : X * Xᵀ * S = 1 := by rw [Matrix.mul_assoc]; exact mul_eq_one_comm.1 hX
  unfold projectDensity
  simp only
  rw [h1, transpose_one, Matrix.one_mul, Matrix.mul_one, hn]
  split_ifs with h
  · rw [div_self h.2.ne', one_smul]
  · rfl

/-- **C54, projection to another basis.** Whatever the stored basis, a projected density with electrons in it holds exactly the requested number. -/
theorem C54_projection_count {n n' : Nat} (X S : Matrix (Fin n) (Fin n) ℝ) (S12 : Matrix (Fin n) (Fin n') ℝ) (P : Matrix (Fin n') (Fin n') ℝ) (nel : ℝ) (hn : 0 < nel)
    (hp : 0 < (X * Xᵀ * S12 * P * (X * Xᵀ * S12)ᵀ * S).trace) : (projectDensity X S S12 P nel * S).trace = nel := by
  unfold projectDensity
  simp only
  rw [if_pos ⟨hp, hn⟩, Matrix.smul_mul, Matrix.trace_smul, smul_eq_mul, div_mul_cancel₀ _ hp.ne']

theorem rev_spectral {n : Nat} (V : Matrix (Fin n) (Fin n) ℝ) (w : Fin n → ℝ) :
    V.submatrix id Fin.rev * diagonal (fun i => w (Fin.rev i)) * (V.submatrix id Fin.rev)ᵀ = V * diagonal w * Vᵀ := by
  ext i j
  rw [Matrix.mul_apply, Matrix.mul_apply, ← Equiv.sum_comp Fin.revPerm]
  refine Finset.sum_congr rfl fun k _ => ?_
  simp [Matrix.mul_diagonal]

/-- **C54, restoring the orbitals.** Where a block's functions are orthonormal as they stand (`XᵀX = 1`), the density rebuilt from the loaded orbitals and occupations is the stored one. Missing from the full
property: every other overlap, for which it is false (`C54_wrong`). -/
theorem C54_load_partial {s : Solvers} (hs : s.Sound) (P : Nat → Nat → ℝ) (b : Block) (hX : b.Xᵀ * b.X = 1) (o : Orbs b.idx.length) (ho : o.Orthonormal)
    (maxOcc : ℝ) (hocc : ∀ i, 0 ≤ o.occ i ∧ o.occ i ≤ maxOcc) (hm : 0 ≤ maxOcc) (hP : gather P b.idx = blockDensity b o 1)
    (o' : Orbs b.idx.length) (h : fillBlock s P b maxOcc = .ok o') : blockDensity b o' 1 = blockDensity b o 1 := by
  obtain ⟨D, hD⟩ : ∃ D, D = diagonal o.occ := ⟨_, rfl⟩
  have hbd : blockDensity b o 1 = b.X * (o.C * D * o.Cᵀ) * b.Xᵀ := by
    unfold blockDensity
    rw [transpose_mul]
    simp only [one_mul, Matrix.mul_assoc, hD]
  have hor : b.Xᵀ * gather P b.idx * b.X = o.C * D * o.Cᵀ := by
    rw [hP, hbd]
    calc b.Xᵀ * (b.X * (o.C * D * o.Cᵀ) * b.Xᵀ) * b.X = (b.Xᵀ * b.X) * (o.C * D * o.Cᵀ) * (b.Xᵀ * b.X) := by simp only [Matrix.mul_assoc]
      _ = _ := by rw [hX, Matrix.one_mul, Matrix.mul_one]
  unfold fillBlock at h
  rw [hor] at h
  cases he : s.eig b.idx.length (o.C * D * o.Cᵀ) with
  | none => rw [he] at h; cases h
  | some p =>
    obtain ⟨v, V⟩ := p
    rw [he] at h
    simp only [Res.ok.injEq] at h
    have hsym : (o.C * D * o.Cᵀ)ᵀ = o.C * D * o.Cᵀ := by
      rw [transpose_mul, transpose_mul, transpose_transpose, hD, diagonal_transpose, Matrix.mul_assoc]
    obtain ⟨hV, hA⟩ := hs.eig _ _ _ _ hsym he
    obtain ⟨W, hW⟩ : ∃ W, W = Vᵀ * o.C := ⟨_, rfl⟩
    have hvW : diagonal v = W * D * Wᵀ := by
      calc diagonal v = (Vᵀ * V) * diagonal v * (Vᵀ * V) := by rw [hV, Matrix.one_mul, Matrix.mul_one]
        _ = Vᵀ * (V * diagonal v * Vᵀ) * V := by simp only [Matrix.mul_assoc]
        _ = Vᵀ * (o.C * D * o.Cᵀ) * V := by rw [← hA]
        _ = W * D * Wᵀ := by rw [hW, transpose_mul, transpose_transpose]; simp only [Matrix.mul_assoc]
    have hWW : 1 - W * Wᵀ = (Vᵀ - W * o.Cᵀ) * (Vᵀ - W * o.Cᵀ)ᵀ := by
      rw [transpose_sub, transpose_transpose, transpose_mul, transpose_transpose, Matrix.sub_mul, Matrix.mul_sub, Matrix.mul_sub, hV]
      have a1 : Vᵀ * (o.C * Wᵀ) = W * Wᵀ := by rw [← Matrix.mul_assoc, ← hW]
      have a2 : W * o.Cᵀ * V = W * Wᵀ := by rw [Matrix.mul_assoc]; congr 1; rw [hW, transpose_mul, transpose_transpose]
      have a3 : W * o.Cᵀ * (o.C * Wᵀ) = W * Wᵀ := by
        have : o.Cᵀ * o.C = 1 := ho
        rw [Matrix.mul_assoc, ← Matrix.mul_assoc o.Cᵀ, this, Matrix.one_mul]
      rw [a1, a2, a3]
      abel
    have hv : ∀ i, v i = ∑ k, W i k ^ 2 * o.occ k := by
      intro i
      have := congrFun (congrFun hvW i) i
      rw [diagonal_apply_eq, hD, Matrix.mul_apply] at this
      rw [this]
      refine Finset.sum_congr rfl fun k _ => ?_
      rw [Matrix.mul_diagonal, transpose_apply]
      ring
    have hw1 : ∀ i, ∑ k, W i k ^ 2 ≤ 1 := by
      intro i
      have := congrFun (congrFun hWW i) i
      rw [Matrix.sub_apply, Matrix.one_apply_eq, Matrix.mul_apply, Matrix.mul_apply] at this
      have h0 : 0 ≤ ∑ j, (Vᵀ - W * o.Cᵀ) i j * (Vᵀ - W * o.Cᵀ)ᵀ j i := Finset.sum_nonneg fun j _ => by
        rw [transpose_apply]; exact mul_self_nonneg _
      have e : ∑ j, W i j * Wᵀ j i = ∑ k, W i k ^ 2 := Finset.sum_congr rfl fun k _ => by rw [transpose_apply]; ring
      linarith
    have hclamp : ∀ i, min (max (v i) 0) maxOcc = v i := by
      intro i
      have l : 0 ≤ v i := by rw [hv]; exact Finset.sum_nonneg fun k _ => mul_nonneg (sq_nonneg _) (hocc k).1
      have u : v i ≤ maxOcc := by
        rw [hv]
        calc ∑ k, W i k ^ 2 * o.occ k ≤ ∑ k, W i k ^ 2 * maxOcc := Finset.sum_le_sum fun k _ => mul_le_mul_of_nonneg_left (hocc k).2 (sq_nonneg _)
          _ = (∑ k, W i k ^ 2) * maxOcc := by rw [Finset.sum_mul]
          _ ≤ 1 * maxOcc := mul_le_mul_of_nonneg_right (hw1 i) hm
          _ = maxOcc := one_mul _
      rw [max_eq_left l, min_eq_left u]
    subst h
    rw [hbd, hA]
    unfold blockDensity
    simp only [one_mul, hclamp]
    rw [transpose_mul, ← rev_spectral V v]
    simp only [Matrix.mul_assoc]

/-- one function with overlap four -/
noncomputable abbrev wideBlock : Block := ⟨[0], !![1 / 2]⟩

/-- one electron in it -/
noncomputable abbrev wideOrbs : Orbs wideBlock.idx.length := ⟨1, !![1], fun _ => 1⟩

/-- **C54, refuted in general.** One function with overlap 4 holding one electron: after saving and loading in the same basis, the orbital holds 1/16 of an electron, whatever sound eigensolver is used. -/
theorem C54_wrong : wideBlock.Orthonormalises (fun _ _ => 4) ∧ wideOrbs.Orthonormal ∧ wideOrbs.total = 1 ∧
    ∀ s : Solvers, s.Sound → ∀ o', fillBlock s (assembleFinal false [⟨wideBlock, wideOrbs, wideOrbs⟩]).1 wideBlock 1 = .ok o' → o'.total = 1 / 16 := by
  refine ⟨?_, ?_, ?_, ?_⟩
  · unfold Block.Orthonormalises
    ext i j
    fin_cases i; fin_cases j
    simp [Matrix.mul_apply, wideBlock, gather]
    norm_num
  · unfold Orbs.Orthonormal
    ext i j
    fin_cases i; fin_cases j
    simp [Matrix.mul_apply, wideOrbs, wideBlock]
  · simp [Orbs.total, wideOrbs]
  · intro s hs o' h
    have hP : wideBlock.Xᵀ * gather (assembleFinal false [⟨wideBlock, wideOrbs, wideOrbs⟩]).1 wideBlock.idx * wideBlock.X = fun _ _ => 1 / 16 := by
      ext i j
      fin_cases i; fin_cases j
      simp [Matrix.mul_apply, Matrix.vecMul, dotProduct, wideBlock, wideOrbs, gather, assembleFinal, finalStep, scatterAdd_eq, blockDensity, Matrix.mul_diagonal]
      norm_num
    unfold fillBlock at h
    rw [hP] at h
    cases he : s.eig wideBlock.idx.length (fun _ _ => 1 / 16) with
    | none => rw [he] at h; cases h
    | some p =>
      obtain ⟨v, V⟩ := p
      rw [he] at h
      simp only [Res.ok.injEq] at h
      obtain ⟨hV, hA⟩ := hs.eig _ _ _ _ (by ext i j; rfl) he
      have e1 := congrFun (congrFun hV (0 : Fin 1)) (0 : Fin 1)
      have e2 := congrFun (congrFun hA (0 : Fin 1)) (0 : Fin 1)
      have e1' : V (0 : Fin 1) (0 : Fin 1) * V (0 : Fin 1) (0 : Fin 1) = 1 := by
        simpa [Matrix.mul_apply, wideBlock] using e1
      have e2' : (1 / 16 : ℝ) = V (0 : Fin 1) (0 : Fin 1) * v (0 : Fin 1) * V (0 : Fin 1) (0 : Fin 1) := by
        simpa [Matrix.mul_apply, Matrix.mul_diagonal, wideBlock] using e2
      have hv : v (0 : Fin 1) = 1 / 16 := by
        have : v (0 : Fin 1) * (V (0 : Fin 1) (0 : Fin 1) * V (0 : Fin 1) (0 : Fin 1)) = 1 / 16 := by rw [e2']; ring
        rwa [e1', mul_one] at this
      subst h
      have : (∑ i : Fin 1, min (max (v (Fin.rev i)) 0) 1) = 1 / 16 := by
        rw [Fin.sum_univ_one]
        have : v (Fin.rev (0 : Fin 1)) = 1 / 16 := hv
        rw [this]
        norm_num
      exact this

/-! ## C55: the saved density is the density of the calculation -/

/-- **C55, without mirrored blocks.** The saved spin densities are the densities the Fock builder used; in restricted mode their sum is. Missing from the full property: mirrored blocks, for which it is false
(`C55_wrong`). -/
theorem C55_saved_partial (blocks : List ((b : Block) × Orbs b.idx.length × Orbs b.idx.length)) :
    accumulateAll (blocks.map fun e => ⟨e.1, e.2.1, []⟩) (fun _ _ => 0) = .ok (assembleFinal false blocks).1 ∧
    accumulateAll (blocks.map fun e => ⟨e.1, e.2.2, []⟩) (fun _ _ => 0) = .ok (assembleFinal false blocks).2 ∧
    ∃ P, accumulateAll (blocks.map fun e => ⟨e.1, e.2.1, []⟩) (fun _ _ => 0) = .ok P ∧
      ∀ i j, P i j = (assembleFinal true blocks).1 i j + (assembleFinal true blocks).2 i j := by
  have a : ∀ (bs : List ((b : Block) × Orbs b.idx.length × Orbs b.idx.length)) (P : (Nat → Nat → ℝ) × (Nat → Nat → ℝ)),
      accumulateAll (bs.map fun e => ⟨e.1, e.2.1, []⟩) P.1 = .ok (bs.foldl (finalStep false) P).1 ∧
      accumulateAll (bs.map fun e => ⟨e.1, e.2.2, []⟩) P.2 = .ok (bs.foldl (finalStep false) P).2 := by
    intro bs
    induction bs with
    | nil => intro P; exact ⟨rfl, rfl⟩
    | cons e r ih =>
      intro P
      simp only [List.map_cons, List.foldl_cons, accumulateAll, accumulate]
      have := ih (finalStep false P e)
      by_cases hi : e.1.idx = []
      · have e1 : finalStep false P e = P := by unfold finalStep; rw [if_pos hi]
        simp only [if_pos hi, e1] at this ⊢
        exact this
      · have e1 : finalStep false P e = (scatterAdd P.1 e.1.idx (blockDensity e.1 e.2.1 1), scatterAdd P.2 e.1.idx (blockDensity e.1 e.2.2 1)) := by
          unfold finalStep; rw [if_neg hi]; rfl
        simp only [if_neg hi, e1, if_true] at this ⊢
        exact this
  have b : ∀ (bs : List ((b : Block) × Orbs b.idx.length × Orbs b.idx.length)) (P : (Nat → Nat → ℝ) × (Nat → Nat → ℝ)) (Q : Nat → Nat → ℝ),
      (∀ i j, Q i j = P.1 i j + P.2 i j) → ∃ Q', accumulateAll (bs.map fun e => ⟨e.1, e.2.1, []⟩) Q = .ok Q' ∧
        ∀ i j, Q' i j = (bs.foldl (finalStep true) P).1 i j + (bs.foldl (finalStep true) P).2 i j := by
    intro bs
    induction bs with
    | nil => intro P Q h; exact ⟨Q, rfl, h⟩
    | cons e r ih =>
      intro P Q h
      simp only [List.map_cons, List.foldl_cons, accumulateAll, accumulate]
      by_cases hi : e.1.idx = []
      · have e1 : finalStep true P e = P := by unfold finalStep; rw [if_pos hi]
        simp only [if_pos hi, e1]
        exact ih P Q h
      · have e1 : finalStep true P e = (scatterAdd P.1 e.1.idx ((1 / 2 : ℝ) • blockDensity e.1 e.2.1 1), scatterAdd P.2 e.1.idx ((1 / 2 : ℝ) • blockDensity e.1 e.2.1 1)) := by
          unfold finalStep; rw [if_neg hi]; rfl
        simp only [if_neg hi, e1, if_true]
        apply ih
        intro i j
        simp only [scatterAdd_eq, h]
        have : ∑ b : Fin e.1.idx.length, ∑ a : Fin e.1.idx.length, (if i = e.1.idx[a] ∧ j = e.1.idx[b] then ((1 / 2 : ℝ) • blockDensity e.1 e.2.1 1) a b else 0) =
            1 / 2 * ∑ b : Fin e.1.idx.length, ∑ a : Fin e.1.idx.length, (if i = e.1.idx[a] ∧ j = e.1.idx[b] then blockDensity e.1 e.2.1 1 a b else 0) := by
          rw [Finset.mul_sum]
          refine Finset.sum_congr rfl fun b _ => ?_
          rw [Finset.mul_sum]
          refine Finset.sum_congr rfl fun a _ => ?_
          rw [mul_ite, mul_zero]
          rfl
        rw [this]
        ring
  refine ⟨(a blocks (fun _ _ => 0, fun _ _ => 0)).1, (a blocks (fun _ _ => 0, fun _ _ => 0)).2, ?_⟩
  exact b blocks (fun _ _ => 0, fun _ _ => 0) (fun _ _ => 0) (by simp)

/-- a function with `m = 1` -/
noncomputable abbrev piBlock : Block := ⟨[0], !![1]⟩

/-- four electrons in a pi shell -/
noncomputable abbrev piOrbs : Orbs piBlock.idx.length := ⟨1, !![1], fun _ => 4⟩

/-- **C55, refuted with mirrored blocks.** Two degenerate functions under |m| symmetry, four electrons: the calculation uses two electrons in each function, the saved densities have all four in the first and none in
the second. -/
theorem C55_wrong : ∃ P, accumulateAll [⟨piBlock, piOrbs, [1]⟩] (fun _ _ => 0) = .ok P ∧ P 0 0 = 2 ∧ P 1 1 = 2 ∧
    (assembleFinal true [⟨piBlock, piOrbs, piOrbs⟩]).1 0 0 + (assembleFinal true [⟨piBlock, piOrbs, piOrbs⟩]).2 0 0 = 4 ∧
    (assembleFinal true [⟨piBlock, piOrbs, piOrbs⟩]).1 1 1 + (assembleFinal true [⟨piBlock, piOrbs, piOrbs⟩]).2 1 1 = 0 := by
  refine ⟨_, by simp only [accumulateAll, accumulate, piBlock]; rw [if_neg (by simp), if_neg (by simp), dif_pos (by rfl)], ?_, ?_, ?_, ?_⟩
  all_goals simp [assembleFinal, finalStep, scatterAdd_eq, blockDensity, Matrix.mul_apply, Matrix.mul_diagonal, Matrix.vecMul, dotProduct, piBlock, piOrbs]
  all_goals norm_num

/-! ## C56: the Fock matrices -/

/-- **C56, starting point.** The core guess is what the Fock builder yields without electrons: the one-electron matrix with the same spin splitting, in every block, in both modes. -/
theorem C56_core_guess (H0 S : Nat → Nat → ℝ) (b : Block) (haveB : Bool) (Bz : ℝ) (g : Ingredients) (hg : g.H1 = H0 ∧ g.J = (fun _ _ => 0) ∧ g.haveXC = false ∧ g.haveExx = false ∧ g.S = S ∧
      g.haveB = haveB ∧ g.Bz = Bz) :
    fockBlock true g b = (coreH H0 S b 1 0 haveB Bz, none) ∧ fockBlock false g b = (coreH H0 S b 2 0 haveB Bz, some (coreH H0 S b 2 1 haveB Bz)) := by
  obtain ⟨h1, h2, h3, h4, h5, h6, h7⟩ := hg
  have gz : ∀ (F : Nat → Nat → ℝ) (c : ℝ), gather (fun i j => F i j + c * S i j) b.idx = gather F b.idx + c • gather S b.idx := fun F c => by
    ext i j; rfl
  constructor
  · unfold fockBlock orthFock fockR coreH
    simp [h1, h2, h3, h4]
  · unfold fockBlock orthFock fockU coreH
    cases haveB
    · simp [h1, h2, h3, h4, h6]
    · have q : (fun i j => H0 i j - 0.5 * Bz * S i j) = fun i j => H0 i j + -0.5 * Bz * S i j := by
        funext i j; ring
      simp only [h1, h2, h3, h4, h5, h6, h7, Bool.false_eq_true, if_false, if_true, add_zero, and_self, Nat.one_ne_zero, q, gz]

/-- **C56, closed shells.** Without a field, equal spin potentials give equal spin Fock blocks, the restricted one. -/
theorem C56_closed_shell (g : Ingredients) (b : Block) (hB : g.haveB = false) (hx : g.XCa = g.XCb) (hk : g.Ka = g.Kb) :
    ∃ F, fockBlock true g b = (F, none) ∧ fockBlock false g b = (F, some F) := by
  refine ⟨orthFock b (fockR g), rfl, ?_⟩
  unfold fockBlock fockU
  simp only [hB, hx, hk, Bool.false_eq_true, if_false]
  unfold fockR
  simp only [hx, hk]

/-- **C56, exchange.** For equal spin densities the restricted exchange matrix and energy are the unrestricted ones, whatever the exchange routine. -/
theorem C56_exchange {n : Nat} (Ka0 Kb0 Pa : Matrix (Fin n) (Fin n) ℝ) (haveExx : Bool) (fn : Matrix (Fin n) (Fin n) ℝ → Matrix (Fin n) (Fin n) ℝ) :
    (hfExchange Ka0 Kb0 Pa Pa true haveExx fn).1 = (hfExchange Ka0 Kb0 Pa Pa false haveExx fn).1 ∧
    (hfExchange Ka0 Kb0 Pa Pa true haveExx fn).2.2 = (hfExchange Ka0 Kb0 Pa Pa false haveExx fn).2.2 ∧
    (haveExx = true → (hfExchange Ka0 Kb0 Pa Pa false haveExx fn).1 = (hfExchange Ka0 Kb0 Pa Pa false haveExx fn).2.1) ∧
    (haveExx = false → ∀ r, hfExchange Ka0 Kb0 Pa Pa r haveExx fn = (Ka0, Kb0, 0)) := by
  cases haveExx
  · simp [hfExchange]
  · refine ⟨rfl, ?_, fun _ => rfl, fun h => absurd h (by simp)⟩
    show 0.5 * (Pa * fn Pa).trace * 2.0 = 0.5 * (Pa * fn Pa).trace + 0.5 * (Pa * fn Pa).trace
    norm_num
    ring

/-- **C56, spin splitting.** A field splits the spin Fock matrices by exactly `Bz S`, with the mean unchanged. -/
theorem C56_zeeman (g : Ingredients) (hB : g.haveB = true) (i j : Nat) :
    ((fockU g).1 i j + (fockU g).2 i j = (fockU { g with haveB := false }).1 i j + (fockU { g with haveB := false }).2 i j) ∧
    ((fockU g).2 i j - (fockU g).1 i j = (fockU { g with haveB := false }).2 i j - (fockU { g with haveB := false }).1 i j + g.Bz * g.S i j) := by
  unfold fockU
  simp only [hB, if_true, Bool.false_eq_true, if_false]
  constructor <;> ring

/-- **C56, spins.** The alpha Fock matrix depends on the alpha potential and exchange alone, adding them with weight one; interchanging the spins and reversing the field
interchanges the two Fock matrices. -/
theorem C56_spins (g : Ingredients) :
    (∀ X K, (fockU { g with XCb := X, Kb := K }).1 = (fockU g).1) ∧
    (∀ i j, g.haveXC = true → ∀ D : Nat → Nat → ℝ, (fockU { g with XCa := fun i j => g.XCa i j + D i j }).1 i j = (fockU g).1 i j + D i j) ∧
    (∀ i j, g.haveExx = true → ∀ D : Nat → Nat → ℝ, (fockU { g with Ka := fun i j => g.Ka i j + D i j }).1 i j = (fockU g).1 i j + D i j) ∧
    fockU { g with XCa := g.XCb, XCb := g.XCa, Ka := g.Kb, Kb := g.Ka, Bz := -g.Bz } = ((fockU g).2, (fockU g).1) := by
  refine ⟨fun X K => ?_, fun i j hx D => ?_, fun i j hx D => ?_, ?_⟩
  · unfold fockU
    cases g.haveXC <;> cases g.haveExx <;> cases g.haveB <;> simp
  · unfold fockU
    cases g.haveExx <;> cases g.haveB <;> simp [hx] <;> ring
  · unfold fockU
    cases g.haveXC <;> cases g.haveB <;> simp [hx] <;> ring
  · unfold fockU
    cases g.haveXC <;> cases g.haveExx <;> cases g.haveB <;> simp [sub_eq_add_neg]

/-- **C56, unrestricted exchange.** The alpha exchange matrix depends on the alpha density alone; interchanging the spin densities interchanges the exchange matrices
and keeps the energy; the energy of a spin without density is left out. -/
theorem C56_exchange_spins {n : Nat} (Ka0 Kb0 Pa Pb : Matrix (Fin n) (Fin n) ℝ) (fn : Matrix (Fin n) (Fin n) ℝ → Matrix (Fin n) (Fin n) ℝ) :
    (∀ Pb', (hfExchange Ka0 Kb0 Pa Pb' false true fn).1 = (hfExchange Ka0 Kb0 Pa Pb false true fn).1) ∧
    (hfExchange Ka0 Kb0 Pb Pa false true fn).1 = (hfExchange Ka0 Kb0 Pa Pb false true fn).2.1 ∧
    (hfExchange Ka0 Kb0 Pb Pa false true fn).2.2 = (hfExchange Ka0 Kb0 Pa Pb false true fn).2.2 ∧
    (hfExchange Ka0 Kb0 Pa 0 false true fn).2.2 = 0.5 * (Pa * (hfExchange Ka0 Kb0 Pa 0 false true fn).1).trace := by
  refine ⟨fun _ => rfl, rfl, ?_, ?_⟩
  · show 0.5 * (Pb * fn Pb).trace + 0.5 * (Pa * fn Pa).trace = 0.5 * (Pa * fn Pa).trace + 0.5 * (Pb * fn Pb).trace
    ring
  · show 0.5 * (Pa * fn Pa).trace + 0.5 * ((0 : Matrix (Fin n) (Fin n) ℝ) * fn 0).trace = _
    simp [hfExchange]

/-! ## Non-vacuity -/

/-- sound solvers returning ascending eigenvalues exist -/
theorem ascending_exist : ∃ s : Solvers, s.Sound ∧ s.Total ∧ Ascending s := by
  obtain ⟨s, hs, ht⟩ := Orth.solvers_exist
  refine ⟨⟨s.llt, fun n A => (s.eig n A).map fun p => (p.1 ∘ Tuple.sort p.1, p.2.submatrix id (Tuple.sort p.1))⟩, ⟨hs.llt, ?_⟩, ⟨ht.llt, ?_⟩, ?_⟩
  · intro n A v V hA h
    simp only [Option.map_eq_some_iff] at h
    obtain ⟨⟨v0, V0⟩, h0, h1⟩ := h
    obtain ⟨hV, hd⟩ := hs.eig _ _ _ _ hA h0
    simp only [Prod.mk.injEq] at h1
    obtain ⟨rfl, rfl⟩ := h1
    constructor
    · have : (V0.submatrix id (Tuple.sort v0))ᵀ * V0.submatrix id (Tuple.sort v0) = (V0ᵀ * V0).submatrix (Tuple.sort v0) (Tuple.sort v0) := rfl
      rw [this, hV, Matrix.submatrix_one_equiv]
    · rw [hd]
      ext i j
      rw [Matrix.mul_apply, Matrix.mul_apply, ← Equiv.sum_comp (Tuple.sort v0)]
      refine Finset.sum_congr rfl fun k _ => ?_
      simp [Matrix.mul_diagonal]
  · intro n A hA
    obtain ⟨p, hp⟩ := ht.eig n A hA
    exact ⟨_, by simp only [hp, Option.map_some]; rfl⟩
  · intro n A v V h
    simp only [Option.map_eq_some_iff] at h
    obtain ⟨⟨v0, V0⟩, _, h1⟩ := h
    simp only [Prod.mk.injEq] at h1
    rw [← h1.1]
    exact Tuple.monotone_sort v0

/-- two functions with overlap four, nine, basis functions 1 and 2 -/
noncomputable abbrev exBlock : Block := ⟨[1, 2], !![1 / 2, 0; 0, 1 / 3]⟩

def exS : Nat → Nat → ℝ := fun i j => if i ≠ j then 0 else if i = 1 ∨ i = 3 then 4 else 9

noncomputable abbrev exOrbs : Orbs exBlock.idx.length := ⟨2, !![3 / 5, -4 / 5; 4 / 5, 3 / 5], ![2, 1]⟩

theorem exBlock_on : exBlock.Orthonormalises exS := by
  unfold Block.Orthonormalises
  ext i j
  fin_cases i <;> fin_cases j <;> simp [Matrix.mul_apply, exBlock, gather, exS, Fin.sum_univ_succ] <;> norm_num

theorem exOrbs_on : exOrbs.Orthonormal := by
  unfold Orbs.Orthonormal
  ext i j
  fin_cases i <;> fin_cases j <;> simp [Matrix.mul_apply, exOrbs, exBlock, Fin.sum_univ_succ] <;> norm_num

/-- a density is loaded -/
example : ∃ s : Solvers, ∃ o, fillBlock s (fun i j => (i + j : ℝ)) exBlock 2 = .ok o ∧ (∀ i, 0 ≤ o.occ i ∧ o.occ i ≤ 2) ∧ Antitone o.occ ∧ o.Orthonormal := by
  obtain ⟨s, hs, ht, ha⟩ := ascending_exist
  have hg : (gather (fun i j => (i + j : ℝ)) exBlock.idx)ᵀ = gather (fun i j => (i + j : ℝ)) exBlock.idx := by
    ext i j; simp [gather, add_comm]
  obtain ⟨⟨v, V⟩, hp⟩ := ht.eig _ (exBlock.Xᵀ * gather (fun i j => (i + j : ℝ)) exBlock.idx * exBlock.X) (by
    rw [transpose_mul, transpose_mul, transpose_transpose, hg, Matrix.mul_assoc])
  have h : ∃ o, fillBlock s (fun i j => (i + j : ℝ)) exBlock 2 = .ok o := by
    unfold fillBlock
    rw [hp]
    exact ⟨_, rfl⟩
  obtain ⟨o, ho⟩ := h
  exact ⟨s, o, ho, C35_load hs ha _ (fun i j => add_comm _ _) exBlock 2 (by norm_num) o ho⟩

/-- three electrons are added, with a mirror block at positions 3 and 4 -/
example : ∃ P', accumulate (fun _ _ => 0) exBlock exOrbs [3, 4] = .ok P' ∧ electrons 5 exS P' = electrons 5 exS (fun _ _ => 0) + exOrbs.total :=
  C35_accumulate 5 exS _ exBlock (by intro i hi; simp [exBlock] at hi; omega) exBlock_on exOrbs exOrbs_on (by simp [exBlock]) [3, 4] (by intro i hi; simp at hi; omega) fun _ => ⟨rfl, by
    ext i j
    fin_cases i <;> fin_cases j <;> simp [gather, exS, exBlock]⟩

example : exOrbs.total = 3 := by
  have : (∑ i : Fin 2, (![2, 1] : Fin 2 → ℝ) i) = 3 := by simp [Fin.sum_univ_two]; norm_num
  exact this

/-- saving two blocks -/
example : (assembleFinal true [⟨exBlock, exOrbs, exOrbs⟩, ⟨⟨[0, 5], !![1 / 3, 0; 0, 1 / 3]⟩, ⟨2, 1, ![2, 0]⟩, ⟨2, 1, ![1, 0]⟩⟩]).1 =
    (assembleFinal true [⟨exBlock, exOrbs, exOrbs⟩, ⟨⟨[0, 5], !![1 / 3, 0; 0, 1 / 3]⟩, ⟨2, 1, ![2, 0]⟩, ⟨2, 1, ![1, 0]⟩⟩]).2 := by
  refine (C35_save 6 exS _ ?_ ?_).2.1
  · intro e he
    simp only [List.mem_cons, List.not_mem_nil, or_false] at he
    rcases he with rfl | rfl
    · exact ⟨by intro i hi; simp [exBlock] at hi; omega, exBlock_on, exOrbs_on, exOrbs_on⟩
    · refine ⟨by intro i hi; simp at hi; omega, ?_, ?_, ?_⟩
      · unfold Block.Orthonormalises
        ext i j
        fin_cases i <;> fin_cases j <;> simp [Matrix.mul_apply, gather, exS, Fin.sum_univ_succ] <;> norm_num
      · simp [Orbs.Orthonormal]
      · simp [Orbs.Orthonormal]
  · intro e he
    simp only [List.mem_cons, List.not_mem_nil, or_false] at he
    rcases he with rfl | rfl <;> simp [exBlock]

end Dens
end HelFEM
