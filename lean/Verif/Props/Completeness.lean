import Verif.Lemmas.Completeness
import Mathlib.Analysis.InnerProductSpace.PiL2
import Mathlib.Analysis.SpecialFunctions.Pow.Real

/-!
# C92: completeness and importance profiles
-/

namespace HelFEM
namespace Compl
open ComplSpec Matrix
open scoped RealInnerProductSpace

variable {H : Type*} [NormedAddCommGroup H] [InnerProductSpace ℝ H] {n k q na nb : Nat}

/-- The exponents of the scan form a geometric progression from the smallest to the largest; a single point is the largest. -/
theorem C92_exponents (N : ℕ) (lo hi : ℝ) (hlo : 0 < lo) (hhi : lo < hi) :
    exponents 1 lo hi = .ok [hi] ∧
    (2 ≤ N → ∃ l, exponents N lo hi = .ok l ∧ l.length = N ∧ (∀ i, i < N → l[i]? = some (lo * (hi / lo) ^ ((i : ℝ) / ((N : ℝ) - 1)))) ∧
      l[0]? = some lo ∧ l[N - 1]? = some hi ∧ l.Pairwise (· < ·)) ∧
    (∀ z : Int, z < 0 → exponents z lo hi = .ub) := by
  have hh : 0 < hi := hlo.trans hhi
  have l10 : Real.log 10 ≠ 0 := (Real.log_pos (by norm_num)).ne'
  have eLo : Real.exp (Real.logb 10 lo * Real.log 10) = lo := by
    rw [Real.logb, div_mul_cancel₀ _ l10, Real.exp_log hlo]
  have eHi : Real.exp (Real.logb 10 hi * Real.log 10) = hi := by
    rw [Real.logb, div_mul_cancel₀ _ l10, Real.exp_log hh]
  refine ⟨?_, ?_, fun z hz => by simp [exponents, hz]⟩
  · simp [exponents, logExp, List.range_succ, eHi]
  · intro hN
    have hN' : (0 : ℝ) < (N : ℝ) - 1 := by
      have : (2 : ℝ) ≤ N := by exact_mod_cast hN
      linarith
    have val : ∀ i, i < N → Real.exp (logExp N lo hi i * Real.log 10) = lo * (hi / lo) ^ ((i : ℝ) / ((N : ℝ) - 1)) := by
      intro i hi'
      unfold logExp
      have hN1 : ¬ N = 1 := by omega
      simp only [hN1, if_false]
      rw [Real.rpow_def_of_pos (div_pos hh hlo), Real.log_div hh.ne' hlo.ne']
      refine Eq.trans ?_ (congrArg (· * Real.exp ((Real.log hi - Real.log lo) * ((i : ℝ) / ((N : ℝ) - 1)))) (Real.exp_log hlo))
      rw [← Real.exp_add]
      congr 1
      split_ifs with e
      · have : (i : ℝ) = N - 1 := by rw [← e]; push_cast; ring
        rw [this, div_self hN'.ne', Real.logb, div_mul_cancel₀ _ l10]; ring
      · simp only [Real.logb]; field_simp
    refine ⟨(List.range N).map fun i => Real.exp (logExp N lo hi i * Real.log 10), by simp [exponents], by simp, ?_, ?_, ?_, ?_⟩
    · intro i hi'
      rw [List.getElem?_map, List.getElem?_range hi', Option.map_some, val i hi']
    · rw [List.getElem?_map, List.getElem?_range (by omega), Option.map_some, val 0 (by omega)]; simp
    · rw [List.getElem?_map, List.getElem?_range (by omega), Option.map_some, val (N - 1) (by omega)]
      have : ((N - 1 : ℕ) : ℝ) = N - 1 := by rw [Nat.cast_sub (by omega)]; simp
      rw [this, div_self hN'.ne', Real.rpow_one, mul_div_cancel₀ _ hlo.ne']
    · rw [List.pairwise_map]
      refine List.Pairwise.imp_of_mem ?_ List.pairwise_lt_range
      intro a b ha hb hab
      rw [val a (List.mem_range.1 ha), val b (List.mem_range.1 hb)]
      apply mul_lt_mul_of_pos_left _ hlo
      apply Real.rpow_lt_rpow_of_exponent_lt ((one_lt_div hlo).2 hhi)
      gcongr

theorem batches_perm (N : ℕ) (sched : Nat → Nat → List Nat) (hs : ∀ b len, (sched b len).Perm (List.range len)) :
    ∀ m s, s + m = N / batchSize + 1 → ((batches N sched (List.range' s m)).flatten).Perm (List.range' (batchSize * s) (N - batchSize * s)) := by
  intro m
  induction m with
  | zero =>
    intro s h
    have : N - batchSize * s = 0 := by unfold batchSize at *; omega
    rw [this]; simp [batches]
  | succ m ih =>
    intro s h
    rw [List.range'_succ]
    unfold batches
    dsimp only
    split_ifs with hb
    · have : N - batchSize * s = 0 := by unfold batchSize at *; omega
      rw [this]; simp
    · rw [List.flatten_cons]
      have h1 := ih (s + 1) (by omega)
      have h2 : ((sched s (min (batchSize * (s + 1)) N - batchSize * s)).map (batchSize * s + ·)).Perm (List.range' (batchSize * s) (min (batchSize * (s + 1)) N - batchSize * s)) := by
        rw [List.range'_eq_map_range]
        exact (hs _ _).map _
      have h3 : List.range' (batchSize * (s + 1)) (N - batchSize * (s + 1)) = List.range' (batchSize * s + 1 * (min (batchSize * (s + 1)) N - batchSize * s)) (N - batchSize * (s + 1)) ∨ N - batchSize * (s + 1) = 0 := by
        by_cases h : N - batchSize * (s + 1) = 0
        · exact Or.inr h
        · left; congr 1; unfold batchSize at *; omega
      have h4 : N - batchSize * s = (min (batchSize * (s + 1)) N - batchSize * s) + (N - batchSize * (s + 1)) := by unfold batchSize at *; omega
      rw [h4, ← List.range'_append]
      refine h2.append (h1.trans ?_)
      rcases h3 with h3 | h3
      · rw [h3]
      · rw [h3]; simp

theorem foldl_set {α : Type*} (g : Nat → α) : ∀ (l : List Nat) (out : List α) (i : Nat),
    (l.foldl (fun o i => o.set i (g i)) out)[i]? = if i ∈ l ∧ i < out.length then some (g i) else out[i]? := by
  intro l
  induction l with
  | nil => intro out i; simp
  | cons a l ih =>
    intro out i
    rw [List.foldl_cons, ih, List.length_set]
    by_cases hl : i < out.length
    · by_cases h1 : i ∈ l
      · simp [h1, hl]
      · by_cases h2 : i = a
        · subst h2; simp [h1, hl]
        · simp [h1, h2, Ne.symm h2]
    · have : out[i]? = none := List.getElem?_eq_none (by omega)
      simp only [hl, and_false, if_false, this, List.getElem?_set]
      split_ifs <;> first | rfl | omega

/-- Whatever the number of exponents and the order of the threads, every exponent is treated once, and the column of a profile is that of its exponent. -/
theorem C92_batches (c : Ctx n k q na nb) (eig : ∀ d, Matrix (Fin d) (Fin d) ℝ → Eig d) (sched : Nat → Nat → List Nat)
    (hs : ∀ b len, (sched b len).Perm (List.range len)) (P : ℝ → Fin n → ℝ) (expn : List ℝ) :
    ((batches expn.length sched (List.range (expn.length / batchSize + 1))).flatten).Perm (List.range expn.length) ∧
    c.scan eig sched P expn = expn.map fun x => c.column eig x (P x) := by
  have hp : ((batches expn.length sched (List.range (expn.length / batchSize + 1))).flatten).Perm (List.range expn.length) := by
    have := batches_perm expn.length sched hs (expn.length / batchSize + 1) 0 (by omega)
    simpa [List.range_eq_range'] using this
  refine ⟨hp, ?_⟩
  apply List.ext_getElem?
  intro i
  unfold Ctx.scan
  rw [foldl_set (fun i => c.column eig (expn.getD i 0) (P (expn.getD i 0)))]
  simp only [hp.mem_iff, List.mem_range, List.length_replicate, and_self, List.getElem?_map]
  split_ifs with h
  · simp [List.getElem?_eq_getElem h, List.getD_eq_getElem?_getD]
  · simp [h]

/-- What the checkpoint and the quadrature supply: an orthonormal set of combinations of the functions `φ`, orbitals among them, and overlaps with the minimal basis `b`. -/
structure Reads (c : Ctx n k q na nb) (φ : Fin n → H) (b : Fin q → H) : Prop where
  orth : Orthonormal ℝ (comb φ c.Sinvh)
  occa : ∀ a, comb φ c.Ca a ∈ Submodule.span ℝ (Set.range (comb φ c.Sinvh))
  occb : ∀ a, comb φ c.Cb a ∈ Submodule.span ℝ (Set.range (comb φ c.Sinvh))
  minb : ∀ u i, c.Q u i = ⟪b u, φ i⟫

/-- part of a vector within the basis -/
noncomputable def part (e : Fin k → H) (f : H) : H := ∑ j, ⟪e j, f⟫ • e j

theorem part_isProj {e : Fin k → H} (he : Orthonormal ℝ e) (f : H) : IsProj (Submodule.span ℝ (Set.range e)) f (part e f) := by
  have h := isProj_orth Finset.univ e (fun _ => 1) (fun _ _ => one_pos) (fun i _ j _ => by
    rw [orthonormal_iff_ite.1 he i j]) f
  simpa [part] using h

theorem part_inner {e : Fin k → H} (he : Orthonormal ℝ e) (f g : H) : ⟪part e f, part e g⟫ = ∑ j, ⟪e j, f⟫ * ⟪e j, g⟫ := by
  unfold part
  rw [sum_inner]
  refine Finset.sum_congr rfl fun i _ => ?_
  rw [inner_sum, Finset.sum_eq_single i]
  · rw [inner_smul_left, inner_smul_right, orthonormal_iff_ite.1 he i i]; simp
  · intro j _ hne
    rw [inner_smul_left, inner_smul_right, orthonormal_iff_ite.1 he i j, if_neg (Ne.symm hne)]; simp
  · simp

theorem part_inner_mem {e : Fin k → H} (he : Orthonormal ℝ e) (f : H) {w : H} (hw : w ∈ Submodule.span ℝ (Set.range e)) : ⟪f, w⟫ = ⟪part e f, w⟫ := by
  have := (part_isProj he f).2 w hw
  rw [inner_sub_left] at this
  linarith

theorem comb_inner (φ : Fin n → H) (X : Matrix (Fin n) (Fin k) ℝ) (f : H) (p : Fin n → ℝ) (hp : ∀ i, p i = ⟪f, φ i⟫) (j : Fin k) : ⟪f, comb φ X j⟫ = (Xᵀ *ᵥ p) j := by
  unfold comb
  rw [inner_sum]
  simp only [Matrix.mulVec, dotProduct, Matrix.transpose_apply, inner_smul_right, hp]

theorem sinv_form (c : Ctx n k q na nb) (φ : Fin n → H) (he : Orthonormal ℝ (comb φ c.Sinvh)) (f g : H) (p r : Fin n → ℝ) (hp : ∀ i, p i = ⟪f, φ i⟫)
    (hr : ∀ i, r i = ⟪g, φ i⟫) : p ⬝ᵥ (c.Sinv *ᵥ r) = ⟪part (comb φ c.Sinvh) f, part (comb φ c.Sinvh) g⟫ := by
  rw [part_inner he]
  unfold Ctx.Sinv
  rw [← Matrix.mulVec_mulVec, Matrix.dotProduct_mulVec, ← Matrix.mulVec_transpose]
  refine Finset.sum_congr rfl fun j _ => ?_
  rw [real_inner_comm, comb_inner φ c.Sinvh f p hp, real_inner_comm, comb_inner φ c.Sinvh g r hr]

/-- The completeness profile is the squared length of the part of the scanning function within the basis: between zero and the squared norm, and equal to it exactly
for functions within the basis. -/
theorem C92_completeness (c : Ctx n k q na nb) (eig : ∀ d, Matrix (Fin d) (Fin d) ℝ → Eig d) (x : ℝ) (φ : Fin n → H) (b : Fin q → H) (h : Reads c φ b) (f : H) (p : Fin n → ℝ)
    (hp : ∀ i, p i = ⟪f, φ i⟫) :
    let Y := (c.column eig x p).y
    SqProj (Submodule.span ℝ (Set.range (comb φ c.Sinvh))) f Y ∧ 0 ≤ Y ∧ Y ≤ ‖f‖ ^ 2 ∧
      (Y = ‖f‖ ^ 2 ↔ f ∈ Submodule.span ℝ (Set.range (comb φ c.Sinvh))) ∧ (c.column eig x p).expn = x := by
  intro Y
  have hY : SqProj (Submodule.span ℝ (Set.range (comb φ c.Sinvh))) f Y := by
    refine ⟨_, (part_isProj h.orth f).1, (part_isProj h.orth f).2, ?_⟩
    show (p ᵥ* c.Sinv) ⬝ᵥ p = _
    rw [← Matrix.dotProduct_mulVec, sinv_form c φ h.orth f f p p hp hp, real_inner_self_eq_norm_sq]
  exact ⟨hY, (sqProj_le hY).1, (sqProj_le hY).2, sqProj_eq_iff hY, rfl⟩

/-- The profile depends on the space spanned only, not on how the basis was orthonormalised. -/
theorem C92_canonical {k' q' na' nb' : Nat} (c : Ctx n k q na nb) (c' : Ctx n k' q' na' nb') (eig : ∀ d, Matrix (Fin d) (Fin d) ℝ → Eig d) (x : ℝ) (φ : Fin n → H)
    (b : Fin q → H) (b' : Fin q' → H) (h : Reads c φ b) (h' : Reads c' φ b')
    (hspan : Submodule.span ℝ (Set.range (comb φ c.Sinvh)) = Submodule.span ℝ (Set.range (comb φ c'.Sinvh))) (f : H) (p : Fin n → ℝ) (hp : ∀ i, p i = ⟪f, φ i⟫) :
    (c.column eig x p).y = (c'.column eig x p).y := by
  have h1 := (C92_completeness c eig x φ b h f p hp).1
  rw [hspan] at h1
  exact sqProj_unique h1 (C92_completeness c' eig x φ b' h' f p hp).1

theorem occ_eq {no : Nat} (C : Matrix (Fin n) (Fin no) ℝ) (φ : Fin n → H) (f : H) (p : Fin n → ℝ) (hp : ∀ i, p i = ⟪f, φ i⟫) (a : Fin no) :
    occProj C p a = ⟪f, comb φ C a⟫ := (comb_inner φ C f p hp a).symm

theorem imp0_le {no : Nat} (C : Matrix (Fin n) (Fin no) ℝ) (φ : Fin n → H) (f : H) (p : Fin n → ℝ) (hp : ∀ i, p i = ⟪f, φ i⟫) (ho : Orthonormal ℝ (comb φ C)) :
    SqProj (Submodule.span ℝ (Set.range (comb φ C))) f (occProj C p ⬝ᵥ occProj C p) := by
  refine ⟨_, (part_isProj ho f).1, (part_isProj ho f).2, ?_⟩
  rw [← real_inner_self_eq_norm_sq, part_inner ho]
  refine Finset.sum_congr rfl fun a _ => ?_
  rw [occ_eq C φ f p hp, real_inner_comm]

/-- The plain importance profile is the squared length of the part of the scanning function within the occupied orbitals of each spin; never more than the completeness.
Without occupied orbitals of the second spin its column is zero, and without a minimal basis the padded profile is the plain one. -/
theorem C92_importance0 (c : Ctx n k q na nb) (eig : ∀ d, Matrix (Fin d) (Fin d) ℝ → Eig d) (x : ℝ) (φ : Fin n → H) (b : Fin q → H) (h : Reads c φ b) (f : H) (p : Fin n → ℝ)
    (hp : ∀ i, p i = ⟪f, φ i⟫) (hoa : Orthonormal ℝ (comb φ c.Ca)) (hob : Orthonormal ℝ (comb φ c.Cb)) :
    let r := c.column eig x p
    SqProj (Submodule.span ℝ (Set.range (comb φ c.Ca))) f r.imp0a ∧ SqProj (Submodule.span ℝ (Set.range (comb φ c.Cb))) f r.imp0b ∧
      r.imp0a ≤ r.y ∧ r.imp0b ≤ r.y ∧ (nb = 0 → r.imp0b = 0 ∧ r.impb = 0) ∧ (q = 0 → r.impa = r.imp0a ∧ r.impb = r.imp0b) := by
  intro r
  have hy := (C92_completeness c eig x φ b h f p hp).1
  have ha : SqProj (Submodule.span ℝ (Set.range (comb φ c.Ca))) f r.imp0a := imp0_le c.Ca φ f p hp hoa
  have e : r.imp0b = occProj c.Cb p ⬝ᵥ occProj c.Cb p := by
    show (if nb ≠ 0 then _ else _) = _
    split_ifs with hn
    · rfl
    · have : nb = 0 := not_not.1 hn
      subst this; simp [dotProduct]
  have hb : SqProj (Submodule.span ℝ (Set.range (comb φ c.Cb))) f r.imp0b := by rw [e]; exact imp0_le c.Cb φ f p hp hob
  have le : ∀ {no : Nat} (C : Matrix (Fin n) (Fin no) ℝ), (∀ a, comb φ C a ∈ Submodule.span ℝ (Set.range (comb φ c.Sinvh))) →
      Submodule.span ℝ (Set.range (comb φ C)) ≤ Submodule.span ℝ (Set.range (comb φ c.Sinvh)) := by
    intro no C hC
    rw [Submodule.span_le]
    rintro _ ⟨a, rfl⟩
    exact hC a
  refine ⟨ha, hb, sqProj_mono (le _ h.occa) ha hy, sqProj_mono (le _ h.occb) hb hy, ?_, ?_⟩
  · intro hn
    refine ⟨by show (if nb ≠ 0 then _ else _) = _; simp [hn], ?_⟩
    show (if q > 0 then (if nb > 0 then _ else _) else (if nb ≠ 0 then _ else _)) = _
    simp [hn]
  · intro hq
    refine ⟨?_, ?_⟩
    · show (if q > 0 then _ else _) = _
      rw [if_neg (by omega)]
      rfl
    · show (if q > 0 then _ else _) = _
      rw [if_neg (by omega)]
      rfl

theorem smin_eq (c : Ctx n k q na nb) (φ : Fin n → H) (b : Fin q → H) (h : Reads c φ b) (u v : Fin q) :
    c.Smin u v = ⟪part (comb φ c.Sinvh) (b u), part (comb φ c.Sinvh) (b v)⟫ := by
  rw [← sinv_form c φ h.orth (b u) (b v) (c.Q u) (c.Q v) (h.minb u) (h.minb v), Matrix.dotProduct_mulVec]
  rfl

theorem spad_eq (c : Ctx n k q na nb) (φ : Fin n → H) (b : Fin q → H) (h : Reads c φ b) (f : H) (p : Fin n → ℝ) (hp : ∀ i, p i = ⟪f, φ i⟫) (u v : Fin (q + 1)) :
    c.Spad p u v = ⟪(Fin.snoc (fun u => part (comb φ c.Sinvh) (b u)) (part (comb φ c.Sinvh) f) : Fin (q + 1) → H) u,
      (Fin.snoc (fun u => part (comb φ c.Sinvh) (b u)) (part (comb φ c.Sinvh) f) : Fin (q + 1) → H) v⟫ := by
  have hov : ∀ u, ((c.Q * c.Sinv) *ᵥ p) u = ⟪part (comb φ c.Sinvh) (b u), part (comb φ c.Sinvh) f⟫ := by
    intro u
    rw [← sinv_form c φ h.orth (b u) f (c.Q u) p (h.minb u) hp, ← Matrix.mulVec_mulVec]
    rfl
  unfold Ctx.Spad padS
  rw [Matrix.of_apply]
  refine Fin.lastCases ?_ (fun u => ?_) u <;> refine Fin.lastCases ?_ (fun v => ?_) v
  · simp only [Fin.lastCases_last, Fin.snoc_last]
    exact sinv_form c φ h.orth f f p p hp hp
  · simp only [Fin.lastCases_last, Fin.lastCases_castSucc, Fin.snoc_last, Fin.snoc_castSucc, hov]
    exact real_inner_comm _ _
  · simp only [Fin.lastCases_last, Fin.lastCases_castSucc, Fin.snoc_last, Fin.snoc_castSucc, hov]
  · simp only [Fin.lastCases_castSucc, Fin.snoc_castSucc, smin_eq c φ b h]

theorem minbas_eq {no : Nat} (c : Ctx n k q na nb) (φ : Fin n → H) (b : Fin q → H) (h : Reads c φ b) (C : Matrix (Fin n) (Fin no) ℝ)
    (hC : ∀ a, comb φ C a ∈ Submodule.span ℝ (Set.range (comb φ c.Sinvh))) (a : Fin no) (u : Fin q) :
    minbas c.Q C a u = ⟪part (comb φ c.Sinvh) (b u), comb φ C a⟫ := by
  rw [← part_inner_mem h.orth (b u) (hC a), comb_inner φ C (b u) (c.Q u) (h.minb u)]
  simp only [minbas, Matrix.transpose_apply, Matrix.mul_apply, Matrix.mulVec, dotProduct]
  exact Finset.sum_congr rfl fun i _ => mul_comm _ _

theorem padA_eq {no : Nat} (c : Ctx n k q na nb) (φ : Fin n → H) (b : Fin q → H) (h : Reads c φ b) (f : H) (p : Fin n → ℝ) (hp : ∀ i, p i = ⟪f, φ i⟫)
    (C : Matrix (Fin n) (Fin no) ℝ) (hC : ∀ a, comb φ C a ∈ Submodule.span ℝ (Set.range (comb φ c.Sinvh))) (a : Fin no) (u : Fin (q + 1)) :
    padA (minbas c.Q C) (occProj C p) a u =
      ⟪(Fin.snoc (fun u => part (comb φ c.Sinvh) (b u)) (part (comb φ c.Sinvh) f) : Fin (q + 1) → H) u, comb φ C a⟫ := by
  unfold padA
  rw [Matrix.of_apply]
  refine Fin.lastCases ?_ (fun u => ?_) u
  · simp only [Fin.lastCases_last, Fin.snoc_last]
    rw [occ_eq C φ f p hp, part_inner_mem h.orth f (hC a)]
  · simp only [Fin.lastCases_castSucc, Fin.snoc_castSucc]
    exact minbas_eq c φ b h C hC a u

/-- a solver that diagonalises the two matrices it is given -/
def Solves (c : Ctx n k q na nb) (eig : ∀ d, Matrix (Fin d) (Fin d) ℝ → Eig d) (p : Fin n → ℝ) : Prop :=
  EigOf c.Smin (eig q c.Smin).vec (eig q c.Smin).val ∧ EigOf (c.Spad p) (eig (q + 1) (c.Spad p)).vec (eig (q + 1) (c.Spad p)).val

theorem imp_core {no : Nat} (c : Ctx n k q na nb) (eig : ∀ d, Matrix (Fin d) (Fin d) ℝ → Eig d) (φ : Fin n → H) (b : Fin q → H) (h : Reads c φ b) (f : H)
    (p : Fin n → ℝ) (hp : ∀ i, p i = ⟪f, φ i⟫) (hs : Solves c eig p) (C : Matrix (Fin n) (Fin no) ℝ)
    (hC : ∀ a, comb φ C a ∈ Submodule.span ℝ (Set.range (comb φ c.Sinvh))) :
    (∃ W : Submodule ℝ H, SumProj W (comb φ C) (projTrace (minbas c.Q C) (formSinv (eig q c.Smin))) ∧
      ((∀ i, 1 / 1000000 ≤ (eig q c.Smin).val i) → W = Submodule.span ℝ (Set.range fun u => part (comb φ c.Sinvh) (b u)))) ∧
    (∃ W : Submodule ℝ H, SumProj W (comb φ C) (projTrace (padA (minbas c.Q C) (occProj C p)) (formSinv (eig (q + 1) (c.Spad p)))) ∧
      ((∀ i, 1 / 1000000 ≤ (eig (q + 1) (c.Spad p)).val i) →
        W = Submodule.span ℝ (Set.range (Fin.snoc (fun u => part (comb φ c.Sinvh) (b u)) (part (comb φ c.Sinvh) f) : Fin (q + 1) → H)))) := by
  constructor
  · have e : EigOf (fun u v => ⟪part (comb φ c.Sinvh) (b u), part (comb φ c.Sinvh) (b v)⟫) (eig q c.Smin).vec (eig q c.Smin).val := by
      have e1 := hs.1
      generalize eig q c.Smin = es at e1 ⊢
      rwa [show (c.Smin : Fin q → Fin q → ℝ) = fun u v => ⟪part (comb φ c.Sinvh) (b u), part (comb φ c.Sinvh) (b v)⟫ from
        funext fun u => funext fun v => smin_eq c φ b h u v] at e1
    exact ⟨_, sumProj_trace _ _ e _ _ fun a u => minbas_eq c φ b h C hC a u, fun hk => span_kept _ _ e hk⟩
  · have e := hs.2
    generalize eig (q + 1) (c.Spad p) = es at e ⊢
    rw [show (c.Spad p : Fin (q + 1) → Fin (q + 1) → ℝ) = _ from funext fun u => funext fun v => spad_eq c φ b h f p hp u v] at e
    exact ⟨_, sumProj_trace _ _ e _ _ fun a u => padA_eq c φ b h f p hp C hC a u, fun hk => span_kept _ _ e hk⟩

/-- Importance with a minimal basis, when no eigenvalue of an overlap matrix is below the threshold: the gain in the squared projections of the occupied orbitals when the
scanning function joins the minimal basis. It is never negative, and with the projection on the minimal basis does not exceed the number of orbitals. -/
theorem C92_importance_partial (c : Ctx n k q na nb) (eig : ∀ d, Matrix (Fin d) (Fin d) ℝ → Eig d) (x : ℝ) (φ : Fin n → H) (b : Fin q → H) (h : Reads c φ b) (f : H)
    (p : Fin n → ℝ) (hp : ∀ i, p i = ⟪f, φ i⟫) (hs : Solves c eig p) (hq : 0 < q) (hk : ∀ i, 1 / 1000000 ≤ (eig q c.Smin).val i)
    (hk' : ∀ i, 1 / 1000000 ≤ (eig (q + 1) (c.Spad p)).val i) (b' : Fin q → H) (f' : H)
    (hb' : ∀ u, IsProj (Submodule.span ℝ (Set.range (comb φ c.Sinvh))) (b u) (b' u)) (hf' : IsProj (Submodule.span ℝ (Set.range (comb φ c.Sinvh))) f f')
    (hoa : Orthonormal ℝ (comb φ c.Ca)) (hob : Orthonormal ℝ (comb φ c.Cb)) :
    let r := c.column eig x p
    (∃ v v', SumProj (Submodule.span ℝ (Set.range b')) (comb φ c.Ca) v ∧ SumProj (Submodule.span ℝ (insert f' (Set.range b'))) (comb φ c.Ca) v' ∧
      r.impa = v' - v ∧ 0 ≤ r.impa ∧ v + r.impa ≤ na) ∧
    (∃ v v', SumProj (Submodule.span ℝ (Set.range b')) (comb φ c.Cb) v ∧ SumProj (Submodule.span ℝ (insert f' (Set.range b'))) (comb φ c.Cb) v' ∧
      r.impb = v' - v ∧ 0 ≤ r.impb ∧ v + r.impb ≤ nb) := by
  have eb : (fun u => part (comb φ c.Sinvh) (b u)) = b' := funext fun u => isProj_unique (part_isProj h.orth (b u)) (hb' u)
  have ef : part (comb φ c.Sinvh) f = f' := isProj_unique (part_isProj h.orth f) hf'
  have key : ∀ {no : Nat} (C : Matrix (Fin n) (Fin no) ℝ), (∀ a, comb φ C a ∈ Submodule.span ℝ (Set.range (comb φ c.Sinvh))) → Orthonormal ℝ (comb φ C) →
      ∃ v v', SumProj (Submodule.span ℝ (Set.range b')) (comb φ C) v ∧ SumProj (Submodule.span ℝ (insert f' (Set.range b'))) (comb φ C) v' ∧
        projTrace (padA (minbas c.Q C) (occProj C p)) (formSinv (eig (q + 1) (c.Spad p))) - projTrace (minbas c.Q C) (formSinv (eig q c.Smin)) = v' - v ∧
        0 ≤ v' - v ∧ v' ≤ no := by
    intro no C hC hO
    obtain ⟨⟨W, hW, eW⟩, ⟨W', hW', eW'⟩⟩ := imp_core c eig φ b h f p hp hs C hC
    rw [eW hk, eb] at hW
    rw [eW' hk', eb, ef] at hW'
    have es : Set.range (Fin.snoc b' f' : Fin (q + 1) → H) = insert f' (Set.range b') := by
      ext w
      constructor
      · rintro ⟨u, rfl⟩
        refine Fin.lastCases ?_ (fun u => ?_) u
        · simp
        · simp
      · rintro (rfl | ⟨u, rfl⟩)
        · exact ⟨Fin.last q, by simp⟩
        · exact ⟨u.castSucc, by simp⟩
    rw [es] at hW'
    refine ⟨_, _, hW, hW', rfl, sub_nonneg.2 (sumProj_mono (Submodule.span_mono (Set.subset_insert _ _)) hW hW'), ?_⟩
    have := (sumProj_le hW').2
    simpa [hO.1] using this
  intro r
  constructor
  · obtain ⟨v, v', h1, h2, h3, h4, h5⟩ := key c.Ca h.occa hoa
    have e : r.impa = v' - v := by
      rw [← h3]
      show (if q > 0 then _ else _) = _
      rw [if_pos hq]
    exact ⟨v, v', h1, h2, e, by rw [e]; exact h4, by rw [e]; linarith⟩
  · obtain ⟨v, v', h1, h2, h3, h4, h5⟩ := key c.Cb h.occb hob
    have e : r.impb = v' - v := by
      rw [← h3]
      show (if q > 0 then _ else _) = _
      rw [if_pos hq]
      split_ifs with hn
      · rfl
      · have : nb = 0 := by omega
        subst this
        simp [projTrace, Matrix.trace]
    exact ⟨v, v', h1, h2, e, by rw [e]; exact h4, by rw [e]; linarith⟩

/-- Whatever is dropped, the importance is a difference of two projections and lies within the number of orbitals on both sides. -/
theorem C92_importance_bounds (c : Ctx n k q na nb) (eig : ∀ d, Matrix (Fin d) (Fin d) ℝ → Eig d) (x : ℝ) (φ : Fin n → H) (b : Fin q → H) (h : Reads c φ b) (f : H)
    (p : Fin n → ℝ) (hp : ∀ i, p i = ⟪f, φ i⟫) (hs : Solves c eig p) (hq : 0 < q) (hoa : Orthonormal ℝ (comb φ c.Ca)) (hob : Orthonormal ℝ (comb φ c.Cb)) :
    |(c.column eig x p).impa| ≤ na ∧ |(c.column eig x p).impb| ≤ nb := by
  have key : ∀ {no : Nat} (C : Matrix (Fin n) (Fin no) ℝ), (∀ a, comb φ C a ∈ Submodule.span ℝ (Set.range (comb φ c.Sinvh))) → Orthonormal ℝ (comb φ C) →
      |projTrace (padA (minbas c.Q C) (occProj C p)) (formSinv (eig (q + 1) (c.Spad p))) - projTrace (minbas c.Q C) (formSinv (eig q c.Smin))| ≤ no := by
    intro no C hC hO
    obtain ⟨⟨W, hW, -⟩, ⟨W', hW', -⟩⟩ := imp_core c eig φ b h f p hp hs C hC
    have h1 := sumProj_le hW
    have h2 := sumProj_le hW'
    simp only [hO.1, one_pow, Finset.sum_const, Finset.card_univ, Fintype.card_fin, nsmul_eq_mul, mul_one] at h1 h2
    exact abs_le.2 ⟨by linarith [h1.2, h2.1], by linarith [h1.1, h2.2]⟩
  constructor
  · show |if q > 0 then _ else _| ≤ _
    rw [if_pos hq]
    exact key c.Ca h.occa hoa
  · show |if q > 0 then _ else _| ≤ _
    rw [if_pos hq]
    split_ifs with hn
    · exact key c.Cb h.occb hob
    · simp

/-- The whole scan: unknown probes and more occupied than available orbitals are the only failures; otherwise there is one column per exponent, with the profiles of the
probe asked for, of the first orbitals of each spin. -/
theorem C92_run {mo : Nat} (eig : ∀ d, Matrix (Fin d) (Fin d) ℝ → Eig d) (sched : Nat → Nat → List Nat) (hs : ∀ b len, (sched b len).Perm (List.range len))
    (gto sto : ℝ → Fin n → ℝ) (iprobe : Int) (N : ℕ) (lo hi : ℝ) (Sinvh : Matrix (Fin n) (Fin k) ℝ) (Ca Cb : Matrix (Fin n) (Fin mo) ℝ) (Q : Matrix (Fin q) (Fin n) ℝ)
    (nela nelb : Nat) :
    ((mo < nela ∨ mo < nelb) → run eig sched gto sto iprobe N lo hi Sinvh Ca Cb Q nela nelb = .ub) ∧
    (∀ (ha : nela ≤ mo) (hb : nelb ≤ mo),
      (iprobe ≠ 0 → iprobe ≠ 1 → run eig sched gto sto iprobe N lo hi Sinvh Ca Cb Q nela nelb = .throw .logicError) ∧
      ∀ P, ((iprobe = 0 ∧ P = gto) ∨ (iprobe = 1 ∧ P = sto)) → ∃ expn l, exponents N lo hi = .ok expn ∧ expn.length = N ∧
        run eig sched gto sto iprobe N lo hi Sinvh Ca Cb Q nela nelb = .ok l ∧
        l = expn.map fun x => Ctx.column ⟨Sinvh, Matrix.of fun i a => Ca i (Fin.castLE ha a), Matrix.of fun i a => Cb i (Fin.castLE hb a), Q⟩ eig x (P x)) := by
  have he : exponents (N : Int) lo hi = .ok ((List.range N).map fun i => Real.exp (logExp N lo hi i * Real.log 10)) := by simp [exponents]
  have hrun : run eig sched gto sto iprobe N lo hi Sinvh Ca Cb Q nela nelb = (leftCols Ca nela).bind fun A => (leftCols Cb nelb).bind fun B =>
      if iprobe = 0 then .ok (Ctx.scan ⟨Sinvh, A, B, Q⟩ eig sched gto ((List.range N).map fun i => Real.exp (logExp N lo hi i * Real.log 10)))
      else if iprobe = 1 then .ok (Ctx.scan ⟨Sinvh, A, B, Q⟩ eig sched sto ((List.range N).map fun i => Real.exp (logExp N lo hi i * Real.log 10)))
      else .throw .logicError := by
    unfold run
    rw [he]
    rfl
  refine ⟨?_, fun ha hb => ⟨?_, ?_⟩⟩
  · intro h
    rw [hrun]
    unfold leftCols
    by_cases h1 : nela ≤ mo
    · have h2 : ¬ nelb ≤ mo := by omega
      simp [h1, h2]
    · simp [h1]
  · intro h0 h1
    rw [hrun]
    simp [leftCols, ha, hb, h0, h1]
  · rintro P (⟨h0, rfl⟩ | ⟨h0, rfl⟩)
    · refine ⟨_, _, he, by simp, ?_, rfl⟩
      rw [hrun]
      simp only [leftCols, ha, hb, dif_pos, Res.bind, h0, if_true]
      rw [(C92_batches _ eig sched hs P _).2]
      rfl
    · refine ⟨_, _, he, by simp, ?_, rfl⟩
      rw [hrun]
      simp only [leftCols, ha, hb, dif_pos, Res.bind, h0, if_true, one_ne_zero, if_false]
      rw [(C92_batches _ eig sched hs P _).2]
      rfl

/-! ### Dropped eigenvalues -/

theorem column_impa (c : Ctx n k q na nb) (eig : ∀ d, Matrix (Fin d) (Fin d) ℝ → Eig d) (x : ℝ) (p : Fin n → ℝ) (hq : 0 < q) :
    (c.column eig x p).impa = projTrace (padA (minbas c.Q c.Ca) (occProj c.Ca p)) (formSinv (eig (q + 1) (c.Spad p))) -
      projTrace (minbas c.Q c.Ca) (formSinv (eig q c.Smin)) := by
  show (if q > 0 then _ else _) = _
  rw [if_pos hq]

theorem padA_zero {no : Nat} (A : Matrix (Fin no) (Fin 1) ℝ) (p : Fin no → ℝ) (a : Fin no) : padA A p a 0 = A a 0 := rfl

theorem padA_one {no : Nat} (A : Matrix (Fin no) (Fin 1) ℝ) (p : Fin no → ℝ) (a : Fin no) : padA A p a 1 = p a := rfl

/-- small eigenvalue of the example -/
noncomputable def eps : ℝ := 25 / 100000009

/-- one minimal function, which is the occupied orbital -/
noncomputable def wCtx : Ctx 2 2 1 1 0 := ⟨1, !![1; 0], Matrix.of fun _ j => j.elim0, !![1, 0]⟩

/-- overlaps of the scanning function -/
noncomputable def wP : Fin 2 → ℝ := ![12 / 25 * ((25 - 9 * eps) / 16 - eps), 10000 * eps / 4]

/-- eigenpairs of the two matrices of the example -/
noncomputable def wEig : ∀ d, Matrix (Fin d) (Fin d) ℝ → Eig d
  | 2, _ => ⟨![(25 - 9 * eps) / 16, eps], !![4 / 5, 3 / 5; 3 / 5, -4 / 5]⟩
  | _, _ => ⟨fun _ => 1, 1⟩

/-- functions of the example -/
noncomputable def wPhi : Fin 2 → EuclideanSpace ℝ (Fin 2) := fun i => EuclideanSpace.single i 1

theorem wSmin : wCtx.Smin = 1 := by
  ext i j
  fin_cases i; fin_cases j
  simp [Ctx.Smin, Ctx.Sinv, wCtx, Matrix.mul_apply]

theorem wSpad : wCtx.Spad wP = !![1, 12 / 25 * ((25 - 9 * eps) / 16 - eps); 12 / 25 * ((25 - 9 * eps) / 16 - eps), 9 / 25 * ((25 - 9 * eps) / 16) + 16 / 25 * eps] := by
  have h := wSmin
  ext i j
  unfold Ctx.Spad padS
  rw [h]
  fin_cases i <;> fin_cases j
  · rfl
  · show ((wCtx.Q * wCtx.Sinv) *ᵥ wP) 0 = _
    simp [Ctx.Sinv, wCtx, wP, Matrix.mulVec, dotProduct, Fin.sum_univ_two]
  · show ((wCtx.Q * wCtx.Sinv) *ᵥ wP) 0 = _
    simp [Ctx.Sinv, wCtx, wP, Matrix.mulVec, dotProduct, Fin.sum_univ_two]
  · show wP ⬝ᵥ (wCtx.Sinv *ᵥ wP) = _
    simp [Ctx.Sinv, wCtx, wP, dotProduct, Fin.sum_univ_two, eps]
    norm_num

theorem wReads : Reads wCtx wPhi (fun _ => wPhi 0) := by
  have hc : comb wPhi wCtx.Sinvh = wPhi := by
    funext j
    simp [comb, wCtx, Matrix.one_apply]
  refine ⟨?_, ?_, ?_, ?_⟩
  · rw [hc, orthonormal_iff_ite]
    intro i j
    fin_cases i <;> fin_cases j <;> simp [wPhi, EuclideanSpace.inner_single_left]
  · intro a
    rw [hc]
    exact Submodule.sum_mem _ fun i _ => Submodule.smul_mem _ _ (Submodule.subset_span ⟨i, rfl⟩)
  · intro a; exact a.elim0
  · intro u i
    fin_cases u; fin_cases i <;> simp [wCtx, wPhi, EuclideanSpace.inner_single_left]

theorem wSolves : Solves wCtx wEig wP := by
  constructor
  · rw [wSmin]
    constructor
    · intro i j; fin_cases i; fin_cases j; simp [wEig]
    · intro i j; rw [Subsingleton.elim i 0, Subsingleton.elim j 0]; simp [wEig]
  · rw [wSpad]
    constructor
    · intro i j; fin_cases i <;> fin_cases j <;> simp [wEig, Fin.sum_univ_two] <;> norm_num
    · intro i j; fin_cases i <;> fin_cases j <;> simp [wEig, Fin.sum_univ_two] <;> ring

/-- Finding: dropping a small eigenvalue of the padded overlap matrix can lose more than the scanning function adds. Here the occupied orbital is the minimal basis
function itself, and its importance profile is negative. -/
theorem C92_negative (x : ℝ) : ∃ (c : Ctx 2 2 1 1 0) (φ : Fin 2 → EuclideanSpace ℝ (Fin 2)) (b : Fin 1 → EuclideanSpace ℝ (Fin 2)) (f : EuclideanSpace ℝ (Fin 2))
    (p : Fin 2 → ℝ) (eig : ∀ d, Matrix (Fin d) (Fin d) ℝ → Eig d), Reads c φ b ∧ (∀ i, p i = ⟪f, φ i⟫) ∧ ‖f‖ ≤ 1 ∧ Solves c eig p ∧ Orthonormal ℝ (comb φ c.Ca) ∧
      (∀ a, comb φ c.Ca a = b 0) ∧ (c.column eig x p).impa < 0 := by
  refine ⟨wCtx, wPhi, fun _ => wPhi 0, WithLp.toLp 2 wP, wP, wEig, wReads, ?_, ?_, wSolves, ?_, ?_, ?_⟩
  · intro i; fin_cases i <;> simp [wPhi, EuclideanSpace.inner_single_right]
  · rw [EuclideanSpace.norm_eq, Real.sqrt_le_one]
    simp [Fin.sum_univ_two, wP, eps]
    norm_num
  · rw [orthonormal_iff_ite]
    intro i j
    fin_cases i; fin_cases j
    simp [comb, wCtx, wPhi]
  · intro a; fin_cases a
    simp [comb, wCtx]
  · have hi : (wCtx.column wEig x wP).impa = projTrace (padA (minbas wCtx.Q wCtx.Ca) (occProj wCtx.Ca wP)) (formSinv (wEig (1 + 1) (wCtx.Spad wP))) -
        projTrace (minbas wCtx.Q wCtx.Ca) (formSinv (wEig 1 wCtx.Smin)) := column_impa _ _ _ _ one_pos
    rw [hi, projTrace_eq, projTrace_eq, wSpad, wSmin]
    have k1 : kept (wEig 1 1) = {0} := by
      ext i; fin_cases i; simp [kept, wEig]; norm_num
    have k2 : kept (wEig (1 + 1) !![1, 12 / 25 * ((25 - 9 * eps) / 16 - eps); 12 / 25 * ((25 - 9 * eps) / 16 - eps), 9 / 25 * ((25 - 9 * eps) / 16) + 16 / 25 * eps]) = {0} := by
      ext i; fin_cases i
      · simp [kept, wEig, eps]; norm_num
      · simp [kept, wEig, eps]; norm_num
    rw [k1, k2]
    simp [wEig, padA_zero, padA_one, minbas, occProj, wCtx, wP, Fin.sum_univ_two, Matrix.mulVec, dotProduct, eps]
    norm_num

/-- one minimal function, and an orbital that is in part along the other function -/
noncomputable def gCtx : Ctx 2 2 1 1 0 := ⟨1, !![3 / 5; 4 / 5], Matrix.of fun _ j => j.elim0, !![1, 0]⟩

/-- The hypotheses of `C92_importance_partial` are met, and the importance is the square of the missing component. -/
example (x : ℝ) : let eig : ∀ d, Matrix (Fin d) (Fin d) ℝ → Eig d := fun _ _ => ⟨fun _ => 1, 1⟩
    Reads gCtx wPhi (fun _ => wPhi 0) ∧ (∀ i, (![0, 1] : Fin 2 → ℝ) i = ⟪wPhi 1, wPhi i⟫) ∧ Solves gCtx eig ![0, 1] ∧ Orthonormal ℝ (comb wPhi gCtx.Ca) ∧
      Orthonormal ℝ (comb wPhi gCtx.Cb) ∧ (∀ i, 1 / 1000000 ≤ (eig 1 gCtx.Smin).val i) ∧ (∀ i, 1 / 1000000 ≤ (eig 2 (gCtx.Spad ![0, 1])).val i) ∧
      (gCtx.column eig x ![0, 1]).impa = 16 / 25 ∧ (gCtx.column eig x ![0, 1]).imp0a = 16 / 25 ∧ (gCtx.column eig x ![0, 1]).y = 1 := by
  intro eig
  have hc : comb wPhi gCtx.Sinvh = wPhi := by
    funext j
    simp [comb, gCtx, Matrix.one_apply]
  have hSm : gCtx.Smin = 1 := by
    ext i j
    fin_cases i; fin_cases j
    simp [Ctx.Smin, Ctx.Sinv, gCtx, Matrix.mul_apply]
  have hSp : gCtx.Spad ![0, 1] = 1 := by
    ext i j
    unfold Ctx.Spad padS
    rw [hSm]
    fin_cases i <;> fin_cases j
    · rfl
    · show ((gCtx.Q * gCtx.Sinv) *ᵥ ![0, 1]) 0 = _
      simp [Ctx.Sinv, gCtx, Matrix.mulVec, dotProduct, Fin.sum_univ_two]
    · show ((gCtx.Q * gCtx.Sinv) *ᵥ ![0, 1]) 0 = _
      simp [Ctx.Sinv, gCtx, Matrix.mulVec, dotProduct, Fin.sum_univ_two]
    · show ![0, 1] ⬝ᵥ (gCtx.Sinv *ᵥ ![0, 1]) = _
      simp [Ctx.Sinv, gCtx]
  refine ⟨⟨?_, ?_, fun a => a.elim0, ?_⟩, ?_, ⟨?_, ?_⟩, ?_, ?_, fun i => by norm_num [eig], fun i => by norm_num [eig], ?_, ?_, ?_⟩
  · rw [hc, orthonormal_iff_ite]
    intro i j
    fin_cases i <;> fin_cases j <;> simp [wPhi, EuclideanSpace.inner_single_left]
  · intro a
    rw [hc]
    exact Submodule.sum_mem _ fun i _ => Submodule.smul_mem _ _ (Submodule.subset_span ⟨i, rfl⟩)
  · intro u i
    fin_cases u; fin_cases i <;> simp [gCtx, wPhi, EuclideanSpace.inner_single_left]
  · intro i
    fin_cases i <;> simp [wPhi, EuclideanSpace.inner_single_left]
  · rw [hSm]
    exact ⟨fun i j => by rw [Subsingleton.elim i 0, Subsingleton.elim j 0]; simp [eig], fun i j => by rw [Subsingleton.elim i 0, Subsingleton.elim j 0]; simp [eig]⟩
  · rw [hSp]
    exact ⟨fun i j => by simp [eig, Matrix.one_apply, eq_comm], fun i j => by simp [eig, Matrix.one_apply]⟩
  · rw [orthonormal_iff_ite]
    intro i j
    rw [Subsingleton.elim i 0, Subsingleton.elim j 0]
    have : comb wPhi gCtx.Ca 0 = WithLp.toLp 2 ![3 / 5, 4 / 5] := by
      ext i; fin_cases i <;> simp [comb, gCtx, wPhi]
    rw [this, real_inner_self_eq_norm_sq, EuclideanSpace.norm_sq_eq, Fin.sum_univ_two]
    norm_num
  · exact ⟨fun i => i.elim0, fun i => i.elim0⟩
  · have hi : (gCtx.column eig x ![0, 1]).impa = projTrace (padA (minbas gCtx.Q gCtx.Ca) (occProj gCtx.Ca ![0, 1])) (formSinv (eig (1 + 1) (gCtx.Spad ![0, 1]))) -
        projTrace (minbas gCtx.Q gCtx.Ca) (formSinv (eig 1 gCtx.Smin)) := column_impa _ _ _ _ one_pos
    have k1 : ∀ d S, kept (eig d S) = Finset.univ := by
      intro d S; ext i; simp [kept, eig]; norm_num
    rw [hi, projTrace_eq, projTrace_eq, k1 (1 + 1) (gCtx.Spad ![0, 1]), k1 1 gCtx.Smin]
    simp [eig, padA_zero, padA_one, minbas, occProj, gCtx, Fin.sum_univ_two, Matrix.mulVec, dotProduct]
    norm_num
  · show occProj gCtx.Ca ![0, 1] ⬝ᵥ occProj gCtx.Ca ![0, 1] = _
    simp [occProj, gCtx, Matrix.mulVec, dotProduct]; norm_num
  · show (![0, 1] ᵥ* gCtx.Sinv) ⬝ᵥ ![0, 1] = _
    simp [Ctx.Sinv, gCtx]

/-- A schedule that goes through the batches backwards. -/
example : ∀ b len, ((fun _ len => (List.range len).reverse : Nat → Nat → List Nat) b len).Perm (List.range len) := fun _ _ => List.reverse_perm _

end Compl
end HelFEM
