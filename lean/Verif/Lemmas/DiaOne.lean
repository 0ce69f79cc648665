import Verif.Spec.DiaOne
import Verif.Lemmas.OneElectronMat
import Verif.Lemmas.DiaIndex
import Verif.Props.SymBlocks
import Mathlib.Analysis.SpecialFunctions.Trigonometric.DerivHyp

/-!
# Lemmas for C72: blocks, couplings and separable weights
-/

namespace HelFEM
namespace DiaOne

open Polynomial Finset Harm MeasureTheory OneE

/-! ### Updates of one block -/

/-- `op` replaces every entry `x` of block `(i, j)` by `g x a b` and leaves the others -/
def Upd (n n' N N' i j : Nat) (op : Mat ℝ → Res (Mat ℝ)) (g : ℝ → Nat → Nat → ℝ) : Prop :=
  ∀ V : Mat ℝ, V.rows = N * n → V.cols = N' * n' → ∃ V', op V = .ok V' ∧ V'.rows = N * n ∧ V'.cols = N' * n' ∧
    ∀ i' a j' b, a < n → b < n' → ent n n' V' i' a j' b = if i' = i ∧ j' = j then g (ent n n' V i' a j' b) a b else ent n n' V i' a j' b

section upd
variable {n n' N N' i j : Nat}

theorem Upd.id : Upd n n' N N' i j (fun V => .ok V) (fun x _ _ => x) :=
  fun V hr hc => ⟨V, rfl, hr, hc, fun _ _ _ _ _ _ => by rw [ite_self]⟩

theorem Upd.bind {op op' : Mat ℝ → Res (Mat ℝ)} {g g' : ℝ → Nat → Nat → ℝ} (h : Upd n n' N N' i j op g) (h' : Upd n n' N N' i j op' g') :
    Upd n n' N N' i j (fun V => op V >>= op') (fun x a b => g' (g x a b) a b) := by
  intro V hr hc
  obtain ⟨V1, h1, h2, h3, h4⟩ := h V hr hc
  obtain ⟨V2, k1, k2, k3, k4⟩ := h' V1 h2 h3
  refine ⟨V2, by simp only [h1, Res.ok_bind, k1], k2, k3, fun i' a j' b ha hb => ?_⟩
  rw [k4 i' a j' b ha hb, h4 i' a j' b ha hb]
  by_cases hh : i' = i ∧ j' = j
  · rw [if_pos hh, if_pos hh, if_pos hh]
  · rw [if_neg hh, if_neg hh, if_neg hh]

theorem Upd.congr {op : Mat ℝ → Res (Mat ℝ)} {g g' : ℝ → Nat → Nat → ℝ} (h : Upd n n' N N' i j op g) (hg : ∀ x a b, a < n → b < n' → g x a b = g' x a b) :
    Upd n n' N N' i j op g' := by
  intro V hr hc
  obtain ⟨V1, h1, h2, h3, h4⟩ := h V hr hc
  exact ⟨V1, h1, h2, h3, fun i' a j' b ha hb => by rw [h4 i' a j' b ha hb, hg _ _ _ ha hb]⟩

theorem Upd.set {M : Mat ℝ} (hM : M.rows = n) (hM' : M.cols = n') (hi : i < N) (hj : j < N') :
    Upd n n' N N' i j (fun V => V.setBlock (i * n) (j * n') n n' M) (fun _ a b => M.get a b) :=
  fun _ hr hc => setBlock_ent hr hc hM hM' hi hj

theorem Upd.add {M : Mat ℝ} (hM : M.rows = n) (hM' : M.cols = n') (hi : i < N) (hj : j < N') :
    Upd n n' N N' i j (fun V => V.addBlock (i * n) (j * n') n n' M) (fun x a b => x + M.get a b) :=
  fun _ hr hc => addBlock_ent hr hc hM hM' hi hj

theorem Upd.ite {P : Prop} [Decidable P] {op : Mat ℝ → Res (Mat ℝ)} {g : ℝ → Nat → Nat → ℝ} (h : P → Upd n n' N N' i j op g) :
    Upd n n' N N' i j (fun V => if P then op V else .ok V) (fun x a b => if P then g x a b else x) := by
  by_cases hP : P
  · simp only [if_pos hP]; exact h hP
  · simp only [if_neg hP]; exact Upd.id

end upd

theorem addIf_upd (D : Diatom) {i j : Nat} (hi : i < D.nang) (hj : j < D.nang) (c : ℝ) (M : Mat ℝ) (hr : M.rows = D.rad.nbf) (hc : M.cols = D.rad.nbf) (h0 : c = 0 → ∀ a b, M.get a b = 0) :
    Upd D.rad.nbf D.rad.nbf D.nang D.nang i j (fun V => D.addIf c i j M V) (fun x a b => x + M.get a b) := by
  refine Upd.congr (Upd.ite (P := c ≠ 0) fun _ => Upd.add hr hc hi hj) fun x a b _ _ => ?_
  by_cases h : c = 0
  · rw [if_neg (not_not.2 h), h0 h, add_zero]
  · rw [if_pos h]

theorem setDiag_upd (D : Diatom) {i j : Nat} (hi : i < D.nang) (hj : j < D.nang) (M : Mat ℝ) (hr : M.rows = D.rad.nbf) (hc : M.cols = D.rad.nbf) :
    Upd D.rad.nbf D.rad.nbf D.nang D.nang i j (fun V => D.setDiag i j M V) (fun x a b => if D.l i = D.l j then M.get a b else x) :=
  Upd.ite fun _ => Upd.set hr hc hi hj

theorem addDiag_upd (D : Diatom) {i j : Nat} (hi : i < D.nang) (hj : j < D.nang) (M : Mat ℝ) (hr : M.rows = D.rad.nbf) (hc : M.cols = D.rad.nbf) :
    Upd D.rad.nbf D.rad.nbf D.nang D.nang i j (fun V => D.addDiag i j M V) (fun x a b => if D.l i = D.l j then x + M.get a b else x) :=
  Upd.ite fun _ => Upd.add hr hc hi hj

theorem pairs_nodup (n n' : Nat) : (pairs n n').Nodup := by
  refine List.nodup_flatMap.2 ⟨fun i _ => List.nodup_range.map (fun a b h => by simpa using h), ?_⟩
  refine List.nodup_range.pairwise_of_forall_ne fun i _ j _ hij => ?_
  intro x hx hy
  rw [List.mem_map] at hx hy
  obtain ⟨_, _, rfl⟩ := hx
  obtain ⟨_, _, h⟩ := hy
  exact hij (Prod.ext_iff.1 h).1.symm

theorem mem_pairs (n n' i j : Nat) : (i, j) ∈ pairs n n' ↔ i < n ∧ j < n' := by simp [pairs]

/-- a loop over the blocks -/
theorem loop {n n' N N' : Nat} (step : Mat ℝ → Nat × Nat → Res (Mat ℝ)) (f : Nat → Nat → ℝ → Nat → Nat → ℝ)
    (hstep : ∀ i < N, ∀ j < N', Upd n n' N N' i j (fun V => step V (i, j)) (f i j)) :
    ∃ V, (pairs N N').foldlM step (Mat.zero (N * n) (N' * n')) = .ok V ∧ V.rows = N * n ∧ V.cols = N' * n' ∧
      ∀ i < N, ∀ a < n, ∀ j < N', ∀ b < n', V.get (i * n + a) (j * n' + b) = f i j 0 a b := by
  obtain ⟨V, g1, g2, g3, g4⟩ := blocks (n := n) (n' := n') (N := N) (N' := N') (fun p : Nat × Nat => p) step f (pairs N N') (by rw [List.map_id']; exact pairs_nodup N N') (by
    rintro ⟨i, j⟩ hp V h1 h2
    rw [mem_pairs] at hp
    obtain ⟨V', s1, s2, s3, s4⟩ := hstep i hp.1 j hp.2 V h1 h2
    refine ⟨V', s1, s2, s3, fun i' a j' b ha hb => ?_⟩
    rw [s4 i' a j' b ha hb]
    simp only [Prod.mk.injEq]
    by_cases hh : i' = i ∧ j' = j
    · rw [if_pos hh, if_pos hh, hh.1, hh.2]
    · rw [if_neg hh, if_neg hh])
    (Mat.zero (N * n) (N' * n')) rfl rfl
  refine ⟨V, g1, g2, g3, fun i hi a ha j hj b hb => ?_⟩
  have := g4 i a j b ha hb
  rwa [ent, zero_ent, List.map_id', if_pos ((mem_pairs N N' i j).2 ⟨hi, hj⟩)] at this

/-! ### Functions of the basis -/

theorem functions_pure (lm : List (Int × Int)) (n : Nat) : Sym.pureIndices lm n = (Spec.functions lm n).map fun p => p.1 * n + p.2 := by
  rw [Sym.pureIndices, Sym.pureIndices_eq, Spec.functions, List.map_flatMap]
  congr 1
  funext i
  by_cases hm : (lm.getD i (0, 0)).2 = 0
  · rw [if_pos hm, List.filter_eq_self.2 (fun a _ => decide_eq_true (Or.inl hm)), List.map_map]
    rfl
  · rw [if_neg hm, List.map_map]
    rcases n with _ | n
    · rfl
    · rw [List.range_succ_eq_map, List.filter_cons_of_neg (by rw [decide_eq_true_eq]; rintro (h | h); exacts [hm h, h rfl]), List.filter_eq_self.2 (fun a ha => by
        obtain ⟨x, _, rfl⟩ := List.mem_map.1 ha
        simp), List.map_map]
      refine List.map_congr_left fun a _ => ?_
      simp only [Function.comp]
      omega

theorem functions_get {lm : List (Int × Int)} {n k i a : Nat} (h : (Spec.functions lm n)[k]? = some (i, a)) :
    (Sym.pureIndices lm n).getD k 0 = i * n + a ∧ i < lm.length ∧ a < n ∧ ((lm.getD i (0, 0)).2 = 0 ∨ a ≠ 0) := by
  have hm : (i, a) ∈ Spec.functions lm n := List.mem_of_getElem? h
  refine ⟨?_, ?_⟩
  · rw [functions_pure, List.getD_eq_getElem?_getD, List.getElem?_map, h]; rfl
  · simp only [Spec.functions, List.mem_flatMap, List.mem_range, List.mem_map, List.mem_filter, decide_eq_true_eq, Prod.mk.injEq] at hm
    obtain ⟨i', hi', a', ⟨ha', hp⟩, rfl, rfl⟩ := hm
    exact ⟨hi', ha', hp⟩

theorem functions_length (lm : List (Int × Int)) (n : Nat) : (Sym.pureIndices lm n).length = (Spec.functions lm n).length := by
  rw [functions_pure, List.length_map]

/-- the loops, the factor and the removal of functions outside the basis -/
theorem remove_ok (D : Diatom) (V : Mat ℝ) (s : ℝ) (g : Nat → Nat → Nat → Nat → ℝ) (hr : V.rows = D.nang * D.rad.nbf) (hc : V.cols = D.nang * D.rad.nbf)
    (hV : ∀ i < D.nang, ∀ a < D.rad.nbf, ∀ j < D.nang, ∀ b < D.rad.nbf, V.get (i * D.rad.nbf + a) (j * D.rad.nbf + b) = g i a j b) :
    ∃ W, Dia.removeBoundaries D.lm D.rad.nbf (V.smul s) = .ok W ∧ W.rows = (Spec.functions D.lm D.rad.nbf).length ∧ W.cols = (Spec.functions D.lm D.rad.nbf).length ∧
      ∀ k k' i a j b, (Spec.functions D.lm D.rad.nbf)[k]? = some (i, a) → (Spec.functions D.lm D.rad.nbf)[k']? = some (j, b) → W.get k k' = s * g i a j b := by
  unfold Dia.removeBoundaries
  rw [if_neg (by simp only [Mat.smul, Dia.nDummy]; rw [hr, hc]; simp [Diatom.nang])]
  refine ⟨_, rfl, functions_length _ _, functions_length _ _, fun k k' i a j b h h' => ?_⟩
  obtain ⟨h1, h2, h3, _⟩ := functions_get h
  obtain ⟨k1, k2, k3, _⟩ := functions_get h'
  simp only [Mat.smul, h1, k1]
  rw [hV i h2 a h3 j k2 b k3]

theorem finish_ok (D : Diatom) (step : Mat ℝ → Nat × Nat → Res (Mat ℝ)) (s : ℝ) (f : Nat → Nat → ℝ → Nat → Nat → ℝ)
    (hstep : ∀ i < D.nang, ∀ j < D.nang, Upd D.rad.nbf D.rad.nbf D.nang D.nang i j (fun V => step V (i, j)) (f i j)) :
    ∃ W, D.finish step s = .ok W ∧ W.rows = (Spec.functions D.lm D.rad.nbf).length ∧ W.cols = (Spec.functions D.lm D.rad.nbf).length ∧
      ∀ k k' i a j b, (Spec.functions D.lm D.rad.nbf)[k]? = some (i, a) → (Spec.functions D.lm D.rad.nbf)[k']? = some (j, b) → W.get k k' = s * f i j 0 a b := by
  obtain ⟨V, h1, h2, h3, h4⟩ := loop step f hstep
  obtain ⟨W, g1, g2, g3, g4⟩ := remove_ok D V s (fun i a j b => f i j 0 a b) h2 h3 h4
  refine ⟨W, ?_, g2, g3, g4⟩
  unfold Diatom.finish
  have h1' : (pairs D.nang D.nang).foldlM step (Mat.zero D.ndummy D.ndummy) = .ok V := h1
  rw [h1', Res.ok_bind, g1]

/-! ### Separable weights -/

/-- matrix element of a function of the polar angle -/
noncomputable def zz (l : Nat) (m : Int) (l' : Nat) (m' : Int) (f : ℝ → ℝ) : ℝ := if m = m' then 2 * Real.pi * ∫ c in (-1 : ℝ)..1, yx l m c * f c * yx l' m' c else 0

theorem sphere_zz (l : Nat) (m : Int) (l' : Nat) (m' : Int) (f : ℝ → ℝ) :
    Harm.Spec.sphere (fun c p => (starRingEnd ℂ) (sph l m c p) * (f c : ℝ) * sph l' m' c p) = (zz l m l' m' f : ℝ) := sphere_pair l m l' m' f

theorem zz_one (l : Nat) (m : Int) (l' : Nat) (m' : Int) (h : m.natAbs ≤ l) (h' : m'.natAbs ≤ l') : zz l m l' m' (fun _ => 1) = if l = l' ∧ m = m' then 1 else 0 := by
  have := sphere_orth l m l' m' h h' 1
  rw [sphere_pair l m l' m' fun _ => 1, Complex.ofReal_inj] at this
  exact this

theorem zz_off (l : Nat) (m : Int) (l' : Nat) (m' : Int) (f : ℝ → ℝ) (h : m ≠ m') : zz l m l' m' f = 0 := if_neg h

theorem zz_sep {n : Nat} (l : Nat) (m : Int) (l' : Nat) (m' : Int) (w : Fin n → ℝ) (f : Fin n → ℝ → ℝ) (hf : ∀ t, Continuous (f t)) :
    zz l m l' m' (fun c => ∑ t, w t * f t c) = ∑ t, zz l m l' m' (f t) * w t := by
  unfold zz
  by_cases h : m = m'
  · simp only [if_pos h]
    have e : ∫ c in (-1 : ℝ)..1, yx l m c * (∑ t, w t * f t c) * yx l' m' c = ∫ c in (-1 : ℝ)..1, ∑ t, w t * (yx l m c * f t c * yx l' m' c) := by
      refine intervalIntegral.integral_congr fun c _ => ?_
      beta_reduce
      rw [mul_sum, sum_mul]
      exact sum_congr rfl fun t _ => by ring
    rw [e, intervalIntegral.integral_finset_sum, mul_sum]
    · refine sum_congr rfl fun t _ => ?_
      rw [intervalIntegral.integral_const_mul]
      ring
    · intro t _
      have := hf t
      have y1 := yx_cont l m
      have y2 := yx_cont l' m'
      exact Continuous.intervalIntegrable (by fun_prop) _ _
  · simp only [if_neg h, zero_mul, sum_const_zero]

/-- an integrand that separates in `μ` and the angles -/
theorem line_sep {n : Nat} (u v : ℝ → ℝ) (hu : Continuous u) (hv : Continuous v) (lo hi : ℝ) (h0 : 0 ≤ lo) (hlh : lo ≤ hi) (l : Nat) (m : Int) (l' : Nat) (m' : Int)
    (w : Fin n → ℝ → ℝ) (hw : ∀ t, Continuous (w t)) (f : Fin n → ℝ → ℝ) (hf : ∀ t, Continuous (f t)) (F : ℝ → ℝ → ℝ → ℂ)
    (hF : ∀ μ c p, 0 < μ → -1 < c → c < 1 → F μ c p = ((u μ * v μ : ℝ) : ℂ) * ((starRingEnd ℂ) (sph l m c p) * ((∑ t, w t μ * f t c : ℝ) : ℂ) * sph l' m' c p)) :
    ∫ μ in lo..hi, Harm.Spec.sphere (F μ) = ((∑ t, zz l m l' m' (f t) * ∫ μ in lo..hi, u μ * v μ * w t μ : ℝ) : ℂ) := by
  have e : ∫ μ in lo..hi, Harm.Spec.sphere (F μ) = ∫ μ in lo..hi, ((∑ t, zz l m l' m' (f t) * (u μ * v μ * w t μ) : ℝ) : ℂ) := by
    refine intervalIntegral.integral_congr_ae (Filter.Eventually.of_forall fun μ hμ => ?_)
    rw [Set.uIoc_of_le hlh] at hμ
    rw [sphere_congr (F μ) (fun c p => ((u μ * v μ : ℝ) : ℂ) * ((starRingEnd ℂ) (sph l m c p) * ((∑ t, w t μ * f t c : ℝ) : ℂ) * sph l' m' c p))
      (fun c h0' h1' p => hF μ c p (lt_of_le_of_lt h0 hμ.1) h0' h1'), sphere_const_mul, sphere_zz l m l' m' (fun c => ∑ t, w t μ * f t c), zz_sep l m l' m' (fun t => w t μ) f hf, ← Complex.ofReal_mul, mul_sum]
    congr 1
    exact sum_congr rfl fun t _ => by ring
  rw [e, intervalIntegral.integral_ofReal, intervalIntegral.integral_finset_sum]
  · congr 1
    exact sum_congr rfl fun t _ => by rw [intervalIntegral.integral_const_mul]
  · intro t _
    have := hw t
    exact Continuous.intervalIntegrable (by fun_prop) _ _

theorem bnd_nonneg {R : Radial} {φ : Nat → Nat → ℝ[X]} (hF : Spec.Functions R φ) : ∀ e, e ≤ R.nel → 0 ≤ R.bnd e
  | 0, _ => hF.origin.ge
  | e + 1, h => (bnd_nonneg hF e (by omega)).trans (hF.inc e (by omega)).le

/-- a volume integral that separates -/
theorem volume_sep {n : Nat} {R : Radial} {φ : Nat → Nat → ℝ[X]} (hF : Spec.Functions R φ) (Rh : ℝ) (a b : Nat) (l : Nat) (m : Int) (l' : Nat) (m' : Int)
    (w : Fin n → ℝ → ℝ) (hw : ∀ t, Continuous (w t)) (f : Fin n → ℝ → ℝ) (hf : ∀ t, Continuous (f t)) (F : Nat → ℝ → ℝ → ℝ → ℂ)
    (h : ∀ e μ c p, 0 < μ → -1 < c → c < 1 → F e μ c p * ((Rh ^ 3 * Real.sinh μ * (Real.cosh μ ^ 2 - c ^ 2) : ℝ) : ℂ) =
      (((φ e a).eval μ * (φ e b).eval μ : ℝ) : ℂ) * ((starRingEnd ℂ) (sph l m c p) * ((∑ t, w t μ * f t c : ℝ) : ℂ) * sph l' m' c p)) :
    Spec.volume R Rh F = ((∑ t, zz l m l' m' (f t) * ∑ e ∈ range R.nel, ∫ μ in (R.bnd e)..(R.bnd (e + 1)), (φ e a).eval μ * (φ e b).eval μ * w t μ : ℝ) : ℂ) := by
  unfold Spec.volume
  have e1 : ∀ e ∈ range R.nel, ∫ μ in (R.bnd e)..(R.bnd (e + 1)), Harm.Spec.sphere (fun c p => F e μ c p * ((Rh ^ 3 * Real.sinh μ * (Real.cosh μ ^ 2 - c ^ 2) : ℝ) : ℂ)) =
      ((∑ t, zz l m l' m' (f t) * ∫ μ in (R.bnd e)..(R.bnd (e + 1)), (φ e a).eval μ * (φ e b).eval μ * w t μ : ℝ) : ℂ) := by
    intro e he
    rw [mem_range] at he
    exact line_sep (fun μ => (φ e a).eval μ) (fun μ => (φ e b).eval μ) (Polynomial.continuous _) (Polynomial.continuous _) _ _ (bnd_nonneg hF e he.le) (hF.inc e he).le l m l' m' w hw f hf
      (fun μ c p => F e μ c p * ((Rh ^ 3 * Real.sinh μ * (Real.cosh μ ^ 2 - c ^ 2) : ℝ) : ℂ)) (h e)
  rw [sum_congr rfl e1, ← Complex.ofReal_sum, Finset.sum_comm]
  congr 1
  exact sum_congr rfl fun t _ => by rw [mul_sum]

/-- an integrand whose radial weights are powers of `sinh μ` and `cosh μ` -/
theorem volume_int {n : Nat} {D : Diatom} {φ : Nat → Nat → ℝ[X]} (hF : Spec.Functions D.rad φ) (hE : Spec.Exact D.rad φ) (i a j b : Nat)
    (ha : a < D.rad.nbf) (hb : b < D.rad.nbf) (k : Fin n → ℝ) (p q : Fin n → Nat) (f : Fin n → ℝ → ℝ) (hf : ∀ t, Continuous (f t)) (F : Nat → ℝ → ℝ → ℝ → ℂ)
    (h : ∀ e μ c x, 0 < μ → -1 < c → c < 1 → F e μ c x * ((D.Rhalf ^ 3 * Real.sinh μ * (Real.cosh μ ^ 2 - c ^ 2) : ℝ) : ℂ) =
      (((φ e a).eval μ * (φ e b).eval μ : ℝ) : ℂ) * ((starRingEnd ℂ) (sph (D.l i).toNat (D.m i) c x) *
        ((∑ t, k t * (Real.sinh μ ^ p t * Real.cosh μ ^ q t) * f t c : ℝ) : ℂ) * sph (D.l j).toNat (D.m j) c x)) :
    Spec.volume D.rad D.Rhalf F = ((∑ t, k t * zz (D.l i).toNat (D.m i) (D.l j).toNat (D.m j) (f t) * (D.rad.integral (p t : Nat) (q t)).get a b : ℝ) : ℂ) := by
  have hs := Real.continuous_sinh
  have hc := Real.continuous_cosh
  rw [volume_sep hF D.Rhalf a b (D.l i).toNat (D.m i) (D.l j).toNat (D.m j) (fun t μ => k t * (Real.sinh μ ^ p t * Real.cosh μ ^ q t)) (fun t => by fun_prop) f hf F h]
  congr 1
  refine sum_congr rfl fun t _ => ?_
  rw [hE.entry (p t : Nat) (q t) a b ha hb (Or.inl (by omega)), mul_comm (k t), mul_assoc, mul_sum (s := range D.rad.nel) (a := k t)]
  congr 1
  refine sum_congr rfl fun e _ => ?_
  rw [← intervalIntegral.integral_const_mul]
  refine intervalIntegral.integral_congr fun μ _ => ?_
  beta_reduce
  rw [zpow_natCast]
  ring

/-- a potential that is a sum of powers of `sinh μ`, `cosh μ` times functions of the angle -/
theorem potential_int {n : Nat} {D : Diatom} {φ : Nat → Nat → ℝ[X]} (hF : Spec.Functions D.rad φ) (hE : Spec.Exact D.rad φ) (V : ℝ → ℝ → ℝ) (i a j b : Nat)
    (ha : a < D.rad.nbf) (hb : b < D.rad.nbf) (k : Fin n → ℝ) (p q : Fin n → Nat) (f : Fin n → ℝ → ℝ) (hf : ∀ t, Continuous (f t))
    (h : ∀ μ c, 0 < μ → -1 < c → c < 1 → V (Spec.rho D.Rhalf μ c) (Spec.zed D.Rhalf μ c) * (D.Rhalf ^ 3 * Real.sinh μ * (Real.cosh μ ^ 2 - c ^ 2)) =
      ∑ t, k t * (Real.sinh μ ^ p t * Real.cosh μ ^ q t) * f t c) :
    Spec.potential D φ V i a j b = ((∑ t, k t * zz (D.l i).toNat (D.m i) (D.l j).toNat (D.m j) (f t) * (D.rad.integral (p t : Nat) (q t)).get a b : ℝ) : ℂ) := by
  unfold Spec.potential
  refine volume_int hF hE i a j b ha hb k p q f hf _ fun e μ c x h0 h1 h2 => ?_
  rw [← h μ c h0 h1 h2]
  simp only [Spec.wave, map_mul, Complex.conj_ofReal]
  push_cast
  ring

/-! ### Geometry -/

theorem rho_sq (R μ c : ℝ) (h0 : -1 < c) (h1 : c < 1) : Spec.rho R μ c ^ 2 = R ^ 2 * (Real.cosh μ ^ 2 - 1) * (1 - c ^ 2) := by
  unfold Spec.rho
  rw [mul_pow, mul_pow, Real.sq_sqrt (by nlinarith), Real.cosh_sq]
  ring

theorem dist1 (R μ c : ℝ) (hR : 0 < R) (h0 : -1 < c) (h1 : c < 1) : √(Spec.rho R μ c ^ 2 + (Spec.zed R μ c + R) ^ 2) = R * (Real.cosh μ + c) := by
  have h := Real.one_le_cosh μ
  rw [rho_sq R μ c h0 h1, Spec.zed, show R ^ 2 * (Real.cosh μ ^ 2 - 1) * (1 - c ^ 2) + (R * Real.cosh μ * c + R) ^ 2 = (R * (Real.cosh μ + c)) ^ 2 by ring,
    Real.sqrt_sq (mul_nonneg hR.le (by linarith))]

theorem dist2 (R μ c : ℝ) (hR : 0 < R) (h0 : -1 < c) (h1 : c < 1) : √(Spec.rho R μ c ^ 2 + (Spec.zed R μ c - R) ^ 2) = R * (Real.cosh μ - c) := by
  have h := Real.one_le_cosh μ
  rw [rho_sq R μ c h0 h1, Spec.zed, show R ^ 2 * (Real.cosh μ ^ 2 - 1) * (1 - c ^ 2) + (R * Real.cosh μ * c - R) ^ 2 = (R * (Real.cosh μ - c)) ^ 2 by ring,
    Real.sqrt_sq (mul_nonneg hR.le (by linarith))]

/-! ### Couplings of the table -/

theorem lm_mem (D : Diatom) {i : Nat} (hi : i < D.nang) : D.lm.getD i (0, 0) ∈ D.lm := by
  rw [List.getD_eq_getElem?_getD, List.getElem?_eq_getElem hi]
  exact List.getElem_mem hi

theorem lm_inj (D : Diatom) (hnd : D.lm.Nodup) {i j : Nat} (hi : i < D.nang) (hj : j < D.nang) : (D.l i = D.l j ∧ D.m i = D.m j) ↔ i = j := by
  constructor
  · rintro ⟨h1, h2⟩
    have : D.lm.getD i (0, 0) = D.lm.getD j (0, 0) := Prod.ext h1 h2
    rw [List.getD_eq_getElem?_getD, List.getElem?_eq_getElem hi, List.getD_eq_getElem?_getD, List.getElem?_eq_getElem hj] at this
    exact (List.Nodup.getElem_inj_iff hnd).1 this
  · rintro rfl
    exact ⟨rfl, rfl⟩

theorem foldl_max (r : List (Int × Int)) (a : Int) : a ≤ r.foldl (fun a q => max a q.1) a ∧ ∀ q ∈ r, q.1 ≤ r.foldl (fun a q => max a q.1) a := by
  induction r generalizing a with
  | nil => simp
  | cons q r ih =>
    obtain ⟨h1, h2⟩ := ih (max a q.1)
    simp only [List.foldl_cons, List.mem_cons, forall_eq_or_imp]
    exact ⟨by omega, by omega, h2⟩

theorem sizes_ge {legendre : Bool} {lm : List (Int × Int)} {s : Int × Int} (h : gauntSizes legendre lm = .ok s) : (∀ p ∈ lm, p.1 + 2 ≤ s.1) ∧ 5 ≤ s.2 := by
  rcases lm with _ | ⟨p, r⟩
  · simp [gauntSizes] at h
  · obtain ⟨h1, h2⟩ := foldl_max r p.1
    have key : ∀ q ∈ p :: r, q.1 + 2 ≤ r.foldl (fun a q => max a q.1) p.1 + 2 := by
      intro q hq
      rcases List.mem_cons.1 hq with h | h
      · rw [h]; omega
      · have := h2 q h; omega
    unfold gauntSizes at h
    simp only at h
    cases legendre with
    | false =>
      simp only [Bool.false_eq_true, if_false, Res.ok.injEq] at h
      rw [← h]
      exact ⟨key, le_rfl⟩
    | true =>
      simp only [if_true] at h
      cases hm : Dia.multipoles (p :: r) with
      | ok t =>
        rw [hm, Res.ok_bind, Res.ok.injEq] at h
        rw [← h]
        exact ⟨fun q hq => (key q hq).trans (le_max_right _ _), le_max_right _ _⟩
      | throw e => rw [hm, Res.throw_bind] at h; cases h
      | ub => rw [hm, Res.ub_bind] at h; cases h

/-- the table of a constructed object -/
theorem table_of {D : Diatom} (h : Spec.Constructed D) : ∃ (L k : Nat) (w : Int) (sched : List Nat), sched.Perm (List.range (max (max L k) L + 1)) ∧
    Gaunt.build Harm.Spec.gaunt L k L w sched = .ok D.gaunt ∧ 5 ≤ k ∧ (∀ p ∈ D.lm, p.1 + 2 ≤ L ∧ |p.2| ≤ w) := by
  obtain ⟨legendre, s, sched, h1, h2, h3⟩ := h
  have hne : D.lm ≠ [] := by
    intro h0
    rw [h0] at h1
    simp [gauntSizes] at h1
  obtain ⟨mabs, m1, m2, m3⟩ := Sym.absmMax_spec D.lm hne
  obtain ⟨s1, s2⟩ := sizes_ge h1
  unfold Diatom.make at h3
  rw [h1, Res.ok_bind, m1, Res.ok_bind] at h3
  refine ⟨s.1.toNat, s.2.toNat, 2 * mabs, sched, by rwa [max_eq_left (le_max_left _ _)], ?_, by omega, fun p hp => ⟨?_, ?_⟩⟩
  · cases hb : Gaunt.build Harm.Spec.gaunt s.1.toNat s.2.toNat s.1.toNat (2 * mabs) sched with
    | ok T =>
      rw [hb, Res.ok_bind, Res.ok.injEq] at h3
      rw [← h3]
    | throw e => rw [hb, Res.throw_bind] at h3; cases h3
    | ub => rw [hb, Res.ub_bind] at h3; cases h3
  · have := s1 p hp; omega
  · have := m3 p hp; omega

theorem couplings {D : Diatom} {φ : Nat → Nat → ℝ[X]} (h : Spec.Good D φ) {i j : Nat} (hi : i < D.nang) (hj : j < D.nang) :
    let z := zz (D.l i).toNat (D.m i) (D.l j).toNat (D.m j)
    D.gaunt.cosine (D.l j) (D.m j) (D.l i) (D.m i) = .ok (z fun c => c) ∧
    D.gaunt.cosine2 (D.l j) (D.m j) (D.l i) (D.m i) = .ok (z fun c => c ^ 2) ∧
    D.gaunt.cosine3 (D.l j) (D.m j) (D.l i) (D.m i) = .ok (z fun c => c ^ 3) ∧
    D.gaunt.cosine4 (D.l j) (D.m j) (D.l i) (D.m i) = .ok (z fun c => c ^ 4) ∧
    D.gaunt.sine2 (D.l j) (D.m j) (D.l i) (D.m i) = .ok (z fun c => 1 - c ^ 2) ∧
    D.gaunt.cosine2sine2 (D.l j) (D.m j) (D.l i) (D.m i) = .ok (z fun c => c ^ 2 * (1 - c ^ 2)) := by
  obtain ⟨L, k, w, sched, hs, hb, hk, hlm⟩ := table_of h.made
  obtain ⟨T, hT, hv⟩ := C69_couplings L k L w sched hs
  rw [hb, Res.ok.injEq] at hT
  subst hT
  have hli := hlm _ (lm_mem D hi)
  have hlj := hlm _ (lm_mem D hj)
  have hmi := h.m_le _ (lm_mem D hi)
  have hmj := h.m_le _ (lm_mem D hj)
  have a1 := abs_nonneg (D.lm.getD i (0, 0)).2
  have a2 := abs_nonneg (D.lm.getD j (0, 0)).2
  have ei : ((D.l i).toNat : Int) = D.l i := Int.toNat_of_nonneg (by unfold Diatom.l; omega)
  have ej : ((D.l j).toNat : Int) = D.l j := Int.toNat_of_nonneg (by unfold Diatom.l; omega)
  have key := hv (D.l j).toNat (D.m j) (D.l i).toNat (D.m i) (by unfold Diatom.l; omega) (by unfold Diatom.l; omega) (Or.inr (by unfold Diatom.m; exact hlj.2))
  simp only [ei, ej] at key
  have fin : ∀ (f : ℝ → ℝ) (r : Res ℝ), (∃ v, r = .ok v ∧ (v : ℂ) = Harm.Spec.sphere fun c p => (starRingEnd ℂ) (sph (D.l j).toNat (D.m j) c p) * (f c : ℝ) * sph (D.l i).toNat (D.m i) c p) →
      r = .ok (zz (D.l i).toNat (D.m i) (D.l j).toNat (D.m j) f) := by
    rintro f r ⟨v, rfl, hv⟩
    rw [sphere_swap, sphere_zz, Complex.ofReal_inj] at hv
    rw [hv]
  obtain ⟨k1, k2, k3, k4, _, k6, k7⟩ := key
  exact ⟨fin _ _ (k1 (by omega)), fin _ _ (k2 (by omega)), fin _ _ (k3 (by omega)), fin _ _ (k4 (by omega)), fin _ _ (k6 (by omega)), fin _ _ (k7 (by omega))⟩

/-- the square of the cosine does not couple `l` that differ by more than two -/
theorem zz_sq_far (l l' : Nat) (m : Int) (h : l + 2 < l') : zz l m l' m (fun c => c ^ 2) = 0 := by
  have s0 : Gaunt.sqrtPi 1 * √((2 * (0 : Nat) + 1) / (4 * Real.pi)) = 1 / 2 := sqrtPi_mul 1 0 1 (by norm_num) (by norm_num)
  have s2 : Gaunt.sqrtPi 5 * √((2 * (2 : Nat) + 1) / (4 * Real.pi)) = 5 / 2 := sqrtPi_mul 5 2 5 (by norm_num) (by norm_num)
  have := combo l m l' (2 / 3 * Gaunt.sqrtPi 1) (4 / 15 * Gaunt.sqrtPi 5) 0 0 2 0 (fun c => c ^ 2) (by
    intro c h0 h1
    rw [yx_zero 0 c h0 h1, yx_zero 2 c h0 h1, pP_two]
    simp only [Poly.pP, eval_one]
    linear_combination 2 / 3 * s0 + 4 / 15 * ((3 * c ^ 2 - 1) / 2) * s2)
  unfold zz
  rw [if_pos rfl, ← this, Gaunt.direct, Gaunt.direct, C69_gaunt_selection l (-m) 0 0 l' m (by omega), C69_gaunt_selection l (-m) 2 0 l' m (by omega)]
  ring

/-- the coupling to a function of another basis -/
theorem coupling_cross {D : Diatom} {φ : Nat → Nat → ℝ[X]} (h : Spec.Good D φ) {i : Nat} (hi : i < D.nang) (lj : Int) (mj : Int) (hm : D.m i = mj) (hlj : |mj| ≤ lj) :
    D.gaunt.cosine2 lj mj (D.l i) (D.m i) = .ok (zz (D.l i).toNat (D.m i) lj.toNat mj fun c => c ^ 2) := by
  obtain ⟨L, k, w, sched, hs, hb, hk, hlm⟩ := table_of h.made
  have hli := hlm _ (lm_mem D hi)
  have hmi := h.m_le _ (lm_mem D hi)
  have a1 := abs_nonneg (D.lm.getD i (0, 0)).2
  have a2 := abs_nonneg mj
  have ei : ((D.l i).toNat : Int) = D.l i := Int.toNat_of_nonneg (by unfold Diatom.l; omega)
  have ej : (lj.toNat : Int) = lj := Int.toNat_of_nonneg (by omega)
  have hmj : |mj| ≤ w := by rw [← hm]; exact hli.2
  by_cases hfar : lj ≤ L
  · obtain ⟨T, hT, hv⟩ := C69_couplings L k L w sched hs
    rw [hb, Res.ok.injEq] at hT
    subst hT
    obtain ⟨v, hv1, hv2⟩ := (hv lj.toNat mj (D.l i).toNat (D.m i) (by omega) (by unfold Diatom.l; omega) (Or.inr hmj)).2.1 (by omega)
    rw [ei, ej] at hv1
    have hv3 := hv2.trans ((sphere_swap _ _ _ _ fun c => c ^ 2).trans (sphere_zz _ _ _ _ fun c => c ^ 2))
    rw [Complex.ofReal_inj] at hv3
    rw [hv1, hv3]
  · obtain ⟨T, hT, hv⟩ := Gaunt.C25_lookup gaunt_symmetric L k L w sched hs
    rw [hb, Res.ok.injEq] at hT
    subst hT
    have hl : (D.l i).toNat + 2 < lj.toNat := by unfold Diatom.l; omega
    subst hm
    rw [zz_sq_far _ _ _ hl]
    unfold Gaunt.Table.cosine2
    rw [if_neg (not_not.2 rfl), hv, hv]
    simp only
    rw [if_neg (by omega), if_neg (by omega)]
    simp only [Res.ok_bind, Res.pure_eq, mul_zero, add_zero]

end DiaOne
end HelFEM
