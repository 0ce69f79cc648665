import Verif.Lemmas.XCTop
import Verif.Spec.SadXC
import Mathlib.Algebra.BigOperators.Field

/-!
# One element of the spherically averaged grid
-/

namespace HelFEM
namespace XC

open Matrix

variable {n N : Nat}

/-- `∑ D_ij u_i v_j` -/
def rform (D : Matrix (Fin n) (Fin n) ℝ) (u v : Fin n → ℝ) : ℝ := ∑ i, ∑ j, D i j * (u i * v j)

theorem rform_sub (D : Nat → Nat → ℝ) (idx : List Nat) (u v : Fin idx.length → ℝ) : rform (sub D idx) u v = Spec.sform D idx u v := rfl

theorem quad_rform (P : Matrix (Fin n) (Fin n) ℝ) (f g : Matrix (Fin n) (Fin N) ℝ) (p : Fin N) : quad P f g p = rform P (fun i => g i p) fun i => f i p := quad_eq P f g p

theorem rform_transpose (D : Matrix (Fin n) (Fin n) ℝ) (u v : Fin n → ℝ) : rform Dᵀ u v = rform D v u := by
  unfold rform
  rw [Finset.sum_comm]
  refine Finset.sum_congr rfl fun i _ => Finset.sum_congr rfl fun j _ => ?_
  rw [Matrix.transpose_apply]
  ring

theorem rform_add (A B : Matrix (Fin n) (Fin n) ℝ) (u v : Fin n → ℝ) : rform (A + B) u v = rform A u v + rform B u v := by
  simp only [rform, Matrix.add_apply, add_mul, Finset.sum_add_distrib]

theorem rform_smul (c : ℝ) (A : Matrix (Fin n) (Fin n) ℝ) (u v : Fin n → ℝ) : rform (c • A) u v = c * rform A u v := by
  simp only [rform, Matrix.smul_apply, smul_eq_mul, Finset.mul_sum, mul_assoc]

theorem rform_zero (u v : Fin n → ℝ) : rform 0 u v = 0 := by simp [rform]

theorem rform_sum {ι : Type} (s : Finset ι) (F : ι → Matrix (Fin n) (Fin n) ℝ) (u v : Fin n → ℝ) : rform (∑ l ∈ s, F l) u v = ∑ l ∈ s, rform (F l) u v := by
  classical
  induction s using Finset.induction_on with
  | empty => simp [rform_zero]
  | insert a s ha ih => rw [Finset.sum_insert ha, Finset.sum_insert ha, rform_add, ih]

theorem pair_smul (c : ℝ) (H D : Matrix (Fin n) (Fin n) ℝ) : pair (c • H) D = c * pair H D := by
  simp only [pair, Matrix.smul_apply, smul_eq_mul, Finset.mul_sum, mul_assoc]

theorem pair_lda (H : Matrix (Fin n) (Fin n) ℝ) (v : Fin N → ℝ) (f : Matrix (Fin n) (Fin N) ℝ) (D : Matrix (Fin n) (Fin n) ℝ) :
    pair (incLda H v f) D = pair H D + ∑ p, v p * rform D (fun i => f i p) fun i => f i p := by
  rw [incLda, pair_add, pair_outer]
  congr 1
  refine Finset.sum_congr rfl fun p _ => ?_
  simp only [rform, scaleCols, Matrix.of_apply, Finset.mul_sum]
  exact Finset.sum_congr rfl fun i _ => Finset.sum_congr rfl fun j _ => by ring

theorem pair_ggaReal (H : Matrix (Fin n) (Fin n) ℝ) (gn : Fin N → ℝ) (f g : Matrix (Fin n) (Fin N) ℝ) (D : Matrix (Fin n) (Fin n) ℝ) :
    pair (incGgaReal H (fun p (_ : Fin 1) => gn p) f fun _ => g) D =
      pair H D + ∑ p, gn p * (rform D (fun i => g i p) (fun i => f i p) + rform D (fun i => f i p) fun i => g i p) := by
  have half : ∀ D : Matrix (Fin n) (Fin n) ℝ, pair (gradWeighted (fun p (_ : Fin 1) => gn p) (fun _ => g) * fᵀ) D = ∑ p, gn p * rform D (fun i => g i p) fun i => f i p := by
    intro D
    rw [pair_outer]
    refine Finset.sum_congr rfl fun p _ => ?_
    simp only [rform, gradWeighted_apply, Fin.sum_univ_one, Finset.mul_sum]
    exact Finset.sum_congr rfl fun i _ => Finset.sum_congr rfl fun j _ => by ring
  unfold incGgaReal
  simp only
  rw [pair_add, pair_add, pair_transpose, half, half, add_assoc, ← Finset.sum_add_distrib]
  congr 1
  refine Finset.sum_congr rfl fun p _ => ?_
  rw [rform_transpose]
  ring

theorem pair_lapl (H : Matrix (Fin n) (Fin n) ℝ) (v : Fin N → ℝ) (f l : Matrix (Fin n) (Fin N) ℝ) (D : Matrix (Fin n) (Fin n) ℝ) :
    pair (incLapl H v f l) D = pair H D + ∑ p, v p * (rform D (fun i => l i p) (fun i => f i p) + rform D (fun i => f i p) fun i => l i p) := by
  rw [incLapl, pair_add, pair_add, pair_outer, pair_outer, ← Finset.sum_add_distrib]
  congr 1
  refine Finset.sum_congr rfl fun p _ => ?_
  simp only [rform, scaleCols, Matrix.of_apply, mul_add, Finset.mul_sum, ← Finset.sum_add_distrib]
  exact Finset.sum_congr rfl fun i _ => Finset.sum_congr rfl fun j _ => by ring

/-! ### Gathering and scattering shell by shell -/

/-- the matrix summed over the shells -/
def total (S : Spec.Shells) (idx : List Nat) : Matrix (Fin idx.length) (Fin idx.length) ℝ := ∑ l ∈ Finset.range S.L, sub (S.D l) idx
/-- the same with weights `l(l+1)` -/
noncomputable def totall (S : Spec.Shells) (idx : List Nat) : Matrix (Fin idx.length) (Fin idx.length) ℝ := ∑ l ∈ Finset.range S.L, ll1 l • sub (S.D l) idx

theorem sadGather_ok {m : Nat} {P : Cube} (hP : Spec.CubeSymm m P) {idx : List Nat} (hidx : ∀ i ∈ idx, i < m) :
    sadGather P idx = .ok (total (Spec.shells P) idx, totall (Spec.shells P) idx) := by
  have key : ∀ k, k ≤ P.size → (List.range k).foldlM (fun (s : Matrix (Fin idx.length) (Fin idx.length) ℝ × Matrix (Fin idx.length) (Fin idx.length) ℝ) l =>
      gatherMat (P.slice l) idx >>= fun G => Res.ok (s.1 + G, s.2 + ll1 l • G)) (0, 0) =
      .ok (∑ l ∈ Finset.range k, sub (P.slice l).get idx, ∑ l ∈ Finset.range k, ll1 l • sub (P.slice l).get idx) := by
    intro k
    induction k with
    | zero => intro _; rfl
    | succ k ih =>
      intro hk
      have hs := hP.2 k (by omega)
      rw [List.range_succ, List.foldlM_append, ih (by omega), Res.ok_bind, List.foldlM_cons, gatherMat_ok _ _ hs.1 hs.2.1 hidx]
      simp only [Res.ok_bind, List.foldlM_nil, Finset.sum_range_succ]
      rfl
  exact key P.size le_rfl

theorem sadScatter_ok {m : Nat} {Ho : Cube} (hr : ∀ l < Ho.size, (Ho.slice l).rows = m ∧ (Ho.slice l).cols = m) (idx : List Nat) (hidx : ∀ i ∈ idx, i < m)
    (H Hl : Matrix (Fin idx.length) (Fin idx.length) ℝ) : ∃ Hn, sadScatter Ho idx H Hl = .ok Hn ∧ Hn.size = Ho.size ∧ (∀ l < Ho.size, (Hn.slice l).rows = m ∧ (Hn.slice l).cols = m) ∧
      ∀ l < Ho.size, ∀ D : Mat ℝ, Spec.pairing m (Hn.slice l) D = Spec.pairing m (Ho.slice l) D + (pair H (sub D.get idx) + ll1 l * pair Hl (sub D.get idx)) := by
  have key : ∀ k, k ≤ Ho.size → ∃ Hn : Cube, (List.range k).foldlM (fun (C : Cube) l => scatterMat (C.slice l) idx (H + ll1 l • Hl) >>= fun M => Res.ok (C.set l M)) Ho = .ok Hn ∧
      Hn.size = Ho.size ∧ (∀ l < Ho.size, (Hn.slice l).rows = m ∧ (Hn.slice l).cols = m) ∧ (∀ l, k ≤ l → Hn.slice l = Ho.slice l) ∧
      ∀ l < k, ∀ D : Mat ℝ, Spec.pairing m (Hn.slice l) D = Spec.pairing m (Ho.slice l) D + (pair H (sub D.get idx) + ll1 l * pair Hl (sub D.get idx)) := by
    intro k
    induction k with
    | zero => intro _; exact ⟨Ho, rfl, rfl, hr, fun _ _ => rfl, fun l hl => absurd hl (by omega)⟩
    | succ k ih =>
      intro hk
      obtain ⟨C, hC, hs, hrc, hsame, hp⟩ := ih (by omega)
      obtain ⟨M, hM, hMr, hMc, -, hMp⟩ := scatterMat_ok m (C.slice k) (hrc k (by omega)).1 (hrc k (by omega)).2 idx hidx (H + ll1 k • Hl)
      refine ⟨C.set k M, ?_, hs, ?_, ?_, ?_⟩
      · rw [List.range_succ, List.foldlM_append, hC, Res.ok_bind, List.foldlM_cons, hM]
        rfl
      · intro l hl
        simp only [Cube.set]
        split_ifs
        · exact ⟨hMr, hMc⟩
        · exact hrc l hl
      · intro l hl
        simp only [Cube.set]
        rw [if_neg (by omega)]
        exact hsame l (by omega)
      · intro l hl D
        simp only [Cube.set]
        split_ifs with h
        · subst h
          rw [hMp, hsame l le_rfl, pair_add, pair_smul]
        · exact hp l (by omega) D
  obtain ⟨Hn, h1, h2, h3, -, h5⟩ := key Ho.size le_rfl
  exact ⟨Hn, h1, h2, h3, h5⟩

theorem cubePairing_scatter {m : Nat} {Ho Hn : Cube} (idx : List Nat) {H Hl : Matrix (Fin idx.length) (Fin idx.length) ℝ} (hs : Hn.size = Ho.size)
    (h : ∀ l < Ho.size, ∀ D : Mat ℝ, Spec.pairing m (Hn.slice l) D = Spec.pairing m (Ho.slice l) D + (pair H (sub D.get idx) + ll1 l * pair Hl (sub D.get idx))) (D : Cube) :
    Spec.cubePairing m Hn D = Spec.cubePairing m Ho D + ∑ l ∈ Finset.range Ho.size, (pair H (sub (D.slice l).get idx) + ll1 l * pair Hl (sub (D.slice l).get idx)) := by
  unfold Spec.cubePairing
  rw [hs, ← Finset.sum_add_distrib]
  exact Finset.sum_congr rfl fun l hl => h l (Finset.mem_range.1 hl) _

/-! ### The density -/

section density
variable {S : Spec.Shells} {idx : List Nat}

theorem total_form (S : Spec.Shells) (idx : List Nat) (u v : Fin idx.length → ℝ) : rform (total S idx) u v = ∑ l ∈ Finset.range S.L, Spec.sform (S.D l) idx u v := by
  rw [total, rform_sum]; rfl

theorem totall_form (S : Spec.Shells) (idx : List Nat) (u v : Fin idx.length → ℝ) : rform (totall S idx) u v = ∑ l ∈ Finset.range S.L, ll1 l * Spec.sform (S.D l) idx u v := by
  rw [totall, rform_sum]
  exact Finset.sum_congr rfl fun l _ => rform_smul _ _ _ _

/-- the shells are symmetric on the functions `idx` -/
def SymOn (S : Spec.Shells) (idx : List Nat) : Prop := ∀ l < S.L, ∀ i ∈ idx, ∀ j ∈ idx, S.D l i j = S.D l j i

theorem symOn_shells {m : Nat} {P : Cube} (hP : Spec.CubeSymm m P) (hidx : ∀ i ∈ idx, i < m) : SymOn (Spec.shells P) idx :=
  fun l hl i hi j hj => (hP.2 l hl).2.2 i (hidx i hi) j (hidx j hj)

theorem sform_comm (hS : SymOn S idx) {l : Nat} (hl : l < S.L) (u v : Fin idx.length → ℝ) : Spec.sform (S.D l) idx u v = Spec.sform (S.D l) idx v u := by
  unfold Spec.sform
  rw [Finset.sum_comm]
  refine Finset.sum_congr rfl fun i _ => Finset.sum_congr rfl fun j _ => ?_
  rw [hS l hl idx[j] (List.getElem_mem _) idx[i] (List.getElem_mem _)]
  ring

theorem total_comm (hS : SymOn S idx) (u v : Fin idx.length → ℝ) : rform (total S idx) u v = rform (total S idx) v u := by
  rw [total_form, total_form]
  exact Finset.sum_congr rfl fun l hl => sform_comm hS (Finset.mem_range.1 hl) u v

/-- the stored functions at a point -/
noncomputable def spoint (e : SadElem) (p : Fin e.npt) : Spec.SPoint := Spec.sadPoint e p

variable (e : SadElem) (p : Fin e.npt)

theorem srho_eq (S : Spec.Shells) : rform (total S e.idx) (fun i => e.bfᵀ i p) (fun i => e.bfᵀ i p) = S.rho (Spec.sadPoint e p) := total_form _ _ _ _

theorem sdrho_eq (S : Spec.Shells) : rform (total S e.idx) (fun i => e.dfᵀ i p) (fun i => e.bfᵀ i p) + rform (total S e.idx) (fun i => e.bfᵀ i p) (fun i => e.dfᵀ i p) =
    S.drho (Spec.sadPoint e p) := by
  rw [total_form, total_form, ← Finset.sum_add_distrib]
  rfl

theorem sddrho_eq (S : Spec.Shells) : rform (total S e.idx) (fun i => e.lfᵀ i p) (fun i => e.bfᵀ i p) + 2 * rform (total S e.idx) (fun i => e.dfᵀ i p) (fun i => e.dfᵀ i p) +
    rform (total S e.idx) (fun i => e.bfᵀ i p) (fun i => e.lfᵀ i p) = S.ddrho (Spec.sadPoint e p) := by
  rw [total_form, total_form, total_form, Finset.mul_sum, ← Finset.sum_add_distrib, ← Finset.sum_add_distrib]
  rfl

theorem stau_eq (S : Spec.Shells) : 1 / 2 * (rform (total S e.idx) (fun i => e.dfᵀ i p) (fun i => e.dfᵀ i p) +
    rform (totall S e.idx) (fun i => e.bfᵀ i p) (fun i => e.bfᵀ i p) / (e.r p * e.r p)) = S.tau (Spec.sadPoint e p) := by
  rw [total_form, totall_form, Finset.sum_div, ← Finset.sum_add_distrib, Spec.Shells.tau]
  congr 1
  refine Finset.sum_congr rfl fun l _ => ?_
  simp only [Spec.sadPoint, ll1, Matrix.transpose_apply]
  push_cast
  have : (fun i => e.bf p i) = e.bf p := rfl
  ring

/-- the centrifugal part is not negative -/
def CentOK (S : Spec.Shells) (e : SadElem) : Prop := ∀ p, 0 ≤ rform (totall S e.idx) (fun i => e.bfᵀ i p) (fun i => e.bfᵀ i p)

theorem centOK_psd {m : Nat} {P : Cube} (h : Spec.CubePSD m P) (e : SadElem) (hidx : ∀ i ∈ e.idx, i < m) : CentOK (Spec.shells P) e := by
  intro p
  rw [totall_form]
  refine Finset.sum_nonneg fun l hl => mul_nonneg (by unfold ll1; positivity) ?_
  have := h l (Finset.mem_range.1 hl) fun i => ∑ a : Fin e.idx.length, if i = e.idx[a] then e.bf p a else 0
  refine le_of_le_of_eq this ?_
  have pick : ∀ (a : Fin e.idx.length) (G : Nat → ℝ), ∑ i ∈ Finset.range m, (if i = e.idx[a] then G i else 0) = G e.idx[a] := by
    intro a G
    rw [Finset.sum_ite_eq' (Finset.range m) e.idx[a] G]
    exact if_pos (Finset.mem_range.2 (hidx _ (List.getElem_mem _)))
  have e1 : ∀ (G : Nat → ℝ), ∑ i ∈ Finset.range m, G i * (∑ a : Fin e.idx.length, if i = e.idx[a] then e.bf p a else 0) = ∑ a : Fin e.idx.length, G e.idx[a] * e.bf p a := by
    intro G
    simp only [Finset.mul_sum]
    rw [Finset.sum_comm]
    refine Finset.sum_congr rfl fun a _ => ?_
    rw [← pick a fun i => G i * e.bf p a]
    refine Finset.sum_congr rfl fun i _ => ?_
    split_ifs <;> simp
  have e2 : ∀ i, ∑ j ∈ Finset.range m, (P.slice l).get i j * ((∑ a : Fin e.idx.length, if i = e.idx[a] then e.bf p a else 0) * (∑ a : Fin e.idx.length, if j = e.idx[a] then e.bf p a else 0)) =
      (∑ b : Fin e.idx.length, (P.slice l).get i e.idx[b] * e.bf p b) * (∑ a : Fin e.idx.length, if i = e.idx[a] then e.bf p a else 0) := by
    intro i
    rw [← e1 fun j => (P.slice l).get i j, Finset.sum_mul]
    exact Finset.sum_congr rfl fun j _ => by ring
  simp only [e2]
  rw [e1 fun i => ∑ b : Fin e.idx.length, (P.slice l).get i e.idx[b] * e.bf p b]
  unfold Spec.sform Spec.shells
  refine Finset.sum_congr rfl fun a _ => ?_
  rw [Finset.sum_mul]
  refine Finset.sum_congr rfl fun b _ => ?_
  simp only [Matrix.transpose_apply]
  ring

end density

section dens
variable {fl : Flags} (hfl : fl.tau = true ∨ fl.lapl = true → fl.grad = true) (e : SadElem) {S : Spec.Shells} (hS : SymOn S e.idx)
include hS

theorem sadGrad_eq (p : Fin e.npt) : sadGrad (total S e.idx) e.bfᵀ e.dfᵀ p = S.drho (Spec.sadPoint e p) := by
  rw [sadGrad, quad_rform, ← sdrho_eq, total_comm hS (fun i => e.bfᵀ i p)]
  ring

omit hS in
include hfl in
theorem sadTau_ok (hc : CentOK S e) : ∃ ta, sadTau fl.tau (total S e.idx) (totall S e.idx) (sadBf fl e) = .ok ta ∧ (fl.tau = true → ta = some fun p => S.tau (Spec.sadPoint e p)) := by
  unfold sadTau
  by_cases h : fl.tau = true
  · have hg : (sadBf fl e).g = some e.dfᵀ := by simp [sadBf, hfl (Or.inl h)]
    rw [if_pos h, hg]
    refine ⟨_, rfl, fun _ => ?_⟩
    congr 1
    funext p
    rw [← stau_eq, quad_rform, quad_rform]
    simp only [sadBf]
    rw [max_eq_left (div_nonneg (hc p) (mul_self_nonneg _))]
    norm_num
  · rw [if_neg h]
    exact ⟨_, rfl, fun h' => absurd h' h⟩

include hfl in
theorem sadLapl_ok : ∃ la, sadLapl fl.lapl (total S e.idx) (sadBf fl e) = .ok la ∧ (fl.lapl = true → la = some fun p => S.lapl (Spec.sadPoint e p)) := by
  unfold sadLapl
  by_cases h : fl.lapl = true
  · have hg : (sadBf fl e).g = some e.dfᵀ := by simp [sadBf, hfl (Or.inr h)]
    have hl : (sadBf fl e).l = some e.lfᵀ := by simp [sadBf, h]
    rw [if_pos h, hg, hl]
    refine ⟨_, rfl, fun _ => ?_⟩
    congr 1
    funext p
    rw [Spec.Shells.lapl, ← sddrho_eq, ← sdrho_eq]
    simp only [quad_rform, sadBf]
    rw [total_comm hS (fun i => e.bfᵀ i p) fun i => e.lfᵀ i p, total_comm hS (fun i => e.bfᵀ i p) fun i => e.dfᵀ i p]
    simp only [Spec.sadPoint]
    ring
  · rw [if_neg h]
    exact ⟨_, rfl, fun h' => absurd h' h⟩

end dens

theorem sadDensity1_ok {fl : Flags} (hfl : fl.tau = true ∨ fl.lapl = true → fl.grad = true) {m : Nat} {P : Cube} (hP : Spec.CubeSymm m P) (hpsd : Spec.CubePSD m P) (e : SadElem)
    (hidx : ∀ i ∈ e.idx, i < m) : ∃ q, sadDensity1 fl P e.idx (sadBf fl e) = .ok q ∧ HoldsQ fl q (fun p => (Spec.shells P).input (Spec.sadPoint e p)) ∧
      (fl.grad = true → q.grho = some fun _ p => (Spec.shells P).drho (Spec.sadPoint e p)) := by
  have hS := symOn_shells hP hidx
  obtain ⟨ta, h2, h2'⟩ := sadTau_ok hfl e (centOK_psd hpsd e hidx)
  obtain ⟨la, h3, h3'⟩ := sadLapl_ok hfl e hS
  have hrho : quad (total (Spec.shells P) e.idx) e.bfᵀ e.bfᵀ = fun p => (Spec.shells P).rho (Spec.sadPoint e p) := by
    funext p
    rw [quad_rform, srho_eq]
  unfold sadDensity1
  rw [sadGather_ok hP hidx, Res.ok_bind]
  by_cases h : fl.grad = true
  · have hg : (sadBf fl e).g = some e.dfᵀ := by simp [sadBf, h]
    rw [if_pos h, hg]
    simp only [need, Res.ok_bind, h2, h3]
    refine ⟨_, rfl, ⟨hrho, fun _ => ?_, h2', h3'⟩, fun _ => ?_⟩
    · simp only [Option.map_some, Spec.Shells.input]
      congr 1
      funext p
      have := sadGrad_eq e hS p
      simp only [sadBf, this]
      ring
    · simp only [Option.map_some]
      congr 1
      funext _ p
      exact sadGrad_eq e hS p
  · rw [if_neg h]
    simp only [Res.ok_bind, h2, h3]
    exact ⟨_, rfl, ⟨hrho, fun h' => absurd h' h, h2', h3'⟩, fun h' => absurd h' h⟩

theorem sadDensity2_ok {fl : Flags} (hfl : fl.tau = true ∨ fl.lapl = true → fl.grad = true) {m : Nat} {A B : Cube} (hA : Spec.CubeSymm m A) (hAp : Spec.CubePSD m A)
    (hB : Spec.CubeSymm m B) (hBp : Spec.CubePSD m B) (e : SadElem) (hidx : ∀ i ∈ e.idx, i < m) :
    ∃ q, sadDensity2 fl A B e.idx (sadBf fl e) = .ok q ∧ HoldsQ2 fl q (fun p => Spec.sinputs (Spec.shells A) (Spec.shells B) (Spec.sadPoint e p)) ∧
      (fl.grad = true → q.grho = some (fun _ p => (Spec.shells A).drho (Spec.sadPoint e p), fun _ p => (Spec.shells B).drho (Spec.sadPoint e p))) := by
  have hSA := symOn_shells hA hidx
  have hSB := symOn_shells hB hidx
  obtain ⟨ta, h2, h2'⟩ := sadTau_ok hfl e (centOK_psd hAp e hidx)
  obtain ⟨la, h3, h3'⟩ := sadLapl_ok hfl e hSA
  obtain ⟨tb, h4, h4'⟩ := sadTau_ok hfl e (centOK_psd hBp e hidx)
  obtain ⟨lb, h5, h5'⟩ := sadLapl_ok hfl e hSB
  have hrho : ∀ P : Cube, quad (total (Spec.shells P) e.idx) e.bfᵀ e.bfᵀ = fun p => (Spec.shells P).rho (Spec.sadPoint e p) := by
    intro P
    funext p
    rw [quad_rform, srho_eq]
  have htau : fl.tau = true → pairUp ta tb = some (fun p => (Spec.shells A).tau (Spec.sadPoint e p), fun p => (Spec.shells B).tau (Spec.sadPoint e p)) := by
    intro h; rw [h2' h, h4' h]; rfl
  have hlap : fl.lapl = true → pairUp la lb = some (fun p => (Spec.shells A).lapl (Spec.sadPoint e p), fun p => (Spec.shells B).lapl (Spec.sadPoint e p)) := by
    intro h; rw [h3' h, h5' h]; rfl
  unfold sadDensity2
  rw [if_neg (by have := hA.1; have := hB.1; omega), sadGather_ok hA hidx, Res.ok_bind, sadGather_ok hB hidx, Res.ok_bind]
  by_cases h : fl.grad = true
  · have hg : (sadBf fl e).g = some e.dfᵀ := by simp [sadBf, h]
    rw [if_pos h, hg]
    simp only [need, Res.ok_bind, h2, h3, h4, h5]
    have ga : ∀ p, sadGrad (total (Spec.shells A) e.idx) (sadBf fl e).f e.dfᵀ p = (Spec.shells A).drho (Spec.sadPoint e p) := sadGrad_eq e hSA
    have gb : ∀ p, sadGrad (total (Spec.shells B) e.idx) (sadBf fl e).f e.dfᵀ p = (Spec.shells B).drho (Spec.sadPoint e p) := sadGrad_eq e hSB
    refine ⟨_, rfl, ⟨hrho A, hrho B, fun _ => ?_, htau, hlap⟩, fun _ => ?_⟩
    · simp only [Option.map_some, Spec.sinputs, ga, gb, pow_two]
    · simp only [Option.map_some]
      congr 2
      · funext _ p; exact ga p
      · funext _ p; exact gb p
  · rw [if_neg h]
    simp only [Res.ok_bind, h2, h3, h4, h5]
    exact ⟨_, rfl, ⟨hrho A, hrho B, fun h' => absurd h' h, htau, hlap⟩, fun h' => absurd h' h⟩

/-! ### The potential matrices -/

/-- **One spin channel**: what the matrices contract to, shell by shell. `s` is the gradient of the energy density with respect to the density gradient. -/
theorem sadChannel_ok {fl : Flags} {u : Spec.Uses} (hcov : Covers fl u) (hu : u.tau = true ∨ u.lapl = true → u.grad = true) (e : SadElem) (hr : ∀ p, e.r p ≠ 0)
    {vrho s vt vl : Fin e.npt → ℝ} {gn : Res (Fin e.npt → ℝ)} {vtau vlapl : Buf e.npt}
    (hs : u.grad = true → gn = .ok fun p => (sadBf fl e).w p * s p) (ht : u.tau = true → vtau = some vt) (hl : u.lapl = true → vlapl = some vl)
    (hs0 : u.grad = false → ∀ p, s p = 0) (ht0 : u.tau = false → ∀ p, vt p = 0) (hl0 : u.lapl = false → ∀ p, vl p = 0) :
    ∃ H, sadChannel u.grad u.tau u.lapl (sadBf fl e) vrho gn vtau vlapl = .ok H ∧ ∀ D : Spec.Shells,
      ∑ l ∈ Finset.range D.L, (pair H.1 (sub (D.D l) e.idx) + ll1 l * pair H.2 (sub (D.D l) e.idx)) =
        ∑ p, (Spec.sadPoint e p).w * (vrho p * D.rho (Spec.sadPoint e p) + s p * D.drho (Spec.sadPoint e p) + vl p * D.lapl (Spec.sadPoint e p) + vt p * D.tau (Spec.sadPoint e p)) := by
  -- the gradient part
  have h1 : ∃ H, sadGga u.grad u.lapl (sadBf fl e) gn vlapl (incLda 0 (fun p => vrho p * (sadBf fl e).w p) e.bfᵀ) = .ok H ∧ ∀ D : Matrix (Fin e.idx.length) (Fin e.idx.length) ℝ,
      pair H D = ∑ p, (vrho p * (sadBf fl e).w p * rform D (fun i => e.bfᵀ i p) (fun i => e.bfᵀ i p) +
        ((sadBf fl e).w p * s p + 2 * vl p * e.r p * (e.wrad p * 4 * Real.pi)) * (rform D (fun i => e.dfᵀ i p) (fun i => e.bfᵀ i p) + rform D (fun i => e.bfᵀ i p) fun i => e.dfᵀ i p)) := by
    unfold sadGga
    by_cases h : u.grad = true
    · have hg : (sadBf fl e).g = some e.dfᵀ := by simp [sadBf, hcov.1 h]
      rw [if_pos h, hs h, hg, Res.ok_bind, needIf_ok hl]
      simp only [need, Res.ok_bind]
      refine ⟨_, rfl, fun D => ?_⟩
      have hf : (sadBf fl e).f = e.bfᵀ := rfl
      rw [hf, pair_ggaReal, pair_lda, pair_zero, zero_add, ← Finset.sum_add_distrib]
      refine Finset.sum_congr rfl fun p _ => ?_
      congr 2
      by_cases hll : u.lapl = true
      · simp only [hll, if_true, sadBf]
      · rw [hl0 (by simpa using hll) p]
        simp only [hll]
        simp
    · have hg' : u.grad = false := by simpa using h
      have hlf : u.lapl = false := by
        rcases hb : u.lapl with _ | _
        · rfl
        · exact absurd (hu (Or.inr hb)) h
      rw [if_neg h]
      refine ⟨_, rfl, fun D => ?_⟩
      rw [pair_lda, pair_zero, zero_add]
      refine Finset.sum_congr rfl fun p _ => ?_
      rw [hs0 hg' p, hl0 hlf p]
      ring
  obtain ⟨H1, e1, p1⟩ := h1
  have hw := vtlWeights_ok (sadBf fl e).w u.tau u.lapl vtau vlapl vt vl ht hl ht0 hl0
  have h2 : ∃ H, sadKin (u.tau || u.lapl) (sadBf fl e) (vtlWeights (sadBf fl e).w u.tau u.lapl vtau vlapl) H1 = .ok H ∧ ∀ D : Matrix (Fin e.idx.length) (Fin e.idx.length) ℝ,
      pair H D = pair H1 D + ∑ p, (1 / 2 * vt p + 2 * vl p) * (sadBf fl e).w p * rform D (fun i => e.dfᵀ i p) fun i => e.dfᵀ i p := by
    unfold sadKin
    by_cases h : (u.tau || u.lapl) = true
    · have hg : (sadBf fl e).g = some e.dfᵀ := by simp [sadBf, hcov.1 (hu (by simpa using h))]
      rw [if_pos h, hw, hg]
      exact ⟨_, rfl, fun D => pair_lda _ _ _ _⟩
    · rw [if_neg h]
      refine ⟨_, rfl, fun D => ?_⟩
      simp only [Bool.or_eq_true, not_or, Bool.not_eq_true] at h
      simp [ht0 h.1, hl0 h.2]
  obtain ⟨H2, e2, p2⟩ := h2
  have h3 : ∃ H, sadCent u.tau (sadBf fl e) vtau = .ok H ∧ ∀ D : Matrix (Fin e.idx.length) (Fin e.idx.length) ℝ,
      pair H D = ∑ p, vt p * (1 / 2 * e.wrad p * 4 * Real.pi) * rform D (fun i => e.bfᵀ i p) fun i => e.bfᵀ i p := by
    unfold sadCent
    by_cases h : u.tau = true
    · rw [if_pos h, ht h]
      refine ⟨_, rfl, fun D => ?_⟩
      rw [pair_lda, pair_zero, zero_add]
      refine Finset.sum_congr rfl fun p _ => ?_
      simp only [sadBf]
      norm_num
    · rw [if_neg h]
      refine ⟨_, rfl, fun D => ?_⟩
      simp [ht0 (by simpa using h), pair_zero]
  obtain ⟨H3, e3, p3⟩ := h3
  have h4 : ∃ H, sadLaplStep u.lapl (sadBf fl e) vlapl H2 = .ok H ∧ ∀ D : Matrix (Fin e.idx.length) (Fin e.idx.length) ℝ,
      pair H D = pair H2 D + ∑ p, vl p * (sadBf fl e).w p * (rform D (fun i => e.lfᵀ i p) (fun i => e.bfᵀ i p) + rform D (fun i => e.bfᵀ i p) fun i => e.lfᵀ i p) := by
    unfold sadLaplStep
    by_cases h : u.lapl = true
    · have hg : (sadBf fl e).l = some e.lfᵀ := by simp [sadBf, hcov.2.2 h]
      rw [if_pos h, hl h, hg]
      exact ⟨_, rfl, fun D => pair_lapl _ _ _ _ _⟩
    · rw [if_neg h]
      refine ⟨_, rfl, fun D => ?_⟩
      simp [hl0 (by simpa using h)]
  obtain ⟨H4, e4, p4⟩ := h4
  refine ⟨(H4, H3), ?_, fun D => ?_⟩
  · unfold sadChannel
    have hf : (sadBf fl e).f = e.bfᵀ := rfl
    rw [hf, e1, Res.ok_bind, e2, Res.ok_bind, e3, Res.ok_bind, e4, Res.ok_bind]
  · simp only [p4, p3, p2, p1, ← Finset.sum_add_distrib, Finset.mul_sum]
    rw [Finset.sum_comm]
    refine Finset.sum_congr rfl fun p _ => ?_
    have hrp := hr p
    have er := (total_form D e.idx (fun i => e.bfᵀ i p) fun i => e.bfᵀ i p)
    rw [Spec.Shells.lapl, ← srho_eq, ← sddrho_eq, ← sdrho_eq, ← stau_eq]
    simp only [total_form, totall_form, rform_sub, Spec.sadPoint, sadBf]
    simp only [mul_add, Finset.mul_sum, Finset.sum_div, ← Finset.sum_add_distrib]
    refine Finset.sum_congr rfl fun l _ => ?_
    field_simp
    ring

end XC
end HelFEM
