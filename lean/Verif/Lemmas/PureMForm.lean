import Verif.Lemmas.PureMXC

/-!
# Densities of the grid without azimuthal quadrature as sums over blocks
-/

namespace HelFEM
namespace XC

open Matrix

/-! ### Real and imaginary functions -/

theorem form_real (D : Nat → Nat → ℝ) (idx : List Nat) (u v : Fin idx.length → ℝ) : Spec.form D idx (fun a => (u a : ℂ)) (fun b => (v b : ℂ)) = rform (sub D idx) u v := by
  unfold Spec.form rform
  refine Finset.sum_congr rfl fun a _ => Finset.sum_congr rfl fun b _ => ?_
  rw [Complex.conj_ofReal, ← Complex.ofReal_mul, Complex.ofReal_re]
  rfl

theorem form_imag (D : Nat → Nat → ℝ) (idx : List Nat) (u v : Fin idx.length → ℝ) :
    Spec.form D idx (fun a => Complex.I * (u a : ℂ)) (fun b => Complex.I * (v b : ℂ)) = rform (sub D idx) u v := by
  unfold Spec.form rform
  refine Finset.sum_congr rfl fun a _ => Finset.sum_congr rfl fun b _ => ?_
  simp [sub]

theorem form_ir (D : Nat → Nat → ℝ) (idx : List Nat) (u v : Fin idx.length → ℝ) : Spec.form D idx (fun a => Complex.I * (u a : ℂ)) (fun b => (v b : ℂ)) = 0 := by
  unfold Spec.form
  refine Finset.sum_eq_zero fun a _ => Finset.sum_eq_zero fun b _ => ?_
  simp

theorem form_ri (D : Nat → Nat → ℝ) (idx : List Nat) (u v : Fin idx.length → ℝ) : Spec.form D idx (fun a => (u a : ℂ)) (fun b => Complex.I * (v b : ℂ)) = 0 := by
  unfold Spec.form
  refine Finset.sum_eq_zero fun a _ => Finset.sum_eq_zero fun b _ => ?_
  simp

theorem rform_scale {n : Nat} (X : Matrix (Fin n) (Fin n) ℝ) (c d : ℝ) (u v : Fin n → ℝ) : rform X (fun a => c * u a) (fun b => d * v b) = c * d * rform X u v := by
  unfold rform
  simp only [Finset.mul_sum]
  exact Finset.sum_congr rfl fun i _ => Finset.sum_congr rfl fun j _ => by ring

theorem lsum_add {α : Type} (l : List α) (f g : α → ℝ) : (l.map fun a => f a + g a).sum = (l.map f).sum + (l.map g).sum := List.sum_map_add

theorem lsum_mul {α : Type} (l : List α) (c : ℝ) (f : α → ℝ) : (l.map fun a => c * f a).sum = c * (l.map f).sum := List.sum_map_mul_left l f c

section blocks
variable (lm : List (Int × Int)) (nrad : Nat) (e : PmPoint)

/-- contraction over one block -/
def bform (m : Int) (D : Nat → Nat → ℝ) (u v : Nat → ℝ) : ℝ :=
  rform (sub D (Dia.bfListDummyM lm nrad e.first e.last m)) (fun a => u (Dia.bfListDummyM lm nrad e.first e.last m)[a]) fun b => v (Dia.bfListDummyM lm nrad e.first e.last m)[b]

theorem unique_nodup : (Sym.uniqueM lm).Nodup := (Sym.unique_sorted lm).imp fun h => ne_of_lt h

theorem mOf_mem {k : Nat} (hf : e.first ≤ e.last) (hl : e.last < nrad) (hk : k ∈ Dia.bfListDummy lm nrad e.first e.last) : Spec.mOf lm nrad k ∈ Sym.uniqueM lm := by
  simp only [Dia.bfListDummy, List.mem_flatMap, List.mem_map, List.mem_range] at hk
  obtain ⟨i, hi, j, hj, rfl⟩ := hk
  refine (Sym.mem_unique lm _).2 ⟨lm[i], List.getElem_mem _, ?_⟩
  have hz : (nrad * i + e.first + j) / nrad = i := by
    have h0 : (e.first + j) / nrad = 0 := Nat.div_eq_of_lt (by omega)
    rw [add_assoc, Nat.mul_add_div (by omega), h0, add_zero]
  rw [Spec.mOf, hz, List.getD_eq_getElem?_getD, List.getElem?_eq_getElem hi]
  rfl

theorem form_blocks (hf : e.first ≤ e.last) (hl : e.last < nrad) (D : Nat → Nat → ℝ) (u v : Nat → ℝ) :
    rform (sub (bd lm nrad D) (Dia.bfListDummy lm nrad e.first e.last)) (fun a => u (Dia.bfListDummy lm nrad e.first e.last)[a]) (fun b => v (Dia.bfListDummy lm nrad e.first e.last)[b]) =
      ((Sym.uniqueM lm).map fun m => bform lm nrad e m D u v).sum := by
  have h := sum_blocks (Spec.mOf lm nrad) (Dia.bfListDummy lm nrad e.first e.last) (Sym.uniqueM lm) (unique_nodup lm) (fun k hk => mOf_mem lm nrad e hf hl hk) fun k k' => D k k' * (u k * v k')
  have e1 : rform (sub (bd lm nrad D) (Dia.bfListDummy lm nrad e.first e.last)) (fun a => u (Dia.bfListDummy lm nrad e.first e.last)[a]) (fun b => v (Dia.bfListDummy lm nrad e.first e.last)[b]) =
      ∑ a : Fin (Dia.bfListDummy lm nrad e.first e.last).length, ∑ b : Fin (Dia.bfListDummy lm nrad e.first e.last).length,
        (if Spec.mOf lm nrad (Dia.bfListDummy lm nrad e.first e.last)[a] = Spec.mOf lm nrad (Dia.bfListDummy lm nrad e.first e.last)[b] then
          D (Dia.bfListDummy lm nrad e.first e.last)[a] (Dia.bfListDummy lm nrad e.first e.last)[b] * (u (Dia.bfListDummy lm nrad e.first e.last)[a] * v (Dia.bfListDummy lm nrad e.first e.last)[b])
        else 0) := by
    unfold rform
    refine Finset.sum_congr rfl fun a _ => Finset.sum_congr rfl fun b _ => ?_
    simp only [sub, bd, Matrix.of_apply]
    split_ifs
    · rfl
    · rw [zero_mul]
  rw [e1, h]
  refine congrArg List.sum (List.map_congr_left fun m _ => ?_)
  have hsub : ∀ l1 l2 : List Nat, l1 = l2 → (∑ a : Fin l1.length, ∑ b : Fin l1.length, D l1[a] l1[b] * (u l1[a] * v l1[b])) = rform (sub D l2) (fun a => u l2[a]) fun b => v l2[b] := by
    intro l1 l2 h
    subst h
    rfl
  exact hsub _ _ (Dia.C38_bf_list_m lm nrad e.first e.last m hf hl).symm

/-- in a block `m` is a constant -/
theorem bform_m (hf : e.first ≤ e.last) (hl : e.last < nrad) (m : Int) (D : Nat → Nat → ℝ) (c : ℝ) (u v : Nat → ℝ) :
    bform lm nrad e m D (fun k => c * (Spec.mOf lm nrad k * u k)) (fun k => c * (Spec.mOf lm nrad k * v k)) = c * c * (m * m) * bform lm nrad e m D u v := by
  unfold bform
  have h : ∀ (w : Nat → ℝ) (a : Fin (Dia.bfListDummyM lm nrad e.first e.last m).length), c * (Spec.mOf lm nrad (Dia.bfListDummyM lm nrad e.first e.last m)[a] * w (Dia.bfListDummyM lm nrad e.first e.last m)[a]) =
      c * m * w (Dia.bfListDummyM lm nrad e.first e.last m)[a] := by
    intro w a
    have h2 : Spec.mOf lm nrad (Dia.bfListDummyM lm nrad e.first e.last m)[a] = m := (block_row lm nrad e.first e.last m hf hl a a.2).2.1
    rw [h2]
    ring
  simp only [h]
  rw [rform_scale]
  ring

end blocks

section point
variable (lm : List (Int × Int)) (nrad : Nat) (y : Int → Int → ℝ → ℝ) (R : Nat → ℝ → ℝ) (e : PmPoint) (ia : Fin e.nang)

/-- the density of one block -/
noncomputable def bRho (m : Int) (D : Nat → Nat → ℝ) : ℝ := bform lm nrad e m D (kF lm nrad y R e ia) (kF lm nrad y R e ia)
/-- its `μ` and `ν` derivatives, scaled -/
noncomputable def bGrad (m : Int) (D : Nat → Nat → ℝ) (c : Fin 2) : ℝ :=
  (hs e ia)⁻¹ * (bform lm nrad e m D (![kR lm nrad y R e ia, kT lm nrad y R e ia] c) (kF lm nrad y R e ia) + bform lm nrad e m D (kF lm nrad y R e ia) (![kR lm nrad y R e ia, kT lm nrad y R e ia] c))
/-- its kinetic sum -/
noncomputable def bKin (m : Int) (D : Nat → Nat → ℝ) : ℝ :=
  (hs e ia)⁻¹ * (hs e ia)⁻¹ * (bform lm nrad e m D (kR lm nrad y R e ia) (kR lm nrad y R e ia) + bform lm nrad e m D (kT lm nrad y R e ia) (kT lm nrad y R e ia)) +
    (hp e ia)⁻¹ * (hp e ia)⁻¹ * (m * m) * bRho lm nrad y R e ia m D
/-- its Laplacian -/
noncomputable def bLap (m : Int) (D : Nat → Nat → ℝ) : ℝ :=
  bform lm nrad e m D (kL lm nrad y R e ia) (kF lm nrad y R e ia) + bform lm nrad e m D (kF lm nrad y R e ia) (kL lm nrad y R e ia) + 2 * bKin lm nrad y R e ia m D

/-- the point at azimuth zero -/
theorem pmPoint_zero : Spec.pmPoint lm nrad y R 0 e ia =
    { idx := Dia.bfListDummy lm nrad e.first e.last
      w := (Spec.pmPoint lm nrad y R 0 e ia).w
      f := fun a => (kF lm nrad y R e ia (Dia.bfListDummy lm nrad e.first e.last)[a] : ℂ)
      g := ![fun a => (((hs e ia)⁻¹ * kR lm nrad y R e ia (Dia.bfListDummy lm nrad e.first e.last)[a] : ℝ) : ℂ), fun a => (((hs e ia)⁻¹ * kT lm nrad y R e ia (Dia.bfListDummy lm nrad e.first e.last)[a] : ℝ) : ℂ),
        fun a => Complex.I * (((hp e ia)⁻¹ * (Spec.mOf lm nrad (Dia.bfListDummy lm nrad e.first e.last)[a] * kF lm nrad y R e ia (Dia.bfListDummy lm nrad e.first e.last)[a]) : ℝ) : ℂ)]
      l := fun a => (kL lm nrad y R e ia (Dia.bfListDummy lm nrad e.first e.last)[a] : ℂ) } := by
  have hph : ∀ m : Int, Complex.exp (((m * (0 : ℝ) : ℝ) : ℂ) * Complex.I) = 1 := by intro m; simp
  unfold Spec.pmPoint
  simp only [hph, mul_one]
  rfl

variable (hf : e.first ≤ e.last) (hl : e.last < nrad) (D : Nat → Nat → ℝ)
include hf hl

theorem rho_blocks : Spec.rho (bd lm nrad D) (Spec.pmPoint lm nrad y R 0 e ia) = ((Sym.uniqueM lm).map fun m => bRho lm nrad y R e ia m D).sum := by
  rw [pmPoint_zero]
  unfold Spec.rho
  simp only
  rw [form_real, form_blocks lm nrad e hf hl]
  rfl

theorem grad_blocks (c : Fin 2) : Spec.grad (bd lm nrad D) (Spec.pmPoint lm nrad y R 0 e ia) (Fin.castSucc c) = ((Sym.uniqueM lm).map fun m => bGrad lm nrad y R e ia m D c).sum := by
  have key : ∀ g : Nat → ℝ, Spec.form (bd lm nrad D) (Dia.bfListDummy lm nrad e.first e.last) (fun a => (((hs e ia)⁻¹ * g (Dia.bfListDummy lm nrad e.first e.last)[a] : ℝ) : ℂ))
      (fun a => (kF lm nrad y R e ia (Dia.bfListDummy lm nrad e.first e.last)[a] : ℂ)) + Spec.form (bd lm nrad D) (Dia.bfListDummy lm nrad e.first e.last)
      (fun a => (kF lm nrad y R e ia (Dia.bfListDummy lm nrad e.first e.last)[a] : ℂ)) (fun a => (((hs e ia)⁻¹ * g (Dia.bfListDummy lm nrad e.first e.last)[a] : ℝ) : ℂ)) =
      ((Sym.uniqueM lm).map fun m => (hs e ia)⁻¹ * (bform lm nrad e m D g (kF lm nrad y R e ia) + bform lm nrad e m D (kF lm nrad y R e ia) g)).sum := by
    intro g
    have h1 := rform_scale (sub (bd lm nrad D) (Dia.bfListDummy lm nrad e.first e.last)) (hs e ia)⁻¹ 1 (fun a => g (Dia.bfListDummy lm nrad e.first e.last)[a])
      fun b => kF lm nrad y R e ia (Dia.bfListDummy lm nrad e.first e.last)[b]
    have h2 := rform_scale (sub (bd lm nrad D) (Dia.bfListDummy lm nrad e.first e.last)) 1 (hs e ia)⁻¹ (fun a => kF lm nrad y R e ia (Dia.bfListDummy lm nrad e.first e.last)[a])
      fun b => g (Dia.bfListDummy lm nrad e.first e.last)[b]
    simp only [one_mul, mul_one] at h1 h2
    rw [form_real, form_real, h1, h2, form_blocks lm nrad e hf hl, form_blocks lm nrad e hf hl, lsum_mul, lsum_add]
    ring
  rw [pmPoint_zero]
  unfold Spec.grad
  fin_cases c
  · exact key _
  · exact key _

theorem grad_phi : Spec.grad (bd lm nrad D) (Spec.pmPoint lm nrad y R 0 e ia) 2 = 0 := by
  rw [pmPoint_zero]
  unfold Spec.grad
  have h1 := form_ir (bd lm nrad D) (Dia.bfListDummy lm nrad e.first e.last)
    (fun a => (hp e ia)⁻¹ * (Spec.mOf lm nrad (Dia.bfListDummy lm nrad e.first e.last)[a] * kF lm nrad y R e ia (Dia.bfListDummy lm nrad e.first e.last)[a]))
    fun a => kF lm nrad y R e ia (Dia.bfListDummy lm nrad e.first e.last)[a]
  have h2 := form_ri (bd lm nrad D) (Dia.bfListDummy lm nrad e.first e.last) (fun a => kF lm nrad y R e ia (Dia.bfListDummy lm nrad e.first e.last)[a])
    (fun a => (hp e ia)⁻¹ * (Spec.mOf lm nrad (Dia.bfListDummy lm nrad e.first e.last)[a] * kF lm nrad y R e ia (Dia.bfListDummy lm nrad e.first e.last)[a]))
  have h := congrArg₂ (· + ·) h1 h2
  simp only [add_zero] at h
  exact h

theorem kin_blocks : (∑ c : Fin 3, Spec.form (bd lm nrad D) (Spec.pmPoint lm nrad y R 0 e ia).idx ((Spec.pmPoint lm nrad y R 0 e ia).g c) ((Spec.pmPoint lm nrad y R 0 e ia).g c)) =
    ((Sym.uniqueM lm).map fun m => bKin lm nrad y R e ia m D).sum := by
  have key : ∀ g : Nat → ℝ, Spec.form (bd lm nrad D) (Dia.bfListDummy lm nrad e.first e.last) (fun a => (((hs e ia)⁻¹ * g (Dia.bfListDummy lm nrad e.first e.last)[a] : ℝ) : ℂ))
      (fun a => (((hs e ia)⁻¹ * g (Dia.bfListDummy lm nrad e.first e.last)[a] : ℝ) : ℂ)) = ((Sym.uniqueM lm).map fun m => (hs e ia)⁻¹ * (hs e ia)⁻¹ * bform lm nrad e m D g g).sum := by
    intro g
    rw [form_real, rform_scale _ _ _ (fun a => g (Dia.bfListDummy lm nrad e.first e.last)[a]) fun a => g (Dia.bfListDummy lm nrad e.first e.last)[a], form_blocks lm nrad e hf hl, lsum_mul]
  have key2 : Spec.form (bd lm nrad D) (Dia.bfListDummy lm nrad e.first e.last)
      (fun a => Complex.I * (((hp e ia)⁻¹ * (Spec.mOf lm nrad (Dia.bfListDummy lm nrad e.first e.last)[a] * kF lm nrad y R e ia (Dia.bfListDummy lm nrad e.first e.last)[a]) : ℝ) : ℂ))
      (fun a => Complex.I * (((hp e ia)⁻¹ * (Spec.mOf lm nrad (Dia.bfListDummy lm nrad e.first e.last)[a] * kF lm nrad y R e ia (Dia.bfListDummy lm nrad e.first e.last)[a]) : ℝ) : ℂ)) =
      ((Sym.uniqueM lm).map fun m => (hp e ia)⁻¹ * (hp e ia)⁻¹ * (m * m) * bRho lm nrad y R e ia m D).sum := by
    rw [form_imag, form_blocks lm nrad e hf hl D (fun k => (hp e ia)⁻¹ * (Spec.mOf lm nrad k * kF lm nrad y R e ia k)) fun k => (hp e ia)⁻¹ * (Spec.mOf lm nrad k * kF lm nrad y R e ia k)]
    refine congrArg List.sum (List.map_congr_left fun m _ => ?_)
    rw [bform_m lm nrad e hf hl]
    rfl
  rw [pmPoint_zero, Fin.sum_univ_three]
  have h := congrArg₂ (· + ·) (congrArg₂ (· + ·) (key (kR lm nrad y R e ia)) (key (kT lm nrad y R e ia))) key2
  refine Eq.trans h ?_
  beta_reduce
  rw [← lsum_add, ← lsum_add]
  refine congrArg List.sum (List.map_congr_left fun m _ => ?_)
  unfold bKin
  ring

theorem tau_blocks : Spec.tau (bd lm nrad D) (Spec.pmPoint lm nrad y R 0 e ia) = ((Sym.uniqueM lm).map fun m => 1 / 2 * bKin lm nrad y R e ia m D).sum := by
  unfold Spec.tau
  rw [kin_blocks lm nrad y R e ia hf hl, lsum_mul]

theorem lapl_blocks : Spec.lapl (bd lm nrad D) (Spec.pmPoint lm nrad y R 0 e ia) = ((Sym.uniqueM lm).map fun m => bLap lm nrad y R e ia m D).sum := by
  unfold Spec.lapl
  rw [kin_blocks lm nrad y R e ia hf hl]
  have h1 : Spec.form (bd lm nrad D) (Spec.pmPoint lm nrad y R 0 e ia).idx (Spec.pmPoint lm nrad y R 0 e ia).l (Spec.pmPoint lm nrad y R 0 e ia).f =
      ((Sym.uniqueM lm).map fun m => bform lm nrad e m D (kL lm nrad y R e ia) (kF lm nrad y R e ia)).sum := by
    rw [pmPoint_zero]
    exact (form_real _ _ _ _).trans (form_blocks lm nrad e hf hl _ _ _)
  have h2 : Spec.form (bd lm nrad D) (Spec.pmPoint lm nrad y R 0 e ia).idx (Spec.pmPoint lm nrad y R 0 e ia).f (Spec.pmPoint lm nrad y R 0 e ia).l =
      ((Sym.uniqueM lm).map fun m => bform lm nrad e m D (kF lm nrad y R e ia) (kL lm nrad y R e ia)).sum := by
    rw [pmPoint_zero]
    exact (form_real _ _ _ _).trans (form_blocks lm nrad e hf hl _ _ _)
  rw [h1, h2, ← lsum_mul, ← lsum_add, ← lsum_add]
  refine congrArg List.sum (List.map_congr_left fun m _ => ?_)
  unfold bLap
  ring

end point

/-! ### Mirror images -/

section mirror
variable {lm : List (Int × Int)} {nrad : Nat} {y : Int → Int → ℝ → ℝ} {R : Nat → ℝ → ℝ} {e : PmPoint} (hS : Spec.Sampled nrad y R e) (hy : Spec.Harmonics y) (hang : Spec.Angular lm)
  (hpair : Spec.Paired lm) {m : Int} (hlen : (Dia.bfListDummyM lm nrad e.first e.last (-m)).length = (Dia.bfListDummyM lm nrad e.first e.last m).length)

include hS hpair in
/-- rows with the same position in mirror images -/
theorem row_flip (a : Fin (Dia.bfListDummyM lm nrad e.first e.last (-m)).length) :
    Spec.Flip lm nrad (Dia.bfListDummyM lm nrad e.first e.last m)[Fin.cast hlen a] (Dia.bfListDummyM lm nrad e.first e.last (-m))[a] := by
  obtain ⟨h1, h2, h3, -⟩ := block_row lm nrad e.first e.last (-m) hS.first hS.last a a.2
  obtain ⟨g1, g2, g3, -⟩ := block_row lm nrad e.first e.last m hS.first hS.last (Fin.cast hlen a) (Fin.cast hlen a).2
  have hls : Spec.lsOf lm (-m) = Spec.lsOf lm m := by
    refine hpair m ?_
    rw [block_length, block_length] at hlen
    exact Nat.eq_of_mul_eq_mul_right (by omega) hlen
  refine ⟨?_, ?_, ?_⟩
  · refine h1.trans (Eq.trans ?_ g1.symm)
    rw [pmShells_eq, pmShells_eq, hls]
    rfl
  · exact h2.trans (congrArg Neg.neg g2.symm)
  · exact h3.trans g3.symm

theorem rform_cast {n k : Nat} (h : k = n) (X : Matrix (Fin k) (Fin k) ℝ) (u v : Fin n → ℝ) :
    rform (X.submatrix (Fin.cast h.symm) (Fin.cast h.symm)) u v = rform X (fun a => u (Fin.cast h a)) fun b => v (Fin.cast h b) := by
  subst h
  rfl

theorem pair_cast {n k : Nat} (h : k = n) (H : Matrix (Fin n) (Fin n) ℝ) (X : Matrix (Fin k) (Fin k) ℝ) :
    pair (H.submatrix (Fin.cast h) (Fin.cast h)) X = pair H (X.submatrix (Fin.cast h.symm) (Fin.cast h.symm)) := by
  subst h
  rfl

include hS hy hang hpair hlen in
/-- a contraction over the mirror image, with the functions of the block itself -/
theorem bform_flip (ia : Fin e.nang) (u v : Nat → ℝ)
    (hu : ∀ k k', |Spec.mOf lm nrad k| ≤ Spec.lOf lm nrad k → Spec.Flip lm nrad k k' → ∃ σ : ℝ, σ * σ = 1 ∧ σ = (-1) ^ (Spec.mOf lm nrad k).natAbs ∧ u k' = σ * u k)
    (hv : ∀ k k', |Spec.mOf lm nrad k| ≤ Spec.lOf lm nrad k → Spec.Flip lm nrad k k' → ∃ σ : ℝ, σ * σ = 1 ∧ σ = (-1) ^ (Spec.mOf lm nrad k).natAbs ∧ v k' = σ * v k) (X : Matrix (Fin (Dia.bfListDummyM lm nrad e.first e.last (-m)).length) (Fin (Dia.bfListDummyM lm nrad e.first e.last (-m)).length) ℝ) :
    rform (X.submatrix (Fin.cast hlen.symm) (Fin.cast hlen.symm)) (fun a => u (Dia.bfListDummyM lm nrad e.first e.last m)[a]) (fun b => v (Dia.bfListDummyM lm nrad e.first e.last m)[b]) =
      rform X (fun a => u (Dia.bfListDummyM lm nrad e.first e.last (-m))[a]) fun b => v (Dia.bfListDummyM lm nrad e.first e.last (-m))[b] := by
  rw [rform_cast hlen]
  have h : ∀ (w : Nat → ℝ), (∀ k k', |Spec.mOf lm nrad k| ≤ Spec.lOf lm nrad k → Spec.Flip lm nrad k k' → ∃ σ : ℝ, σ * σ = 1 ∧ σ = (-1) ^ (Spec.mOf lm nrad k).natAbs ∧ w k' = σ * w k) →
      ∀ a : Fin (Dia.bfListDummyM lm nrad e.first e.last (-m)).length, w (Dia.bfListDummyM lm nrad e.first e.last (-m))[a] = (-1) ^ m.natAbs * w (Dia.bfListDummyM lm nrad e.first e.last m)[Fin.cast hlen a] := by
    intro w hw a
    obtain ⟨-, g2, -, g4⟩ := block_row lm nrad e.first e.last m hS.first hS.last (Fin.cast hlen a) (Fin.cast hlen a).2
    obtain ⟨σ, -, hσ, hw'⟩ := hw _ _ (hang _ g4) (row_flip hS hpair hlen a)
    rw [hw', hσ]
    congr 2
    exact congrArg Int.natAbs g2
  simp only [h u hu, h v hv]
  rw [rform_scale, ← mul_pow]
  norm_num

end mirror

end XC
end HelFEM
