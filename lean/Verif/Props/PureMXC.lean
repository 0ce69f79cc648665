import Verif.Lemmas.PureMTop
import Verif.Props.XC
import Verif.Props.SymBlocks
import Verif.Props.Harmonics
import Mathlib.MeasureTheory.Integral.IntervalIntegral.Basic

/-!
# C67: the diatomic grid without azimuthal quadrature

For a density matrix that does not mix `m`, `PureMDFTGrid` gives the energy, electron number, kinetic energy and Fock matrices of the density
`∑ P_ij Re(χ_i χ_j*)` built from the full functions `R(μ) y_l^m(ν) e^{imφ}`, whatever the azimuth.
-/

namespace HelFEM
namespace XC

variable {env : Libxc} {fn : Funcs} {lm : List (Int × Int)} {nrad : Nat} {y : Int → Int → ℝ → ℝ} {R : Nat → ℝ → ℝ}

/-! ### The azimuth -/

theorem form_phase (lm : List (Int × Int)) (nrad : Nat) {P : Mat ℝ} (hM : Spec.MDiag lm nrad P) (φ : ℝ) (idx : List Nat) (u v : Fin idx.length → ℂ) :
    Spec.form (Spec.padded lm nrad P) idx (fun a => u a * Complex.exp ((Spec.mOf lm nrad idx[a] * φ : ℝ) * Complex.I)) (fun a => v a * Complex.exp ((Spec.mOf lm nrad idx[a] * φ : ℝ) * Complex.I)) =
      Spec.form (Spec.padded lm nrad P) idx u v := by
  unfold Spec.form
  refine Finset.sum_congr rfl fun a _ => Finset.sum_congr rfl fun b _ => ?_
  rw [← bd_padded hM]
  unfold bd
  split_ifs with h
  · congr 2
    beta_reduce
    rw [h, map_mul]
    have : Complex.exp ((Spec.mOf lm nrad idx[b] * φ : ℝ) * Complex.I) * (starRingEnd ℂ) (Complex.exp ((Spec.mOf lm nrad idx[b] * φ : ℝ) * Complex.I)) = 1 := by
      rw [Complex.mul_conj, Complex.normSq_eq_norm_sq, Complex.norm_exp_ofReal_mul_I]
      simp
    calc _ = u a * (starRingEnd ℂ) (v b) * (Complex.exp ((Spec.mOf lm nrad idx[b] * φ : ℝ) * Complex.I) * (starRingEnd ℂ) (Complex.exp ((Spec.mOf lm nrad idx[b] * φ : ℝ) * Complex.I))) := by ring
      _ = _ := by rw [this, mul_one]
  · simp

/-- density, gradients, kinetic energy density and Laplacian do not depend on the azimuth -/
theorem azimuth {P : Mat ℝ} (hM : Spec.MDiag lm nrad P) (φ : ℝ) (e : PmPoint) (ia : Fin e.nang) :
    Spec.rho (Spec.padded lm nrad P) (Spec.pmPoint lm nrad y R φ e ia) = Spec.rho (Spec.padded lm nrad P) (Spec.pmPoint lm nrad y R 0 e ia) ∧
    Spec.grad (Spec.padded lm nrad P) (Spec.pmPoint lm nrad y R φ e ia) = Spec.grad (Spec.padded lm nrad P) (Spec.pmPoint lm nrad y R 0 e ia) ∧
    Spec.lapl (Spec.padded lm nrad P) (Spec.pmPoint lm nrad y R φ e ia) = Spec.lapl (Spec.padded lm nrad P) (Spec.pmPoint lm nrad y R 0 e ia) ∧
    Spec.tau (Spec.padded lm nrad P) (Spec.pmPoint lm nrad y R φ e ia) = Spec.tau (Spec.padded lm nrad P) (Spec.pmPoint lm nrad y R 0 e ia) := by
  have k : ∀ φ, ∀ u v : Fin (Dia.bfListDummy lm nrad e.first e.last).length → ℂ,
      Spec.form (Spec.padded lm nrad P) (Dia.bfListDummy lm nrad e.first e.last) (fun a => u a * Complex.exp ((Spec.mOf lm nrad (Dia.bfListDummy lm nrad e.first e.last)[a] * φ : ℝ) * Complex.I))
        (fun a => v a * Complex.exp ((Spec.mOf lm nrad (Dia.bfListDummy lm nrad e.first e.last)[a] * φ : ℝ) * Complex.I)) =
      Spec.form (Spec.padded lm nrad P) (Dia.bfListDummy lm nrad e.first e.last) u v := fun φ => form_phase lm nrad hM φ _
  have k' := fun u v => (k φ u v).trans (k 0 u v).symm
  refine ⟨k' _ _, ?_, ?_, ?_⟩
  · funext c
    fin_cases c <;> exact congrArg₂ (· + ·) (k' _ _) (k' _ _)
  · unfold Spec.lapl
    rw [Fin.sum_univ_three, Fin.sum_univ_three]
    exact congrArg₂ (· + ·) (congrArg₂ (· + ·) (k' _ _) (congrArg (2 * ·) (congrArg₂ (· + ·) (congrArg₂ (· + ·) (k' _ _) (k' _ _)) (k' _ _)))) (k' _ _)
  · unfold Spec.tau
    rw [Fin.sum_univ_three, Fin.sum_univ_three]
    exact congrArg (1 / 2 * ·) (congrArg₂ (· + ·) (congrArg₂ (· + ·) (k' _ _) (k' _ _)) (k' _ _))

/-- **C67, azimuth.** The quantities a functional depends on are the same at every azimuth, so the integral of anything made of them over the azimuth is `2π` times its value at azimuth zero. -/
theorem C67_azimuth {P : Mat ℝ} (hM : Spec.MDiag lm nrad P) (e : PmPoint) (ia : Fin e.nang) (F : In1 → ℝ) :
    (∀ φ, Spec.input (Spec.padded lm nrad P) (Spec.pmPoint lm nrad y R φ e ia) = Spec.input (Spec.padded lm nrad P) (Spec.pmPoint lm nrad y R 0 e ia)) ∧
    ∫ φ in (0 : ℝ)..2 * Real.pi, F (Spec.input (Spec.padded lm nrad P) (Spec.pmPoint lm nrad y R φ e ia)) =
      2 * Real.pi * F (Spec.input (Spec.padded lm nrad P) (Spec.pmPoint lm nrad y R 0 e ia)) := by
  have h : ∀ φ, Spec.input (Spec.padded lm nrad P) (Spec.pmPoint lm nrad y R φ e ia) = Spec.input (Spec.padded lm nrad P) (Spec.pmPoint lm nrad y R 0 e ia) := by
    intro φ
    obtain ⟨h1, h2, h3, h4⟩ := azimuth (y := y) (R := R) hM φ e ia
    unfold Spec.input
    rw [h1, h2, h3, h4]
  refine ⟨h, ?_⟩
  simp [h]

/-- **C67, azimuth, two spins.** -/
theorem C67_spins_azimuth {A B : Mat ℝ} (hA : Spec.MDiag lm nrad A) (hB : Spec.MDiag lm nrad B) (e : PmPoint) (ia : Fin e.nang) (F : In2 → ℝ) :
    (∀ φ, Spec.inputs (Spec.padded lm nrad A) (Spec.padded lm nrad B) (Spec.pmPoint lm nrad y R φ e ia) =
      Spec.inputs (Spec.padded lm nrad A) (Spec.padded lm nrad B) (Spec.pmPoint lm nrad y R 0 e ia)) ∧
    ∫ φ in (0 : ℝ)..2 * Real.pi, F (Spec.inputs (Spec.padded lm nrad A) (Spec.padded lm nrad B) (Spec.pmPoint lm nrad y R φ e ia)) =
      2 * Real.pi * F (Spec.inputs (Spec.padded lm nrad A) (Spec.padded lm nrad B) (Spec.pmPoint lm nrad y R 0 e ia)) := by
  have h : ∀ φ, Spec.inputs (Spec.padded lm nrad A) (Spec.padded lm nrad B) (Spec.pmPoint lm nrad y R φ e ia) =
      Spec.inputs (Spec.padded lm nrad A) (Spec.padded lm nrad B) (Spec.pmPoint lm nrad y R 0 e ia) := by
    intro φ
    obtain ⟨h1, h2, h3, h4⟩ := azimuth (y := y) (R := R) hA φ e ia
    obtain ⟨g1, g2, g3, g4⟩ := azimuth (y := y) (R := R) hB φ e ia
    unfold Spec.inputs
    rw [h1, h2, h3, h4, g1, g2, g3, g4]
  refine ⟨h, ?_⟩
  simp [h]

/-! ### The bases the programs build -/

theorem lsOf_flatMap {α : Type} (l : List α) (g : α → List (Int × Int)) (m : Int) : Spec.lsOf (l.flatMap g) m = l.flatMap fun x => Spec.lsOf (g x) m := by
  induction l with
  | nil => rfl
  | cons a r ih => simp only [List.flatMap_cons, Spec.lsOf, List.filter_append, List.map_append] at ih ⊢; rw [ih]

theorem lsOf_body (mabs l m : Int) (h : 0 ≤ mabs) : Spec.lsOf (Sym.bodyEntries mabs l) (-m) = Spec.lsOf (Sym.bodyEntries mabs l) m := by
  unfold Spec.lsOf Sym.bodyEntries
  by_cases h0 : 0 < mabs
  · rw [if_pos h0]
    by_cases h1 : mabs = m
    · subst h1; simp [List.filter_cons, show ¬ mabs = -mabs by omega, show ¬ -mabs = mabs by omega]
    · by_cases h2 : mabs = -m
      · subst h2; simp [List.filter_cons, show ¬ m = -m by omega, show ¬ -m = m by omega]
      · simp [List.filter_cons, h1, h2, show ¬ -mabs = m by omega]
  · rw [if_neg h0]
    have : mabs = 0 := by omega
    subst this
    by_cases h1 : m = 0
    · subst h1; rfl
    · simp [List.filter_cons, show ¬ (0 : Int) = -m by omega, show ¬ (0 : Int) = m by omega]

/-- **C67, bases.** Every basis the diatomic programs build has `|m| ≤ l`, and the functions with `m` and with `-m` have the same `l` in the same order. -/
theorem C67_bases (lmax : List Int) : Spec.Angular (Sym.lmToLM lmax) ∧ Spec.Paired (Sym.lmToLM lmax) := by
  refine ⟨fun p hp => (((Sym.C26_diatomic_basis lmax).2 p.1 p.2).1 hp).2.1, fun m _ => ?_⟩
  unfold Sym.lmToLM
  rw [lsOf_flatMap, lsOf_flatMap]
  congr 1
  funext k
  rw [lsOf_flatMap, lsOf_flatMap]
  congr 1
  funext l
  exact lsOf_body _ _ _ (by omega)

/-! ### The grid -/

section grid
variable (hx : Spec.Usable env fn.x fn.xp) (hc : Spec.Usable env fn.c fn.cp) (hy : Spec.Harmonics y) (hang : Spec.Angular lm) (hpair : Spec.Paired lm) (hn : 0 < (Spec.functions lm nrad).length)
include hx hc hy hang hpair hn

/-- **C67, values.** Energy, electron number and kinetic energy are those of the density; the Fock matrix is symmetric and does not mix `m`. With `share` (`--symmetry=3`) the density matrix must not
change when `m` changes sign. -/
theorem C67_values {P : Mat ℝ} (hP : Spec.Symm (Spec.functions lm nrad).length P) (hM : Spec.MDiag lm nrad P) (share : Bool) (hsh : share = true → Spec.FlipSymm lm nrad P) (pts : List PmPoint)
    (hpts : ∀ e ∈ pts, Spec.Sampled nrad y R e) :
    ∃ s, pmGrid1 env lm nrad share fn P pts = .ok s ∧ s.exc = Spec.energy env fn.x fn.c fn.xp fn.cp fn.thr (pts.flatMap (Spec.pmPoints lm nrad y R)) (Spec.padded lm nrad P) ∧
      s.nel = Spec.electrons (pts.flatMap (Spec.pmPoints lm nrad y R)) (Spec.padded lm nrad P) ∧
      s.ekin = (if Spec.anyUses env fn.x fn.c (·.tau) then Spec.kinetic (pts.flatMap (Spec.pmPoints lm nrad y R)) (Spec.padded lm nrad P) else 0) ∧
      Spec.Symm (Spec.functions lm nrad).length s.H ∧ Spec.MDiag lm nrad s.H := by
  obtain ⟨s, e, h1, h2, h3, h4, h5, -⟩ := pmGrid1_ok hx hc hy hang hpair hn hP hM share hsh pts hpts
  exact ⟨s, e, h1, h2, by rw [h3, useTau_eq], h4, h5⟩

/-- **C67, derivative.** The Fock matrix is the derivative of the energy along every symmetric direction that does not mix `m`. -/
theorem C67_derivative {P D : Mat ℝ} (hP : Spec.Symm (Spec.functions lm nrad).length P) (hM : Spec.MDiag lm nrad P) (hD : Spec.Symm (Spec.functions lm nrad).length D)
    (hDM : Spec.MDiag lm nrad D) (share : Bool) (hsh : share = true → Spec.FlipSymm lm nrad P ∧ Spec.FlipSymm lm nrad D) (pts : List PmPoint) (hpts : ∀ e ∈ pts, Spec.Sampled nrad y R e)
    (hcon : ∀ x ∈ pts.flatMap (Spec.pmPoints lm nrad y R), Spec.Consistent env fn.x fn.xp fn.thr (Spec.input (Spec.padded lm nrad P) x) ∧
      Spec.Consistent env fn.c fn.cp fn.thr (Spec.input (Spec.padded lm nrad P) x)) :
    ∃ E : ℝ → ℝ, (∀ t, ∃ s, pmGrid1 env lm nrad share fn (Spec.line P D t) pts = .ok s ∧ s.exc = E t) ∧
      ∃ s, pmGrid1 env lm nrad share fn P pts = .ok s ∧ HasDerivAt E (Spec.pairing (Spec.functions lm nrad).length s.H D) 0 := by
  refine ⟨fun t => Spec.energy env fn.x fn.c fn.xp fn.cp fn.thr (pts.flatMap (Spec.pmPoints lm nrad y R)) fun i j => Spec.padded lm nrad P i j + t * Spec.padded lm nrad D i j, fun t => ?_, ?_⟩
  · obtain ⟨s, e, h, -⟩ := pmGrid1_ok hx hc hy hang hpair hn (symm_line hP hD t) (mdiag_line hM hDM t) share (fun h => flipSymm_line (hsh h).1 (hsh h).2 t) pts hpts
    exact ⟨s, e, by rw [h, padded_line]⟩
  · obtain ⟨s, e, -, -, -, -, -, h5⟩ := pmGrid1_ok hx hc hy hang hpair hn hP hM share (fun h => (hsh h).1) pts hpts
    refine ⟨s, e, ?_⟩
    rw [h5 D hDM]
    exact energy_deriv env fn _ _ _ hcon

/-- **C67, sharing.** For a density matrix that does not change when `m` changes sign, computing only the blocks with `m ≥ 0` gives the same energy, electron number, kinetic energy and Fock matrix. -/
theorem C67_sharing {P : Mat ℝ} (hP : Spec.Symm (Spec.functions lm nrad).length P) (hM : Spec.MDiag lm nrad P) (hF : Spec.FlipSymm lm nrad P) (pts : List PmPoint)
    (hpts : ∀ e ∈ pts, Spec.Sampled nrad y R e) :
    ∃ s s', pmGrid1 env lm nrad true fn P pts = .ok s ∧ pmGrid1 env lm nrad false fn P pts = .ok s' ∧ s.exc = s'.exc ∧ s.nel = s'.nel ∧ s.ekin = s'.ekin ∧ s.H.Same s'.H := by
  obtain ⟨s, e, h1, h2, h3, h4, h5, h6⟩ := pmGrid1_ok hx hc hy hang hpair hn hP hM true (fun _ => hF) pts hpts
  obtain ⟨s', e', h1', h2', h3', h4', h5', h6'⟩ := pmGrid1_ok hx hc hy hang hpair hn hP hM false (by simp) pts hpts
  refine ⟨s, s', e, e', by rw [h1, h1'], by rw [h2, h2'], by rw [h3, h3'], by rw [h4.1, h4'.1], by rw [h4.2.1, h4'.2.1], fun i hi j hj => ?_⟩
  rw [h4.1] at hi
  rw [h4.2.1] at hj
  by_cases hm : Spec.mOf lm nrad ((Spec.functions lm nrad).getD i 0) = Spec.mOf lm nrad ((Spec.functions lm nrad).getD j 0)
  · rw [← entry_of_pairing _ s.H hi hj, ← entry_of_pairing _ s'.H hi hj, h6, h6']
    all_goals
      intro a ha b hb hab
      refine if_neg ?_
      rintro ⟨rfl, rfl⟩
      exact hab hm
  · rw [h5 i hi j hj hm, h5' i hi j hj hm]

/-- **C67, two spins.** The same for two spin densities; without `beta` the beta matrix is zero. -/
theorem C67_spins_derivative {A B DA DB : Mat ℝ} (hA : Spec.Symm (Spec.functions lm nrad).length A) (hAM : Spec.MDiag lm nrad A) (hB : Spec.Symm (Spec.functions lm nrad).length B)
    (hBM : Spec.MDiag lm nrad B) (hDA : Spec.Symm (Spec.functions lm nrad).length DA) (hDAM : Spec.MDiag lm nrad DA) (hDB : Spec.Symm (Spec.functions lm nrad).length DB)
    (hDBM : Spec.MDiag lm nrad DB) (beta : Bool) (hbeta : beta = false → ∀ i < (Spec.functions lm nrad).length, ∀ j < (Spec.functions lm nrad).length, DB.get i j = 0)
    (pts : List PmPoint) (hpts : ∀ e ∈ pts, Spec.Sampled nrad y R e)
    (hcon : ∀ x ∈ pts.flatMap (Spec.pmPoints lm nrad y R), Spec.Consistent2 env fn.x fn.xp fn.thr (Spec.inputs (Spec.padded lm nrad A) (Spec.padded lm nrad B) x) ∧
      Spec.Consistent2 env fn.c fn.cp fn.thr (Spec.inputs (Spec.padded lm nrad A) (Spec.padded lm nrad B) x)) :
    ∃ E : ℝ → ℝ, (∀ t, ∃ s, pmGrid2 env lm nrad fn (Spec.line A DA t) (Spec.line B DB t) beta pts = .ok s ∧ s.exc = E t) ∧
      ∃ s, pmGrid2 env lm nrad fn A B beta pts = .ok s ∧
        s.exc = Spec.energy2 env fn.x fn.c fn.xp fn.cp fn.thr (pts.flatMap (Spec.pmPoints lm nrad y R)) (Spec.padded lm nrad A) (Spec.padded lm nrad B) ∧
        s.nel = Spec.electrons (pts.flatMap (Spec.pmPoints lm nrad y R)) (Spec.padded lm nrad A) + Spec.electrons (pts.flatMap (Spec.pmPoints lm nrad y R)) (Spec.padded lm nrad B) ∧
        s.ekin = (if Spec.anyUses env fn.x fn.c (·.tau) then Spec.kinetic (pts.flatMap (Spec.pmPoints lm nrad y R)) (Spec.padded lm nrad A) +
          Spec.kinetic (pts.flatMap (Spec.pmPoints lm nrad y R)) (Spec.padded lm nrad B) else 0) ∧
        Spec.Symm (Spec.functions lm nrad).length s.Ha ∧ Spec.MDiag lm nrad s.Ha ∧ Spec.Symm (Spec.functions lm nrad).length s.Hb ∧ Spec.MDiag lm nrad s.Hb ∧
        (beta = false → ∀ i < (Spec.functions lm nrad).length, ∀ j < (Spec.functions lm nrad).length, s.Hb.get i j = 0) ∧
        HasDerivAt E (Spec.pairing (Spec.functions lm nrad).length s.Ha DA + Spec.pairing (Spec.functions lm nrad).length s.Hb DB) 0 := by
  refine ⟨fun t => Spec.energy2 env fn.x fn.c fn.xp fn.cp fn.thr (pts.flatMap (Spec.pmPoints lm nrad y R)) (fun i j => Spec.padded lm nrad A i j + t * Spec.padded lm nrad DA i j)
    fun i j => Spec.padded lm nrad B i j + t * Spec.padded lm nrad DB i j, fun t => ?_, ?_⟩
  · obtain ⟨s, e, h, -⟩ := pmGrid2_ok hx hc hy hang hpair hn (symm_line hA hDA t) (mdiag_line hAM hDAM t) (symm_line hB hDB t) (mdiag_line hBM hDBM t) beta pts hpts
    exact ⟨s, e, by rw [h, padded_line, padded_line]⟩
  · obtain ⟨s, e, h1, h2, h3, h4, h4m, h4', h4m', h5, h6, h7⟩ := pmGrid2_ok hx hc hy hang hpair hn hA hAM hB hBM beta pts hpts
    refine ⟨s, e, h1, h2, by rw [h3, useTau_eq], h4, h4m, h4', h4m', h7, ?_⟩
    rw [h5 DA hDAM, h6 DB hDBM]
    refine (energy_deriv2 env fn _ _ _ (Spec.padded lm nrad DA) (Spec.padded lm nrad DB) hcon).congr_deriv ?_
    rcases beta with _ | _
    · have h0 : Spec.padded lm nrad DB = fun _ _ => 0 := by
        funext a b
        unfold Spec.padded
        split_ifs with h
        · exact hbeta rfl _ (List.idxOf_lt_length_of_mem h.1) _ (List.idxOf_lt_length_of_mem h.2)
        · rfl
      rw [h0, show derivB env fn false (Spec.padded lm nrad A) (Spec.padded lm nrad B) (fun _ _ => 0) = fun _ => 0 from funext fun x => derivB_zero _ _ x]
      simp
    · simp

end grid

/-! ### A `σ` and two `π` shells -/

/-- the spherical harmonics at azimuth zero -/
noncomputable def toyY (l m : Int) (ν : ℝ) : ℝ := (Harm.sph l m (Real.cos ν) 0).re

/-- the radial functions `1` and `μ` -/
noncomputable def toyPR (j : Nat) (μ : ℝ) : ℝ := μ ^ j

/-- the element with both of them, at `μ = 1` and the angles 90° and 60° -/
noncomputable def toyPm : PmPoint where
  nang := 2
  first := 0
  last := 1
  mu := 1
  wrad := 1
  Rhalf := 1
  cth := ![0, 1 / 2]
  wang := ![1, 1 / 3]
  f := fun _ => 1
  df := fun j => j
  d2f := fun _ => 0
  Y := fun l m c => (Harm.sph l m c 0).re

theorem toy_harmonics : Spec.Harmonics toyY := Harm.C68_harmonics.1

theorem toyPR_deriv (j : Nat) : deriv (toyPR j) = fun μ => (j : ℝ) * μ ^ (j - 1) := by
  funext μ
  exact (hasDerivAt_pow j μ).deriv

theorem toy_sampled : Spec.Sampled 2 toyY toyPR toyPm where
  mu := one_pos
  Rhalf := one_pos
  cth := by
    intro ia
    change Fin 2 at ia
    fin_cases ia
    · change (-1 : ℝ) < 0 ∧ (0 : ℝ) < 1
      norm_num
    · change (-1 : ℝ) < 1 / 2 ∧ (1 / 2 : ℝ) < 1
      norm_num
  first := Nat.zero_le _
  last := by decide
  Y := fun l m _ c h0 h1 => by simp [toyPm, toyY, Real.cos_arccos h0 h1]
  f := fun j _ => by simp [toyPm, toyPR]
  df := fun j _ => by simp [toyPm, toyPR_deriv]
  d2f := fun j hj => by
    have : j = 0 ∨ j = 1 := by simp [toyPm] at hj; omega
    rw [toyPR_deriv]
    rcases this with rfl | rfl <;> simp [toyPm]

theorem toy_basis : Sym.lmToLM [0, 1] = [(0, 0), (1, 1), (1, -1)] := by decide

theorem toyPm_functions : Spec.functions (Sym.lmToLM [0, 1]) 2 = [0, 1, 3, 5] := by
  rw [physical_list]
  decide

/-- one electron in each function -/
def eye4 : Mat ℝ := ⟨4, 4, fun i j => if i = j then 1 else 0⟩

theorem eye4_symm : Spec.Symm (Spec.functions (Sym.lmToLM [0, 1]) 2).length eye4 := by
  rw [toyPm_functions]
  exact ⟨rfl, rfl, fun i _ j _ => by simp [eye4, eq_comm]⟩

theorem eye4_mdiag : Spec.MDiag (Sym.lmToLM [0, 1]) 2 eye4 := by
  intro i _ j _ h
  refine if_neg fun e => h ?_
  subst e
  rfl

theorem eye4_flip : Spec.FlipSymm (Sym.lmToLM [0, 1]) 2 eye4 := by
  have h : ∀ a ∈ List.range 6, ∀ b ∈ List.range 6, ∀ a' ∈ List.range 6, ∀ b' ∈ List.range 6,
      ((Spec.lOf (Sym.lmToLM [0, 1]) 2 a' = Spec.lOf (Sym.lmToLM [0, 1]) 2 a ∧ Spec.mOf (Sym.lmToLM [0, 1]) 2 a' = -Spec.mOf (Sym.lmToLM [0, 1]) 2 a ∧ a' % 2 = a % 2) ∧
        Spec.lOf (Sym.lmToLM [0, 1]) 2 b' = Spec.lOf (Sym.lmToLM [0, 1]) 2 b ∧ Spec.mOf (Sym.lmToLM [0, 1]) 2 b' = -Spec.mOf (Sym.lmToLM [0, 1]) 2 b ∧ b' % 2 = b % 2) →
      ((a' ∈ [0, 1, 3, 5] ∧ b' ∈ [0, 1, 3, 5]) ∧ [0, 1, 3, 5].idxOf a' = [0, 1, 3, 5].idxOf b' ↔ (a ∈ [0, 1, 3, 5] ∧ b ∈ [0, 1, 3, 5]) ∧ [0, 1, 3, 5].idxOf a = [0, 1, 3, 5].idxOf b) := by
    decide +kernel
  have hp : ∀ a b, Spec.padded (Sym.lmToLM [0, 1]) 2 eye4 a b =
      if (a ∈ [0, 1, 3, 5] ∧ b ∈ [0, 1, 3, 5]) ∧ [0, 1, 3, 5].idxOf a = [0, 1, 3, 5].idxOf b then 1 else 0 := by
    intro a b
    unfold Spec.padded
    rw [toyPm_functions]
    simp only [eye4, ite_and]
  intro a b a' b' ha hb ha' hb' h1 h2
  rw [toy_basis] at ha hb ha' hb'
  have := h a (List.mem_range.2 ha) b (List.mem_range.2 hb) a' (List.mem_range.2 ha') b' (List.mem_range.2 hb') ⟨h1, h2⟩
  rw [hp, hp]
  exact if_congr this rfl rfl

theorem toyPm_all : ∀ e ∈ [toyPm], Spec.Sampled 2 toyY toyPR e := by
  intro e he
  rw [List.mem_singleton.1 he]
  exact toy_sampled

example (φ : ℝ) : Spec.input (Spec.padded (Sym.lmToLM [0, 1]) 2 eye4) (Spec.pmPoint (Sym.lmToLM [0, 1]) 2 toyY toyPR φ toyPm (1 : Fin 2)) =
    Spec.input (Spec.padded (Sym.lmToLM [0, 1]) 2 eye4) (Spec.pmPoint (Sym.lmToLM [0, 1]) 2 toyY toyPR 0 toyPm (1 : Fin 2)) :=
  (C67_azimuth eye4_mdiag toyPm (1 : Fin 2) (fun _ => 0)).1 φ

example (φ : ℝ) : Spec.inputs (Spec.padded (Sym.lmToLM [0, 1]) 2 eye4) (Spec.padded (Sym.lmToLM [0, 1]) 2 eye4) (Spec.pmPoint (Sym.lmToLM [0, 1]) 2 toyY toyPR φ toyPm (1 : Fin 2)) =
    Spec.inputs (Spec.padded (Sym.lmToLM [0, 1]) 2 eye4) (Spec.padded (Sym.lmToLM [0, 1]) 2 eye4) (Spec.pmPoint (Sym.lmToLM [0, 1]) 2 toyY toyPR 0 toyPm (1 : Fin 2)) :=
  (C67_spins_azimuth eye4_mdiag eye4_mdiag toyPm (1 : Fin 2) (fun _ => 0)).1 φ

/-- all kinds of functionals: id 2 uses the density, its gradient, its Laplacian and the kinetic energy density -/
example (share : Bool) : ∃ E : ℝ → ℝ, (∀ t, ∃ s, pmGrid1 toy (Sym.lmToLM [0, 1]) 2 share ⟨2, [], 1, [], 0⟩ (Spec.line eye4 eye4 t) [toyPm] = .ok s ∧ s.exc = E t) ∧
    ∃ s, pmGrid1 toy (Sym.lmToLM [0, 1]) 2 share ⟨2, [], 1, [], 0⟩ eye4 [toyPm] = .ok s ∧ HasDerivAt E (Spec.pairing (Spec.functions (Sym.lmToLM [0, 1]) 2).length s.H eye4) 0 :=
  C67_derivative (y := toyY) (R := toyPR) (toy_usable (by norm_num) _ rfl) (toy_usable (by norm_num) _ rfl) toy_harmonics (C67_bases _).1 (C67_bases _).2 (by rw [toyPm_functions]; decide)
    eye4_symm eye4_mdiag eye4_symm eye4_mdiag share (fun _ => ⟨eye4_flip, eye4_flip⟩) [toyPm] toyPm_all fun _ _ => ⟨toy_consistent (by norm_num) _ _ _, toy_consistent (by norm_num) _ _ _⟩

example : ∃ s s', pmGrid1 toy (Sym.lmToLM [0, 1]) 2 true ⟨2, [], 1, [], 0⟩ eye4 [toyPm] = .ok s ∧ pmGrid1 toy (Sym.lmToLM [0, 1]) 2 false ⟨2, [], 1, [], 0⟩ eye4 [toyPm] = .ok s' ∧
    s.exc = s'.exc ∧ s.nel = s'.nel ∧ s.ekin = s'.ekin ∧ s.H.Same s'.H :=
  C67_sharing (y := toyY) (R := toyPR) (toy_usable (by norm_num) _ rfl) (toy_usable (by norm_num) _ rfl) toy_harmonics (C67_bases _).1 (C67_bases _).2 (by rw [toyPm_functions]; decide)
    eye4_symm eye4_mdiag eye4_flip [toyPm] toyPm_all

/-- one electron in the first `σ` function -/
def one4 : Mat ℝ := ⟨4, 4, fun i j => if i = 0 ∧ j = 0 then 1 else 0⟩

example : ∃ s, pmGrid1 toy (Sym.lmToLM [0, 1]) 2 false ⟨2, [], 1, [], 0⟩ one4 [toyPm] = .ok s ∧
    s.nel = 1 / 2 * Real.sinh 1 * ((Real.sinh 1 ^ 2 + 1) + 1 / 3 * (Real.sinh 1 ^ 2 + 3 / 4)) := by
  obtain ⟨s, e, -, h, -⟩ := C67_values (env := toy) (fn := ⟨2, [], 1, [], 0⟩) (y := toyY) (R := toyPR) (toy_usable (by norm_num) _ rfl) (toy_usable (by norm_num) _ rfl) toy_harmonics
    (C67_bases [0, 1]).1 (C67_bases [0, 1]).2 (by rw [toyPm_functions]; decide) (P := one4) (by rw [toyPm_functions]; exact ⟨rfl, rfl, fun i _ j _ => by simp [one4, and_comm]⟩)
    (fun i _ j _ h => if_neg fun e => h (by rw [e.1, e.2])) false (by simp) [toyPm] toyPm_all
  refine ⟨s, e, ?_⟩
  rw [h]
  have hp : ∀ a b, Spec.padded (Sym.lmToLM [0, 1]) 2 one4 a b =
      if (a ∈ [0, 1, 3, 5] ∧ b ∈ [0, 1, 3, 5]) ∧ [0, 1, 3, 5].idxOf a = 0 ∧ [0, 1, 3, 5].idxOf b = 0 then 1 else 0 := by
    intro a b
    unfold Spec.padded
    rw [toyPm_functions]
    simp only [one4, ite_and]
  have y0 : ∀ c : ℝ, -1 ≤ c → c ≤ 1 → toyY 0 0 (Real.arccos c) = √(1 / (4 * Real.pi)) := fun c h0 h1 => by
    rw [toyY, (Harm.C68_lowest (Real.arccos c) 0 ⟨Real.arccos_nonneg _, Real.arccos_le_pi _⟩).1, Complex.ofReal_re]
  have hr : ∀ ia : Fin 2, Spec.rho (Spec.padded (Sym.lmToLM [0, 1]) 2 one4) (Spec.pmPoint (Sym.lmToLM [0, 1]) 2 toyY toyPR 0 toyPm ia) = 1 / (4 * Real.pi) := by
    intro ia
    unfold Spec.rho Spec.form
    simp only [hp]
    have hi : ∀ a : Fin 6, (Dia.bfListDummy (Sym.lmToLM [0, 1]) 2 0 1)[a]'(lt_of_lt_of_eq a.2 (by decide)) = a.1 := by decide
    change ∑ a : Fin 6, ∑ b : Fin 6, (if ((Dia.bfListDummy (Sym.lmToLM [0, 1]) 2 0 1)[a]'(lt_of_lt_of_eq a.2 (by decide)) ∈ [0, 1, 3, 5] ∧
      (Dia.bfListDummy (Sym.lmToLM [0, 1]) 2 0 1)[b]'(lt_of_lt_of_eq b.2 (by decide)) ∈ [0, 1, 3, 5]) ∧
      [0, 1, 3, 5].idxOf ((Dia.bfListDummy (Sym.lmToLM [0, 1]) 2 0 1)[a]'(lt_of_lt_of_eq a.2 (by decide))) = 0 ∧
      [0, 1, 3, 5].idxOf ((Dia.bfListDummy (Sym.lmToLM [0, 1]) 2 0 1)[b]'(lt_of_lt_of_eq b.2 (by decide))) = 0 then (1 : ℝ) else 0) * _ = _
    simp only [hi]
    rw [Finset.sum_eq_single (0 : Fin 6), Finset.sum_eq_single (0 : Fin 6)]
    · rw [if_pos (by decide)]
      have hf : (Spec.pmPoint (Sym.lmToLM [0, 1]) 2 toyY toyPR 0 toyPm ia).f (0 : Fin 6) = (√(1 / (4 * Real.pi)) : ℝ) := by
        have hc := toy_sampled.cth ia
        change ((toyPR 0 1 * toyY 0 0 (Real.arccos (toyPm.cth ia)) : ℝ) : ℂ) * Complex.exp (((((0 : Int) : ℝ) * 0 : ℝ) : ℂ) * Complex.I) = _
        rw [y0 _ hc.1.le hc.2.le]
        simp [toyPR]
      change 1 * ((Spec.pmPoint (Sym.lmToLM [0, 1]) 2 toyY toyPR 0 toyPm ia).f (0 : Fin 6) * (starRingEnd ℂ) ((Spec.pmPoint (Sym.lmToLM [0, 1]) 2 toyY toyPR 0 toyPm ia).f (0 : Fin 6))).re = _
      rw [hf, Complex.conj_ofReal, ← Complex.ofReal_mul, Complex.ofReal_re, Real.mul_self_sqrt (by positivity), one_mul]
    · intro b _ hb
      rw [if_neg, zero_mul]
      revert b
      decide
    · simp
    · intro a _ ha
      refine Finset.sum_eq_zero fun b _ => ?_
      rw [if_neg, zero_mul]
      revert a b
      decide
    · simp
  have hsplit : [toyPm].flatMap (Spec.pmPoints (Sym.lmToLM [0, 1]) 2 toyY toyPR) =
      [Spec.pmPoint (Sym.lmToLM [0, 1]) 2 toyY toyPR 0 toyPm (0 : Fin 2), Spec.pmPoint (Sym.lmToLM [0, 1]) 2 toyY toyPR 0 toyPm (1 : Fin 2)] := by
    rw [List.flatMap_cons, List.flatMap_nil, List.append_nil]
    rfl
  have h0 : Real.sin (Real.arccos (toyPm.cth (0 : Fin 2))) ^ 2 = 1 := by
    change Real.sin (Real.arccos 0) ^ 2 = 1
    simp
  have h1 : Real.sin (Real.arccos (toyPm.cth (1 : Fin 2))) ^ 2 = 3 / 4 := by
    change Real.sin (Real.arccos (1 / 2)) ^ 2 = 3 / 4
    rw [Real.sin_sq, Real.cos_arccos (by norm_num) (by norm_num)]
    norm_num
  rw [hsplit, Spec.electrons, List.map_cons, List.map_cons, List.map_nil, List.sum_cons, List.sum_cons, List.sum_nil, hr, hr]
  simp only [Spec.pmPoint, h0, h1]
  have := Real.pi_ne_zero
  change 2 * Real.pi * 1 * 1 * (1 ^ 3 * Real.sinh 1 * (Real.sinh 1 ^ 2 + 1)) * (1 / (4 * Real.pi)) + (2 * Real.pi * (1 / 3) * 1 * (1 ^ 3 * Real.sinh 1 * (Real.sinh 1 ^ 2 + 3 / 4)) * (1 / (4 * Real.pi)) + 0) = _
  field_simp
  ring

example : ∃ E : ℝ → ℝ, (∀ t, ∃ s, pmGrid2 toy (Sym.lmToLM [0, 1]) 2 ⟨2, [], 1, [], 0⟩ (Spec.line eye4 eye4 t) (Spec.line eye4 eye4 t) true [toyPm] = .ok s ∧ s.exc = E t) ∧
    ∃ s, pmGrid2 toy (Sym.lmToLM [0, 1]) 2 ⟨2, [], 1, [], 0⟩ eye4 eye4 true [toyPm] = .ok s ∧
      HasDerivAt E (Spec.pairing (Spec.functions (Sym.lmToLM [0, 1]) 2).length s.Ha eye4 + Spec.pairing (Spec.functions (Sym.lmToLM [0, 1]) 2).length s.Hb eye4) 0 := by
  obtain ⟨E, h, s, e, -, -, -, -, -, -, -, -, h'⟩ := C67_spins_derivative (env := toy) (fn := ⟨2, [], 1, [], 0⟩) (y := toyY) (R := toyPR) (toy_usable (by norm_num) _ rfl)
    (toy_usable (by norm_num) _ rfl) toy_harmonics (C67_bases [0, 1]).1 (C67_bases [0, 1]).2 (by rw [toyPm_functions]; decide) eye4_symm eye4_mdiag eye4_symm eye4_mdiag eye4_symm eye4_mdiag
    eye4_symm eye4_mdiag true (by simp) [toyPm] toyPm_all fun _ _ => ⟨toy_consistent2 (by norm_num) _ _ _, toy_consistent2 (by norm_num) _ _ _⟩
  exact ⟨E, h, s, e, h'⟩

end XC
end HelFEM
