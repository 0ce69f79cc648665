import Verif.Lemmas.SadFock

/-!
# The energy of the spherically averaged atom along a curve of densities
-/

namespace HelFEM
namespace SadSCF

open Matrix Finset XC AtomJK

variable {s : Setup} {k : Spec.Kernels} {t0 : ℝ}

/-- a quadratic form along a curve -/
theorem quad_deriv {ι : Type _} [Fintype ι] (Q : ι → ι → ℝ) (hQ : ∀ i j, Q i j = Q j i) {p : ℝ → ι → ℝ} {p' : ι → ℝ} (h : ∀ i, HasDerivAt (fun t => p t i) (p' i) t0) :
    HasDerivAt (fun t => ∑ i, ∑ j, Q i j * p t i * p t j) (2 * ∑ i, (∑ j, Q i j * p t0 j) * p' i) t0 := by
  refine (HasDerivAt.fun_sum fun i _ => HasDerivAt.fun_sum fun j _ => ((h i).const_mul (Q i j)).mul (h j)).congr_deriv ?_
  simp only [sum_add_distrib, two_mul]
  congr 1
  · refine sum_congr rfl fun i _ => ?_
    rw [sum_mul]
    exact sum_congr rfl fun j _ => by ring
  · rw [sum_comm]
    refine sum_congr rfl fun i _ => ?_
    rw [sum_mul]
    exact sum_congr rfl fun j _ => by rw [hQ j i]

/-- `D'` is the derivative of the shell densities -/
def Moves (L : Nat) {N : Nat} (D : ℝ → Nat → Matrix (Fin N) (Fin N) ℝ) (D' : Nat → Matrix (Fin N) (Fin N) ℝ) (t0 : ℝ) : Prop :=
  ∀ l ≤ L, ∀ i j, HasDerivAt (fun t => D t l i j) (D' l i j) t0

theorem coulomb_deriv {N : Nat} {q : Nat → Nat → Nat → Nat → ℝ} (hq : ∀ a b c d, q a b c d = q c d a b) {P : ℝ → Matrix (Fin N) (Fin N) ℝ} {P' : Matrix (Fin N) (Fin N) ℝ}
    (h : ∀ i j, HasDerivAt (fun t => P t i j) (P' i j) t0) : HasDerivAt (fun t => Spec.coulombEnergy q (P t)) (∑ a, ∑ b, jMat q (P t0) a b * P' a b) t0 := by
  have := (quad_deriv (t0 := t0) (fun i j : Fin N × Fin N => q i.1 i.2 j.1 j.2) (fun i j => hq _ _ _ _) (p := fun t i => P t i.1 i.2) (p' := fun i => P' i.1 i.2) fun i => h _ _).const_mul (1 / 2 : ℝ)
  simp only [Fintype.sum_prod_type] at this
  refine this.congr_deriv ?_
  unfold jMat
  ring

theorem exchange_deriv {N L : Nat} {κ : Nat → Nat → Nat → Nat → Nat → Nat → ℝ} (hκ : ∀ l l' a b c d, κ l l' a b c d = κ l' l c d a b) {D : ℝ → Nat → Matrix (Fin N) (Fin N) ℝ}
    {D' : Nat → Matrix (Fin N) (Fin N) ℝ} (h : Moves L D D' t0) :
    HasDerivAt (fun t => Spec.exchangeForm L κ (D t)) (2 * ∑ l ∈ range (L + 1), ∑ a, ∑ b, kMat L κ (D t0) l a b * D' l a b) t0 := by
  have := quad_deriv (t0 := t0) (fun i j : Fin (L + 1) × Fin N × Fin N => κ i.1 j.1 i.2.1 i.2.2 j.2.1 j.2.2) (fun i j => hκ _ _ _ _ _ _) (p := fun t i => D t i.1 i.2.1 i.2.2)
    (p' := fun i => D' i.1 i.2.1 i.2.2) fun i => h _ (by omega) _ _
  simp only [Fintype.sum_prod_type] at this
  refine (this.congr_deriv ?_).congr_of_eventuallyEq (Filter.Eventually.of_forall fun t => ?_)
  · rw [Finset.sum_range]
    unfold kMat
    simp only [Finset.sum_range (n := L + 1)]
  · beta_reduce
    unfold Spec.exchangeForm
    simp only [Finset.sum_range (n := L + 1)]
    refine sum_congr rfl fun l _ => ?_
    rw [sum_comm]
    refine sum_congr rfl fun a _ => ?_
    rw [sum_comm]

theorem trace_deriv {N : Nat} {P : ℝ → Matrix (Fin N) (Fin N) ℝ} {P' : Matrix (Fin N) (Fin N) ℝ} (h : ∀ i j, HasDerivAt (fun t => P t i j) (P' i j) t0) (A : Matrix (Fin N) (Fin N) ℝ) :
    HasDerivAt (fun t => (P t * A).trace) (P' * A).trace t0 := by
  simp only [trace_sum_mul]
  exact HasDerivAt.fun_sum fun a _ => HasDerivAt.fun_sum fun b _ => (h a b).mul_const _

theorem oneBody_deriv {D : ℝ → Nat → Matrix (Fin s.N) (Fin s.N) ℝ} {D' : Nat → Matrix (Fin s.N) (Fin s.N) ℝ} (h : Moves s.lmax D D' t0) :
    HasDerivAt (fun t => Spec.oneBody s (D t)) (Spec.oneBody s D') t0 := by
  refine HasDerivAt.fun_sum fun l hl => ?_
  have hl := h l (by have := Finset.mem_range.1 hl; omega)
  refine (((trace_deriv hl _).add ((trace_deriv hl _).const_mul _)).add (trace_deriv hl _)).add ?_
  by_cases hc : s.haveConf = true
  · simp only [if_pos hc]; exact trace_deriv hl _
  · simp only [if_neg hc]; exact hasDerivAt_const _ _

theorem curve_of_moves {D : ℝ → Nat → Matrix (Fin s.N) (Fin s.N) ℝ} {D' : Nat → Matrix (Fin s.N) (Fin s.N) ℝ} (h : Moves s.lmax D D' t0) :
    SCurve (fun t => Spec.perSolidAngle s (D t)) (Spec.perSolidAngle s D') t0 := by
  refine ⟨fun _ => rfl, fun l i j => ?_⟩
  unfold Spec.perSolidAngle
  by_cases hij : i < s.N ∧ j < s.N
  · simp only [dif_pos hij]
    by_cases hl : l ≤ s.lmax
    · simp only [if_pos hl]; exact (h l hl _ _).div_const _
    · simp only [if_neg hl]; exact hasDerivAt_const _ _
  · simp only [dif_neg hij]; exact hasDerivAt_const _ _

theorem sum_moves {D : ℝ → Nat → Matrix (Fin s.N) (Fin s.N) ℝ} {D' : Nat → Matrix (Fin s.N) (Fin s.N) ℝ} (h : Moves s.lmax D D' t0) (i j : Fin s.N) :
    HasDerivAt (fun t => (∑ l ∈ range (s.lmax + 1), D t l) i j) ((∑ l ∈ range (s.lmax + 1), D' l) i j) t0 := by
  simp only [Matrix.sum_apply]
  exact HasDerivAt.fun_sum fun l hl => h l (by have := Finset.mem_range.1 hl; omega) i j

theorem moves_symm {D : ℝ → Nat → Matrix (Fin s.N) (Fin s.N) ℝ} {D' : Nat → Matrix (Fin s.N) (Fin s.N) ℝ} (h : Moves s.lmax D D' t0) (hs : ∀ t l, (D t l)ᵀ = D t l) :
    ∀ l ≤ s.lmax, (D' l)ᵀ = D' l := by
  intro l hl
  ext i j
  have h1 := h l hl j i
  have h2 := h l hl i j
  have e : (fun t => D t l j i) = fun t => D t l i j := funext fun t => congrFun (congrFun (hs t l) i) j
  rw [e] at h1
  exact h1.unique h2

theorem fock_trace (J : Matrix (Fin s.N) (Fin s.N) ℝ) (H K D' : Nat → Matrix (Fin s.N) (Fin s.N) ℝ) (hs : ∀ l ≤ s.lmax, (D' l)ᵀ = D' l) :
    ∑ l ∈ range (s.lmax + 1), (fockMat s J l (H l) (K l) * D' l).trace =
      Spec.oneBody s D' + ∑ a, ∑ b, J a b * (∑ l ∈ range (s.lmax + 1), D' l) a b + ∑ l ∈ range (s.lmax + 1), ∑ a, ∑ b, H l a b * D' l a b +
        ∑ l ∈ range (s.lmax + 1), ∑ a, ∑ b, K l a b * D' l a b := by
  have e : ∑ a, ∑ b, J a b * (∑ l ∈ range (s.lmax + 1), D' l) a b = ∑ l ∈ range (s.lmax + 1), ∑ a, ∑ b, J a b * D' l a b := by
    simp only [Matrix.sum_apply, mul_sum]
    rw [sum_comm]
    rw [sum_comm]
    rw [sum_comm (s := range (s.lmax + 1))]
    refine sum_congr rfl fun a _ => ?_
    rw [sum_comm]
  rw [e]
  unfold Spec.oneBody
  rw [← sum_add_distrib, ← sum_add_distrib, ← sum_add_distrib]
  refine sum_congr rfl fun l hl => ?_
  have hl := hs l (by have := Finset.mem_range.1 hl; omega)
  simp only [fockMat, Matrix.add_mul, trace_add, smul_mul, trace_smul, smul_eq_mul]
  rw [← trace_symm J _ hl, ← trace_symm (H l) _ hl, ← trace_symm (K l) _ hl, trace_mul_comm s.T, trace_mul_comm s.Vnuc, trace_mul_comm s.Tl]
  by_cases hc : s.haveConf = true
  · simp only [if_pos hc]; rw [trace_mul_comm s.Vconf]; ring
  · simp only [if_neg hc]; simp; ring

variable {c : Caches}

theorem mixed_symm (hk : Spec.Represents s c k) (l l' a b c d : Nat) : mixed s k l l' a b c d = mixed s k l' l c d a b := by
  unfold mixed
  rw [hk.full_symm.shells]
  by_cases h : s.kshort = 0
  · simp [h]
  · rw [(hk.short_symm h).shells]

/-- the derivative of the restricted energy is the contraction of the Fock matrices with the motion of the densities -/
theorem energyR_deriv (hk : Spec.Represents s c k) {D : ℝ → Nat → Matrix (Fin s.N) (Fin s.N) ℝ} {D' : Nat → Matrix (Fin s.N) (Fin s.N) ℝ} (h : Moves s.lmax D D' t0)
    (hs : ∀ t l, (D t l)ᵀ = D t l)
    (hcon : ∀ x ∈ Spec.points s, XC.Spec.Consistent s.env s.fn.x s.fn.xp s.fn.thr ((Spec.perSolidAngle s (D t0)).input x) ∧
      XC.Spec.Consistent s.env s.fn.c s.fn.cp s.fn.thr ((Spec.perSolidAngle s (D t0)).input x))
    (hxc : ∀ Δ : Nat → Matrix (Fin s.N) (Fin s.N) ℝ, ∑ l ∈ range s.nblock, ∑ a, ∑ b, xcMat s (D t0) l a b * Δ l a b =
        ((Spec.points s).map (sderiv s.env s.fn (Spec.perSolidAngle s (D t0)) (Spec.perSolidAngle s Δ))).sum) :
    HasDerivAt (fun t => Spec.energyR s k (D t)) (∑ l ∈ range (s.lmax + 1), (fockR s k (D t0) l * D' l).trace) t0 := by
  unfold fockR
  rw [fock_trace _ _ _ _ (moves_symm h hs)]
  unfold Spec.energyR
  simp only [exchange_smul]
  refine ((((oneBody_deriv h).add (coulomb_deriv hk.coulomb_swap (sum_moves h))).sub
    ((((exchange_deriv (mixed_symm hk) h).const_mul ((1 / 2 : ℝ) ^ 2)).const_mul (1 / 2 : ℝ)).mul_const 2)).add (senergy_curve _ (curve_of_moves h) hcon)).congr_deriv ?_
  rw [← hxc]
  simp only [Matrix.smul_apply, smul_eq_mul, Setup.nblock, mul_assoc, ← mul_sum]
  ring

/-- the same with two spins; without beta electrons the beta densities must rest -/
theorem energyU_deriv (hk : Spec.Represents s c k) {A B : ℝ → Nat → Matrix (Fin s.N) (Fin s.N) ℝ} {A' B' : Nat → Matrix (Fin s.N) (Fin s.N) ℝ} (ha : Moves s.lmax A A' t0) (hb : Moves s.lmax B B' t0)
    (hsa : ∀ t l, (A t l)ᵀ = A t l) (hsb : ∀ t l, (B t l)ᵀ = B t l) (hn : 0 < s.nelb ∨ ∀ l ≤ s.lmax, B' l = 0)
    (hcon : ∀ x ∈ Spec.points s, XC.Spec.Consistent2 s.env s.fn.x s.fn.xp s.fn.thr (XC.Spec.sinputs (Spec.perSolidAngle s (A t0)) (Spec.perSolidAngle s (B t0)) x) ∧
      XC.Spec.Consistent2 s.env s.fn.c s.fn.cp s.fn.thr (XC.Spec.sinputs (Spec.perSolidAngle s (A t0)) (Spec.perSolidAngle s (B t0)) x))
    (hxa : ∀ Δ : Nat → Matrix (Fin s.N) (Fin s.N) ℝ, ∑ l ∈ range s.nblock, ∑ a, ∑ b, xcMatA s (A t0) (B t0) l a b * Δ l a b =
        ((Spec.points s).map (sderivA s.env s.fn (Spec.perSolidAngle s (A t0)) (Spec.perSolidAngle s (B t0)) (Spec.perSolidAngle s Δ))).sum)
    (hxb : 0 < s.nelb → ∀ Δ : Nat → Matrix (Fin s.N) (Fin s.N) ℝ, ∑ l ∈ range s.nblock, ∑ a, ∑ b, xcMatB s (A t0) (B t0) l a b * Δ l a b =
        ((Spec.points s).map (sderivB s.env s.fn (Spec.perSolidAngle s (A t0)) (Spec.perSolidAngle s (B t0)) (Spec.perSolidAngle s Δ))).sum) :
    HasDerivAt (fun t => Spec.energyU s k (A t) (B t))
      (∑ l ∈ range (s.lmax + 1), ((fockA s k (A t0) (B t0) l * A' l).trace + (fockB s k (A t0) (B t0) l * B' l).trace)) t0 := by
  have hab : Moves s.lmax (fun t l => A t l + B t l) (fun l => A' l + B' l) t0 := fun l hl i j => (ha l hl i j).add (hb l hl i j)
  unfold Spec.energyU
  refine ((((oneBody_deriv hab).add (coulomb_deriv hk.coulomb_swap (sum_moves hab))).sub
    (((exchange_deriv (mixed_symm hk) ha).add (exchange_deriv (mixed_symm hk) hb)).const_mul (1 / 2 : ℝ))).add
      (senergy2_curve _ (curve_of_moves ha) (curve_of_moves hb) hcon)).congr_deriv ?_
  have eT : ∑ l ∈ range (s.lmax + 1), ((fockA s k (A t0) (B t0) l * A' l).trace + (fockB s k (A t0) (B t0) l * B' l).trace) =
    ∑ l ∈ range (s.lmax + 1), (fockA s k (A t0) (B t0) l * A' l).trace + ∑ l ∈ range (s.lmax + 1), (fockB s k (A t0) (B t0) l * B' l).trace := sum_add_distrib
  have eJ : ∀ J : Matrix (Fin s.N) (Fin s.N) ℝ, ∑ a, ∑ b, J a b * (∑ l ∈ range (s.lmax + 1), (A' l + B' l)) a b =
      ∑ a, ∑ b, J a b * (∑ l ∈ range (s.lmax + 1), A' l) a b + ∑ a, ∑ b, J a b * (∑ l ∈ range (s.lmax + 1), B' l) a b := by
    intro J
    rw [sum_add_distrib]
    simp only [Matrix.add_apply, mul_add, sum_add_distrib]
  have eO : Spec.oneBody s (fun l => A' l + B' l) = Spec.oneBody s A' + Spec.oneBody s B' := by
    unfold Spec.oneBody
    rw [← sum_add_distrib]
    refine sum_congr rfl fun l _ => ?_
    simp only [Matrix.add_mul, trace_add]
    split_ifs <;> ring
  have eK : ∀ (κ D' : Nat → Matrix (Fin s.N) (Fin s.N) ℝ), ∑ l ∈ range (s.lmax + 1), ∑ a, ∑ b, (-κ l) a b * D' l a b = -∑ l ∈ range (s.lmax + 1), ∑ a, ∑ b, κ l a b * D' l a b := by
    intro κ D'
    simp only [Matrix.neg_apply, neg_mul, sum_neg_distrib]
  have eA : ∑ l ∈ range (s.lmax + 1), (fockA s k (A t0) (B t0) l * A' l).trace = _ := fock_trace _ (xcMatA s (A t0) (B t0)) (fun l => -kMat s.lmax (mixed s k) (A t0) l) A' (moves_symm ha hsa)
  rw [eT, eA, ← hxa, eO, eJ, eK]
  by_cases hb0 : 0 < s.nelb
  · have eF : ∀ l, fockB s k (A t0) (B t0) l = fockMat s (jMat k.q (∑ l ∈ range s.nblock, (A t0 l + B t0 l))) l (xcMatB s (A t0) (B t0) l) (-kMat s.lmax (mixed s k) (B t0) l) := fun l => if_pos hb0
    have eB : ∑ l ∈ range (s.lmax + 1), (fockB s k (A t0) (B t0) l * B' l).trace = _ := (sum_congr rfl fun l _ => by rw [eF l]).trans
      (fock_trace (jMat k.q (∑ l ∈ range s.nblock, (A t0 l + B t0 l))) (xcMatB s (A t0) (B t0)) (fun l => -kMat s.lmax (mixed s k) (B t0) l) B' (moves_symm hb hsb))
    rw [eB, ← hxb hb0, eK]
    unfold Setup.nblock
    ring
  · have hz := hn.resolve_left hb0
    have z1 : ∑ l ∈ range (s.lmax + 1), (fockB s k (A t0) (B t0) l * B' l).trace = 0 := sum_eq_zero fun l hl => by
      rw [hz l (by have := Finset.mem_range.1 hl; omega), Matrix.mul_zero, trace_zero]
    have z2 : ∑ l ∈ range (s.lmax + 1), B' l = 0 := sum_eq_zero fun l hl => hz l (by have := Finset.mem_range.1 hl; omega)
    have z3 : Spec.oneBody s B' = 0 := sum_eq_zero fun l hl => by rw [hz l (by have := Finset.mem_range.1 hl; omega)]; simp
    have z4 : ∑ l ∈ range (s.lmax + 1), ∑ a, ∑ b, kMat s.lmax (mixed s k) (B t0) l a b * B' l a b = 0 := sum_eq_zero fun l hl => by
      rw [hz l (by have := Finset.mem_range.1 hl; omega)]; simp
    have z5 : Spec.perSolidAngle s B' = ⟨s.lmax + 1, fun _ _ _ => 0⟩ := by
      unfold Spec.perSolidAngle
      congr 1
      funext l i j
      split_ifs with h1 h2
      · rw [hz l h2]; simp
      · rfl
      · rfl
    have z6 : sderivB s.env s.fn (Spec.perSolidAngle s (A t0)) (Spec.perSolidAngle s (B t0)) (Spec.perSolidAngle s B') = fun _ => 0 := by
      funext x
      rw [z5]
      simp [sderivB, chan, XC.Spec.Shells.rho, XC.Spec.Shells.drho, XC.Spec.Shells.lapl, XC.Spec.Shells.ddrho, XC.Spec.Shells.tau, XC.Spec.sform]
    rw [z1, z2, z3, z4, z6]
    simp only [Matrix.zero_apply, mul_zero, sum_const_zero, List.map_const', List.sum_replicate, smul_zero, add_zero]
    unfold Setup.nblock
    ring

end SadSCF
end HelFEM
