import Verif.Lemmas.SadDeriv

/-!
# The kernels behind the spherically averaged Coulomb and exchange matrices
-/

namespace HelFEM
namespace SadSCF

open Matrix Finset XC AtomJK HelFEM.Spec TwoE

variable {G : Nat → Int → Nat → Int → Nat → Int → ℝ} {fac : Nat → ℝ} {radial : Nat → Nat → Nat → Nat → Nat → ℝ}

/-- an exchange matrix averaged over `m` is a contraction with the averaged integrals -/
theorem shell_sum (lmax N l a b : Nat) (P : Nat → Nat → Nat → ℝ) :
    -(1 / (2 * l + 1 : ℝ)) * ∑ mo ∈ Icc (-(l : Int)) l, ∑ li ∈ range (lmax + 1), ∑ mi ∈ Icc (-(li : Int)) li, ∑ c ∈ range N, ∑ d ∈ range N,
        eri G fac (2 * lmax + 1) radial ((li, mi), c) ((l, mo), a) ((l, mo), b) ((li, mi), d) * P li c d =
      -∑ l' ∈ range (lmax + 1), ∑ c ∈ range N, ∑ d ∈ range N, Spec.shellKernel G fac lmax radial l l' a b c d * ((2 * l' + 1) * P l' c d) := by
  have hmo : ∀ mo : Int, ∑ li ∈ range (lmax + 1), ∑ mi ∈ Icc (-(li : Int)) li, ∑ c ∈ range N, ∑ d ∈ range N,
        eri G fac (2 * lmax + 1) radial ((li, mi), c) ((l, mo), a) ((l, mo), b) ((li, mi), d) * P li c d =
      ∑ li ∈ range (lmax + 1), ∑ c ∈ range N, ∑ d ∈ range N, (∑ mi ∈ Icc (-(li : Int)) li,
        eri G fac (2 * lmax + 1) radial ((li, mi), c) ((l, mo), a) ((l, mo), b) ((li, mi), d)) * P li c d := by
    intro mo
    refine sum_congr rfl fun li _ => ?_
    rw [sum_comm]
    refine sum_congr rfl fun c _ => ?_
    rw [sum_comm]
    exact sum_congr rfl fun d _ => (sum_mul _ _ _).symm
  rw [sum_congr rfl fun mo _ => hmo mo, sum_comm, neg_mul, mul_sum]
  congr 1
  refine sum_congr rfl fun li _ => ?_
  rw [sum_comm, mul_sum]
  refine sum_congr rfl fun c _ => ?_
  rw [sum_comm, mul_sum]
  refine sum_congr rfl fun d _ => ?_
  rw [← sum_mul]
  unfold Spec.shellKernel
  have h1 : (2 * (l : ℝ) + 1) ≠ 0 := by positivity
  have h2 : (2 * (li : ℝ) + 1) ≠ 0 := by positivity
  field_simp

theorem shell_symm (hG : Gaunt.Symmetric G) (hS : Selection G) (lmax : Nat) (h1 : ∀ L < 2 * lmax + 1, ∀ a b c d, radial L a b c d = radial L b a c d)
    (h3 : ∀ L < 2 * lmax + 1, ∀ a b c d, radial L a b c d = radial L c d a b) : Spec.ExchangeSymm (Spec.shellKernel G fac lmax radial) where
  shells l l' a b c d := by
    unfold Spec.shellKernel
    rw [sum_comm, mul_comm (2 * (l : ℝ) + 1)]
    congr 1
    refine sum_congr rfl fun m' _ => sum_congr rfl fun m _ => ?_
    exact C60_eri_conj hG hS _ _ _ h1 (fun L hL a b c d => by rw [h3 L hL, h1 L hL, h3 L hL]) _ _ _ _
  transpose l l' a b c d := by
    unfold Spec.shellKernel
    congr 1
    exact sum_congr rfl fun m' _ => sum_congr rfl fun m _ => C60_eri_electrons _ _ _ h1 h3 _ _ _ _

theorem erfc_swap {nl ne : Nat} {first last : Nat → Nat} {T : Nat → Nat → Nat → Mat ℝ} (hT : Spec.Swaps nl ne first last T) (L : Nat) (hL : L < nl) (a b c d : Nat) :
    fourIndex ne first last (fun e1 e2 a b c d => (T L e1 e2).get (b * cnt first last e1 + a) (d * cnt first last e2 + c)) a b c d =
      fourIndex ne first last (fun e1 e2 a b c d => (T L e1 e2).get (b * cnt first last e1 + a) (d * cnt first last e2 + c)) c d a b := by
  unfold fourIndex
  rw [sum_comm]
  apply sum_congr rfl; intro e1 he1
  apply sum_congr rfl; intro e2 he2
  have he1 := Finset.mem_range.1 he1
  have he2 := Finset.mem_range.1 he2
  by_cases hc : ((first e2 ≤ a ∧ a ≤ last e2) ∧ (first e2 ≤ b ∧ b ≤ last e2)) ∧ ((first e1 ≤ c ∧ c ≤ last e1) ∧ (first e1 ≤ d ∧ d ≤ last e1))
  · rw [if_pos hc, if_pos (by tauto)]
    exact hT L hL e2 he2 e1 he1 _ (pair_lt (by omega) (by omega)) _ (pair_lt (by omega) (by unfold cnt; omega))
  · rw [if_neg hc, if_neg (by tauto)]

/-- the Coulomb and unscreened exchange routines read the unscreened caches only -/
theorem plain_congr {R : Radial} {c c' : Caches} (h1 : c'.small = c.small) (h2 : c'.big = c.big) (h3 : c'.chol = c.chol) :
    (∀ P, sadCoulomb R c' P = sadCoulomb R c P) ∧ ∀ sched order lmax P, sadExchange G sched order lmax R c' P = sadExchange G sched order lmax R c P := by
  constructor
  · intro P
    unfold sadCoulomb radialJ
    rw [h1, h2, h3]
  · intro sched order lmax P
    unfold sadExchange
    have : radialK R c' = radialK R c := by
      funext L P
      unfold radialK
      rw [h1, h2, h3]
    rw [h3, this]

/-- the caches after the screened integrals were computed -/
theorem screened_keeps {lm : List (Int × Int)} {R : Radial} (pr : Prims) (o : Op) (ho : o.isTei = false) {c d : Caches} (h : o.run lm R pr c = .ok d) :
    d.small = c.small ∧ d.big = c.big ∧ d.chol = c.chol := (op_effect pr o c c d d h h).2 ho

variable {s : Setup} {k : Spec.Kernels}

theorem jMat_symm {N : Nat} {q : Nat → Nat → Nat → Nat → ℝ} (hq : ∀ a b c d, q a b c d = q b a c d) (P : Matrix (Fin N) (Fin N) ℝ) : (jMat q P)ᵀ = jMat q P := by
  ext a b
  show jMat q P b a = jMat q P a b
  unfold jMat
  exact sum_congr rfl fun c _ => sum_congr rfl fun d _ => by rw [hq b a]

theorem kMat_symm {N lmax : Nat} {κ : Nat → Nat → Nat → Nat → Nat → Nat → ℝ} (hκ : ∀ l l' a b c d, κ l l' a b c d = κ l l' b a d c) {D : Nat → Matrix (Fin N) (Fin N) ℝ}
    (hD : ∀ l, (D l)ᵀ = D l) (l : Nat) : (kMat lmax κ D l)ᵀ = kMat lmax κ D l := by
  ext a b
  show kMat lmax κ D l b a = kMat lmax κ D l a b
  unfold kMat
  refine sum_congr rfl fun l' _ => ?_
  rw [sum_comm]
  refine sum_congr rfl fun c _ => sum_congr rfl fun d _ => ?_
  rw [hκ l l' b a d c, show D l' d c = D l' c d from congrFun (congrFun (hD l') c) d]

theorem single_transpose (s : Setup) (l : Nat) (a b : Fin s.N) :
    Spec.perSolidAngle s (fun k => if k = l then Matrix.single b a 1 else 0) = ⟨s.lmax + 1, fun k i j => (Spec.perSolidAngle s (fun k => if k = l then Matrix.single a b 1 else 0)).D k j i⟩ := by
  unfold Spec.perSolidAngle
  congr 1
  funext k i j
  by_cases h : i < s.N ∧ j < s.N
  · simp only [dif_pos h, dif_pos (show j < s.N ∧ i < s.N from ⟨h.2, h.1⟩)]
    by_cases hk : k = l
    · simp only [if_pos hk, Matrix.single_apply]
      by_cases ha : a = ⟨j, h.2⟩ <;> by_cases hb : b = ⟨i, h.1⟩ <;> simp [ha, hb]
    · simp only [if_neg hk, Matrix.zero_apply]
  · simp only [dif_neg h, dif_neg (show ¬ (j < s.N ∧ i < s.N) from fun h' => h ⟨h'.2, h'.1⟩)]

theorem xcMat_symm (s : Setup) (D : Nat → Matrix (Fin s.N) (Fin s.N) ℝ) (l : Nat) : (xcMat s D l)ᵀ = xcMat s D l := by
  ext a b
  show xcMat s D l b a = xcMat s D l a b
  unfold xcMat
  congr 1
  refine List.map_congr_left fun x _ => ?_
  rw [single_transpose]
  exact chan_transpose _ _ _ _ _ _ _

theorem xcMatA_symm (s : Setup) (A B : Nat → Matrix (Fin s.N) (Fin s.N) ℝ) (l : Nat) : (xcMatA s A B l)ᵀ = xcMatA s A B l := by
  ext a b
  show xcMatA s A B l b a = xcMatA s A B l a b
  unfold xcMatA
  congr 1
  refine List.map_congr_left fun x _ => ?_
  rw [single_transpose]
  exact chan_transpose _ _ _ _ _ _ _

theorem xcMatB_symm (s : Setup) (A B : Nat → Matrix (Fin s.N) (Fin s.N) ℝ) (l : Nat) : (xcMatB s A B l)ᵀ = xcMatB s A B l := by
  ext a b
  show xcMatB s A B l b a = xcMatB s A B l a b
  unfold xcMatB
  congr 1
  refine List.map_congr_left fun x _ => ?_
  rw [single_transpose]
  exact chan_transpose _ _ _ _ _ _ _

theorem mixed_transpose {c : Caches} (hk : Spec.Represents s c k) (l l' a b c d : Nat) : mixed s k l l' a b c d = mixed s k l l' b a d c := by
  unfold mixed
  rw [hk.full_symm.transpose l l' a b c d]
  by_cases h : s.kshort = 0
  · rw [h]; ring
  · rw [(hk.short_symm h).transpose l l' a b c d]

theorem fockMat_symm (h : Spec.OneSymm s) {J H K : Matrix (Fin s.N) (Fin s.N) ℝ} (hJ : Jᵀ = J) (hH : Hᵀ = H) (hK : Kᵀ = K) (l : Nat) : (fockMat s J l H K)ᵀ = fockMat s J l H K := by
  unfold fockMat
  simp only [transpose_add, transpose_smul, h.T, h.Tl, h.Vnuc, hJ, hH, hK]
  congr 4
  split
  · exact h.Vconf
  · exact transpose_zero

theorem fockR_symm {c : Caches} (h : Spec.OneSymm s) (hk : Spec.Represents s c k) {D : Nat → Matrix (Fin s.N) (Fin s.N) ℝ} (hD : ∀ l, (D l)ᵀ = D l) (l : Nat) :
    (fockR s k D l)ᵀ = fockR s k D l := by
  refine fockMat_symm h (jMat_symm hk.coulomb_pair _) (xcMat_symm _ _ _) ?_ l
  rw [transpose_smul, kMat_symm (mixed_transpose hk) hD]

theorem fockA_symm {c : Caches} (h : Spec.OneSymm s) (hk : Spec.Represents s c k) {A B : Nat → Matrix (Fin s.N) (Fin s.N) ℝ} (hA : ∀ l, (A l)ᵀ = A l) (l : Nat) :
    (fockA s k A B l)ᵀ = fockA s k A B l := by
  refine fockMat_symm h (jMat_symm hk.coulomb_pair _) (xcMatA_symm _ _ _ _) ?_ l
  rw [transpose_neg, kMat_symm (mixed_transpose hk) hA]

theorem fockB_symm {c : Caches} (h : Spec.OneSymm s) (hk : Spec.Represents s c k) {A B : Nat → Matrix (Fin s.N) (Fin s.N) ℝ} (hB : ∀ l, (B l)ᵀ = B l) (l : Nat) :
    (fockB s k A B l)ᵀ = fockB s k A B l := by
  unfold fockB
  split
  · refine fockMat_symm h (jMat_symm hk.coulomb_pair _) (xcMatB_symm _ _ _ _) ?_ l
    rw [transpose_neg, kMat_symm (mixed_transpose hk) hB]
  · exact fockMat_symm h (jMat_symm hk.coulomb_pair _) transpose_zero transpose_zero l

theorem block_symm {N M : Nat} (X : Matrix (Fin N) (Fin M) ℝ) {F : Matrix (Fin N) (Fin N) ℝ} (h : Fᵀ = F) : (Xᵀ * F * X)ᵀ = Xᵀ * F * X := by
  rw [transpose_mul, transpose_mul, h, transpose_transpose, Matrix.mul_assoc]

/-- the orthonormal derivative of the density pairs with the orthonormal Fock matrix -/
theorem trace_back {N M : Nat} (X : Matrix (Fin N) (Fin M) ℝ) (F : Matrix (Fin N) (Fin N) ℝ) (Δ : Matrix (Fin M) (Fin M) ℝ) : (F * (X * Δ * Xᵀ)).trace = ((Xᵀ * F * X) * Δ).trace := by
  rw [← Matrix.mul_assoc, ← Matrix.mul_assoc, Matrix.trace_mul_comm, ← Matrix.mul_assoc, ← Matrix.mul_assoc]

theorem moves_density {N M L : Nat} (X : Matrix (Fin N) (Fin M) ℝ) {o : ℝ → Nat → Dens.Orbs M} {Δ : Nat → Matrix (Fin M) (Fin M) ℝ} {t0 : ℝ}
    (h : Moves L (fun t l => Spec.orthDensity (o t l)) Δ t0) : Moves L (fun t l => Spec.density X (o t l)) (fun l => X * Δ l * Xᵀ) t0 := by
  intro l hl i j
  simp only [Spec.density, Matrix.mul_apply, Matrix.transpose_apply]
  exact HasDerivAt.fun_sum fun b _ => (HasDerivAt.fun_sum fun a _ => (h l hl a b).const_mul (X i a)).mul_const (X j b)

/-- an occupation moves -/
theorem moves_occ {M : Nat} (o : Dens.Orbs M) (i : Fin o.p) (a b : Fin M) :
    HasDerivAt (fun t => Spec.orthDensity ⟨o.p, o.C, Function.update o.occ i t⟩ a b) (o.C a i * o.C b i) (o.occ i) := by
  simp only [Spec.orthDensity, Matrix.mul_apply, Matrix.transpose_apply, Matrix.diagonal_apply, mul_ite, mul_zero, sum_ite_eq', mem_univ, if_true]
  have h : ∀ j, HasDerivAt (fun t => o.C a j * Function.update o.occ i t j * o.C b j) (if j = i then o.C a i * o.C b i else 0) (o.occ i) := by
    intro j
    by_cases hj : j = i
    · subst hj
      simp only [Function.update_self, if_pos]
      simpa using ((hasDerivAt_id (o.occ j)).const_mul (o.C a j)).mul_const (o.C b j)
    · simp only [Function.update_of_ne hj, if_neg hj]
      exact hasDerivAt_const _ _
  show HasDerivAt (fun t => ∑ j : Fin o.p, o.C a j * Function.update o.occ i t j * o.C b j) (o.C a i * o.C b i) (o.occ i)
  refine (HasDerivAt.fun_sum (u := univ) fun j _ => h j).congr_deriv ?_
  rw [sum_ite_eq' univ i, if_pos (mem_univ i)]

theorem trace_occ {M p : Nat} (F : Matrix (Fin M) (Fin M) ℝ) (C : Matrix (Fin M) (Fin p) ℝ) (i : Fin p) : (F * Matrix.of fun a b => C a i * C b i).trace = (Cᵀ * F * C) i i := by
  rw [trace_sum_mul]
  simp only [Matrix.mul_apply, Matrix.transpose_apply, Matrix.of_apply, sum_mul]
  rw [sum_comm]
  refine sum_congr rfl fun a _ => sum_congr rfl fun b _ => ?_
  ring

/-- the orbitals move -/
theorem moves_orb {M p : Nat} {C : ℝ → Matrix (Fin M) (Fin p) ℝ} {C' : Matrix (Fin M) (Fin p) ℝ} {t0 : ℝ} (n : Fin p → ℝ) (h : ∀ a i, HasDerivAt (fun t => C t a i) (C' a i) t0)
    (a b : Fin M) : HasDerivAt (fun t => Spec.orthDensity ⟨p, C t, n⟩ a b) ((C' * diagonal n * (C t0)ᵀ + C t0 * diagonal n * C'ᵀ) a b) t0 := by
  simp only [Spec.orthDensity, Matrix.add_apply, Matrix.mul_apply, Matrix.transpose_apply, Matrix.diagonal_apply, mul_ite, mul_zero, sum_ite_eq', mem_univ, if_true]
  rw [← sum_add_distrib]
  exact HasDerivAt.fun_sum (u := (univ : Finset (Fin p))) fun i _ => ((h a i).mul_const (n i)).fun_mul (h b i)

/-- eigenvectors that stay normalised do not change `tr F P` to first order -/
theorem trace_orb {M p : Nat} {F : Matrix (Fin M) (Fin M) ℝ} (hF : Fᵀ = F) {C : ℝ → Matrix (Fin M) (Fin p) ℝ} {C' : Matrix (Fin M) (Fin p) ℝ} {t0 : ℝ} (n ε : Fin p → ℝ)
    (h : ∀ a i, HasDerivAt (fun t => C t a i) (C' a i) t0) (hn : ∀ t i, ∑ a, C t a i ^ 2 = 1) (he : F * C t0 = C t0 * diagonal ε) :
    (F * (C' * diagonal n * (C t0)ᵀ + C t0 * diagonal n * C'ᵀ)).trace = 0 := by
  have h0 : ∀ i, ∑ a, C t0 a i * C' a i = 0 := by
    intro i
    have hd : HasDerivAt (fun t => ∑ a, C t a i ^ 2) (∑ a, 2 * (C t0 a i * C' a i)) t0 := by
      refine HasDerivAt.fun_sum fun a _ => ((h a i).pow 2).congr_deriv ?_
      simp only [Nat.cast_ofNat, Nat.add_one_sub_one, pow_one]
      ring
    have hc : (fun t => ∑ a, C t a i ^ 2) = fun _ => (1 : ℝ) := funext fun t => hn t i
    rw [hc] at hd
    have := hd.unique (hasDerivAt_const t0 (1 : ℝ))
    rw [← mul_sum] at this
    linarith
  have h1 : (F * (C t0 * diagonal n * C'ᵀ)).trace = 0 := by
    rw [← Matrix.mul_assoc, ← Matrix.mul_assoc, he, Matrix.mul_assoc (C t0), diagonal_mul_diagonal, Matrix.mul_assoc, Matrix.trace_mul_comm, Matrix.mul_assoc]
    simp only [Matrix.trace, Matrix.diag_apply]
    refine sum_eq_zero fun i _ => ?_
    rw [Matrix.diagonal_mul]
    have : (C'ᵀ * C t0) i i = 0 := by
      rw [Matrix.mul_apply, ← h0 i]
      exact sum_congr rfl fun a _ => by rw [Matrix.transpose_apply]; ring
    rw [this, mul_zero]
  have h2 : (F * (C' * diagonal n * (C t0)ᵀ)).trace = (F * (C t0 * diagonal n * C'ᵀ)).trace := by
    rw [← Matrix.trace_transpose, transpose_mul, transpose_mul, transpose_mul, transpose_transpose, diagonal_transpose, hF, Matrix.trace_mul_comm, Matrix.mul_assoc]
  rw [Matrix.mul_add, Matrix.trace_add, h2, h1, add_zero]

end SadSCF
end HelFEM
