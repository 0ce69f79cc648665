import Verif.Lemmas.AtomicCache
import Verif.Props.CoulombExchange

/-!
# C60–C62: Coulomb and exchange matrices of the atomic basis

`eri` (specification file) is the electron repulsion integral of two orbital pairs as a sum over all multipoles. `Ints` says that the radial
integrals are what quadrature over products of real functions yields: symmetric moments, positive semidefinite in-element integrals.
-/

namespace HelFEM
namespace AtomJK
open Finset Spec TwoE Sym

variable {G : Nat → Int → Nat → Int → Nat → Int → ℝ} {lm : List (Int × Int)} {lmax : Nat} {R : Radial} {ne N : Nat} {first last : Nat → Nat}

/-- the integrals `(ij|kl)` of the functions of the basis, numbered as in the matrices -/
noncomputable def basisEri (G : Nat → Int → Nat → Int → Nat → Int → ℝ) (fac : Nat → ℝ) (nL : Nat) (radial : Nat → Nat → Nat → Nat → Nat → ℝ) (lm : List (Int × Int))
    (nrad i j k l : Nat) : ℝ := eri G fac nL radial (orbital lm nrad i) (orbital lm nrad j) (orbital lm nrad k) (orbital lm nrad l)

/-- **C60.** After `compute_tei` the Coulomb matrix of any density is `Σ_kl (ij|kl) P_kl` and the exchange matrix `-Σ_il (ij|kl) P_il` with the
screened density, with one and the same set of integrals. These have the in-element radial integrals replaced by approximations within
`tol`. The results do not depend on the schedules of the parallel loops. -/
theorem C60_coulomb_exchange (hG : Gaunt.Symmetric G) (hS : Selection G) (hA : Angular lm lmax) (h : Layout R ne N first last) (hne : 0 < ne) (pr : Prims)
    {S B T : Nat → Nat → Mat ℝ} (hI : Ints pr.small pr.big pr.twoe (2 * lmax + 1) ne first last S B T) (tol : ℝ) (ht : 0 ≤ tol) (c0 : Caches) :
    ∃ c, computeTei lm R pr tol c0 = .ok c ∧ ∃ T', Approx (2 * lmax + 1) ne first last tol T T' ∧
      (∀ (sched : List Nat), sched.Perm (List.range (2 * lmax + 1)) → ∀ P : Mat ℝ, P.rows = lm.length * N → P.cols = lm.length * N →
        ∃ J, coulomb G sched lm R c P = .ok J ∧ J.rows = lm.length * N ∧ J.cols = lm.length * N ∧ ∀ i < lm.length * N, ∀ j < lm.length * N,
          J.get i j = ∑ k ∈ range (lm.length * N), ∑ l ∈ range (lm.length * N),
            basisEri G bareFac (2 * lmax + 1) (radialOf ne first last S B T') lm N i j k l * P.get k l) ∧
      (∀ (sched : List Nat), sched.Perm (List.range (2 * lmax + 1)) → ∀ (order : List (Nat × Nat)), order.Perm (allPairs lm.length) → ∀ (thr : ℝ) (P : Mat ℝ),
        P.rows = lm.length * N → P.cols = lm.length * N →
        ∃ K, exchange G sched order lm R c thr P = .ok K ∧ K.rows = lm.length * N ∧ K.cols = lm.length * N ∧ ∀ j < lm.length * N, ∀ k < lm.length * N,
          K.get j k = -∑ i ∈ range (lm.length * N), ∑ l ∈ range (lm.length * N),
            basisEri G bareFac (2 * lmax + 1) (radialOf ne first last S B T') lm N i j k l * screened N thr P.get i l) := by
  obtain ⟨cs, cb, cc, s1, b1, c1, c2, T', hT, hJ, hK⟩ := kernel_ok h hI tol ht
  refine ⟨{ c0 with small := cs, big := cb, chol := cc }, ?_, T', hT, ?_, ?_⟩
  · unfold computeTei
    rw [hA.num, Res.ok_bind, s1, Res.ok_bind, b1, Res.ok_bind, c1, Res.ok_bind]
    rfl
  · intro sched hs P p1 p2
    obtain ⟨T0, t1, t2⟩ := gauntTable_looks hG hA sched hs
    unfold coulomb
    rw [if_neg (by simp only; rw [c2]; have := Nat.mul_pos (show 0 < 2 * lmax + 1 by omega) hne; omega), t1, Res.ok_bind, h.nbf]
    exact coulombWith_ok hG hS hA t2 hJ P p1 p2
  · intro sched hs order ho thr P p1 p2
    obtain ⟨T0, t1, t2⟩ := gauntTable_looks hG hA sched hs
    unfold exchange
    rw [if_neg (by simp only; rw [c2]; have := Nat.mul_pos (show 0 < 2 * lmax + 1 by omega) hne; omega), t1, Res.ok_bind, h.nbf]
    exact exchangeWith_ok hG hS hA t2 bareFac thr hK (fun L hL a b c d => radialOf_pair h hI hT L hL a b c d) order ho P p1 p2

/-- **C60, before `compute_tei`.** Coulomb and exchange throw a logic error. -/
theorem C60_not_computed (y : Bool) (lam : ℝ) (sched : List Nat) (order : List (Nat × Nat)) (thr : ℝ) (P : Mat ℝ) :
    coulomb G sched lm R (Caches.fresh y lam) P = .throw .logicError ∧ exchange G sched order lm R (Caches.fresh y lam) thr P = .throw .logicError ∧
      rsExchange G sched order lm R (Caches.fresh y lam) thr P = .throw .logicError :=
  ⟨rfl, rfl, rfl⟩

/-- **C60, completeness.** No multipole is missing: higher ones do not couple the functions of the basis. -/
theorem C60_all_multipoles (hG : Gaunt.Symmetric G) (hS : Selection G) (hA : Angular lm lmax) (fac : Nat → ℝ) (radial : Nat → Nat → Nat → Nat → Nat → ℝ)
    (nL : Nat) (hL : 2 * lmax + 1 ≤ nL) (i j k l : Nat) (hi : i < lm.length * N) (hj : j < lm.length * N) :
    basisEri G fac nL radial lm N i j k l = basisEri G fac (2 * lmax + 1) radial lm N i j k l := by
  unfold basisEri eri
  symm
  apply sum_subset
  · intro L hL'; exact Finset.mem_range.2 (lt_of_lt_of_le (Finset.mem_range.1 hL') hL)
  · intro L _ hL'
    have hL' : 2 * lmax + 1 ≤ L := by simpa using hL'
    apply sum_eq_zero
    intro M _
    have ha : (orbital lm N i).1 ∈ lm := (readAt_lm (Nat.div_lt_of_lt_mul (by rw [Nat.mul_comm]; exact hi))).2
    have hb : (orbital lm N j).1 ∈ lm := (readAt_lm (Nat.div_lt_of_lt_mul (by rw [Nat.mul_comm]; exact hj))).2
    have := hA.valid _ ha
    have := hA.valid _ hb
    have := abs_nonneg (orbital lm N i).1.2
    have := abs_nonneg (orbital lm N j).1.2
    rw [sphere_zero hG hS _ _ (by omega) (by omega) L M (Or.inr (Or.inl (by omega)))]
    simp

theorem radialOf_congr {nl : Nat} (h : Layout R ne N first last) (S B T : Nat → Nat → Mat ℝ) {T' : Nat → Nat → Nat → Nat → ℝ} (hT : Approx nl ne first last 0 T T') (L : Nat)
    (hL : L < nl) (a b c d : Nat) : radialOf ne first last S B T' L a b c d = radialOf ne first last S B (fun L e => (T L e).get) L a b c d := by
  unfold radialOf fourIndex
  apply sum_congr rfl; intro e1 he1
  apply sum_congr rfl; intro e2 he2
  have he1 := Finset.mem_range.1 he1
  by_cases hc : ((first e1 ≤ a ∧ a ≤ last e1) ∧ (first e1 ≤ b ∧ b ≤ last e1)) ∧ ((first e2 ≤ c ∧ c ≤ last e2) ∧ (first e2 ≤ d ∧ d ≤ last e2))
  · rw [if_pos hc, if_pos hc]
    have ha : a - first e1 < cnt first last e1 := by unfold cnt; omega
    have hb : b - first e1 < cnt first last e1 := by unfold cnt; omega
    unfold multipoleBlk
    by_cases h1 : e1 = e2
    · subst h1
      have hcc : c - first e1 < cnt first last e1 := by unfold cnt; omega
      have hd : d - first e1 < cnt first last e1 := by unfold cnt; omega
      rw [if_pos rfl, if_pos rfl]
      have := hT.close L hL e1 he1 _ (pair_lt hb ha) _ (pair_lt hd hcc)
      have := abs_nonpos_iff.1 this
      linarith
    · rw [if_neg h1, if_neg h1]
  · rw [if_neg hc, if_neg hc]

/-- **C60, full factorisation.** With the threshold at zero the radial integrals are the given ones. -/
theorem C60_exact {nl : Nat} (h : Layout R ne N first last) (S B T : Nat → Nat → Mat ℝ) {T' : Nat → Nat → Nat → Nat → ℝ} (hT : Approx nl ne first last 0 T T')
    (fac : Nat → ℝ) (i j k l : Nat) :
    basisEri G fac nl (radialOf ne first last S B T') lm N i j k l = basisEri G fac nl (radialOf ne first last S B (fun L e => (T L e).get)) lm N i j k l := by
  unfold basisEri eri
  apply sum_congr rfl; intro L hL
  apply sum_congr rfl; intro M _
  rw [radialOf_congr h S B T hT L (Finset.mem_range.1 hL)]

/-! ### symmetries -/

theorem sphere_flip (hG : Gaunt.Symmetric G) (hS : Selection G) (a b : Int × Int) (L : Nat) (M : Int) :
    sphere G b L (-M) a = (if M % 2 = 0 then 1 else -1) * sphere G a L M b := by
  by_cases hM : M = a.2 - b.2
  · unfold sphere
    have e : G b.1.toNat (-b.2) L (-M) a.1.toNat a.2 = G a.1.toNat (-a.2) L M b.1.toNat b.2 := by
      rw [hG.neg _ _ _ _ _ _ (by omega), hG.swap12 _ _ _ _ _ _ (by omega), hG.swap23 _ _ _ _ _ _ (by omega), hG.swap12 _ _ _ _ _ _ (by omega)]
      simp only [neg_neg]
    rw [e, ← mul_assoc]
    congr 1
    split_ifs <;> first | omega | norm_num
  · rw [sphere_sel hS b a L (-M) (by omega), sphere_sel hS a b L M hM, mul_zero]

theorem sum_neg_M (L : Nat) (f : Int → ℝ) : ∑ M ∈ Icc (-(L : Int)) L, f (-M) = ∑ M ∈ Icc (-(L : Int)) L, f M := by
  apply sum_bij (fun M _ => -M)
  · intro M hM; rw [Finset.mem_Icc] at hM ⊢; omega
  · intro a _ b _ h; omega
  · intro M hM; exact ⟨-M, by rw [Finset.mem_Icc] at hM ⊢; omega, by omega⟩
  · intro M _; rfl

/-- **C60, symmetry.** `(pq|rs) = (qp|sr)` -/
theorem C60_eri_conj (hG : Gaunt.Symmetric G) (hS : Selection G) (fac : Nat → ℝ) (nL : Nat) (radial : Nat → Nat → Nat → Nat → Nat → ℝ)
    (h1 : ∀ L < nL, ∀ a b c d, radial L a b c d = radial L b a c d) (h2 : ∀ L < nL, ∀ a b c d, radial L a b c d = radial L a b d c) (p q r s : (Int × Int) × Nat) :
    eri G fac nL radial p q r s = eri G fac nL radial q p s r := by
  unfold eri
  apply sum_congr rfl; intro L hL
  have hL := Finset.mem_range.1 hL
  rw [← sum_neg_M L (fun M => fac L * (sphere G p.1 L M q.1 * sphere G s.1 L M r.1) * radial L q.2 p.2 s.2 r.2)]
  apply sum_congr rfl; intro M _
  rw [sphere_flip hG hS q.1 p.1 L M, sphere_flip hG hS r.1 s.1 L M, h1 L hL, h2 L hL]
  split_ifs <;> ring

/-- **C60, symmetry.** `(pq|rs) = (sr|qp)` -/
theorem C60_eri_electrons (fac : Nat → ℝ) (nL : Nat) (radial : Nat → Nat → Nat → Nat → Nat → ℝ)
    (h1 : ∀ L < nL, ∀ a b c d, radial L a b c d = radial L b a c d) (h3 : ∀ L < nL, ∀ a b c d, radial L a b c d = radial L c d a b) (p q r s : (Int × Int) × Nat) :
    eri G fac nL radial p q r s = eri G fac nL radial s r q p := by
  unfold eri
  apply sum_congr rfl; intro L hL
  have hL := Finset.mem_range.1 hL
  apply sum_congr rfl; intro M _
  rw [h1 L hL, h3 L hL, h1 L hL s.2 r.2 q.2 p.2, h3 L hL r.2]
  ring

theorem screened_symm (nrad : Nat) (thr : ℝ) (P : Nat → Nat → ℝ) (n : Nat) (hn : 0 < nrad) (hP : ∀ i < n * nrad, ∀ j < n * nrad, P i j = P j i) (i l : Nat) (hi : i < n * nrad)
    (hl : l < n * nrad) : screened nrad thr P i l = screened nrad thr P l i := by
  unfold screened
  have hb : ∀ x : Nat, x < n * nrad → ∀ a < nrad, x / nrad * nrad + a < n * nrad := by
    intro x hx a ha
    have : x / nrad < n := Nat.div_lt_of_lt_mul (by rw [Nat.mul_comm]; exact hx)
    have := block_fits (nrad := nrad) this
    omega
  have e : (∑ a ∈ range nrad, ∑ b ∈ range nrad, P (i / nrad * nrad + a) (l / nrad * nrad + b) * P (i / nrad * nrad + a) (l / nrad * nrad + b)) =
      ∑ a ∈ range nrad, ∑ b ∈ range nrad, P (l / nrad * nrad + a) (i / nrad * nrad + b) * P (l / nrad * nrad + a) (i / nrad * nrad + b) := by
    rw [sum_comm]
    apply sum_congr rfl; intro b hb'
    apply sum_congr rfl; intro a ha'
    rw [hP _ (hb i hi a (Finset.mem_range.1 ha')) _ (hb l hl b (Finset.mem_range.1 hb'))]
  rw [e, hP i hi l hl]

/-- **C60, symmetry.** Coulomb and exchange matrices of a symmetric density are symmetric, at any factorisation threshold. -/
theorem C60_symmetric (hG : Gaunt.Symmetric G) (hS : Selection G) (hA : Angular lm lmax) (h : Layout R ne N first last) (hne : 0 < ne) (pr : Prims)
    {S B T : Nat → Nat → Mat ℝ} (hI : Ints pr.small pr.big pr.twoe (2 * lmax + 1) ne first last S B T) (tol : ℝ) (ht : 0 ≤ tol) (c0 c : Caches)
    (hc : computeTei lm R pr tol c0 = .ok c) (sched : List Nat) (hs : sched.Perm (List.range (2 * lmax + 1)))
    (sched' : List Nat) (hs' : sched'.Perm (List.range (2 * lmax + 1))) (order : List (Nat × Nat))
    (ho : order.Perm (allPairs lm.length)) (thr : ℝ) (P J K : Mat ℝ) (p1 : P.rows = lm.length * N) (p2 : P.cols = lm.length * N)
    (hP : ∀ i < lm.length * N, ∀ j < lm.length * N, P.get i j = P.get j i) (hJ : coulomb G sched lm R c P = .ok J) (hK : exchange G sched' order lm R c thr P = .ok K)
    (i j : Nat) (hi : i < lm.length * N) (hj : j < lm.length * N) : J.get i j = J.get j i ∧ K.get i j = K.get j i := by
  obtain ⟨c', k1, T', hT, kJ, kK⟩ := C60_coulomb_exchange hG hS hA h hne pr hI tol ht c0
  rw [k1] at hc
  injection hc with hc
  subst hc
  obtain ⟨J', j1, _, _, j4⟩ := kJ sched hs P p1 p2
  obtain ⟨K', l1, _, _, l4⟩ := kK sched' hs' order ho thr P p1 p2
  rw [hJ] at j1; injection j1 with j1; subst j1
  rw [hK] at l1; injection l1 with l1; subst l1
  have hN : 0 < N := Nat.pos_of_ne_zero (by rintro rfl; simp at hi)
  have r1 := radialOf_pair h hI hT
  have r3 := fun L hL a b c d => radialOf_swap (S := S) (B := B) h hT L hL a b c d
  have r2 : ∀ L < 2 * lmax + 1, ∀ a b c d, radialOf ne first last S B T' L a b c d = radialOf ne first last S B T' L a b d c := by
    intro L hL a b c d
    rw [r3 L hL a b c d, r1 L hL c d a b, r3 L hL d c a b]
  constructor
  · rw [j4 i hi j hj, j4 j hj i hi]
    symm
    rw [sum_comm]
    apply sum_congr rfl; intro k hk
    apply sum_congr rfl; intro l hl
    rw [hP l (Finset.mem_range.1 hl) k (Finset.mem_range.1 hk)]
    congr 1
    exact C60_eri_conj hG hS bareFac _ _ r1 r2 _ _ _ _
  · rw [l4 i hi j hj, l4 j hj i hi]
    congr 1
    symm
    rw [sum_comm]
    apply sum_congr rfl; intro k hk
    apply sum_congr rfl; intro l hl
    rw [screened_symm N thr P.get lm.length hN hP l k (Finset.mem_range.1 hl) (Finset.mem_range.1 hk)]
    congr 1
    exact C60_eri_electrons bareFac _ _ r1 r3 _ _ _ _

/-- **C61.** One electron does not interact with itself: for the density `P = c cᵀ` of a single orbital, none of whose nonzero blocks is
screened out, the Coulomb and the exchange energy cancel, however coarse the factorisation. -/
theorem C61_no_self_interaction (hG : Gaunt.Symmetric G) (hS : Selection G) (hA : Angular lm lmax) (h : Layout R ne N first last) (hne : 0 < ne) (pr : Prims)
    {S B T : Nat → Nat → Mat ℝ} (hI : Ints pr.small pr.big pr.twoe (2 * lmax + 1) ne first last S B T) (tol : ℝ) (ht : 0 ≤ tol) (c0 c : Caches)
    (hc : computeTei lm R pr tol c0 = .ok c) (sched : List Nat) (hs : sched.Perm (List.range (2 * lmax + 1)))
    (sched' : List Nat) (hs' : sched'.Perm (List.range (2 * lmax + 1))) (order : List (Nat × Nat))
    (ho : order.Perm (allPairs lm.length)) (thr : ℝ) (v : Nat → ℝ) (P J K : Mat ℝ) (p1 : P.rows = lm.length * N) (p2 : P.cols = lm.length * N)
    (hP : ∀ i < lm.length * N, ∀ j < lm.length * N, P.get i j = v i * v j)
    (hthr : ∀ i < lm.length * N, ∀ j < lm.length * N, screened N thr P.get i j = P.get i j)
    (hJ : coulomb G sched lm R c P = .ok J) (hK : exchange G sched' order lm R c thr P = .ok K) :
    ∑ i ∈ range (lm.length * N), ∑ j ∈ range (lm.length * N), P.get i j * (J.get i j + K.get i j) = 0 := by
  obtain ⟨c', k1, T', hT, kJ, kK⟩ := C60_coulomb_exchange hG hS hA h hne pr hI tol ht c0
  rw [k1] at hc
  injection hc with hc
  subst hc
  obtain ⟨J', j1, _, _, j4⟩ := kJ sched hs P p1 p2
  obtain ⟨K', l1, _, _, l4⟩ := kK sched' hs' order ho thr P p1 p2
  rw [hJ] at j1; injection j1 with j1; subst j1
  rw [hK] at l1; injection l1 with l1; subst l1
  obtain ⟨E, hE⟩ : ∃ E, E = basisEri G bareFac (2 * lmax + 1) (radialOf ne first last S B T') lm N := ⟨_, rfl⟩
  have a1 : ∑ i ∈ range (lm.length * N), ∑ j ∈ range (lm.length * N), P.get i j * J.get i j =
      ∑ i ∈ range (lm.length * N), ∑ j ∈ range (lm.length * N), ∑ k ∈ range (lm.length * N), ∑ l ∈ range (lm.length * N), E i j k l * (v i * v j * (v k * v l)) := by
    apply sum_congr rfl; intro i hi
    apply sum_congr rfl; intro j hj
    rw [j4 i (Finset.mem_range.1 hi) j (Finset.mem_range.1 hj), mul_sum]
    apply sum_congr rfl; intro k hk
    rw [mul_sum]
    apply sum_congr rfl; intro l hl
    rw [hP i (Finset.mem_range.1 hi) j (Finset.mem_range.1 hj), hP k (Finset.mem_range.1 hk) l (Finset.mem_range.1 hl), ← hE]
    ring
  have a2 : ∑ j ∈ range (lm.length * N), ∑ k ∈ range (lm.length * N), P.get j k * K.get j k =
      -∑ j ∈ range (lm.length * N), ∑ k ∈ range (lm.length * N), ∑ i ∈ range (lm.length * N), ∑ l ∈ range (lm.length * N), E i j k l * (v i * v j * (v k * v l)) := by
    rw [← sum_neg_distrib]
    apply sum_congr rfl; intro j hj
    rw [← sum_neg_distrib]
    apply sum_congr rfl; intro k hk
    rw [l4 j (Finset.mem_range.1 hj) k (Finset.mem_range.1 hk), mul_neg, mul_sum]
    congr 1
    apply sum_congr rfl; intro i hi
    rw [mul_sum]
    apply sum_congr rfl; intro l hl
    rw [hthr i (Finset.mem_range.1 hi) l (Finset.mem_range.1 hl), hP i (Finset.mem_range.1 hi) l (Finset.mem_range.1 hl),
      hP j (Finset.mem_range.1 hj) k (Finset.mem_range.1 hk), ← hE]
    ring
  have a3 : ∑ j ∈ range (lm.length * N), ∑ k ∈ range (lm.length * N), ∑ i ∈ range (lm.length * N), ∑ l ∈ range (lm.length * N), E i j k l * (v i * v j * (v k * v l)) =
      ∑ i ∈ range (lm.length * N), ∑ j ∈ range (lm.length * N), ∑ k ∈ range (lm.length * N), ∑ l ∈ range (lm.length * N), E i j k l * (v i * v j * (v k * v l)) := by
    symm
    rw [sum_comm]
    apply sum_congr rfl; intro j _
    rw [sum_comm]
  simp only [mul_add, sum_add_distrib]
  rw [a1, a2, a3]
  ring

/-! ### screened kernels -/

/-- **C62, Yukawa.** After `compute_yukawa(lambda)` the screened exchange matrix is `-Σ_il (ij|kl) P_il` with the integrals of the kernel
`4πλ Σ_LM i_L(λ r<) k_L(λ r>) conj(Y_LM) Y_LM`, the in-element radial integrals again within `tol`. -/
theorem C62_yukawa (hG : Gaunt.Symmetric G) (hS : Selection G) (hA : Angular lm lmax) (h : Layout R ne N first last) (hne : 0 < ne) (pr : Prims) (lam : ℝ)
    {S B T : Nat → Nat → Mat ℝ} (hI : Ints (pr.besselI lam) (pr.besselK lam) (pr.yukawa lam) (2 * lmax + 1) ne first last S B T) (tol : ℝ) (ht : 0 ≤ tol) (c0 : Caches) :
    ∃ c, computeYukawa lm R pr tol lam c0 = .ok c ∧ ∃ T', Approx (2 * lmax + 1) ne first last tol T T' ∧
      ∀ (sched : List Nat), sched.Perm (List.range (2 * lmax + 1)) → ∀ (order : List (Nat × Nat)), order.Perm (allPairs lm.length) → ∀ (thr : ℝ) (P : Mat ℝ),
        P.rows = lm.length * N → P.cols = lm.length * N →
        ∃ K, rsExchange G sched order lm R c thr P = .ok K ∧ K.rows = lm.length * N ∧ K.cols = lm.length * N ∧ ∀ j < lm.length * N, ∀ k < lm.length * N,
          K.get j k = -∑ i ∈ range (lm.length * N), ∑ l ∈ range (lm.length * N),
            basisEri G (fun _ => 4 * Real.pi * lam) (2 * lmax + 1) (radialOf ne first last S B T') lm N i j k l * screened N thr P.get i l := by
  obtain ⟨cs, cb, cc, s1, b1, c1, c2, T', hT, hJ, hK⟩ := kernel_ok h hI tol ht
  refine ⟨{ c0 with rsSmall := cs, rsBig := cb, rsChol := cc, yukawa := true, lambda := lam }, ?_, T', hT, ?_⟩
  · unfold computeYukawa
    rw [hA.num, Res.ok_bind, s1, Res.ok_bind, b1, Res.ok_bind, c1, Res.ok_bind]
    rfl
  · intro sched hs order ho thr P p1 p2
    obtain ⟨T0, t1, t2⟩ := gauntTable_looks hG hA sched hs
    unfold rsExchange
    rw [if_neg (by simp only; rw [c2]; have := Nat.mul_pos (show 0 < 2 * lmax + 1 by omega) hne; omega), t1, Res.ok_bind, h.nbf]
    exact exchangeWith_ok hG hS hA t2 (fun _ => 4 * Real.pi * lam) thr hK (fun L hL a b c d => radialOf_pair h hI hT L hL a b c d) order ho P p1 p2

/-- Integrals of a kernel that does not factorise: one tensor per multipole and pair of elements, not distinguishing the two functions of
the first pair. -/
structure PairInts (erfc : Nat → Nat → Nat → Res (Mat ℝ)) (nl ne : Nat) (first last : Nat → Nat) (T : Nat → Nat → Nat → Mat ℝ) : Prop where
  value : ∀ L < nl, ∀ e1 < ne, ∀ e2 < ne, erfc L e1 e2 = .ok (T L e1 e2) ∧ (T L e1 e2).rows = cnt first last e1 * cnt first last e1 ∧
    (T L e1 e2).cols = cnt first last e2 * cnt first last e2
  pair : ∀ L < nl, ∀ e1 < ne, ∀ e2 < ne, ∀ a < cnt first last e1, ∀ b < cnt first last e1, ∀ m < cnt first last e2 * cnt first last e2,
    (T L e1 e2).get (b * cnt first last e1 + a) m = (T L e1 e2).get (a * cnt first last e1 + b) m

/-- **C62, erfc.** After `compute_erfc(mu)` the screened exchange matrix is `-Σ_il (ij|kl) P_il` with the integrals of the kernel
`4πμ/(2L+1) Φ_L`. -/
theorem C62_erfc (hG : Gaunt.Symmetric G) (hS : Selection G) (hA : Angular lm lmax) (h : Layout R ne N first last) (hne : 0 < ne) (pr : Prims) (mu : ℝ)
    {T : Nat → Nat → Nat → Mat ℝ} (hI : PairInts (pr.erfc mu) (2 * lmax + 1) ne first last T) (c0 : Caches) :
    ∃ c, computeErfc lm R pr mu c0 = .ok c ∧
      ∀ (sched : List Nat), sched.Perm (List.range (2 * lmax + 1)) → ∀ (order : List (Nat × Nat)), order.Perm (allPairs lm.length) → ∀ (thr : ℝ) (P : Mat ℝ),
        P.rows = lm.length * N → P.cols = lm.length * N →
        ∃ K, rsExchange G sched order lm R c thr P = .ok K ∧ K.rows = lm.length * N ∧ K.cols = lm.length * N ∧ ∀ j < lm.length * N, ∀ k < lm.length * N,
          K.get j k = -∑ i ∈ range (lm.length * N), ∑ l ∈ range (lm.length * N),
            basisEri G (fun L => 4 * Real.pi * mu / (2 * L + 1)) (2 * lmax + 1) (fun L => fourIndex ne first last fun e1 e2 a b c d =>
              (T L e1 e2).get (b * cnt first last e1 + a) (d * cnt first last e2 + c)) lm N i j k l * screened N thr P.get i l := by
  have hx : ∀ L e1 e2, ∃ X, L < 2 * lmax + 1 → e1 < ne → e2 < ne → erfcKteiOf R (pr.erfc mu L) e1 e2 = .ok X := by
    intro L e1 e2
    by_cases hc : L < 2 * lmax + 1 ∧ e1 < ne ∧ e2 < ne
    · obtain ⟨v1, v2, v3⟩ := hI.value L hc.1 e1 hc.2.1 e2 hc.2.2
      obtain ⟨M, m1, _⟩ := C18_exchange (T L e1 e2) (cnt first last e1) (cnt first last e1) (cnt first last e2) (cnt first last e2) v2 v3
      refine ⟨M, fun _ _ _ => ?_⟩
      unfold erfcKteiOf
      rw [h.range e1 hc.2.1, h.range e2 hc.2.2]
      simp only [Res.ok_bind, v1]
      exact m1
    · exact ⟨Mat.zero 0 0, fun h1 h2 h3 => absurd ⟨h1, h2, h3⟩ hc⟩
  choose X hX using hx
  obtain ⟨k, k1, k2, k3⟩ := fillPairs_ok (2 * lmax + 1) ne (fun L => erfcKteiOf R (pr.erfc mu L)) X (fun L hL e he e' he' => hX L e e' hL he he')
  refine ⟨{ c0 with rsSmall := [], rsBig := [], rsKtei := k, yukawa := false, lambda := mu }, ?_, ?_⟩
  · unfold computeErfc
    rw [hA.num, Res.ok_bind, h.nel, k1, Res.ok_bind]
    rfl
  · intro sched hs order ho thr P p1 p2
    obtain ⟨T0, t1, t2⟩ := gauntTable_looks hG hA sched hs
    unfold rsExchange
    rw [if_neg (by simp only; rw [k2]; have := Nat.mul_pos (show 0 < 2 * lmax + 1 by omega) (Nat.mul_pos hne hne); omega), t1, Res.ok_bind, h.nbf]
    refine exchangeWith_ok hG hS hA t2 (fun L => 4 * Real.pi * mu / (2 * L + 1)) thr (radial := fun L => fourIndex ne first last fun e1 e2 a b c d =>
              (T L e1 e2).get (b * cnt first last e1 + a) (d * cnt first last e2 + c)) ?_ ?_ order ho P p1 p2
    · intro L hL P p1 p2
      have e : radialRs R { c0 with rsSmall := [], rsBig := [], rsKtei := k, yukawa := false, lambda := mu } L P = assembleK R (pairBlk (erfcKteiOf R (pr.erfc mu L))) P := by
        unfold radialRs
        rw [if_neg (by simp)]
        apply assembleK_congr
        intro i hi j hj
        rw [h.nel] at hi hj
        funext ni nj Ps
        unfold pairBlk
        simp only
        rw [h.nel, k3 L hL i hi j hj, hX L i j hL hi hj]
      rw [e]
      exact C21_exchange_pairwise h (pr.erfc mu L) (T L) (hI.value L hL) (hI.pair L hL) P p1 p2
    · intro L hL a b c d
      unfold fourIndex
      apply sum_congr rfl; intro e1 he1
      apply sum_congr rfl; intro e2 he2
      have he1 := Finset.mem_range.1 he1
      have he2 := Finset.mem_range.1 he2
      by_cases hc : ((first e1 ≤ a ∧ a ≤ last e1) ∧ (first e1 ≤ b ∧ b ≤ last e1)) ∧ ((first e2 ≤ c ∧ c ≤ last e2) ∧ (first e2 ≤ d ∧ d ≤ last e2))
      · rw [if_pos hc, if_pos (by tauto)]
        exact hI.pair L hL e1 he1 e2 he2 _ (by unfold cnt; omega) _ (by unfold cnt; omega) _ (pair_lt (by unfold cnt; omega) (by unfold cnt; omega))
      · rw [if_neg hc, if_neg (by tauto)]

/-! ### histories -/

/-- A call that fills caches. -/
inductive Op
  | tei (tol : ℝ)
  | yukawa (tol lam : ℝ)
  | erfc (mu : ℝ)

/-- the effect of a call -/
noncomputable def Op.run (lm : List (Int × Int)) (R : Radial) (pr : Prims) : Op → Caches → Res Caches
  | .tei tol => computeTei lm R pr tol
  | .yukawa tol lam => computeYukawa lm R pr tol lam
  | .erfc mu => computeErfc lm R pr mu

/-- a sequence of calls -/
noncomputable def runAll (lm : List (Int × Int)) (R : Radial) (pr : Prims) (ops : List Op) (c : Caches) : Res Caches := ops.foldlM (fun c o => o.run lm R pr c) c

def Op.isTei : Op → Bool
  | .tei _ => true
  | _ => false

/-- the caches a call does not own are left alone; those it owns do not depend on their former contents -/
theorem op_effect (pr : Prims) (o : Op) (c1 c2 d1 d2 : Caches) (h1 : o.run lm R pr c1 = .ok d1) (h2 : o.run lm R pr c2 = .ok d2) :
    (o.isTei = true → (d1.small = d2.small ∧ d1.big = d2.big ∧ d1.chol = d2.chol) ∧
      (d1.rsSmall = c1.rsSmall ∧ d1.rsBig = c1.rsBig ∧ d1.rsChol = c1.rsChol ∧ d1.rsKtei = c1.rsKtei ∧ d1.yukawa = c1.yukawa ∧ d1.lambda = c1.lambda)) ∧
    (o.isTei = false → (d1.small = c1.small ∧ d1.big = c1.big ∧ d1.chol = c1.chol)) := by
  have bindOk : ∀ {α β : Type} {x : Res α} {f : α → Res β} {b : β}, x.bind f = .ok b → ∃ a, x = .ok a ∧ f a = .ok b := by
    intro α β x f b h
    cases x with
    | ok a => exact ⟨a, rfl, h⟩
    | throw e => exact absurd h (by simp [Res.bind])
    | ub => exact absurd h (by simp [Res.bind])
  cases o with
  | tei tol =>
    refine ⟨fun _ => ?_, fun hc => absurd hc (by simp [Op.isTei])⟩
    obtain ⟨n1, a1, h1⟩ := bindOk h1
    obtain ⟨n2, a2, h2⟩ := bindOk h2
    rw [a1] at a2; injection a2 with a2; subst a2
    obtain ⟨s1, b1, h1⟩ := bindOk h1
    obtain ⟨s2, b2, h2⟩ := bindOk h2
    rw [b1] at b2; injection b2 with b2; subst b2
    obtain ⟨g1, b1, h1⟩ := bindOk h1
    obtain ⟨g2, b2, h2⟩ := bindOk h2
    rw [b1] at b2; injection b2 with b2; subst b2
    obtain ⟨k1, b1, h1⟩ := bindOk h1
    obtain ⟨k2, b2, h2⟩ := bindOk h2
    rw [b1] at b2; injection b2 with b2; subst b2
    injection h1 with h1; subst h1
    injection h2 with h2; subst h2
    exact ⟨⟨rfl, rfl, rfl⟩, rfl, rfl, rfl, rfl, rfl, rfl⟩
  | yukawa tol lam =>
    refine ⟨fun hc => absurd hc (by simp [Op.isTei]), fun _ => ?_⟩
    obtain ⟨n1, a1, h1⟩ := bindOk h1
    obtain ⟨s1, b1, h1⟩ := bindOk h1
    obtain ⟨g1, b1, h1⟩ := bindOk h1
    obtain ⟨k1, b1, h1⟩ := bindOk h1
    injection h1 with h1; subst h1
    exact ⟨rfl, rfl, rfl⟩
  | erfc mu =>
    refine ⟨fun hc => absurd hc (by simp [Op.isTei]), fun _ => ?_⟩
    obtain ⟨n1, a1, h1⟩ := bindOk h1
    obtain ⟨s1, b1, h1⟩ := bindOk h1
    injection h1 with h1; subst h1
    exact ⟨rfl, rfl, rfl⟩

theorem mapM_length {α β : Type _} (f : α → Res β) : ∀ (l : List α) (r : List β), l.mapM f = .ok r → r.length = l.length := by
  intro l
  induction l with
  | nil =>
    intro r h
    have h : Res.ok [] = Res.ok r := by simpa using h
    injection h with h; subst h; rfl
  | cons x l ih =>
    intro r h
    rw [List.mapM_cons] at h
    cases hx : f x with
    | ok y =>
      rw [hx, Res.ok_bind] at h
      cases hl : l.mapM f with
      | ok r' =>
        rw [hl, Res.ok_bind] at h
        have h : Res.ok (y :: r') = Res.ok r := h
        injection h with h; subst h
        simp [ih r' hl]
      | throw e => rw [hl] at h; exact absurd h (by simp [bind, Res.bind])
      | ub => rw [hl] at h; exact absurd h (by simp [bind, Res.bind])
    | throw e => rw [hx] at h; exact absurd h (by simp [bind, Res.bind])
    | ub => rw [hx] at h; exact absurd h (by simp [bind, Res.bind])

theorem runAll_append (pr : Prims) (a b : List Op) (c d : Caches) (h : runAll lm R pr (a ++ b) c = .ok d) : ∃ m, runAll lm R pr a c = .ok m ∧ runAll lm R pr b m = .ok d := by
  unfold runAll at h ⊢
  rw [List.foldlM_append] at h
  cases h1 : List.foldlM (fun c o => Op.run lm R pr o c) c a with
  | ok m => exact ⟨m, rfl, by rw [h1] at h; exact h⟩
  | throw e => rw [h1] at h; exact absurd h (by simp [bind, Res.bind])
  | ub => rw [h1] at h; exact absurd h (by simp [bind, Res.bind])

/-- calls other than `compute_tei` leave the bare integrals alone, `compute_tei` the screened ones -/
theorem runAll_keeps (pr : Prims) (t : Bool) : ∀ (ops : List Op) (c d : Caches), (∀ o ∈ ops, o.isTei = t) → runAll lm R pr ops c = .ok d →
    (t = false → d.small = c.small ∧ d.big = c.big ∧ d.chol = c.chol) ∧
    (t = true → d.rsSmall = c.rsSmall ∧ d.rsBig = c.rsBig ∧ d.rsChol = c.rsChol ∧ d.rsKtei = c.rsKtei ∧ d.yukawa = c.yukawa ∧ d.lambda = c.lambda) := by
  intro ops
  induction ops with
  | nil =>
    intro c d _ h
    have h : Res.ok c = Res.ok d := h
    injection h with h; subst h
    exact ⟨fun _ => ⟨rfl, rfl, rfl⟩, fun _ => ⟨rfl, rfl, rfl, rfl, rfl, rfl⟩⟩
  | cons o ops ih =>
    intro c d ho h
    obtain ⟨m, h1, h2⟩ := runAll_append pr [o] ops c d h
    have h1 : o.run lm R pr c = .ok m := by
      unfold runAll at h1
      rw [List.foldlM_cons] at h1
      cases hr : o.run lm R pr c with
      | ok m' => rw [hr] at h1; exact h1
      | throw e => rw [hr] at h1; exact absurd h1 (by simp [bind, Res.bind])
      | ub => rw [hr] at h1; exact absurd h1 (by simp [bind, Res.bind])
    obtain ⟨k1, k2⟩ := ih m d (fun o' ho' => ho o' (by simp [ho'])) h2
    obtain ⟨e1, e2⟩ := op_effect pr o c c m m h1 h1
    have := ho o (by simp)
    constructor
    · intro hf
      obtain ⟨a, b, c⟩ := k1 hf
      obtain ⟨a', b', c'⟩ := e2 (by rw [this, hf])
      exact ⟨a.trans a', b.trans b', c.trans c'⟩
    · intro hf
      obtain ⟨a, b, c, d, e, f⟩ := k2 hf
      obtain ⟨a', b', c', d', e', f'⟩ := (e1 (by rw [this, hf])).2
      exact ⟨a.trans a', b.trans b', c.trans c', d.trans d', e.trans e', f.trans f'⟩

/-- **C63, bare integrals.** Coulomb and exchange matrices depend on the last `compute_tei` only: whatever calls came before it, and
whatever screened kernels were set up after it, a fresh basis with this one call gives the same results. -/
theorem C63_last_tei (pr : Prims) (before after : List Op) (tol : ℝ) (c0 c0' c c' : Caches) (ha : ∀ o ∈ after, o.isTei = false)
    (hc : runAll lm R pr (before ++ Op.tei tol :: after) c0 = .ok c) (hc' : computeTei lm R pr tol c0' = .ok c') (sched : List Nat) (order : List (Nat × Nat))
    (thr : ℝ) (P : Mat ℝ) :
    coulomb G sched lm R c P = coulomb G sched lm R c' P ∧ exchange G sched order lm R c thr P = exchange G sched order lm R c' thr P := by
  obtain ⟨m, _, h2⟩ := runAll_append pr before _ c0 c hc
  obtain ⟨m', h3, h4⟩ := runAll_append pr [Op.tei tol] after m c h2
  have h3 : computeTei lm R pr tol m = .ok m' := by
    unfold runAll at h3
    rw [List.foldlM_cons] at h3
    change (computeTei lm R pr tol m).bind _ = _ at h3
    cases hr : computeTei lm R pr tol m with
    | ok x => rw [hr] at h3; exact h3
    | throw e => rw [hr] at h3; exact absurd h3 (by simp [Res.bind])
    | ub => rw [hr] at h3; exact absurd h3 (by simp [Res.bind])
  obtain ⟨k1, _⟩ := runAll_keeps pr false after m' c ha h4
  obtain ⟨a1, a2, a3⟩ := k1 rfl
  obtain ⟨e1, _⟩ := op_effect pr (Op.tei tol) m c0' m' c' h3 hc'
  obtain ⟨⟨b1, b2, b3⟩, _⟩ := e1 rfl
  have q1 := a1.trans b1
  have q2 := a2.trans b2
  have q3 := a3.trans b3
  constructor
  · unfold coulomb
    rw [q3]
    have : radialJ R c = radialJ R c' := by unfold radialJ; rw [q1, q2, q3]
    rw [this]
  · unfold exchange
    rw [q3]
    have : radialK R c = radialK R c' := by unfold radialK; rw [q1, q2, q3]
    rw [this]

/-- **C63, screened integrals.** The screened exchange matrix depends on the last `compute_yukawa` or `compute_erfc` only. -/
theorem C63_last_screened (hA : Angular lm lmax) (hne : 0 < R.nel) (pr : Prims) (before after : List Op) (o : Op) (ho : o.isTei = false) (c0 c0' c c' : Caches)
    (ha : ∀ o ∈ after, o.isTei = true) (hc : runAll lm R pr (before ++ o :: after) c0 = .ok c) (hc' : o.run lm R pr c0' = .ok c') (sched : List Nat)
    (order : List (Nat × Nat)) (thr : ℝ) (P : Mat ℝ) :
    rsExchange G sched order lm R c thr P = rsExchange G sched order lm R c' thr P := by
  have bindOk : ∀ {α β : Type} {x : Res α} {f : α → Res β} {b : β}, x.bind f = .ok b → ∃ a, x = .ok a ∧ f a = .ok b := by
    intro α β x f b h
    cases x with
    | ok a => exact ⟨a, rfl, h⟩
    | throw e => exact absurd h (by simp [Res.bind])
    | ub => exact absurd h (by simp [Res.bind])
  obtain ⟨m, _, h2⟩ := runAll_append pr before _ c0 c hc
  obtain ⟨m', h3, h4⟩ := runAll_append pr [o] after m c h2
  obtain ⟨x, hx, h3⟩ := bindOk (x := o.run lm R pr m) h3
  injection h3 with h3
  subst h3
  obtain ⟨_, k1⟩ := runAll_keeps pr true after x c ha h4
  obtain ⟨a1, a2, a3, a4, a5, a6⟩ := k1 rfl
  have hlen : ∀ {n : Nat} {f : Nat → Nat → Res (Mat ℝ)} {k : List (Mat ℝ)}, 0 < n → fillCache n R.nel f = .ok k → k.length ≠ 0 := by
    intro n f k hn hk h0
    unfold fillCache at hk
    have hl : ((List.range n).flatMap fun L => (List.range R.nel).map fun iel => (L, iel)).length = n * R.nel := by rw [flat_pairs _ hne]; simp
    have := mapM_length _ _ _ hk
    rw [hl] at this
    have := Nat.mul_pos hn hne
    omega
  have hlen2 : ∀ {n : Nat} {f : Nat → Nat → Nat → Res (Mat ℝ)} {k : List (Mat ℝ)}, 0 < n → fillPairs n R.nel f = .ok k → k.length ≠ 0 := by
    intro n f k hn hk h0
    have := mapM_length _ _ _ hk
    obtain ⟨n', rfl⟩ : ∃ n', n = n' + 1 := ⟨n - 1, by omega⟩
    obtain ⟨m', hm⟩ : ∃ n', R.nel = n' + 1 := ⟨R.nel - 1, by omega⟩
    rw [hm, h0] at this
    have := List.length_eq_zero_iff.1 this.symm
    rw [List.flatMap_eq_nil_iff] at this
    have := this 0 (List.mem_range.2 (by omega))
    rw [List.flatMap_eq_nil_iff] at this
    have := this 0 (List.mem_range.2 (by omega))
    rw [List.map_eq_nil_iff] at this
    exact absurd this (by simp)
  cases o with
  | tei tol => exact absurd ho (by simp [Op.isTei])
  | yukawa tol lam =>
    obtain ⟨n1, e1, hx⟩ := bindOk hx
    obtain ⟨n2, e2, hc'⟩ := bindOk hc'
    rw [hA.num] at e1 e2
    injection e1 with e1; subst e1
    injection e2 with e2; subst e2
    obtain ⟨s1, b1, hx⟩ := bindOk hx
    obtain ⟨s2, b2, hc'⟩ := bindOk hc'
    rw [b1] at b2; injection b2 with b2; subst b2
    obtain ⟨s3, b3, hx⟩ := bindOk hx
    obtain ⟨s4, b4, hc'⟩ := bindOk hc'
    rw [b3] at b4; injection b4 with b4; subst b4
    obtain ⟨s5, b5, hx⟩ := bindOk hx
    obtain ⟨s6, b6, hc'⟩ := bindOk hc'
    rw [b5] at b6; injection b6 with b6; subst b6
    injection hx with hx; subst hx
    injection hc' with hc'; subst hc'
    simp only at a1 a2 a3 a4 a5 a6
    unfold rsExchange
    have hz := hlen (by omega) b5
    rw [if_neg (by rw [a3]; tauto), if_neg (by simp only; tauto)]
    have r1 : radialRs R c = radialRs R { c0' with rsSmall := s1, rsBig := s3, rsChol := s5, yukawa := true, lambda := lam } := by
      funext L P'
      unfold radialRs
      rw [if_pos a5, if_pos rfl, a1, a2, a3]
    have r2 : rsFac c = rsFac { c0' with rsSmall := s1, rsBig := s3, rsChol := s5, yukawa := true, lambda := lam } := by
      funext L
      unfold rsFac
      rw [if_pos a5, if_pos rfl, a6]
    rw [r1, r2]
  | erfc mu =>
    obtain ⟨n1, e1, hx⟩ := bindOk hx
    obtain ⟨n2, e2, hc'⟩ := bindOk hc'
    rw [hA.num] at e1 e2
    injection e1 with e1; subst e1
    injection e2 with e2; subst e2
    obtain ⟨s1, b1, hx⟩ := bindOk hx
    obtain ⟨s2, b2, hc'⟩ := bindOk hc'
    rw [b1] at b2; injection b2 with b2; subst b2
    injection hx with hx; subst hx
    injection hc' with hc'; subst hc'
    simp only at a1 a2 a3 a4 a5 a6
    unfold rsExchange
    have hz := hlen2 (by omega) b1
    rw [if_neg (by rw [a4]; tauto), if_neg (by simp only; tauto)]
    have r1 : radialRs R c = radialRs R { c0' with rsSmall := [], rsBig := [], rsKtei := s1, yukawa := false, lambda := mu } := by
      funext L P'
      unfold radialRs
      rw [if_neg (by rw [a5]; simp), if_neg (by simp), a4]
    have r2 : rsFac c = rsFac { c0' with rsSmall := [], rsBig := [], rsKtei := s1, yukawa := false, lambda := mu } := by
      funext L
      unfold rsFac
      rw [if_neg (by rw [a5]; simp), if_neg (by simp), a6]
    rw [r1, r2]

/-! ### a concrete basis -/

/-- a function with the symmetries and selection rules of the integrals of three spherical harmonics -/
def realG (l1 : Nat) (m1 : Int) (l2 : Nat) (m2 : Int) (l3 : Nat) (m3 : Int) : ℝ := if m1 + m2 + m3 = 0 then (Gaunt.toyG l1 m1 l2 m2 l3 m3 : ℝ) else 0

theorem realG_symmetric : Gaunt.Symmetric realG := by
  have h := Gaunt.toyG_symmetric
  refine ⟨?_, ?_, ?_, ?_, ?_, ?_⟩
  · intro l1 m1 l2 m2 l3 m3 hm
    unfold realG
    rw [if_pos hm, if_pos (by omega), h.swap12 _ _ _ _ _ _ hm]
  · intro l1 m1 l2 m2 l3 m3 hm
    unfold realG
    rw [if_pos hm, if_pos (by omega), h.swap23 _ _ _ _ _ _ hm]
  · intro l1 m1 l2 m2 l3 m3 hm
    unfold realG
    rw [if_pos hm, if_pos (by omega), h.neg _ _ _ _ _ _ hm]
  · intro l1 m1 l2 m2 l3 m3 hl
    unfold realG
    rw [h.triangle _ _ _ _ _ _ hl]; simp
  · intro l1 m1 l2 m2 l3 m3 hl
    unfold realG
    rw [h.parity _ _ _ _ _ _ hl]; simp
  · intro l1 m1 l2 m2 l3 m3 hl
    unfold realG
    rw [h.range _ _ _ _ _ _ hl]; simp

theorem realG_selection : Selection realG := fun _ _ _ _ _ _ h => if_neg h

/-- an s function and two p functions -/
theorem exAngular : Angular [(0, 0), (1, -1), (1, 1)] 1 := by
  refine ⟨by simp, ?_, ⟨(1, 1), by simp, rfl⟩⟩
  intro a ha
  simp only [List.mem_cons, List.not_mem_nil, or_false] at ha
  rcases ha with rfl | rfl | rfl <;> decide

/-- weights of the four pairs of a two-function element -/
noncomputable def exWt (L e r : Nat) : ℝ := if r = 0 then 1 else if r = 3 then 2 + L else 1 / 2 + e

/-- The outer moments are not computed on the innermost element. -/
noncomputable def exPrims : Prims where
  small := fun L e => .ok ⟨2, 2, fun a b => (e + a + b + 1 + L : ℝ)⟩
  big := fun L e => if e = 0 then .ub else .ok ⟨2, 2, fun a b => (7 + a * b + L : ℝ)⟩
  twoe := fun L e => .ok ⟨4, 4, fun r c => exWt L e r * exWt L e c⟩
  besselI := fun lam L e => .ok ⟨2, 2, fun a b => (e + a + b + lam + L : ℝ)⟩
  besselK := fun lam L e => if e = 0 then .ub else .ok ⟨2, 2, fun a b => (lam + a * b + L : ℝ)⟩
  yukawa := fun _ L e => .ok ⟨4, 4, fun r c => exWt L e r * exWt L e c⟩
  erfc := fun mu L e1 e2 => .ok ⟨4, 4, fun r c => mu * exWt L e1 r * exWt L e2 c⟩

theorem exPSD (L e : Nat) : Chol.PSD 4 (fun r c => exWt L e r * exWt L e c) := by
  refine ⟨fun i _ j _ => mul_comm _ _, fun v => ?_⟩
  have : ∑ i ∈ range 4, ∑ j ∈ range 4, v i * (exWt L e i * exWt L e j) * v j = (∑ i ∈ range 4, v i * exWt L e i) * (∑ i ∈ range 4, v i * exWt L e i) := by
    rw [sum_mul_sum]
    apply sum_congr rfl; intro i _
    apply sum_congr rfl; intro j _
    ring
  rw [this]; exact mul_self_nonneg _

theorem exCnt (e : Nat) : cnt (fun e => e) (fun e => e + 1) e = 2 := by unfold cnt; simp only; omega

theorem exWt_pair (L e a b : Nat) (ha : a < 2) (hb : b < 2) : exWt L e (b * 2 + a) = exWt L e (a * 2 + b) := by
  interval_cases a <;> interval_cases b <;> simp [exWt]

theorem exInts : Ints exPrims.small exPrims.big exPrims.twoe 3 2 (fun e => e) (fun e => e + 1) (fun L e => ⟨2, 2, fun a b => (e + a + b + 1 + L : ℝ)⟩)
    (fun L _ => ⟨2, 2, fun a b => (7 + a * b + L : ℝ)⟩) (fun L e => ⟨4, 4, fun r c => exWt L e r * exWt L e c⟩) := by
  refine ⟨?_, ?_, ?_, ?_, ?_, ?_, ?_⟩
  · intro L _ e _; rw [exCnt]; exact ⟨rfl, rfl, rfl⟩
  · intro L _ e h0 _; rw [exCnt]; exact ⟨if_neg (by omega), rfl, rfl⟩
  · intro L _ e _; rw [exCnt]; exact ⟨rfl, rfl, rfl⟩
  · intro L _ e _ a _ b _; simp only; ring
  · intro L _ e _ _ a _ b _; simp only; ring
  · intro L _ e _; rw [exCnt]; exact exPSD L e
  · intro L _ e _ a ha b hb c _
    rw [exCnt] at ha hb ⊢
    simp only
    rw [exWt_pair L e a b ha hb]

theorem exYukawa (lam : ℝ) : Ints (exPrims.besselI lam) (exPrims.besselK lam) (exPrims.yukawa lam) 3 2 (fun e => e) (fun e => e + 1)
    (fun L e => ⟨2, 2, fun a b => (e + a + b + lam + L : ℝ)⟩) (fun L _ => ⟨2, 2, fun a b => (lam + a * b + L : ℝ)⟩) (fun L e => ⟨4, 4, fun r c => exWt L e r * exWt L e c⟩) := by
  refine ⟨?_, ?_, ?_, ?_, ?_, ?_, ?_⟩
  · intro L _ e _; rw [exCnt]; exact ⟨rfl, rfl, rfl⟩
  · intro L _ e h0 _; rw [exCnt]; exact ⟨if_neg (by omega), rfl, rfl⟩
  · intro L _ e _; rw [exCnt]; exact ⟨rfl, rfl, rfl⟩
  · intro L _ e _ a _ b _; simp only; ring
  · intro L _ e _ _ a _ b _; simp only; ring
  · intro L _ e _; rw [exCnt]; exact exPSD L e
  · intro L _ e _ a ha b hb c _
    rw [exCnt] at ha hb ⊢
    simp only
    rw [exWt_pair L e a b ha hb]

theorem exErfc (mu : ℝ) : PairInts (exPrims.erfc mu) 3 2 (fun e => e) (fun e => e + 1) (fun L e1 e2 => ⟨4, 4, fun r c => mu * exWt L e1 r * exWt L e2 c⟩) := by
  refine ⟨?_, ?_⟩
  · intro L _ e1 _ e2 _; rw [exCnt, exCnt]; exact ⟨rfl, rfl, rfl⟩
  · intro L _ e1 _ e2 _ a ha b hb m _
    rw [exCnt] at ha hb ⊢
    simp only
    rw [exWt_pair L e1 a b ha hb]

/-- nine functions, a truncated factorisation, scrambled schedules, a positive screening threshold -/
example : ∃ c, computeTei [(0, 0), (1, -1), (1, 1)] exR exPrims (1 / 100) (Caches.fresh false 0) = .ok c ∧
    ∃ J K, coulomb realG [2, 0, 1] [(0, 0), (1, -1), (1, 1)] exR c ⟨9, 9, fun i j => (i + 2 * j : ℝ)⟩ = .ok J ∧
      exchange realG [1, 2, 0] [(2, 0), (0, 0), (1, 1), (2, 2), (0, 1), (1, 0), (0, 2), (1, 2), (2, 1)] [(0, 0), (1, -1), (1, 1)] exR c (1 / 10)
        ⟨9, 9, fun i j => (i + 2 * j : ℝ)⟩ = .ok K ∧ J.rows = 9 ∧ K.rows = 9 := by
  obtain ⟨c, h1, T', _, h2, h3⟩ := C60_coulomb_exchange realG_symmetric realG_selection exAngular exLayout (by decide) exPrims exInts (1 / 100) (by norm_num) (Caches.fresh false 0)
  obtain ⟨J, j1, j2, _⟩ := h2 [2, 0, 1] (by decide) ⟨9, 9, fun i j => (i + 2 * j : ℝ)⟩ rfl rfl
  obtain ⟨K, k1, k2, _⟩ := h3 [1, 2, 0] (by decide) [(2, 0), (0, 0), (1, 1), (2, 2), (0, 1), (1, 0), (0, 2), (1, 2), (2, 1)] (by decide) (1 / 10)
    ⟨9, 9, fun i j => (i + 2 * j : ℝ)⟩ rfl rfl
  exact ⟨c, h1, J, K, j1, k1, j2, k2⟩

/-- the same basis with the Yukawa kernel, then with the erfc kernel -/
example : ∃ c c', computeYukawa [(0, 0), (1, -1), (1, 1)] exR exPrims 0 2 (Caches.fresh false 0) = .ok c ∧ computeErfc [(0, 0), (1, -1), (1, 1)] exR exPrims 3 c = .ok c' ∧
    ∃ K K', rsExchange realG [0, 1, 2] (allPairs 3) [(0, 0), (1, -1), (1, 1)] exR c 0 ⟨9, 9, fun i j => (i * j : ℝ)⟩ = .ok K ∧
      rsExchange realG [0, 1, 2] (allPairs 3) [(0, 0), (1, -1), (1, 1)] exR c' 0 ⟨9, 9, fun i j => (i * j : ℝ)⟩ = .ok K' ∧ K.rows = 9 ∧ K'.rows = 9 := by
  obtain ⟨c, h1, T', _, h2⟩ := C62_yukawa realG_symmetric realG_selection exAngular exLayout (by decide) exPrims 2 (exYukawa 2) 0 le_rfl (Caches.fresh false 0)
  obtain ⟨c', h3, h4⟩ := C62_erfc realG_symmetric realG_selection exAngular exLayout (by decide) exPrims 3 (exErfc 3) c
  obtain ⟨K, k1, k2, _⟩ := h2 [0, 1, 2] (by decide) (allPairs 3) (List.Perm.refl _) 0 ⟨9, 9, fun i j => (i * j : ℝ)⟩ rfl rfl
  obtain ⟨K', l1, l2, _⟩ := h4 [0, 1, 2] (by decide) (allPairs 3) (List.Perm.refl _) 0 ⟨9, 9, fun i j => (i * j : ℝ)⟩ rfl rfl
  exact ⟨c, c', h1, h3, K, K', k1, l1, k2, l2⟩

/-- an orbital with components in all three angular functions; nothing is screened at threshold zero -/
example : ∃ c J K, computeTei [(0, 0), (1, -1), (1, 1)] exR exPrims (1 / 100) (Caches.fresh false 0) = .ok c ∧
    coulomb realG [2, 0, 1] [(0, 0), (1, -1), (1, 1)] exR c ⟨9, 9, fun i j => ((i : ℝ) + 1) * (j + 1)⟩ = .ok J ∧
    exchange realG [1, 2, 0] (allPairs 3) [(0, 0), (1, -1), (1, 1)] exR c 0 ⟨9, 9, fun i j => ((i : ℝ) + 1) * (j + 1)⟩ = .ok K ∧
    ∑ i ∈ range 9, ∑ j ∈ range 9, ((i : ℝ) + 1) * (j + 1) * (J.get i j + K.get i j) = 0 := by
  obtain ⟨c, h1, T', _, h2, h3⟩ := C60_coulomb_exchange realG_symmetric realG_selection exAngular exLayout (by decide) exPrims exInts (1 / 100) (by norm_num) (Caches.fresh false 0)
  obtain ⟨J, j1, j2, _⟩ := h2 [2, 0, 1] (by decide) ⟨9, 9, fun i j => ((i : ℝ) + 1) * (j + 1)⟩ rfl rfl
  obtain ⟨K, k1, k2, _⟩ := h3 [1, 2, 0] (by decide) (allPairs 3) (List.Perm.refl _) 0 ⟨9, 9, fun i j => ((i : ℝ) + 1) * (j + 1)⟩ rfl rfl
  refine ⟨c, J, K, h1, j1, k1, ?_⟩
  exact C61_no_self_interaction realG_symmetric realG_selection exAngular exLayout (by decide) exPrims exInts (1 / 100) (by norm_num) (Caches.fresh false 0) c h1 [2, 0, 1] (by decide)
    [1, 2, 0] (by decide) (allPairs 3) (List.Perm.refl _) 0 (fun i => (i : ℝ) + 1) _ J K rfl rfl (fun i _ j _ => rfl)
    (fun i _ j _ => if_neg (not_lt.2 (Real.sqrt_nonneg _))) j1 k1

/-- three calls, one of them repeated with other parameters, and a fresh basis -/
example (c c' : Caches) (h : runAll [(0, 0), (1, -1), (1, 1)] exR exPrims [.tei (1 / 2), .erfc 3, .tei (1 / 100), .yukawa 0 2] (Caches.fresh true 5) = .ok c)
    (h' : computeTei [(0, 0), (1, -1), (1, 1)] exR exPrims (1 / 100) (Caches.fresh false 0) = .ok c') (P : Mat ℝ) :
    coulomb realG [0, 1, 2] [(0, 0), (1, -1), (1, 1)] exR c P = coulomb realG [0, 1, 2] [(0, 0), (1, -1), (1, 1)] exR c' P :=
  (C63_last_tei exPrims [.tei (1 / 2), .erfc 3] [.yukawa 0 2] (1 / 100) _ _ c c' (by simp [Op.isTei]) h h' [0, 1, 2] [] 0 P).1

/-- such a sequence of calls succeeds -/
example : ∃ c, runAll [(0, 0), (1, -1), (1, 1)] exR exPrims [.tei (1 / 2), .erfc 3, .tei (1 / 100), .yukawa 0 2] (Caches.fresh true 5) = .ok c := by
  obtain ⟨c1, h1, _⟩ := C60_coulomb_exchange realG_symmetric realG_selection exAngular exLayout (by decide) exPrims exInts (1 / 2) (by norm_num) (Caches.fresh true 5)
  obtain ⟨c2, h2, _⟩ := C62_erfc realG_symmetric realG_selection exAngular exLayout (by decide) exPrims 3 (exErfc 3) c1
  obtain ⟨c3, h3, _⟩ := C60_coulomb_exchange realG_symmetric realG_selection exAngular exLayout (by decide) exPrims exInts (1 / 100) (by norm_num) c2
  obtain ⟨c4, h4, _⟩ := C62_yukawa realG_symmetric realG_selection exAngular exLayout (by decide) exPrims 2 (exYukawa 2) 0 le_rfl c3
  refine ⟨c4, ?_⟩
  unfold runAll
  simp only [List.foldlM_cons, List.foldlM_nil, Op.run, h1, h2, h3, h4, Res.ok_bind]
  rfl

end AtomJK
end HelFEM
