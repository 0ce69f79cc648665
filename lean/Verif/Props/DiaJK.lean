import Verif.Lemmas.DiaActual

/-!
# C73: Coulomb and exchange matrices of the diatomic basis

`neumann` (specification file) is the electron repulsion integral in prolate spheroidal coordinates with the angular integrals over the sphere and the
radial integrals given; `func lm N i` is basis function `i`. `Radials` says that the radial integrals are what quadrature over products of real functions
yields; `Layout` describes the elements.
-/

namespace HelFEM
namespace DiaJK
open Finset Spec TwoE Sym Dia AtomJK

/-- the integrals over `μ`, with the in-element ones `T` -/
def overMu (ne : Nat) (first last : Nat → Nat) (Pm Qm : Int → Int → Nat → Nat → Nat → Nat → ℝ) (T : Int → Int → Nat → Nat → Nat → Nat → Nat → ℝ) (L Ma α β : Nat) :
    Nat → Nat → Nat → Nat → ℝ := fourIndex ne first last (neumannBlk (cnt first last) (Pm L Ma) (Qm L Ma) (T L Ma) α β)

/-- the integral `(ij|kl)` of basis functions -/
noncomputable def basisInt (lm : List (Int × Int)) (N : Nat) (Rh : ℝ) (nL : Nat) (radial : Nat → Nat → Nat → Nat → Nat → Nat → Nat → Nat → ℝ) (i j k l : Nat) : ℝ :=
  neumann Rh nL radial (func lm N i) (func lm N j) (func lm N k) (func lm N l)

/-- the in-element integrals of an entry and element belong to a definite kernel -/
def Definite (m : Nat) (T : Nat → Nat → Nat → Nat → ℝ) : Prop := Chol.PSD (2 * m) (twoTerm m T) ∨ Chol.PSD (2 * m) fun x y => -twoTerm m T x y

/-- The in-element integrals `T'` are within `thresh` of `T`, relative to the largest diagonal integral, wherever the kernel is definite. -/
def Close (tab : List (Int × Int)) (ne : Nat) (n : Nat → Nat) (thresh : ℝ) (T T' : Int → Int → Nat → Nat → Nat → Nat → Nat → ℝ) : Prop :=
  ∀ L Ma, (L, Ma) ∈ tab → ∀ e < ne, Definite (n e * n e) (fun α β => T L Ma α β e) → ∀ B, (∀ α < 2, ∀ i < n e * n e, |T L Ma α α e i i| ≤ B) →
    ∀ α < 2, ∀ β < 2, ∀ i < n e * n e, ∀ j < n e * n e, |T L Ma α β e i j - T' L Ma α β e i j| ≤ thresh * B

variable {lm : List (Int × Int)} {R : Radial} {ne N : Nat} {first last : Nat → Nat} {t : Multipoles}

/-- **C73.** After `compute_tei` the Coulomb matrix of any density is `Σ_kl (ij|kl) P_kl` and the exchange matrix `-Σ_il (ij|kl) P_il` with the screened
density, with one and the same set of integrals: the Neumann expansion with all multipoles of the functions (any number `nL` that includes them), the
angular integrals over the sphere, the given radial integrals, and in-element integrals close to the given ones. In the mode that computes exchange only
for `m ≥ 0` and copies the rest, this holds for densities that are the same for `m` and `-m`. Nothing depends on the order of the parallel loops. -/
theorem C73_coulomb_exchange (hne : lm ≠ []) (hv : ∀ p ∈ lm, |p.2| ≤ p.1) (ht : multipoles lm = .ok t) (hR : Layout R ne N first last) (he : 0 < ne)
    (hn : ∀ e < ne, first e ≤ last e) (pr : Prims) {Pm Qm : Int → Int → Nat → Nat → Nat → Nat → ℝ} {T : Int → Int → Nat → Nat → Nat → Nat → Nat → ℝ}
    (hp : Radials pr t.lm ne (cnt first last) Pm Qm T) (thresh : ℝ) (hth : 0 ≤ thresh) (Rh : ℝ) :
    ∃ T', Close t.lm ne (cnt first last) thresh T T' ∧
      ∀ sched, (∃ n : Nat, sched.Perm (List.range (n + 1)) ∧ (n : Int) = max (t.Lmax + 2) 5) → ∀ sym,
      ∃ b, Basis.make Harm.Spec.gaunt sched lm R Rh sym = .ok b ∧
      ∀ tasks, tasks.Perm (disjointTasks t.lm ne) → ∀ els, els.Perm (List.range ne) →
      ∃ c, computeTei pr thresh t.lm ne tasks els = .ok c ∧ ∀ nL : Nat, (∀ x ∈ lm, ∀ y ∈ lm, x.1 + y.1 + 2 < nL) →
      ∀ P : Mat ℝ, P.rows = (DiaOne.Spec.functions lm N).length → P.cols = (DiaOne.Spec.functions lm N).length →
      (∃ J, coulomb b c P = .ok J ∧ J.rows = P.rows ∧ J.cols = P.cols ∧ ∀ i < P.rows, ∀ j < P.rows,
        J.get i j = ∑ k ∈ range P.rows, ∑ l ∈ range P.rows, basisInt lm N Rh nL (overMu ne first last Pm Qm T') i j k l * P.get k l) ∧
      ∀ order, order.Perm (pairs lm.length) → ∀ thr,
        (sym = true → lm.Nodup ∧ (∀ p ∈ lm, (p.1, -p.2) ∈ lm) ∧ AbsmSymmetric P.rows (func lm N) P.get) →
        ∃ K, exchange b c thr order P = .ok K ∧ K.rows = P.rows ∧ K.cols = P.cols ∧ ∀ j < P.rows, ∀ k < P.rows,
          K.get j k = -∑ i ∈ range P.rows, ∑ l ∈ range P.rows, basisInt lm N Rh nL (overMu ne first last Pm Qm T') i j k l *
            screenedAng P.rows (angNo lm N) thr P.get i l := by
  have hcnt : ∀ e < ne, 0 < cnt first last e := by intro e h; have := hn e h; unfold cnt; omega
  have hN : 1 ≤ N := by have := hR.bound 0 he; omega
  obtain ⟨Wc, hW⟩ : ∃ Wc, Kernels ne (cnt first last) T Wc := by
    have : ∀ L Ma e, ∃ W, kernel ⟨cnt first last e * cnt first last e, cnt first last e * cnt first last e, T L Ma 0 0 e⟩
        ⟨cnt first last e * cnt first last e, cnt first last e * cnt first last e, T L Ma 0 1 e⟩
        ⟨cnt first last e * cnt first last e, cnt first last e * cnt first last e, T L Ma 1 1 e⟩ = .ok W ∧ W.rows = 2 * (cnt first last e * cnt first last e) := by
      intro L Ma e
      obtain ⟨W, w1, w2, _⟩ := kernel_ok (cnt first last e * cnt first last e) (T L Ma 0 0 e) (T L Ma 0 1 e) (T L Ma 1 1 e)
      exact ⟨W, w1, w2⟩
    choose Wc h using this
    exact ⟨Wc, h⟩
  obtain ⟨W', hW'⟩ : ∃ W' : Int → Int → Nat → Nat → Nat → ℝ, W' = fun L Ma e => recon (Chol.signedCholesky (2 * (cnt first last e * cnt first last e)) (Wc L Ma e).get thresh) := ⟨_, rfl⟩
  have hrad : radialOf ne first last Pm Qm W' = overMu ne first last Pm Qm (fun L Ma => teiOf (cnt first last) (W' L Ma)) := rfl
  refine ⟨fun L Ma => teiOf (cnt first last) (W' L Ma), ?_, ?_⟩
  · intro L Ma hm e h hd B hB α hα β hβ i hi j hj
    rw [hW']
    exact recon_close hp hW hcnt thresh hth L Ma hm e h hd B hB α β i j hα hβ hi hj
  intro sched hs sym
  obtain ⟨b, b1, hb, b2, b3, b4, b5, b6⟩ := make_ready sched lm hne hv R Rh sym t ht hs
  refine ⟨b, b1, ?_⟩
  intro tasks hta els hel
  obtain ⟨c, c1, c2, c3⟩ := computeTei_ok hp hW hcnt thresh tasks hta els hel
  refine ⟨c, c1, ?_⟩
  intro nL hnL P p1 p2
  have hnel : b.rad.nel = ne := by rw [b3]; exact hR.nel
  have hnbf : b.rad.nbf = N := by rw [b3]; exact hR.nbf
  have hR' : Layout b.rad ne b.rad.nbf first last := by rw [hnbf, b3]; exact hR
  have hH : Holds b c ne first last Pm Qm W' := by
    intro ilm L Ma h
    rw [hnel, hW']
    exact c3 ilm L Ma (by rw [← b5]; exact h)
  have hB : c.B.length ≠ 0 := by
    rw [c2]
    have : t.lm ≠ [] := by
      obtain ⟨x, hx⟩ := List.exists_mem_of_ne_nil lm hne
      obtain ⟨t', e1, _, e2, _⟩ := C39_tables lm
      rw [ht] at e1; cases e1
      have hx0 := le_trans (abs_nonneg _) (hv x hx)
      have : ((0 : Int), (0 : Int)) ∈ t.lm := by
        rw [e2]
        refine ⟨x, hx, x, hx, 0, ⟨by simp, ?_, ?_, ?_⟩, by simp⟩
        · rw [sub_self, abs_zero]; omega
        · rw [abs_zero]
        · omega
      exact List.ne_nil_of_mem this
    have := List.length_pos_iff.2 this
    have := Nat.mul_pos he this
    omega
  have hnb : diaNbf lm N = (DiaOne.Spec.functions lm N).length := by rw [diaNbf_eq lm N hN, DiaOne.functions_length]
  have hr : 1 ≤ b.rad.nbf := by rw [hnbf]; exact hN
  have hnL' : ∀ x ∈ b.lm, ∀ y ∈ b.lm, x.1 + y.1 + 2 < nL := by rw [b2]; exact hnL
  obtain ⟨E, e1, e2, e3, e4, e5⟩ := C38_expand lm N hN P (by rw [hnb, p1]) (by rw [hnb, p2])
  have hE : ∀ i < (DiaOne.Spec.functions lm N).length, ∀ j < (DiaOne.Spec.functions lm N).length, E.get (actual lm N i) (actual lm N j) = P.get i j := by
    intro i hi j hj; exact e4 i (by rw [p1]; exact hi) j (by rw [p2]; exact hj)
  rw [p1, p2]
  constructor
  · obtain ⟨E', J, j1, j2, j3, j4, j5⟩ := coulomb_ok hb hR' hH hB hr nL hnL' P (by rw [b2, hnbf, hnb, p1]) (by rw [b2, hnbf, hnb, p2])
    rw [b2, hnbf] at j1 j3 j4 j5
    rw [e1] at j1; cases j1
    rw [hnb] at j3 j4
    refine ⟨J, j2, j3, j4, ?_⟩
    intro i hi j hj
    rw [j5 i (by rw [j3]; exact hi) j (by rw [j4]; exact hj)]
    unfold Spec.coulomb
    rw [sum_actual2 lm N _ (fun k l h => by rw [e5 k l h, mul_zero])]
    apply sum_congr rfl; intro k hk
    apply sum_congr rfl; intro l hl
    have hk := Finset.mem_range.1 hk
    have hl := Finset.mem_range.1 hl
    beta_reduce
    rw [hE k hk l hl, (actual_spec lm N hi).2.2.1, (actual_spec lm N hj).2.2.1, (actual_spec lm N hk).2.2.1, (actual_spec lm N hl).2.2.1, hrad, b4]
    rfl
  · intro order ho thr hsym
    obtain ⟨K, k1, k2, k3, k4⟩ := exchangeFull_ok hb hR' hH nL hnL' thr order (by rw [b2]; exact ho) E (by rw [b2, hnbf, e2]) (by rw [b2, hnbf, e3]) (by
      intro h
      obtain ⟨s1, s2, s3⟩ := hsym (by rw [← b6]; exact h)
      rw [b2, hnbf]
      exact ⟨s1, s2, symE_actual lm N s1 s2 hE e5 s3⟩)
    rw [b2, hnbf] at k1 k2 k3 k4
    refine ⟨⟨(pureIndices lm N).length, (pureIndices lm N).length, fun i j => K.get (actual lm N i) (actual lm N j)⟩, ?_, DiaOne.functions_length lm N, DiaOne.functions_length lm N, ?_⟩
    · unfold exchange
      rw [if_neg hB, b2, hnbf, e1, Res.ok_bind]
      have hj : (absmMax lm >>= fun mabs => buckets b mabs thr E >>= fun bk =>
          order.foldlM (exBody b c mabs bk E) (Mat.zero (nDummy lm N) (nDummy lm N)) >>= fun K => mirrorK b K >>= fun K => removeBoundaries lm N K) =
          ((absmMax lm >>= fun mabs => buckets b mabs thr E >>= fun bk =>
          order.foldlM (exBody b c mabs bk E) (Mat.zero (nDummy lm N) (nDummy lm N)) >>= fun K => mirrorK b K) >>= fun K => removeBoundaries lm N K) := by
        simp only [bind_assoc]
      rw [hj, k1, Res.ok_bind, removeBoundaries, if_neg (by rw [k2, k3]; simp [nDummy])]
      rfl
    · intro j hj k hk
      simp only
      rw [k4 _ (actual_spec lm N hj).2.1 _ (actual_spec lm N hk).2.1, sum_actual2 lm N _ (fun i l h => by
        unfold screened; rw [e5 i l h]; simp)]
      congr 1
      apply sum_congr rfl; intro i hi
      apply sum_congr rfl; intro l hl
      have hi := Finset.mem_range.1 hi
      have hl := Finset.mem_range.1 hl
      rw [screened_actual lm N hE e5 thr hi hl, (actual_spec lm N hi).2.2.1, (actual_spec lm N hj).2.2.1, (actual_spec lm N hk).2.2.1, (actual_spec lm N hl).2.2.1, hrad, b4]
      rfl

/-- **C73, before `compute_tei`.** Coulomb and exchange throw a logic error. -/
theorem C73_not_computed (b : Basis) (thr : ℝ) (order : List (Nat × Nat)) (P : Mat ℝ) :
    coulomb b Ints.none P = .throw .logicError ∧ exchange b Ints.none thr order P = .throw .logicError := ⟨rfl, rfl⟩

/-- **C73, wrong size.** A density matrix whose size is not that of the basis is rejected, whatever was computed before. -/
theorem C73_wrong_size (b : Basis) (h : 1 ≤ b.rad.nbf) (c : Ints) (thr : ℝ) (order : List (Nat × Nat)) (P : Mat ℝ)
    (hP : ¬(P.rows = (DiaOne.Spec.functions b.lm b.rad.nbf).length ∧ P.cols = (DiaOne.Spec.functions b.lm b.rad.nbf).length)) :
    coulomb b c P = .throw .logicError ∧ exchange b c thr order P = .throw .logicError := by
  rw [← DiaOne.functions_length, ← diaNbf_eq _ _ h] at hP
  have e := ((C38_wrong_size b.lm b.rad.nbf h P).2.1).2 hP
  constructor
  · unfold coulomb
    by_cases hc : c.B.length = 0
    · rw [if_pos hc]
    · rw [if_neg hc, e, Res.throw_bind]
  · unfold exchange
    by_cases hc : c.B.length = 0
    · rw [if_pos hc]
    · rw [if_neg hc, e, Res.throw_bind]

/-- **C73, full factorisation.** With the threshold at zero and definite kernels the integrals over `μ` are the given ones. -/
theorem C73_exact {tab : List (Int × Int)} {Pm Qm : Int → Int → Nat → Nat → Nat → Nat → ℝ} {T T' : Int → Int → Nat → Nat → Nat → Nat → Nat → ℝ}
    (hT : Close tab ne (cnt first last) 0 T T') (L Ma : Nat) (hm : ((L : Int), (Ma : Int)) ∈ tab)
    (hd : ∀ e < ne, Definite (cnt first last e * cnt first last e) fun α β => T L Ma α β e) (α β : Nat) (hα : α < 2) (hβ : β < 2) (a b c d : Nat) :
    overMu ne first last Pm Qm T' L Ma α β a b c d = overMu ne first last Pm Qm T L Ma α β a b c d := by
  unfold overMu fourIndex
  apply sum_congr rfl; intro e1 he1
  apply sum_congr rfl; intro e2 he2
  have he1 := Finset.mem_range.1 he1
  by_cases hc : ((first e1 ≤ a ∧ a ≤ last e1) ∧ (first e1 ≤ b ∧ b ≤ last e1)) ∧ ((first e2 ≤ c ∧ c ≤ last e2) ∧ (first e2 ≤ d ∧ d ≤ last e2))
  · rw [if_pos hc, if_pos hc]
    have ha : a - first e1 < cnt first last e1 := by unfold cnt; omega
    have hb : b - first e1 < cnt first last e1 := by unfold cnt; omega
    unfold neumannBlk
    by_cases h1 : e1 = e2
    · subst h1
      have hcc : c - first e1 < cnt first last e1 := by unfold cnt; omega
      have hdd : d - first e1 < cnt first last e1 := by unfold cnt; omega
      rw [if_pos rfl, if_pos rfl]
      have := hT L Ma hm e1 he1 (hd e1 he1) (∑ α ∈ range 2, ∑ i ∈ range (cnt first last e1 * cnt first last e1), |T L Ma α α e1 i i|) (by
        intro α hα i hi
        refine le_trans ?_ (single_le_sum (f := fun α => ∑ i ∈ range (cnt first last e1 * cnt first last e1), |T L Ma α α e1 i i|)
          (fun α _ => sum_nonneg fun i _ => abs_nonneg _) (Finset.mem_range.2 hα))
        exact single_le_sum (f := fun i => |T L Ma α α e1 i i|) (fun i _ => abs_nonneg _) (Finset.mem_range.2 hi)) α hα β hβ _ (pair_lt hb ha) _ (pair_lt hdd hcc)
      rw [zero_mul] at this
      have := abs_nonpos_iff.1 this
      linarith
    · rw [if_neg h1, if_neg h1]
  · rw [if_neg hc, if_neg hc]

/-- **C73, completeness.** The expansion does not need more multipoles than `l + l' + 2`: further ones do not contribute. -/
theorem C73_all_multipoles (hv : ∀ p ∈ lm, |p.2| ≤ p.1) (Rh : ℝ) (radial : Nat → Nat → Nat → Nat → Nat → Nat → Nat → Nat → ℝ) (nL nL' : Nat)
    (hL : ∀ x ∈ lm, ∀ y ∈ lm, x.1 + y.1 + 2 < nL) (hLL : nL ≤ nL') (i j k l : Nat) (hi : i < (DiaOne.Spec.functions lm N).length) (hj : j < (DiaOne.Spec.functions lm N).length) :
    basisInt lm N Rh nL' radial i j k l = basisInt lm N Rh nL radial i j k l := by
  have hin : ∀ i < (DiaOne.Spec.functions lm N).length, (func lm N i).1 ∈ lm := by
    intro i hi
    obtain ⟨_, h2, h3, _⟩ := actual_spec lm N hi
    rw [← h3]
    have hn : 0 < N := Nat.pos_of_ne_zero (by rintro rfl; simp at h2)
    exact (readAt_lm ((Nat.div_lt_iff_lt_mul hn).2 h2)).2
  unfold basisInt neumann
  symm
  apply sum_subset
  · intro L h; exact Finset.mem_range.2 (lt_of_lt_of_le (Finset.mem_range.1 h) hLL)
  · intro L _ h
    have h : nL ≤ L := by simpa using h
    apply sum_eq_zero; intro M _
    rw [sum_eq_zero, mul_zero]
    intro α _
    apply sum_eq_zero; intro β _
    have h1 := hv _ (hin i hi)
    have h2 := hv _ (hin j hj)
    have h3 := hL _ (hin i hi) _ (hin j hj)
    rw [ang_zero α (func lm N j).1 (func lm N i).1 (le_trans (abs_nonneg _) h2) (le_trans (abs_nonneg _) h1) L M (Or.inr (Or.inl (by omega)))]
    ring

/-! ### a concrete case: σ and π functions on one element with two radial functions -/

/-- radial integrals that are all one -/
def onePr : Prims := ⟨fun _ _ _ _ _ => .ok ⟨2, 2, fun _ _ => 1⟩, fun _ _ _ _ _ => .ok ⟨2, 2, fun _ _ => 1⟩, fun _ _ _ _ _ _ => .ok ⟨4, 4, fun _ _ => 1⟩⟩

def oneRad : Radial := ⟨1, 2, fun _ => .ok (0, 1)⟩

def sigmaPi : List (Int × Int) := [(0, 0), (1, 1), (1, -1)]

theorem one_layout : Layout oneRad 1 2 (fun _ => 0) (fun _ => 1) := ⟨rfl, rfl, fun _ _ => rfl, fun _ _ => by decide, fun _ _ => by decide⟩

theorem one_radials (tab : List (Int × Int)) : Radials onePr tab 1 (cnt (fun _ => 0) fun _ => 1) (fun _ _ _ _ _ _ => 1) (fun _ _ _ _ _ _ => 1) (fun _ _ _ _ _ _ _ => 1) :=
  ⟨fun _ _ _ _ _ _ _ _ _ => rfl, fun _ _ _ _ _ _ _ _ _ => rfl, fun _ _ _ _ _ _ _ _ _ _ _ _ => rfl, fun _ _ _ _ _ _ _ _ _ _ _ => rfl, fun _ _ _ _ _ _ _ _ _ _ _ => rfl,
    fun _ _ _ _ _ _ _ _ _ _ _ _ _ => rfl⟩

theorem one_definite : Definite 4 fun _ _ _ _ => 1 := by
  refine Or.inl ⟨?_, ?_⟩
  · intro i _ j _
    unfold twoTerm termSign
    simp only [eq_comm]
  · intro v
    have : ∑ i ∈ range (2 * 4), ∑ j ∈ range (2 * 4), v i * twoTerm 4 (fun _ _ _ _ => 1) i j * v j = (v 0 + v 1 + v 2 + v 3 - v 4 - v 5 - v 6 - v 7) ^ 2 := by
      simp [sum_range_succ, twoTerm, termSign]; ring
    rw [this]; positivity

theorem one_density : AbsmSymmetric 4 (func sigmaPi 2) (fun i j => if i = j then 1 else 0) := by
  refine ⟨?_, ?_⟩
  · intro i _ j _ h
    exact if_neg (fun e => h (by rw [e]))
  · intro i hi j hj i' hi' j' hj' h1 h2
    have hinj : ∀ i < 4, ∀ j < 4, func sigmaPi 2 i = func sigmaPi 2 j → i = j := by decide
    have hf : ∀ p q : (Int × Int) × Nat, flipM p = flipM q → p = q := by
      intro p q h
      rw [← flip_flip p, h, flip_flip]
    have : (i' = j') = (i = j) := by
      apply propext
      constructor
      · intro e; subst e; exact hinj i hi j hj (hf _ _ (h1.symm.trans h2))
      · intro e; subst e; exact hinj i' hi' j' hj' (h1.trans h2.symm)
    simp only [this]

example : ∃ t b c J K, multipoles sigmaPi = .ok t ∧ Basis.make Harm.Spec.gaunt (List.range ((max (t.Lmax + 2) 5).toNat + 1)) sigmaPi oneRad 1 true = .ok b ∧
    computeTei onePr 0 t.lm 1 (disjointTasks t.lm 1) [0] = .ok c ∧ coulomb b c ⟨4, 4, fun i j => if i = j then 1 else 0⟩ = .ok J ∧
    exchange b c 0 (pairs 3) ⟨4, 4, fun i j => if i = j then 1 else 0⟩ = .ok K ∧ J.rows = 4 ∧ K.rows = 4 := by
  obtain ⟨t, ht, _⟩ := C39_tables sigmaPi
  obtain ⟨_, _, h⟩ := C73_coulomb_exchange (lm := sigmaPi) (by decide) (by decide) ht one_layout (by decide) (by intro e _; decide) onePr (one_radials t.lm) 0 le_rfl 1
  obtain ⟨b, hb, h⟩ := h (List.range ((max (t.Lmax + 2) 5).toNat + 1)) ⟨(max (t.Lmax + 2) 5).toNat, List.Perm.refl _, by rw [Int.toNat_of_nonneg]; omega⟩ true
  obtain ⟨c, hc, h⟩ := h (disjointTasks t.lm 1) (List.Perm.refl _) [0] (List.Perm.refl _)
  obtain ⟨⟨J, hJ, hJ', _⟩, h⟩ := h 5 (by decide) ⟨4, 4, fun i j => if i = j then 1 else 0⟩ (by decide) (by decide)
  obtain ⟨K, hK, hK', _⟩ := h (pairs 3) (List.Perm.refl _) 0 (fun _ => ⟨by decide, by decide, one_density⟩)
  exact ⟨t, b, c, J, K, ht, hb, hc, hJ, hK, hJ', hK'⟩

end DiaJK
end HelFEM
