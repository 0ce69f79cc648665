import Verif.Lemmas.Assembly
import Mathlib.Tactic.Positivity

/-!
# C15, C16, C17: assembly of global matrices, self-converging quadrature, breakpoints
-/

namespace HelFEM
namespace Assembly
open Grid Finset

section assembly
variable {K : Type _} [Field K] [LinearOrder K]

/-- The numbering of a constructed basis, read through `get_idx`, is the one of C01. -/
theorem layout (f : Family) (n ne : Nat) (zfl zdl zfr zdr : Bool) (hn : 2 ≤ n) (hne : 1 ≤ ne) (bval : List K)
    (hb : bval.length = ne + 1) (o : FEObj K) (ho : construct (PolyBasis.mk' f n) bval zfl zdl zfr zdr = .ok o)
    (N : Nat) (hN : FEShape.getNbf o.tab = .ok N) (hpos : 0 < N) (first last : Nat → Nat)
    (hidx : ∀ e < ne, FEShape.getIdx o.tab e = .ok (first e, last e)) :
    o.shape = feShape f n ne zfl zdl zfr zdr ∧ (feShape f n ne zfl zdl zfr zdr).updateBfList = .ok o.tab ∧
    (∀ e < ne, ∃ en, (feShape f n ne zfl zdl zfr zdr).basisIndices e = .ok en ∧ first e + en.length = last e + 1) ∧
    (∀ e < ne, last e < N) ∧ (∀ k < N, ∃ e < ne, first e ≤ k ∧ k ≤ last e) := by
  obtain ⟨tab, N', h1, h2, h3, h4⟩ := C01_numbering f n ne zfl zdl zfr zdr hn hne
  have ho' : o = ⟨feShape f n ne zfl zdl zfr zdr, bval, tab⟩ := by
    unfold construct at ho
    rw [hb] at ho
    simp only [feShape] at h1
    simp only [h1, Res.ok_bind, Res.pure_eq, Res.ok.injEq] at ho
    exact ho.symm
  subst ho'
  simp only at hN hidx
  rw [h3] at hN
  obtain rfl := Res.ok.inj hN
  obtain ⟨fi, la, count, k1, k2, k3⟩ := h4 hpos
  have heq : ∀ e < ne, fi e = first e ∧ la e = last e := by
    intro e he
    have := (k1 e he).symm.trans (hidx e he)
    simpa using this
  refine ⟨rfl, h1, ?_, ?_, ?_⟩
  · intro e he
    obtain ⟨en, h5, h6⟩ := k2 e he
    refine ⟨en, h5, ?_⟩
    have := k3.size e he
    rw [(heq e he).1, (heq e he).2, ← h6] at this
    exact this
  · intro e he
    have := k3.bound e he
    rwa [(heq e he).2] at this
  · intro k hk
    obtain ⟨e, he, h5, h6⟩ := k3.cover k hk
    rw [(heq e he).1] at h5
    rw [(heq e he).2] at h6
    exact ⟨e, he, h5, h6⟩

/-- **C15.** The whole-basis matrix exists, is square of the size of the basis, and its entry `(i, j)` is the sum over exactly the elements
containing both functions of the element contributions, for every family, grid, boundary condition, every family `B` of element matrices
of the right size and every order `sched` in which threads process the elements. -/
theorem C15_matrix (f : Family) (n ne : Nat) (zfl zdl zfr zdr : Bool) (hn : 2 ≤ n) (hne : 1 ≤ ne) (bval : List K)
    (hb : bval.length = ne + 1) (o : FEObj K) (ho : construct (PolyBasis.mk' f n) bval zfl zdl zfr zdr = .ok o)
    (N : Nat) (hN : FEShape.getNbf o.tab = .ok N) (hpos : 0 < N) (first last : Nat → Nat)
    (hidx : ∀ e < ne, FEShape.getIdx o.tab e = .ok (first e, last e))
    (body : Nat → Res (Mat K)) (B : Nat → Mat K) (hB : ∀ e < ne, body e = .ok (B e))
    (hsize : ∀ e < ne, (B e).rows = last e + 1 - first e ∧ (B e).cols = last e + 1 - first e)
    (sched : List Nat) (hs : sched.Perm (List.range ne)) :
    ∃ M, globalMatrix o body sched = .ok M ∧ M.rows = N ∧ M.cols = N ∧
      ∀ i < N, ∀ j < N, M.get i j = ∑ e ∈ range ne,
        if (first e ≤ i ∧ i ≤ last e) ∧ (first e ≤ j ∧ j ≤ last e) then (B e).get (i - first e) (j - first e) else 0 := by
  obtain ⟨l1, l2, l3, l4, l5⟩ := layout f n ne zfl zdl zfr zdr hn hne bval hb o ho N hN hpos first last hidx
  obtain ⟨t, t1, t2⟩ := ompFill_ok body B sched (fun _ => none) (fun i hi => hB i (List.mem_range.1 (hs.mem_iff.1 hi)))
  have hnel : o.shape.nelem = ne := by rw [l1]; rfl
  obtain ⟨M, m1, m2, m3, m4⟩ := accumulate_ok o.tab t first last B N ne 0 (Mat.zero N N) rfl rfl (by
    intro e _ he
    have he : e < ne := by omega
    obtain ⟨en, _, h6⟩ := l3 e he
    refine ⟨hidx e he, ?_, (hsize e he).1, (hsize e he).2, l4 e he, by omega⟩
    rw [t2 e, if_pos (hs.mem_iff.2 (List.mem_range.2 he))])
  refine ⟨M, ?_, m2, m3, ?_⟩
  · unfold globalMatrix
    simp only [t1, hN, Res.ok_bind, hnel, m1]
  · intro i _ j _
    rw [m4 i j]
    simp only [Mat.zero, contrib, zero_add]
    rw [Finset.range_eq_Ico]

/-- **C15.** The matrix is symmetric whenever the element matrices are. -/
theorem C15_symmetric (f : Family) (n ne : Nat) (zfl zdl zfr zdr : Bool) (hn : 2 ≤ n) (hne : 1 ≤ ne) (bval : List K)
    (hb : bval.length = ne + 1) (o : FEObj K) (ho : construct (PolyBasis.mk' f n) bval zfl zdl zfr zdr = .ok o)
    (N : Nat) (hN : FEShape.getNbf o.tab = .ok N) (hpos : 0 < N) (first last : Nat → Nat)
    (hidx : ∀ e < ne, FEShape.getIdx o.tab e = .ok (first e, last e))
    (body : Nat → Res (Mat K)) (B : Nat → Mat K) (hB : ∀ e < ne, body e = .ok (B e))
    (hsize : ∀ e < ne, (B e).rows = last e + 1 - first e ∧ (B e).cols = last e + 1 - first e)
    (hsym : ∀ e < ne, ∀ i < (B e).rows, ∀ j < (B e).rows, (B e).get i j = (B e).get j i)
    (sched : List Nat) (hs : sched.Perm (List.range ne)) (M : Mat K) (hM : globalMatrix o body sched = .ok M) :
    ∀ i < N, ∀ j < N, M.get i j = M.get j i := by
  obtain ⟨M', m1, _, _, m4⟩ := C15_matrix f n ne zfl zdl zfr zdr hn hne bval hb o ho N hN hpos first last hidx body B hB hsize sched hs
  obtain rfl := Res.ok.inj (m1.symm.trans hM)
  intro i hi j hj
  rw [m4 i hi j hj, m4 j hj i hi]
  apply sum_congr rfl
  intro e he
  have he := mem_range.1 he
  obtain ⟨z1, z2⟩ := hsize e he
  by_cases hc : (first e ≤ i ∧ i ≤ last e) ∧ (first e ≤ j ∧ j ≤ last e)
  · rw [if_pos hc, if_pos hc.symm, hsym e he _ (by omega) _ (by omega)]
  · rw [if_neg hc, if_neg (fun h => hc h.symm)]

/-- **C15.** The outcome does not depend on the order in which the element blocks are computed. -/
theorem C15_schedule_independent (o : FEObj K) (body : Nat → Res (Mat K)) (ne : Nat) (hok : ∀ e < ne, ∃ B, body e = .ok B)
    (s1 s2 : List Nat) (h1 : s1.Perm (List.range ne)) (h2 : s2.Perm (List.range ne)) :
    globalMatrix o body s1 = globalMatrix o body s2 := by
  have : Nonempty (Mat K) := ⟨Mat.zero 0 0⟩
  choose! B hB using hok
  obtain ⟨t1, a1, b1⟩ := ompFill_ok body B s1 (fun _ => none) (fun i hi => hB i (List.mem_range.1 (h1.mem_iff.1 hi)))
  obtain ⟨t2, a2, b2⟩ := ompFill_ok body B s2 (fun _ => none) (fun i hi => hB i (List.mem_range.1 (h2.mem_iff.1 hi)))
  have : t1 = t2 := by
    funext i
    rw [b1, b2]
    have e : i ∈ s1 ↔ i ∈ s2 := by rw [h1.mem_iff, h2.mem_iff]
    by_cases h : i ∈ s1
    · rw [if_pos h, if_pos (e.1 h)]
    · rw [if_neg h, if_neg (fun h' => h (e.2 h'))]
  unfold globalMatrix
  rw [a1, a2, this]

/-- **C15, errors.** If the computation of some element block fails, no schedule delivers a matrix. -/
theorem C15_failure (o : FEObj K) (body : Nat → Res (Mat K)) (ne e : Nat) (he : e < ne) (hbad : ∀ B, body e ≠ .ok B)
    (s : List Nat) (hs : s.Perm (List.range ne)) (M : Mat K) : globalMatrix o body s ≠ .ok M := by
  have key : ∀ (s : List Nat) (t : Nat → Option (Mat K)), e ∈ s → ∀ t', ompFill body s t ≠ .ok t' := by
    intro s
    induction s with
    | nil => intro t h; simp at h
    | cons a s ih =>
      intro t h t' hc
      rw [ompFill] at hc
      cases hba : body a with
      | ok v =>
        rw [hba, Res.ok_bind] at hc
        rcases List.mem_cons.1 h with rfl | h
        · exact hbad v hba
        · exact ih _ h t' hc
      | throw x => rw [hba] at hc; simp at hc
      | ub => rw [hba] at hc; simp at hc
  intro hc
  unfold globalMatrix at hc
  cases ht : ompFill body s (fun _ => none) with
  | ok t => exact key s _ (hs.mem_iff.2 (List.mem_range.2 he)) t ht
  | throw x => rw [ht] at hc; simp at hc
  | ub => rw [ht] at hc; simp at hc

/-- **C15 for vectors.** -/
theorem C15_vector (f : Family) (n ne : Nat) (zfl zdl zfr zdr : Bool) (hn : 2 ≤ n) (hne : 1 ≤ ne) (bval : List K)
    (hb : bval.length = ne + 1) (o : FEObj K) (ho : construct (PolyBasis.mk' f n) bval zfl zdl zfr zdr = .ok o)
    (N : Nat) (hN : FEShape.getNbf o.tab = .ok N) (hpos : 0 < N) (first last : Nat → Nat)
    (hidx : ∀ e < ne, FEShape.getIdx o.tab e = .ok (first e, last e))
    (body : Nat → Res (Vect K)) (B : Nat → Vect K) (hB : ∀ e < ne, body e = .ok (B e))
    (hsize : ∀ e < ne, (B e).size = last e + 1 - first e)
    (sched : List Nat) (hs : sched.Perm (List.range ne)) :
    ∃ V, globalVector o body sched = .ok V ∧ V.size = N ∧
      ∀ i < N, V.get i = ∑ e ∈ range ne, if first e ≤ i ∧ i ≤ last e then (B e).get (i - first e) else 0 := by
  obtain ⟨l1, l2, l3, l4, l5⟩ := layout f n ne zfl zdl zfr zdr hn hne bval hb o ho N hN hpos first last hidx
  obtain ⟨t, t1, t2⟩ := ompFill_ok body B sched (fun _ => none) (fun i hi => hB i (List.mem_range.1 (hs.mem_iff.1 hi)))
  have hnel : o.shape.nelem = ne := by rw [l1]; rfl
  obtain ⟨M, m1, m2, m4⟩ := accumulateVec_ok o.tab t first last B N ne 0 (Vect.zero N) rfl (by
    intro e _ he
    have he : e < ne := by omega
    obtain ⟨en, _, h6⟩ := l3 e he
    refine ⟨hidx e he, ?_, hsize e he, l4 e he, by omega⟩
    rw [t2 e, if_pos (hs.mem_iff.2 (List.mem_range.2 he))])
  refine ⟨M, ?_, m2, ?_⟩
  · unfold globalVector
    simp only [t1, hN, Res.ok_bind, hnel, m1]
  · intro i _
    rw [m4 i]
    simp only [Vect.zero, contribV, zero_add]
    rw [Finset.range_eq_Ico]

/-- The layout hypotheses hold for a concrete basis: two linear elements with zero boundary values at the right; the functions 0, 1 of
the first and 1 of the second element overlap. -/
example : ∃ o : FEObj ℚ, construct (PolyBasis.mk' .lip 2) [0, 1, 3] false false true false = .ok o ∧ FEShape.getNbf o.tab = .ok 2 ∧
    FEShape.getIdx o.tab 0 = .ok (0, 1) ∧ FEShape.getIdx o.tab 1 = .ok (1, 1) :=
  ⟨⟨feShape .lip 2 2 false false true false, [0, 1, 3], [(0, 1), (1, 1)]⟩, by rfl, by rfl, by rfl, by rfl⟩

end assembly

/-! ### C16 -/

section converge
variable {K : Type _} [Field K] [LinearOrder K]

/-- The two values agree: their distance is a number (not NaN) and small relative to their size. -/
def Agree (eps sqrteps : K) (diff : Option K) (scale : K) : Prop :=
  ∃ δ, diff = some δ ∧ (δ ≤ 8 * eps * (scale + 8 * eps) ∨ δ ≤ sqrteps * (scale + 8 * eps))

theorem stop_agree (eps sqrteps : K) (diff : Option K) (scale : K) (pd ppd : Option K)
    (h : stopTest eps sqrteps diff scale pd ppd = true) : Agree eps sqrteps diff scale := by
  cases diff with
  | none => simp [stopTest, leN] at h
  | some δ =>
    simp only [stopTest, leN, Bool.or_eq_true, Bool.and_eq_true, decide_eq_true_eq] at h
    rcases h with (h | h) | h
    · exact ⟨δ, rfl, Or.inl h⟩
    · exact ⟨δ, rfl, Or.inr h.1.2⟩
    · exact ⟨δ, rfl, Or.inr h.1.2⟩

/-- **C16.** Whatever the integrand (`cur n` the result at order `n`, `diff` possibly NaN), start, cap and tolerances: the refinement stops; the
orders evaluated start at `max(nstart, 2)`, each next one is the double, limited by the cap; their number is at most logarithmic in the
cap; the value returned is the one at the last order, which is either at the cap or agrees with the one before it. -/
theorem C16_terminates {A : Type _} (eps sqrteps : K) (diff : A → A → Option K) (scale : A → K) (cur : Nat → A) (nstart nmax : Nat) :
    ∃ a orders k, converge eps sqrteps diff scale (fun n => .ok (cur n)) nstart nmax (nmax + 1) = .ok (some (a, orders)) ∧
      orders.head? = some (max nstart 2) ∧
      orders.IsChain (fun u v => v = min (2 * u) nmax) ∧
      (∀ n ∈ orders, max nstart 2 ≤ n ∧ n ≤ max nmax (max nstart 2)) ∧
      2 ^ (orders.length - 2) ≤ max nmax 1 ∧
      orders.getLast? = some k ∧ a = cur k ∧
      (nmax ≤ k ∨ ∃ k', orders.dropLast.getLast? = some k' ∧ k = min (2 * k') nmax ∧
        Agree eps sqrteps (diff (cur k) (cur k')) (scale (cur k))) := by
  obtain ⟨a, l, e1, e2, e3, e7, k, e4, e5, e6⟩ := convergeLoop_spec eps sqrteps diff scale cur nmax (nmax + 1) none (some (-1)) (some (-1))
    (max nstart 2) [] (by omega) (by omega) (by simp)
  refine ⟨a, max nstart 2 :: l, k, e1, rfl, e3, ?_, ?_, e4, e5, ?_⟩
  · intro n hn
    have := e2 n hn
    omega
  · cases l with
    | nil => simp
    | cons b l =>
      have := chain_length nmax (b :: l) _ e3 e7 (by simp)
      simp only [List.length_cons, Nat.add_sub_cancel] at this ⊢
      have h1 : l.length + 1 + 1 - 2 = l.length := by omega
      rw [h1]
      have h2 : 1 ≤ max nstart 2 := by omega
      have : 2 ^ l.length ≤ 2 ^ l.length * max nstart 2 := Nat.le_mul_of_pos_right _ h2
      omega
  · rcases e6 with h | ⟨k', pd, ppd, h1, h2, h3⟩
    · exact Or.inl h
    · exact Or.inr ⟨k', by simpa using h2, h1, stop_agree _ _ _ _ _ _ h3⟩

/-- **C16.** A refinement that has settled is recognised at once: if the orders `n0 = max(nstart,2)` and the next give the same
value, exactly these two are evaluated. -/
theorem C16_settled {A : Type _} [IsStrictOrderedRing K] (eps sqrteps : K) (heps : 0 < eps) (diff : A → A → Option K) (scale : A → K) (cur : Nat → A) (nstart nmax fuel : Nat)
    (hlt : max nstart 2 < nmax) (hsame : diff (cur (min (2 * max nstart 2) nmax)) (cur (max nstart 2)) = some 0)
    (hscale : ∀ a, 0 ≤ scale a) :
    converge eps sqrteps diff scale (fun n => .ok (cur n)) nstart nmax (fuel + 2) =
      .ok (some (cur (min (2 * max nstart 2) nmax), [max nstart 2, min (2 * max nstart 2) nmax])) := by
  unfold converge
  rw [convergeLoop]
  simp only [Res.ok_bind]
  rw [if_neg (by omega), convergeLoop]
  simp only [Res.ok_bind]
  rw [if_pos]
  · simp
  · rw [hsame]
    simp only [stopTest, leN, Bool.or_eq_true, decide_eq_true_eq]
    left; left
    have := hscale (cur (min (2 * max nstart 2) nmax))
    positivity

/-- A non-constant sequence on which the loop refines twice and stops below the cap. -/
example : converge (1/100 : ℚ) (1/10) (fun a b => some |a - b|) (fun a => |a|) (fun n => .ok (if n < 20 then (n : ℚ) else 20)) 3 512 513 =
    .ok (some (20, [3, 6, 12, 24, 48])) := by
  decide +kernel

end converge

/-! ### C17 -/

section panels
variable {K : Type _} [Field K] [LinearOrder K] [IsStrictOrderedRing K]

theorem getLast_max : ∀ (d : List K) (z : K), d.Pairwise (· < ·) → d.getLast? = some z → ∀ x ∈ d, x ≤ z := by
  intro d z h hz x hx
  obtain ⟨d', rfl⟩ := List.getLast?_eq_some_iff.1 hz
  rw [List.pairwise_append] at h
  rcases List.mem_append.1 hx with hx | hx
  · exact le_of_lt (h.2.2 x hx z (by simp))
  · rw [List.mem_singleton.1 hx]

/-- the panels come from a strictly increasing list of edges from `xl` to `xr` with the inner breakpoints between -/
theorem panels_edges (bval : List K) (iel : Nat) (hi : iel + 1 < bval.length)
    (bps : List K) (xl xr : K) (hx : xl < xr) :
    ∃ xb d, panelEdges bval iel bps xl xr = .ok xb ∧ panels xb xl xr = List.zip (xl :: d) d ∧ (xl :: d).Pairwise (· < ·) ∧
      (∃ b d', d = b :: d') ∧ d.getLast? = some xr ∧
      ∀ x, x ∈ xl :: d ↔ x = xl ∨ x = xr ∨
        (xl < x ∧ x < xr ∧ ∃ bp ∈ bps, (bp - 1 / 2 * (bval[iel]'(by omega) + bval[iel + 1])) / ((bval[iel + 1] - bval[iel]'(by omega)) / 2) = x) := by
  have hpe := show panelEdges bval iel bps xl xr = _ by
    simp only [panelEdges, mid_eq bval iel hi, sf_eq bval iel hi, Res.ok_bind, Res.pure_eq]
    rfl
  rw [hpe]
  generalize hinner : (bps.map fun bp => (bp - 1 / 2 * (bval[iel]'(by omega) + bval[iel + 1])) / ((bval[iel + 1] - bval[iel]'(by omega)) / 2)).filter
    (fun xp => decide (xl < xp) && decide (xp < xr)) = inner
  have hmem : ∀ x, x ∈ stdSort (xl :: inner ++ [xr]) ↔ x = xl ∨ x = xr ∨
        (xl < x ∧ x < xr ∧ ∃ bp ∈ bps, (bp - 1 / 2 * (bval[iel]'(by omega) + bval[iel + 1])) / ((bval[iel + 1] - bval[iel]'(by omega)) / 2) = x) := by
    intro x
    rw [(stdSort_perm _).mem_iff, ← hinner]
    simp only [List.cons_append, List.mem_cons, List.mem_append, List.mem_filter, List.mem_map, List.not_mem_nil, or_false,
      Bool.and_eq_true, decide_eq_true_eq]
    generalize (∃ a ∈ bps, _) = P
    generalize (x = xl) = A
    generalize (x = xr) = B
    tauto
  have hsort := stdSort_sorted (xl :: inner ++ [xr])
  generalize stdSort (xl :: inner ++ [xr]) = xb at hmem hsort ⊢
  refine ⟨xb, ?_⟩
  cases xb with
  | nil => exact absurd ((hmem xl).2 (Or.inl rfl)) (by simp)
  | cons a l =>
    obtain ⟨d, h1, h2, h3, h4⟩ := squeeze_spec l a hsort
    have hge : ∀ x ∈ a :: l, xl ≤ x ∧ x ≤ xr := by
      intro x hx'
      rcases (hmem x).1 hx' with rfl | rfl | h
      · exact ⟨le_rfl, hx.le⟩
      · exact ⟨hx.le, le_rfl⟩
      · exact ⟨h.1.le, h.2.1.le⟩
    have ha : a = xl := by
      apply le_antisymm
      · rcases List.mem_cons.1 ((hmem xl).2 (Or.inl rfl)) with h | h
        · exact h.symm.le
        · exact (List.pairwise_cons.1 hsort).1 xl h
      · exact (hge a (by simp)).1
    subst ha
    have hr : xr ∈ d := by
      have := (h3 xr).2 ((hmem xr).2 (Or.inr (Or.inl rfl)))
      rcases List.mem_cons.1 this with h | h
      · exact absurd h (ne_of_gt hx)
      · exact h
    refine ⟨d, rfl, ?_, h2, ?_, ?_, ?_⟩
    · cases d with
      | nil => simp at hr
      | cons b d' =>
        unfold panels
        unfold pairs at h4
        simp only [h4]
        rw [if_neg (by simp)]
    · cases d with
      | nil => simp at hr
      | cons b d' => exact ⟨b, d', rfl⟩
    · cases hz : d.getLast? with
      | none => rw [List.getLast?_eq_none_iff] at hz; simp [hz] at hr
      | some z =>
        have h5 := getLast_max d z (List.pairwise_cons.1 h2).2 hz xr hr
        have h6 := (hge z ((h3 z).1 (List.mem_cons_of_mem _ (List.mem_of_getLast? hz)))).2
        rw [le_antisymm h6 h5]
    · intro x
      rw [h3 x, hmem x]

/-- **C17.** Splitting an element (reference range `[xl, xr]`) at breakpoints gives consecutive nonempty panels from `xl` to `xr`; every
breakpoint strictly inside is a panel edge, and every panel edge is an end of the range or an inner breakpoint. -/
theorem C17_partition (bval : List K) (iel : Nat) (hi : iel + 1 < bval.length) (hlt : bval[iel]'(by omega) < bval[iel + 1])
    (bps : List K) (xl xr : K) (hx : xl < xr) :
    ∃ xb, panelEdges bval iel bps xl xr = .ok xb ∧
      let ps := panels xb xl xr
      let r : K → K := fun x => 1 / 2 * (bval[iel]'(by omega) + bval[iel + 1]) + (bval[iel + 1] - bval[iel]'(by omega)) / 2 * x
      (ps.head?.map Prod.fst = some xl) ∧ (ps.getLast?.map Prod.snd = some xr) ∧
      ps.IsChain (fun p q => p.2 = q.1) ∧ (∀ p ∈ ps, p.1 < p.2) ∧
      (∀ bp ∈ bps, r xl < bp → bp < r xr → ∃ p ∈ ps, r p.2 = bp) ∧
      (∀ p ∈ ps, (p.1 = xl ∨ r p.1 ∈ bps) ∧ (p.2 = xr ∨ r p.2 ∈ bps)) := by
  obtain ⟨xb, d, h1, h2, h3, ⟨b, d', h4⟩, h5, h6⟩ := panels_edges bval iel hi bps xl xr hx
  obtain ⟨z1, z2, z3, z4, z5, z6⟩ := zip_chain d xl h3
  have hsf : (0 : K) < (bval[iel + 1] - bval[iel]'(by omega)) / 2 := by linarith
  generalize (bval[iel + 1] - bval[iel]'(by omega)) / 2 = sf at *
  generalize 1 / 2 * (bval[iel]'(by omega) + bval[iel + 1]) = mid at *
  refine ⟨xb, h1, ?_⟩
  simp only
  rw [h2]
  have hinv : ∀ bp x : K, (bp - mid) / sf = x ↔ mid + sf * x = bp := by
    intro bp x
    rw [div_eq_iff hsf.ne']
    constructor <;> intro h <;> linarith
  refine ⟨?_, by rw [z6, h5], z1, z2, ?_, ?_⟩
  · rw [z3 b d' h4]; rfl
  · intro bp hbp hl hr
    have hl' : xl < (bp - mid) / sf := by rw [lt_div_iff₀ hsf]; linarith
    have hr' : (bp - mid) / sf < xr := by rw [div_lt_iff₀ hsf]; linarith
    have hm := (h6 ((bp - mid) / sf)).2 (Or.inr (Or.inr ⟨hl', hr', bp, hbp, rfl⟩))
    rcases List.mem_cons.1 hm with h | h
    · exact absurd h (ne_of_gt hl')
    · obtain ⟨p, hp, e⟩ := z4 _ h
      exact ⟨p, hp, by rw [e]; exact (hinv bp _).1 rfl⟩
  · intro p hp
    obtain ⟨m1, m2⟩ := z5 p hp
    constructor
    · rcases (h6 _).1 m1 with h | h | ⟨_, _, bp, hbp, e⟩
      · exact Or.inl h
      · exfalso
        have g1 := z2 p hp
        have g2 := getLast_max d xr (List.pairwise_cons.1 h3).2 h5 _ m2
        rw [h] at g1
        exact absurd g1 (not_lt.2 g2)
      · right; rw [(hinv bp _).1 e]; exact hbp
    · rcases (h6 _).1 (List.mem_cons_of_mem _ m2) with h | h | ⟨_, _, bp, hbp, e⟩
      · exfalso
        have := (List.pairwise_cons.1 h3).1 _ m2
        rw [h] at this
        exact lt_irrefl _ this
      · exact Or.inl h
      · right; rw [(hinv bp _).1 e]; exact hbp

/-- **C17.** Only the set of breakpoints strictly inside the range matters: order, repetitions and outside points have no effect on the panels. -/
theorem C17_only_inner_set (bval : List K) (iel : Nat) (hi : iel + 1 < bval.length) (hlt : bval[iel]'(by omega) < bval[iel + 1])
    (bps bps' : List K) (xl xr : K) (hx : xl < xr)
    (hsame : let r : K → K := fun x => 1 / 2 * (bval[iel]'(by omega) + bval[iel + 1]) + (bval[iel + 1] - bval[iel]'(by omega)) / 2 * x
      ∀ bp, r xl < bp → bp < r xr → (bp ∈ bps ↔ bp ∈ bps')) :
    ∃ xb xb', panelEdges bval iel bps xl xr = .ok xb ∧ panelEdges bval iel bps' xl xr = .ok xb' ∧
      panels xb xl xr = panels xb' xl xr := by
  obtain ⟨xb, d, h1, h2, h3, _, _, h6⟩ := panels_edges bval iel hi bps xl xr hx
  obtain ⟨xb', d', g1, g2, g3, _, _, g6⟩ := panels_edges bval iel hi bps' xl xr hx
  refine ⟨xb, xb', h1, g1, ?_⟩
  have hsf : (0 : K) < (bval[iel + 1] - bval[iel]'(by omega)) / 2 := by linarith
  generalize (bval[iel + 1] - bval[iel]'(by omega)) / 2 = sf at *
  generalize 1 / 2 * (bval[iel]'(by omega) + bval[iel + 1]) = mid at *
  have hd : xl :: d = xl :: d' := by
    apply List.Pairwise.eq_of_mem_iff h3 g3
    intro x
    rw [h6 x, g6 x]
    have key : ∀ bp : K, (bp - mid) / sf = x ↔ bp = mid + sf * x := by
      intro bp
      rw [div_eq_iff hsf.ne']
      constructor <;> intro h <;> linarith
    have e : xl < x → x < xr → ((∃ bp ∈ bps, (bp - mid) / sf = x) ↔ ∃ bp ∈ bps', (bp - mid) / sf = x) := by
      intro hl hr
      simp only [key, exists_eq_right]
      apply hsame
      · have := mul_lt_mul_of_pos_left hl hsf; linarith
      · have := mul_lt_mul_of_pos_left hr hsf; linarith
    exact or_congr_right (or_congr_right (and_congr_right fun hl => and_congr_right fun hr => e hl hr))
  have hd' : d = d' := (List.cons.inj hd).2
  rw [h2, g2, hd']

example : ∃ xb xb', panelEdges ([0, 4, 6] : List ℚ) 0 [3, 5, 1, 3, 0] (-1) 1 = .ok xb ∧
    panelEdges ([0, 4, 6] : List ℚ) 0 [1, 3] (-1) 1 = .ok xb' ∧ panels xb (-1) 1 = panels xb' (-1) 1 := by
  apply C17_only_inner_set _ _ (by decide) (by decide +kernel) _ _ _ _ (by decide +kernel)
  intro r bp h1 h2
  simp only [r, List.mem_cons, List.not_mem_nil, or_false, List.getElem_cons_zero, List.getElem_cons_succ] at *
  norm_num at h1 h2
  constructor
  · rintro (h | h | h | h | h)
    · exact Or.inr h
    · rw [h] at h2; norm_num at h2
    · exact Or.inl h
    · exact Or.inr h
    · rw [h] at h1; norm_num at h1
  · rintro (h | h)
    · exact Or.inr (Or.inr (Or.inl h))
    · exact Or.inl h

end panels

end Assembly
end HelFEM
