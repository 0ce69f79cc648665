import Verif.Lemmas.FEIndex

/-!
# C01, C02: function numbering and boundary conditions
-/

namespace HelFEM

/-- The finite element basis of family `f` with `n` nodes per element and `ne` elements
(`ne + 1` boundaries). -/
abbrev feShape (f : Family) (n ne : Nat) (zfl zdl zfr zdr : Bool) : FEShape :=
  ⟨PolyBasis.mk' f n, ne + 1, zfl, zdl, zfr, zdr⟩

/-- **C02.** Element `iel` of `ne` keeps exactly the functions that the boundary conditions at the outer
edges it touches do not remove, in ascending order.  Excluded: the Hermite family without any condition
at the right edge, see `C02_hip_no_right_condition_removes_value`. -/
theorem C02_boundary_conditions_partial (f : Family) (n ne iel : Nat) (zfl zdl zfr zdr : Bool)
    (hn : 2 ≤ n) (hip : f = .hip → zfr = true ∨ zdr = true) :
    (feShape f n ne zfl zdl zfr zdr).basisIndices iel =
      .ok (Spec.kept (PolyBasis.mk' f n).noverlap n
        (if iel = 0 then some (zfl, zdl) else none)
        (if iel + 1 = ne then some (zfr, zdr) else none)) := by
  obtain ⟨m, rfl⟩ : ∃ m, n = m + 2 := ⟨n - 2, by omega⟩
  rw [basisIndices_eq, mk'_noverlap, kept_eq_keptBlocks]
  unfold enBlocks keptBlocks
  have hr : rightSel f m zfr zdr = sel zfr zdr (blk (nov f) (m + 1)) := by
    unfold rightSel
    rw [if_neg]
    rintro ⟨h1, h2, h3⟩
    rcases hip h1 with h | h <;> simp_all
  rw [hr]
  congr 2
  · split <;> rfl
  · congr 1; split <;> rfl

example : (feShape .hip2 3 1 true false true true).basisIndices 0 = .ok [1, 2, 3, 4, 5] := by
  rw [C02_boundary_conditions_partial _ _ _ _ _ _ _ _ (by omega) (by simp)]
  decide

/-- **C02 (negative part).** The code violates C02 for the Hermite family: with *no* condition
requested at the right edge, the last element loses its last value function `2n-2`. -/
theorem C02_hip_no_right_condition_removes_value (n ne : Nat) (zfl zdl : Bool) (hn : 2 ≤ n)
    (hne : 1 ≤ ne) :
    ∃ en, (feShape .hip n ne zfl zdl false false).basisIndices (ne - 1) = .ok en ∧
      2 * n - 2 ∉ en ∧
      2 * n - 2 ∈ Spec.kept 2 n (if ne - 1 = 0 then some (zfl, zdl) else none) (some (false, false)) := by
  obtain ⟨m, rfl⟩ : ∃ m, n = m + 2 := ⟨n - 2, by omega⟩
  refine ⟨_, basisIndices_eq _ _ _ _ _ _ _ _, ?_, ?_⟩
  · have h1 : ne - 1 + 1 = ne := by omega
    unfold enBlocks
    simp only [h1, if_true, List.mem_append, not_or]
    refine ⟨?_, ?_, ?_⟩
    · intro h
      have : 2 * (m + 2) - 2 ∈ blk (nov .hip) 0 := by
        split at h
        · exact sel_sub _ _ _ _ h
        · exact h
      simp [blk, nov] at this
      omega
    · simp [nov]; omega
    · simp [rightSel]; omega
  · simp only [Spec.kept, List.mem_filter, List.mem_range]
    refine ⟨by omega, ?_⟩
    have h2 : (2 * (m + 2) - 2) / 2 = m + 1 := by omega
    split <;> simp [Spec.removedAt, h2]

example : (feShape .hip 2 3 true false false false).basisIndices 2 = .ok [0, 1, 3] := by decide

/-- What the numbering of `ne` elements must look like: `N` functions in total, element `i` owning the
numbers `first i … last i`, `nov` functions shared by neighbours. -/
structure NumberingOK (ne nov N : Nat) (count first last : Nat → Nat) : Prop where
  /-- the numbers start at zero -/
  start : first 0 = 0
  /-- and end at `N - 1` -/
  finish : last (ne - 1) + 1 = N
  /-- every element owns as many numbers as it has functions -/
  size : ∀ i < ne, first i + count i = last i + 1
  /-- no number is outside the basis -/
  bound : ∀ i < ne, last i < N
  /-- every number is owned by some element -/
  cover : ∀ k < N, ∃ i < ne, first i ≤ k ∧ k ≤ last i
  /-- neighbours share exactly `nov` numbers, the first ones of the right and the last ones of the left -/
  overlap : ∀ i, i + 1 < ne → ∀ k,
    ((first i ≤ k ∧ k ≤ last i) ∧ (first (i + 1) ≤ k ∧ k ≤ last (i + 1))) ↔
      ∃ t < nov, k = first (i + 1) + t ∧ k + nov = last i + 1 + t
  /-- elements that are not neighbours share nothing -/
  disjoint : ∀ i j, i + 2 ≤ j → j < ne → last i < first j
  /-- the total count: sum of the element counts minus the shared functions -/
  total : N + (ne - 1) * nov = ∑ i ∈ Finset.range ne, count i

theorem numbering_ok (f : Family) (m ne : Nat) (a b c d : Bool) (hne : 1 ≤ ne)
    (hN : 0 < ne * (nov f * (m + 1)) + nov f - remL f a b - remR f c d) :
    NumberingOK ne (nov f) (ne * (nov f * (m + 1)) + nov f - remL f a b - remR f c d)
      (fun i => (enBlocks f m i ne a b c d).length)
      (fun i => (tabEntry f m ne a b c d i).1.toNat) (fun i => (tabEntry f m ne a b c d i).2.toNat) ∧
    ∀ i < ne, 0 ≤ (tabEntry f m ne a b c d i).1 ∧ 0 ≤ (tabEntry f m ne a b c d i).2 := by
  have hL := remL_le f a b
  have hR := remR_le f c d
  have hP := nov_pos f
  -- work with integers: q = step, P = primitives
  obtain ⟨q, hq⟩ : ∃ q, q = nov f * (m + 1) := ⟨_, rfl⟩
  have hq1 : nov f ≤ q := by rw [hq]; nlinarith
  have hPq : nov f * (m + 2) = q + nov f := by rw [hq]; ring
  have hfst : ∀ i, i ≠ 0 → (tabEntry f m ne a b c d i).1 = (i * q : Nat) - (remL f a b : Int) := by
    intro i hi
    simp only [tabEntry, hi, if_false]
    push_cast [hq]; ring
  have hfst0 : (tabEntry f m ne a b c d 0).1 = 0 := by simp [tabEntry]
  have hlst : ∀ i, i + 1 ≠ ne → (tabEntry f m ne a b c d i).2 =
      (i * q : Nat) - (remL f a b : Int) + q + nov f - 1 := by
    intro i hi
    simp only [tabEntry, hi, if_false]
    push_cast [hq]; ring
  have hlstE : (tabEntry f m ne a b c d (ne - 1)).2 =
      ((ne - 1) * q : Nat) - (remL f a b : Int) + q + nov f - 1 - remR f c d := by
    have : ne - 1 + 1 = ne := by omega
    simp only [tabEntry, this, if_true]
    push_cast [hq]; ring
  rw [← hq] at hN ⊢
  have hneq : ne * q = (ne - 1) * q + q := by
    conv_lhs => rw [show ne = (ne - 1) + 1 by omega]
    ring
  have hmul : ∀ i j, i ≤ j → i * q ≤ j * q := fun i j h => Nat.mul_le_mul_right q h
  have hge : ∀ i, i ≠ 0 → q ≤ i * q := fun i h => by
    have := hmul 1 i (by omega); omega
  have hnn : ∀ i < ne, 0 ≤ (tabEntry f m ne a b c d i).1 ∧ 0 ≤ (tabEntry f m ne a b c d i).2 := by
    intro i hi
    constructor
    · by_cases h0 : i = 0
      · subst h0; omega
      · rw [hfst i h0]; have := hge i h0; omega
    · by_cases h1 : i + 1 = ne
      · have : i = ne - 1 := by omega
        subst this; rw [hlstE]; omega
      · rw [hlst i h1]; omega
  refine ⟨⟨?_, ?_, ?_, ?_, ?_, ?_, ?_, ?_⟩, hnn⟩
  · simp [hfst0]
  · rw [hlstE]; omega
  · intro i hi
    have hl := enBlocks_length f m i ne a b c d
    rw [hPq] at hl
    have hn := hnn i hi
    by_cases h0 : i = 0 <;> by_cases h1 : i + 1 = ne
    · have e : i = ne - 1 := by omega
      have e2 : ne - 1 = 0 := by omega
      rw [if_pos h0, if_pos h1] at hl
      subst h0
      have := hlstE
      rw [e2] at this
      rw [this] at hn ⊢
      rw [hfst0]; omega
    · rw [if_pos h0, if_neg h1] at hl
      rw [hlst i h1] at hn ⊢
      subst h0
      rw [hfst0] at *; omega
    · rw [if_neg h0, if_pos h1] at hl
      have e : i = ne - 1 := by omega
      have := hlstE
      rw [← e] at this
      rw [this, hfst i h0] at hn ⊢; omega
    · rw [if_neg h0, if_neg h1] at hl
      rw [hlst i h1, hfst i h0] at hn ⊢; omega
  · intro i hi
    by_cases h1 : i + 1 = ne
    · have e : i = ne - 1 := by omega
      rw [e, hlstE]; omega
    · rw [hlst i h1]
      have := hmul (i + 1) (ne - 1) (by omega)
      have e : (i + 1) * q = i * q + q := by ring
      have : (i + 2) * q ≤ ne * q := hmul _ _ (by omega)
      have e : (i + 2) * q = i * q + q + q := by ring
      omega
  · intro k hk
    have hq0 : 0 < q := by omega
    -- owner: (k + remL) / q, capped at the last element
    by_cases hc : (k + remL f a b) / q < ne
    · refine ⟨(k + remL f a b) / q, hc, ?_, ?_⟩
      · have h := Nat.div_mul_le_self (k + remL f a b) q
        by_cases h0 : (k + remL f a b) / q = 0
        · rw [h0, hfst0]; omega
        · rw [hfst _ h0]; omega
      · have h : k + remL f a b < ((k + remL f a b) / q) * q + q := by
          have := Nat.lt_div_mul_add hq0 (a := k + remL f a b)
          exact this
        by_cases h1 : (k + remL f a b) / q + 1 = ne
        · have e : (k + remL f a b) / q = ne - 1 := by omega
          rw [e] at h ⊢
          rw [hlstE]; omega
        · rw [hlst _ h1]; omega
    · refine ⟨ne - 1, by omega, ?_, ?_⟩
      · have h := Nat.div_mul_le_self (k + remL f a b) q
        have h2 := hmul ne ((k + remL f a b) / q) (by omega)
        by_cases h0 : ne - 1 = 0
        · rw [h0, hfst0]; omega
        · rw [hfst _ h0]; omega
      · rw [hlstE]; omega
  · intro i hi k
    have e1 : (i + 1) * q = i * q + q := by ring
    have n1 := hnn i (by omega)
    have n2 := hnn (i + 1) hi
    have f2 := hfst (i + 1) (by omega)
    have l1 := hlst i (by omega)
    have hk1 : (tabEntry f m ne a b c d i).1 ≤ (tabEntry f m ne a b c d (i+1)).1 := by
      by_cases h0 : i = 0
      · rw [h0, hfst0]; subst h0; omega
      · rw [hfst i h0, f2]; omega
    have hk2 : (tabEntry f m ne a b c d i).2 ≤ (tabEntry f m ne a b c d (i+1)).2 := by
      by_cases h1 : i + 1 + 1 = ne
      · have e : i + 1 = ne - 1 := by omega
        rw [e, hlstE, l1, ← e]; omega
      · rw [hlst _ h1, l1]; omega
    constructor
    · rintro ⟨⟨h1, h2⟩, h3, h4⟩
      refine ⟨k - (tabEntry f m ne a b c d (i+1)).1.toNat, ?_, ?_, ?_⟩ <;> omega
    · rintro ⟨t, ht, h1, h2⟩
      omega
  · intro i j hij hj
    have f2 := hfst j (by omega)
    have l1 := hlst i (by omega)
    have : (i + 2) * q ≤ j * q := hmul _ _ hij
    have e : (i + 2) * q = i * q + q + q := by ring
    rw [f2, l1]; omega
  · have key : ∀ r, r ≤ ne → (∑ i ∈ Finset.range r, (enBlocks f m i ne a b c d).length)
        + (if r = 0 then 0 else remL f a b) + (if r = ne then remR f c d else 0) = r * (q + nov f) := by
      intro r
      induction r with
      | zero => intro _; simp; omega
      | succ r ih =>
        intro hr
        have := ih (by omega)
        rw [Finset.sum_range_succ]
        have hl := enBlocks_length f m r ne a b c d
        rw [hPq] at hl
        have e : (r + 1) * (q + nov f) = r * (q + nov f) + (q + nov f) := by ring
        have h1 : r ≠ ne := by omega
        rw [if_neg h1] at this
        rw [if_neg (Nat.succ_ne_zero r)]
        by_cases h0 : r = 0
        · subst h0
          simp only [if_true] at this hl
          split at hl <;> simp_all <;> omega
        · rw [if_neg h0] at this hl
          split at hl <;> simp_all <;> omega
    have := key ne le_rfl
    have h0 : ne ≠ 0 := by omega
    simp only [h0, if_true, if_false] at this
    have e : ne * (q + nov f) = (ne - 1) * (q + nov f) + (q + nov f) := by
      conv_lhs => rw [show ne = (ne - 1) + 1 by omega]
      ring
    have e2 : (ne - 1) * (q + nov f) = (ne - 1) * q + (ne - 1) * nov f := by ring
    omega

/-- **C01.** For every family, node count `n ≥ 2`, element count `ne ≥ 1` and all flags:
`update_bf_list` succeeds, and, unless the basis has no functions at all, `get_idx` returns for every
element a range such that the numbering is gap-free with exactly `noverlap` functions shared by
neighbours (`NumberingOK`), where `N` is the value of `get_nbf`. -/
theorem C01_numbering (f : Family) (n ne : Nat) (zfl zdl zfr zdr : Bool) (hn : 2 ≤ n) (hne : 1 ≤ ne) :
    ∃ tab N, (feShape f n ne zfl zdl zfr zdr).updateBfList = .ok tab ∧ tab.length = ne ∧
      FEShape.getNbf tab = .ok N ∧
      (0 < N → ∃ first last count : Nat → Nat,
        (∀ i < ne, FEShape.getIdx tab i = .ok (first i, last i)) ∧
        (∀ i < ne, ∃ en, (feShape f n ne zfl zdl zfr zdr).basisIndices i = .ok en ∧
          en.length = count i) ∧
        NumberingOK ne (PolyBasis.mk' f n).noverlap N count first last) := by
  obtain ⟨m, rfl⟩ : ∃ m, n = m + 2 := ⟨n - 2, by omega⟩
  have hL := remL_le f zfl zdl
  have hR := remR_le f zfr zdr
  refine ⟨_, ne * (nov f * (m + 1)) + nov f - remL f zfl zdl - remR f zfr zdr,
    updateBfList_eq f m ne zfl zdl zfr zdr, by simp, ?_, ?_⟩
  · have h : ((List.range ne).map (tabEntry f m ne zfl zdl zfr zdr)).getLast? =
        some (tabEntry f m ne zfl zdl zfr zdr (ne - 1)) := by
      rw [List.getLast?_map, List.getLast?_range]
      simp [show ne ≠ 0 by omega]
    have e : (tabEntry f m ne zfl zdl zfr zdr (ne - 1)).2 + 1 =
        ((ne * (nov f * (m + 1)) + nov f - remL f zfl zdl - remR f zfr zdr : Nat) : Int) := by
      have h1 : ne - 1 + 1 = ne := by omega
      have h2 : nov f ≤ ne * (nov f * (m + 1)) := by
        have : 1 * (nov f * 1) ≤ ne * (nov f * (m + 1)) :=
          Nat.mul_le_mul hne (Nat.mul_le_mul_left _ (by omega))
        omega
      rw [Nat.cast_sub (by omega), Nat.cast_sub (by omega)]
      simp only [tabEntry, h1, if_true]
      have h3 : ((ne - 1 : Nat) : Int) = (ne : Int) - 1 := by omega
      push_cast [h3]
      ring
    unfold FEShape.getNbf
    rw [h]
    simp only
    rw [e, if_pos (Int.natCast_nonneg _)]
    simp
  · intro hN
    obtain ⟨hok, hnn⟩ := numbering_ok f m ne zfl zdl zfr zdr hne hN
    refine ⟨_, _, _, ?_, ?_, mk'_noverlap f (m + 2) ▸ hok⟩
    · intro i hi
      have := hnn i hi
      simp [FEShape.getIdx, readAt, hi, this]
    · intro i _
      exact ⟨_, basisIndices_eq .., rfl⟩

/-- non-vacuity: three second-order Hermite elements with both ends clamped -/
example : ∃ tab, (feShape .hip2 3 3 true false true true).updateBfList = .ok tab ∧
    tab = [(0, 7), (5, 13), (11, 16)] ∧ FEShape.getNbf tab = .ok 17 := by
  refine ⟨_, rfl, ?_, ?_⟩ <;> decide

/-- **C01 (closed formula).** The number of functions is
`ne*(nprim - noverlap) + noverlap` minus what the boundary conditions ask to remove. -/
theorem C01_nbf_formula_partial (f : Family) (n ne : Nat) (zfl zdl zfr zdr : Bool) (hn : 2 ≤ n)
    (hne : 1 ≤ ne) (hip : f = .hip → zfr = true ∨ zdr = true) :
    ∃ tab N, (feShape f n ne zfl zdl zfr zdr).updateBfList = .ok tab ∧ FEShape.getNbf tab = .ok N ∧
      let p := PolyBasis.mk' f n
      let removed := fun (fu de : Bool) => (if fu then 1 else 0) + (if de then p.noverlap - 1 else 0)
      N + removed zfl zdl + removed zfr zdr = ne * (p.nprim - p.noverlap) + p.noverlap := by
  obtain ⟨tab, N, h1, h2, h3, h4⟩ := C01_numbering f n ne zfl zdl zfr zdr hn hne
  refine ⟨tab, N, h1, h3, ?_⟩
  obtain ⟨m, rfl⟩ : ∃ m, n = m + 2 := ⟨n - 2, by omega⟩
  rw [updateBfList_eq] at h1
  have htab : tab = (List.range ne).map (tabEntry f m ne zfl zdl zfr zdr) := by
    injection h1 with h; exact h.symm
  have hlast : tab.getLast? = some (tabEntry f m ne zfl zdl zfr zdr (ne - 1)) := by
    rw [htab, List.getLast?_map, List.getLast?_range]
    simp [show ne ≠ 0 by omega]
  unfold FEShape.getNbf at h3
  rw [hlast] at h3
  simp only at h3
  split at h3
  · next hpos =>
    have hN : N = ((tabEntry f m ne zfl zdl zfr zdr (ne - 1)).2 + 1).toNat := by
      injection h3 with h; exact h.symm
    have hr : remR f zfr zdr = remL f zfr zdr := by
      unfold remR; rw [if_neg]; rintro ⟨x, y, z⟩; rcases hip x with h | h <;> simp_all
    have h1 : ne - 1 + 1 = ne := by omega
    have h3 : ((ne - 1 : Nat) : Int) = (ne : Int) - 1 := by omega
    have hN' : (N : Int) = (tabEntry f m ne zfl zdl zfr zdr (ne - 1)).2 + 1 := by omega
    simp only [mk'_noverlap, mk'_nprim]
    have e : nov f * (m + 2) - nov f = nov f * (m + 1) := by
      have : nov f * (m + 2) = nov f * (m + 1) + nov f := by ring
      omega
    rw [e]
    change N + remL f zfl zdl + remL f zfr zdr = _
    simp only [tabEntry, h1, if_true, h3, hr] at hN'
    have : ((N + remL f zfl zdl + remL f zfr zdr : Nat) : Int) = ((ne * (nov f * (m + 1)) + nov f : Nat) : Int) := by
      push_cast
      linarith
    exact_mod_cast this
  · simp at h3

/-- **C01 (gluing).** Function number `first(i+1) + t`, `t < noverlap`, is the `t`-th shape function of the
right end node in element `i` and the `t`-th shape function of the left end node in element `i+1`, for
every interior boundary. -/
theorem C01_gluing (f : Family) (n ne : Nat) (zfl zdl zfr zdr : Bool) (hn : 2 ≤ n) (i t : Nat)
    (hi : i + 1 < ne) (ht : t < (PolyBasis.mk' f n).noverlap) :
    ∃ tab a b a' b' en en', (feShape f n ne zfl zdl zfr zdr).updateBfList = .ok tab ∧
      FEShape.getIdx tab i = .ok (a, b) ∧ FEShape.getIdx tab (i + 1) = .ok (a', b') ∧
      (feShape f n ne zfl zdl zfr zdr).basisIndices i = .ok en ∧
      (feShape f n ne zfl zdl zfr zdr).basisIndices (i + 1) = .ok en' ∧
      a ≤ a' + t ∧ a' + t ≤ b ∧ a' + t ≤ b' ∧
      en[a' + t - a]? = some ((PolyBasis.mk' f n).nprim - (PolyBasis.mk' f n).noverlap + t) ∧
      en'[t]? = some t := by
  obtain ⟨m, rfl⟩ : ∃ m, n = m + 2 := ⟨n - 2, by omega⟩
  have hL := remL_le f zfl zdl
  have hR := remR_le f zfr zdr
  have hP := nov_pos f
  have hN : 0 < ne * (nov f * (m + 1)) + nov f - remL f zfl zdl - remR f zfr zdr := by
    have h2 : 2 * (nov f * 1) ≤ ne * (nov f * (m + 1)) :=
      Nat.mul_le_mul (by omega) (Nat.mul_le_mul_left _ (by omega))
    omega
  obtain ⟨hok, hnn⟩ := numbering_ok f m ne zfl zdl zfr zdr (by omega) hN
  rw [mk'_noverlap] at ht ⊢
  rw [mk'_nprim]
  have n1 := hnn i (by omega)
  have n2 := hnn (i + 1) hi
  have hov := (hok.overlap i hi ((tabEntry f m ne zfl zdl zfr zdr (i+1)).1.toNat + t)).2
  have hsz := hok.size i (by omega)
  have hsz' := hok.size (i + 1) hi
  have hl := enBlocks_length f m i ne zfl zdl zfr zdr
  have hl' := enBlocks_length f m (i + 1) ne zfl zdl zfr zdr
  have hdiff : (tabEntry f m ne zfl zdl zfr zdr i).2 + 1 =
      (tabEntry f m ne zfl zdl zfr zdr (i+1)).1 + nov f := by
    simp only [tabEntry, show i + 1 ≠ ne by omega, show i + 1 ≠ 0 by omega, if_false]
    push_cast; ring
  have hov' := hov ⟨t, ht, rfl, by omega⟩
  refine ⟨_, _, _, _, _, _, _, updateBfList_eq .., ?_, ?_, basisIndices_eq .., basisIndices_eq .., hov'.1.1,
    hov'.1.2, hov'.2.2, ?_, ?_⟩
  · simp only [FEShape.getIdx, readAt, List.getElem?_map, List.getElem?_range (show i < ne by omega)]
    simp [n1]
  · simp only [FEShape.getIdx, readAt, List.getElem?_map, List.getElem?_range hi]
    simp [n2]
  · have hlen : (enBlocks f m i ne zfl zdl zfr zdr).length = 
        (if i = 0 then sel zfl zdl (blk (nov f) 0) else blk (nov f) 0).length + nov f * m + nov f := by
      unfold enBlocks
      simp [show i + 1 ≠ ne by omega, blk_length]; omega
    have hidx : (tabEntry f m ne zfl zdl zfr zdr (i + 1)).1.toNat + t -
        (tabEntry f m ne zfl zdl zfr zdr i).1.toNat =
        (if i = 0 then sel zfl zdl (blk (nov f) 0) else blk (nov f) 0).length + (nov f * m + t) := by
      omega
    rw [hidx]
    unfold enBlocks
    simp only [show i + 1 ≠ ne by omega, if_false]
    rw [List.getElem?_append_right (by omega), Nat.add_sub_cancel_left,
      List.getElem?_append_right (by simp), List.length_map, List.length_range, Nat.add_sub_cancel_left]
    simp [blk, ht]
    have e : nov f * (m + 2) = nov f * (m + 1) + nov f := by ring
    omega
  · unfold enBlocks
    simp only [show i + 1 ≠ 0 by omega, if_false]
    rw [List.getElem?_append_left (by simp [blk_length, ht])]
    simp [blk, ht]

end HelFEM
