import Verif.Lemmas.FEEval

/-!
# C13, C14, C43, C44: the assembled basis

Continuity of the global functions, acceptance by the constructor, boundary conditions as seen in function values, and
`B(r)/r` on the first element.
-/

namespace HelFEM
namespace Poly
open Finset Polynomial Spec Grid

/-- Value of the global function `g`, given the values `v` of the functions of an element whose numbers start at `first`;
functions that are not in the element are zero there. -/
def globalValue (first : Nat) (v : List ℝ) (g : Nat) : ℝ := if first ≤ g then v.getD (g - first) 0 else 0

theorem globalValue_delta (en : List Nat) (hnd : en.Nodup) (a G t : Nat) (hG : a ≤ G) (h : en[G - a]? = some t) (g : Nat) :
    globalValue a (en.map fun idx => if idx = t then (1 : ℝ) else 0) g = if g = G then 1 else 0 := by
  unfold globalValue
  by_cases hg : a ≤ g
  · rw [if_pos hg, List.getD_eq_getElem?_getD, List.getElem?_map]
    by_cases hgG : g = G
    · rw [if_pos hgG, hgG, h]; simp
    · rw [if_neg hgG]
      cases hk : en[g - a]? with
      | none => simp
      | some idx =>
        simp only [Option.map_some, Option.getD_some]
        rw [if_neg]
        rintro rfl
        apply hgG
        rw [List.getElem?_eq_some_iff] at h hk
        obtain ⟨h1, h2⟩ := h
        obtain ⟨h3, h4⟩ := hk
        have := (List.Nodup.getElem_inj_iff hnd).1 (h2.trans h4.symm)
        omega
  · rw [if_neg hg, if_neg (by omega)]

/-- **C43 (and C13).** At every interface of neighbouring elements, every global function has from both sides the same value
and the same derivatives with respect to `r` up to order `noverlap - 1`, for every family, node set,
increasing boundary list and boundary conditions. -/
theorem C43_continuity (f : Family) (n ne : Nat) (zfl zdl zfr zdr : Bool) (x0 : Nat → ℝ) (hx : GoodNodes n x0)
    (bval : List ℝ) (hb : bval.length = ne + 1) (hs : bval.Pairwise (· < ·)) (i : Nat) (hi : i + 1 < ne) (d : Nat)
    (hd : d < (PolyBasis.mk' f n).noverlap) :
    ∃ tab a b a' b' vL vR, (feShape f n ne zfl zdl zfr zdr).updateBfList = .ok tab ∧
      FEShape.getIdx tab i = .ok (a, b) ∧ FEShape.getIdx tab (i + 1) = .ok (a', b') ∧
      feEvalDnf (feShape f n ne zfl zdl zfr zdr) bval x0 1 d i = .ok vL ∧
      feEvalDnf (feShape f n ne zfl zdl zfr zdr) bval x0 (-1) d (i + 1) = .ok vR ∧
      vL.length = b + 1 - a ∧ vR.length = b' + 1 - a' ∧
      ∀ g, globalValue a vL g = globalValue a' vR g := by
  have hn := hx.two
  obtain ⟨tab, a, b, a', b', en, en', h1, h2, h3, h4, h5, h6, h7, h8, h9, h10⟩ :=
    C01_gluing f n ne zfl zdl zfr zdr hn i d hi hd
  obtain ⟨tab2, N, g1, g2, g3, g4⟩ := C01_numbering f n ne zfl zdl zfr zdr hn (by omega)
  obtain ⟨m, rfl⟩ : ∃ m, n = m + 2 := ⟨n - 2, by omega⟩
  rw [basisIndices_eq] at h4 h5
  rw [mk'_noverlap] at hd h9
  rw [mk'_nprim] at h9
  have e4 := Res.ok.inj h4
  have e5 := Res.ok.inj h5
  subst e4 e5
  obtain rfl : tab = tab2 := Res.ok.inj (h1.symm.trans g1)
  have hNpos : 0 < N := by
    by_contra hc
    have hN0 : N = 0 := by omega
    have htab := h1
    rw [updateBfList_eq] at htab
    have ht := Res.ok.inj htab
    have hidx := h3
    rw [← ht] at hidx
    unfold FEShape.getIdx readAt at hidx
    rw [List.getElem?_map, List.getElem?_range hi] at hidx
    have hnbf := g3
    rw [← ht] at hnbf
    have hlast : ((List.range ne).map (tabEntry f m ne zfl zdl zfr zdr)).getLast? =
        some (tabEntry f m ne zfl zdl zfr zdr (ne - 1)) := by
      rw [List.getLast?_map, List.getLast?_range]
      simp [show ne ≠ 0 by omega]
    unfold FEShape.getNbf at hnbf
    rw [hlast] at hnbf
    have hL := remL_le f zfl zdl
    have hR := remR_le f zfr zdr
    have hP := nov_pos f
    simp only [tabEntry, show ne - 1 + 1 = ne by omega, if_true] at hnbf
    have hge : nov f ≤ (ne - 1) * (nov f * (m + 1)) := by
      calc nov f = 1 * (nov f * 1) := by ring
        _ ≤ (ne - 1) * (nov f * (m + 1)) := Nat.mul_le_mul (by omega) (Nat.mul_le_mul_left _ (by omega))
    have hge' : (nov f : Int) ≤ ((ne - 1 : Nat) : Int) * ((nov f : Int) * ((m : Int) + 1)) := by exact_mod_cast hge
    have h2n : (2 * nov f : Int) ≤ (nov f : Int) * ((m : Int) + 2) := by nlinarith
    split at hnbf
    · have := Res.ok.inj hnbf
      omega
    · simp at hnbf
  obtain ⟨first, last, count, k1, k2, k3⟩ := g4 hNpos
  have ki := k1 i (by omega)
  have ki' := k1 (i + 1) hi
  rw [h2] at ki
  rw [h3] at ki'
  have ei := Res.ok.inj ki
  have ei' := Res.ok.inj ki'
  simp only [Prod.mk.injEq] at ei ei'
  have s1 := k3.size i (by omega)
  have s2 := k3.size (i + 1) hi
  obtain ⟨ea, hea, hla⟩ := k2 i (by omega)
  obtain ⟨eb, heb, hlb⟩ := k2 (i + 1) hi
  rw [basisIndices_eq] at hea heb
  rw [← Res.ok.inj hea] at hla
  rw [← Res.ok.inj heb] at hlb
  refine ⟨tab, a, b, a', b', _, _, h1, h2, h3,
    feEval_right f m ne i zfl zdl zfr zdr bval hb hs x0 hx d hd (by omega),
    feEval_left f m ne (i + 1) zfl zdl zfr zdr bval hb hs x0 hx d hd hi, ?_, ?_, ?_⟩
  · rw [List.length_map]; omega
  · rw [List.length_map]; omega
  · intro g
    have e : nov f * (m + 2) - nov f + d = nov f * (m + 1) + d := by
      have : nov f * (m + 2) = nov f * (m + 1) + nov f := by ring
      omega
    rw [e] at h9
    rw [globalValue_delta _ (enBlocks_nodup ..) a (a' + d) _ h6 h9 g]
    rw [globalValue_delta _ (enBlocks_nodup ..) a' (a' + d) d (by omega) (by rw [Nat.add_sub_cancel_left]; exact h10) g]

theorem good_two : GoodNodes 2 (fun k => (2 * (k : ℝ) - 1)) := by
  refine ⟨by omega, ?_, by norm_num, by norm_num⟩
  intro i _ j _ h
  have : (i : ℝ) = j := by linarith
  exact_mod_cast this

/-- non-vacuity: three second-order Hermite elements -/
example : GoodNodes 2 (fun k => (2 * (k : ℝ) - 1)) ∧ [0, 1, 3, (4 : ℝ)].length = 3 + 1 ∧
    [0, 1, 3, (4 : ℝ)].Pairwise (· < ·) ∧ 2 < (PolyBasis.mk' .hip2 2).noverlap := by
  refine ⟨good_two, rfl, by norm_num, by decide⟩

/-- **C43, constructor.** The continuity check of the constructor never rejects increasing boundaries, so that the
object built is the one modelled without the check. -/
theorem C43_constructor_accepts (f : Family) (n ne : Nat) (zfl zdl zfr zdr : Bool) (x0 : Nat → ℝ) (hx : GoodNodes n x0)
    (hne : 1 ≤ ne) (bval : List ℝ) (hb : bval.length = ne + 1) (hs : bval.Pairwise (· < ·)) :
    ∃ o, constructChecked (PolyBasis.mk' f n) bval x0 zfl zdl zfr zdr = .ok o ∧
      construct (PolyBasis.mk' f n) bval zfl zdl zfr zdr = .ok o := by
  have hn := hx.two
  obtain ⟨m, rfl⟩ : ∃ m, n = m + 2 := ⟨n - 2, by omega⟩
  have hc : construct (PolyBasis.mk' f (m + 2)) bval zfl zdl zfr zdr =
      .ok ⟨⟨PolyBasis.mk' f (m + 2), ne + 1, zfl, zdl, zfr, zdr⟩, bval,
        (List.range ne).map (tabEntry f m ne zfl zdl zfr zdr)⟩ := by
    unfold construct
    simp only [hb, updateBfList_eq, Res.ok_bind, Res.pure_eq]
  refine ⟨_, ?_, hc⟩
  unfold constructChecked
  rw [hc]
  simp only [Res.ok_bind]
  have : checkContinuity ⟨PolyBasis.mk' f (m + 2), ne + 1, zfl, zdl, zfr, zdr⟩ bval x0 = .ok () := by
    unfold checkContinuity
    simp only [FEShape.nelem, Nat.add_sub_cancel]
    split
    · rfl
    · next h1 =>
      rw [if_neg (by omega)]
      rw [Res.mapM_ok _ (fun _ => ()) _ _]
      · rfl
      · intro i hi
        rw [List.mem_range] at hi
        have hib : i + 1 < bval.length := by omega
        have hib' : i + 1 + 1 < bval.length := by omega
        unfold checkInterface
        rw [coord_eq bval i hib, coord_eq bval (i + 1) hib']
        simp only [Res.ok_bind, List.map_cons, List.map_nil, readAt, List.getElem?_cons_zero, mk'_noverlap]
        rw [if_neg]
        · rw [Res.mapM_ok _ (fun d => (List.range (nov f)).map fun t => if t = d then (1 : ℝ) else 0)]
          · rw [Res.ok_bind, Res.mapM_ok _ (fun d => (List.range (nov f)).map fun t => if t = d then (1 : ℝ) else 0)]
            · simp only [Res.ok_bind]
              rw [if_neg]
              rw [List.zipWith_self]
              simp only [List.zipWith_self, sub_self, List.map_map]
              rw [List.map_congr_left (g := fun _ => (0 : ℝ))]
              · simp
              · intro d _
                simp
            · intro d hd
              rw [List.mem_range] at hd
              rw [feEval_left f m ne (i + 1) zfl zdl zfr zdr bval hb hs x0 hx d hd (by omega)]
              simp only [Res.ok_bind]
              obtain ⟨post, hpost⟩ := enBlocks_head f m (i + 1) ne zfl zdl zfr zdr (by omega)
              rw [hpost, List.map_append, segment_zero_append _ _ _ (by simp [blk_length])]
              simp [blk]
          · intro d hd
            rw [List.mem_range] at hd
            rw [feEval_right f m ne i zfl zdl zfr zdr bval hb hs x0 hx d hd (by omega)]
            simp only [Res.ok_bind]
            obtain ⟨pre, hpre⟩ := enBlocks_tail f m i ne zfl zdl zfr zdr (by omega)
            rw [hpre, List.map_append, segment_append_right _ _ _ _ (by simp [blk_length]) (by simp [blk_length])]
            congr 1
            unfold blk
            rw [List.map_map]
            apply List.map_congr_left
            intro t _
            simp only [Function.comp]
            congr 1
            rw [eq_iff_iff]
            omega
        · have e : (1 / 2 * (bval[i] + bval[i + 1]) + (bval[i + 1] - bval[i]) / 2 * 1) =
              (1 / 2 * (bval[i + 1] + bval[i + 1 + 1]) + (bval[i + 1 + 1] - bval[i + 1]) / 2 * -1) := by ring
          rw [e, sub_self, abs_zero, not_lt]
          positivity
  rw [this]
  rfl

/-- **C44.** Requested boundary conditions hold for the function values: with `zero_func` every function of
the outermost element vanishes at the outer edge, with `zero_deriv` all derivatives of order `1, …, noverlap-1` do. -/
theorem C44_boundary_values (f : Family) (n ne : Nat) (zfl zdl zfr zdr : Bool) (x0 : Nat → ℝ) (hx : GoodNodes n x0)
    (hne : 1 ≤ ne) (bval : List ℝ) (hb : bval.length = ne + 1) (hs : bval.Pairwise (· < ·)) (d : Nat)
    (hd : d < (PolyBasis.mk' f n).noverlap) :
    ((if d = 0 then zfl else zdl) = true → ∃ v, feEvalDnf (feShape f n ne zfl zdl zfr zdr) bval x0 (-1) d 0 = .ok v ∧
      ∀ y ∈ v, y = 0) ∧
    ((if d = 0 then zfr else zdr) = true → ∃ v, feEvalDnf (feShape f n ne zfl zdl zfr zdr) bval x0 1 d (ne - 1) = .ok v ∧
      ∀ y ∈ v, y = 0) := by
  have hn := hx.two
  obtain ⟨m, rfl⟩ : ∃ m, n = m + 2 := ⟨n - 2, by omega⟩
  rw [mk'_noverlap] at hd
  have key : ∀ (k : Nat) (fu de : Bool), (if d = 0 then fu else de) = true →
      nov f * k + d ∉ sel fu de (blk (nov f) k) := by
    intro k fu de h hmem
    have hp := nov_pos f
    obtain ⟨q, hq⟩ : ∃ q, nov f = q + 1 := ⟨nov f - 1, by omega⟩
    have hb : blk (nov f) k = (nov f * k) :: (List.range q).map (fun t => t + 1 + nov f * k) := by
      simp [blk, hq, List.range_succ_eq_map, Function.comp_def]
    rw [hb] at hmem
    by_cases h0 : d = 0
    · rw [if_pos h0] at h
      subst h0
      simp only [sel, h, if_true, List.nil_append, add_zero] at hmem
      cases de
      · simp at hmem
      · simp at hmem
    · rw [if_neg h0] at h
      simp only [sel, h, if_true, List.append_nil] at hmem
      cases fu
      · simp at hmem; omega
      · simp at hmem
  have hmid : ∀ t, t ∈ (List.range (nov f * m)).map (· + nov f) → nov f ≤ t ∧ t < nov f * (m + 1) := by
    intro t ht
    simp at ht
    obtain ⟨x, hx1, hx2⟩ := ht
    have : nov f * (m + 1) = nov f * m + nov f := by ring
    omega
  have hblk : ∀ t k, t ∈ blk (nov f) k → nov f * k ≤ t ∧ t < nov f * k + nov f := by
    intro t k ht
    simp [blk] at ht
    obtain ⟨x, hx1, hx2⟩ := ht
    omega
  have hmk : nov f ≤ nov f * (m + 1) := Nat.le_mul_of_pos_right _ (by omega)
  constructor
  · intro hf
    refine ⟨_, feEval_left f m ne 0 zfl zdl zfr zdr bval hb hs x0 hx d hd (by omega), ?_⟩
    intro y hy
    rw [List.mem_map] at hy
    obtain ⟨idx, hidx, rfl⟩ := hy
    rw [if_neg]
    rintro rfl
    unfold enBlocks at hidx
    simp only [List.mem_append, if_true] at hidx
    rcases hidx with h | h | h
    · have := key 0 zfl zdl hf
      rw [mul_zero, zero_add] at this
      exact this h
    · have := hmid _ h; omega
    · split at h
      · unfold rightSel at h
        split at h
        · next hc => obtain ⟨rfl, _⟩ := hc; simp [nov] at *; omega
        · have := hblk _ _ (sel_sub _ _ _ _ h); omega
      · have := hblk _ _ h; omega
  · intro hf
    refine ⟨_, feEval_right f m ne (ne - 1) zfl zdl zfr zdr bval hb hs x0 hx d hd (by omega), ?_⟩
    intro y hy
    rw [List.mem_map] at hy
    obtain ⟨idx, hidx, rfl⟩ := hy
    rw [if_neg]
    rintro rfl
    unfold enBlocks at hidx
    simp only [List.mem_append, show ne - 1 + 1 = ne by omega, if_true] at hidx
    rcases hidx with h | h | h
    · split at h
      · have := hblk _ _ (sel_sub _ _ _ _ h); omega
      · have := hblk _ _ h; omega
    · have := hmid _ h; omega
    · unfold rightSel at h
      split at h
      · next hc =>
        obtain ⟨_, h1, h2⟩ := hc
        rw [h1, h2] at hf
        simp at hf
      · exact key (m + 1) zfr zdr hf h

/-- **C14 for the assembled basis.** On a first element that starts at the origin, with the value function there removed and
at least one function left, `eval_over_r` multiplied by `r` gives the functions themselves, at `r = 0` it gives their
derivatives, and orders 1 and 2 are the derivatives of a function `R` with `B = r R`. -/
theorem C14_fe_over_r (f : Family) (n ne : Nat) (zdl zfr zdr : Bool) (x0 : Nat → ℝ) (hx : GoodNodes n x0)
    (hne : 1 ≤ ne) (bval : List ℝ) (hb : bval.length = ne + 1) (hs : bval.Pairwise (· < ·)) (h0 : bval[0]'(by omega) = 0)
    (en : List Nat) (hen : (feShape f n ne true zdl zfr zdr).basisIndices 0 = .ok en) (hen0 : en ≠ []) :
    ∃ B R : List ℝ[X], B.length = en.length ∧ R.length = en.length ∧
      (∀ k (h1 : k < B.length) (h2 : k < R.length), B[k] = X * R[k]) ∧
      (∀ x : ℝ, ∀ d ≤ maxN f, feEvalDnf (feShape f n ne true zdl zfr zdr) bval x0 x (d : Nat) 0 =
        .ok (B.map fun p => (derivative^[d] p).eval (bval[1]'(by omega) / 2 * (x + 1)))) ∧
      (∀ x : ℝ, ∀ d ≤ 2, feOverR (feShape f n ne true zdl zfr zdr) bval x0 x (d : Nat) 0 =
        .ok (R.map fun p => (derivative^[d] p).eval (bval[1]'(by omega) / 2 * (x + 1)))) := by
  have hn := hx.two
  obtain ⟨m, rfl⟩ : ∃ m, n = m + 2 := ⟨n - 2, by omega⟩
  rw [basisIndices_eq] at hen
  have he := Res.ok.inj hen
  subst he
  have hlen : (bval[0 + 1]'(by omega) - bval[0]'(by omega)) / (2 : ℝ) = bval[1]'(by omega) / 2 := by rw [h0]; simp
  have hl0 : bval[1]'(by omega) / 2 ≠ 0 := by
    rw [← hlen]; exact half_ne hs 0 (by omega)
  refine ⟨(enBlocks f m 0 ne true zdl zfr zdr).map fun idx =>
      onFirstElement (bval[1]'(by omega) / 2) (primPoly f (m + 2) x0 (bval[1]'(by omega) / 2) idx),
    (enBlocks f m 0 ne true zdl zfr zdr).map fun idx => C (bval[1]'(by omega) / 2)⁻¹ *
      onFirstElement (bval[1]'(by omega) / 2) (primRed f (m + 2) x0 (bval[1]'(by omega) / 2) idx),
    by simp, by simp, ?_, ?_, ?_⟩
  · intro k h1 h2
    rw [List.getElem_map, List.getElem_map]
    rw [List.length_map] at h1
    have hm := List.getElem_mem h1
    rw [primPoly_red f (m + 2) x0 hx _ _ (enBlocks_first_pos f m ne zdl zfr zdr _ hm) (enBlocks_lt _ _ _ _ _ _ _ _ _ hm)]
    exact onFirst_red _ _
  · intro x d hd
    rw [feEvalDnf_eq f m ne 0 true zdl zfr zdr bval hb x0 x d hd (by omega)]
    rw [List.map_map, hlen]
    congr 1
    apply List.map_congr_left
    intro idx _
    exact (dv_onFirst _ x hl0 _ d).symm
  · intro x d hd
    unfold feOverR
    rw [begin_eq bval 0 (by omega), getBasis_eq, sf_eq bval 0 (by omega)]
    simp only [Res.ok_bind]
    rw [if_neg (by rw [h0, abs_zero, not_lt]; positivity)]
    unfold polyOverR
    simp only
    rw [if_neg hen0, hlen]
    cases hhd : (enBlocks f m 0 ne true zdl zfr zdr).head? with
    | none => rw [List.head?_eq_none_iff] at hhd; exact absurd hhd hen0
    | some fst =>
      have hf1 : 1 ≤ fst := enBlocks_first_pos f m ne zdl zfr zdr fst (List.mem_of_mem_head? hhd)
      obtain ⟨q, rfl⟩ : ∃ q, fst = q + 1 := ⟨fst - 1, by omega⟩
      rw [Res.mapM_ok _ (fun idx => dv (primRed f (m + 2) x0 (bval[1]'(by omega) / 2) idx) x d / (bval[1]'(by omega) / 2) ^ (d + 1))]
      · rw [List.map_map]
        congr 1
        apply List.map_congr_left
        intro idx _
        exact (dv_red _ x hl0 _ d).symm
      · intro idx hidx
        rw [mk'_family, mk'_nnodes]
        exact overREntry_eq f (m + 2) x0 q x d hd _ hl0 idx (enBlocks_first_pos f m ne zdl zfr zdr idx hidx)

/-- **C14, rejections for the assembled basis.** The call throws on an element that does not start at the origin (beyond
1e-14), and on the first element if the function that does not vanish at the origin has been kept. -/
theorem C14_fe_rejects (f : Family) (n ne : Nat) (zdl zfr zdr : Bool) (x0 : Nat → ℝ) (hn : 2 ≤ n)
    (bval : List ℝ) (hb : bval.length = ne + 1) (x : ℝ) (d : Int) (hne : 1 ≤ ne) :
    feOverR (feShape f n ne false zdl zfr zdr) bval x0 x d 0 = .throw .logicError ∧
    ∀ (iel : Nat) (hi : iel < ne) (zfl : Bool), 1 / 10 ^ 14 < |bval[iel]'(by omega)| →
      feOverR (feShape f n ne zfl zdl zfr zdr) bval x0 x d iel = .throw .logicError := by
  obtain ⟨m, rfl⟩ : ∃ m, n = m + 2 := ⟨n - 2, by omega⟩
  constructor
  · unfold feOverR
    rw [begin_eq bval 0 (by omega), getBasis_eq, sf_eq bval 0 (by omega)]
    simp only [Res.ok_bind]
    split
    · rfl
    · unfold polyOverR
      simp only
      have hh := enBlocks_first_zero f m ne zdl zfr zdr
      cases hen : enBlocks f m 0 ne false zdl zfr zdr with
      | nil => rfl
      | cons i rest =>
        rw [hen] at hh
        rw [if_neg (by simp), hh, List.mapM_cons, overREntry_rejects]
        rfl
  · intro iel hi zfl h
    unfold feOverR
    rw [begin_eq bval iel (by omega)]
    simp only [Res.ok_bind]
    rw [if_pos h]

/-- non-vacuity: one Lagrange element of length two with both ends removed keeps a function -/
example : (feShape .lip 3 1 true false true false).basisIndices 0 = .ok [1] := by decide

end Poly
end HelFEM
