import Verif.Model.FEEval
import Verif.Lemmas.OverR
import Verif.Lemmas.FEIndex
import Verif.Props.FEIndex
import Verif.Props.Elements

/-! Lemmas on the evaluation of the assembled basis. -/

namespace HelFEM
namespace Poly
open Finset Polynomial Spec Grid

/-- highest derivative order of a family -/
def maxN : Family → Nat
  | .lip => 20 | .hip => 20 | .hip2 => 5 | .hip3 => 5 | .legendre => 2

/-- the primitive functions as polynomials of the reference coordinate -/
noncomputable def primPoly (f : Family) (N : Nat) (x0 : Nat → ℝ) (len : ℝ) (idx : Nat) : ℝ[X] :=
  match f with
  | .lip => Lagrange.basis (range N) x0 idx
  | .hip => C (len ^ (idx % 2)) * shape .hip N x0 (idx / 2) (idx % 2)
  | .hip2 => C (len ^ (idx % 3)) * shape .hip2 N x0 (idx / 3) (idx % 3)
  | .hip3 => C (len ^ (idx % 4)) * shape .hip3 N x0 (idx / 4) (idx % 4)
  | .legendre => legShape (N - 1) idx

theorem hermite_prim (f : HermiteFam) (N : Nat) (x0 : Nat → ℝ) (x len : ℝ) (n idx : Nat) (hn : n ≤ f.maxOrder) :
    hermitePrimDnf f N x0 x len n idx = .ok (dv (C (len ^ (idx % f.m)) * shape f N x0 (idx / f.m) (idx % f.m)) x n) := by
  have hm : 0 < f.m := by cases f <;> decide
  have h := hermitePrimDnf_eq f N x0 x len n (idx / f.m) (idx % f.m) hn (Nat.mod_lt _ hm)
  rw [Nat.div_add_mod] at h
  rw [h, dv_C_mul, mul_comm]

theorem primEntry_eq (f : Family) (N : Nat) (x0 : Nat → ℝ) (x len : ℝ) (n idx : Nat) (hn : n ≤ maxN f) :
    primEntry f N x0 x len n idx = .ok (dv (primPoly f N x0 len idx) x n) := by
  cases f with
  | lip => exact lipPrimDnf_eq N x0 x n idx hn
  | hip => exact hermite_prim .hip N x0 x len n idx hn
  | hip2 => exact hermite_prim .hip2 N x0 x len n idx hn
  | hip3 => exact hermite_prim .hip3 N x0 x len n idx hn
  | legendre => exact legPrimDnf_eq (N - 1) x n idx hn

theorem nov_le_maxN (f : Family) (n : Nat) (h : n < nov f) : n ≤ maxN f := by
  cases f <;> simp only [nov, maxN] at * <;> omega

theorem hermite_edge (f : HermiteFam) (N : Nat) (x0 : Nat → ℝ) (hx : DistinctNodes N x0) (len : ℝ) (hl : len ≠ 0) (n idx k : Nat)
    (hn : n < f.m) (hk : k < N) (hidx : idx < f.m * N) :
    dv (C (len ^ (idx % f.m)) * shape f N x0 (idx / f.m) (idx % f.m)) (x0 k) n / len ^ n =
      if idx = f.m * k + n then 1 else 0 := by
  have hm : 0 < f.m := by cases f <;> decide
  have hi : idx / f.m < N := by rw [Nat.div_lt_iff_lt_mul hm, mul_comm]; exact hidx
  rw [dv_C_mul]
  have h := (shape_cardinal f N x0 hx (idx / f.m) (idx % f.m) hi (Nat.mod_lt _ hm)).2 k hk n hn
  unfold dv
  rw [h]
  have hdm := Nat.div_add_mod idx f.m
  by_cases hc : idx = f.m * k + n
  · obtain ⟨h1, h2⟩ := divmod f.m k n hn
    rw [if_pos hc, hc, h1, h2, if_pos ⟨rfl, rfl⟩, mul_one, div_self (pow_ne_zero _ hl)]
  · rw [if_neg hc, if_neg, mul_zero, zero_div]
    rintro ⟨h1, h2⟩
    apply hc
    rw [h1, h2]; exact hdm.symm

theorem edge_right (f : Family) (N : Nat) (x0 : Nat → ℝ) (hx : GoodNodes N x0) (len : ℝ) (hl : len ≠ 0) (n idx : Nat)
    (hn : n < nov f) (hidx : idx < nov f * N) :
    dv (primPoly f N x0 len idx) 1 n / len ^ n = if idx = nov f * (N - 1) + n then 1 else 0 := by
  have h2 := hx.two
  have hk : N - 1 < N := by omega
  cases f with
  | lip =>
    simp only [nov] at *
    obtain rfl : n = 0 := by omega
    have h := (lip_cardinal N x0 hx.distinct idx (by omega)).2 (N - 1) hk 0 (by omega)
    rw [hx.right] at h
    simp only [primPoly, dv]
    rw [h, pow_zero, div_one]
    congr 1
    simp only [and_true, one_mul, add_zero, eq_comm]
  | hip => have := hermite_edge .hip N x0 hx.distinct len hl n idx (N - 1) hn hk hidx; rw [hx.right] at this; exact this
  | hip2 => have := hermite_edge .hip2 N x0 hx.distinct len hl n idx (N - 1) hn hk hidx; rw [hx.right] at this; exact this
  | hip3 => have := hermite_edge .hip3 N x0 hx.distinct len hl n idx (N - 1) hn hk hidx; rw [hx.right] at this; exact this
  | legendre =>
    simp only [nov] at *
    obtain rfl : n = 0 := by omega
    simp only [primPoly, dv, Function.iterate_zero, id_eq, pow_zero, div_one, one_mul, add_zero]
    by_cases h1 : idx = N - 1
    · rw [if_pos h1, h1, legShape_last _ (by omega)]; norm_num
    · rw [if_neg h1]
      by_cases h0 : idx = 0
      · rw [h0, legShape_first _ (by omega)]; simp
      · rw [legShape_mid (N - 1) idx (by omega) (by omega)]
        simp [pP_one]

theorem edge_left (f : Family) (N : Nat) (x0 : Nat → ℝ) (hx : GoodNodes N x0) (len : ℝ) (hl : len ≠ 0) (n idx : Nat)
    (hn : n < nov f) (hidx : idx < nov f * N) :
    dv (primPoly f N x0 len idx) (-1) n / len ^ n = if idx = n then 1 else 0 := by
  have h2 := hx.two
  have hk : 0 < N := by omega
  cases f with
  | lip =>
    simp only [nov] at *
    obtain rfl : n = 0 := by omega
    have h := (lip_cardinal N x0 hx.distinct idx (by omega)).2 0 hk 0 (by omega)
    rw [hx.left] at h
    simp only [primPoly, dv]
    rw [h, pow_zero, div_one]
    congr 1
    simp only [and_true, eq_comm]
  | hip => have := hermite_edge .hip N x0 hx.distinct len hl n idx 0 hn hk hidx; rw [hx.left, mul_zero, zero_add] at this; exact this
  | hip2 => have := hermite_edge .hip2 N x0 hx.distinct len hl n idx 0 hn hk hidx; rw [hx.left, mul_zero, zero_add] at this; exact this
  | hip3 => have := hermite_edge .hip3 N x0 hx.distinct len hl n idx 0 hn hk hidx; rw [hx.left, mul_zero, zero_add] at this; exact this
  | legendre =>
    simp only [nov] at *
    obtain rfl : n = 0 := by omega
    simp only [primPoly, dv, Function.iterate_zero, id_eq, pow_zero, div_one]
    by_cases h0 : idx = 0
    · rw [if_pos h0, h0, legShape_first _ (by omega)]; norm_num
    · rw [if_neg h0, legShape_red (N - 1) idx (by omega) (by omega)]; simp

/-! ### element basis -/

theorem dropFirst_fields {p q : PolyBasis} {a b : Bool} (h : p.dropFirst a b = .ok q) :
    q.family = p.family ∧ q.nprim = p.nprim ∧ q.nnodes = p.nnodes ∧ q.noverlap = p.noverlap := by
  unfold PolyBasis.dropFirst at h
  cases hd : dropFirstEnabled p.family p.enabled a b with
  | ok v => rw [hd] at h; simp only [Res.ok_bind, Res.pure_eq, Res.ok.injEq] at h; subst h; exact ⟨rfl, rfl, rfl, rfl⟩
  | throw e => rw [hd] at h; simp at h
  | ub => rw [hd] at h; simp at h

theorem dropLast_fields {p q : PolyBasis} {a b : Bool} (h : p.dropLast a b = .ok q) :
    q.family = p.family ∧ q.nprim = p.nprim ∧ q.nnodes = p.nnodes ∧ q.noverlap = p.noverlap := by
  unfold PolyBasis.dropLast at h
  cases hd : dropLastEnabled p.family p.enabled a b with
  | ok v => rw [hd] at h; simp only [Res.ok_bind, Res.pure_eq, Res.ok.injEq] at h; subst h; exact ⟨rfl, rfl, rfl, rfl⟩
  | throw e => rw [hd] at h; simp at h
  | ub => rw [hd] at h; simp at h

theorem getBasis_fields {s : FEShape} {iel : Nat} {q : PolyBasis} (h : s.getBasis iel = .ok q) :
    q.family = s.poly.family ∧ q.nprim = s.poly.nprim ∧ q.nnodes = s.poly.nnodes ∧ q.noverlap = s.poly.noverlap := by
  unfold FEShape.getBasis at h
  by_cases h0 : iel = 0
  · rw [if_pos h0] at h
    cases hd : s.poly.dropFirst s.zeroFuncLeft s.zeroDerivLeft with
    | ok v =>
      rw [hd] at h
      simp only [Res.ok_bind] at h
      have h1 := dropFirst_fields hd
      split at h
      · have h2 := dropLast_fields h
        exact ⟨h2.1.trans h1.1, h2.2.1.trans h1.2.1, h2.2.2.1.trans h1.2.2.1, h2.2.2.2.trans h1.2.2.2⟩
      · rw [← Res.ok.inj h]; exact h1
    | throw e => rw [hd] at h; simp at h
    | ub => rw [hd] at h; simp at h
  · rw [if_neg h0] at h
    simp only [Res.ok_bind] at h
    split at h
    · exact dropLast_fields h
    · rw [← Res.ok.inj h]; exact ⟨rfl, rfl, rfl, rfl⟩

theorem getBasis_eq (f : Family) (m ne iel : Nat) (a b c d : Bool) :
    (FEShape.mk (PolyBasis.mk' f (m + 2)) (ne + 1) a b c d).getBasis iel =
      .ok { PolyBasis.mk' f (m + 2) with enabled := enBlocks f m iel ne a b c d } := by
  have h := basisIndices_eq f m ne iel a b c d
  unfold FEShape.basisIndices at h
  cases hd : (FEShape.mk (PolyBasis.mk' f (m + 2)) (ne + 1) a b c d).getBasis iel with
  | ok q =>
    rw [hd] at h
    simp only [Res.ok_bind, Res.pure_eq, Res.ok.injEq] at h
    have h2 := getBasis_fields hd
    congr 1
    cases q
    simp only at h h2
    rw [h, h2.1, h2.2.1, h2.2.2.1, h2.2.2.2]
  | throw e => rw [hd] at h; simp at h
  | ub => rw [hd] at h; simp at h

theorem sel_sublist (fu de : Bool) (l : List Nat) : (sel fu de l).Sublist l := by
  cases l with
  | nil => simp [sel]
  | cons v ds => cases fu <;> cases de <;> simp [sel]

theorem enBlocks_sublist (f : Family) (m iel ne : Nat) (a b c d : Bool) :
    (enBlocks f m iel ne a b c d).Sublist (List.range (nov f * (m + 2))) := by
  rw [range_split]
  unfold enBlocks
  refine List.Sublist.append ?_ (List.Sublist.append (List.Sublist.refl _) ?_)
  · split
    · exact sel_sublist _ _ _
    · exact List.Sublist.refl _
  · split
    · unfold rightSel
      split
      · next h =>
        obtain ⟨rfl, _⟩ := h
        have : blk (nov .hip) (m + 1) = [2 * (m + 1), 2 * (m + 1) + 1] := by
          simp [blk, nov, List.range_succ]; ring
        rw [this]; simp
      · exact sel_sublist _ _ _
    · exact List.Sublist.refl _

theorem enBlocks_lt (f : Family) (m iel ne : Nat) (a b c d : Bool) (i : Nat) (h : i ∈ enBlocks f m iel ne a b c d) :
    i < nov f * (m + 2) := List.mem_range.1 ((enBlocks_sublist f m iel ne a b c d).subset h)

theorem enBlocks_nodup (f : Family) (m iel ne : Nat) (a b c d : Bool) : (enBlocks f m iel ne a b c d).Nodup :=
  (enBlocks_sublist f m iel ne a b c d).nodup List.nodup_range

theorem polyEvalDnf_eq (p : PolyBasis) (x0 : Nat → ℝ) (x len : ℝ) (n : Nat) (hn : n ≤ maxN p.family)
    (he : ∀ i ∈ p.enabled, i < p.nprim) :
    polyEvalDnf p x0 x n len = .ok (p.enabled.map fun idx => dv (primPoly p.family p.nnodes x0 len idx) x n / len ^ n) := by
  unfold polyEvalDnf
  rw [Res.mapM_ok _ (fun idx => dv (primPoly p.family p.nnodes x0 len idx) x n) _
    (fun idx _ => primEntry_eq p.family p.nnodes x0 x len n idx hn)]
  simp only [Res.ok_bind]
  apply Res.mapM_ok
  intro i hi
  have := he i hi
  simp [scaleDnf, readAt, this]

theorem mk'_nnodes (f n) : (PolyBasis.mk' f n).nnodes = n := by cases f <;> rfl

theorem feEvalDnf_eq (f : Family) (m ne iel : Nat) (a b c d : Bool) (bval : List ℝ) (hb : bval.length = ne + 1) (x0 : Nat → ℝ)
    (x : ℝ) (n : Nat) (hn : n ≤ maxN f) (hi : iel < ne) :
    feEvalDnf (FEShape.mk (PolyBasis.mk' f (m + 2)) (ne + 1) a b c d) bval x0 x n iel =
      .ok ((enBlocks f m iel ne a b c d).map fun idx =>
        dv (primPoly f (m + 2) x0 ((bval[iel + 1]'(by omega) - bval[iel]'(by omega)) / 2) idx) x n /
          ((bval[iel + 1]'(by omega) - bval[iel]'(by omega)) / 2) ^ n) := by
  unfold feEvalDnf
  rw [getBasis_eq, sf_eq bval iel (by omega)]
  simp only [Res.ok_bind]
  rw [polyEvalDnf_eq]
  · simp only [mk'_family, mk'_nnodes]
  · rw [mk'_family]; exact hn
  · intro i hi
    rw [mk'_nprim]
    exact enBlocks_lt f m iel ne a b c d i hi

theorem half_ne {bval : List ℝ} (hs : bval.Pairwise (· < ·)) (i : Nat) (h : i + 1 < bval.length) :
    (bval[i + 1] - bval[i]) / 2 ≠ 0 := by
  have := List.pairwise_iff_getElem.1 hs i (i + 1) (by omega) h (by omega)
  have : 0 < bval[i + 1] - bval[i] := by linarith
  positivity

theorem feEval_right (f : Family) (m ne iel : Nat) (a b c d : Bool) (bval : List ℝ) (hb : bval.length = ne + 1)
    (hs : bval.Pairwise (· < ·)) (x0 : Nat → ℝ)
    (hx : GoodNodes (m + 2) x0) (n : Nat) (hn : n < nov f) (hi : iel < ne) :
    feEvalDnf (FEShape.mk (PolyBasis.mk' f (m + 2)) (ne + 1) a b c d) bval x0 1 n iel =
      .ok ((enBlocks f m iel ne a b c d).map fun idx => if idx = nov f * (m + 1) + n then 1 else 0) := by
  rw [feEvalDnf_eq f m ne iel a b c d bval hb x0 1 n (nov_le_maxN f n hn) hi]
  congr 1
  apply List.map_congr_left
  intro idx hidx
  exact edge_right f (m + 2) x0 hx _ (half_ne hs iel (by omega)) n idx hn (enBlocks_lt _ _ _ _ _ _ _ _ _ hidx)

theorem feEval_left (f : Family) (m ne iel : Nat) (a b c d : Bool) (bval : List ℝ) (hb : bval.length = ne + 1)
    (hs : bval.Pairwise (· < ·)) (x0 : Nat → ℝ)
    (hx : GoodNodes (m + 2) x0) (n : Nat) (hn : n < nov f) (hi : iel < ne) :
    feEvalDnf (FEShape.mk (PolyBasis.mk' f (m + 2)) (ne + 1) a b c d) bval x0 (-1) n iel =
      .ok ((enBlocks f m iel ne a b c d).map fun idx => if idx = n then 1 else 0) := by
  rw [feEvalDnf_eq f m ne iel a b c d bval hb x0 (-1) n (nov_le_maxN f n hn) hi]
  congr 1
  apply List.map_congr_left
  intro idx hidx
  exact edge_left f (m + 2) x0 hx _ (half_ne hs iel (by omega)) n idx hn (enBlocks_lt _ _ _ _ _ _ _ _ _ hidx)

/-- the last block of functions is complete unless the element is the last one -/
theorem enBlocks_tail (f : Family) (m iel ne : Nat) (a b c d : Bool) (h : iel + 1 ≠ ne) :
    ∃ pre, enBlocks f m iel ne a b c d = pre ++ blk (nov f) (m + 1) := by
  unfold enBlocks
  rw [if_neg h]
  exact ⟨_, (List.append_assoc _ _ _).symm⟩

theorem enBlocks_head (f : Family) (m iel ne : Nat) (a b c d : Bool) (h : iel ≠ 0) :
    ∃ post, enBlocks f m iel ne a b c d = blk (nov f) 0 ++ post := by
  unfold enBlocks
  rw [if_neg h]
  exact ⟨_, rfl⟩

/-! ### division by r -/

/-- primitive divided by `x + 1` -/
noncomputable def primRed (f : Family) (N : Nat) (x0 : Nat → ℝ) (len : ℝ) (idx : Nat) : ℝ[X] :=
  match f with
  | .lip => lipRed N x0 idx
  | .hip => C (len ^ (idx % 2)) * hermRed .hip N x0 (idx / 2) (idx % 2)
  | .hip2 => C (len ^ (idx % 3)) * hermRed .hip2 N x0 (idx / 3) (idx % 3)
  | .hip3 => C (len ^ (idx % 4)) * hermRed .hip3 N x0 (idx / 4) (idx % 4)
  | .legendre => legRed (N - 1) idx

theorem herm_primRed (f : HermiteFam) (N : Nat) (x0 : Nat → ℝ) (h0 : x0 0 = -1) (len : ℝ) (idx : Nat) (h1 : 1 ≤ idx)
    (h2 : idx < f.m * N) :
    C (len ^ (idx % f.m)) * shape f N x0 (idx / f.m) (idx % f.m) =
      (X + 1) * (C (len ^ (idx % f.m)) * hermRed f N x0 (idx / f.m) (idx % f.m)) := by
  have hm : 0 < f.m := by cases f <;> decide
  have hdm := Nat.div_add_mod idx f.m
  rw [shape_red f N x0 (idx / f.m) (idx % f.m) (by rw [Nat.div_lt_iff_lt_mul hm, mul_comm]; exact h2)
    (Nat.mod_lt _ hm) _ h0]
  · ring
  · rintro ⟨h3, h4⟩
    rw [h3, h4] at hdm
    omega

theorem herm_overR (f : HermiteFam) (N : Nat) (x0 : Nat → ℝ) (fst : Nat) (x : ℝ) (n : Nat) (hn : n ≤ 2)
    (len : ℝ) (hl : len ≠ 0) (idx : Nat) (h1 : 1 ≤ idx) :
    hermiteOverR f N x0 (some (fst + 1)) x n len idx =
      .ok (dv (C (len ^ (idx % f.m)) * hermRed f N x0 (idx / f.m) (idx % f.m)) x n / len ^ (n + 1)) := by
  have hm : 0 < f.m := by cases f <;> decide
  have hdm := Nat.div_add_mod idx f.m
  have h := hermiteOverR_eq f N x0 fst x n hn len (idx / f.m) (idx % f.m) (Nat.mod_lt _ hm) (by
    rintro ⟨h3, h4⟩
    rw [h3, h4] at hdm
    omega)
  rw [hdm] at h
  rw [h, dv_C_mul]
  congr 1
  rw [show (((idx % f.m : Nat) : Int) - 1 - n) = ((idx % f.m : Nat) : Int) - ((n + 1 : Nat) : Int) by push_cast; ring,
    zpow_sub₀ hl, zpow_natCast, zpow_natCast]
  field_simp

theorem primPoly_red (f : Family) (N : Nat) (x0 : Nat → ℝ) (hx : GoodNodes N x0) (len : ℝ) (idx : Nat) (h1 : 1 ≤ idx)
    (h2 : idx < nov f * N) : primPoly f N x0 len idx = (X + 1) * primRed f N x0 len idx := by
  have hN := hx.two
  cases f with
  | lip =>
    simp only [primPoly, primRed, lipRed]
    rw [basis_red N x0 idx (by omega) h1 hx.left]; ring
  | hip => exact herm_primRed .hip N x0 hx.left len idx h1 h2
  | hip2 => exact herm_primRed .hip2 N x0 hx.left len idx h1 h2
  | hip3 => exact herm_primRed .hip3 N x0 hx.left len idx h1 h2
  | legendre =>
    simp only [nov] at h2
    exact legShape_red (N - 1) idx h1 (by omega)

theorem overREntry_eq (f : Family) (N : Nat) (x0 : Nat → ℝ) (fst : Nat) (x : ℝ) (n : Nat) (hn : n ≤ 2)
    (len : ℝ) (hl : len ≠ 0) (idx : Nat) (h1 : 1 ≤ idx) :
    overREntry f N x0 (some (fst + 1)) x n len idx = .ok (dv (primRed f N x0 len idx) x n / len ^ (n + 1)) := by
  cases f with
  | lip => exact lipOverR_eq N x0 fst x n (by omega) len idx
  | hip => exact herm_overR .hip N x0 fst x n hn len hl idx h1
  | hip2 => exact herm_overR .hip2 N x0 fst x n hn len hl idx h1
  | hip3 => exact herm_overR .hip3 N x0 fst x n hn len hl idx h1
  | legendre => exact legOverR_eq (N - 1) fst x n idx len hn

theorem overREntry_rejects (f : Family) (N : Nat) (x0 : Nat → ℝ) (x : ℝ) (n : Int) (len : ℝ) (idx : Nat) :
    overREntry f N x0 (some 0) x n len idx = .throw .logicError := by
  cases f <;> simp [overREntry, lipOverR, hermiteOverR, legOverR]

theorem enBlocks_first_pos (f : Family) (m ne : Nat) (b c d : Bool) (i : Nat) (h : i ∈ enBlocks f m 0 ne true b c d) :
    1 ≤ i := by
  by_contra hc
  obtain rfl : i = 0 := by omega
  have hp := nov_pos f
  unfold enBlocks at h
  rw [if_pos rfl] at h
  have h1 : 0 ∉ sel true b (blk (nov f) 0) := by
    obtain ⟨k, hk⟩ : ∃ k, nov f = k + 1 := ⟨nov f - 1, by omega⟩
    simp [blk, hk, List.range_succ_eq_map, sel]
  have h2 : 0 ∉ (List.range (nov f * m)).map (· + nov f) := by simp; omega
  have h3 : 0 ∉ blk (nov f) (m + 1) := by
    simp [blk]; intro x hx; omega
  simp only [List.mem_append] at h
  rcases h with h | h | h
  · exact h1 h
  · exact h2 h
  · split at h
    · unfold rightSel at h
      split at h
      · simp at h
      · exact h3 (sel_sub _ _ _ _ h)
    · exact h3 h

theorem enBlocks_first_zero (f : Family) (m ne : Nat) (b c d : Bool) : (enBlocks f m 0 ne false b c d).head? = some 0 := by
  have hp := nov_pos f
  obtain ⟨k, hk⟩ : ∃ k, nov f = k + 1 := ⟨nov f - 1, by omega⟩
  unfold enBlocks
  rw [if_pos rfl]
  simp [blk, hk, List.range_succ_eq_map, sel]

end Poly
end HelFEM
