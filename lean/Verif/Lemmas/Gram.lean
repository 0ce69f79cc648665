import Verif.Model.FEMatrix
import Verif.Lemmas.Assembly
import Verif.Props.FEEval
import Verif.Props.Assembly
import Verif.Lemmas.Lists
import Mathlib.Order.Interval.Set.Infinite
import Mathlib.MeasureTheory.Integral.IntervalIntegral.Basic
import Mathlib.Topology.Algebra.Polynomial

/-! Lemmas on matrix elements as integrals. -/

namespace HelFEM
namespace Assembly
open Grid Poly Finset Polynomial Spec

theorem weightAt_some (g : ℝ → ℝ) (r w : ℝ) : weightAt (some fun t => some (g t)) r w = w * g r := rfl

theorem matElRange_eq (bval : List ℝ) (iel : Nat) (hi : iel + 1 < bval.length) (L R : Evaluator ℝ) (rule : List (ℝ × ℝ))
    (f : Option (ℝ → Option ℝ)) (xl xr : ℝ) (lrow rrow : ℝ → List ℝ) (hL : ∀ x, L.row x iel = .ok (lrow x))
    (hR : ∀ x, R.row x iel = .ok (rrow x)) :
    ∃ B, matElRange bval iel (some L) (some R) rule f xl xr = .ok B ∧ B.rows = L.ncols iel ∧ B.cols = R.ncols iel ∧
      ∀ i j, B.get i j = (rule.map fun p =>
        weightAt f (1 / 2 * (bval[iel]'(by omega) + bval[iel + 1]) + (bval[iel + 1] - bval[iel]'(by omega)) / 2 *
            ((xr - xl) / 2 * p.1 + (xr + xl) / 2)) (p.2 * ((bval[iel + 1] - bval[iel]'(by omega)) / 2) * ((xr - xl) / 2)) *
          (lrow ((xr - xl) / 2 * p.1 + (xr + xl) / 2)).getD i 0 * (rrow ((xr - xl) / 2 * p.1 + (xr + xl) / 2)).getD j 0).sum := by
  have h1 : (rule.map fun p => (xr - xl) / 2 * p.1 + (xr + xl) / 2).mapM (fun x => L.row x iel) =
      .ok ((rule.map fun p => (xr - xl) / 2 * p.1 + (xr + xl) / 2).map lrow) := Res.mapM_ok _ _ _ (fun a _ => hL a)
  have h2 : (rule.map fun p => (xr - xl) / 2 * p.1 + (xr + xl) / 2).mapM (fun x => R.row x iel) =
      .ok ((rule.map fun p => (xr - xl) / 2 * p.1 + (xr + xl) / 2).map rrow) := Res.mapM_ok _ _ _ (fun a _ => hR a)
  unfold matElRange
  simp only [coord_eq bval iel hi, sf_eq bval iel hi, Res.ok_bind, h1, h2, Res.pure_eq]
  refine ⟨_, rfl, rfl, rfl, fun i j => ?_⟩
  simp only
  congr 1
  clear h1 h2
  induction rule with
  | nil => rfl
  | cons p rule ih =>
    simp only [List.map_cons, List.zipWith_cons_cons, List.zip_cons_cons, ih]

/-- the functions of an element as polynomials in `r` -/
noncomputable def piece (f : Family) (m ne : Nat) (a b c d : Bool) (bval : List ℝ) (x0 : Nat → ℝ) (first : Nat → Nat) (e g : Nat) : ℝ[X] :=
  if first e ≤ g then
    match (enBlocks f m e ne a b c d)[g - first e]? with
    | some idx => onElement (1 / 2 * (bval.getD e 0 + bval.getD (e + 1) 0)) ((bval.getD (e + 1) 0 - bval.getD e 0) / 2)
        (primPoly f (m + 2) x0 ((bval.getD (e + 1) 0 - bval.getD e 0) / 2) idx)
    | none => 0
  else 0

theorem piece_eval (f : Family) (m ne : Nat) (a b c d : Bool) (bval : List ℝ) (hb : bval.length = ne + 1) (hs : bval.Pairwise (· < ·))
    (x0 : Nat → ℝ) (first : Nat → Nat) (e : Nat) (he : e < ne) (g k : Nat) (hk : k ≤ maxN f) (x : ℝ) :
    ∃ v, feEvalDnf (feShape f (m + 2) ne a b c d) bval x0 x k e = .ok v ∧ v.length = (enBlocks f m e ne a b c d).length ∧
      (derivative^[k] (piece f m ne a b c d bval x0 first e g)).eval
        (1 / 2 * (bval[e]'(by omega) + bval[e + 1]'(by omega)) + (bval[e + 1]'(by omega) - bval[e]'(by omega)) / 2 * x) =
      globalValue (first e) v g := by
  have hl := half_ne hs e (by omega)
  refine ⟨_, feEvalDnf_eq f m ne e a b c d bval hb x0 x k hk he, by simp, ?_⟩
  unfold piece globalValue
  have e1 : bval.getD e 0 = bval[e]'(by omega) := by simp [show e < bval.length by omega]
  have e2 : bval.getD (e + 1) 0 = bval[e + 1]'(by omega) := by simp [show e + 1 < bval.length by omega]
  rw [e1, e2]
  by_cases hg : first e ≤ g
  · rw [if_pos hg, if_pos hg, List.getD_eq_getElem?_getD, List.getElem?_map]
    cases hk : (enBlocks f m e ne a b c d)[g - first e]? with
    | none => simp [iterate_derivative_zero]
    | some idx =>
      simp only [Option.map_some, Option.getD_some]
      exact dv_onElement _ _ x hl _ k
  · rw [if_neg hg, if_neg hg]; simp [iterate_derivative_zero]

theorem natDegree_pred {p : ℝ[X]} {n : Nat} (h : p.degree < (n : Nat)) : p.natDegree ≤ n - 1 := by
  by_cases hp : p = 0
  · simp [hp]
  · have := (natDegree_lt_iff_degree_lt hp).2 h
    omega

theorem primPoly_degree (f : Family) (N : Nat) (x0 : Nat → ℝ) (hx : GoodNodes N x0) (len : ℝ) (idx : Nat) (h : idx < nov f * N) :
    (primPoly f N x0 len idx).natDegree ≤ nov f * N - 1 := by
  have h2 := hx.two
  have herm : ∀ F : HermiteFam, idx < F.m * N →
      (C (len ^ (idx % F.m)) * shape F N x0 (idx / F.m) (idx % F.m)).natDegree ≤ F.m * N - 1 := by
    intro F hF
    have hm : 0 < F.m := by cases F <;> decide
    have := (shape_cardinal F N x0 hx.distinct (idx / F.m) (idx % F.m)
      (by rw [Nat.div_lt_iff_lt_mul hm, mul_comm]; exact hF) (Nat.mod_lt _ hm)).1
    refine (natDegree_C_mul_le _ _).trans ?_
    exact natDegree_pred this
  cases f with
  | lip =>
    have := (lip_cardinal N x0 hx.distinct idx (by simpa [nov] using h)).1
    exact natDegree_pred this
  | hip => exact herm .hip h
  | hip2 => exact herm .hip2 h
  | hip3 => exact herm .hip3 h
  | legendre =>
    have := legShape_degree (N - 1) idx
    have := natDegree_le_of_degree_le this
    simp only [primPoly, nov]; omega

theorem piece_degree (f : Family) (m ne : Nat) (a b c d : Bool) (bval : List ℝ)
    (x0 : Nat → ℝ) (hx : GoodNodes (m + 2) x0) (first : Nat → Nat) (e g : Nat) :
    (piece f m ne a b c d bval x0 first e g).natDegree ≤ nov f * (m + 2) - 1 := by
  unfold piece
  split
  · cases hk : (enBlocks f m e ne a b c d)[g - first e]? with
    | none => simp
    | some idx =>
      simp only
      have hi := enBlocks_lt f m e ne a b c d idx (List.mem_of_getElem? hk)
      unfold onElement
      refine natDegree_comp_le.trans ?_
      refine le_trans (Nat.mul_le_mul (primPoly_degree f (m + 2) x0 hx _ idx hi) ?_) (le_of_eq (mul_one _))
      refine (natDegree_C_mul_le _ _).trans ?_
      exact natDegree_X_sub_C_le _
  · simp

/-- A quadrature rule that integrates polynomials up to degree `D` exactly over [-1, 1]. -/
def ExactTo (rule : List (ℝ × ℝ)) (D : Nat) : Prop :=
  ∀ p : ℝ[X], p.natDegree ≤ D → (rule.map fun q => q.2 * p.eval q.1).sum = ∫ x in (-1 : ℝ)..1, p.eval x

theorem rule_range (rule : List (ℝ × ℝ)) (D : Nat) (h : ExactTo rule D) (Q : ℝ[X]) (hQ : Q.natDegree ≤ D) (mid sf xl xr : ℝ) :
    (rule.map fun p => p.2 * sf * ((xr - xl) / 2) * Q.eval (mid + sf * ((xr - xl) / 2 * p.1 + (xr + xl) / 2))).sum =
      ∫ r in (mid + sf * xl)..(mid + sf * xr), Q.eval r := by
  have h1 := h (Q.comp (C (sf * ((xr - xl) / 2)) * X + C (mid + sf * ((xr + xl) / 2)))) (by
    refine natDegree_comp_le.trans (le_trans (Nat.mul_le_mul hQ ?_) (le_of_eq (mul_one _)))
    exact natDegree_linear_le)
  have h2 : (rule.map fun p => p.2 * sf * ((xr - xl) / 2) * Q.eval (mid + sf * ((xr - xl) / 2 * p.1 + (xr + xl) / 2))).sum =
      (sf * ((xr - xl) / 2)) * (rule.map fun q => q.2 * (Q.comp (C (sf * ((xr - xl) / 2)) * X + C (mid + sf * ((xr + xl) / 2)))).eval q.1).sum := by
    rw [← List.sum_map_mul_left]
    congr 1
    apply List.map_congr_left
    intro p _
    simp only [eval_comp, eval_add, eval_mul, eval_C, eval_X]
    rw [show sf * ((xr - xl) / 2) * p.1 + (mid + sf * ((xr + xl) / 2)) = mid + sf * ((xr - xl) / 2 * p.1 + (xr + xl) / 2) by ring]
    ring
  rw [h2, h1]
  have h3 := intervalIntegral.smul_integral_comp_mul_add (a := -1) (b := 1) (f := fun r => Q.eval r) (sf * ((xr - xl) / 2))
    (mid + sf * ((xr + xl) / 2))
  simp only [eval_comp, eval_add, eval_mul, eval_C, eval_X]
  rw [smul_eq_mul] at h3
  rw [h3]
  congr 1 <;> ring

/-! ### linear independence -/

theorem primPoly_indep (f : Family) (n : Nat) (x0 : Nat → ℝ) (hx : GoodNodes n x0) (len : ℝ) (hl : len ≠ 0) (a : Nat → ℝ)
    (h : ∑ idx ∈ range (nov f * n), C (a idx) * primPoly f n x0 len idx = 0) : ∀ idx < nov f * n, a idx = 0 := by
  have h2 := hx.two
  have herm : ∀ F : HermiteFam, ∑ idx ∈ range (F.m * n), C (a idx) * (C (len ^ (idx % F.m)) * Poly.shape F n x0 (idx / F.m) (idx % F.m)) = 0 →
      ∀ idx < F.m * n, a idx = 0 := by
    intro F hF idx hidx
    have hm : 0 < F.m := by cases F <;> decide
    have hk : idx / F.m < n := by rw [Nat.div_lt_iff_lt_mul hm, mul_comm]; exact hidx
    have hd : idx % F.m < F.m := Nat.mod_lt _ hm
    have h3 := congrArg (fun p => dv p (x0 (idx / F.m)) (idx % F.m) / len ^ (idx % F.m)) hF
    simp only [dv, iterate_derivative_sum, eval_finsetSum, iterate_derivative_C_mul, eval_mul, eval_C, iterate_derivative_zero, eval_zero,
      zero_div, sum_div] at h3
    rw [sum_eq_single idx] at h3
    · have h4 := hermite_edge F n x0 hx.distinct len hl (idx % F.m) idx (idx / F.m) hd hk hidx
      rw [if_pos (Nat.div_add_mod idx F.m).symm] at h4
      simp only [dv, iterate_derivative_C_mul, eval_mul, eval_C] at h4
      rw [mul_div_assoc, h4, mul_one] at h3
      exact h3
    · intro j hj hne
      have h4 := hermite_edge F n x0 hx.distinct len hl (idx % F.m) j (idx / F.m) hd hk (mem_range.1 hj)
      rw [if_neg (by rw [Nat.div_add_mod]; exact hne)] at h4
      simp only [dv, iterate_derivative_C_mul, eval_mul, eval_C] at h4
      rw [mul_div_assoc, h4, mul_zero]
    · intro hc; exact absurd (mem_range.2 hidx) hc
  cases f with
  | lip =>
    intro idx hidx
    simp only [nov, one_mul] at h hidx
    have h3 := congrArg (fun p => p.eval (x0 idx)) h
    simp only [eval_finsetSum, eval_mul, eval_C, eval_zero] at h3
    rw [sum_eq_single idx] at h3
    · have := (lip_cardinal n x0 hx.distinct idx hidx).2 idx hidx 0 (by omega)
      simp only [Function.iterate_zero, id, and_self, if_true] at this
      rw [primPoly, this, mul_one] at h3
      exact h3
    · intro j hj hne
      have := (lip_cardinal n x0 hx.distinct j (mem_range.1 hj)).2 idx hidx 0 (by omega)
      simp only [Function.iterate_zero, id] at this
      rw [if_neg (by rintro ⟨h, _⟩; exact hne h.symm)] at this
      rw [primPoly, this, mul_zero]
    · intro hc; exact absurd (mem_range.2 hidx) hc
  | hip => exact herm .hip h
  | hip2 => exact herm .hip2 h
  | hip3 => exact herm .hip3 h
  | legendre =>
    intro idx hidx
    simp only [nov, one_mul] at h hidx
    exact legShape_indep (n - 1) (by omega) a (by rw [show n - 1 + 1 = n by omega]; exact h) idx (by omega)

theorem list_indep (en : List Nat) (hnd : en.Nodup) (M : Nat) (hlt : ∀ i ∈ en, i < M) (P : Nat → ℝ[X])
    (hP : ∀ a : Nat → ℝ, ∑ idx ∈ range M, C (a idx) * P idx = 0 → ∀ idx < M, a idx = 0) (c : Nat → ℝ)
    (h : ∑ i ∈ range en.length, C (c i) * P (en.getD i 0) = 0) : ∀ i < en.length, c i = 0 := by
  intro i hi
  have key : ∑ idx ∈ range M, C (if idx ∈ en then c (en.idxOf idx) else 0) * P idx = 0 := by
    rw [← h]
    have h1 : ∑ i ∈ range en.length, C (c i) * P (en.getD i 0) = (en.map fun idx => C (c (en.idxOf idx)) * P idx).sum := by
      rw [← sum_map_range]
      congr 1
      apply List.ext_getElem (by simp)
      intro k hk1 hk2
      simp only [List.length_map, List.length_range] at hk1
      simp [List.getD_eq_getElem?_getD, hk1, hnd.idxOf_getElem k hk1]
    rw [h1, ← List.sum_toFinset _ hnd]
    rw [← sum_filter_add_sum_filter_not (range M) (fun idx => idx ∈ en)]
    rw [sum_eq_zero (s := (range M).filter fun idx => ¬ idx ∈ en), add_zero]
    · have : (range M).filter (fun idx => idx ∈ en) = en.toFinset := by
        ext x
        simp only [mem_filter, mem_range, List.mem_toFinset]
        exact ⟨fun h => h.2, fun h => ⟨hlt x h, h⟩⟩
      rw [this]
      apply sum_congr rfl
      intro x hx
      rw [if_pos (List.mem_toFinset.1 hx)]
    · intro x hx
      rw [if_neg (mem_filter.1 hx).2]; simp
  have := hP _ key (en[i]) (hlt _ (List.getElem_mem hi))
  rw [if_pos (List.getElem_mem hi), hnd.idxOf_getElem i hi] at this
  exact this

/-- a polynomial whose square has vanishing integral over an interval vanishes -/
theorem sq_integral_zero (p : ℝ[X]) (a b : ℝ) (hab : a < b) (h : ∫ r in a..b, p.eval r * p.eval r = 0) : p = 0 := by
  by_contra hp
  obtain ⟨x, hx, hne⟩ : ∃ x ∈ Set.Icc a b, p.eval x ≠ 0 := by
    by_contra hc
    push Not at hc
    exact hp (eq_zero_of_infinite_isRoot p ((Set.Icc_infinite hab).mono fun x hx => hc x hx))
  have := intervalIntegral.integral_pos hab (f := fun r => p.eval r * p.eval r)
    ((p.continuous.mul p.continuous).continuousOn) (fun x _ => mul_self_nonneg _) ⟨x, hx, mul_self_pos.2 hne⟩
  rw [h] at this
  exact lt_irrefl _ this

theorem sq_integral_nonneg (p : ℝ[X]) (a b : ℝ) (hab : a ≤ b) : 0 ≤ ∫ r in a..b, p.eval r * p.eval r :=
  intervalIntegral.integral_nonneg hab fun x _ => mul_self_nonneg _

/-- quadratic form of a matrix of integrals -/
theorem quad_form (N : Nat) (P : Nat → ℝ[X]) (c : Nat → ℝ) (a b : ℝ) :
    ∑ i ∈ range N, ∑ j ∈ range N, c i * (∫ r in a..b, (P i).eval r * (P j).eval r) * c j =
      ∫ r in a..b, (∑ i ∈ range N, C (c i) * P i).eval r * (∑ i ∈ range N, C (c i) * P i).eval r := by
  have e : ∀ r, (∑ i ∈ range N, C (c i) * P i).eval r * (∑ i ∈ range N, C (c i) * P i).eval r =
      ∑ i ∈ range N, ∑ j ∈ range N, c i * ((P i).eval r * (P j).eval r) * c j := by
    intro r
    rw [eval_finsetSum, sum_mul_sum]
    apply sum_congr rfl; intro i _
    apply sum_congr rfl; intro j _
    simp only [eval_mul, eval_C]; ring
  have cont : ∀ i j, Continuous fun r => (P i).eval r * (P j).eval r := fun i j => (P i).continuous.mul (P j).continuous
  simp_rw [e]
  rw [intervalIntegral.integral_finsetSum]
  · apply sum_congr rfl; intro i _
    rw [intervalIntegral.integral_finsetSum]
    · apply sum_congr rfl; intro j _
      rw [intervalIntegral.integral_mul_const, intervalIntegral.integral_const_mul]
    · intro j _
      exact ((continuous_const.mul (cont i j)).mul continuous_const).intervalIntegrable _ _
  · intro i _
    exact (continuous_finsetSum _ fun j _ => (continuous_const.mul (cont i j)).mul continuous_const).intervalIntegrable _ _

end Assembly
end HelFEM
