import Verif.Model.Quadrature
import Verif.Lemmas.LegendreOrtho
import Verif.Lemmas.Lists
import Mathlib.Analysis.Calculus.Deriv.MeanValue
import Mathlib.Analysis.SpecialFunctions.Trigonometric.Deriv
import Mathlib.Analysis.SpecialFunctions.Log.Deriv
import Mathlib.Algebra.BigOperators.Fin
import Mathlib.Analysis.SpecialFunctions.Complex.Log

/-!
# C45 - C47: quadrature rules
-/

namespace HelFEM
namespace Quad
open Finset Polynomial Poly

/-! ### C45: Gauss-Lobatto -/

theorem lobP_eq (x : ℝ) (j : Nat) : lobP x j = (pP j).eval x := by
  rw [← legP_eq]
  induction j using two_step with
  | h0 => rfl
  | h1 => rfl
  | h n h1 h2 =>
    simp only [lobP, legP, h1, h2]
    push_cast
    have : (n : ℝ) + 2 ≠ 0 := by positivity
    have : (n : ℝ) + 1 + 1 ≠ 0 := by positivity
    field_simp
    ring

theorem lobPair_eq (x : ℝ) (j : Nat) : lobPair x j = ((pP j).eval x, (pP (j + 1)).eval x) := by
  induction j with
  | zero => simp [lobPair, pP]
  | succ j ih =>
    simp only [lobPair, ih]
    rw [← lobP_eq x (j + 1 + 1), ← lobP_eq x (j + 1), ← lobP_eq x j]
    simp only [lobP]
    congr 1
    ring

theorem newton_num (N : Nat) (hN : 1 ≤ N) (z : ℝ) :
    (N : ℝ) * (z * (pP N).eval z - (pP (N - 1)).eval z) = -(qL N).eval z := by
  obtain ⟨k, rfl⟩ : ∃ k, N = k + 1 := ⟨N - 1, by omega⟩
  have := congrArg (eval z) (pP_q k)
  simp only [eval_mul, eval_sub, eval_C, eval_X] at this
  unfold qL
  rw [eval_mul, eval_sub, Nat.add_sub_cancel]
  push_cast
  linarith

theorem newton_fixed_end (n : Nat) (hn : 2 ≤ n) (s : ℝ) (hs : s = 1 ∨ s = -1) : lobNewton n s = some s := by
  have h1 : (pP (n - 1)).eval s ≠ 0 := by
    rcases hs with rfl | rfl
    · rw [pP_one]; norm_num
    · rw [pP_neg_one]; exact pow_ne_zero _ (by norm_num)
  have h2 := newton_num (n - 1) (by omega) s
  have h3 : (qL (n - 1)).eval s = 0 := by
    unfold qL
    rcases hs with rfl | rfl <;> simp
  have h4 : ((n - 1 : Nat) : ℝ) ≠ 0 := by
    have : n - 1 ≠ 0 := by omega
    exact_mod_cast this
  rw [h3, neg_zero] at h2
  have h5 := (mul_eq_zero.1 h2).resolve_left h4
  unfold lobNewton
  rw [lobP_eq, if_neg h1, lobP_eq, show n - 2 = n - 1 - 1 by omega, h5]
  simp

/-- invariant of the iteration -/
structure LobInv (n : Nat) (l : List (Option ℝ)) : Prop where
  len : l.length = n
  first : l[0]? = some (some (1 : ℝ))
  last : l[n - 1]? = some (some (-1 : ℝ))
  sym : ∀ i < n, (l[n - 1 - i]?) = (l[i]?).map (Option.map Neg.neg)

theorem pP_neg (n : Nat) (x : ℝ) : (pP n).eval (-x) = (-1) ^ n * (pP n).eval x := by
  simp only [← lobP_eq]
  induction n using two_step with
  | h0 => simp [lobP]
  | h1 => simp [lobP]
  | h n h1 h2 => simp only [lobP, h1, h2, pow_succ]; ring

theorem lobNewton_neg (n : Nat) (hn : 2 ≤ n) (x : ℝ) : lobNewton n (-x) = (lobNewton n x).map Neg.neg := by
  unfold lobNewton
  simp only [lobP_eq, pP_neg]
  obtain ⟨k, rfl⟩ : ∃ k, n = k + 2 := ⟨n - 2, by omega⟩
  simp only [show k + 2 - 1 = k + 1 by omega, Nat.add_sub_cancel]
  have hp : ((-1 : ℝ)) ^ (k + 1) ≠ 0 := pow_ne_zero _ (by norm_num)
  by_cases h : (pP (k + 1)).eval x = 0
  · simp [h]
  · rw [if_neg (mul_ne_zero hp h), if_neg h, Option.map_some]
    congr 1
    have hk : ((k + 2 : Nat) : ℝ) ≠ 0 := by positivity
    have hp' : ((-1 : ℝ)) ^ k ≠ 0 := pow_ne_zero _ (by norm_num)
    rw [pow_succ]
    field_simp
    ring

theorem inv_step (n : Nat) (hn : 2 ≤ n) (l : List (Option ℝ)) (h : LobInv n l) :
    LobInv n (l.map (·.bind (lobNewton n))) := by
  refine ⟨by simp [h.len], ?_, ?_, ?_⟩
  · rw [List.getElem?_map, h.first]
    simp [newton_fixed_end n hn 1 (Or.inl rfl)]
  · rw [List.getElem?_map, h.last]
    simp [newton_fixed_end n hn (-1) (Or.inr rfl)]
  · intro i hi
    rw [List.getElem?_map, List.getElem?_map, h.sym i hi]
    cases hli : l[i]? with
    | none => rfl
    | some a =>
      cases a with
      | none => rfl
      | some a =>
        simp [lobNewton_neg n hn]

theorem inv_start (n : Nat) (hn : 2 ≤ n) : LobInv n (lobStart n) := by
  have hn' : (n : ℝ) - 1 ≠ 0 := by
    have : (2 : ℝ) ≤ n := by exact_mod_cast hn
    linarith
  have hget : ∀ i < n, (lobStart n)[i]? = some (some (Real.cos (Real.pi * (i : ℝ) / ((n : ℝ) - 1)))) := by
    intro i hi
    simp [lobStart, hi]
  refine ⟨by simp [lobStart], ?_, ?_, ?_⟩
  · rw [hget 0 (by omega)]; simp
  · rw [hget (n - 1) (by omega), Nat.cast_sub (by omega), Nat.cast_one, mul_div_cancel_right₀ _ hn', Real.cos_pi]
  · intro i hi
    rw [hget i hi, hget (n - 1 - i) (by omega)]
    simp only [Option.map_some]
    rw [← Real.cos_pi_sub, Nat.cast_sub (by omega), Nat.cast_sub (by omega), Nat.cast_one]
    congr 3
    field_simp

theorem loop_spec (n : Nat) (hn : 2 ≤ n) (tol : ℝ) (fuel : Nat) (l x : List (Option ℝ)) (h : LobInv n l)
    (hl : lobLoop n tol fuel l = some x) :
    ∃ xold, LobInv n xold ∧ x = xold.map (·.bind (lobNewton n)) ∧ maxChange x xold 0 ≤ tol := by
  induction fuel generalizing l with
  | zero => simp [lobLoop] at hl
  | succ fuel ih =>
    simp only [lobLoop] at hl
    split at hl
    · next hc =>
      have := Option.some.inj hl
      subst this
      exact ⟨l, h, rfl, hc⟩
    · exact ih _ (inv_step n hn l h) hl

theorem maxChange_ge (a b : List (Option ℝ)) (e : ℝ) : e ≤ maxChange a b e := by
  induction a generalizing b e with
  | nil => cases b <;> simp [maxChange]
  | cons u us ih =>
    cases b with
    | nil => cases u <;> simp [maxChange]
    | cons v vs =>
      cases u with
      | none => simp only [maxChange]; exact ih _ _
      | some u =>
        cases v with
        | none => simp only [maxChange]; exact ih _ _
        | some v =>
          simp only [maxChange]
          refine le_trans ?_ (ih vs _)
          split <;> linarith

theorem maxChange_elem (a b : List (Option ℝ)) (e : ℝ) (i : Nat) (u v : ℝ) (h1 : a[i]? = some (some u))
    (h2 : b[i]? = some (some v)) : |u - v| ≤ maxChange a b e := by
  induction a generalizing b e i with
  | nil => simp at h1
  | cons x xs ih =>
    cases b with
    | nil => simp at h2
    | cons y ys =>
      cases i with
      | zero =>
        simp only [List.getElem?_cons_zero, Option.some.injEq] at h1 h2
        subst h1 h2
        simp only [maxChange]
        refine le_trans ?_ (maxChange_ge xs ys _)
        split <;> linarith
      | succ i =>
        simp only [List.getElem?_cons_succ] at h1 h2
        cases x with
        | none => simp only [maxChange]; exact ih _ _ _ h1 h2
        | some x =>
          cases y with
          | none => simp only [maxChange]; exact ih _ _ _ h1 h2
          | some y => simp only [maxChange]; exact ih _ _ _ h1 h2

/-- **C45, structure.** Whenever the Lobatto iteration returns, it returns `n` nodes and `n` weights; the first node is exactly -1,
the last exactly 1, and the nodes are placed symmetrically about zero. -/
theorem C45_lobatto_structure (fuel : Nat) (tol : ℝ) (n : Nat) (hn : 2 ≤ n) (x w : List (Option ℝ))
    (h : lobattoCompute fuel tol n = some (.ok (x, w))) :
    x.length = n ∧ w.length = n ∧ x[0]? = some (some (-1 : ℝ)) ∧ x[n - 1]? = some (some (1 : ℝ)) ∧
      ∀ i < n, x[n - 1 - i]? = (x[i]?).map (Option.map Neg.neg) := by
  unfold lobattoCompute at h
  rw [if_neg (by omega), Int.toNat_natCast, Option.map_eq_some_iff] at h
  obtain ⟨y, hy, he⟩ := h
  obtain ⟨xold, hi, rfl, -⟩ := loop_spec n hn tol fuel _ y (inv_start n hn) hy
  have hinv := inv_step n hn _ hi
  simp only [Res.ok.injEq, Prod.mk.injEq] at he
  obtain ⟨rfl, rfl⟩ := he
  set y := xold.map (·.bind (lobNewton n)) with hydef
  have hrev : ∀ i < n, y.reverse[i]? = y[n - 1 - i]? := by
    intro i hi
    rw [List.getElem?_reverse (by rw [hinv.len]; exact hi), hinv.len]
  refine ⟨by simp [hinv.len], by simp [hinv.len], ?_, ?_, ?_⟩
  · rw [hrev 0 (by omega)]; exact hinv.last
  · rw [hrev (n - 1) (by omega), Nat.sub_self]; exact hinv.first
  · intro i hi
    rw [hrev i hi, hrev _ (by omega)]
    exact hinv.sym (n - 1 - i) (by omega)

/-- **C45, convergence.** Each finite node returned is one Newton step away from a point `z`, closer than the tolerance, at which
`(1 - z²) P'_{n-1}(z)` is at most `tol n (n-1) |P_{n-1}(z)|`. -/
theorem C45_lobatto_residual (fuel : Nat) (tol : ℝ) (n : Nat) (hn : 2 ≤ n) (x w : List (Option ℝ))
    (h : lobattoCompute fuel tol n = some (.ok (x, w))) (i : Nat) (y : ℝ) (hy : x[i]? = some (some y)) :
    ∃ z, |y - z| ≤ tol ∧ (pP (n - 1)).eval z ≠ 0 ∧
      |(1 - z ^ 2) * (derivative (pP (n - 1))).eval z| ≤ tol * (n * (n - 1)) * |(pP (n - 1)).eval z| := by
  unfold lobattoCompute at h
  rw [if_neg (by omega), Int.toNat_natCast, Option.map_eq_some_iff] at h
  obtain ⟨v, hv, he⟩ := h
  obtain ⟨xold, hi, rfl, hm⟩ := loop_spec n hn tol fuel _ v (inv_start n hn) hv
  have hinv := inv_step n hn _ hi
  simp only [Res.ok.injEq, Prod.mk.injEq] at he
  obtain ⟨rfl, rfl⟩ := he
  have hin : i < n := by
    by_contra hc
    rw [List.getElem?_eq_none (by simp [hi.len]; omega)] at hy
    simp at hy
  rw [List.getElem?_reverse (by rw [hinv.len]; exact hin), hinv.len] at hy
  have hy' := hy
  rw [List.getElem?_map] at hy
  cases ho : xold[n - 1 - i]? with
  | none => rw [ho] at hy; simp at hy
  | some o =>
    cases o with
    | none => rw [ho] at hy; simp at hy
    | some z =>
      rw [ho] at hy
      simp only [Option.map_some, Option.bind_some, Option.some.injEq] at hy
      have hyz : |y - z| ≤ tol := le_trans (maxChange_elem _ _ 0 _ y z hy' ho) hm
      unfold lobNewton at hy
      rw [lobP_eq] at hy
      split at hy
      · simp at hy
      · next hP =>
        refine ⟨z, hyz, hP, ?_⟩
        have hye := Option.some.inj hy
        rw [lobP_eq] at hye
        have hnum := newton_num (n - 1) (by omega) z
        rw [show n - 1 - 1 = n - 2 by omega] at hnum
        have hq : (1 - z ^ 2) * (derivative (pP (n - 1))).eval z = (qL (n - 1)).eval z := by
          unfold qL; simp
        have hnpos : (0 : ℝ) < n := by
          have : 0 < n := by omega
          exact_mod_cast this
        have hn1 : ((n - 1 : Nat) : ℝ) = n - 1 := by rw [Nat.cast_sub (by omega)]; simp
        have hn1pos : (0 : ℝ) ≤ (n : ℝ) - 1 := by
          have : (2 : ℝ) ≤ n := by exact_mod_cast hn
          linarith
        have hd : y - z = (qL (n - 1)).eval z / (((n : ℝ) - 1) * n * (pP (n - 1)).eval z) := by
          have hn1' : (n : ℝ) - 1 ≠ 0 := by
            have : (2 : ℝ) ≤ n := by exact_mod_cast hn
            linarith
          rw [hn1] at hnum
          rw [← hye]
          field_simp
          linarith
        rw [hq]
        rw [hd, abs_div] at hyz
        have hpos : 0 < |((n : ℝ) - 1) * n * (pP (n - 1)).eval z| := by
          apply abs_pos.2
          have hn1' : (n : ℝ) - 1 ≠ 0 := by
            have : (2 : ℝ) ≤ n := by exact_mod_cast hn
            linarith
          exact mul_ne_zero (mul_ne_zero hn1' hnpos.ne') hP
        rw [div_le_iff₀ hpos] at hyz
        refine le_trans hyz (le_of_eq ?_)
        rw [abs_mul, abs_mul, abs_of_nonneg hn1pos, abs_of_pos hnpos]
        ring

/-- value of an optional number -/
def val (o : Option ℝ) : ℝ := o.getD 0

/-- Quadrature sum of a rule given as node and weight lists. -/
def quadSum (x w : List (Option ℝ)) (f : ℝ → ℝ) : ℝ :=
  (List.zipWith (fun a b => val b * f (val a)) x w).sum

/-- **C45, exactness.** If the Newton iteration converges exactly (tolerance 0) to distinct finite nodes, the rule integrates every
polynomial of degree up to `2n - 3` exactly over [-1, 1]. -/
theorem C45_lobatto_exact (fuel : Nat) (n : Nat) (hn : 2 ≤ n) (x w : List (Option ℝ))
    (h : lobattoCompute fuel 0 n = some (.ok (x, w))) (hfin : none ∉ x) (hdist : x.Nodup)
    (p : ℝ[X]) (hp : p.natDegree ≤ 2 * n - 3) :
    quadSum x w (fun t => p.eval t) = ∫ t in (-1 : ℝ)..1, p.eval t := by
  have hs := C45_lobatto_structure fuel 0 n hn x w h
  have hres := C45_lobatto_residual fuel 0 n hn x w h
  have hw : w = x.map (Option.map (lobWeight n)) := by
    unfold lobattoCompute at h
    rw [if_neg (by omega), Int.toNat_natCast, Option.map_eq_some_iff] at h
    obtain ⟨v, hv, he⟩ := h
    simp only [Res.ok.injEq, Prod.mk.injEq] at he
    obtain ⟨rfl, rfl⟩ := he
    rfl
  obtain ⟨N, rfl⟩ : ∃ N, n = N + 1 := ⟨n - 1, by omega⟩
  have hget : ∀ i < N + 1, x[i]? = some (some (val (x.getD i none))) := by
    intro i hi
    have hi' : i < x.length := by rw [hs.1]; exact hi
    rw [List.getElem?_eq_getElem hi', List.getD_eq_getElem?_getD, List.getElem?_eq_getElem hi']
    simp only [Option.getD_some]
    cases hx : x[i] with
    | none => exact absurd (hx ▸ List.getElem_mem hi') hfin
    | some a => rfl
  have hroot : ∀ i < N + 1, (qL N).eval (val (x.getD i none)) = 0 := by
    intro i hi
    obtain ⟨z, h1, h2, h3⟩ := hres i _ (hget i hi)
    have h4 : val (x.getD i none) = z := by
      have := abs_nonpos_iff.1 h1
      linarith
    rw [zero_mul, zero_mul, Nat.add_sub_cancel] at h3
    rw [h4]
    unfold qL
    rw [eval_mul, eval_sub, eval_one, eval_pow, eval_X]
    exact abs_nonpos_iff.1 h3
  have hinj : ∀ i < N + 1, ∀ j < N + 1, val (x.getD i none) = val (x.getD j none) → i = j := by
    intro i hi j hj hij
    have e1 := hget i hi
    have e2 := hget j hj
    rw [hij, ← e2] at e1
    have hi' : i < x.length := by rw [hs.1]; exact hi
    have hj' : j < x.length := by rw [hs.1]; exact hj
    rw [List.getElem?_eq_getElem hi', List.getElem?_eq_getElem hj'] at e1
    exact (List.Nodup.getElem_inj_iff hdist).1 (Option.some.inj e1)
  have hmain := lobatto_exact N (by omega) (fun i => val (x.getD i none)) hinj hroot p (by omega)
  rw [show (∫ t in (-1 : ℝ)..1, p.eval t) = refInt p from rfl, ← hmain]
  unfold quadSum
  rw [hw, List.zipWith_map_right]
  have hlist : List.zipWith (fun (a : Option ℝ) b => val (Option.map (lobWeight (N + 1)) b) * p.eval (val a)) x x =
      (List.range (N + 1)).map fun i => 2 / ((N : ℝ) * (N + 1) * (pP N).eval (val (x.getD i none)) ^ 2) * p.eval (val (x.getD i none)) := by
    rw [List.zipWith_self]
    apply List.ext_getElem
    · simp [hs.1]
    · intro i h1 h2
      rw [List.getElem_map, List.getElem_map, List.getElem_range]
      rw [List.length_map] at h1
      have hi : i < N + 1 := by rw [hs.1] at h1; exact h1
      have e := hget i hi
      rw [List.getElem?_eq_getElem h1] at e
      have e' := Option.some.inj e
      rw [e']
      simp only [Option.map_some, val, Option.getD_some]
      congr 1
      unfold lobWeight
      rw [lobPair_eq]
      have hN : N + 1 - 2 + 1 = N := by omega
      simp only [hN]
      push_cast
      congr 1
      ring
  rw [hlist, sum_map_range]

theorem lobatto3 : lobattoCompute 1 0 3 = some (.ok ([some (-1), some 0, some 1], [some (1/3), some (4/3), some (1/3)])) := by
  have h0 : Real.cos (Real.pi * 0 / (3 - 1)) = 1 := by simp
  have h1 : Real.cos (Real.pi * 1 / (3 - 1)) = 0 := by
    rw [show Real.pi * 1 / (3 - 1) = Real.pi / 2 by ring]; simp
  have h2 : Real.cos (Real.pi * 2 / (3 - 1)) = -1 := by
    rw [show Real.pi * 2 / (3 - 1) = Real.pi by ring]; simp
  simp only [lobattoCompute, lobStart, List.range, List.range.loop, List.map, Int.reduceToNat]
  norm_num [h0, h1, h2, lobLoop, lobNewton, lobP, maxChange, lobWeight, lobPair]

/-- non-vacuity of the exactness theorem: the three-point (Simpson) rule -/
example : quadSum [some (-1), some 0, some 1] [some (1/3), some (4/3), some (1/3)] (fun t => (X ^ 3 + X ^ 2 : ℝ[X]).eval t) =
    ∫ t in (-1 : ℝ)..1, (X ^ 3 + X ^ 2 : ℝ[X]).eval t := by
  refine C45_lobatto_exact 1 3 (by omega) _ _ lobatto3 (by simp) ?_ _ ?_
  · simp; norm_num
  · refine le_trans (natDegree_add_le _ _) (max_le (by simp) (by simp))

/-- **C45, rejection.** -/
theorem C45_lobatto_rejects (fuel : Nat) (tol : ℝ) (n : Int) (hn : n < 2) :
    lobattoCompute fuel tol n = some (.throw .runtimeError) := by simp [lobattoCompute, hn]

end Quad
end HelFEM
