import Verif.Model.TwoEInner
import Verif.Lemmas.TwoElectron
import Verif.Lemmas.Gram
import Mathlib.Tactic.ComputeDegree
import Mathlib.Analysis.SpecialFunctions.Integrals.Basic

/-!
# C19: in-element two-electron integrals
-/

namespace HelFEM
namespace TwoE
open Finset Polynomial Assembly

/-- `twoe_integral` with different numbers of nodes and weights raises a logic error, with an empty rule it is undefined, and otherwise it
returns a matrix symmetric in the two electrons, for any nodes, functions and multipole. -/
theorem C19_symmetric {K : Type _} [Field K] [DecidableEq K] (nbf : Nat) (bf : Nat → K → K) (rmin rmax : K) (x w : List K) (L : Nat) :
    (x.length ≠ w.length → twoeIntegral nbf bf rmin rmax x w L = .throw .logicError) ∧
    (x.length = w.length → x ≠ [] → ∃ M, twoeIntegral nbf bf rmin rmax x w L = .ok M ∧ M.rows = nbf * nbf ∧ M.cols = nbf * nbf ∧
      ∀ i j, M.get i j = M.get j i) := by
  constructor
  · intro h; exact if_neg h
  · intro h hne
    refine ⟨_, by rw [twoeIntegral, if_pos h, if_neg (by simpa using hne)], rfl, rfl, ?_⟩
    intro i j
    simp only
    cases twoeHalf nbf bf rmin rmax (x.zip w) L i j <;> cases twoeHalf nbf bf rmin rmax (x.zip w) L j i <;> simp [addN, add_comm]

theorem sumN_some {α : Type _} (l : List α) (f : α → ℝ) : sumN (l.map fun a => some (f a)) = some (l.map f).sum := by
  induction l with
  | nil => rfl
  | cons a l ih =>
    simp only [sumN, List.map_cons, List.foldr_cons, List.sum_cons] at ih ⊢
    rw [ih]; rfl

/-- the function `bf_i` as a function of `r` on the element -/
noncomputable def onEl (rmin rmax : ℝ) (p : ℝ[X]) (r : ℝ) : ℝ := p.eval ((r - 1 / 2 * (rmax + rmin)) / (1 / 2 * (rmax - rmin)))

noncomputable def onElP (rmin rmax : ℝ) (p : ℝ[X]) : ℝ[X] :=
  p.comp (C ((1 / 2 * (rmax - rmin))⁻¹) * X + C (-((1 / 2 * (rmax - rmin))⁻¹ * (1 / 2 * (rmax + rmin)))))

theorem onElP_eval (rmin rmax : ℝ) (p : ℝ[X]) (r : ℝ) : (onElP rmin rmax p).eval r = onEl rmin rmax p r := by
  unfold onElP onEl
  simp only [eval_comp, eval_add, eval_mul, eval_C, eval_X]
  congr 1
  rw [sub_div, div_eq_inv_mul, div_eq_inv_mul]; ring

theorem onElP_degree (rmin rmax : ℝ) (p : ℝ[X]) : (onElP rmin rmax p).natDegree ≤ p.natDegree := by
  unfold onElP
  refine natDegree_comp_le.trans (le_trans (Nat.mul_le_mul_left _ natDegree_linear_le) (le_of_eq (mul_one _)))

theorem innerWrk_eq (nbf : Nat) (p : Nat → ℝ[X]) (d L : Nat) (hd : ∀ i, (p i).natDegree ≤ d) (rule : List (ℝ × ℝ)) (hr : ExactTo rule (L + 2 * d))
    (rmin rmax a b : ℝ) (hb : b ≠ 0) (c : Nat) :
    innerWrk nbf (fun i x => (p i).eval x) a b rmin rmax rule L c =
      some ((b ^ (L + 1))⁻¹ * ∫ t in a..b, t ^ L * (onEl rmin rmax (p (c % nbf)) t * onEl rmin rmax (p (c / nbf)) t)) := by
  unfold innerWrk
  simp only [fsmallbig, if_neg hb, mulN]
  rw [sumN_some]
  congr 1
  have h := rule_range rule (L + 2 * d) hr (X ^ L * (onElP rmin rmax (p (c % nbf)) * onElP rmin rmax (p (c / nbf)))) (by
    refine natDegree_mul_le.trans ?_
    rw [natDegree_X_pow]
    have := natDegree_mul_le (p := onElP rmin rmax (p (c % nbf))) (q := onElP rmin rmax (p (c / nbf)))
    have := (onElP_degree rmin rmax (p (c % nbf))).trans (hd _)
    have := (onElP_degree rmin rmax (p (c / nbf))).trans (hd _)
    omega) 0 1 a b
  simp only [eval_mul, eval_pow, eval_X, onElP_eval, zero_add, one_mul] at h
  rw [← h, ← List.sum_map_mul_left]
  congr 1
  apply List.map_congr_left
  intro q _
  rw [show (1 : ℝ) / 2 * (b + a) + 1 / 2 * (b - a) * q.1 = (b - a) / 2 * q.1 + (b + a) / 2 by ring]
  generalize (b - a) / 2 * q.1 + (b + a) / 2 = r
  unfold onEl
  rw [div_pow, pow_succ]
  field_simp

/-- **C19, running integral.** On an element `0 ≤ rmin < rmax`, with increasing nodes starting at or after the left end and a rule exact to
degree `L + 2d`, the running inner integral is finite at every quadrature point and equals the direct cumulative integral
`r^(-L-1) ∫_{rmin}^{r} t^L B_i(t) B_j(t) dt` for functions of degree at most `d`: the rescaling loses and repeats nothing, for any number of points. -/
theorem C19_running (nbf : Nat) (p : Nat → ℝ[X]) (d L : Nat) (hd : ∀ i, (p i).natDegree ≤ d) (rule : List (ℝ × ℝ)) (hr : ExactTo rule (L + 2 * d))
    (rmin rmax : ℝ) (h0 : 0 ≤ rmin) (hlt : rmin < rmax) (hfirst : ∀ q ∈ rule, -1 ≤ q.1) (hinc : rule.Pairwise fun a b => a.1 < b.1)
    (ip : Nat) (hip : ip < rule.length) (c : Nat) :
    inner nbf (fun i x => (p i).eval x) rmin rmax rule L ip c =
      some ((innerR rmin rmax rule ip ^ (L + 1))⁻¹ *
        ∫ t in rmin..innerR rmin rmax rule ip, t ^ L * (onEl rmin rmax (p (c % nbf)) t * onEl rmin rmax (p (c / nbf)) t)) := by
  have hge : ∀ k < rule.length, rmin ≤ innerR rmin rmax rule k := by
    intro k hk
    have := hfirst (rule.getD k (0, 0)) (by simp [List.getD_eq_getElem?_getD, hk])
    unfold innerR
    nlinarith
  have hmono : ∀ k, k + 1 < rule.length → innerR rmin rmax rule k < innerR rmin rmax rule (k + 1) := by
    intro k hk
    have := List.pairwise_iff_getElem.1 hinc k (k + 1) (by omega) hk (by omega)
    unfold innerR
    simp only [List.getD_eq_getElem?_getD, List.getElem?_eq_getElem hk, List.getElem?_eq_getElem (show k < rule.length by omega), Option.getD_some]
    nlinarith
  have hint : ∀ a b : ℝ, IntervalIntegrable (fun t => t ^ L * (onEl rmin rmax (p (c % nbf)) t * onEl rmin rmax (p (c / nbf)) t)) MeasureTheory.volume a b := by
    intro a b
    apply Continuous.intervalIntegrable
    simp only [← onElP_eval]
    fun_prop
  induction ip with
  | zero =>
    show segment nbf (fun i x => (p i).eval x) rmin rmax rule L 0 c = _
    unfold segment
    simp only
    by_cases he : innerR rmin rmax rule 0 = rmin
    · rw [if_pos he, he]; simp
    · have hpos : innerR rmin rmax rule 0 ≠ 0 := by
        have := hge 0 hip
        have : rmin < innerR rmin rmax rule 0 := lt_of_le_of_ne this (Ne.symm he)
        linarith
      rw [if_neg he, innerWrk_eq nbf p d L hd rule hr rmin rmax _ _ hpos]
  | succ ip ih =>
    have hm := hmono ip hip
    have hg := hge ip (by omega)
    have hpos : innerR rmin rmax rule (ip + 1) ≠ 0 := by linarith
    have hseg : segment nbf (fun i x => (p i).eval x) rmin rmax rule L (ip + 1) c = _ := innerWrk_eq nbf p d L hd rule hr rmin rmax _ _ hpos c
    by_cases he : ip = 0 ∧ innerR rmin rmax rule 0 = rmin
    · obtain ⟨e1, e2⟩ := he
      subst e1
      rw [inner]
      simp only
      rw [if_pos ⟨trivial, e2⟩, hseg, e2]
    · have hp2 : innerR rmin rmax rule ip ≠ 0 := by
        have : rmin < innerR rmin rmax rule ip := by
          cases ip with
          | zero => exact lt_of_le_of_ne hg (fun h => he ⟨rfl, h.symm⟩)
          | succ k => exact lt_of_le_of_lt (hge k (by omega)) (hmono k (by omega))
        linarith
      rw [inner]
      simp only
      rw [if_neg he, hseg, ih (by omega)]
      simp only [fbig, if_neg hpos, if_neg hp2, divN, if_neg (inv_ne_zero (pow_ne_zero (L + 1) hp2)), mulN, addN]
      congr 1
      rw [← intervalIntegral.integral_add_adjacent_intervals (hint rmin (innerR rmin rmax rule ip)) (hint (innerR rmin rmax rule ip) (innerR rmin rmax rule (ip + 1)))]
      have hx := pow_ne_zero (L + 1) hp2
      have hy := pow_ne_zero (L + 1) hpos
      field_simp
      ring

/-! ### exactness on the innermost element -/

/-- `r^(-L-1) ∫_0^r t^L q(t) dt` as a polynomial -/
noncomputable def pot (L : Nat) (q : ℝ[X]) : ℝ[X] := ∑ k ∈ range (q.natDegree + 1), C (q.coeff k / (k + L + 1)) * X ^ k

theorem pot_degree (L : Nat) (q : ℝ[X]) : (pot L q).natDegree ≤ q.natDegree := by
  unfold pot
  apply natDegree_sum_le_of_forall_le
  intro k hk
  have := mem_range.1 hk
  exact (natDegree_C_mul_X_pow_le _ _).trans (by omega)

theorem pot_spec (L : Nat) (q : ℝ[X]) (r : ℝ) : ∫ t in (0 : ℝ)..r, t ^ L * q.eval t = r ^ (L + 1) * (pot L q).eval r := by
  have h1 : ∀ t : ℝ, t ^ L * q.eval t = ∑ k ∈ range (q.natDegree + 1), q.coeff k * t ^ (k + L) := by
    intro t
    rw [eval_eq_sum_range, mul_sum]
    apply sum_congr rfl; intro k _
    rw [pow_add]; ring
  simp only [h1]
  rw [intervalIntegral.integral_finsetSum (fun k _ => (by fun_prop : Continuous _).intervalIntegrable _ _)]
  unfold pot
  rw [eval_finsetSum, mul_sum]
  apply sum_congr rfl; intro k _
  rw [intervalIntegral.integral_const_mul, integral_pow]
  simp only [eval_mul, eval_C, eval_pow, eval_X]
  push_cast
  have : (k : ℝ) + L + 1 ≠ 0 := by positivity
  rw [zero_pow (by omega), sub_zero, show k + L + 1 = L + 1 + k by ring, pow_add r (L + 1) k]
  field_simp

/-- The Coulomb repulsion of two charge densities `f`, `g` in multipole `L` over `(0, R)`: electron 2 inside electron 1 plus electron 1
inside electron 2. -/
noncomputable def repulsion (L : Nat) (R : ℝ) (f g : ℝ → ℝ) : ℝ :=
  (∫ r in (0 : ℝ)..R, f r * ((r ^ (L + 1))⁻¹ * ∫ t in (0 : ℝ)..r, t ^ L * g t)) +
  ∫ r in (0 : ℝ)..R, g r * ((r ^ (L + 1))⁻¹ * ∫ t in (0 : ℝ)..r, t ^ L * f t)

theorem half_exact (nbf : Nat) (p : Nat → ℝ[X]) (d L : Nat) (hd : ∀ i, (p i).natDegree ≤ d) (rule : List (ℝ × ℝ)) (hr : ExactTo rule (L + 2 * d))
    (hr2 : ExactTo rule (4 * d)) (R : ℝ) (hR : 0 < R) (hfirst : ∀ q ∈ rule, -1 ≤ q.1) (hinc : rule.Pairwise fun a b => a.1 < b.1)
    (hz : ∀ i < nbf, (p i).eval (-1) = 0) (row col : Nat) (hrow : row < nbf * nbf) :
    twoeHalf nbf (fun i x => (p i).eval x) 0 R rule L row col = some (∫ r in (0 : ℝ)..R,
      (onEl 0 R (p (row / nbf)) r * onEl 0 R (p (row % nbf)) r) * ((r ^ (L + 1))⁻¹ * ∫ t in (0 : ℝ)..r, t ^ L *
        (onEl 0 R (p (col % nbf)) t * onEl 0 R (p (col / nbf)) t))) := by
  have hn : 0 < nbf := by
    rcases Nat.eq_zero_or_pos nbf with h | h
    · subst h; omega
    · exact h
  obtain ⟨f, hf⟩ : ∃ f : ℝ[X], f = onElP 0 R (p (row / nbf)) * onElP 0 R (p (row % nbf)) := ⟨_, rfl⟩
  obtain ⟨g, hg⟩ : ∃ g : ℝ[X], g = onElP 0 R (p (col % nbf)) * onElP 0 R (p (col / nbf)) := ⟨_, rfl⟩
  have hf0 : f.eval 0 = 0 := by
    rw [hf, eval_mul, onElP_eval, onElP_eval]
    have : onEl 0 R (p (row % nbf)) 0 = 0 := by
      unfold onEl
      rw [show (0 - 1 / 2 * (R + 0)) / (1 / 2 * (R - 0)) = -1 by rw [div_eq_iff (by linarith)]; ring]
      exact hz _ (Nat.mod_lt _ hn)
    rw [this, mul_zero]
  have hdeg : ∀ i, (onElP 0 R (p i)).natDegree ≤ d := fun i => (onElP_degree 0 R (p i)).trans (hd i)
  have hmuldeg : ∀ i j, (onElP 0 R (p i) * onElP 0 R (p j)).natDegree ≤ 2 * d := by
    intro i j
    have := natDegree_mul_le (p := onElP 0 R (p i)) (q := onElP 0 R (p j))
    have := hdeg i
    have := hdeg j
    omega
  have hpoint : ∀ r : ℝ, f.eval r * ((r ^ (L + 1))⁻¹ * ∫ t in (0 : ℝ)..r, t ^ L * g.eval t) = (f * pot L g).eval r := by
    intro r
    rw [eval_mul, pot_spec]
    by_cases h0 : r = 0
    · rw [h0, hf0, zero_mul, zero_mul]
    · have := pow_ne_zero (L + 1) h0
      field_simp
  have hRHS : (∫ r in (0 : ℝ)..R, (onEl 0 R (p (row / nbf)) r * onEl 0 R (p (row % nbf)) r) * ((r ^ (L + 1))⁻¹ * ∫ t in (0 : ℝ)..r, t ^ L *
        (onEl 0 R (p (col % nbf)) t * onEl 0 R (p (col / nbf)) t))) = ∫ r in (0 : ℝ)..R, (f * pot L g).eval r := by
    apply intervalIntegral.integral_congr
    intro r _
    simp only
    rw [← hpoint r, hf, hg]
    simp only [eval_mul, onElP_eval]
  rw [hRHS]
  have hq := rule_range rule (4 * d) hr2 (f * pot L g) (by
    refine natDegree_mul_le.trans ?_
    have := hmuldeg (row / nbf) (row % nbf)
    have := (pot_degree L g).trans (hg ▸ hmuldeg (col % nbf) (col / nbf))
    rw [← hf] at *
    omega) 0 1 0 R
  simp only [zero_add, one_mul, mul_one] at hq
  rw [← hq]
  unfold twoeHalf
  have hmap : ((List.range rule.length).map fun ip => mulN (some ((p (row / nbf)).eval (rule.getD ip (0, 0)).1 *
        (p (row % nbf)).eval (rule.getD ip (0, 0)).1 * ((rule.getD ip (0, 0)).2 * (1 / 2 * (R - 0)))))
        (inner nbf (fun i x => (p i).eval x) 0 R rule L ip col)) =
      rule.map fun q => some (q.2 * ((R - 0) / 2) * (f * pot L g).eval ((R - 0) / 2 * q.1 + (R + 0) / 2)) := by
    apply List.ext_getElem (by simp)
    intro k hk1 hk2
    simp only [List.length_map, List.length_range] at hk1
    simp only [List.getElem_map, List.getElem_range]
    rw [C19_running nbf p d L hd rule hr 0 R le_rfl hR hfirst hinc k hk1 col]
    simp only [mulN]
    congr 1
    have e0 : rule.getD k (0, 0) = rule[k] := by simp [List.getD_eq_getElem?_getD, hk1]
    have e1 : innerR 0 R rule k = (R - 0) / 2 * rule[k].1 + (R + 0) / 2 := by unfold innerR; rw [e0]; ring
    rw [← e1, ← hpoint, e0]
    have hf' : ∀ r, f.eval r = onEl 0 R (p (row / nbf)) r * onEl 0 R (p (row % nbf)) r := fun r => by rw [hf, eval_mul, onElP_eval, onElP_eval]
    have hg' : ∀ r, g.eval r = onEl 0 R (p (col % nbf)) r * onEl 0 R (p (col / nbf)) r := fun r => by rw [hg, eval_mul, onElP_eval, onElP_eval]
    simp only [hf', hg']
    have e2 : ∀ P : ℝ[X], onEl 0 R P (innerR 0 R rule k) = P.eval rule[k].1 := by
      intro P
      unfold onEl
      rw [e1]
      congr 1
      rw [div_eq_iff (by linarith)]
      ring
    rw [e2, e2]
    ring
  simp only
  rw [hmap, sumN_some]

/-- **C19, exactness on the innermost element.** On `(0, R)` with functions that vanish at the origin, any rule exact to the stated degrees makes
every in-element integral the exact Coulomb repulsion of the two products, all entries finite although the kernel is singular at 0. -/
theorem C19_exact (nbf : Nat) (p : Nat → ℝ[X]) (d L : Nat) (hd : ∀ i, (p i).natDegree ≤ d) (x w : List ℝ) (hxw : x.length = w.length)
    (hne : x ≠ []) (hr : ExactTo (x.zip w) (L + 2 * d)) (hr2 : ExactTo (x.zip w) (4 * d)) (R : ℝ) (hR : 0 < R)
    (hfirst : ∀ q ∈ x.zip w, -1 ≤ q.1) (hinc : (x.zip w).Pairwise fun a b => a.1 < b.1) (hz : ∀ i < nbf, (p i).eval (-1) = 0) :
    ∃ M, twoeIntegral nbf (fun i x => (p i).eval x) 0 R x w L = .ok M ∧ M.rows = nbf * nbf ∧ M.cols = nbf * nbf ∧
      ∀ a < nbf, ∀ b < nbf, ∀ c < nbf, ∀ e < nbf, M.get (b * nbf + a) (e * nbf + c) = some (repulsion L R
        (fun r => onEl 0 R (p a) r * onEl 0 R (p b) r) (fun r => onEl 0 R (p c) r * onEl 0 R (p e) r)) := by
  refine ⟨_, by rw [twoeIntegral, if_pos hxw, if_neg (by simpa using hne)], rfl, rfl, ?_⟩
  intro a ha b hb c hc e he
  simp only
  rw [half_exact nbf p d L hd _ hr hr2 R hR hfirst hinc hz _ _ (pair_lt hb ha),
    half_exact nbf p d L hd _ hr hr2 R hR hfirst hinc hz _ _ (pair_lt he hc)]
  have h1 : ∀ i j, i < nbf → (j * nbf + i) / nbf = j ∧ (j * nbf + i) % nbf = i := by
    intro i j hi
    rw [mul_comm, Nat.mul_add_div (by omega), Nat.div_eq_of_lt hi, Nat.mul_add_mod, Nat.mod_eq_of_lt hi]
    exact ⟨by omega, rfl⟩
  simp only [(h1 a b ha).1, (h1 a b ha).2, (h1 c e hc).1, (h1 c e hc).2, addN, repulsion]
  congr 2 <;> · apply intervalIntegral.integral_congr; intro r _; simp only; ring

/-- Simpson's rule: three increasing nodes, first at the left end; exact to degree 2 (one function of degree 0 in multipole 2 for the running
integral). -/
theorem simpson_exact : ExactTo ([-1, 0, 1].zip [1/3, 4/3, 1/3]) 2 := by
  intro p hp
  have h1 : ∀ x : ℝ, p.eval x = p.coeff 0 + p.coeff 1 * x + p.coeff 2 * x ^ 2 := by
    intro x
    rw [eval_eq_sum_range' (show p.natDegree < 3 by omega)]
    simp [sum_range_succ]
  simp only [h1, List.zip_cons_cons, List.zip_nil_right, List.map_cons, List.map_nil, List.sum_cons, List.sum_nil]
  rw [intervalIntegral.integral_add (by apply Continuous.intervalIntegrable; fun_prop) (by apply Continuous.intervalIntegrable; fun_prop),
    intervalIntegral.integral_add (by apply Continuous.intervalIntegrable; fun_prop) (by apply Continuous.intervalIntegrable; fun_prop),
    intervalIntegral.integral_const_mul, intervalIntegral.integral_const_mul, integral_id, integral_pow, intervalIntegral.integral_const]
  norm_num
  ring

example (rmax : ℝ) (h : 0 < rmax) : inner 1 (fun _ x => (1 : ℝ[X]).eval x) 0 rmax ([-1, 0, 1].zip [1/3, 4/3, 1/3]) 2 2 0 =
    some ((innerR 0 rmax ([-1, 0, 1].zip [1/3, 4/3, 1/3]) 2 ^ 3)⁻¹ * ∫ t in (0:ℝ)..innerR 0 rmax ([-1, 0, 1].zip [1/3, 4/3, 1/3]) 2,
      t ^ 2 * (onEl 0 rmax 1 t * onEl 0 rmax 1 t)) :=
  C19_running 1 (fun _ => 1) 0 2 (by simp) _ simpson_exact 0 rmax le_rfl h (by simp) (by simp) 2 (by simp) 0

/-- Boole's rule is exact to degree 4 -/
theorem boole_exact : ExactTo ([-1, -1/2, 0, 1/2, 1].zip [7/45, 32/45, 12/45, 32/45, 7/45]) 4 := by
  intro p hp
  have h1 : ∀ x : ℝ, p.eval x = p.coeff 0 + p.coeff 1 * x + p.coeff 2 * x ^ 2 + p.coeff 3 * x ^ 3 + p.coeff 4 * x ^ 4 := by
    intro x
    rw [eval_eq_sum_range' (show p.natDegree < 5 by omega)]
    simp [sum_range_succ]
  simp only [h1, List.zip_cons_cons, List.zip_nil_right, List.map_cons, List.map_nil, List.sum_cons, List.sum_nil]
  rw [intervalIntegral.integral_add (by apply Continuous.intervalIntegrable; fun_prop) (by apply Continuous.intervalIntegrable; fun_prop),
    intervalIntegral.integral_add (by apply Continuous.intervalIntegrable; fun_prop) (by apply Continuous.intervalIntegrable; fun_prop),
    intervalIntegral.integral_add (by apply Continuous.intervalIntegrable; fun_prop) (by apply Continuous.intervalIntegrable; fun_prop),
    intervalIntegral.integral_add (by apply Continuous.intervalIntegrable; fun_prop) (by apply Continuous.intervalIntegrable; fun_prop),
    intervalIntegral.integral_const_mul, intervalIntegral.integral_const_mul, intervalIntegral.integral_const_mul,
    intervalIntegral.integral_const_mul, integral_id, integral_pow, integral_pow, integral_pow, intervalIntegral.integral_const]
  norm_num
  ring

/-- the linear function `x + 1`, quadrupole, Boole's rule -/
example (R : ℝ) (hR : 0 < R) : ∃ M, twoeIntegral 1 (fun _ x => (X + 1 : ℝ[X]).eval x) 0 R [-1, -1/2, 0, 1/2, 1] [7/45, 32/45, 12/45, 32/45, 7/45] 2 = .ok M ∧
    M.get 0 0 = some (repulsion 2 R (fun r => onEl 0 R (X + 1) r * onEl 0 R (X + 1) r) (fun r => onEl 0 R (X + 1) r * onEl 0 R (X + 1) r)) := by
  obtain ⟨M, h1, _, _, h2⟩ := C19_exact 1 (fun _ => X + 1) 1 2 (fun _ => by compute_degree) [-1, -1/2, 0, 1/2, 1] [7/45, 32/45, 12/45, 32/45, 7/45] rfl (by simp)
    boole_exact boole_exact R hR (by norm_num) (by norm_num) (by intro i _; simp)
  exact ⟨M, h1, by simpa using h2 0 (by omega) 0 (by omega) 0 (by omega) 0 (by omega)⟩

end TwoE
end HelFEM
