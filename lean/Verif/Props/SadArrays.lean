import Verif.Props.SadGrid
import Verif.Props.Screening

/-!
# C82: orbitals, quadrature weights and kinetic energy density on the grid

`u k` is the polynomial of orbital `k` on an element, `u k / r` the orbital.
-/

namespace HelFEM
namespace SadGrid
open Grid Poly Finset Polynomial Spec Assembly AtomDB Radii Screening TwoE

/-- `r` times orbital `k` on element `e` -/
noncomputable def upoly (N : Nat) (φ : Nat → Nat → ℝ[X]) (C0 : Mat ℝ) (k e : Nat) : ℝ[X] := ∑ g ∈ range N, C (C0.get g k) * φ e g

/-- orbital `k` on element `e` -/
noncomputable def radialOrbital (N : Nat) (φ : Nat → Nat → ℝ[X]) (C0 : Mat ℝ) (k e : Nat) (r : ℝ) : ℝ := (upoly N φ C0 k e).eval r / r

theorem over_deriv (p : ℝ[X]) (r : ℝ) (hr : 0 < r) : deriv (fun s => p.eval s / s) r = (derivative p).eval r / r - p.eval r / r ^ 2 ∧
    deriv (deriv fun s => p.eval s / s) r = (derivative (derivative p)).eval r / r - 2 * (derivative p).eval r / r ^ 2 + 2 * p.eval r / r ^ 3 := by
  have h1 : ∀ s : ℝ, 0 < s → HasDerivAt (fun s => p.eval s / s) ((derivative p).eval s / s - p.eval s / s ^ 2) s := by
    intro s hs
    refine HasDerivAt.congr_deriv ((p.hasDerivAt s).div (hasDerivAt_id s) hs.ne') ?_
    field_simp
  refine ⟨(h1 r hr).deriv, ?_⟩
  have h2 : HasDerivAt (fun s => (derivative p).eval s / s - p.eval s / s ^ 2) ((derivative (derivative p)).eval r / r - 2 * (derivative p).eval r / r ^ 2 + 2 * p.eval r / r ^ 3) r := by
    have := (((derivative p).hasDerivAt r).div (hasDerivAt_id r) hr.ne').sub ((p.hasDerivAt r).div (hasDerivAt_pow 2 r) (by positivity))
    refine HasDerivAt.congr_deriv (f := fun s => (derivative p).eval s / s - p.eval s / s ^ 2) this ?_
    have hr' := hr.ne'
    simp only [id_eq]
    field_simp
    norm_num
    ring
  refine HasDerivAt.deriv (h2.congr_of_eventuallyEq ?_)
  filter_upwards [Ioi_mem_nhds hr] with s hs
  exact (h1 s hs).deriv

variable {f : Family} {n ne : Nat} {zdl zfr zdr : Bool} {x0 : Nat → ℝ} {bval : List ℝ} {o : FEObj ℝ} {N : Nat} {first last : Nat → Nat}
  {φ : Nat → Nat → ℝ[X]} {rule : List (ℝ × ℝ)} {P C0 : Mat ℝ}

theorem upoly_window (S : Setting f n ne zdl zfr zdr x0 bval o N first last φ rule P) (k e : Nat) (he : e < ne) :
    upoly N φ C0 k e = ∑ i ∈ range (last e + 1 - first e), C (C0.get (first e + i) k) * φ e (first e + i) := by
  obtain ⟨l1, l2, l3, l4, l5⟩ := layout f n ne true zdl zfr zdr S.basis.nodes.two S.basis.nelem bval S.basis.len o S.basis.built N S.basis.nbf S.basis.pos first last S.basis.idx
  have a := l4 e he
  have b := (S.basis.count e he 0).2
  unfold upoly
  rw [AtomDB.sum_window N (first e) (last e + 1 - first e) _ (by omega)]
  intro i _ hi
  rw [S.basis.outside φ S.pieces e he i (by omega), mul_zero]

theorem orbitalRow_eq (S : Setting f n ne zdl zfr zdr x0 bval o N first last φ rule P) (hC : C0.rows = N) (e : Nat) (he : e < ne) (v : List ℝ) (hv : v.length = last e + 1 - first e) :
    orbitalRow ⟨o, x0, rule⟩ C0 e v = .ok ((List.range C0.cols).map fun k => ∑ i ∈ range (last e + 1 - first e), v.getD i 0 * C0.get (first e + i) k) := by
  obtain ⟨l1, l2, l3, l4, l5⟩ := layout f n ne true zdl zfr zdr S.basis.nodes.two S.basis.nelem bval S.basis.len o S.basis.built N S.basis.nbf S.basis.pos first last S.basis.idx
  have a := l4 e he
  have b := (S.basis.count e he 0).2
  unfold orbitalRow
  rw [S.basis.idx e he]
  simp only [Res.ok_bind]
  unfold Mat.block
  rw [if_pos ⟨by omega, by omega⟩]
  simp only [Res.ok_bind, hv, if_true, zero_add]

/-- values of the functions over `r` and their derivatives -/
theorem rows (S : Setting f n ne zdl zfr zdr x0 bval o N first last φ rule P) (hmax : 2 ≤ maxN f) (e : Nat) (he : e < ne) (x : ℝ) (hx : -1 ≤ x) (hr : 0 < coord bval e x) :
    ∃ b d l, getBf ⟨o, x0, rule⟩ x e = .ok b ∧ getDf ⟨o, x0, rule⟩ x e = .ok d ∧ getLf ⟨o, x0, rule⟩ x e = .ok l ∧
      b.length = last e + 1 - first e ∧ d.length = last e + 1 - first e ∧ l.length = last e + 1 - first e ∧
      ∀ (C0 : Mat ℝ) (k : Nat), ∑ i ∈ range (last e + 1 - first e), b.getD i 0 * C0.get (first e + i) k = radialOrbital N φ C0 k e (coord bval e x) ∧
        ∑ i ∈ range (last e + 1 - first e), d.getD i 0 * C0.get (first e + i) k = deriv (radialOrbital N φ C0 k e) (coord bval e x) ∧
        ∑ i ∈ range (last e + 1 - first e), l.getD i 0 * C0.get (first e + i) k = deriv (deriv (radialOrbital N φ C0 k e)) (coord bval e x) := by
  obtain ⟨rule', S'⟩ := toSetup S
  obtain ⟨b, d, l, q1, q2, q3, q4, q5, q6, q7⟩ := getDf_eq S' hmax e he x hx hr
  obtain ⟨r, hrr⟩ : ∃ r, r = coord bval e x := ⟨_, rfl⟩
  rw [← hrr] at q7 hr ⊢
  refine ⟨b, d, l, q1, q2, q3, q4, q5, q6, fun C0 k => ?_⟩
  obtain ⟨f1, f2⟩ := over_deriv (upoly N φ C0 k e) r hr
  have g : radialOrbital N φ C0 k e = fun s => (upoly N φ C0 k e).eval s / s := rfl
  rw [g, f1, f2]
  rw [upoly_window S k e he]
  simp only [derivative_sum, derivative_mul, derivative_C, zero_mul, zero_add, eval_finsetSum, eval_mul, eval_C, sum_div, mul_sum]
  simp only [← sum_sub_distrib, ← sum_add_distrib]
  refine ⟨sum_congr rfl fun i hi => ?_, sum_congr rfl fun i hi => ?_, sum_congr rfl fun i hi => ?_⟩
  · obtain ⟨a1, a2, a3⟩ := q7 i (mem_range.1 hi)
    rw [← a1]; field_simp
  · obtain ⟨a1, a2, a3⟩ := q7 i (mem_range.1 hi)
    rw [← a1, ← a2]; field_simp; ring
  · obtain ⟨a1, a2, a3⟩ := q7 i (mem_range.1 hi)
    rw [← a1, ← a2, ← a3]; field_simp; ring

/-- **C82, orbitals.** The rows of the three arrays are the orbitals and their first and second derivatives at the points of the grid; the first row of the orbitals holds their
limits at the nucleus. -/
theorem C82_orbitals (S : Setting f n ne zdl zfr zdr x0 bval o N first last φ rule P) (hmax : 2 ≤ maxN f) (ho : ∀ q ∈ rule, -1 < q.1) (hC : C0.rows = N) :
    (∃ lim : Nat → ℝ, orbitals ⟨o, x0, rule⟩ C0 = .ok ((List.range C0.cols).map lim :: (List.range ne).flatMap fun e => rule.map fun q =>
        (List.range C0.cols).map fun k => radialOrbital N φ C0 k e (coord bval e q.1)) ∧
      ∀ k, Filter.Tendsto (radialOrbital N φ C0 k 0) (nhdsWithin 0 (Set.Ioi 0)) (nhds (lim k))) ∧
    orbitalsDerivative ⟨o, x0, rule⟩ C0 = .ok ((List.range C0.cols).map (fun _ => 0) :: (List.range ne).flatMap fun e => rule.map fun q =>
        (List.range C0.cols).map fun k => deriv (radialOrbital N φ C0 k e) (coord bval e q.1)) ∧
    orbitalsSecond ⟨o, x0, rule⟩ C0 = .ok ((List.range C0.cols).map (fun _ => 0) :: (List.range ne).flatMap fun e => rule.map fun q =>
        (List.range C0.cols).map fun k => deriv (deriv (radialOrbital N φ C0 k e)) (coord bval e q.1)) := by
  have hne := S.basis.nelem
  have hpos : ∀ e < ne, ∀ q ∈ rule, 0 < coord bval e q.1 := by
    intro e he q hq
    have := S.coord_lt e he (-1) q.1 (ho q hq)
    rw [coord_left] at this
    exact (begin_nonneg S e he).trans_lt this
  refine ⟨⟨fun k => (derivative (upoly N φ C0 k 0)).eval 0, ?_, ?_⟩, ?_, ?_⟩
  · refine onGrid_eq S _ _ _ (fun e x => (List.range C0.cols).map fun k => radialOrbital N φ C0 k e (coord bval e x)) ?_ fun e he q hq => ?_
    · obtain ⟨v, v1, v2, v3⟩ := row S.basis φ S.pieces 0 (by omega) 1 (by omega) (-1)
      have v1' : feEvalDnf o.shape o.bval x0 (-1) 1 0 = .ok v := v1
      rw [v1', Res.ok_bind, orbitalRow_eq S hC 0 (by omega) v v2]
      congr 1
      apply List.map_congr_left
      intro k _
      rw [upoly_window S k 0 (by omega)]
      simp only [derivative_sum, derivative_mul, derivative_C, zero_mul, zero_add, eval_finsetSum, eval_mul, eval_C]
      refine sum_congr rfl fun i _ => ?_
      rw [v3, coord_left, S.origin, Function.iterate_one]
      ring
    · obtain ⟨b, d, l, q1, q2, q3, q4, q5, q6, q7⟩ := rows S hmax e he q.1 (ho q hq).le (hpos e he q hq)
      rw [q1, Res.ok_bind, orbitalRow_eq S hC e he b q4]
      congr 1
      exact List.map_congr_left fun k _ => (q7 C0 k).1
  · intro k
    have h0 : (upoly N φ C0 k 0).eval 0 = 0 := by
      rw [upoly_window S k 0 (by omega), eval_finsetSum]
      refine sum_eq_zero fun i hi => ?_
      obtain ⟨R, hR⟩ := piece_zero S 0 (by omega) S.origin i (mem_range.1 hi)
      rw [hR]; simp
    have := (hasDerivAt_iff_tendsto_slope.1 ((upoly N φ C0 k 0).hasDerivAt 0)).mono_left (nhdsWithin_mono 0 (s := Set.Ioi (0 : ℝ)) fun s hs => ne_of_gt hs)
    refine this.congr fun s => ?_
    rw [slope_def_field, h0, sub_zero, sub_zero]
    rfl
  · refine onGrid_eq S _ _ _ (fun e x => (List.range C0.cols).map fun k => deriv (radialOrbital N φ C0 k e) (coord bval e x)) rfl fun e he q hq => ?_
    obtain ⟨b, d, l, q1, q2, q3, q4, q5, q6, q7⟩ := rows S hmax e he q.1 (ho q hq).le (hpos e he q hq)
    rw [q2, Res.ok_bind, orbitalRow_eq S hC e he d q5]
    congr 1
    exact List.map_congr_left fun k _ => (q7 C0 k).2.1
  · refine onGrid_eq S _ _ _ (fun e x => (List.range C0.cols).map fun k => deriv (deriv (radialOrbital N φ C0 k e)) (coord bval e x)) rfl fun e he q hq => ?_
    obtain ⟨b, d, l, q1, q2, q3, q4, q5, q6, q7⟩ := rows S hmax e he q.1 (ho q hq).le (hpos e he q hq)
    rw [q3, Res.ok_bind, orbitalRow_eq S hC e he l q6]
    congr 1
    exact List.map_congr_left fun k _ => (q7 C0 k).2.2

theorem weights_eq (S : Setting f n ne zdl zfr zdr x0 bval o N first last φ rule P) :
    quadratureWeights ⟨o, x0, rule⟩ = .ok (0 :: (List.range ne).flatMap fun e => rule.map fun q => (bval.getD (e + 1) 0 - bval.getD e 0) / 2 * q.2) := by
  have hl := S.basis.len
  have hne := S.basis.nelem
  unfold quadratureWeights
  rw [S.nel, if_neg (by omega), Res.mapM_ok _ (fun e => rule.map fun q => (bval.getD (e + 1) 0 - bval.getD e 0) / 2 * q.2), Res.ok_bind, Res.pure_eq, List.flatMap_def]
  intro e he
  have he := List.mem_range.1 he
  unfold scalingFactor
  simp only [S.basis.shape.2, elementLength_eq bval e (by omega), Res.ok_bind, Res.pure_eq]

theorem sum_grid {α : Type _} (l : List α) (g : Nat → α → ℝ) (m : Nat) : ((List.range m).flatMap fun e => l.map (g e)).sum = ∑ e ∈ range m, (l.map (g e)).sum := by
  induction m with
  | zero => simp
  | succ m ih => rw [List.range_succ, List.flatMap_append, List.sum_append, ih, sum_range_succ]; simp

/-- **C82, weights.** The weights and radii of the grid form the composite rule: the weight of the nucleus is zero, and weighting the values of any function sums the rule over the elements. -/
theorem C82_weights (S : Setting f n ne zdl zfr zdr x0 bval o N first last φ rule P) (g : ℝ → ℝ) :
    ∃ w r, quadratureWeights ⟨o, x0, rule⟩ = .ok w ∧ radii ⟨o, x0, rule⟩ = .ok r ∧ w.length = r.length ∧ w.length = 1 + ne * rule.length ∧ w.getD 0 0 = 0 ∧
      (List.zipWith (fun w r => w * g r) w r).sum = ∑ e ∈ range ne, panel rule g (bval.getD e 0) (bval.getD (e + 1) 0) := by
  have hr : radii ⟨o, x0, rule⟩ = .ok (0 :: (List.range ne).flatMap fun e => rule.map fun q => coord bval e q.1) :=
    onGrid_eq S _ _ _ (fun e x => coord bval e x) rfl fun e he q _ => S.getR e he q.1
  refine ⟨_, _, weights_eq S, hr, by simp [List.length_flatMap], by simp [List.length_flatMap, add_comm], rfl, ?_⟩
  have zip : ∀ m, List.zipWith (fun w r => w * g r) ((List.range m).flatMap fun e => rule.map fun q => (bval.getD (e + 1) 0 - bval.getD e 0) / 2 * q.2)
      ((List.range m).flatMap fun e => rule.map fun q => coord bval e q.1) = (List.range m).flatMap fun e => rule.map fun q => (bval.getD (e + 1) 0 - bval.getD e 0) / 2 * q.2 * g (coord bval e q.1) := by
    intro m
    induction m with
    | zero => rfl
    | succ m ih =>
      rw [List.range_succ, List.flatMap_append, List.flatMap_append, List.flatMap_append, List.zipWith_append (by simp [List.length_flatMap]), ih]
      congr 1
      simp [List.zipWith_map]
  rw [List.zipWith_cons_cons, List.sum_cons, zero_mul, zero_add, zip, sum_grid]
  refine sum_congr rfl fun e _ => ?_
  unfold panel
  rw [← List.sum_map_mul_left]
  congr 1
  apply List.map_congr_left
  intro q _
  rw [show coord bval e q.1 = (bval.getD e 0 + bval.getD (e + 1) 0) / 2 + (bval.getD (e + 1) 0 - bval.getD e 0) / 2 * q.1 by unfold coord; ring]
  ring

/-- the sum over the shells formed by `weighted` -/
theorem weighted_eq (N : Nat) (g : Nat → ℝ) (Ps : List (Mat ℝ)) (hP : ∀ Q ∈ Ps, Q.rows = N ∧ Q.cols = N) :
    ∀ (l : Nat) (acc : Mat ℝ), acc.rows = N → acc.cols = N → ∃ M, weighted g l acc Ps = .ok M ∧ M.rows = N ∧ M.cols = N ∧
      ∀ i j, M.get i j = acc.get i j + ∑ k ∈ range Ps.length, g (l + k) * (Ps.getD k (Mat.zero 0 0)).get i j := by
  induction Ps with
  | nil => intro l acc h1 h2; exact ⟨acc, rfl, h1, h2, by simp⟩
  | cons Q Qs ih =>
    intro l acc h1 h2
    obtain ⟨q1, q2⟩ := hP Q (List.mem_cons_self ..)
    have ha : acc.add (Q.smul (g l)) = .ok ⟨acc.rows, acc.cols, fun i j => acc.get i j + (Q.smul (g l)).get i j⟩ := by
      unfold Mat.add Mat.smul
      rw [if_pos ⟨by simp [h1, q1], by simp [h2, q2]⟩]
    rw [weighted, ha, Res.ok_bind]
    obtain ⟨M, m1, m2, m3, m4⟩ := ih (fun R hR => hP R (List.mem_cons_of_mem _ hR)) (l + 1) ⟨acc.rows, acc.cols, fun i j => acc.get i j + (Q.smul (g l)).get i j⟩ h1 h2
    refine ⟨M, m1, m2, m3, fun i j => ?_⟩
    rw [m4, List.length_cons, sum_range_succ']
    simp only [Mat.smul, List.getD_cons_zero, List.getD_cons_succ, add_zero]
    rw [sum_congr rfl fun k _ => by rw [show l + 1 + k = l + (k + 1) by omega]]
    ring

/-- orbitals of angular momentum `l` -/
noncomputable def shellAt (shells : List Shell) (l : Nat) : Shell := shells.getD l ⟨Mat.zero 0 0, fun _ => 0⟩

theorem quad_shells (c a : Nat) (B : Mat ℝ) (v : List ℝ) (shells : List Shell) (g : Nat → ℝ)
    (hB : ∀ i < c, ∀ j < c, B.get i j = ∑ l ∈ range shells.length, g l * ∑ k ∈ range (shellAt shells l).C.cols, (shellAt shells l).C.get (a + i) k * (shellAt shells l).occ k * (shellAt shells l).C.get (a + j) k) :
    ∑ i ∈ range c, ∑ j ∈ range c, v.getD i 0 * B.get i j * v.getD j 0 =
      ∑ l ∈ range shells.length, g l * ∑ k ∈ range (shellAt shells l).C.cols, (shellAt shells l).occ k * (∑ i ∈ range c, v.getD i 0 * (shellAt shells l).C.get (a + i) k) ^ 2 := by
  have : ∀ i ∈ range c, ∀ j ∈ range c, v.getD i 0 * B.get i j * v.getD j 0 = ∑ l ∈ range shells.length, ∑ k ∈ range (shellAt shells l).C.cols,
      g l * ((shellAt shells l).occ k * ((v.getD i 0 * (shellAt shells l).C.get (a + i) k) * (v.getD j 0 * (shellAt shells l).C.get (a + j) k))) := by
    intro i hi j hj
    rw [hB i (mem_range.1 hi) j (mem_range.1 hj), mul_sum, sum_mul]
    refine sum_congr rfl fun l _ => ?_
    rw [mul_sum, mul_sum, sum_mul]
    exact sum_congr rfl fun k _ => by ring
  rw [sum_congr rfl fun i hi => sum_congr rfl fun j hj => this i hi j hj]
  rw [sum_congr rfl fun i _ => sum_comm, sum_comm]
  refine sum_congr rfl fun l _ => ?_
  rw [sum_congr rfl fun i _ => sum_comm, sum_comm, mul_sum]
  refine sum_congr rfl fun k _ => ?_
  rw [sq, sum_mul_sum, mul_sum, mul_sum]
  refine sum_congr rfl fun i _ => ?_
  rw [mul_sum, mul_sum]

/-- **C82, kinetic energy density.** For the density matrices of occupied shells `l = 0, 1, …` the array holds `½ Σ_l Σ_k n_{lk} (R'² + l(l+1) R²/r²)`: the cut at zero changes nothing.
The entry of the nucleus is zero. -/
theorem C82_tau (S : Setting f n ne zdl zfr zdr x0 bval o N first last φ rule P) (hmax : 2 ≤ maxN f) (ho : ∀ q ∈ rule, -1 < q.1)
    (shells : List Shell) (hsh : shells ≠ []) (hrow : ∀ s ∈ shells, s.C.rows = N) (hocc : ∀ s ∈ shells, ∀ k, 0 ≤ s.occ k) :
    kineticDensity ⟨o, x0, rule⟩ (shells.map shellDensity) = .ok (0 :: (List.range ne).flatMap fun e => rule.map fun q =>
      1 / 2 * ∑ l ∈ range shells.length, ∑ k ∈ range (shellAt shells l).C.cols, (shellAt shells l).occ k *
        (deriv (radialOrbital N φ (shellAt shells l).C k e) (coord bval e q.1) ^ 2 +
          l * (l + 1) * radialOrbital N φ (shellAt shells l).C k e (coord bval e q.1) ^ 2 / coord bval e q.1 ^ 2)) := by
  obtain ⟨s0, rest, rfl⟩ : ∃ s0 rest, shells = s0 :: rest := List.exists_cons_of_ne_nil hsh
  obtain ⟨sh, hsh'⟩ : ∃ sh, sh = s0 :: rest := ⟨_, rfl⟩
  have hr0 : readAt ((s0 :: rest).map shellDensity) 0 = .ok (shellDensity s0) := rfl
  have d0 : (shellDensity s0).rows = N ∧ (shellDensity s0).cols = N := ⟨hrow s0 (List.mem_cons_self ..), hrow s0 (List.mem_cons_self ..)⟩
  have dall : ∀ Q ∈ (s0 :: rest).map shellDensity, Q.rows = N ∧ Q.cols = N := by
    intro Q hQ
    obtain ⟨s, hs, rfl⟩ := List.mem_map.1 hQ
    exact ⟨hrow s hs, hrow s hs⟩
  unfold kineticDensity
  rw [hr0, Res.ok_bind, d0.1, d0.2]
  rw [← hsh'] at hrow hocc dall ⊢
  have get : ∀ l i j, l < sh.length → ((sh.map shellDensity).getD l (Mat.zero 0 0)).get i j =
      ∑ k ∈ range (shellAt sh l).C.cols, (shellAt sh l).C.get i k * (shellAt sh l).occ k * (shellAt sh l).C.get j k := by
    intro l i j hl
    simp [shellAt, List.getD_eq_getElem?_getD, hl, shellDensity]
  obtain ⟨M, m1, m2, m3, m4⟩ := weighted_eq N (fun _ => 1) _ dall 0 (Mat.zero N N) rfl rfl
  obtain ⟨L, l1, l2, l3, l4⟩ := weighted_eq N (fun l => ((l * (l + 1) : Nat) : ℝ)) _ dall 0 (Mat.zero N N) rfl rfl
  rw [m1, Res.ok_bind, l1, Res.ok_bind]
  have toS : ∀ Q : Mat ℝ, Q.rows = N → Q.cols = N → Setting f n ne zdl zfr zdr x0 bval o N first last φ rule Q := fun Q h1 h2 => { S with rows := h1, cols := h2 }
  refine onGrid_eq S _ _ _ (fun e x => 1 / 2 * ∑ l ∈ range sh.length, ∑ k ∈ range (shellAt sh l).C.cols, (shellAt sh l).occ k *
        (deriv (radialOrbital N φ (shellAt sh l).C k e) (coord bval e x) ^ 2 +
          l * (l + 1) * radialOrbital N φ (shellAt sh l).C k e (coord bval e x) ^ 2 / coord bval e x ^ 2)) rfl fun e he q hq => ?_
  have hpos : 0 < coord bval e q.1 := coord_pos_of S e he q.1 (ho q hq)
  obtain ⟨b, d, w, q1, q2, q3, q4, q5, q6, q7⟩ := rows S hmax e he q.1 (ho q hq).le hpos
  obtain ⟨B, b1, b2⟩ := (toS M m2 m3).block e he
  obtain ⟨D, d1, d2⟩ := (toS L l2 l3).block e he
  unfold tauAt
  have hg : getR ⟨o, x0, rule⟩ e q.1 = .ok (coord bval e q.1) := S.getR e he q.1
  rw [hg]
  simp only [Res.ok_bind]
  rw [show elementBlock o M e = .ok B from b1, Res.ok_bind, show elementBlock o L e = .ok D from d1, Res.ok_bind, q1, Res.ok_bind, q2, Res.ok_bind,
    contract_eq d d _ B ⟨b2.1, b2.2.1⟩ q5 q5, Res.ok_bind, contract_eq b b _ D ⟨d2.1, d2.2.1⟩ q4 q4, Res.ok_bind, Res.pure_eq]
  congr 1
  have len : (sh.map shellDensity).length = sh.length := List.length_map ..
  rw [quad_shells _ (first e) B d sh (fun _ => 1) fun i hi j hj => by
        rw [b2.2.2 i hi j hj, m4, len]
        rw [show (Mat.zero N N : Mat ℝ).get (first e + i) (first e + j) = 0 from rfl, zero_add]
        exact sum_congr rfl fun l hl => by try rw [zero_add]
                                           rw [get l _ _ (mem_range.1 hl)],
    quad_shells _ (first e) D b sh (fun l => ((l * (l + 1) : Nat) : ℝ)) fun i hi j hj => by
        rw [d2.2.2 i hi j hj, l4, len]
        rw [show (Mat.zero N N : Mat ℝ).get (first e + i) (first e + j) = 0 from rfl, zero_add]
        exact sum_congr rfl fun l hl => by try rw [zero_add]
                                           rw [get l _ _ (mem_range.1 hl)]]
  simp only [(q7 _ _).1, (q7 _ _).2.1, one_mul]
  have hs : ∀ l ∈ range sh.length, ∀ k, 0 ≤ (shellAt sh l).occ k := by
    intro l hl k
    have hl := mem_range.1 hl
    refine hocc (shellAt sh l) ?_ k
    simp [shellAt, List.getD_eq_getElem?_getD, hl]
  rw [max_eq_left]
  · rw [sum_div, ← sum_add_distrib]
    congr 1
    refine sum_congr rfl fun l _ => ?_
    rw [mul_sum, sum_div, ← sum_add_distrib]
    refine sum_congr rfl fun k _ => ?_
    push_cast
    ring
  · refine div_nonneg (sum_nonneg fun l hl => mul_nonneg (Nat.cast_nonneg _) (sum_nonneg fun k _ => mul_nonneg (hs l hl k) (sq_nonneg _))) (sq_nonneg _)

/-- places of the grid: the nucleus, then the points of the elements -/
def places (ne m : Nat) : List (Option (Nat × Nat)) := none :: (List.range ne).flatMap fun e => (List.range m).map fun i => some (e, i)

theorem places_map {α : Type _} (ne m : Nat) (a : α) (g : Nat → Nat → α) :
    a :: (List.range ne).flatMap (fun e => (List.range m).map (g e)) = (places ne m).map fun p => p.elim a fun p => g p.1 p.2 := by
  unfold places
  simp [List.map_flatMap, Function.comp_def]

theorem rule_map {α : Type _} (g : ℝ × ℝ → α) : rule.map g = (List.range rule.length).map fun i => g (rule.getD i (0, 0)) := by
  apply List.ext_getElem (by simp)
  intro i h1 h2
  have : i < rule.length := by simpa using h1
  simp [List.getD_eq_getElem?_getD, this]

theorem range_map {α β : Type _} (l : List α) (d : α) (F : α → β) : (List.range l.length).map (fun i => F (l.getD i d)) = l.map F := by
  apply List.ext_getElem (by simp)
  intro i h1 h2
  have : i < l.length := by simpa using h1
  simp [List.getD_eq_getElem?_getD, this]

theorem getD_map {α β : Type _} (l : List α) (d : α) (b : β) (F : α → β) (i : Nat) (hi : i < l.length) : (l.map F).getD i b = F (l.getD i d) := by
  simp [List.getD_eq_getElem?_getD, hi]

theorem places_sum (ne m : Nat) (a : ℝ) (g : Nat → Nat → ℝ) : ((places ne m).map fun p => p.elim a fun p => g p.1 p.2).sum = a + ∑ e ∈ range ne, ∑ i ∈ range m, g e i := by
  rw [← places_map, List.sum_cons, sum_grid]
  simp only [sum_map_range]

theorem point_eq (e i : Nat) : coord bval e (rule.getD i (0, 0)).1 = pt bval rule e i := by
  unfold pt coord
  by_cases h : i < rule.length
  · simp [List.getD_eq_getElem?_getD, h]
  · simp [List.getD_eq_getElem?_getD, h]

/-- weight of point `i` of element `e` -/
noncomputable def wt (bval : List ℝ) (rule : List (ℝ × ℝ)) (e i : Nat) : ℝ := (bval.getD (e + 1) 0 - bval.getD e 0) / 2 * (rule.getD i (0, 0)).2

theorem arrays (S : Setting f n ne zdl zfr zdr x0 bval o N first last φ rule P) (hP : ∀ i j, P.get i j = P.get j i) (hmax : 2 ≤ maxN f) (ho : ∀ q ∈ rule, -1 < q.1)
    (F : ℝ → ℝ) (hF : IsDistribution ne bval (rho N P.get φ) F) (ho1 : ∀ q ∈ rule, q.1 < 1) :
    quadratureWeights ⟨o, x0, rule⟩ = .ok ((places ne rule.length).map fun p => p.elim 0 fun p => wt bval rule p.1 p.2) ∧
    radii ⟨o, x0, rule⟩ = .ok ((places ne rule.length).map fun p => p.elim 0 fun p => pt bval rule p.1 p.2) ∧
    ∃ d, densityGrid ⟨o, x0, rule⟩ P false = .ok ((places ne rule.length).map fun p => p.elim d fun p => F (pt bval rule p.1 p.2) / pt bval rule p.1 p.2 ^ 2) := by
  obtain ⟨a1, ⟨d, _, a2, _⟩, _⟩ := C78_arrays S hP hmax ho
  refine ⟨?_, ?_, 4 * Real.pi * d, ?_⟩
  · rw [weights_eq S, ← places_map]
    simp only [rule_map (rule := rule)]
    rfl
  · rw [a1, ← places_map]
    simp only [rule_map (rule := rule), point_eq]
  · rw [a2, ← places_map ne rule.length (4 * Real.pi * d) fun e i => F (pt bval rule e i) / pt bval rule e i ^ 2]
    simp only [rule_map (rule := rule), point_eq]
    congr 2
    apply List.flatMap_congr
    intro e he
    apply List.map_congr_left
    intro i hi
    have he := List.mem_range.1 he
    have hi := List.mem_range.1 hi
    have hq : rule.getD i (0, 0) ∈ rule := by simp [List.getD_eq_getElem?_getD, hi]
    have hp := coord_pos_of S e he _ (ho _ hq)
    have b1 := S.coord_lt e he (-1) _ (ho _ hq)
    have b2 := S.coord_lt e he _ 1 (ho1 _ hq)
    rw [coord_left] at b1
    rw [coord_right] at b2
    rw [point_eq] at hp b1 b2
    rw [hF e he _ b1 b2]
    have := Real.pi_pos
    unfold profile
    field_simp

theorem panel_range (g : ℝ → ℝ) (e : Nat) : panel rule g (bval.getD e 0) (bval.getD (e + 1) 0) = ∑ i ∈ range rule.length, wt bval rule e i * g (pt bval rule e i) := by
  unfold panel
  rw [rule_map, sum_map_range, mul_sum]
  refine sum_congr rfl fun i _ => ?_
  rw [← point_eq]
  unfold wt
  rw [show coord bval e (rule.getD i (0, 0)).1 = (bval.getD e 0 + bval.getD (e + 1) 0) / 2 + (bval.getD (e + 1) 0 - bval.getD e 0) / 2 * (rule.getD i (0, 0)).1 by unfold coord; ring]
  ring

/-- **C82, charge.** The number of electrons printed for the table is the composite rule applied to the distribution, and the number of electrons when the rule is exact for products
of two basis functions. -/
theorem C82_charge (S : Setting f n ne zdl zfr zdr x0 bval o N first last φ rule P) (hP : ∀ i j, P.get i j = P.get j i) (hmax : 2 ≤ maxN f) (ho : Open rule)
    (F : ℝ → ℝ) (hF : IsDistribution ne bval (rho N P.get φ) F) :
    tableCharge ⟨o, x0, rule⟩ P = .ok (∑ e ∈ range ne, panel rule F (bval.getD e 0) (bval.getD (e + 1) 0)) ∧
    ∀ D, ExactTo rule D → 2 * ((PolyBasis.mk' f n).noverlap * n - 1) ≤ D → tableCharge ⟨o, x0, rule⟩ P = .ok (∫ s in (0 : ℝ)..(bval.getD ne 0), F s) := by
  obtain ⟨a1, a2, d, a3⟩ := arrays S hP hmax (fun q hq => (ho q hq).1) F hF fun q hq => (ho q hq).2
  have h : tableCharge ⟨o, x0, rule⟩ P = .ok (∑ e ∈ range ne, panel rule F (bval.getD e 0) (bval.getD (e + 1) 0)) := by
    unfold tableCharge
    rw [a1, Res.ok_bind, a2, Res.ok_bind, a3, Res.ok_bind, if_pos (by simp), Res.pure_eq]
    congr 1
    obtain ⟨G, hG⟩ : ∃ G : Option (Nat × Nat) → ℝ, G = fun p => p.elim 0 fun p => wt bval rule p.1 p.2 * F (pt bval rule p.1 p.2) := ⟨_, rfl⟩
    rw [List.length_map, List.map_congr_left (g := fun i => G ((places ne rule.length).getD i none)), range_map, hG, places_sum ne rule.length 0 fun e i => wt bval rule e i * F (pt bval rule e i), zero_add]
    · refine sum_congr rfl fun e he => ?_
      rw [panel_range]
    · intro i hi
      have hi := List.mem_range.1 hi
      simp only [getD_map _ none _ _ i hi, hG]
      have hm : (places ne rule.length).getD i none ∈ places ne rule.length := by simp [List.getD_eq_getElem?_getD, hi]
      generalize (places ne rule.length).getD i none = p at hm
      rcases p with _ | ⟨e, j⟩
      · simp
      · obtain ⟨he, hj⟩ : e < ne ∧ j < rule.length := by
          unfold places at hm
          simp only [List.mem_cons, reduceCtorEq, List.mem_flatMap, List.mem_map, List.mem_range, Option.some.injEq, Prod.mk.injEq, false_or] at hm
          obtain ⟨e', h1, i', h2, rfl, rfl⟩ := hm
          exact ⟨h1, h2⟩
        have hp := pt_pos S ho e he j hj
        simp only [Option.elim_some]
        field_simp
  refine ⟨h, fun D hD hdeg => ?_⟩
  rw [h, S.total F hF]
  congr 1
  refine sum_congr rfl fun e he => ?_
  have he := mem_range.1 he
  have hl := S.basis.len
  have hlt := getD_lt S.basis.inc e (by omega)
  have z := panel_poly (rule := rule) D hD _ ((rho_deg S.basis φ S.pieces P.get e he).trans hdeg) (bval.getD e 0) (bval.getD (e + 1) 0)
  unfold panelError at z
  rw [← sub_eq_zero.1 z]
  refine panel_congr _ _ _ _ _ fun q hq => ?_
  have := node_mem ho _ _ hlt q hq
  exact hF e he _ this.1 this.2

/-- **C82, Coulomb energy.** The Coulomb energy printed for the table is half the composite rule applied to the distribution over the radius times the screening charge of C81. -/
theorem C82_coulomb (S : Setting f n ne zdl zfr zdr x0 bval o N first last φ rule P) (hP : ∀ i j, P.get i j = P.get j i) (hmax : 2 ≤ maxN f) (ho : Open rule)
    (F : ℝ → ℝ) (hF : IsDistribution ne bval (rho N P.get φ) F) (rint : Int → Nat → Res (Mat ℝ)) (hr : IsRadialIntegral rint ne bval first last φ) :
    tableCoulomb rint ⟨o, x0, rule⟩ P = .ok (some (1 / 2 * ∑ e ∈ range ne, ∑ i ∈ range rule.length, (bval.getD (e + 1) 0 - bval.getD e 0) / 2 * (rule.getD i (0, 0)).2 *
      (F (pt bval rule e i) / pt bval rule e i * ((∫ s in (0 : ℝ)..(pt bval rule e i), F s) + pt bval rule e i * (∫ s in (pt bval rule e i)..(bval.getD ne 0), F s / s) +
        screeningError bval rule F e i)))) := by
  obtain ⟨a1, a2, d, a3⟩ := arrays S hP hmax (fun q hq => (ho q hq).1) F hF fun q hq => (ho q hq).2
  have a4 := C81_screening S F hF ho rint hr
  generalize hV : (fun e i => (∫ s in (0 : ℝ)..(pt bval rule e i), F s) + pt bval rule e i * (∫ s in (pt bval rule e i)..(bval.getD ne 0), F s / s) + screeningError bval rule F e i) = V at a4
  have hV' : ∀ e i, (∫ s in (0 : ℝ)..(pt bval rule e i), F s) + pt bval rule e i * (∫ s in (pt bval rule e i)..(bval.getD ne 0), F s / s) + screeningError bval rule F e i = V e i := by
    intro e i; rw [← hV]
  simp only [hV'] at a4 ⊢
  rw [places_map] at a4
  unfold tableCoulomb
  rw [a1, Res.ok_bind, a2, Res.ok_bind, a4, Res.ok_bind, a3, Res.ok_bind, if_pos (by simp), Res.pure_eq]
  congr 1
  obtain ⟨G, hG⟩ : ∃ G : Option (Nat × Nat) → ℝ, G = fun p => p.elim 0 fun p => 1 / 2 * (wt bval rule p.1 p.2 * (F (pt bval rule p.1 p.2) / pt bval rule p.1 p.2 * V p.1 p.2)) := ⟨_, rfl⟩
  rw [List.length_map, List.map_congr_left (g := fun i => some (G ((places ne rule.length).getD i none))), sumN_some, range_map, hG,
    places_sum ne rule.length 0 fun e i => 1 / 2 * (wt bval rule e i * (F (pt bval rule e i) / pt bval rule e i * V e i)), zero_add]
  · simp only [mul_sum]
    rfl
  · intro i hi
    have hi := List.mem_range.1 hi
    simp only [getD_map _ none _ _ i hi, hG]
    have hm : (places ne rule.length).getD i none ∈ places ne rule.length := by simp [List.getD_eq_getElem?_getD, hi]
    generalize (places ne rule.length).getD i none = p at hm
    rcases p with _ | ⟨e, j⟩
    · simp [mulN]
    · obtain ⟨he, hj⟩ : e < ne ∧ j < rule.length := by
        unfold places at hm
        simp only [List.mem_cons, reduceCtorEq, List.mem_flatMap, List.mem_map, List.mem_range, Option.some.injEq, Prod.mk.injEq, false_or] at hm
        obtain ⟨e', h1, i', h2, rfl, rfl⟩ := hm
        exact ⟨h1, h2⟩
      have hp := pt_pos S ho e he j hj
      simp only [Option.elim_some, mulN]
      congr 1
      field_simp

/-- **C81, effective charge.** The last column of the table is the nuclear charge less the two screening charges; at the nucleus it is the bare charge less the exchange-correlation part. -/
theorem C81_zeff (S : Setting f n ne zdl zfr zdr x0 bval o N first last φ rule P) (F : ℝ → ℝ) (hF : IsDistribution ne bval (rho N P.get φ) F) (ho : Open rule)
    (rint : Int → Nat → Res (Mat ℝ)) (hr : IsRadialIntegral rint ne bval first last φ) (Z : Int) (x : ℝ) (vx : Nat → Nat → ℝ) :
    (do let v ← coulombScreening rint ⟨o, x0, rule⟩ P
        tableZeff Z v (x :: (List.range ne).flatMap fun e => (List.range rule.length).map (vx e))) =
      .ok (some (Z - x) :: (List.range ne).flatMap fun e => (List.range rule.length).map fun i => some (Z - ((∫ s in (0 : ℝ)..(pt bval rule e i), F s) +
        pt bval rule e i * (∫ s in (pt bval rule e i)..(bval.getD ne 0), F s / s) + screeningError bval rule F e i) - vx e i)) := by
  rw [C81_screening S F hF ho rint hr, Res.ok_bind]
  simp only [places_map]
  unfold tableZeff
  rw [if_pos (by simp), List.zipWith_map, List.zipWith_self]
  congr 1
  apply List.map_congr_left
  intro p _
  rcases p with _ | ⟨e, i⟩ <;> simp only [Option.elim_none, Option.elim_some, addN, mulN] <;> congr 1 <;> ring

/-! ## Examples

The two-element basis of C42: `F = 4π r²` inside 1 and `π (3 - r)²` from 1 to 3, one basis function, one orbital. -/

/-- exact up to degree 3, with a negative weight -/
noncomputable def openRule : List (ℝ × ℝ) := [(-(1 / 2), 4 / 3), (0, -(2 / 3)), (1 / 2, 4 / 3)]

theorem openRule_open : Open openRule := by
  intro q hq
  simp only [openRule, List.mem_cons, List.not_mem_nil, or_false] at hq
  rcases hq with rfl | rfl | rfl <;> norm_num

theorem openRule_points : GoodPoints (openRule.map Prod.fst) := by
  refine ⟨by norm_num [openRule], ?_, by simp [openRule]⟩
  intro t ht
  simp only [openRule, List.map_cons, List.map_nil, List.mem_cons, List.not_mem_nil, or_false] at ht
  rcases ht with rfl | rfl | rfl <;> norm_num

theorem openRule_exact : ExactTo openRule 2 := by
  intro p hp
  have e : ∀ x, p.eval x = ∑ i ∈ range 3, p.coeff i * x ^ i := fun x => by rw [eval_eq_sum_range' (by omega : p.natDegree < 3)]
  simp only [openRule, e, sum_range_succ, range_zero, sum_empty, List.map_cons, List.map_nil, List.sum_cons, List.sum_nil]
  have c : ∀ k : Nat, IntervalIntegrable (fun x : ℝ => p.coeff k * x ^ k) MeasureTheory.volume (-1) 1 := fun k => by
    apply Continuous.intervalIntegrable; fun_prop
  have ii : ∀ k : Nat, ∫ x in (-1 : ℝ)..1, p.coeff k * x ^ k = p.coeff k * ((1 ^ (k + 1) - (-1) ^ (k + 1)) / (k + 1)) := fun k => by
    rw [intervalIntegral.integral_const_mul, integral_pow]
  rw [intervalIntegral.integral_add (by apply Continuous.intervalIntegrable; fun_prop) (c 2),
    intervalIntegral.integral_add (by apply Continuous.intervalIntegrable; fun_prop) (c 1), ii 2, ii 1]
  simp only [zero_add]
  rw [ii 0]
  norm_num
  ring

noncomputable def exampleInts (bval : List ℝ) (φ : Nat → Nat → ℝ[X]) (k : Int) (e : Nat) : Res (Mat ℝ) :=
  .ok ⟨1, 1, fun i j => if k = 0 then ∫ s in (bval.getD e 0)..(bval.getD (e + 1) 0), (φ e i).eval s * (φ e j).eval s else ∫ s in (bval.getD e 0)..(bval.getD (e + 1) 0), (φ e i).eval s * (φ e j).eval s / s⟩

theorem exampleInts_ok (bval : List ℝ) (φ : Nat → Nat → ℝ[X]) : IsRadialIntegral (exampleInts bval φ) 2 bval (fun _ => 0) (fun _ => 0) φ :=
  ⟨fun e _ => ⟨_, rfl, rfl, rfl, fun i _ j _ => by simp⟩, fun e _ => ⟨_, rfl, rfl, rfl, fun i _ j _ => by simp⟩⟩

/-- C81 with a rule of two points, and the sign -/
example : ∃ (o : FEObj ℝ) (rint : Int → Nat → Res (Mat ℝ)) (l : List (Option ℝ)), coulombScreening rint ⟨o, fun k => 2 * (k : ℝ) - 1, [(-(1 / 2), 1), (1 / 2, 1)]⟩ exampleP = .ok l ∧ l.length = 5 ∧
    (∀ v ∈ l, ∃ x : ℝ, 0 ≤ x ∧ v = some x) ∧ l.getD 0 none = some 0 := by
  obtain ⟨o, φ, S, hd, e0, e1⟩ := setting_example _ points_two
  have ho : Open ([(-(1 / 2), 1), (1 / 2, 1)] : List (ℝ × ℝ)) := by
    intro q hq
    simp only [List.mem_cons, List.not_mem_nil, or_false] at hq
    rcases hq with rfl | rfl <;> norm_num
  obtain ⟨l, h1, h2, h3⟩ := C81_nonneg S exampleF (exampleF_dist φ e0 e1) ho (by intro q hq; simp only [List.mem_cons, List.not_mem_nil, or_false] at hq; rcases hq with rfl | rfl <;> norm_num)
    (fun s => by have := Real.pi_pos; unfold exampleF; split <;> positivity) _ (exampleInts_ok _ φ)
  refine ⟨o, _, l, h1, by rw [h2]; rfl, h3, ?_⟩
  have := C81_screening S exampleF (exampleF_dist φ e0 e1) ho _ (exampleInts_ok _ φ)
  rw [h1] at this
  rw [Res.ok.inj this]
  rfl

/-- C81 with an exact rule: at `r = 1/2`, the second point of the first element -/
example : ∃ (o : FEObj ℝ) (rint : Int → Nat → Res (Mat ℝ)) (l : List (Option ℝ)), coulombScreening rint ⟨o, fun k => 2 * (k : ℝ) - 1, openRule⟩ exampleP = .ok l ∧
    l.getD 2 none = some ((∫ s in (0 : ℝ)..(1 / 2), exampleF s) + 1 / 2 * ∫ s in (1 / 2 : ℝ)..3, exampleF s / s) := by
  obtain ⟨o, φ, S, hd, e0, e1⟩ := setting_example _ openRule_points
  have hF := exampleF_dist φ e0 e1
  refine ⟨o, _, _, C81_screening S exampleF hF openRule_open _ (exampleInts_ok _ φ), ?_⟩
  have h := (C81_exact S exampleF hF openRule_open 2 openRule_exact (by decide) 0 (by omega) 1 (by simp [openRule])).2 rfl
  have hp : pt [0, 1, 3] openRule 0 1 = 1 / 2 := by unfold pt; rw [coord_zero]; simp [openRule]
  have hl : openRule.length = 3 := rfl
  rw [hl, show List.range 2 = [0, 1] from rfl, show List.range 3 = [0, 1, 2] from rfl]
  simp only [List.flatMap_cons, List.map_cons, List.map_nil, List.cons_append, List.getD_cons_succ, List.getD_cons_zero]
  rw [h, hp]
  simp

/-- C81: with no exchange-correlation potential a charge 12 is bare at the nucleus, and screened by `π/6 + ½ ∫ F/s` at `r = 1/2` -/
example : ∃ (o : FEObj ℝ) (rint : Int → Nat → Res (Mat ℝ)) (l : List (Option ℝ)), (coulombScreening rint ⟨o, fun k => 2 * (k : ℝ) - 1, openRule⟩ exampleP >>= fun v => tableZeff 12 v [0, 0, 0, 0, 0, 0, 0]) = .ok l ∧
    l.getD 0 none = some 12 ∧ l.getD 2 none = some (12 - ((∫ s in (0 : ℝ)..(1 / 2), exampleF s) + 1 / 2 * ∫ s in (1 / 2 : ℝ)..3, exampleF s / s)) := by
  obtain ⟨o, φ, S, hd, e0, e1⟩ := setting_example _ openRule_points
  have hF := exampleF_dist φ e0 e1
  refine ⟨o, _, _, C81_zeff S exampleF hF openRule_open _ (exampleInts_ok _ φ) 12 0 fun _ _ => 0, by simp, ?_⟩
  have h := (C81_exact S exampleF hF openRule_open 2 openRule_exact (by decide) 0 (by omega) 1 (by simp [openRule])).2 rfl
  have hp : pt [0, 1, 3] openRule 0 1 = 1 / 2 := by unfold pt; rw [coord_zero]; simp [openRule]
  have hl : openRule.length = 3 := rfl
  rw [hl, show List.range 2 = [0, 1] from rfl, show List.range 3 = [0, 1, 2] from rfl]
  simp only [List.flatMap_cons, List.map_cons, List.map_nil, List.cons_append, List.getD_cons_succ, List.getD_cons_zero]
  rw [h, hp]
  simp

/-- C82: the charge in the table is the number of electrons, `4π` for this matrix -/
example : ∃ o : FEObj ℝ, tableCharge ⟨o, fun k => 2 * (k : ℝ) - 1, openRule⟩ exampleP = .ok (4 * Real.pi) := by
  obtain ⟨o, φ, S, hd, e0, e1⟩ := setting_example _ openRule_points
  have h := (C82_charge S (fun _ _ => rfl) (by decide) openRule_open exampleF (exampleF_dist φ e0 e1)).1
  refine ⟨o, h.trans ?_⟩
  congr 1
  simp only [sum_range_succ, range_zero, sum_empty, panel, openRule, List.map_cons, List.map_nil, List.sum_cons, List.sum_nil, exampleF]
  norm_num
  ring

/-- C82: the Coulomb energy of the table -/
example : ∃ (o : FEObj ℝ) (rint : Int → Nat → Res (Mat ℝ)) (E : ℝ), tableCoulomb rint ⟨o, fun k => 2 * (k : ℝ) - 1, openRule⟩ exampleP = .ok (some E) := by
  obtain ⟨o, φ, S, hd, e0, e1⟩ := setting_example _ openRule_points
  exact ⟨o, _, _, C82_coulomb S (fun _ _ => rfl) (by decide) openRule_open exampleF (exampleF_dist φ e0 e1) _ (exampleInts_ok _ φ)⟩

/-- C82: two electrons in the p orbital `X` inside 1, no s electrons: `2/r²` at the three points inside 1, and a value outside -/
example : ∃ (o : FEObj ℝ) (t : List ℝ), kineticDensity ⟨o, fun k => 2 * (k : ℝ) - 1, openRule⟩ (List.map shellDensity [⟨⟨1, 0, fun _ _ => 0⟩, fun _ => 0⟩, exampleShell]) = .ok t ∧
    t.length = 7 ∧ t.getD 0 0 = 0 ∧ t.getD 2 0 = 8 ∧ t.getD 5 0 = 11 / 64 := by
  obtain ⟨o, φ, S, hd, e0, e1⟩ := setting_example _ openRule_points
  have hl : openRule.length = 3 := rfl
  refine ⟨o, _, C82_tau S (by decide) (fun q hq => (openRule_open q hq).1) [⟨⟨1, 0, fun _ _ => 0⟩, fun _ => 0⟩, exampleShell] (by simp) (by simp [exampleShell]) (by
    intro s hs k
    simp only [List.mem_cons, List.not_mem_nil, or_false] at hs
    rcases hs with rfl | rfl <;> simp [exampleShell]), by simp [hl], rfl, ?_, ?_⟩
  · rw [show List.range 2 = [0, 1] from rfl]
    simp only [openRule, List.flatMap_cons, List.map_cons, List.map_nil, List.cons_append, List.getD_cons_succ, List.getD_cons_zero, coord_zero, List.length_cons, List.length_nil]
    have hu : upoly 1 φ exampleShell.C 0 0 = X := by simp [upoly, exampleShell, e0]
    obtain ⟨d1, _⟩ := over_deriv (upoly 1 φ exampleShell.C 0 0) ((1 + 0) / 2) (by norm_num)
    have g : radialOrbital 1 φ exampleShell.C 0 0 = fun s => (upoly 1 φ exampleShell.C 0 0).eval s / s := rfl
    simp only [sum_range_succ, range_zero, sum_empty, shellAt, List.getD_cons_succ, List.getD_cons_zero]
    rw [show exampleShell.C.cols = 1 from rfl, sum_range_one, add_zero, g, d1, hu]
    simp [exampleShell]
    norm_num
  · rw [show List.range 2 = [0, 1] from rfl]
    simp only [openRule, List.flatMap_cons, List.map_cons, List.map_nil, List.cons_append, List.nil_append, List.getD_cons_succ, List.getD_cons_zero, coord_one, List.length_cons, List.length_nil]
    have hu : upoly 1 φ exampleShell.C 0 1 = C (1 / 2) * (C 3 - X) := by simp [upoly, exampleShell, e1]
    obtain ⟨d1, _⟩ := over_deriv (upoly 1 φ exampleShell.C 0 1) (2 + 0) (by norm_num)
    have g : radialOrbital 1 φ exampleShell.C 0 1 = fun s => (upoly 1 φ exampleShell.C 0 1).eval s / s := rfl
    simp only [sum_range_succ, range_zero, sum_empty, shellAt, List.getD_cons_succ, List.getD_cons_zero]
    rw [show exampleShell.C.cols = 1 from rfl, sum_range_one, add_zero, g, d1, hu]
    simp [exampleShell]
    norm_num

/-- C82: the orbital at the nucleus and on the grid -/
example : ∃ (o : FEObj ℝ) (u v w : List (List ℝ)), orbitals ⟨o, fun k => 2 * (k : ℝ) - 1, openRule⟩ exampleShell.C = .ok u ∧ orbitalsDerivative ⟨o, fun k => 2 * (k : ℝ) - 1, openRule⟩ exampleShell.C = .ok v ∧
    orbitalsSecond ⟨o, fun k => 2 * (k : ℝ) - 1, openRule⟩ exampleShell.C = .ok w ∧ u.length = 7 ∧ u.getD 0 [] = [1] := by
  obtain ⟨o, φ, S, hd, e0, e1⟩ := setting_example _ openRule_points
  obtain ⟨⟨lim, h1, h2⟩, h3, h4⟩ := C82_orbitals (C0 := exampleShell.C) S (by decide) (fun q hq => (openRule_open q hq).1) rfl
  refine ⟨o, _, _, _, h1, h3, h4, by simp [openRule], ?_⟩
  have hu : upoly 1 φ exampleShell.C 0 0 = X := by simp [upoly, exampleShell, e0]
  have : lim 0 = 1 := by
    refine tendsto_nhds_unique (h2 0) (Filter.Tendsto.congr' ?_ tendsto_const_nhds)
    filter_upwards [self_mem_nhdsWithin] with s hs
    unfold radialOrbital
    rw [hu, eval_X, div_self (ne_of_gt hs)]
  rw [List.getD_cons_zero, show exampleShell.C.cols = 1 from rfl]
  simp [this]

/-- C82: the weights of the composite rule -/
example : ∃ (o : FEObj ℝ) (w r : List ℝ), quadratureWeights ⟨o, fun k => 2 * (k : ℝ) - 1, openRule⟩ = .ok w ∧ radii ⟨o, fun k => 2 * (k : ℝ) - 1, openRule⟩ = .ok r ∧
    (List.zipWith (fun w r => w * r ^ 2) w r).sum = 9 := by
  obtain ⟨o, φ, S, hd, e0, e1⟩ := setting_example _ openRule_points
  obtain ⟨w, r, h1, h2, _, _, _, h3⟩ := C82_weights S fun r => r ^ 2
  refine ⟨o, w, r, h1, h2, h3.trans ?_⟩
  simp only [sum_range_succ, range_zero, sum_empty, panel, openRule, List.map_cons, List.map_nil, List.sum_cons, List.sum_nil]
  norm_num

/-- C81: the closed Simpson rule has a point at the nucleus -/
example : ∃ (o : FEObj ℝ) (rint : Int → Nat → Res (Mat ℝ)), ∀ l, coulombScreening rint ⟨o, fun k => 2 * (k : ℝ) - 1, [(-1, 1 / 3), (0, 4 / 3), (1, 1 / 3)]⟩ exampleP = .ok l → l[2]? = some none := by
  obtain ⟨o, φ, S, hd, e0, e1⟩ := setting_example _ points_three
  exact ⟨o, _, fun l hl => C81_point_at_the_nucleus S _ (exampleInts_ok _ φ) rfl l hl 1 (by simp)⟩

end SadGrid
end HelFEM
