import Verif.Lemmas.Screening

/-!
# C77, C78: densities on the grid and the exchange-correlation screening

The basis is any finite element basis that starts at the nucleus, `P`, `Pa`, `Pb` are any symmetric density matrices of its size. On element `e` the density is the function
`profile N P.get φ e`: the radial distribution over `4πr²`.
-/

namespace HelFEM
namespace Screening
open Grid Poly Finset Polynomial Spec Assembly AtomDB Radii Filter Topology

/-- the electron density on element `e` -/
noncomputable def profile (N : Nat) (P : Nat → Nat → ℝ) (φ : Nat → Nat → ℝ[X]) (e : Nat) (r : ℝ) : ℝ := (rho N P φ e).eval r / (4 * Real.pi * r ^ 2)

section
variable {f : Family} {n ne : Nat} {zdl zfr zdr : Bool} {x0 : Nat → ℝ} {bval : List ℝ} {o : FEObj ℝ} {N : Nat} {first last : Nat → Nat}
  {φ : Nat → Nat → ℝ[X]} {rule : List (ℝ × ℝ)} {P Pa Pb : Mat ℝ}

theorem profile_deriv (p : ℝ[X]) (r : ℝ) (hr : 0 < r) : HasDerivAt (fun s => p.eval s / (4 * Real.pi * s ^ 2)) (((derivative p).eval r / r ^ 2 - 2 * p.eval r / r ^ 3) / (4 * Real.pi)) r ∧
    HasDerivAt (fun s => ((derivative p).eval s / s ^ 2 - 2 * p.eval s / s ^ 3) / (4 * Real.pi))
        (((derivative (derivative p)).eval r / r ^ 2 - 4 * (derivative p).eval r / r ^ 3 + 6 * p.eval r / r ^ 4) / (4 * Real.pi)) r := by
  have hpi := Real.pi_pos
  have hpow : ∀ k : Nat, HasDerivAt (fun s : ℝ => s ^ k) (k * r ^ (k - 1)) r := fun k => hasDerivAt_pow k r
  constructor
  · have := ((p.hasDerivAt r).div (hpow 2) (by positivity)).div_const (4 * Real.pi)
    have e : (fun s => p.eval s / (4 * Real.pi * s ^ 2)) = fun s => p.eval s / s ^ 2 / (4 * Real.pi) := by
      funext s; rw [div_div, mul_comm (s ^ 2)]
    rw [e]
    refine HasDerivAt.congr_deriv (f := fun s => p.eval s / s ^ 2 / (4 * Real.pi)) this ?_
    congr 1
    field_simp
    norm_num
    ring
  · have := ((((derivative p).hasDerivAt r).div (hpow 2) (by positivity)).sub (((p.hasDerivAt r).const_mul 2).div (hpow 3) (by positivity))).div_const (4 * Real.pi)
    refine HasDerivAt.congr_deriv (f := fun s => ((derivative p).eval s / s ^ 2 - 2 * p.eval s / s ^ 3) / (4 * Real.pi)) this ?_
    congr 1
    field_simp
    norm_num
    ring

/-- the density and its first two derivatives -/
theorem profile_facts (N : Nat) (P : Nat → Nat → ℝ) (φ : Nat → Nat → ℝ[X]) (e : Nat) (r : ℝ) (hr : 0 < r) :
    let p := rho N P φ e
    DifferentiableAt ℝ (profile N P φ e) r ∧ DifferentiableAt ℝ (deriv (profile N P φ e)) r ∧
    4 * Real.pi * deriv (profile N P φ e) r = (derivative p).eval r / r ^ 2 - 2 * p.eval r / r ^ 3 ∧
    4 * Real.pi * deriv (deriv (profile N P φ e)) r = (derivative (derivative p)).eval r / r ^ 2 - 4 * (derivative p).eval r / r ^ 3 + 6 * p.eval r / r ^ 4 := by
  intro p
  have hpi := Real.pi_pos
  obtain ⟨h1, h2⟩ := profile_deriv p r hr
  have h3 : HasDerivAt (deriv (profile N P φ e)) (((derivative (derivative p)).eval r / r ^ 2 - 4 * (derivative p).eval r / r ^ 3 + 6 * p.eval r / r ^ 4) / (4 * Real.pi)) r := by
    refine h2.congr_of_eventuallyEq ?_
    filter_upwards [Ioi_mem_nhds hr] with s hs
    exact (profile_deriv p s hs).1.deriv
  refine ⟨h1.differentiableAt, h3.differentiableAt, ?_, ?_⟩
  · have : deriv (profile N P φ e) r = _ := h1.deriv
    rw [this]; field_simp
  · rw [h3.deriv]; field_simp

theorem rho_eval_symm (S : Setting f n ne zdl zfr zdr x0 bval o N first last φ rule P) (hP : ∀ i j, P.get i j = P.get j i) (e : Nat) (he : e < ne) (r : ℝ) :
    let c := last e + 1 - first e
    let Q := fun i j => P.get (first e + i) (first e + j)
    let v := fun i => (φ e (first e + i)).eval r
    let v' := fun i => (derivative (φ e (first e + i))).eval r
    let v'' := fun i => (derivative (derivative (φ e (first e + i)))).eval r
    (rho N P.get φ e).eval r = ∑ i ∈ range c, ∑ j ∈ range c, Q i j * v i * v j ∧
    (derivative (rho N P.get φ e)).eval r = 2 * ∑ i ∈ range c, ∑ j ∈ range c, Q i j * v i * v' j ∧
    (derivative (derivative (rho N P.get φ e))).eval r = 2 * ∑ i ∈ range c, ∑ j ∈ range c, Q i j * (v' i * v' j + v i * v'' j) := by
  intro c Q v v' v''
  have swap : ∀ F : Nat → Nat → ℝ, ∑ i ∈ range c, ∑ j ∈ range c, Q i j * F i j = ∑ i ∈ range c, ∑ j ∈ range c, Q i j * F j i := by
    intro F
    rw [sum_comm]
    refine sum_congr rfl fun i _ => sum_congr rfl fun j _ => ?_
    rw [show Q j i = Q i j from hP _ _]
  rw [rho_window S.basis φ S.pieces P.get e he]
  refine ⟨?_, ?_, ?_⟩
  · simp only [eval_finsetSum, eval_mul, eval_C]
    refine sum_congr rfl fun i _ => sum_congr rfl fun j _ => ?_
    simp only [Q, v]; ring
  · simp only [derivative_sum, derivative_mul, derivative_C, zero_mul, zero_add, eval_finsetSum, eval_mul, eval_C, eval_add]
    have := swap fun i j => v' i * v j
    have e1 : ∑ i ∈ range c, ∑ j ∈ range c, Q i j * v i * v' j = ∑ i ∈ range c, ∑ j ∈ range c, Q i j * (v' j * v i) :=
      sum_congr rfl fun i _ => sum_congr rfl fun j _ => by ring
    rw [two_mul, e1]
    nth_rw 1 [← this]
    simp only [← sum_add_distrib]
    refine sum_congr rfl fun i _ => sum_congr rfl fun j _ => ?_
    simp only [Q, v, v']; ring
  · simp only [derivative_sum, derivative_mul, derivative_C, zero_mul, zero_add, derivative_add, eval_finsetSum, eval_mul, eval_C, eval_add]
    have := swap fun i j => v'' i * v j
    have e1 : ∑ i ∈ range c, ∑ j ∈ range c, Q i j * (v' i * v' j + v i * v'' j) = ∑ i ∈ range c, ∑ j ∈ range c, Q i j * (v' i * v' j) + ∑ i ∈ range c, ∑ j ∈ range c, Q i j * (v'' j * v i) := by
      simp only [← sum_add_distrib]
      exact sum_congr rfl fun i _ => sum_congr rfl fun j _ => by ring
    rw [two_mul, e1]
    nth_rw 1 [← this]
    simp only [← sum_add_distrib]
    refine sum_congr rfl fun i _ => sum_congr rfl fun j _ => ?_
    simp only [Q, v, v', v'']; ring

/-- a rule that integrates everything needed, so that facts about free atoms apply -/
theorem toSetup (S : Setting f n ne zdl zfr zdr x0 bval o N first last φ rule P) : ∃ rule', Setup f n ne zdl zfr zdr x0 bval o N first last φ rule' [] := by
  obtain ⟨lob, hlob⟩ := lobatto_exists
  obtain ⟨D, hD⟩ : ∃ D, D = 2 * ((PolyBasis.mk' f n).noverlap * n - 1) := ⟨_, rfl⟩
  obtain ⟨h1, h2⟩ := hlob (D + 2) (by omega)
  refine ⟨lob (D + 2), S.basis, S.pieces, S.origin, S.inner, ⟨?_, h2⟩, by simp⟩
  intro p hp
  exact h1 p (hp.trans (by omega))

/-- C78: the density, its gradient and its Laplacian at a point of the grid are those of one function. -/
theorem C78_grid_point (S : Setting f n ne zdl zfr zdr x0 bval o N first last φ rule P) (hP : ∀ i j, P.get i j = P.get j i) (hmax : 2 ≤ maxN f) (e : Nat) (he : e < ne) (x : ℝ) (hx : -1 ≤ x)
    (hr : 0 < coord bval e x) :
    let r := coord bval e x
    let ρ := profile N P.get φ e
    electronDensity ⟨o, x0, rule⟩ P false e x = .ok (4 * Real.pi * ρ r) ∧
    electronDensity ⟨o, x0, rule⟩ P true e x = .ok (4 * Real.pi * ρ r * r ^ 2) ∧
    gradientAt ⟨o, x0, rule⟩ P e x = .ok (4 * Real.pi * deriv ρ r) ∧
    laplacianAt ⟨o, x0, rule⟩ P e x = .ok (4 * Real.pi * (deriv (deriv ρ) r + 2 / r * deriv ρ r)) := by
  intro r ρ
  have hpi := Real.pi_pos
  have hrn : r ≠ 0 := ne_of_gt hr
  obtain ⟨g, g1, g2⟩ := S.density e he
  obtain ⟨d1, d2, d3⟩ := g2 x
  have hg : g x = 4 * Real.pi * ρ r := by
    have := d3 hx
    simp only [ρ, profile, r]
    rw [← this]
    field_simp
  obtain ⟨rule', S'⟩ := toSetup S
  obtain ⟨b, d, l, q1, q2, q3, q4, q5, q6, q7⟩ := getDf_eq S' hmax e he x hx hr
  have q1 : getBf ⟨o, x0, rule⟩ x e = .ok b := q1
  have q2 : getDf ⟨o, x0, rule⟩ x e = .ok d := q2
  have q3 : getLf ⟨o, x0, rule⟩ x e = .ok l := q3
  change ∀ i < last e + 1 - first e, r * b.getD i 0 = (φ e (first e + i)).eval r ∧ b.getD i 0 + r * d.getD i 0 = (derivative (φ e (first e + i))).eval r ∧
        2 * d.getD i 0 + r * l.getD i 0 = (derivative (derivative (φ e (first e + i)))).eval r at q7
  obtain ⟨B, b1, hB⟩ := S.block e he
  obtain ⟨R1, R2, R3⟩ := rho_eval_symm S hP e he r
  obtain ⟨p, hp⟩ : ∃ p, p = rho N P.get φ e := ⟨_, rfl⟩
  obtain ⟨_, _, f1, f2⟩ := profile_facts N P.get φ e r hr
  rw [← hp] at R1 R2 R3 f1 f2
  have sums : ∀ (F G : Nat → Nat → ℝ), (∀ i < last e + 1 - first e, ∀ j < last e + 1 - first e, F i j = G i j) →
      ∑ i ∈ range (last e + 1 - first e), ∑ j ∈ range (last e + 1 - first e), F i j = ∑ i ∈ range (last e + 1 - first e), ∑ j ∈ range (last e + 1 - first e), G i j :=
    fun F G h => sum_congr rfl fun i hi => sum_congr rfl fun j hj => h i (mem_range.1 hi) j (mem_range.1 hj)
  have cbd : contract b B d = .ok (((derivative p).eval r / r ^ 2 - 2 * p.eval r / r ^ 3) / 2) := by
    rw [contract_eq b d _ B ⟨hB.1, hB.2.1⟩ q4 q5, R1, R2]
    congr 1
    rw [eq_div_iff two_ne_zero, eq_sub_iff_add_eq, mul_div_assoc, mul_div_assoc, sum_div, sum_div, sum_mul]
    simp only [sum_div, sum_mul, mul_sum, ← sum_add_distrib]
    refine sums _ _ fun i hi j hj => ?_
    obtain ⟨bi, di, _⟩ := q7 i hi
    obtain ⟨bj, dj, _⟩ := q7 j hj
    rw [hB.2.2 i hi j hj, ← bi, ← bj, ← dj]
    field_simp
    ring
  have csum : ∃ y z, contract d B d = .ok y ∧ contract b B l = .ok z ∧
      2 * (y + z) = (derivative (derivative p)).eval r / r ^ 2 - 4 * (derivative p).eval r / r ^ 3 + 6 * p.eval r / r ^ 4 := by
    refine ⟨_, _, contract_eq d d _ B ⟨hB.1, hB.2.1⟩ q5 q5, contract_eq b l _ B ⟨hB.1, hB.2.1⟩ q4 q6, ?_⟩
    rw [R1, R2, R3]
    have e2 : ∀ A1 A2 A3 : ℝ, 2 * A1 / r ^ 2 - 4 * (2 * A2) / r ^ 3 + 6 * A3 / r ^ 4 = A1 * (2 / r ^ 2) + A2 * (-8 / r ^ 3) + A3 * (6 / r ^ 4) := by intros; ring
    have hsym : ∑ i ∈ range (last e + 1 - first e), ∑ j ∈ range (last e + 1 - first e), 2 / r * (d.getD i 0 * B.get i j * b.getD j 0) =
        ∑ i ∈ range (last e + 1 - first e), ∑ j ∈ range (last e + 1 - first e), 2 / r * (b.getD i 0 * B.get i j * d.getD j 0) := by
      rw [sum_comm]
      refine sums _ _ fun i hi j hj => ?_
      rw [hB.2.2 i hi j hj, hB.2.2 j hj i hi, hP]
      ring
    rw [e2]
    refine add_right_cancel (b := ∑ i ∈ range (last e + 1 - first e), ∑ j ∈ range (last e + 1 - first e), 2 / r * (d.getD i 0 * B.get i j * b.getD j 0)) ?_
    nth_rw 2 [hsym]
    simp only [sum_mul, mul_sum, mul_add, ← sum_add_distrib]
    refine sums _ _ fun i hi j hj => ?_
    obtain ⟨bi, di, li⟩ := q7 i hi
    obtain ⟨bj, dj, lj⟩ := q7 j hj
    rw [hB.2.2 i hi j hj, ← bi, ← bj, ← di, ← dj, ← lj]
    field_simp
    ring
  obtain ⟨y, z, cdd, cbl, hyz⟩ := csum
  refine ⟨by rw [d1, hg], by rw [d2, hg], ?_, ?_⟩
  · unfold gradientAt
    simp only [b1, q1, q2, cbd, Res.ok_bind, Res.pure_eq]
    rw [f1]
    congr 1
    ring
  · unfold laplacianAt
    simp only [b1, q1, q2, q3, cdd, cbl, cbd, S.getR e he x, Res.ok_bind, Res.pure_eq]
    congr 1
    have e1 : 4 * Real.pi * (deriv (deriv ρ) r + 2 / r * deriv ρ r) = 4 * Real.pi * deriv (deriv ρ) r + 2 / r * (4 * Real.pi * deriv ρ r) := by ring
    rw [e1, f2, f1, hyz]
    ring

/-! ### The nucleus -/

theorem nucleus_rows (S : Setting f n ne zdl zfr zdr x0 bval o N first last φ rule P) (hmax : 2 ≤ maxN f) :
    ∃ d l B, feEvalDnf o.shape o.bval x0 (-1) 1 0 = .ok d ∧ feEvalDnf o.shape o.bval x0 (-1) 2 0 = .ok l ∧ elementBlock o P 0 = .ok B ∧
      IsBlock P.get (first 0) (last 0 + 1 - first 0) B ∧ d.length = last 0 + 1 - first 0 ∧ l.length = last 0 + 1 - first 0 ∧
      ∃ R : Nat → ℝ[X], ∀ i < last 0 + 1 - first 0, φ 0 (first 0 + i) = X * R i ∧ d.getD i 0 = (R i).eval 0 ∧ l.getD i 0 = 2 * (derivative (R i)).eval 0 := by
  have hne := S.basis.nelem
  obtain ⟨B, b1, hB⟩ := S.block 0 (by omega)
  obtain ⟨R, r1, _⟩ := rowOver S.basis φ S.pieces S.origin S.inner
  obtain ⟨v, v1, v2, v3⟩ := row S.basis φ S.pieces 0 (by omega) 1 (by omega) (-1)
  obtain ⟨w, w1, w2, w3⟩ := row S.basis φ S.pieces 0 (by omega) 2 (by omega) (-1)
  have v1 : feEvalDnf o.shape o.bval x0 (-1) 1 0 = .ok v := v1
  have w1 : feEvalDnf o.shape o.bval x0 (-1) 2 0 = .ok w := w1
  refine ⟨v, w, B, v1, w1, b1, hB, v2, w2, R, fun i hi => ?_⟩
  have hc : coord bval 0 (-1) = 0 := by rw [coord_left, S.origin]
  refine ⟨r1 i hi, ?_, ?_⟩
  · rw [v3 i, r1 i hi, hc]
    simp [Function.iterate_succ]
  · rw [w3 i, r1 i hi, hc]
    simp [Function.iterate_succ, derivative_mul]
    ring

/-- C78: at the nucleus the density and the gradient routines return the limits. -/
theorem C78_nucleus (S : Setting f n ne zdl zfr zdr x0 bval o N first last φ rule P) (hP : ∀ i j, P.get i j = P.get j i) (hmax : 2 ≤ maxN f) :
    ∃ d g, nuclearDensity ⟨o, x0, rule⟩ P = .ok d ∧ nuclearGradient ⟨o, x0, rule⟩ P = .ok g ∧
      Tendsto (profile N P.get φ 0) (𝓝[>] 0) (𝓝 d) ∧ Tendsto (deriv (profile N P.get φ 0)) (𝓝[>] 0) (𝓝 g) := by
  have hpi := Real.pi_pos
  have hne := S.basis.nelem
  obtain ⟨d, l, B, h1, h2, h3, hB, h5, h6, R, hR⟩ := nucleus_rows S hmax
  obtain ⟨c, hc⟩ : ∃ c, c = last 0 + 1 - first 0 := ⟨_, rfl⟩
  rw [← hc] at hB h5 h6 hR
  have hnbf : FEShape.getNbf o.tab = .ok N := S.basis.nbf
  have hdim : ¬ (P.rows ≠ N ∨ P.cols ≠ N) := by simp [S.rows, S.cols]
  obtain ⟨q, hq⟩ : ∃ q : ℝ[X], q = ∑ i ∈ range c, ∑ j ∈ range c, C (P.get (first 0 + i) (first 0 + j)) * (R i * R j) := ⟨_, rfl⟩
  have hpq : rho N P.get φ 0 = X ^ 2 * q := by
    rw [rho_window S.basis φ S.pieces P.get 0 (by omega), hq, ← hc, mul_sum]
    refine sum_congr rfl fun i hi => ?_
    rw [mul_sum]
    refine sum_congr rfl fun j hj => ?_
    rw [(hR i (mem_range.1 hi)).1, (hR j (mem_range.1 hj)).1]
    ring
  have hprof : ∀ r, 0 < r → profile N P.get φ 0 r = q.eval r / (4 * Real.pi) := by
    intro r hr
    unfold profile
    rw [hpq, eval_mul, eval_pow, eval_X]
    field_simp
  have hder : ∀ r, 0 < r → deriv (profile N P.get φ 0) r = (derivative q).eval r / (4 * Real.pi) := by
    intro r hr
    have : HasDerivAt (profile N P.get φ 0) ((derivative q).eval r / (4 * Real.pi)) r := by
      refine ((q.hasDerivAt r).div_const (4 * Real.pi)).congr_of_eventuallyEq ?_
      filter_upwards [Ioi_mem_nhds hr] with s hs
      exact hprof s hs
    exact this.deriv
  have cdd : contract d B d = .ok (q.eval 0) := by
    rw [contract_eq d d c B ⟨hB.1, hB.2.1⟩ h5 h5, hq]
    simp only [eval_finsetSum, eval_mul, eval_C]
    congr 1
    refine sum_congr rfl fun i hi => sum_congr rfl fun j hj => ?_
    rw [mem_range] at hi hj
    rw [hB.2.2 i hi j hj, (hR i hi).2.1, (hR j hj).2.1]
    ring
  have cdl : contract d B l = .ok ((derivative q).eval 0) := by
    rw [contract_eq d l c B ⟨hB.1, hB.2.1⟩ h5 h6, hq]
    simp only [derivative_sum, derivative_mul, derivative_C, zero_mul, zero_add, eval_finsetSum, eval_mul, eval_C, eval_add]
    congr 1
    have e1 : ∑ i ∈ range c, ∑ j ∈ range c, P.get (first 0 + i) (first 0 + j) * ((derivative (R i)).eval 0 * (R j).eval 0) =
        ∑ i ∈ range c, ∑ j ∈ range c, P.get (first 0 + i) (first 0 + j) * ((R i).eval 0 * (derivative (R j)).eval 0) := by
      rw [sum_comm]
      refine sum_congr rfl fun i _ => sum_congr rfl fun j _ => ?_
      rw [hP]; ring
    simp only [mul_add, sum_add_distrib]
    rw [e1]
    simp only [← sum_add_distrib]
    refine sum_congr rfl fun i hi => sum_congr rfl fun j hj => ?_
    rw [mem_range] at hi hj
    rw [hB.2.2 i hi j hj, (hR i hi).2.1, (hR j hj).2.2]
    ring
  refine ⟨q.eval 0 / (4 * Real.pi), (derivative q).eval 0 / (4 * Real.pi), ?_, ?_, ?_, ?_⟩
  · unfold nuclearDensity radialNuclearDensity
    simp only [hnbf, h1, h3, cdd, Res.ok_bind, if_neg hdim, Res.pure_eq]
  · unfold nuclearGradient radialNuclearGradient
    simp only [hnbf, h1, h2, h3, cdl, Res.ok_bind, if_neg hdim, Res.pure_eq]
  · have t : Tendsto (fun r => q.eval r / (4 * Real.pi)) (𝓝[>] 0) (𝓝 (q.eval 0 / (4 * Real.pi))) :=
      ((q.continuous.tendsto 0).div_const _).mono_left nhdsWithin_le_nhds
    refine t.congr' ?_
    filter_upwards [self_mem_nhdsWithin] with r hr
    exact (hprof r hr).symm
  · have t : Tendsto (fun r => (derivative q).eval r / (4 * Real.pi)) (𝓝[>] 0) (𝓝 ((derivative q).eval 0 / (4 * Real.pi))) :=
      (((derivative q).continuous.tendsto 0).div_const _).mono_left nhdsWithin_le_nhds
    refine t.congr' ?_
    filter_upwards [self_mem_nhdsWithin] with r hr
    exact (hder r hr).symm

/-- C78: matrices of the wrong size are refused. -/
theorem C78_wrong_size (S : Setting f n ne zdl zfr zdr x0 bval o N first last φ rule P) (Q : Mat ℝ) (hQ : Q.rows ≠ N ∨ Q.cols ≠ N) :
    nuclearDensity ⟨o, x0, rule⟩ Q = .throw .logicError ∧ nuclearGradient ⟨o, x0, rule⟩ Q = .throw .logicError := by
  have hnbf : FEShape.getNbf o.tab = .ok N := S.basis.nbf
  constructor
  · unfold nuclearDensity radialNuclearDensity
    simp only [hnbf, Res.ok_bind, if_pos hQ]
    rfl
  · unfold nuclearGradient radialNuclearGradient
    simp only [hnbf, Res.ok_bind, if_pos hQ]
    rfl

/-! ### Whole arrays -/

theorem coord_pos_of (S : Setting f n ne zdl zfr zdr x0 bval o N first last φ rule P) (e : Nat) (he : e < ne) (x : ℝ) (hx : -1 < x) : 0 < coord bval e x := by
  have h := S.coord_lt e he (-1) x hx
  have := (coord_pos S.basis S.origin e he (-1) le_rfl).2.1
  rw [coord_left] at h
  linarith

theorem onGrid_eq {α : Type} (S : Setting f n ne zdl zfr zdr x0 bval o N first last φ rule P) (nuc : Res α) (F : Nat → ℝ → Res α) (v0 : α) (v : Nat → ℝ → α) (h0 : nuc = .ok v0)
    (h : ∀ e < ne, ∀ q ∈ rule, F e q.1 = .ok (v e q.1)) :
    onGrid ⟨o, x0, rule⟩ nuc F = .ok (v0 :: (List.range ne).flatMap fun e => rule.map fun q => v e q.1) := by
  have hne := S.basis.nelem
  unfold onGrid gridPoints
  rw [S.nel, if_neg (by omega)]
  rw [Res.mapM_ok _ (fun p : Option (Nat × ℝ) => match p with | none => v0 | some p => v p.1 p.2)]
  · simp only [List.map_cons, List.map_flatMap, xq, List.map_map]
    rfl
  · intro a ha
    simp only [List.mem_cons, List.mem_flatMap, List.mem_range, xq, List.mem_map] at ha
    rcases ha with rfl | ⟨e, he, x, ⟨q, hq, rfl⟩, rfl⟩
    · exact h0
    · exact h e he q hq

/-- C78: the arrays over the grid hold the density, its gradient and its Laplacian in the order of the radii. The first entry, the nucleus, is the density also when the others are
multiplied by `r²`, and zero for the gradient and the Laplacian. -/
theorem C78_arrays (S : Setting f n ne zdl zfr zdr x0 bval o N first last φ rule P) (hP : ∀ i j, P.get i j = P.get j i) (hmax : 2 ≤ maxN f) (hin : ∀ q ∈ rule, -1 < q.1) :
    let grid := fun (v0 : ℝ) (v : Nat → ℝ → ℝ) => v0 :: (List.range ne).flatMap fun e => rule.map fun q => v e (coord bval e q.1)
    let ρ := profile N P.get φ
    radii ⟨o, x0, rule⟩ = .ok (grid 0 fun _ r => r) ∧
    (∃ d, Tendsto (ρ 0) (𝓝[>] 0) (𝓝 d) ∧ densityGrid ⟨o, x0, rule⟩ P false = .ok (grid (4 * Real.pi * d) fun e r => 4 * Real.pi * ρ e r) ∧
      densityGrid ⟨o, x0, rule⟩ P true = .ok (grid (4 * Real.pi * d) fun e r => 4 * Real.pi * ρ e r * r ^ 2)) ∧
    gradientGrid ⟨o, x0, rule⟩ P = .ok (grid 0 fun e r => 4 * Real.pi * deriv (ρ e) r) ∧
    laplacianGrid ⟨o, x0, rule⟩ P = .ok (grid 0 fun e r => 4 * Real.pi * (deriv (deriv (ρ e)) r + 2 / r * deriv (ρ e) r)) := by
  intro grid ρ
  have hpos : ∀ e < ne, ∀ q ∈ rule, 0 < coord bval e q.1 := fun e he q hq => coord_pos_of S e he q.1 (hin q hq)
  refine ⟨?_, ?_, ?_, ?_⟩
  · exact onGrid_eq S _ _ _ (fun e x => coord bval e x) rfl fun e he q hq => S.getR e he q.1
  · obtain ⟨d, g, h1, _, h3, _⟩ := C78_nucleus S hP hmax
    refine ⟨d, h3, onGrid_eq S _ _ _ (fun e x => 4 * Real.pi * ρ e (coord bval e x)) ?_ fun e he q hq => ?_,
      onGrid_eq S _ _ _ (fun e x => 4 * Real.pi * ρ e (coord bval e x) * coord bval e x ^ 2) ?_ fun e he q hq => ?_⟩
    · rw [h1]; rfl
    · exact (C78_grid_point S hP hmax e he q.1 (hin q hq).le (hpos e he q hq)).1
    · rw [h1]; rfl
    · exact (C78_grid_point S hP hmax e he q.1 (hin q hq).le (hpos e he q hq)).2.1
  · exact onGrid_eq S _ _ _ (fun e x => 4 * Real.pi * deriv (ρ e) (coord bval e x)) rfl fun e he q hq =>
      (C78_grid_point S hP hmax e he q.1 (hin q hq).le (hpos e he q hq)).2.2.1
  · exact onGrid_eq S _ _ _ (fun e x => 4 * Real.pi * (deriv (deriv (ρ e)) (coord bval e x) + 2 / coord bval e x * deriv (ρ e) (coord bval e x))) rfl fun e he q hq =>
      (C78_grid_point S hP hmax e he q.1 (hin q hq).le (hpos e he q hq)).2.2.2

/-! ### The screening on the grid -/

/-- the potential of spin up: `F k` are the derivatives of the energy density along the radius -/
noncomputable def upPotential (L : Lib) (x c : Int) (ρa ρb : ℝ → ℝ) (r : ℝ) : ℝ :=
  let F := fun k s => total L x c (along ρa ρb s) k
  xcPotential (F 0) (F 2) (F 3) ρa ρb r

/-- the potential of spin down -/
noncomputable def downPotential (L : Lib) (x c : Int) (ρa ρb : ℝ → ℝ) (r : ℝ) : ℝ :=
  let F := fun k s => total L x c (along ρa ρb s) k
  xcPotential (F 1) (F 4) (F 3) ρb ρa r

/-- what is subtracted in excess for spin up when `ρ'' + k ρ'` is taken for `ρ''` -/
noncomputable def upExcess (L : Lib) (x c : Int) (k : ℝ) (ρa ρb : ℝ → ℝ) (r : ℝ) : ℝ :=
  let F := fun k => total L x c (along ρa ρb r) k
  let S := fun i => (second L x (along ρa ρb r)).ss i + (second L c (along ρa ρb r)).ss i
  xcExcess k (deriv ρa r) (deriv ρb r) (deriv (deriv ρa) r) (deriv (deriv ρb) r) (F 2) (F 3) (S 0) (S 1) (S 2) (S 3) (S 4)

/-- the same for spin down -/
noncomputable def downExcess (L : Lib) (x c : Int) (k : ℝ) (ρa ρb : ℝ → ℝ) (r : ℝ) : ℝ :=
  let F := fun k => total L x c (along ρa ρb r) k
  let S := fun i => (second L x (along ρa ρb r)).ss i + (second L c (along ρa ρb r)).ss i
  xcExcess k (deriv ρb r) (deriv ρa r) (deriv (deriv ρb) r) (deriv (deriv ρa) r) (F 4) (F 3) (S 5) (S 4) (S 2) (S 3) (S 1)

/-- both functionals are implemented, and at these densities libxc's second derivatives are those of its first -/
def Usable (L : Lib) (x c : Int) : Prop := (∃ b, flag L x = .ok b) ∧ ∃ b, flag L c = .ok b

def ConsistentAt (L : Lib) (x c : Int) (q : Fin 5 → ℝ) : Prop := (flag L x = .ok true → Consistent L x q) ∧ (flag L c = .ok true → Consistent L c q)

theorem screeningAt_eq (Sa : Setting f n ne zdl zfr zdr x0 bval o N first last φ rule Pa) (Sb : Setting f n ne zdl zfr zdr x0 bval o N first last φ rule Pb)
    (ha : ∀ i j, Pa.get i j = Pa.get j i) (hb : ∀ i j, Pb.get i j = Pb.get j i) (hmax : 2 ≤ maxN f) (L : Lib) (x c : Int) (hu : Usable L x c)
    (e : Nat) (he : e < ne) (t : ℝ) (ht : -1 < t) (hc : ConsistentAt L x c (along (profile N Pa.get φ e) (profile N Pb.get φ e) (coord bval e t))) :
    let r := coord bval e t
    let ρa := profile N Pa.get φ e
    let ρb := profile N Pb.get φ e
    screeningAt L ⟨o, x0, rule⟩ Pa Pb x c e t = .ok
      (r * (upPotential L x c ρa ρb r - upExcess L x c (2 / r) ρa ρb r), r * (downPotential L x c ρa ρb r - downExcess L x c (2 / r) ρa ρb r)) := by
  intro r ρa ρb
  have hpi := Real.pi_pos
  have hr : 0 < r := coord_pos_of Sa e he t ht
  obtain ⟨⟨bx, hx⟩, bc, hc'⟩ := hu
  obtain ⟨a1, _, a2, a3⟩ := C78_grid_point Sa ha hmax e he t ht.le hr
  obtain ⟨b1, _, b2, b3⟩ := C78_grid_point Sb hb hmax e he t ht.le hr
  obtain ⟨fa1, fa2, _, _⟩ := profile_facts N Pa.get φ e r hr
  obtain ⟨fb1, fb2, _, _⟩ := profile_facts N Pb.get φ e r hr
  have main := potentials_spec L x c r hr _ bx bc hx hc' ρa ρb _ _ fa1 fb1 fa2.hasDerivAt fb2.hasDerivAt hc.1 hc.2 (2 / r) rfl
  unfold screeningAt
  simp only [a1, a2, a3, b1, b2, b3, Sa.getR e he t, Res.ok_bind]
  have k : ∀ v : ℝ, 4 * Real.pi * v / (4 * Real.pi) = v := fun v => by field_simp
  simp only [k]
  change (potentials L x c r ⟨ρa r, ρb r, deriv ρa r, deriv ρb r, deriv (deriv ρa) r + 2 / r * deriv ρa r, deriv (deriv ρb) r + 2 / r * deriv ρb r⟩ false >>= _) = _
  rw [main]
  rfl

theorem screeningNucleus_eq (Sa : Setting f n ne zdl zfr zdr x0 bval o N first last φ rule Pa) (Sb : Setting f n ne zdl zfr zdr x0 bval o N first last φ rule Pb)
    (ha : ∀ i j, Pa.get i j = Pa.get j i) (hb : ∀ i j, Pb.get i j = Pb.get j i) (hmax : 2 ≤ maxN f) (L : Lib) (x c : Int) (hu : Usable L x c) :
    screeningNucleus L ⟨o, x0, rule⟩ Pa Pb x c = .ok (0, 0) := by
  obtain ⟨⟨bx, hx⟩, bc, hc'⟩ := hu
  obtain ⟨d, _, h1, _⟩ := C78_nucleus Sa ha hmax
  obtain ⟨d', _, h1', _⟩ := C78_nucleus Sb hb hmax
  unfold screeningNucleus potentials
  simp only [h1, h1', Res.ok_bind]
  rw [addFunctional_eq L _ _ x bx hx, Res.ok_bind, addFunctional_eq L _ _ c bc hc', Res.ok_bind]
  simp

/-- C77 for any functionals: the screening is `r` times the functional derivative, less an explicit excess. Missing for the property: the excess is not zero for gradient-dependent
functionals (next theorems). -/
theorem C77_screening_partial (Sa : Setting f n ne zdl zfr zdr x0 bval o N first last φ rule Pa) (Sb : Setting f n ne zdl zfr zdr x0 bval o N first last φ rule Pb)
    (ha : ∀ i j, Pa.get i j = Pa.get j i) (hb : ∀ i j, Pb.get i j = Pb.get j i) (hmax : 2 ≤ maxN f) (hin : ∀ q ∈ rule, -1 < q.1) (L : Lib) (x c : Int) (hu : Usable L x c)
    (hc : ∀ e < ne, ∀ q ∈ rule, ConsistentAt L x c (along (profile N Pa.get φ e) (profile N Pb.get φ e) (coord bval e q.1))) :
    screeningGrid L ⟨o, x0, rule⟩ Pa Pb x c = .ok ((0, 0) :: (List.range ne).flatMap fun e => rule.map fun q =>
      let r := coord bval e q.1
      let ρa := profile N Pa.get φ e
      let ρb := profile N Pb.get φ e
      (r * (upPotential L x c ρa ρb r - upExcess L x c (2 / r) ρa ρb r), r * (downPotential L x c ρa ρb r - downExcess L x c (2 / r) ρa ρb r))) :=
  onGrid_eq Sa _ _ _ (fun e t => (coord bval e t * (upPotential L x c (profile N Pa.get φ e) (profile N Pb.get φ e) (coord bval e t) -
      upExcess L x c (2 / coord bval e t) (profile N Pa.get φ e) (profile N Pb.get φ e) (coord bval e t)),
    coord bval e t * (downPotential L x c (profile N Pa.get φ e) (profile N Pb.get φ e) (coord bval e t) -
      downExcess L x c (2 / coord bval e t) (profile N Pa.get φ e) (profile N Pb.get φ e) (coord bval e t))))
    (screeningNucleus_eq Sa Sb ha hb hmax L x c hu)
    fun e he q hq => screeningAt_eq Sa Sb ha hb hmax L x c hu e he q.1 (hin q hq) (hc e he q hq)

theorem excess_lda (L : Lib) (x c : Int) (hx : flag L x = .ok false) (hc : flag L c = .ok false) (k : ℝ) (ρa ρb : ℝ → ℝ) (r : ℝ) :
    upExcess L x c k ρa ρb r = 0 ∧ downExcess L x c k ρa ρb r = 0 := by
  have z : ∀ id, flag L id = .ok false → ∀ q, first L id q 2 = 0 ∧ first L id q 3 = 0 ∧ first L id q 4 = 0 := by
    intro id h q
    unfold first
    by_cases h0 : id ≤ 0
    · rw [if_pos h0]; exact ⟨rfl, rfl, rfl⟩
    · rw [if_neg h0, h, if_neg (by simp)]; exact ⟨rfl, rfl, rfl⟩
  simp [upExcess, downExcess, xcExcess, total, z x hx, z c hc, second, hx, hc]

/-- C77 for functionals of the densities alone: the screening is `r` times the functional derivative. -/
theorem C77_lda (Sa : Setting f n ne zdl zfr zdr x0 bval o N first last φ rule Pa) (Sb : Setting f n ne zdl zfr zdr x0 bval o N first last φ rule Pb)
    (ha : ∀ i j, Pa.get i j = Pa.get j i) (hb : ∀ i j, Pb.get i j = Pb.get j i) (hmax : 2 ≤ maxN f) (hin : ∀ q ∈ rule, -1 < q.1) (L : Lib) (x c : Int)
    (hx : flag L x = .ok false) (hc : flag L c = .ok false) :
    screeningGrid L ⟨o, x0, rule⟩ Pa Pb x c = .ok ((0, 0) :: (List.range ne).flatMap fun e => rule.map fun q =>
      let r := coord bval e q.1
      (r * upPotential L x c (profile N Pa.get φ e) (profile N Pb.get φ e) r, r * downPotential L x c (profile N Pa.get φ e) (profile N Pb.get φ e) r)) := by
  have h := C77_screening_partial Sa Sb ha hb hmax hin L x c ⟨⟨_, hx⟩, _, hc⟩ (fun e he q hq => ⟨fun k => by rw [hx] at k; simp at k, fun k => by rw [hc] at k; simp at k⟩)
  simpa only [excess_lda L x c hx hc, sub_zero] using h

/-- The second error alone: fed with `ρ''` in place of the Laplacian, the formula of both files still counts the change of `σab` twice. -/
theorem C77_cross_terms (L : Lib) (x c : Int) (r : ℝ) (hr : 0 < r) (hu : Usable L x c) (ρa ρb : ℝ → ℝ) (da : DifferentiableAt ℝ ρa r) (db : DifferentiableAt ℝ ρb r)
    (ea : DifferentiableAt ℝ (deriv ρa) r) (eb : DifferentiableAt ℝ (deriv ρb) r) (hc : ConsistentAt L x c (along ρa ρb r)) :
    let S := fun i => (second L x (along ρa ρb r)).ss i + (second L c (along ρa ρb r)).ss i
    let σ' := deriv (fun s => deriv ρa s * deriv ρb s) r
    potentials L x c r ⟨ρa r, ρb r, deriv ρa r, deriv ρb r, deriv (deriv ρa) r, deriv (deriv ρb) r⟩ false = .ok
      (upPotential L x c ρa ρb r - σ' * (2 * deriv ρa r * S 1 + deriv ρb r * S 3), downPotential L x c ρa ρb r - σ' * (2 * deriv ρb r * S 4 + deriv ρa r * S 3)) := by
  intro S σ'
  obtain ⟨⟨bx, hx⟩, bc, hc'⟩ := hu
  have main := potentials_spec L x c r hr _ bx bc hx hc' ρa ρb _ _ da db ea.hasDerivAt eb.hasDerivAt hc.1 hc.2 0 rfl
  simp only [zero_mul, add_zero] at main
  rw [main]
  have hσ : σ' = deriv (deriv ρa) r * deriv ρb r + deriv ρa r * deriv (deriv ρb) r := (ea.hasDerivAt.mul eb.hasDerivAt).deriv
  simp only [xcExcess, zero_mul, zero_add, upPotential, downPotential, S, hσ]
  congr 2
  ring

/-- C77: meta-GGAs are refused. -/
theorem C77_meta_gga (L : Lib) (x c : Int) (i : XC.Info) (h0 : 0 < x) (hi : L.xc.info x = some i) (hm : i.family = .mgga) (ht : i.needsTau = true ∨ i.needsLapl = true) (r : ℝ) (p : Point) (nuc : Bool) :
    potentials L x c r p nuc = .throw .logicError ∧ anyGga L x c = .throw .logicError := by
  have hk : kind L x = .throw .logicError := by
    unfold kind XC.isGgaMgga
    rw [if_neg (by omega), hi]
    simp only [hm]
    simp only [Res.ok_bind, Bool.or_eq_true]
    rw [if_pos ht]
  constructor
  · unfold potentials addFunctional
    rw [if_neg (show ¬ x ≤ 0 by omega), hk]
    rfl
  · unfold anyGga
    rw [if_neg (by omega), hk]
    rfl

/-- C77 for spin-restricted atoms: both spins hold half of the density, and the two screenings are averaged. -/
theorem C77_restricted_partial (S : Setting f n ne zdl zfr zdr x0 bval o N first last φ rule P) (hP : ∀ i j, P.get i j = P.get j i) (hmax : 2 ≤ maxN f) (hin : ∀ q ∈ rule, -1 < q.1)
    (L : Lib) (x c : Int) (hu : Usable L x c)
    (hc : ∀ e < ne, ∀ q ∈ rule, ConsistentAt L x c (along (fun s => 1 / 2 * profile N P.get φ e s) (fun s => 1 / 2 * profile N P.get φ e s) (coord bval e q.1))) :
    screeningRestricted L ⟨o, x0, rule⟩ P x c = .ok (0 :: (List.range ne).flatMap fun e => rule.map fun q =>
      let r := coord bval e q.1
      let ρ := fun s => 1 / 2 * profile N P.get φ e s
      r * (1 / 2) * ((upPotential L x c ρ ρ r - upExcess L x c (2 / r) ρ ρ r) + (downPotential L x c ρ ρ r - downExcess L x c (2 / r) ρ ρ r))) := by
  have hs : Setting f n ne zdl zfr zdr x0 bval o N first last φ rule (Mat.smul (1 / 2) P) := ⟨S.basis, S.pieces, S.origin, S.inner, S.points, S.rows, S.cols⟩
  have hsym : ∀ i j, (Mat.smul (1 / 2) P).get i j = (Mat.smul (1 / 2) P).get j i := fun i j => by simp only [Mat.smul]; rw [hP]
  have hprof : ∀ e, profile N (Mat.smul (1 / 2) P).get φ e = fun s => 1 / 2 * profile N P.get φ e s := by
    intro e
    funext s
    simp only [profile, rho, Mat.smul, eval_finsetSum, eval_mul, eval_C]
    rw [← mul_div_assoc, mul_sum]
    congr 1
    refine sum_congr rfl fun i _ => ?_
    rw [mul_sum]
    exact sum_congr rfl fun j _ => by ring
  have h := C77_screening_partial hs hs hsym hsym hmax hin L x c hu (by simpa only [hprof] using hc)
  simp only [hprof] at h
  unfold screeningRestricted
  rw [h]
  simp only [Res.ok_bind, Res.pure_eq, List.map_cons, List.map_flatMap, List.map_map, add_zero, mul_zero]
  congr 2
  refine List.flatMap_congr fun e _ => List.map_congr_left fun q _ => ?_
  simp only [Function.comp]
  ring

/-! ### Free atoms -/

theorem first_lda (L : Lib) (id : Int) (h : flag L id = .ok false) (q q' : Fin 5 → ℝ) (h0 : q 0 = q' 0) (h1 : q 1 = q' 1) : Screening.first L id q = Screening.first L id q' := by
  unfold Screening.first
  by_cases hid : id ≤ 0
  · rw [if_pos hid, if_pos hid]
  · rw [if_neg hid, if_neg hid, h, if_neg (by simp), if_neg (by simp)]
    have : in2 q = in2 q' := by unfold in2; rw [h0, h1]
    rw [this]

/-- C77: no functionals, no radius, no density: no screening. -/
theorem C77_free_atom_zero (L : Lib) (pi : ℝ) (a : Atom) (x c : Int) (r : ℝ) (d : ℝ) (hd : a.density pi r = .ok d) (h : r ≤ 0 ∨ (x ≤ 0 ∧ c ≤ 0) ∨ d ≤ 0) :
    atomScreening L pi a x c r = .ok 0 := by
  unfold atomScreening
  by_cases h1 : r ≤ 0 ∨ (x ≤ 0 ∧ c ≤ 0)
  · rw [if_pos h1]
  · rw [if_neg h1, hd, Res.ok_bind, if_pos]
    rw [not_or] at h1
    rcases h with h | h | h
    · exact absurd h h1.1
    · exact absurd h h1.2
    · linarith

/-- C77 for the free atoms of the database, inside the elements: same value, same excess. -/
theorem C77_free_atom_partial {shells : List Shell} {a : Atom} (S : Setup f n ne zdl zfr zdr x0 bval o N first last φ rule shells) (ha : Atom.build ⟨o, x0, rule⟩ shells = .ok a) (hmax : 2 ≤ maxN f) :
    ∃ ρ : ℝ → ℝ, (∀ r, a.density Real.pi r = .ok (ρ r)) ∧ ∀ (L : Lib) (x c : Int), Usable L x c → (0 < x ∨ 0 < c) → ∀ e < ne, ∀ r, bval.getD e 0 < r → r < bval.getD (e + 1) 0 → 0 < ρ r →
      let h := fun s => 1 / 2 * ρ s
      ConsistentAt L x c (along h h r) →
      atomScreening L Real.pi a x c r = .ok (r * (1 / 2) * ((upPotential L x c h h r - upExcess L x c (2 / r) h h r) + (downPotential L x c h h r - downExcess L x c (2 / r) h h r))) := by
  obtain ⟨ρ, ρ', ρ'', h1, _, _, h4⟩ := C57_density_derivatives_partial S ha hmax Real.pi Real.pi_pos
  refine ⟨ρ, h1, ?_⟩
  intro L x c hu hxc e he r r1 r2 hρ h hc
  have hr : 0 < r := by linarith [(coord_pos S.basis S.origin e he (-1) le_rfl).2.1]
  obtain ⟨⟨bx, hx⟩, bc, hc'⟩ := hu
  obtain ⟨d1, d2, d3, d4⟩ := h4 e he r r1 r2
  have dh : ∀ s, bval.getD e 0 < s → s < bval.getD (e + 1) 0 → HasDerivAt h (1 / 2 * ρ' s) s := fun s s1 s2 => (h4 e he s s1 s2).1.const_mul _
  have ddh : HasDerivAt (deriv h) (1 / 2 * ρ'' r) r := by
    refine (d2.const_mul (1 / 2)).congr_of_eventuallyEq ?_
    filter_upwards [Ioo_mem_nhds r1 r2] with s hs
    exact (dh s hs.1 hs.2).deriv
  have e1 : deriv h r = 1 / 2 * ρ' r := (dh r r1 r2).deriv
  have e2 : deriv (deriv h) r = 1 / 2 * ρ'' r := ddh.deriv
  have main := potentials_spec L x c r hr _ bx bc hx hc' h h _ _ (dh r r1 r2).differentiableAt (dh r r1 r2).differentiableAt (ddh.differentiableAt.hasDerivAt) (ddh.differentiableAt.hasDerivAt)
    hc.1 hc.2 (2 / r) rfl
  have hany : anyGga L x c = .ok (bx || bc) := by
    unfold flag at hx hc'
    unfold anyGga
    rw [hx, hc']
    rfl
  have hguard : ¬ (r ≤ 0 ∨ (x ≤ 0 ∧ c ≤ 0)) := by
    rw [not_or, not_and_or, not_le, not_le, not_le]
    exact ⟨hr, hxc⟩
  unfold atomScreening
  rw [if_neg hguard, h1, Res.ok_bind, if_neg (by linarith), hany, Res.ok_bind]
  have goal : ∀ gl : ℝ × ℝ, potentials L x c r ⟨1 / 2 * ρ r, 1 / 2 * ρ r, gl.1, gl.1, gl.2, gl.2⟩ false =
      potentials L x c r ⟨h r, h r, deriv h r, deriv h r, deriv (deriv h) r + 2 / r * deriv h r, deriv (deriv h) r + 2 / r * deriv h r⟩ false →
      (potentials L x c r ⟨1 / 2 * ρ r, 1 / 2 * ρ r, gl.1, gl.1, gl.2, gl.2⟩ false >>= fun v => (pure (r * (1 / 2) * (v.1 + v.2)) : Res ℝ)) =
        .ok (r * (1 / 2) * ((upPotential L x c h h r - upExcess L x c (2 / r) h h r) + (downPotential L x c h h r - downExcess L x c (2 / r) h h r))) := by
    intro gl hgl
    rw [hgl, main]
    rfl
  by_cases hg : (bx || bc) = true
  · rw [if_pos hg, d3, Res.ok_bind, d4, Res.ok_bind]
    refine goal _ ?_
    rw [e1, e2]
    congr 2 <;> ring
  · rw [if_neg hg, Res.ok_bind]
    refine goal _ ?_
    simp only [Bool.or_eq_true, not_or, Bool.not_eq_true] at hg
    rw [hg.1] at hx
    rw [hg.2] at hc'
    rw [potentials_eq L x c r _ _ _ hx hc', potentials_eq L x c r _ _ _ hx hc', correction_zero L _ r x c (by rw [hx]; simp) (by rw [hc']; simp),
      correction_zero L _ r x c (by rw [hx]; simp) (by rw [hc']; simp)]
    simp only [first_lda L x hx (Point.q ⟨1 / 2 * ρ r, 1 / 2 * ρ r, (0, 0).1, (0, 0).1, (0, 0).2, (0, 0).2⟩)
        (Point.q ⟨h r, h r, deriv h r, deriv h r, deriv (deriv h) r + 2 / r * deriv h r, deriv (deriv h) r + 2 / r * deriv h r⟩) rfl rfl,
      first_lda L c hc' (Point.q ⟨1 / 2 * ρ r, 1 / 2 * ρ r, (0, 0).1, (0, 0).1, (0, 0).2, (0, 0).2⟩)
        (Point.q ⟨h r, h r, deriv h r, deriv h r, deriv (deriv h) r + 2 / r * deriv h r, deriv (deriv h) r + 2 / r * deriv h r⟩) rfl rfl]

end

/-! ### A functional of the gradients, and where the screening is wrong -/

/-- the energy density `|∇ρ|² = σaa + 2σab + σbb` under identifier 1, and `ρa² + ρb²` under 2 -/
noncomputable def exampleLib : Lib where
  xc := ⟨fun id => if id = 1 then some ⟨.gga, false, false, true, 0⟩ else if id = 2 then some ⟨.lda, false, false, true, 0⟩ else none,
    fun _ _ _ _ => ⟨0, 0, 0, 0, 0⟩, fun id _ _ q => if id = 1 then ⟨0, 0, 0, 1, 2, 1, 0, 0, 0, 0⟩ else ⟨0, 2 * q.rhoa, 2 * q.rhob, 0, 0, 0, 0, 0, 0, 0⟩⟩
  thr := 0
  fxc := fun _ _ => ⟨0, 0⟩

theorem example_flag : flag exampleLib 1 = .ok true ∧ flag exampleLib 2 = .ok false ∧ flag exampleLib 0 = .ok false := ⟨rfl, rfl, rfl⟩

theorem example_consistent (q : Fin 5 → ℝ) : ConsistentAt exampleLib 1 0 q := by
  constructor
  · intro _ k
    have e1 : hess (exampleLib.fxc 1 (in5 q)) k = 0 := by funext i; fin_cases k <;> fin_cases i <;> rfl
    rw [e1, lin_zero]
    have e2 : (fun q => outputs (exampleLib.xc.pol 1 [] exampleLib.thr (in5 q)) (k.natAdd 2)) = fun _ => ![1, 2, 1] k := by
      funext q
      fin_cases k <;> simp [exampleLib, outputs]
    rw [e2]
    exact hasFDerivAt_const _ _
  · intro h
    have := example_flag.2.2
    rw [this] at h
    simp at h

theorem points_inner : GoodPoints (([(-(1 / 2), 2 / 3), (0, 2 / 3), (1 / 2, 2 / 3)] : List (ℝ × ℝ)).map Prod.fst) := by
  refine ⟨by norm_num, ?_, by simp⟩
  intro t ht
  simp only [List.map_cons, List.map_nil, List.mem_cons, List.not_mem_nil, or_false] at ht
  rcases ht with rfl | rfl | rfl <;> norm_num

theorem example_profile (φ : Nat → Nat → ℝ[X]) (h1 : φ 1 0 = C (1 / 2) * (C 3 - X)) : deriv (profile 1 exampleP.get φ 1) 2 = -(3 / 16) := by
  have hpi := Real.pi_pos
  obtain ⟨_, _, h, _⟩ := profile_facts 1 exampleP.get φ 1 2 (by norm_num)
  simp only [rho, exampleP, sum_range_one, h1, derivative_mul, derivative_C, derivative_sub, derivative_X, eval_add, eval_mul, eval_C, eval_sub, eval_X, zero_mul, zero_add, zero_sub, eval_neg, eval_one] at h
  have : 4 * Real.pi * deriv (profile 1 exampleP.get φ 1) 2 = 4 * Real.pi * -(3 / 16) := by
    refine h.trans ?_
    norm_num
    ring
  exact mul_left_cancel₀ (by positivity) this

/-- **C77 fails for gradient-dependent functionals.** With the energy density `|∇ρ|²`, at the point `r = 2` of an atom, the screening returned for spin up differs from `r` times the
functional derivative by 3/2. -/
theorem C77_gga_is_not_the_functional_derivative : ∃ (o : FEObj ℝ) (φ : Nat → Nat → ℝ[X]) (rule : List (ℝ × ℝ)),
    Setting .lip 2 2 false true false (fun k => 2 * (k : ℝ) - 1) [0, 1, 3] o 1 (fun _ => 0) (fun _ => 0) φ rule exampleP ∧ Usable exampleLib 1 0 ∧
    (∀ q, ConsistentAt exampleLib 1 0 q) ∧ ∃ v w, screeningAt exampleLib ⟨o, fun k => 2 * (k : ℝ) - 1, rule⟩ exampleP exampleP 1 0 1 0 = .ok (v, w) ∧
      v = 2 * upPotential exampleLib 1 0 (profile 1 exampleP.get φ 1) (profile 1 exampleP.get φ 1) 2 + 3 / 2 := by
  obtain ⟨o, φ, S, _, _, h1⟩ := setting_example _ points_inner
  refine ⟨o, φ, _, S, ⟨⟨_, example_flag.1⟩, _, example_flag.2.2⟩, example_consistent, ?_⟩
  have h := screeningAt_eq S S (fun _ _ => rfl) (fun _ _ => rfl) (by decide) exampleLib 1 0 ⟨⟨_, example_flag.1⟩, _, example_flag.2.2⟩ 1 (by norm_num) 0 (by norm_num) (example_consistent _)
  have hr : coord [0, 1, 3] 1 0 = 2 := by rw [coord_one]; norm_num
  simp only [hr] at h
  refine ⟨_, _, h, ?_⟩
  have t : ∀ q, total exampleLib 1 0 q 2 = 1 ∧ total exampleLib 1 0 q 3 = 2 := by
    intro q
    have e1 : Screening.first exampleLib 1 q = ![0, 0, 1, 2, 1] := by
      unfold Screening.first
      rw [if_neg (by norm_num), if_pos example_flag.1]
      rfl
    have e0 : Screening.first exampleLib 0 q = 0 := by
      unfold Screening.first
      rw [if_pos (by norm_num)]
    unfold total
    rw [e1, e0]
    simp
  have s2 : ∀ q, (second exampleLib 1 q).ss = 0 ∧ (second exampleLib 0 q).ss = 0 := by
    intro q
    constructor <;> · unfold second; split <;> rfl
  simp only [upExcess, xcExcess, t, s2, example_profile φ h1, Pi.zero_apply]
  norm_num
  ring

/-- the free atom with one doubly occupied orbital: at `r = 1/2` its density is positive and its screening by the same functional is as stated -/
example : ∃ (a : Atom) (ρ : ℝ → ℝ), (∀ r, a.density Real.pi r = .ok (ρ r)) ∧ 0 < ρ (1 / 2) ∧ ∃ v, atomScreening exampleLib Real.pi a 1 0 (1 / 2) = .ok v ∧
    v = 1 / 2 * (1 / 2) * ((upPotential exampleLib 1 0 (fun s => 1 / 2 * ρ s) (fun s => 1 / 2 * ρ s) (1 / 2) - upExcess exampleLib 1 0 (2 / (1 / 2)) (fun s => 1 / 2 * ρ s) (fun s => 1 / 2 * ρ s) (1 / 2)) +
      (downPotential exampleLib 1 0 (fun s => 1 / 2 * ρ s) (fun s => 1 / 2 * ρ s) (1 / 2) - downExcess exampleLib 1 0 (2 / (1 / 2)) (fun s => 1 / 2 * ρ s) (fun s => 1 / 2 * ρ s) (1 / 2))) := by
  have hpi := Real.pi_pos
  obtain ⟨o, φ, S⟩ := setup_example
  obtain ⟨a, ha, _, _, hrad⟩ := C36_radial_density S
  obtain ⟨ρ, h1, h2⟩ := C77_free_atom_partial S ha (by decide)
  obtain ⟨ρ₂, _, _, g1, g2, _⟩ := C57_density_derivatives_partial S ha (by decide) Real.pi hpi
  have e1 : φ 0 0 = X := by
    rw [S.basis.pieces_unique φ _ S.pieces S.basis.piece_isPieces 0 (by omega) 0]
    exact example_piece
  have hρ : 0 < ρ (1 / 2) := by
    have k1 := hrad 0 (by norm_num) (1 / 2) (by norm_num) (by norm_num)
    have k2 := g2 (1 / 2) (by norm_num)
    have k3 : ρ (1 / 2) = ρ₂ (1 / 2) := by have := (h1 (1 / 2)).symm.trans (g1 (1 / 2)); simpa using this
    rw [k2] at k1
    have k4 : 4 * Real.pi * (1 / 2) ^ 2 * ρ₂ (1 / 2) = occupied 1 φ [exampleShell] 0 (1 / 2) := by simpa using k1
    have k5 : occupied 1 φ [exampleShell] 0 (1 / 2) = 1 / 2 := by simp [occupied, exampleShell, orbital, e1]; norm_num
    rw [k5] at k4
    rw [k3]
    by_contra hneg
    have : 4 * Real.pi * (1 / 2) ^ 2 * ρ₂ (1 / 2) ≤ 0 := mul_nonpos_of_nonneg_of_nonpos (by positivity) (not_lt.1 hneg)
    linarith
  exact ⟨a, ρ, h1, hρ, _, h2 exampleLib 1 0 ⟨⟨_, example_flag.1⟩, _, example_flag.2.2⟩ (Or.inl (by norm_num)) 0 (by norm_num) (1 / 2) (by norm_num) (by norm_num) hρ (example_consistent _), rfl⟩

/-- functionals of the densities alone on the same atom -/
example : ∃ o φ, screeningGrid exampleLib ⟨o, fun k => 2 * (k : ℝ) - 1, [(-(1 / 2), 2 / 3), (0, 2 / 3), (1 / 2, 2 / 3)]⟩ exampleP exampleP 2 0 = .ok ((0, 0) :: (List.range 2).flatMap fun e =>
    [(-(1 / 2), 2 / 3), (0, 2 / 3), (1 / 2, 2 / 3)].map fun q =>
      let r := coord [0, 1, 3] e q.1
      (r * upPotential exampleLib 2 0 (profile 1 exampleP.get φ e) (profile 1 exampleP.get φ e) r, r * downPotential exampleLib 2 0 (profile 1 exampleP.get φ e) (profile 1 exampleP.get φ e) r)) := by
  obtain ⟨o, φ, S, _⟩ := setting_example _ points_inner
  refine ⟨o, φ, C77_lda S S (fun _ _ => rfl) (fun _ _ => rfl) (by decide) ?_ exampleLib 2 0 example_flag.2.1 example_flag.2.2⟩
  intro q hq
  simp only [List.mem_cons, List.not_mem_nil, or_false] at hq
  rcases hq with rfl | rfl | rfl <;> norm_num

/-! ### One quadratic element on 0 < 2: the basis function `r(2 - r)` -/

theorem good_three : GoodNodes 3 (fun k => ((k : ℝ) - 1)) := by
  refine ⟨by omega, ?_, by norm_num, by norm_num⟩
  intro i j _ _ h
  simpa using h

theorem quadratic_piece : piece .lip 1 1 true false true false [0, 2] (fun k => (k : ℝ) - 1) (fun _ => 0) 0 0 = X * (C 2 - X) := by
  have : enBlocks .lip 1 0 1 true false true false = [1] := by decide
  unfold piece
  rw [this]
  simp only [onElement, primPoly, Lagrange.basis, le_refl, if_true, Nat.sub_self, List.getElem?_cons_zero]
  rw [show (range (1 + 2)).erase 1 = {0, 2} by decide, prod_pair (by decide)]
  apply Polynomial.funext
  intro r
  simp [Lagrange.basisDivisor]
  ring_nf
  simp

theorem quadratic_setting (rule : List (ℝ × ℝ)) (hr : GoodPoints (rule.map Prod.fst)) :
    ∃ o φ, Setting .lip 3 1 false true false (fun k => (k : ℝ) - 1) [0, 2] o 1 (fun _ => 0) (fun _ => 0) φ rule exampleP ∧ φ 0 0 = X * (C 2 - X) := by
  have hb : ∃ o, Basis .lip 3 1 true false true false (fun k => (k : ℝ) - 1) [0, 2] o 1 (fun _ => 0) (fun _ => 0) := by
    refine ⟨_, good_three, by omega, rfl, by norm_num, rfl, by decide, by omega, ?_⟩
    intro e he
    interval_cases e; rfl
  obtain ⟨o, hb⟩ := hb
  obtain ⟨φ, hφ, _, _⟩ := C48_pieces hb
  refine ⟨o, φ, ⟨hb, hφ, rfl, le_rfl, hr, rfl, rfl⟩, ?_⟩
  rw [hb.pieces_unique φ _ hφ hb.piece_isPieces 0 (by omega) 0]
  exact quadratic_piece

/-- **C78 fails at the nucleus for the gradient array.** The density `(2 - r)²` has the slope -4 at the nucleus, and `nuclear_density_gradient` returns it, but the array of gradients starts
with zero. -/
theorem C78_gradient_array_at_nucleus : ∃ (o : FEObj ℝ) (φ : Nat → Nat → ℝ[X]) (rule : List (ℝ × ℝ)) (v : List ℝ),
    Setting .lip 3 1 false true false (fun k => (k : ℝ) - 1) [0, 2] o 1 (fun _ => 0) (fun _ => 0) φ rule exampleP ∧
    (∀ r, 0 < r → profile 1 exampleP.get φ 0 r = (2 - r) ^ 2) ∧
    nuclearGradient ⟨o, fun k => (k : ℝ) - 1, rule⟩ exampleP = .ok (-4) ∧
    gradientGrid ⟨o, fun k => (k : ℝ) - 1, rule⟩ exampleP = .ok v ∧ v.head? = some 0 := by
  have hpi := Real.pi_pos
  obtain ⟨o, φ, S, h0⟩ := quadratic_setting _ points_inner
  have hprof : ∀ r, 0 < r → profile 1 exampleP.get φ 0 r = (2 - r) ^ 2 := by
    intro r hr
    simp only [profile, rho, exampleP, sum_range_one, h0, eval_mul, eval_C, eval_X, eval_sub]
    field_simp
  obtain ⟨d, g, _, h2, _, h4⟩ := C78_nucleus S (fun _ _ => rfl) (by decide)
  have hin : ∀ q ∈ ([(-(1 / 2), 2 / 3), (0, 2 / 3), (1 / 2, 2 / 3)] : List (ℝ × ℝ)), -1 < q.1 := by
    intro q hq
    simp only [List.mem_cons, List.not_mem_nil, or_false] at hq
    rcases hq with rfl | rfl | rfl <;> norm_num
  refine ⟨o, φ, _, _, S, hprof, ?_, (C78_arrays S (fun _ _ => rfl) (by decide) hin).2.2.1, rfl⟩
  rw [h2]
  congr 1
  refine tendsto_nhds_unique h4 ?_
  have t : Tendsto (fun r : ℝ => -2 * (2 - r)) (𝓝[>] 0) (𝓝 (-4)) := by
    have : Continuous fun r : ℝ => -2 * (2 - r) := by fun_prop
    have := this.tendsto 0
    norm_num at this
    exact (by simpa using this : Tendsto (fun r : ℝ => -2 * (2 - r)) (𝓝 0) (𝓝 (-4))).mono_left nhdsWithin_le_nhds
  refine t.congr' ?_
  filter_upwards [self_mem_nhdsWithin] with r hr
  have hd : HasDerivAt (fun s : ℝ => (2 - s) ^ 2) (-2 * (2 - r)) r := by
    have := ((hasDerivAt_id r).const_sub 2).pow 2
    refine HasDerivAt.congr_deriv (f := fun s : ℝ => (2 - s) ^ 2) this ?_
    simp
  refine (HasDerivAt.deriv (hd.congr_of_eventuallyEq ?_)).symm
  filter_upwards [Ioi_mem_nhds hr] with s hs
  exact hprof s hs

end Screening
end HelFEM
