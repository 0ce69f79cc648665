import Verif.Lemmas.Radii
import Verif.Props.AtomDB

/-!
# C41, C42, C59: radii read off a density

The basis is any finite element basis that starts at the nucleus, `P` any density matrix of its size, `φ e g` the polynomial basis function `g` on element `e`
(C48) and `rho N P.get φ e` the radial distribution `Σ P_ij φ_i φ_j` on element `e`. The quadrature points are any two or more increasing points of [-1, 1].
-/

namespace HelFEM
namespace Radii
open Grid Poly Finset Polynomial Spec Assembly AtomDB Filter Topology

/-- `d e r` is the electron density at radius `r` of element `e`: the radial distribution over `4πr²`, and at the nucleus the limit. -/
structure IsDensity (ne : Nat) (bval : List ℝ) (rad : Nat → ℝ[X]) (d : Nat → ℝ → ℝ) : Prop where
  radial : ∀ e < ne, ∀ r, bval.getD e 0 ≤ r → r ≤ bval.getD (e + 1) 0 → 4 * Real.pi * r ^ 2 * d e r = (rad e).eval r
  nucleus : Tendsto (d 0) (𝓝[>] 0) (𝓝 (d 0 0))

/-- `r` is a quadrature radius of element `e` -/
def IsSample (bval : List ℝ) (rule : List (ℝ × ℝ)) (e : Nat) (r : ℝ) : Prop := ∃ q ∈ rule, r = coord bval e q.1

variable {f : Family} {n ne : Nat} {zdl zfr zdr : Bool} {x0 : Nat → ℝ} {bval : List ℝ} {o : FEObj ℝ} {N : Nat} {first last : Nat → Nat}
  {φ : Nat → Nat → ℝ[X]} {rule : List (ℝ × ℝ)} {P : Mat ℝ}

theorem Setting.coord_mem (S : Setting f n ne zdl zfr zdr x0 bval o N first last φ rule P) (e : Nat) (he : e < ne) (x : ℝ) (h1 : -1 ≤ x) (h2 : x ≤ 1) :
    bval.getD e 0 ≤ coord bval e x ∧ coord bval e x ≤ bval.getD (e + 1) 0 := by
  have hl := S.basis.len
  have := getD_lt S.basis.inc e (by omega)
  unfold coord
  constructor <;> nlinarith

theorem Setting.density_eq (S : Setting f n ne zdl zfr zdr x0 bval o N first last φ rule P) (d : Nat → ℝ → ℝ) (hd : IsDensity ne bval (rho N P.get φ) d)
    (e : Nat) (he : e < ne) :
    ContinuousOn (fun x => d e (coord bval e x)) (Set.Icc (-1) 1) ∧ ∀ x, -1 ≤ x → x ≤ 1 →
      electronDensity ⟨o, x0, rule⟩ P false e x = .ok (4 * Real.pi * d e (coord bval e x)) ∧
      electronDensity ⟨o, x0, rule⟩ P true e x = .ok ((rho N P.get φ e).eval (coord bval e x)) ∧
      pointDensity ⟨o, x0, rule⟩ P e x = .ok (d e (coord bval e x)) := by
  have hpi := Real.pi_pos
  have hl := S.basis.len
  obtain ⟨g, g1, g2⟩ := S.density e he
  have hpos : ∀ x, -1 ≤ x → x ≤ 1 → coord bval e x ≠ 0 → g x = 4 * Real.pi * d e (coord bval e x) := by
    intro x h1 h2 h3
    obtain ⟨m1, m2⟩ := S.coord_mem e he x h1 h2
    have a := (g2 x).2.2 h1
    have b := hd.radial e he _ m1 m2
    have : coord bval e x ^ 2 ≠ 0 := pow_ne_zero _ h3
    apply mul_left_cancel₀ this
    rw [a, ← b]; ring
  have hall : ∀ x, -1 ≤ x → x ≤ 1 → g x = 4 * Real.pi * d e (coord bval e x) := by
    intro x h1 h2
    by_cases h3 : coord bval e x = 0
    · obtain ⟨p1, p2, p3⟩ := coord_pos S.basis S.origin e he x h1
      have he0 : e = 0 := by
        by_contra hne
        have := p3 hne
        linarith
      subst he0
      have hlt := getD_lt S.basis.inc 0 (by omega)
      have hx : x = -1 := by
        have h4 : coord bval 0 x = (bval.getD 1 0) / 2 * (x + 1) := by unfold coord; rw [S.origin]; ring
        rw [h3] at h4
        rw [S.origin] at hlt
        simp only [zero_add] at hlt
        have : bval.getD 1 0 / 2 ≠ 0 := by linarith
        rcases mul_eq_zero.1 h4.symm with h | h
        · exact absurd h this
        · linarith
      subst hx
      rw [h3]
      have t1 : Tendsto g (𝓝[Set.Ioc (-1) 1] (-1)) (𝓝 (g (-1))) := (g1 (-1) (by simp)).mono_left (nhdsWithin_mono _ Set.Ioc_subset_Icc_self)
      have hco : ∀ y, -1 < y → 0 < coord bval 0 y := by
        intro y hy
        have h4 : coord bval 0 y = (bval.getD 1 0) / 2 * (y + 1) := by unfold coord; rw [S.origin]; ring
        rw [h4]
        rw [S.origin] at hlt
        simp only [zero_add] at hlt
        exact mul_pos (by linarith) (by linarith)
      have t2 : Tendsto (coord bval 0) (𝓝[Set.Ioc (-1) 1] (-1)) (𝓝[>] 0) := by
        apply tendsto_nhdsWithin_iff.2
        refine ⟨?_, ?_⟩
        · have := (coord_cont bval 0).tendsto (-1)
          rw [h3] at this
          exact this.mono_left nhdsWithin_le_nhds
        · filter_upwards [self_mem_nhdsWithin] with y hy
          exact hco y hy.1
      have t3 := (hd.nucleus.comp t2).const_mul (4 * Real.pi)
      have t4 : Tendsto g (𝓝[Set.Ioc (-1) 1] (-1)) (𝓝 (4 * Real.pi * d 0 0)) := by
        refine t3.congr' ?_
        filter_upwards [self_mem_nhdsWithin] with y hy
        exact (hpos y hy.1.le hy.2 (hco y hy.1).ne').symm
      haveI : (𝓝[Set.Ioc (-1 : ℝ) 1] (-1)).NeBot := by
        rw [nhdsWithin_Ioc_eq_nhdsGT (by norm_num)]; infer_instance
      exact tendsto_nhds_unique t1 t4
    · exact hpos x h1 h2 h3
  refine ⟨?_, ?_⟩
  · refine (g1.const_smul (1 / (4 * Real.pi))).congr ?_
    intro x hx
    simp only [Pi.smul_apply, smul_eq_mul]
    rw [hall x hx.1 hx.2]
    field_simp
  · intro x h1 h2
    obtain ⟨a1, a2, a3⟩ := g2 x
    refine ⟨by rw [a1, hall x h1 h2], by rw [a2, ← a3 h1, mul_comm], ?_⟩
    unfold pointDensity
    rw [a1, hall x h1 h2]
    simp only [Res.ok_bind, Res.pure_eq, Res.ok.injEq]
    field_simp

/-- every density matrix has a density -/
theorem density_exists (S : Setting f n ne zdl zfr zdr x0 bval o N first last φ rule P) : ∃ d, IsDensity ne bval (rho N P.get φ) d := by
  have hpi := Real.pi_pos
  have hl := S.basis.len
  have hne := S.basis.nelem
  obtain ⟨g, g1, g2⟩ := S.density 0 (by omega)
  have hlt := getD_lt S.basis.inc 0 (by omega)
  rw [S.origin, zero_add] at hlt
  have hco : ∀ y, coord bval 0 y = (bval.getD 1 0) / 2 * (y + 1) := fun y => by unfold coord; rw [S.origin]; ring
  refine ⟨fun e r => if r = 0 then g (-1) / (4 * Real.pi) else (rho N P.get φ e).eval r / (4 * Real.pi * r ^ 2), ?_, ?_⟩
  · intro e he r h1 h2
    by_cases hr : r = 0
    · obtain ⟨p1, p2, p3⟩ := coord_pos S.basis S.origin e he (-1) le_rfl
      have he0 : e = 0 := by
        by_contra hc
        have := p3 hc
        linarith
      subst he0
      have := (g2 (-1)).2.2 le_rfl
      rw [hco, neg_add_cancel, mul_zero] at this
      rw [hr, ← this]
      simp
    · simp only [if_neg hr]
      field_simp
  · simp only [if_true]
    have t1 : Tendsto (fun r : ℝ => g (2 / bval.getD 1 0 * r - 1)) (𝓝[>] 0) (𝓝 (g (-1))) := by
      have t : Tendsto (fun r : ℝ => 2 / bval.getD 1 0 * r - 1) (𝓝[>] 0) (𝓝[Set.Icc (-1) 1] (-1)) := by
        apply tendsto_nhdsWithin_iff.2
        refine ⟨?_, ?_⟩
        · have : Continuous fun r : ℝ => 2 / bval.getD 1 0 * r - 1 := by fun_prop
          have := this.tendsto 0
          rw [mul_zero, zero_sub] at this
          exact this.mono_left nhdsWithin_le_nhds
        · filter_upwards [self_mem_nhdsWithin, nhdsWithin_le_nhds (Iio_mem_nhds hlt)] with r h1 h2
          have h1 : 0 < r := h1
          have h2 : r < bval.getD 1 0 := h2
          have q : 2 / bval.getD 1 0 * r ≤ 2 := by
            rw [div_mul_eq_mul_div, div_le_iff₀ hlt]; linarith
          have q2 : 0 ≤ 2 / bval.getD 1 0 * r := by positivity
          constructor <;> linarith
      exact (g1 (-1) (by simp)).tendsto.comp t
    refine (t1.div_const (4 * Real.pi)).congr' ?_
    filter_upwards [self_mem_nhdsWithin] with r hr
    have hr : 0 < r := hr
    rw [if_neg hr.ne']
    have := (g2 (2 / bval.getD 1 0 * r - 1)).2.2 (by have : 0 ≤ 2 / bval.getD 1 0 * r := by positivity
                                                     linarith)
    rw [hco, show bval.getD 1 0 / 2 * (2 / bval.getD 1 0 * r - 1 + 1) = r by field_simp; ring] at this
    rw [← this]
    field_simp

/-! ## C41 -/

theorem Setting.sample_mem (S : Setting f n ne zdl zfr zdr x0 bval o N first last φ rule P) (x : ℝ) (hx : x ∈ xq ⟨o, x0, rule⟩) : -1 ≤ x ∧ x ≤ 1 :=
  S.points.mem x hx

theorem Setting.samples (S : Setting f n ne zdl zfr zdr x0 bval o N first last φ rule P) (d : Nat → ℝ → ℝ) (hd : IsDensity ne bval (rho N P.get φ) d)
    (e : Nat) (he : e < ne) : (xq ⟨o, x0, rule⟩).mapM (pointDensity ⟨o, x0, rule⟩ P e) = .ok ((xq ⟨o, x0, rule⟩).map fun x => d e (coord bval e x)) :=
  Res.mapM_ok _ _ _ fun x hx => ((S.density_eq d hd e he).2 x (S.sample_mem x hx).1 (S.sample_mem x hx).2).2.2

theorem map_getD (l : List ℝ) (g : ℝ → ℝ) (i : Nat) (hi : i < l.length) : (l.map g).getD i 0 = g (l.getD i 0) := by
  simp [List.getD_eq_getElem?_getD, hi]

theorem exists_getD (l : List ℝ) (x : ℝ) (hx : x ∈ l) : ∃ i < l.length, l.getD i 0 = x := by
  obtain ⟨i, hi, e⟩ := List.getElem_of_mem hx
  exact ⟨i, hi, by simp [hi, e]⟩

theorem Setting.element (S : Setting f n ne zdl zfr zdr x0 bval o N first last φ rule P) (d : Nat → ℝ → ℝ) (hd : IsDensity ne bval (rho N P.get φ) d) (thr : ℝ) :
    ∀ k ≤ ne, (vdwElement (pointDensity ⟨o, x0, rule⟩ P) (xq ⟨o, x0, rule⟩) thr k = .ok none ∧
        ∀ e < k, ∀ x ∈ xq ⟨o, x0, rule⟩, d e (coord bval e x) ≤ thr) ∨
      ∃ e, vdwElement (pointDensity ⟨o, x0, rule⟩ P) (xq ⟨o, x0, rule⟩) thr k = .ok (some e) ∧ e < k ∧ (∃ x ∈ xq ⟨o, x0, rule⟩, thr < d e (coord bval e x)) ∧
        ∀ e', e < e' → e' < k → ∀ x ∈ xq ⟨o, x0, rule⟩, d e' (coord bval e' x) ≤ thr := by
  intro k
  induction k with
  | zero => intro _; left; exact ⟨rfl, fun e he => absurd he (by omega)⟩
  | succ k ih =>
    intro hk
    have h2 : 2 ≤ (xq ⟨o, x0, rule⟩).length := S.points.two
    obtain ⟨i, v, m1, m2, m3, m4, m5⟩ := maxCoeff_spec ((xq ⟨o, x0, rule⟩).map fun x => d k (coord bval k x)) (by
      intro hc
      have := congrArg List.length hc
      simp only [List.length_map, List.length_nil] at this
      omega)
    rw [List.length_map] at m2 m4
    rw [vdwElement, S.samples d hd k (by omega)]
    simp only [Res.ok_bind, m1]
    have hall : ∀ x ∈ xq ⟨o, x0, rule⟩, d k (coord bval k x) ≤ v := by
      intro x hx
      obtain ⟨j, hj, e⟩ := exists_getD _ x hx
      have := m4 j hj
      rwa [map_getD _ _ _ hj, e] at this
    by_cases hc : thr < v
    · right
      rw [if_pos hc]
      refine ⟨k, rfl, by omega, ⟨(xq ⟨o, x0, rule⟩).getD i 0, ?_, ?_⟩, fun e' h1 h2 => absurd h1 (by omega)⟩
      · simp [List.getD_eq_getElem?_getD, m2]
      · rw [map_getD _ _ _ m2] at m3
        rw [m3]; exact hc
    · rw [if_neg hc]
      rcases ih (by omega) with ⟨a, b⟩ | ⟨e, a, b, c, c'⟩
      · left
        refine ⟨a, fun e he x hx => ?_⟩
        rcases Nat.lt_succ_iff_lt_or_eq.1 he with h | h
        · exact b e h x hx
        · subst h; exact (hall x hx).trans (not_lt.1 hc)
      · right
        refine ⟨e, a, by omega, c, fun e' h1 h2 x hx => ?_⟩
        rcases Nat.lt_succ_iff_lt_or_eq.1 h2 with h | h
        · exact c' e' h1 h x hx
        · subst h; exact (hall x hx).trans (not_lt.1 hc)

theorem sample_iff (S : Setting f n ne zdl zfr zdr x0 bval o N first last φ rule P) (e : Nat) (Q : ℝ → Prop) :
    (∀ x ∈ xq ⟨o, x0, rule⟩, Q (coord bval e x)) ↔ ∀ r, IsSample bval rule e r → Q r := by
  unfold xq IsSample
  constructor
  · rintro h r ⟨q, hq, rfl⟩
    exact h _ (List.mem_map.2 ⟨q, hq, rfl⟩)
  · intro h x hx
    obtain ⟨q, hq, rfl⟩ := List.mem_map.1 hx
    exact h _ ⟨q, hq, rfl⟩

/-- **C41, no density above the threshold.** If the density exceeds the threshold at no quadrature radius, the radius is zero. -/
theorem C41_zero (S : Setting f n ne zdl zfr zdr x0 bval o N first last φ rule P) (d : Nat → ℝ → ℝ) (hd : IsDensity ne bval (rho N P.get φ) d) (thr eps : ℝ)
    (h : ∀ e < ne, ∀ r, IsSample bval rule e r → d e r ≤ thr) : vdwRadius ⟨o, x0, rule⟩ P thr eps = .ok 0 := by
  unfold vdwRadius
  rw [S.nel]
  rcases S.element d hd thr ne le_rfl with ⟨a, _⟩ | ⟨e, _, b, ⟨x, hx, c⟩, _⟩
  · rw [a]; rfl
  · have := (sample_iff S e (fun r => d e r ≤ thr)).2 (h e b) x hx
    exact absurd c (not_lt.2 this)

/-- the search starts in the outermost element with a quadrature radius above the threshold -/
theorem Setting.refine (S : Setting f n ne zdl zfr zdr x0 bval o N first last φ rule P) (d : Nat → ℝ → ℝ) (hd : IsDensity ne bval (rho N P.get φ) d) (thr eps : ℝ)
    (e : Nat) (he : e < ne) (h1 : ∃ r, IsSample bval rule e r ∧ thr < d e r) (h2 : ∀ e', e < e' → e' < ne → ∀ r, IsSample bval rule e' r → d e' r ≤ thr) :
    vdwRadius ⟨o, x0, rule⟩ P thr eps = vdwRefine ⟨o, x0, rule⟩ P thr eps e := by
  obtain ⟨r, ⟨q, hq, rfl⟩, hr⟩ := h1
  have hqx : q.1 ∈ xq ⟨o, x0, rule⟩ := List.mem_map.2 ⟨q, hq, rfl⟩
  unfold vdwRadius
  rw [S.nel]
  rcases S.element d hd thr ne le_rfl with ⟨_, a⟩ | ⟨e', a, b, ⟨x, hx, c⟩, c'⟩
  · exact absurd hr (not_lt.2 (a e he _ hqx))
  · have : e' = e := by
      rcases lt_trichotomy e' e with h | h | h
      · exact absurd hr (not_lt.2 (c' e h he _ hqx))
      · exact h
      · exact absurd c (not_lt.2 ((sample_iff S e' (fun r => d e' r ≤ thr)).2 (h2 e' h b) x hx))
    rw [a, this]
    rfl

theorem coord_diff (bval : List ℝ) (e : Nat) (x y : ℝ) : coord bval e x - coord bval e y = (bval.getD (e + 1) 0 - bval.getD e 0) / 2 * (x - y) := by unfold coord; ring

theorem Setting.coord_dist (S : Setting f n ne zdl zfr zdr x0 bval o N first last φ rule P) (e : Nat) (he : e < ne) (x y c : ℝ) (h : |x - y| ≤ c) :
    |coord bval e x - coord bval e y| ≤ c * ((bval.getD (e + 1) 0 - bval.getD e 0) / 2) := by
  have hl := S.basis.len
  have := getD_lt S.basis.inc e (by omega)
  rw [coord_diff, abs_mul, abs_of_pos (by linarith), mul_comm]
  exact mul_le_mul_of_nonneg_right h (by linarith)

theorem Setting.coord_lt (S : Setting f n ne zdl zfr zdr x0 bval o N first last φ rule P) (e : Nat) (he : e < ne) (x y : ℝ) (h : x < y) : coord bval e x < coord bval e y := by
  have hl := S.basis.len
  have := getD_lt S.basis.inc e (by omega)
  have := coord_diff bval e y x
  have : 0 < (bval.getD (e + 1) 0 - bval.getD e 0) / 2 * (y - x) := mul_pos (by linarith) (by linarith)
  linarith

theorem two_small (c : ℝ) (h : (1 / 2) ^ 97 < c) : (2 : ℝ) < c * 2 ^ 98 := by
  have e : (1 / 2 : ℝ) ^ 97 * 2 ^ 98 = 2 := by norm_num
  have := mul_lt_mul_of_pos_right h (show (0 : ℝ) < 2 ^ 98 by norm_num)
  linarith

theorem vdwRefine_eq (S : Setting f n ne zdl zfr zdr x0 bval o N first last φ rule P) (d : Nat → ℝ → ℝ) (hd : IsDensity ne bval (rho N P.get φ) d) (thr eps : ℝ)
    (e : Nat) (he : e < ne) :
    ∃ i a b, i < (xq ⟨o, x0, rule⟩).length ∧
      (∀ j < (xq ⟨o, x0, rule⟩).length, |d e (coord bval e ((xq ⟨o, x0, rule⟩).getD i 0)) - thr| ≤ |d e (coord bval e ((xq ⟨o, x0, rule⟩).getD j 0)) - thr|) ∧
      bracket (xq ⟨o, x0, rule⟩) i = .ok (a, b) ∧ vdwRefine ⟨o, x0, rule⟩ P thr eps e = (do
        let r ← vdwBisect (pointDensity ⟨o, x0, rule⟩ P e) eps 100 a b
        Radii.getR ⟨o, x0, rule⟩ e ((r.1 + r.2) / 2)) := by
  have h2 : 2 ≤ (xq ⟨o, x0, rule⟩).length := S.points.two
  obtain ⟨i, m1, m2, m3, _⟩ := minPlace_spec (((xq ⟨o, x0, rule⟩).map fun x => d e (coord bval e x)).map fun v => |v - thr|) (by
    intro hc
    have := congrArg List.length hc
    simp only [List.length_map, List.length_nil] at this
    omega)
  simp only [List.length_map] at m2 m3
  obtain ⟨a, b, b1, _⟩ := bracket_spec S.points i m2
  refine ⟨i, a, b, m2, ?_, b1, ?_⟩
  · intro j hj
    have := m3 j hj
    rw [List.map_map, map_getD _ _ _ hj, map_getD _ _ _ m2] at this
    exact this
  · unfold vdwRefine
    rw [S.samples d hd e he]
    simp only [Res.ok_bind, m1, show bracket (xq ⟨o, x0, rule⟩) i = .ok (a, b) from b1]

/-- **C41, when the tolerance equals the threshold.** The bisection compares the density with its convergence tolerance. If that happens to equal the threshold,
and the density decreases through the threshold inside the outermost element with a quadrature radius above it, the radius returned is within
`threshold/2` half-lengths of a radius at which the density is the threshold. For a tolerance that differs from the threshold the claim fails, see
`C41_tolerance_is_not_the_threshold`. -/
theorem C41_threshold_partial (S : Setting f n ne zdl zfr zdr x0 bval o N first last φ rule P) (d : Nat → ℝ → ℝ) (hd : IsDensity ne bval (rho N P.get φ) d)
    (thr eps : ℝ) (hthr : (1 / 2) ^ 97 < thr) (heps : eps = thr) (e : Nat) (he : e < ne) (h1 : ∃ r, IsSample bval rule e r ∧ thr < d e r)
    (h2 : ∀ e', e < e' → e' < ne → ∀ r, IsSample bval rule e' r → d e' r ≤ thr)
    (hanti : StrictAntiOn (d e) (Set.Icc (bval.getD e 0) (bval.getD (e + 1) 0))) (hend : d e (bval.getD (e + 1) 0) ≤ thr) :
    ∃ R Rt, vdwRadius ⟨o, x0, rule⟩ P thr eps = .ok R ∧ bval.getD e 0 ≤ Rt ∧ Rt ≤ bval.getD (e + 1) 0 ∧ d e Rt = thr ∧
      |R - Rt| ≤ thr / 2 * ((bval.getD (e + 1) 0 - bval.getD e 0) / 2) := by
  subst heps
  have h0 : 0 < eps := lt_trans (by positivity) hthr
  rw [S.refine d hd eps eps e he h1 h2]
  obtain ⟨hc, hval⟩ := S.density_eq d hd e he
  obtain ⟨i, a, b, i1, i2, b1, r1⟩ := vdwRefine_eq S d hd eps eps e he
  obtain ⟨a', b', b1', c1, c2, c3, c4, c5, c6, c7⟩ := bracket_spec S.points i i1
  have hab : a = a' ∧ b = b' := by
    have := Res.ok.inj (b1.symm.trans b1')
    exact ⟨congrArg Prod.fst this, congrArg Prod.snd this⟩
  obtain ⟨rfl, rfl⟩ := hab
  obtain ⟨r, ⟨q, hq, rfl⟩, hr⟩ := h1
  have hqx : q.1 ∈ xq ⟨o, x0, rule⟩ := List.mem_map.2 ⟨q, hq, rfl⟩
  have hqm := S.sample_mem q.1 hqx
  have dec : ∀ x y, -1 ≤ x → x < y → y ≤ 1 → d e (coord bval e y) < d e (coord bval e x) := fun x y p1 p2 p3 =>
    hanti (S.coord_mem e he x p1 (by linarith)) (S.coord_mem e he y (by linarith) p3) (S.coord_lt e he x y p2)
  have hin := S.points.bounds
  have da : eps ≤ d e (coord bval e a) := by
    rcases c6 with ⟨_, rfl⟩ | ⟨p, rfl⟩
    · rcases hqm.1.eq_or_lt with h | h
      · rw [h]; exact hr.le
      · exact (hr.trans (dec _ _ le_rfl h hqm.2)).le
    · by_contra hlt
      rw [not_le] at hlt
      have t1 := dec _ _ (hin (i - 1) (by unfold xq at i1; omega)).1 (S.points.lt (i - 1) i (by omega) i1) (hin i i1).2
      have t2 := i2 (i - 1) (by omega)
      unfold xq at t2
      rw [abs_of_neg (by linarith), abs_of_neg (by linarith)] at t2
      linarith
  have db : d e (coord bval e b) ≤ eps := by
    rcases c7 with ⟨_, rfl⟩ | ⟨p, rfl⟩
    · rw [coord_right]; exact hend
    · by_contra hlt
      rw [not_le] at hlt
      have t1 := dec _ _ (hin i i1).1 (S.points.lt i (i + 1) (by omega) p) (hin (i + 1) p).2
      have t2 := i2 (i + 1) (by unfold xq; exact p)
      unfold xq at t2
      rw [abs_of_pos (by linarith), abs_of_pos (by linarith)] at t2
      linarith
  obtain ⟨p, p', z, v1, v2, v3, v4, v5, v6, v7⟩ := vdwBisect_spec (pointDensity ⟨o, x0, rule⟩ P e) (fun x => d e (coord bval e x)) eps (-1) 1 h0
    (fun x p1 p2 => (hval x p1 p2).2.2) hc 98 100 a b c1 c2.le c3 da db (by have := two_small eps hthr; linarith) (by omega)
  refine ⟨coord bval e ((p + p') / 2), coord bval e z, ?_, (S.coord_mem e he z v4 v5).1, (S.coord_mem e he z v4 v5).2, v6, S.coord_dist e he _ _ _ v7⟩
  rw [r1, v1]
  exact S.getR e he _

/-- **C41, what is returned in general.** Let the quadrature radius whose density is closest to the threshold be the one numbered `i` in its element. If the density stays
above the *tolerance* between its neighbours (or the element ends), then the bisection converges to the right neighbour (or the end of the element), whatever the
threshold. -/
theorem C41_returns_neighbour (S : Setting f n ne zdl zfr zdr x0 bval o N first last φ rule P) (d : Nat → ℝ → ℝ) (hd : IsDensity ne bval (rho N P.get φ) d)
    (thr eps : ℝ) (heps : (1 / 2) ^ 97 < eps) (e : Nat) (he : e < ne) (h1 : ∃ r, IsSample bval rule e r ∧ thr < d e r)
    (h2 : ∀ e', e < e' → e' < ne → ∀ r, IsSample bval rule e' r → d e' r ≤ thr)
    (habove : ∀ r, bval.getD e 0 ≤ r → r ≤ bval.getD (e + 1) 0 → eps < d e r) :
    ∃ R Rt, vdwRadius ⟨o, x0, rule⟩ P thr eps = .ok R ∧ |R - Rt| ≤ eps / 2 * ((bval.getD (e + 1) 0 - bval.getD e 0) / 2) ∧
      ∃ q ∈ rule, (∀ r, IsSample bval rule e r → |d e (coord bval e q.1) - thr| ≤ |d e r - thr|) ∧ coord bval e q.1 ≤ Rt ∧
        (Rt = bval.getD (e + 1) 0 ∨ (IsSample bval rule e Rt ∧ coord bval e q.1 < Rt)) := by
  have h0 : 0 < eps := lt_trans (by positivity) heps
  rw [S.refine d hd thr eps e he h1 h2]
  obtain ⟨hc, hval⟩ := S.density_eq d hd e he
  obtain ⟨i, a, b, i1, i2, b1, r1⟩ := vdwRefine_eq S d hd thr eps e he
  obtain ⟨a', b', b1', c1, c2, c3, c4, c5, c6, c7⟩ := bracket_spec S.points i i1
  have hab : a = a' ∧ b = b' := by
    have := Res.ok.inj (b1.symm.trans b1')
    exact ⟨congrArg Prod.fst this, congrArg Prod.snd this⟩
  obtain ⟨rfl, rfl⟩ := hab
  obtain ⟨p, v1, v2, v3, v4⟩ := vdwBisect_above (pointDensity ⟨o, x0, rule⟩ P e) (fun x => d e (coord bval e x)) eps (-1) 1
    (fun x p1 p2 => (hval x p1 p2).2.2) b c3 (fun x p1 p2 => habove _ (S.coord_mem e he x p1 (by linarith)).1 (S.coord_mem e he x p1 (by linarith)).2)
    98 100 a c1 c2.le (by have := two_small eps heps; linarith) (by omega)
  have hmem : ∀ j < (rule.map Prod.fst).length, ∃ q ∈ rule, q.1 = (rule.map Prod.fst).getD j 0 := by
    intro j hj
    have : (rule.map Prod.fst).getD j 0 ∈ rule.map Prod.fst := by simp only [List.getD_eq_getElem?_getD, List.getElem?_eq_getElem hj, Option.getD_some]; exact List.getElem_mem hj
    obtain ⟨q, hq, e⟩ := List.mem_map.1 this
    exact ⟨q, hq, e⟩
  obtain ⟨q, hq, eq⟩ := hmem i i1
  refine ⟨coord bval e ((p + b) / 2), coord bval e b, ?_, S.coord_dist e he _ _ _ (by rw [abs_le]; constructor <;> linarith), q, hq, ?_, ?_, ?_⟩
  · rw [r1, v1]
    exact S.getR e he _
  · rintro r ⟨q', hq', rfl⟩
    obtain ⟨j, hj, ej⟩ := exists_getD (rule.map Prod.fst) q'.1 (List.mem_map.2 ⟨q', hq', rfl⟩)
    have := i2 j hj
    unfold xq at this
    rw [ej, ← eq] at this
    exact this
  · rw [eq]
    rcases c5.eq_or_lt with h | h
    · rw [h]
    · exact (S.coord_lt e he _ _ h).le
  · rcases c7 with ⟨_, rfl⟩ | ⟨hlt, rfl⟩
    · left; exact coord_right bval e
    · right
      obtain ⟨q', hq', eq'⟩ := hmem (i + 1) hlt
      exact ⟨⟨q', hq', by rw [eq']⟩, by rw [eq]; exact S.coord_lt e he _ _ (S.points.lt i (i + 1) (by omega) hlt)⟩

/-! ### A concrete atom: linear elements on 0 < 1 < 3 -/

theorem outer_piece : piece .lip 0 2 true false true false [0, 1, 3] (fun k => 2 * (k : ℝ) - 1) (fun _ => 0) 1 0 = C (1 / 2) * (C 3 - X) := by
  have : enBlocks .lip 0 1 2 true false true false = [0] := by decide
  unfold piece
  rw [this]
  simp only [onElement, primPoly, Lagrange.basis, le_refl, if_true, Nat.sub_self, List.getElem?_cons_zero]
  rw [show (range (0 + 2)).erase 0 = {1} by decide, prod_singleton]
  apply Polynomial.funext
  intro r
  simp [Lagrange.basisDivisor]
  ring

/-- one function, density matrix `4π` -/
noncomputable def exampleP : Mat ℝ := ⟨1, 1, fun _ _ => 4 * Real.pi⟩

/-- its density: constant in the first element, `((3 - r)/(2r))²` in the second -/
noncomputable def exampleD (e : Nat) (r : ℝ) : ℝ := if e = 0 then 1 else ((3 - r) / (2 * r)) ^ 2

theorem setting_example (rule : List (ℝ × ℝ)) (hr : GoodPoints (rule.map Prod.fst)) :
    ∃ o φ, Setting .lip 2 2 false true false (fun k => 2 * (k : ℝ) - 1) [0, 1, 3] o 1 (fun _ => 0) (fun _ => 0) φ rule exampleP ∧
      IsDensity 2 [0, 1, 3] (rho 1 exampleP.get φ) exampleD ∧ φ 0 0 = X ∧ φ 1 0 = C (1 / 2) * (C 3 - X) := by
  have hb : ∃ o, Basis .lip 2 2 true false true false (fun k => 2 * (k : ℝ) - 1) [0, 1, 3] o 1 (fun _ => 0) (fun _ => 0) := by
    refine ⟨_, good_two, by omega, rfl, by norm_num, rfl, by decide, by omega, ?_⟩
    intro e he
    interval_cases e <;> rfl
  obtain ⟨o, hb⟩ := hb
  obtain ⟨φ, hφ, _, _⟩ := C48_pieces hb
  have e0 : φ 0 0 = X := by
    rw [hb.pieces_unique φ _ hφ hb.piece_isPieces 0 (by omega) 0]
    exact example_piece
  have e1 : φ 1 0 = C (1 / 2) * (C 3 - X) := by
    rw [hb.pieces_unique φ _ hφ hb.piece_isPieces 1 (by omega) 0]
    exact outer_piece
  refine ⟨o, φ, ⟨hb, hφ, rfl, le_rfl, hr, rfl, rfl⟩, ⟨?_, ?_⟩, e0, e1⟩
  · intro e he r h1 h2
    interval_cases e
    · simp [exampleD, rho, exampleP, e0, pow_two]
    · have h1' : (1 : ℝ) ≤ r := by simpa using h1
      have hr : r ≠ 0 := by linarith
      simp [exampleD, rho, exampleP, e1]
      field_simp
  · simp only [exampleD, if_true]
    exact tendsto_const_nhds

theorem points_three : GoodPoints (([(-1, 1 / 3), (0, 4 / 3), (1, 1 / 3)] : List (ℝ × ℝ)).map Prod.fst) := by
  refine ⟨by norm_num, ?_, by simp⟩
  intro t ht
  simp only [List.map_cons, List.map_nil, List.mem_cons, List.not_mem_nil, or_false] at ht
  rcases ht with rfl | rfl | rfl <;> norm_num

theorem points_two : GoodPoints (([(-(1 / 2), 1), (1 / 2, 1)] : List (ℝ × ℝ)).map Prod.fst) := by
  refine ⟨by norm_num, ?_, by simp⟩
  intro t ht
  simp only [List.map_cons, List.map_nil, List.mem_cons, List.not_mem_nil, or_false] at ht
  rcases ht with rfl | rfl <;> norm_num

theorem coord_one (x : ℝ) : coord [0, 1, 3] 1 x = 2 + x := by
  unfold coord; simp; ring

theorem coord_zero (x : ℝ) : coord [0, 1, 3] 0 x = (1 + x) / 2 := by
  unfold coord; simp; ring

theorem exampleD_anti : StrictAntiOn (exampleD 1) (Set.Icc 1 3) := by
  intro r hr s hs h
  have h1 : 0 < r := by linarith [hr.1]
  have h2 : 0 < s := by linarith [hs.1]
  simp only [exampleD, one_ne_zero, if_false]
  have : (3 - s) / (2 * s) < (3 - r) / (2 * r) := by
    rw [div_lt_div_iff₀ (by linarith) (by linarith)]
    nlinarith
  have h0 : 0 ≤ (3 - s) / (2 * s) := div_nonneg (by linarith [hs.2]) (by linarith)
  nlinarith

/-- **C41 fails.** With the threshold 1/10 and the tolerance 1/100, in an atom whose density decreases from 1 to 0 across the outer element, the radius returned is one
where the density is 1/100, although there is one where it is 1/10. -/
theorem C41_tolerance_is_not_the_threshold : ∃ (o : FEObj ℝ) (φ : Nat → Nat → ℝ[X]) (rule : List (ℝ × ℝ)) (d : Nat → ℝ → ℝ) (R Rt : ℝ),
    Setting .lip 2 2 false true false (fun k => 2 * (k : ℝ) - 1) [0, 1, 3] o 1 (fun _ => 0) (fun _ => 0) φ rule exampleP ∧
    IsDensity 2 [0, 1, 3] (rho 1 exampleP.get φ) d ∧ StrictAntiOn (d 1) (Set.Icc 1 3) ∧
    vdwRadius ⟨o, fun k => 2 * (k : ℝ) - 1, rule⟩ exampleP (1 / 10) (1 / 100) = .ok R ∧ 1 < R ∧ R < 3 ∧ d 1 R = 1 / 100 ∧ 1 < Rt ∧ Rt < 3 ∧ d 1 Rt = 1 / 10 := by
  obtain ⟨o, φ, S, hd, _, _⟩ := setting_example [(-1, 1 / 3), (0, 4 / 3), (1, 1 / 3)] points_three
  obtain ⟨hc, hval⟩ := S.density_eq exampleD hd 1 (by omega)
  have hv : ∀ x, -1 ≤ x → x ≤ 1 → pointDensity ⟨o, fun k => 2 * (k : ℝ) - 1, [(-1, 1 / 3), (0, 4 / 3), (1, 1 / 3)]⟩ exampleP 1 x = .ok (((1 - x) / (2 * (2 + x))) ^ 2) := by
    intro x h1 h2
    rw [(hval x h1 h2).2.2, coord_one]
    simp only [exampleD, one_ne_zero, if_false]
    rw [show (3 : ℝ) - (2 + x) = 1 - x by ring]
  obtain ⟨Rt, hRt, eRt⟩ : ∃ Rt ∈ Set.Icc (1 : ℝ) 2, exampleD 1 Rt = 1 / 10 := by
    apply intermediate_value_Icc' (by norm_num : (1 : ℝ) ≤ 2) (f := exampleD 1)
    · intro r hr
      have : 2 * r ≠ 0 := by linarith [hr.1]
      have hc : ContinuousAt (fun r : ℝ => ((3 - r) / (2 * r)) ^ 2) r := by fun_prop (disch := assumption)
      exact hc.continuousWithinAt
    · constructor <;> norm_num [exampleD]
  refine ⟨o, φ, _, exampleD, 5 / 2, Rt, S, hd, exampleD_anti, ?_, by norm_num, by norm_num, by norm_num [exampleD], ?_, by linarith [hRt.2], eRt⟩
  · rw [S.refine exampleD hd (1 / 10) (1 / 100) 1 (by omega) ⟨1, ⟨(-1, 1 / 3), by simp, by rw [coord_one]; norm_num⟩, by norm_num [exampleD]⟩ (by intro e' h1 h2; omega)]
    obtain ⟨i, a, b, i1, i2, b1, r1⟩ := vdwRefine_eq S exampleD hd (1 / 10) (1 / 100) 1 (by omega)
    have hi : i = 1 := by
      have := i2 1 (by simp [xq])
      simp only [xq, List.map_cons, List.map_nil, List.length_cons, List.length_nil] at i1
      interval_cases i
      · simp only [xq, coord_one, exampleD] at this
        norm_num at this
      · rfl
      · simp only [xq, coord_one, exampleD] at this
        norm_num at this
    subst hi
    have hab : a = -1 ∧ b = 1 := by
      simp [bracket, xq, readAt] at b1
      exact ⟨b1.1.symm, b1.2.symm⟩
    obtain ⟨rfl, rfl⟩ := hab
    rw [r1]
    have s1 : vdwBisect (pointDensity ⟨o, fun k => 2 * (k : ℝ) - 1, [(-1, 1 / 3), (0, 4 / 3), (1, 1 / 3)]⟩ exampleP 1) (1 / 100) 100 (-1) 1 = .ok (0, 1) := by
      rw [vdwBisect, if_pos (by norm_num), hv _ (by norm_num) (by norm_num), Res.ok_bind, if_neg (by norm_num), if_pos (by norm_num)]
      rw [show (-1 : ℝ) + (1 - -1) / 2 = 0 by norm_num]
      rw [vdwBisect, if_pos (by norm_num), hv _ (by norm_num) (by norm_num), Res.ok_bind, if_neg (by norm_num), if_neg (by norm_num)]
    rw [s1, Res.ok_bind, S.getR 1 (by omega), coord_one]
    norm_num
  · rcases hRt.1.eq_or_lt with h | h
    · rw [← h] at eRt; norm_num [exampleD] at eRt
    · exact h

example : ∃ (o : FEObj ℝ) (R Rt : ℝ), vdwRadius ⟨o, fun k => 2 * (k : ℝ) - 1, [(-1, 1 / 3), (0, 4 / 3), (1, 1 / 3)]⟩ exampleP (1 / 10) (1 / 10) = .ok R ∧ exampleD 1 Rt = 1 / 10 ∧
    |R - Rt| ≤ 1 / 20 := by
  obtain ⟨o, φ, S, hd, _, _⟩ := setting_example [(-1, 1 / 3), (0, 4 / 3), (1, 1 / 3)] points_three
  obtain ⟨R, Rt, h1, _, _, h2, h3⟩ := C41_threshold_partial S exampleD hd (1 / 10) (1 / 10) (by norm_num) rfl 1 (by omega)
    ⟨1, ⟨(-1, 1 / 3), by simp, by rw [coord_one]; norm_num⟩, by norm_num [exampleD]⟩ (by intro e' h1 h2; omega) (by simpa using exampleD_anti) (by norm_num [exampleD])
  exact ⟨o, R, Rt, h1, h2, h3.trans (by norm_num)⟩

example : ∃ (o : FEObj ℝ) (R Rt : ℝ), vdwRadius ⟨o, fun k => 2 * (k : ℝ) - 1, [(-(1 / 2), 1), (1 / 2, 1)]⟩ exampleP (1 / 2) (1 / 1000) = .ok R ∧ |R - Rt| ≤ 1 / 1000 := by
  obtain ⟨o, φ, S, hd, _, _⟩ := setting_example _ points_two
  obtain ⟨R, Rt, h1, h2, _⟩ := C41_returns_neighbour S exampleD hd (1 / 2) (1 / 1000) (by norm_num) 0 (by omega)
    ⟨_, ⟨(-(1 / 2), 1), by simp, rfl⟩, by norm_num [exampleD]⟩ (by
      rintro e' h1 h2 r ⟨q, hq, rfl⟩
      obtain rfl : e' = 1 := by omega
      simp only [List.mem_cons, List.not_mem_nil, or_false] at hq
      rcases hq with rfl | rfl <;> (rw [coord_one]; norm_num [exampleD])) (by intro r _ _; norm_num [exampleD])
  exact ⟨o, R, Rt, h1, h2.trans (by norm_num)⟩

example : ∃ o : FEObj ℝ, vdwRadius ⟨o, fun k => 2 * (k : ℝ) - 1, [(-(1 / 2), 1), (1 / 2, 1)]⟩ exampleP 1 (1 / 1000) = .ok 0 := by
  obtain ⟨o, φ, S, hd, _, _⟩ := setting_example _ points_two
  refine ⟨o, C41_zero S exampleD hd 1 (1 / 1000) ?_⟩
  rintro e he r ⟨q, hq, rfl⟩
  simp only [List.mem_cons, List.not_mem_nil, or_false] at hq
  interval_cases e
  · simp [exampleD]
  · rcases hq with rfl | rfl <;> (rw [coord_one]; norm_num [exampleD])

/-! ## C42 -/

/-- `F` is the radial distribution of the electrons as a function of the radius -/
def IsDistribution (ne : Nat) (bval : List ℝ) (rad : Nat → ℝ[X]) (F : ℝ → ℝ) : Prop := ∀ e < ne, ∀ r, bval.getD e 0 < r → r < bval.getD (e + 1) 0 → F r = (rad e).eval r

theorem Setting.tail (S : Setting f n ne zdl zfr zdr x0 bval o N first last φ rule P) (F : ℝ → ℝ) (hF : IsDistribution ne bval (rho N P.get φ) F)
    (e : Nat) (he : e < ne) (r : ℝ) (h1 : bval.getD e 0 ≤ r) (h2 : r ≤ bval.getD (e + 1) 0) :
    ∫ s in r..(bval.getD ne 0), F s = (∫ s in r..(bval.getD (e + 1) 0), (rho N P.get φ e).eval s) +
      ∑ j ∈ Ico (e + 1) ne, ∫ s in (bval.getD j 0)..(bval.getD (j + 1) 0), (rho N P.get φ j).eval s := by
  have hl := S.basis.len
  have hle : ∀ e < ne, bval.getD e 0 ≤ bval.getD (e + 1) 0 := fun e he => (getD_lt S.basis.inc e (by omega)).le
  have hint : ∀ e a b, IntervalIntegrable (fun s => (rho N P.get φ e).eval s) MeasureTheory.volume a b := fun e a b => by
    apply Continuous.intervalIntegrable; fun_prop
  have key := piecewise_integral (fun e => bval.getD e 0) ne hle F (fun e s => (rho N P.get φ e).eval s) (fun e _ r s _ _ _ => hint e r s) hF
  obtain ⟨a1, a2⟩ := key e he r h1 h2
  obtain ⟨c1, c2⟩ := key (ne - 1) (by omega) (bval.getD ne 0) (by have := hle (ne - 1) (by omega); rwa [show ne - 1 + 1 = ne by omega] at this) (by rw [show ne - 1 + 1 = ne by omega])
  have hsplit := intervalIntegral.integral_interval_sub_left c1 a1
  rw [← hsplit, c2, a2]
  have e1 : ∑ j ∈ range (ne - 1), (∫ s in (bval.getD j 0)..(bval.getD (j + 1) 0), (rho N P.get φ j).eval s) +
      ∫ s in (bval.getD (ne - 1) 0)..(bval.getD ne 0), (rho N P.get φ (ne - 1)).eval s = ∑ j ∈ range ne, ∫ s in (bval.getD j 0)..(bval.getD (j + 1) 0), (rho N P.get φ j).eval s := by
    obtain ⟨k, rfl⟩ : ∃ k, ne = k + 1 := ⟨ne - 1, by omega⟩
    rw [sum_range_succ]; rfl
  rw [e1, ← sum_range_add_sum_Ico _ (show e + 1 ≤ ne by omega), sum_range_succ,
    ← intervalIntegral.integral_add_adjacent_intervals (hint e (bval.getD e 0) r) (hint e r (bval.getD (e + 1) 0))]
  ring

theorem Setting.counts (S : Setting f n ne zdl zfr zdr x0 bval o N first last φ rule P) (lob : Nat → List (ℝ × ℝ)) (hlob : GoodLobatto lob)
    (hdeg : 2 * ((PolyBasis.mk' f n).noverlap * n - 1) ≤ 1021) (meps sqrteps : ℝ) (heps : 0 < meps) :
    (List.range ne).mapM (elementCount meps sqrteps lob ⟨o, x0, rule⟩ P) =
      .ok ((List.range ne).map fun e => ∫ r in (bval.getD e 0)..(bval.getD (e + 1) 0), (rho N P.get φ e).eval r) :=
  Res.mapM_ok _ _ _ fun e he => S.count lob hlob hdeg meps sqrteps heps e (List.mem_range.1 he)

theorem Setting.total (S : Setting f n ne zdl zfr zdr x0 bval o N first last φ rule P) (F : ℝ → ℝ) (hF : IsDistribution ne bval (rho N P.get φ) F) :
    ∫ s in (0 : ℝ)..(bval.getD ne 0), F s = ∑ j ∈ range ne, ∫ s in (bval.getD j 0)..(bval.getD (j + 1) 0), (rho N P.get φ j).eval s := by
  have hl := S.basis.len
  have hne := S.basis.nelem
  have := S.tail F hF 0 (by omega) (bval.getD 0 0) le_rfl (getD_lt S.basis.inc 0 (by omega)).le
  rw [S.origin] at this
  rw [this, ← sum_range_add_sum_Ico _ (show 0 + 1 ≤ ne by omega), sum_range_one, S.origin]

theorem outside_cont (p : ℝ[X]) (bval : List ℝ) (e : Nat) (B : ℝ) : Continuous fun x => ∫ r in (coord bval e x)..B, p.eval r := by
  have h : Continuous fun y => ∫ r in B..y, p.eval r := intervalIntegral.continuous_primitive (fun a b => by apply Continuous.intervalIntegrable; fun_prop) B
  have h2 := (h.comp (coord_cont bval e)).neg
  refine h2.congr fun x => ?_
  simp only [Function.comp, Pi.neg_apply]
  rw [← intervalIntegral.integral_symm]

/-- **C42, the radius.** For every request between zero and the number of electrons and every positive tolerance the search ends, and the radius returned is within
`tolerance` half-lengths of the element of a radius in the same element outside which exactly the requested number of electrons lies. What is missing: the number outside the radius returned itself may
exceed the request, see `C42_more_outside`. -/
theorem C42_radius_partial (S : Setting f n ne zdl zfr zdr x0 bval o N first last φ rule P) (lob : Nat → List (ℝ × ℝ)) (hlob : GoodLobatto lob)
    (hdeg : 2 * ((PolyBasis.mk' f n).noverlap * n - 1) ≤ 1021) (meps sqrteps : ℝ) (hmeps : 0 < meps) (F : ℝ → ℝ) (hF : IsDistribution ne bval (rho N P.get φ) F)
    (eps thr : ℝ) (h0 : 0 ≤ eps) (h1 : eps ≤ ∫ r in (0 : ℝ)..(bval.getD ne 0), F r) (hthr : 0 < thr) :
    ∃ fuel0, ∀ fuel ≥ fuel0, ∃ R Rt e, countRadius meps sqrteps lob fuel ⟨o, x0, rule⟩ P eps thr = .ok (some R) ∧ e < ne ∧
      bval.getD e 0 ≤ R ∧ R ≤ bval.getD (e + 1) 0 ∧ bval.getD e 0 ≤ Rt ∧ Rt ≤ bval.getD (e + 1) 0 ∧
      |R - Rt| ≤ thr * ((bval.getD (e + 1) 0 - bval.getD e 0) / 2) ∧ ∫ r in Rt..(bval.getD ne 0), F r = eps := by
  have hne := S.basis.nelem
  obtain ⟨k0, hk0⟩ := two_fuel 2 thr hthr
  refine ⟨k0 + 1, fun fuel hfuel => ?_⟩
  obtain ⟨k, rfl⟩ : ∃ k, fuel = k + 1 := ⟨fuel - 1, by omega⟩
  have hk := hk0 k (by omega)
  unfold countRadius
  rw [S.nel, S.counts lob hlob hdeg meps sqrteps hmeps]
  simp only [Res.ok_bind]
  rw [S.total F hF] at h1
  rcases countElement_spec (fun e => ∫ r in (bval.getD e 0)..(bval.getD (e + 1) 0), (rho N P.get φ e).eval r) ne ne le_rfl eps h0 with ⟨_, _, a⟩ | ⟨e, s, a1, he, a3, a4, a5⟩
  · have := a (by omega)
    linarith
  · rw [a1]
    simp only
    unfold countRefine
    obtain ⟨B, b1, b2⟩ := S.block e he
    have b1' : elementBlock (Db.mk o x0 rule).o P e = .ok B := b1
    rw [b1']
    simp only [Res.ok_bind]
    obtain ⟨m, z, c1, c2, c3, c4, c5, c6, c7⟩ := countBisect_spec (fun x => do
        let M ← radialIntegral meps sqrteps lob ⟨o, x0, rule⟩ 0 e x 1
        traceProduct B M) (fun x => ∫ r in (coord bval e x)..(bval.getD (e + 1) 0), (rho N P.get φ e).eval r) s thr (-1) 1 hthr.le
      (fun x h1 h2 => S.outside lob hlob hdeg meps sqrteps hmeps e he B b2 x h1 h2) (outside_cont _ _ _ _).continuousOn
      k (-1) 1 ((-1) + (1 - (-1)) / 2) le_rfl (by norm_num) le_rfl (by simp only [coord_left]; exact a4)
      (by simp only [coord_right, intervalIntegral.integral_same]; exact a5) (by norm_num) (by norm_num) (by norm_num; linarith)
    rw [c1]
    simp only [Res.ok_bind]
    rw [S.getR e he]
    refine ⟨_, coord bval e z, e, rfl, he, (S.coord_mem e he m c2 c3).1, (S.coord_mem e he m c2 c3).2, (S.coord_mem e he z c4 c5).1, (S.coord_mem e he z c4 c5).2,
      S.coord_dist e he _ _ _ c7, ?_⟩
    rw [S.tail F hF e he _ (S.coord_mem e he z c4 c5).1 (S.coord_mem e he z c4 c5).2, c6, a3]
    ring

/-- **C42 fails outside the range.** A request larger than the number of electrons makes the element index wrap, and the element list is read out of range. -/
theorem C42_out_of_range (S : Setting f n ne zdl zfr zdr x0 bval o N first last φ rule P) (lob : Nat → List (ℝ × ℝ)) (hlob : GoodLobatto lob)
    (hdeg : 2 * ((PolyBasis.mk' f n).noverlap * n - 1) ≤ 1021) (meps sqrteps : ℝ) (hmeps : 0 < meps) (F : ℝ → ℝ) (hF : IsDistribution ne bval (rho N P.get φ) F)
    (hpos : ∀ r, 0 ≤ F r) (eps thr : ℝ) (h1 : ∫ r in (0 : ℝ)..(bval.getD ne 0), F r < eps) (fuel : Nat) :
    countRadius meps sqrteps lob fuel ⟨o, x0, rule⟩ P eps thr = .ub := by
  have hl := S.basis.len
  have hle : ∀ e < ne, bval.getD e 0 ≤ bval.getD (e + 1) 0 := fun e he => (getD_lt S.basis.inc e (by omega)).le
  have hmono : ∀ e ≤ ne, bval.getD 0 0 ≤ bval.getD e 0 := by
    intro e
    induction e with
    | zero => intro _; exact le_rfl
    | succ e ih => intro he; exact (ih (by omega)).trans (hle e (by omega))
  have hc : ∀ e < ne, 0 ≤ ∫ r in (bval.getD e 0)..(bval.getD (e + 1) 0), (rho N P.get φ e).eval r := by
    intro e he
    have : ∫ r in (bval.getD e 0)..(bval.getD (e + 1) 0), (rho N P.get φ e).eval r = ∫ r in (bval.getD e 0)..(bval.getD (e + 1) 0), F r := by
      apply intervalIntegral.integral_congr_uIoo
      intro r hr
      rw [Set.uIoo_of_le (hle e he)] at hr
      exact (hF e he r hr.1 hr.2).symm
    rw [this]
    exact intervalIntegral.integral_nonneg (hle e he) fun r _ => hpos r
  have h0 : 0 ≤ eps := by
    refine le_trans ?_ h1.le
    have := hmono ne le_rfl
    rw [S.origin] at this
    exact intervalIntegral.integral_nonneg this fun r _ => hpos r
  unfold countRadius
  rw [S.nel, S.counts lob hlob hdeg meps sqrteps hmeps]
  simp only [Res.ok_bind]
  rw [S.total F hF] at h1
  rcases countElement_spec (fun e => ∫ r in (bval.getD e 0)..(bval.getD (e + 1) 0), (rho N P.get φ e).eval r) ne ne le_rfl eps h0 with ⟨a, _, _⟩ | ⟨e, s, a1, he, a3, a4, a5⟩
  · rw [a]
  · exfalso
    rw [← sum_range_add_sum_Ico _ (show e + 1 ≤ ne by omega), sum_range_succ] at h1
    have : 0 ≤ ∑ j ∈ range e, ∫ s in (bval.getD j 0)..(bval.getD (j + 1) 0), (rho N P.get φ j).eval s := sum_nonneg fun j hj => hc j (by have := mem_range.1 hj; omega)
    linarith

theorem countBisect_zero (outside : ℝ → Res ℝ) (d : ℝ → ℝ) (thr : ℝ) (hd : ∀ x, -1 ≤ x → x < 1 → outside x = .ok (d x)) (hpos : ∀ x, -1 ≤ x → x < 1 → 0 < d x) :
    ∀ (fuel : Nat) (a m : ℝ), -1 ≤ a → a < 1 → -1 ≤ m → m < 1 → ∀ m', countBisect outside 0 thr fuel a 1 m = .ok (some m') → -1 ≤ m' ∧ m' < 1 := by
  intro fuel
  induction fuel with
  | zero => intro a m _ _ _ _ m' h; simp [countBisect] at h
  | succ fuel ih =>
    intro a m h1 h2 h3 h4 m' h
    rw [countBisect] at h
    by_cases hc : thr ≤ 1 - a
    · have hp := hpos (a + (1 - a) / 2) (by linarith) (by linarith)
      rw [if_pos hc, hd _ (by linarith) (by linarith), Res.ok_bind, if_neg (not_lt.2 hp.le), if_pos hp] at h
      exact ih _ _ (by linarith) (by linarith) (by linarith) (by linarith) m' h
    · rw [if_neg hc] at h
      simp only [Res.ok.injEq, Option.some.injEq] at h
      subst h
      exact ⟨h3, h4⟩

/-- **C42 fails.** If no electron is to lie outside, and the density is positive in the last element, every radius returned has some electrons outside. -/
theorem C42_more_outside (S : Setting f n ne zdl zfr zdr x0 bval o N first last φ rule P) (lob : Nat → List (ℝ × ℝ)) (hlob : GoodLobatto lob)
    (hdeg : 2 * ((PolyBasis.mk' f n).noverlap * n - 1) ≤ 1021) (meps sqrteps : ℝ) (hmeps : 0 < meps) (F : ℝ → ℝ) (hF : IsDistribution ne bval (rho N P.get φ) F)
    (hpos : ∀ r, bval.getD (ne - 1) 0 < r → r < bval.getD ne 0 → 0 < F r) (thr : ℝ) (fuel : Nat) (R : ℝ)
    (hR : countRadius meps sqrteps lob fuel ⟨o, x0, rule⟩ P 0 thr = .ok (some R)) : 0 < ∫ r in R..(bval.getD ne 0), F r := by
  have hl := S.basis.len
  have hne := S.basis.nelem
  have he : ne - 1 < ne := by omega
  have hn1 : ne - 1 + 1 = ne := by omega
  have hd : ∀ x, -1 ≤ x → x < 1 → 0 < ∫ r in (coord bval (ne - 1) x)..(bval.getD (ne - 1 + 1) 0), (rho N P.get φ (ne - 1)).eval r := by
    intro x h1 h2
    have hlt := S.coord_lt (ne - 1) he x 1 h2
    rw [coord_right] at hlt
    apply intervalIntegral.intervalIntegral_pos_of_pos_on (by apply Continuous.intervalIntegrable; fun_prop) _ hlt
    intro r hr
    have hm := (S.coord_mem (ne - 1) he x h1 h2.le).1
    rw [← hF (ne - 1) he r (lt_of_le_of_lt hm hr.1) hr.2]
    exact hpos r (lt_of_le_of_lt hm hr.1) (by have := hr.2; rwa [hn1] at this)
  have hc := hd (-1) le_rfl (by norm_num)
  rw [coord_left] at hc
  unfold countRadius at hR
  rw [S.nel, S.counts lob hlob hdeg meps sqrteps hmeps] at hR
  simp only [Res.ok_bind] at hR
  have hce : countElement ((List.range ne).map fun e => ∫ r in (bval.getD e 0)..(bval.getD (e + 1) 0), (rho N P.get φ e).eval r) ne 0 = some (ne - 1, 0) := by
    obtain ⟨k, rfl⟩ : ∃ k, ne = k + 1 := ⟨ne - 1, by omega⟩
    rw [countElement, if_neg]
    · rfl
    · have hg : ((List.range (k + 1)).map fun e => ∫ r in (bval.getD e 0)..(bval.getD (e + 1) 0), (rho N P.get φ e).eval r).getD k 0 =
          ∫ r in (bval.getD k 0)..(bval.getD (k + 1) 0), (rho N P.get φ k).eval r := by simp [List.getD_eq_getElem?_getD]
      rw [hg]
      exact not_lt.2 hc.le
  rw [hce] at hR
  simp only at hR
  unfold countRefine at hR
  obtain ⟨B, b1, b2⟩ := S.block (ne - 1) he
  have b1' : elementBlock (Db.mk o x0 rule).o P (ne - 1) = .ok B := b1
  rw [b1'] at hR
  simp only [Res.ok_bind] at hR
  cases hb : countBisect (fun x => do
        let M ← radialIntegral meps sqrteps lob ⟨o, x0, rule⟩ 0 (ne - 1) x 1
        traceProduct B M) 0 thr fuel (-1) 1 ((-1) + (1 - (-1)) / 2) with
  | throw x => rw [hb] at hR; simp at hR
  | ub => rw [hb] at hR; simp at hR
  | ok m =>
    cases m with
    | none => rw [hb] at hR; simp at hR
    | some m =>
      obtain ⟨q1, q2⟩ := countBisect_zero _ (fun x => ∫ r in (coord bval (ne - 1) x)..(bval.getD (ne - 1 + 1) 0), (rho N P.get φ (ne - 1)).eval r) thr
        (fun x h1 h2 => S.outside lob hlob hdeg meps sqrteps hmeps (ne - 1) he B b2 x h1 h2) hd fuel (-1) _ le_rfl (by norm_num) (by norm_num) (by norm_num) m hb
      rw [hb] at hR
      simp only [Res.ok_bind, S.getR (ne - 1) he, Res.pure_eq, Res.ok.injEq, Option.some.injEq] at hR
      rw [← hR, S.tail F hF (ne - 1) he _ (S.coord_mem _ he m q1 q2.le).1 (S.coord_mem _ he m q1 q2.le).2, hn1, Ico_self, sum_empty, add_zero]
      have := hd m q1 q2
      rwa [hn1] at this

/-- there are rules of every order as required -/
theorem lobatto_exists : ∃ lob : Nat → List (ℝ × ℝ), GoodLobatto lob := by
  classical
  have h : ∀ D : Nat, ∃ rule : List (ℝ × ℝ), ExactTo rule D ∧ ∀ q ∈ rule, -1 ≤ q.1 ∧ q.1 ≤ 1 := by
    intro D
    let v : Nat → ℝ := fun i => 1 / ((i : ℝ) + 1)
    have hv : Set.InjOn v (range (D + 1) : Finset Nat) := by
      intro a _ b _ hab
      have hab : 1 / ((a : ℝ) + 1) = 1 / ((b : ℝ) + 1) := hab
      have h1 : (a : ℝ) + 1 ≠ 0 := by positivity
      have h2 : (b : ℝ) + 1 ≠ 0 := by positivity
      rw [div_eq_div_iff h1 h2] at hab
      have : (a : ℝ) = b := by linarith
      exact_mod_cast this
    refine ⟨(List.range (D + 1)).map fun i => (v i, ∫ x in (-1 : ℝ)..1, (Lagrange.basis (range (D + 1)) v i).eval x), ?_, ?_⟩
    · intro p hp
      have hdeg : p.degree < ((range (D + 1)).card : Nat) := by
        rw [card_range]
        exact lt_of_le_of_lt degree_le_natDegree (by exact_mod_cast Nat.lt_succ_of_le hp)
      rw [List.map_map, sum_map_range]
      conv_rhs => rw [Lagrange.eq_interpolate hv hdeg]
      simp only [Lagrange.interpolate_apply, eval_finsetSum, eval_mul, eval_C, Function.comp]
      rw [intervalIntegral.integral_finsetSum]
      · apply sum_congr rfl
        intro i _
        rw [intervalIntegral.integral_const_mul, mul_comm]
      · intro i _
        apply Continuous.intervalIntegrable
        fun_prop
    · intro q hq
      obtain ⟨i, _, rfl⟩ := List.mem_map.1 hq
      have h1 : (1 : ℝ) ≤ (i : ℝ) + 1 := by have : (0 : ℝ) ≤ i := Nat.cast_nonneg i
                                            linarith
      refine ⟨?_, ?_⟩
      · have : 0 ≤ 1 / ((i : ℝ) + 1) := by positivity
        exact le_trans (by norm_num) this
      · exact (div_le_one (by positivity)).2 h1
  choose r hr using h
  exact ⟨fun m => r (2 * m - 3), fun m _ => hr _⟩

/-- the concrete atom's distribution -/
noncomputable def exampleF (r : ℝ) : ℝ := if r < 1 then 4 * Real.pi * r ^ 2 else Real.pi * (3 - r) ^ 2

theorem exampleF_dist (φ : Nat → Nat → ℝ[X]) (e0 : φ 0 0 = X) (e1 : φ 1 0 = C (1 / 2) * (C 3 - X)) : IsDistribution 2 [0, 1, 3] (rho 1 exampleP.get φ) exampleF := by
  intro e he r h1 h2
  interval_cases e
  · have h2' : r < 1 := by simpa using h2
    simp only [exampleF, if_pos h2', rho, exampleP, e0, sum_range_one, eval_mul, eval_C, eval_X]
    ring
  · have h1' : 1 < r := by simpa using h1
    simp only [exampleF, if_neg (not_lt.2 h1'.le), rho, exampleP, e1, sum_range_one, eval_mul, eval_C, eval_X, eval_sub]
    ring

example : ∃ (o : FEObj ℝ) (lob : Nat → List (ℝ × ℝ)), (∃ fuel R, countRadius 1 1 lob fuel ⟨o, fun k => 2 * (k : ℝ) - 1, [(-(1 / 2), 1), (1 / 2, 1)]⟩ exampleP 0 (1 / 100) = .ok (some R) ∧
      0 < ∫ r in R..3, exampleF r) ∧
    ∃ eps, countRadius 1 1 lob 5 ⟨o, fun k => 2 * (k : ℝ) - 1, [(-(1 / 2), 1), (1 / 2, 1)]⟩ exampleP eps (1 / 100) = .ub := by
  obtain ⟨o, φ, S, hd, e0, e1⟩ := setting_example _ points_two
  obtain ⟨lob, hlob⟩ := lobatto_exists
  have hF := exampleF_dist φ e0 e1
  have hpos : ∀ r, 0 ≤ exampleF r := by
    intro r
    have := Real.pi_pos
    unfold exampleF
    split <;> positivity
  have hdeg : 2 * ((PolyBasis.mk' .lip 2).noverlap * 2 - 1) ≤ 1021 := by decide
  refine ⟨o, lob, ?_, (∫ r in (0 : ℝ)..3, exampleF r) + 1, C42_out_of_range S lob hlob hdeg 1 1 one_pos exampleF hF hpos _ _ (by simp) 5⟩
  obtain ⟨fuel, h⟩ := C42_radius_partial S lob hlob hdeg 1 1 one_pos exampleF hF 0 (1 / 100) le_rfl (intervalIntegral.integral_nonneg (by norm_num) fun r _ => hpos r) (by norm_num)
  obtain ⟨R, Rt, e, h1, _⟩ := h fuel le_rfl
  refine ⟨fuel, R, h1, ?_⟩
  have := C42_more_outside S lob hlob hdeg 1 1 one_pos exampleF hF (by
    intro r h1 h2
    have h1 : 1 < r := by simpa using h1
    have h2 : r < 3 := by simpa using h2
    have := Real.pi_pos
    have : (3 - r) ≠ 0 := by linarith
    simp only [exampleF, if_neg (not_lt.2 h1.le)]
    positivity) (1 / 100) fuel R h1
  simpa using this

/-! ## C59 -/

/-- what is maximized: the radial distribution, or `4π` times the density -/
noncomputable def target (rsq : Bool) (rad : Nat → ℝ[X]) (d : Nat → ℝ → ℝ) (e : Nat) (r : ℝ) : ℝ := if rsq then (rad e).eval r else 4 * Real.pi * d e r

theorem Setting.target_eq (S : Setting f n ne zdl zfr zdr x0 bval o N first last φ rule P) (d : Nat → ℝ → ℝ) (hd : IsDensity ne bval (rho N P.get φ) d) (rsq : Bool)
    (e : Nat) (he : e < ne) (x : ℝ) (h1 : -1 ≤ x) (h2 : x ≤ 1) :
    electronDensity ⟨o, x0, rule⟩ P rsq e x = .ok (target rsq (rho N P.get φ) d e (coord bval e x)) := by
  obtain ⟨a, b, _⟩ := (S.density_eq d hd e he).2 x h1 h2
  cases rsq
  · exact a
  · exact b

theorem Setting.maximum (S : Setting f n ne zdl zfr zdr x0 bval o N first last φ rule P) (d : Nat → ℝ → ℝ) (hd : IsDensity ne bval (rho N P.get φ) d) (rsq : Bool) (meps eps : ℝ) (fuel : Nat) :
    ∃ e i a b, e < ne ∧ i < (xq ⟨o, x0, rule⟩).length ∧ bracket (xq ⟨o, x0, rule⟩) i = .ok (a, b) ∧
      (∀ e' < ne, ∀ x ∈ xq ⟨o, x0, rule⟩, target rsq (rho N P.get φ) d e' (coord bval e' x) ≤ target rsq (rho N P.get φ) d e (coord bval e ((xq ⟨o, x0, rule⟩).getD i 0))) ∧
      maximumRadius meps fuel ⟨o, x0, rule⟩ P rsq eps = (do
        let r ← golden (electronDensity ⟨o, x0, rule⟩ P rsq e) eps fuel a b
        checkMaximum ⟨o, x0, rule⟩ (electronDensity ⟨o, x0, rule⟩ P rsq) meps e (target rsq (rho N P.get φ) d e (coord bval e ((xq ⟨o, x0, rule⟩).getD i 0))) r) := by
  have h2 : 2 ≤ (xq ⟨o, x0, rule⟩).length := S.points.two
  have hne := S.basis.nelem
  obtain ⟨D, hD⟩ : ∃ D : Nat → ℝ → ℝ, D = fun e x => target rsq (rho N P.get φ) d e (coord bval e x) := ⟨_, rfl⟩
  have hs : ∀ e < ne, (xq ⟨o, x0, rule⟩).mapM (electronDensity ⟨o, x0, rule⟩ P rsq e) = .ok ((xq ⟨o, x0, rule⟩).map (D e)) := fun e he =>
    Res.mapM_ok _ _ _ fun x hx => by rw [S.target_eq d hd rsq e he x (S.sample_mem x hx).1 (S.sample_mem x hx).2, hD]
  have hm : ∀ e, ∃ p : Nat × ℝ, maxCoeff ((xq ⟨o, x0, rule⟩).map (D e)) = .ok p ∧ p.1 < (xq ⟨o, x0, rule⟩).length ∧ D e ((xq ⟨o, x0, rule⟩).getD p.1 0) = p.2 ∧
      ∀ x ∈ xq ⟨o, x0, rule⟩, D e x ≤ p.2 := by
    intro e
    obtain ⟨i, v, m1, m2, m3, m4, m5⟩ := maxCoeff_spec ((xq ⟨o, x0, rule⟩).map (D e)) (by
      intro hc
      have := congrArg List.length hc
      simp only [List.length_map, List.length_nil] at this
      omega)
    rw [List.length_map] at m2 m4
    refine ⟨(i, v), m1, m2, by rw [map_getD _ _ _ m2] at m3; exact m3, ?_⟩
    intro x hx
    obtain ⟨j, hj, e'⟩ := exists_getD _ x hx
    have := m4 j hj
    rwa [map_getD _ _ _ hj, e'] at this
  choose p p1 p2 p3 p4 using hm
  have hden : (List.range ne).mapM (fun iel => do
      let d ← (xq ⟨o, x0, rule⟩).mapM (electronDensity ⟨o, x0, rule⟩ P rsq iel)
      let r ← maxCoeff d
      pure r.2) = .ok ((List.range ne).map fun e => (p e).2) := by
    refine Res.mapM_ok _ _ _ fun e he => ?_
    rw [hs e (List.mem_range.1 he)]
    simp only [Res.ok_bind, p1 e, Res.pure_eq]
  obtain ⟨e, v, m1, m2, m3, m4, m5⟩ := maxCoeff_spec ((List.range ne).map fun e => (p e).2) (by
    intro hc
    have := congrArg List.length hc
    simp at this
    omega)
  simp only [List.length_map, List.length_range] at m2 m4
  have hg : ∀ j < ne, ((List.range ne).map fun e => (p e).2).getD j 0 = (p j).2 := fun j hj => by simp [List.getD_eq_getElem?_getD, hj]
  obtain ⟨a, b, b1, _⟩ := bracket_spec S.points (p e).1 (p2 e)
  have b1' : bracket (xq ⟨o, x0, rule⟩) (p e).1 = .ok (a, b) := b1
  refine ⟨e, (p e).1, a, b, m2, p2 e, b1', ?_, ?_⟩
  · intro e' he' x hx
    have t1 := p4 e' x hx
    have t2 := m4 e' he'
    rw [hg e' he', ← m3, hg e m2, ← p3 e] at t2
    rw [hD] at t1 t2
    exact t1.trans t2
  · unfold maximumRadius
    rw [S.nel, hden]
    simp only [Res.ok_bind, m1]
    rw [hs e m2]
    simp only [Res.ok_bind, p1 e, b1']
    rw [← p3 e, hD]

/-- **C59, a radius of maximal density.** For every density matrix, weighted with `r²` or not, and every positive tolerance the golden section search ends; then either a logic error is reported, or the radius
returned lies in the grid and the density there is, up to a hundred machine epsilons, at least the largest one at the quadrature radii. -/
theorem C59_maximum (S : Setting f n ne zdl zfr zdr x0 bval o N first last φ rule P) (d : Nat → ℝ → ℝ) (hd : IsDensity ne bval (rho N P.get φ) d) (rsq : Bool) (meps eps : ℝ)
    (heps : 0 < eps) : ∃ fuel0, ∀ fuel ≥ fuel0, maximumRadius meps fuel ⟨o, x0, rule⟩ P rsq eps = .throw .logicError ∨
      ∃ R e, maximumRadius meps fuel ⟨o, x0, rule⟩ P rsq eps = .ok (some R) ∧ e < ne ∧ bval.getD e 0 ≤ R ∧ R ≤ bval.getD (e + 1) 0 ∧
        ∀ e' < ne, ∀ r, IsSample bval rule e' r → target rsq (rho N P.get φ) d e' r < target rsq (rho N P.get φ) d e R + 100 * meps := by
  obtain ⟨k0, hk0⟩ := golden_fuel 2 eps heps
  refine ⟨k0 + 1, fun fuel hfuel => ?_⟩
  obtain ⟨k, rfl⟩ : ∃ k, fuel = k + 1 := ⟨fuel - 1, by omega⟩
  have hk := hk0 k (by omega)
  obtain ⟨e, i, a, b, he, i1, b1, hbest, hrun⟩ := S.maximum d hd rsq meps eps (k + 1)
  obtain ⟨a', b', b1', c1, c2, c3, _⟩ := bracket_spec S.points i i1
  have hab : a = a' ∧ b = b' := by
    have := Res.ok.inj (b1.symm.trans b1')
    exact ⟨congrArg Prod.fst this, congrArg Prod.snd this⟩
  obtain ⟨rfl, rfl⟩ := hab
  obtain ⟨p, q, g1, g2, g3, g4, g5, _⟩ := golden_spec (electronDensity ⟨o, x0, rule⟩ P rsq e) (fun x => target rsq (rho N P.get φ) d e (coord bval e x)) eps (-1) 1
    (fun x h1 h2 => S.target_eq d hd rsq e he x h1 h2) k a b c1 c2.le c3 (by linarith)
  rw [hrun, g1]
  simp only [Res.ok_bind, checkMaximum]
  rw [S.target_eq d hd rsq e he _ (by linarith) (by linarith)]
  simp only [Res.ok_bind]
  split
  · left; rfl
  · rename_i hc
    right
    rw [S.getR e he]
    refine ⟨_, e, rfl, he, (S.coord_mem e he _ (by linarith) (by linarith)).1, (S.coord_mem e he _ (by linarith) (by linarith)).2, ?_⟩
    rintro e' he' r ⟨q', hq', rfl⟩
    have := hbest e' he' q'.1 (List.mem_map.2 ⟨q', hq', rfl⟩)
    linarith

/-- **C59, a single maximum.** If the largest density at the quadrature radii occurs in element `e` only and the density has a single maximum `Rmax` in that element, increasing before it and decreasing
after it, then the radius returned is within half the tolerance, in half-lengths of the element, of `Rmax`, unless a logic error is reported. -/
theorem C59_single_maximum (S : Setting f n ne zdl zfr zdr x0 bval o N first last φ rule P) (d : Nat → ℝ → ℝ) (hd : IsDensity ne bval (rho N P.get φ) d) (rsq : Bool) (meps eps : ℝ)
    (heps : 0 < eps) (e : Nat) (he : e < ne) (htop : ∃ r, IsSample bval rule e r ∧ ∀ e' < ne, e' ≠ e → ∀ r', IsSample bval rule e' r' → target rsq (rho N P.get φ) d e' r' < target rsq (rho N P.get φ) d e r)
    (Rmax : ℝ) (hR1 : bval.getD e 0 ≤ Rmax) (hR2 : Rmax ≤ bval.getD (e + 1) 0) (hup : StrictMonoOn (target rsq (rho N P.get φ) d e) (Set.Icc (bval.getD e 0) Rmax))
    (hdown : StrictAntiOn (target rsq (rho N P.get φ) d e) (Set.Icc Rmax (bval.getD (e + 1) 0))) :
    ∃ fuel0, ∀ fuel ≥ fuel0, maximumRadius meps fuel ⟨o, x0, rule⟩ P rsq eps = .throw .logicError ∨
      ∃ R, maximumRadius meps fuel ⟨o, x0, rule⟩ P rsq eps = .ok (some R) ∧ |R - Rmax| ≤ eps / 2 * ((bval.getD (e + 1) 0 - bval.getD e 0) / 2) := by
  have hl := S.basis.len
  obtain ⟨k0, hk0⟩ := golden_fuel 2 eps heps
  refine ⟨k0 + 1, fun fuel hfuel => ?_⟩
  obtain ⟨k, rfl⟩ : ∃ k, fuel = k + 1 := ⟨fuel - 1, by omega⟩
  have hk := hk0 k (by omega)
  obtain ⟨e', i, a, b, he', i1, b1, hbest, hrun⟩ := S.maximum d hd rsq meps eps (k + 1)
  obtain ⟨r, ⟨q, hq, rfl⟩, hr⟩ := htop
  have hmem : ∀ j < (rule.map Prod.fst).length, ∃ q ∈ rule, q.1 = (rule.map Prod.fst).getD j 0 := by
    intro j hj
    have : (rule.map Prod.fst).getD j 0 ∈ rule.map Prod.fst := by simp only [List.getD_eq_getElem?_getD, List.getElem?_eq_getElem hj, Option.getD_some]; exact List.getElem_mem hj
    obtain ⟨q, hq, e⟩ := List.mem_map.1 this
    exact ⟨q, hq, e⟩
  obtain rfl : e' = e := by
    by_contra hne
    obtain ⟨q', hq', eq'⟩ := hmem i i1
    have t1 := hr e' he' hne _ ⟨q', hq', rfl⟩
    have t2 := hbest e he q.1 (List.mem_map.2 ⟨q, hq, rfl⟩)
    rw [eq'] at t1
    exact absurd (lt_of_le_of_lt t2 t1) (lt_irrefl _)
  obtain ⟨a', b', b1', c1, c2, c3, c4, c5, c6, c7⟩ := bracket_spec S.points i i1
  have hab : a = a' ∧ b = b' := by
    have := Res.ok.inj (b1.symm.trans b1')
    exact ⟨congrArg Prod.fst this, congrArg Prod.snd this⟩
  obtain ⟨rfl, rfl⟩ := hab
  obtain ⟨z, hz⟩ := coord_surj S.basis e' he Rmax
  have hco : ∀ x y, x ≤ y ↔ coord bval e' x ≤ coord bval e' y := by
    intro x y
    constructor
    · intro h
      rcases h.eq_or_lt with h | h
      · rw [h]
      · exact (S.coord_lt e' he x y h).le
    · intro h
      by_contra hc
      exact absurd (S.coord_lt e' he y x (not_le.1 hc)) (not_lt.2 h)
  have hz1 : -1 ≤ z := (hco _ _).2 (by rw [coord_left, hz]; exact hR1)
  have hz2 : z ≤ 1 := (hco _ _).2 (by rw [coord_right, hz]; exact hR2)
  obtain ⟨T, hT⟩ : ∃ T : ℝ → ℝ, T = fun x => target rsq (rho N P.get φ) d e' (coord bval e' x) := ⟨_, rfl⟩
  have up : StrictMonoOn T (Set.Icc (-1) z) := by
    intro x hx y hy h
    rw [hT]
    exact hup ⟨(S.coord_mem e' he x hx.1 (by linarith [hx.2])).1, by rw [← hz]; exact (hco _ _).1 hx.2⟩ ⟨(S.coord_mem e' he y hy.1 (by linarith [hy.2])).1, by rw [← hz]; exact (hco _ _).1 hy.2⟩
      (S.coord_lt e' he x y h)
  have down : StrictAntiOn T (Set.Icc z 1) := by
    intro x hx y hy h
    rw [hT]
    exact hdown ⟨by rw [← hz]; exact (hco _ _).1 hx.1, (S.coord_mem e' he x (by linarith [hx.1]) hx.2).2⟩ ⟨by rw [← hz]; exact (hco _ _).1 hy.1, (S.coord_mem e' he y (by linarith [hy.1]) hy.2).2⟩
      (S.coord_lt e' he x y h)
  have hin := S.points.bounds
  have hbT : ∀ j < (rule.map Prod.fst).length, T ((rule.map Prod.fst).getD j 0) ≤ T ((rule.map Prod.fst).getD i 0) := by
    intro j hj
    obtain ⟨q', hq', eq'⟩ := hmem j hj
    have := hbest e' he q'.1 (List.mem_map.2 ⟨q', hq', rfl⟩)
    rw [hT]
    rw [eq'] at this
    exact this
  have haz : a ≤ z := by
    rcases c6 with ⟨_, rfl⟩ | ⟨h, rfl⟩
    · exact hz1
    · by_contra hc
      rw [not_le] at hc
      have i1' : i < (rule.map Prod.fst).length := i1
      have t := S.points.lt (i - 1) i (by omega) i1
      have := down ⟨hc.le, (hin (i - 1) (by omega)).2⟩ ⟨by linarith, (hin i i1).2⟩ t
      exact absurd (hbT (i - 1) (by omega)) (not_le.2 this)
  have hzb : z ≤ b := by
    rcases c7 with ⟨_, rfl⟩ | ⟨h, rfl⟩
    · exact hz2
    · by_contra hc
      rw [not_le] at hc
      have t := S.points.lt i (i + 1) (by omega) h
      have := up ⟨(hin i i1).1, by linarith⟩ ⟨(hin (i + 1) h).1, hc.le⟩ t
      exact absurd (hbT (i + 1) h) (not_le.2 this)
  obtain ⟨p, q, g1, g2, g3, g4, g5, g6⟩ := golden_spec (electronDensity ⟨o, x0, rule⟩ P rsq e') T eps (-1) 1
    (fun x h1 h2 => by rw [hT]; exact S.target_eq d hd rsq e' he x h1 h2) k a b c1 c2.le c3 (by linarith)
  obtain ⟨z1, z2⟩ := g6 z haz hzb up down
  rw [hrun, g1]
  simp only [Res.ok_bind, checkMaximum]
  rw [S.target_eq d hd rsq e' he _ (by linarith) (by linarith)]
  simp only [Res.ok_bind]
  split
  · left; rfl
  · right
    rw [S.getR e' he]
    refine ⟨_, rfl, ?_⟩
    rw [← hz]
    apply S.coord_dist e' he
    rw [abs_le]; constructor <;> linarith

theorem points_left : GoodPoints (([(-(1 / 2), 1), (0, 1)] : List (ℝ × ℝ)).map Prod.fst) := by
  refine ⟨by norm_num, ?_, by simp⟩
  intro t ht
  simp only [List.map_cons, List.map_nil, List.mem_cons, List.not_mem_nil, or_false] at ht
  rcases ht with rfl | rfl <;> norm_num

/-- in the concrete atom the distribution has its maximum at 1, the left end of the outer element -/
example : ∃ (o : FEObj ℝ) (fuel : Nat), maximumRadius (1 / 1000) fuel ⟨o, fun k => 2 * (k : ℝ) - 1, [(-(1 / 2), 1), (0, 1)]⟩ exampleP true (1 / 100) = .throw .logicError ∨
    ∃ R, maximumRadius (1 / 1000) fuel ⟨o, fun k => 2 * (k : ℝ) - 1, [(-(1 / 2), 1), (0, 1)]⟩ exampleP true (1 / 100) = .ok (some R) ∧ |R - 1| ≤ 1 / 200 := by
  obtain ⟨o, φ, S, hd, e0, e1⟩ := setting_example _ points_left
  have hpi := Real.pi_pos
  have t0 : ∀ r, target true (rho 1 exampleP.get φ) exampleD 0 r = 4 * Real.pi * r ^ 2 := fun r => by
    simp only [target, if_true, rho, exampleP, e0, sum_range_one, eval_mul, eval_C, eval_X]; ring
  have t1 : ∀ r, target true (rho 1 exampleP.get φ) exampleD 1 r = Real.pi * (3 - r) ^ 2 := fun r => by
    simp only [target, if_true, rho, exampleP, e1, sum_range_one, eval_mul, eval_C, eval_X, eval_sub]; ring
  obtain ⟨fuel, h⟩ := C59_single_maximum S exampleD hd true (1 / 1000) (1 / 100) (by norm_num) 1 (by omega) ⟨_, ⟨(-(1 / 2), 1), by simp, rfl⟩, by
      rintro e' he' hne r ⟨q, hq, rfl⟩
      obtain rfl : e' = 0 := by omega
      rw [t0, t1, coord_one, coord_zero]
      simp only [List.mem_cons, List.not_mem_nil, or_false] at hq
      rcases hq with rfl | rfl <;> (norm_num; linarith)⟩ 1 (by simp) (by simp) (by
      intro x hx y hy h
      simp at hx hy
      linarith) (by
      intro x hx y hy h
      simp at hx hy
      simp only [t1]
      have : (3 - y) ^ 2 < (3 - x) ^ 2 := by nlinarith
      exact mul_lt_mul_of_pos_left this hpi)
  refine ⟨o, fuel, (h fuel le_rfl).imp_right ?_⟩
  rintro ⟨R, h1, h2⟩
  exact ⟨R, h1, h2.trans (by norm_num)⟩

/-- and the search succeeds when the first interval is already short enough -/
example : ∃ o : FEObj ℝ, maximumRadius (1 / 1000) 1 ⟨o, fun k => 2 * (k : ℝ) - 1, [(-(1 / 2), 1), (0, 1)]⟩ exampleP true 3 = .ok (some (3 / 2)) := by
  obtain ⟨o, φ, S, hd, e0, e1⟩ := setting_example _ points_left
  have hpi := Real.pi_pos
  have t0 : ∀ r, target true (rho 1 exampleP.get φ) exampleD 0 r = 4 * Real.pi * r ^ 2 := fun r => by
    simp only [target, if_true, rho, exampleP, e0, sum_range_one, eval_mul, eval_C, eval_X]; ring
  have t1 : ∀ r, target true (rho 1 exampleP.get φ) exampleD 1 r = Real.pi * (3 - r) ^ 2 := fun r => by
    simp only [target, if_true, rho, exampleP, e1, sum_range_one, eval_mul, eval_C, eval_X, eval_sub]; ring
  obtain ⟨e, i, a, b, he, i1, b1, hbest, hrun⟩ := S.maximum exampleD hd true (1 / 1000) 3 1
  have hb := hbest 1 (by omega) (-(1 / 2)) (by simp [xq])
  rw [t1, coord_one] at hb
  simp only [xq, List.map_cons, List.map_nil, List.length_cons, List.length_nil] at i1 hb
  have hei : e = 1 ∧ i = 0 := by
    interval_cases e <;> interval_cases i <;> simp [t0, t1, coord_zero, coord_one] at hb ⊢ <;> nlinarith
  obtain ⟨rfl, rfl⟩ := hei
  have hab : a = -1 ∧ b = 0 := by
    simp [bracket, xq, readAt] at b1
    exact ⟨b1.1.symm, b1.2.symm⟩
  obtain ⟨rfl, rfl⟩ := hab
  refine ⟨o, ?_⟩
  rw [hrun, golden, if_neg (by norm_num)]
  simp only [Res.ok_bind, checkMaximum]
  rw [S.target_eq exampleD hd true 1 he _ (by norm_num) (by norm_num)]
  simp only [Res.ok_bind]
  split
  · rename_i hc
    simp only [xq, List.map_cons, List.getD_cons_zero, coord_one] at hc
    norm_num at hc
  · rw [S.getR 1 he]
    simp only [Res.ok_bind, Res.pure_eq, coord_one]; norm_num

end Radii
end HelFEM
