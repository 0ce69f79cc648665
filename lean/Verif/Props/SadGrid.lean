import Verif.Lemmas.SadCoulomb

/-!
# C81: the Coulomb potential of the spherically averaged atom

`F` is the radial distribution of the electrons (C42). The rule is any rule with increasing points inside (-1, 1); the code uses the modified Gauss-Chebyshev rule, which is open.
-/

namespace HelFEM
namespace SadGrid
open Grid Poly Finset Polynomial Spec Assembly AtomDB Radii Screening TwoE

variable {f : Family} {n ne : Nat} {zdl zfr zdr : Bool} {x0 : Nat → ℝ} {bval : List ℝ} {o : FEObj ℝ} {N : Nat} {first last : Nat → Nat}
  {φ : Nat → Nat → ℝ[X]} {rule : List (ℝ × ℝ)} {P : Mat ℝ}

theorem element_le (S : Setting f n ne zdl zfr zdr x0 bval o N first last φ rule P) (e : Nat) (he : e < ne) : bval.getD e 0 ≤ bval.getD (e + 1) 0 := by
  have hl := S.basis.len
  exact (getD_lt S.basis.inc e (by omega)).le

theorem rho_integrable (e : Nat) (a b : ℝ) : IntervalIntegrable (fun s => (rho N P.get φ e).eval s) MeasureTheory.volume a b := by
  apply Continuous.intervalIntegrable
  fun_prop

/-- the charge inside a radius, element by element -/
theorem head (S : Setting f n ne zdl zfr zdr x0 bval o N first last φ rule P) (F : ℝ → ℝ) (hF : IsDistribution ne bval (rho N P.get φ) F)
    (e : Nat) (he : e < ne) (r : ℝ) (h1 : bval.getD e 0 ≤ r) (h2 : r ≤ bval.getD (e + 1) 0) :
    ∫ s in (0 : ℝ)..r, F s = (∑ j ∈ range e, ∫ s in (bval.getD j 0)..(bval.getD (j + 1) 0), (rho N P.get φ j).eval s) + ∫ s in (bval.getD e 0)..r, (rho N P.get φ e).eval s := by
  have key := piecewise_integral (fun e => bval.getD e 0) ne (element_le S) F (fun e s => (rho N P.get φ e).eval s)
    (fun e _ r s _ _ _ => rho_integrable e r s) hF
  have := (key e he r h1 h2).2
  rwa [S.origin] at this

/-- the potential of the charge outside a radius, element by element -/
theorem tail_over (S : Setting f n ne zdl zfr zdr x0 bval o N first last φ rule P) (F : ℝ → ℝ) (hF : IsDistribution ne bval (rho N P.get φ) F)
    (e : Nat) (he : e < ne) (r : ℝ) (h1 : bval.getD e 0 ≤ r) (h2 : r ≤ bval.getD (e + 1) 0) :
    ∫ s in r..(bval.getD ne 0), F s / s = (∫ s in r..(bval.getD (e + 1) 0), (rho N P.get φ e).eval s / s) +
      ∑ j ∈ Ico (e + 1) ne, ∫ s in (bval.getD j 0)..(bval.getD (j + 1) 0), (rho N P.get φ j).eval s / s := by
  have hle := element_le S
  have key := piecewise_integral (fun e => bval.getD e 0) ne hle (fun s => F s / s) (fun e s => (rho N P.get φ e).eval s / s)
    (fun e he r s g1 g2 _ => rho_over_integrable S e he r s g1 g2) (fun e he r g1 g2 => by simp only [hF e he r g1 g2])
  obtain ⟨a1, a2⟩ := key e he r h1 h2
  obtain ⟨c1, c2⟩ := key (ne - 1) (by omega) (bval.getD ne 0) (by have := hle (ne - 1) (by omega); rwa [show ne - 1 + 1 = ne by omega] at this) (by rw [show ne - 1 + 1 = ne by omega])
  have hsplit := intervalIntegral.integral_interval_sub_left c1 a1
  rw [← hsplit, c2, a2]
  have e1 : ∑ j ∈ range (ne - 1), (∫ s in (bval.getD j 0)..(bval.getD (j + 1) 0), (rho N P.get φ j).eval s / s) +
      ∫ s in (bval.getD (ne - 1) 0)..(bval.getD ne 0), (rho N P.get φ (ne - 1)).eval s / s = ∑ j ∈ range ne, ∫ s in (bval.getD j 0)..(bval.getD (j + 1) 0), (rho N P.get φ j).eval s / s := by
    obtain ⟨k, rfl⟩ : ∃ k, ne = k + 1 := ⟨ne - 1, by omega⟩
    rw [sum_range_succ]; rfl
  rw [e1, ← sum_range_add_sum_Ico _ (show e + 1 ≤ ne by omega), sum_range_succ,
    ← intervalIntegral.integral_add_adjacent_intervals (rho_over_integrable S e he _ _ le_rfl h1) (rho_over_integrable S e he _ _ h1 h2)]
  ring

/-- what the quadrature over the segments misses at point `i` of element `e`: the charge inside and `r` times the outer moment -/
noncomputable def screeningError (bval : List ℝ) (rule : List (ℝ × ℝ)) (F : ℝ → ℝ) (e i : Nat) : ℝ :=
  (∑ j ∈ range (i + 1), panelError rule F (cutE bval rule e j) (cutE bval rule e (j + 1))) +
    pt bval rule e i * ∑ j ∈ Ico i rule.length, panelError rule (fun s => F s / s) (cutE bval rule e (j + 1)) (cutE bval rule e (j + 2))

theorem panels_sum (g : ℝ → ℝ) (t : Nat → ℝ) (a m : Nat) (ham : a ≤ m) (hg : ∀ k, a ≤ k → k < m → IntervalIntegrable g MeasureTheory.volume (t k) (t (k + 1))) :
    ∑ k ∈ Ico a m, panel rule g (t k) (t (k + 1)) = (∫ s in (t a)..(t m), g s) + ∑ k ∈ Ico a m, panelError rule g (t k) (t (k + 1)) := by
  have := intervalIntegral.sum_integral_adjacent_intervals_Ico (f := g) (μ := MeasureTheory.volume) ham (fun k hk => hg k hk.1 hk.2)
  rw [← this, ← sum_add_distrib]
  refine sum_congr rfl fun k _ => ?_
  unfold panelError
  ring

/-- **C81.** The screening charge at every point of the grid is the charge inside the point plus the radius times the integral of the distribution over the radius outside it, up
to what the quadrature misses on the segments between consecutive points of the same element. The nucleus comes first, with 0. -/
theorem C81_screening (S : Setting f n ne zdl zfr zdr x0 bval o N first last φ rule P) (F : ℝ → ℝ) (hF : IsDistribution ne bval (rho N P.get φ) F) (ho : Open rule)
    (rint : Int → Nat → Res (Mat ℝ)) (hr : IsRadialIntegral rint ne bval first last φ) :
    coulombScreening rint ⟨o, x0, rule⟩ P = .ok (some 0 :: (List.range ne).flatMap fun e => (List.range rule.length).map fun i => some (
      (∫ s in (0 : ℝ)..(pt bval rule e i), F s) + pt bval rule e i * (∫ s in (pt bval rule e i)..(bval.getD ne 0), F s / s) + screeningError bval rule F e i)) := by
  rw [coulomb_panels S ho rint hr]
  congr 2
  apply List.flatMap_congr
  intro e he
  have he := List.mem_range.1 he
  apply List.map_congr_left
  intro i hi
  have hi := List.mem_range.1 hi
  have hp := pt_mem S ho e he i hi
  congr 1
  have c0 : ∀ k ≤ rule.length, panel rule F (cutE bval rule e k) (cutE bval rule e (k + 1)) = panel rule (fun s => (rho N P.get φ e).eval s) (cutE bval rule e k) (cutE bval rule e (k + 1)) ∧
      panel rule (fun s => F s / s) (cutE bval rule e k) (cutE bval rule e (k + 1)) = panel rule (fun s => (rho N P.get φ e).eval s / s) (cutE bval rule e k) (cutE bval rule e (k + 1)) ∧
      (∫ s in (cutE bval rule e k)..(cutE bval rule e (k + 1)), F s) = (∫ s in (cutE bval rule e k)..(cutE bval rule e (k + 1)), (rho N P.get φ e).eval s) ∧
      (∫ s in (cutE bval rule e k)..(cutE bval rule e (k + 1)), F s / s) = ∫ s in (cutE bval rule e k)..(cutE bval rule e (k + 1)), (rho N P.get φ e).eval s / s := by
    intro k hk
    have h1 := cut_lt S ho e he k hk
    have h2 := cut_ge S ho e he k
    have h3 := cut_ge S ho e he (k + 1)
    have hin : ∀ s, cutE bval rule e k < s → s < cutE bval rule e (k + 1) → F s = (rho N P.get φ e).eval s := fun s g1 g2 => hF e he s (by linarith) (by linarith)
    refine ⟨panel_congr _ _ _ _ _ fun q hq => ?_, panel_congr _ _ _ _ _ fun q hq => ?_, ?_, ?_⟩
    · have := node_mem ho _ _ h1 q hq; exact hin _ this.1 this.2
    · have := node_mem ho _ _ h1 q hq; simp only [hin _ this.1 this.2]
    · apply intervalIntegral.integral_congr_uIoo
      intro s hs
      rw [Set.uIoo_of_le h1.le] at hs
      exact hin s hs.1 hs.2
    · apply intervalIntegral.integral_congr_uIoo
      intro s hs
      rw [Set.uIoo_of_le h1.le] at hs
      simp only [hin s hs.1 hs.2]
  have e0 : ∀ k ≤ rule.length, panelError rule F (cutE bval rule e k) (cutE bval rule e (k + 1)) = panelError rule (fun s => (rho N P.get φ e).eval s) (cutE bval rule e k) (cutE bval rule e (k + 1)) ∧
      panelError rule (fun s => F s / s) (cutE bval rule e k) (cutE bval rule e (k + 1)) = panelError rule (fun s => (rho N P.get φ e).eval s / s) (cutE bval rule e k) (cutE bval rule e (k + 1)) := by
    intro k hk
    obtain ⟨a, b, c, d⟩ := c0 k hk
    unfold panelError
    exact ⟨by rw [a, c], by rw [b, d]⟩
  rw [head S F hF e he _ hp.1.le hp.2.le, tail_over S F hF e he _ hp.1.le hp.2.le]
  have s1 := panels_sum (rule := rule) (fun s => (rho N P.get φ e).eval s) (cutE bval rule e) 0 (i + 1) (by omega) (fun k _ _ => rho_integrable e _ _)
  have s2 := panels_sum (rule := rule) (fun s => (rho N P.get φ e).eval s / s) (cutE bval rule e) (i + 1) (rule.length + 1) (by omega)
    (fun k _ hk => rho_over_integrable S e he _ _ (cut_ge S ho e he k).1 (cut_lt S ho e he k (by omega)).le)
  have shift : ∀ g : Nat → ℝ, ∑ j ∈ Ico (i + 1) (rule.length + 1), g j = ∑ j ∈ Ico i rule.length, g (j + 1) := by
    intro g
    rw [sum_Ico_add' g i rule.length 1]
  rw [shift, shift] at s2
  rw [← range_eq_Ico] at s1
  have z0 : cutE bval rule e 0 = bval.getD e 0 := rfl
  have z1 : cutE bval rule e (rule.length + 1) = bval.getD (e + 1) 0 := by unfold cutE; simp [cut]
  rw [z0, cut_pt e i hi] at s1
  rw [z1, cut_pt e i hi] at s2
  rw [s1, s2]
  unfold screeningError
  rw [sum_congr rfl (fun j hj => (e0 j (by rw [mem_range] at hj; omega)).1), sum_congr rfl (fun j hj => (e0 (j + 1) (by rw [mem_Ico] at hj; omega)).2)]
  ring

theorem panel_poly (D : Nat) (hD : ExactTo rule D) (Q : ℝ[X]) (hQ : Q.natDegree ≤ D) (a b : ℝ) : panelError rule (fun s => Q.eval s) a b = 0 := by
  have := rule_range rule D hD Q hQ 0 1 a b
  simp only [zero_add, one_mul, mul_one] at this
  unfold panelError panel
  rw [sub_eq_zero, ← this, ← List.sum_map_mul_left]
  congr 1
  apply List.map_congr_left
  intro q _
  rw [show (b - a) / 2 * q.1 + (b + a) / 2 = (a + b) / 2 + (b - a) / 2 * q.1 by ring]
  ring

theorem panelError_congr (ho : Open rule) (g h : ℝ → ℝ) (a b : ℝ) (hab : a < b) (e : ∀ s, a < s → s < b → g s = h s) : panelError rule g a b = panelError rule h a b := by
  unfold panelError
  congr 1
  · exact panel_congr _ _ _ _ _ fun q hq => by have := node_mem ho _ _ hab q hq; exact e _ this.1 this.2
  · apply intervalIntegral.integral_congr_uIoo
    intro s hs
    rw [Set.uIoo_of_le hab.le] at hs
    exact e s hs.1 hs.2

theorem rho_over (S : Setting f n ne zdl zfr zdr x0 bval o N first last φ rule P) : ∃ Q, rho N P.get φ 0 = X * Q := by
  have hne := S.basis.nelem
  have : X ∣ rho N P.get φ 0 := by
    rw [rho_window S.basis φ S.pieces P.get 0 (by omega)]
    refine dvd_sum fun i hi => dvd_sum fun j _ => ?_
    obtain ⟨R, hR⟩ := piece_zero S 0 (by omega) S.origin i (mem_range.1 hi)
    rw [hR]
    exact ⟨C (P.get (first 0 + i) (first 0 + j)) * (R * φ 0 (first 0 + j)), by ring⟩
  exact this

/-- **C81, exact rules.** With a rule exact for the products of two basis functions the charge inside is exact, so only the moment outside is approximate; on the innermost element
that is exact too. -/
theorem C81_exact (S : Setting f n ne zdl zfr zdr x0 bval o N first last φ rule P) (F : ℝ → ℝ) (hF : IsDistribution ne bval (rho N P.get φ) F) (ho : Open rule)
    (D : Nat) (hD : ExactTo rule D) (hdeg : 2 * ((PolyBasis.mk' f n).noverlap * n - 1) ≤ D) (e : Nat) (he : e < ne) (i : Nat) (hi : i < rule.length) :
    screeningError bval rule F e i = pt bval rule e i * ∑ j ∈ Ico i rule.length, panelError rule (fun s => F s / s) (cutE bval rule e (j + 1)) (cutE bval rule e (j + 2)) ∧
      (e = 0 → screeningError bval rule F e i = 0) := by
  have hd := rho_deg S.basis φ S.pieces P.get e he
  have hin : ∀ k s, cutE bval rule e k < s → s < cutE bval rule e (k + 1) → F s = (rho N P.get φ e).eval s := fun k s g1 g2 =>
    hF e he s (by linarith [(cut_ge S ho e he k).1]) (by linarith [(cut_ge S ho e he (k + 1)).2])
  have z : ∑ j ∈ range (i + 1), panelError rule F (cutE bval rule e j) (cutE bval rule e (j + 1)) = 0 := by
    refine sum_eq_zero fun j hj => ?_
    rw [mem_range] at hj
    rw [panelError_congr ho F _ _ _ (cut_lt S ho e he j (by omega)) (hin j)]
    exact panel_poly D hD _ (hd.trans hdeg) _ _
  have h1 : screeningError bval rule F e i = pt bval rule e i * ∑ j ∈ Ico i rule.length, panelError rule (fun s => F s / s) (cutE bval rule e (j + 1)) (cutE bval rule e (j + 2)) := by
    unfold screeningError
    rw [z, zero_add]
  refine ⟨h1, ?_⟩
  rintro rfl
  obtain ⟨Q, hQ⟩ := rho_over S
  have hQd : Q.natDegree ≤ D := by
    by_cases hq : Q = 0
    · rw [hq]; simp
    · rw [hQ, natDegree_X_mul hq] at hd
      omega
  rw [h1, sum_eq_zero, mul_zero]
  intro j hj
  rw [mem_Ico] at hj
  rw [panelError_congr ho _ (fun s => Q.eval s) _ _ (cut_lt S ho 0 he (j + 1) (by omega))]
  · exact panel_poly D hD _ hQd _ _
  · intro s g1 g2
    have hs : 0 < s := by
      have := (cut_ge S ho 0 he (j + 1)).1
      have := begin_nonneg S 0 he
      linarith
    rw [hin (j + 1) s g1 g2, hQ, eval_mul, eval_X]
    field_simp

/-- **C81, sign.** A rule with weights that are not negative gives a screening charge that is not negative when the electron density is not. -/
theorem C81_nonneg (S : Setting f n ne zdl zfr zdr x0 bval o N first last φ rule P) (F : ℝ → ℝ) (hF : IsDistribution ne bval (rho N P.get φ) F) (ho : Open rule)
    (hw : ∀ q ∈ rule, 0 ≤ q.2) (hpos : ∀ s, 0 ≤ F s) (rint : Int → Nat → Res (Mat ℝ)) (hr : IsRadialIntegral rint ne bval first last φ) :
    ∃ l, coulombScreening rint ⟨o, x0, rule⟩ P = .ok l ∧ l.length = 1 + ne * rule.length ∧ ∀ v ∈ l, ∃ x : ℝ, 0 ≤ x ∧ v = some x := by
  have hin : ∀ e < ne, ∀ s, bval.getD e 0 < s → s < bval.getD (e + 1) 0 → 0 ≤ (rho N P.get φ e).eval s := fun e he s g1 g2 => by rw [← hF e he s g1 g2]; exact hpos s
  have hI : ∀ e < ne, 0 ≤ ∫ s in (bval.getD e 0)..(bval.getD (e + 1) 0), (rho N P.get φ e).eval s := by
    intro e he
    rw [← intervalIntegral.integral_congr_uIoo (f := fun s => F s)]
    · exact intervalIntegral.integral_nonneg (element_le S e he) fun s _ => hpos s
    · intro s hs
      rw [Set.uIoo_of_le (element_le S e he)] at hs
      exact hF e he s hs.1 hs.2
  have hJ : ∀ e < ne, 0 ≤ ∫ s in (bval.getD e 0)..(bval.getD (e + 1) 0), (rho N P.get φ e).eval s / s := by
    intro e he
    rw [← intervalIntegral.integral_congr_uIoo (f := fun s => F s / s)]
    · exact intervalIntegral.integral_nonneg (element_le S e he) fun s hs => div_nonneg (hpos s) ((begin_nonneg S e he).trans hs.1)
    · intro s hs
      rw [Set.uIoo_of_le (element_le S e he)] at hs
      simp only [hF e he s hs.1 hs.2]
  refine ⟨_, coulomb_panels S ho rint hr, by simp [List.length_flatMap, add_comm], ?_⟩
  intro v hv
  rcases List.mem_cons.1 hv with rfl | hv
  · exact ⟨0, le_rfl, rfl⟩
  · obtain ⟨e, he, hv⟩ := List.mem_flatMap.1 hv
    obtain ⟨i, hi, rfl⟩ := List.mem_map.1 hv
    have he := List.mem_range.1 he
    have hi := List.mem_range.1 hi
    refine ⟨_, ?_, rfl⟩
    have node : ∀ k ≤ rule.length, ∀ q ∈ rule, 0 ≤ (rho N P.get φ e).eval ((cutE bval rule e k + cutE bval rule e (k + 1)) / 2 + (cutE bval rule e (k + 1) - cutE bval rule e k) / 2 * q.1) ∧
        0 ≤ (cutE bval rule e k + cutE bval rule e (k + 1)) / 2 + (cutE bval rule e (k + 1) - cutE bval rule e k) / 2 * q.1 := by
      intro k hk q hq
      have h := node_mem ho _ _ (cut_lt S ho e he k hk) q hq
      have h1 := (cut_ge S ho e he k).1
      have h2 := (cut_ge S ho e he (k + 1)).2
      have h3 := begin_nonneg S e he
      exact ⟨hin e he _ (by linarith) (by linarith), by linarith⟩
    refine add_nonneg (add_nonneg (sum_nonneg fun j hj => hI j ?_) (sum_nonneg fun j hj => ?_)) (mul_nonneg (pt_pos S ho e he i hi).le (add_nonneg (sum_nonneg fun j hj => ?_) (sum_nonneg fun j hj => hJ j ?_)))
    · rw [mem_range] at hj; omega
    · rw [mem_range] at hj
      exact panel_nonneg _ hw _ _ _ (cut_lt S ho e he j (by omega)).le fun q hq => (node j (by omega) q hq).1
    · rw [mem_Ico] at hj
      exact panel_nonneg _ hw _ _ _ (cut_lt S ho e he (j + 1) (by omega)).le fun q hq => div_nonneg (node (j + 1) (by omega) q hq).1 (node (j + 1) (by omega) q hq).2
    · rw [mem_Ico] at hj; omega

theorem segment_any (S : Setting f n ne zdl zfr zdr x0 bval o N first last φ rule P) (e : Nat) (he : e < ne) (kern : ℝ → ℝ → Option ℝ) (low high : ℝ) :
    ∃ g : Nat → Option ℝ, segment ⟨o, x0, rule⟩ e kern low high = .ok ((List.range ((last e + 1 - first e) * (last e + 1 - first e))).map g) ∧
      (∀ q ∈ rule, kern (1 / 2 * (high + low) + 1 / 2 * (high - low) * q.1) high = none → ∀ c, g c = none) := by
  obtain ⟨h1, h2⟩ := ends S e he
  choose v v1 v2 v3 using fun x => row S.basis φ S.pieces e he 0 (Nat.zero_le _) x
  have v1' : ∀ x, feEvalDnf o.shape o.bval x0 x 0 e = .ok (v x) := v1
  unfold segment
  simp only [h1, h2, Res.ok_bind, v1', Res.pure_eq]
  rw [Res.mapM_ok _ _ _ fun q _ => rfl]
  simp only [Res.ok_bind, nbfOf_eq S e he]
  refine ⟨_, rfl, ?_⟩
  intro q hq hk c
  rw [List.map_map]
  refine sumN_none _ _ q hq ?_
  simp only [Function.comp, hk, mulN]

/-- **C81, a point at the nucleus.** Were the rule to contain the end point -1, the segment below the first point of the innermost element would be empty and divided by zero:
every value on that element would be undefined. (`twoe_inner_integral` has a guard for this, `spherical_potential` does not; the rule in use has no such point.) -/
theorem C81_point_at_the_nucleus (S : Setting f n ne zdl zfr zdr x0 bval o N first last φ rule P) (rint : Int → Nat → Res (Mat ℝ)) (hr : IsRadialIntegral rint ne bval first last φ)
    (h0 : (rule.map Prod.fst).getD 0 0 = -1) (l : List (Option ℝ)) (hl : coulombScreening rint ⟨o, x0, rule⟩ P = .ok l) (i : Nat) (hi : i < rule.length) :
    l[1 + i]? = some none := by
  have hne := S.basis.nelem
  have hin := S.inner
  have hnp := S.points.two
  rw [List.length_map] at hnp
  obtain ⟨h1, h2⟩ := ends S 0 (by omega)
  obtain ⟨B, b1, b2⟩ := S.block 0 (by omega)
  have hbl : last 0 + 1 - first 0 ≠ 0 := by omega
  have key : inElement ⟨o, x0, rule⟩ P 0 = .ok ((List.range rule.length).map fun _ => none) := by
    unfold inElement sphericalPotential
    simp only [b1, h1, h2, Res.ok_bind, nbfOf_eq S 0 (by omega), b2.1, b2.2.1, if_true, Res.pure_eq, List.length_map, xq]
    set r : List ℝ := (rule.map Prod.fst).map fun x => 1 / 2 * (bval.getD (0 + 1) 0 + bval.getD 0 0) + 1 / 2 * (bval.getD (0 + 1) 0 - bval.getD 0 0) * x with hrd
    choose g g1 g2 using fun (k : ℝ → ℝ → Option ℝ) (p : ℝ × ℝ) => segment_any S 0 (by omega) k p.1 p.2
    rw [Res.mapM_ok _ _ _ fun ip _ => g1 (fun _ R => invN R) (if ip = 0 then bval.getD 0 0 else r.getD (ip - 1) 0, r.getD ip 0), Res.ok_bind,
      Res.mapM_ok _ _ _ fun ip _ => g1 (fun s _ => invN s) (r.getD ip 0, if ip = rule.length - 1 then bval.getD (0 + 1) 0 else r.getD (ip + 1) 0), Res.ok_bind, Res.ok_bind, List.map_map]
    congr 1
    apply List.map_congr_left
    intro ip hip
    simp only [Function.comp]
    refine sumN_none _ _ 0 (List.mem_range.2 (by positivity)) ?_
    rw [List.getD_eq_getElem?_getD, List.getElem?_map, List.getElem?_range (by positivity)]
    simp only [Option.map_some, Option.getD_some]
    have hr0 : r.getD 0 0 = 0 := by
      have e1 : r.getD 0 0 = 1 / 2 * (bval.getD (0 + 1) 0 + bval.getD 0 0) + 1 / 2 * (bval.getD (0 + 1) 0 - bval.getD 0 0) * (rule.map Prod.fst).getD 0 0 := by
        rw [hrd]
        simp [List.getD_eq_getElem?_getD, show 0 < rule.length by omega]
      rw [e1, h0, S.origin]
      ring
    obtain ⟨q, hq⟩ : ∃ q, q ∈ rule := ⟨rule[0], List.getElem_mem _⟩
    rw [sumN_none _ _ 0 (List.mem_range.2 (by omega))]
    · rfl
    · have e1 : ∀ (g : Nat → List (Option ℝ)), ((List.range rule.length).map g).getD 0 [] = g 0 := by
        intro g; simp [List.getD_eq_getElem?_getD, show 0 < rule.length by omega]
      rw [e1, List.getD_eq_getElem?_getD, List.getElem?_map, List.getElem?_range (by positivity), Option.map_some, Option.getD_some,
        g2 _ _ q hq (by simp only [invN, hr0, if_true])]
      rfl
  unfold coulombScreening at hl
  rw [S.nel, if_neg (by omega), Res.mapM_ok _ _ _ (fun e he => trace_zero S rint hr e (List.mem_range.1 he)), Res.ok_bind,
    Res.mapM_ok _ _ _ (fun e he => trace_minusone S rint hr e (List.mem_range.1 he)), Res.ok_bind] at hl
  obtain ⟨m, rfl⟩ : ∃ m, ne = m + 1 := ⟨ne - 1, by omega⟩
  rw [List.range_succ_eq_map, List.mapM_cons, Res.mapM_ok _ _ _ (fun x _ => S.getR 0 (by omega) x), Res.ok_bind, key, Res.ok_bind, Res.pure_eq, Res.ok_bind] at hl
  generalize List.mapM (m := Res) (β := List (Option ℝ)) _ (List.map Nat.succ (List.range m)) = y at hl
  cases y with
  | ok y =>
    simp only [Res.ok_bind, Res.pure_eq, Res.ok.injEq] at hl
    rw [← hl, show 1 + i = i + 1 from Nat.add_comm 1 i, List.getElem?_cons_succ, List.flatten_cons, List.getElem?_append_left (by simpa [xq] using hi), List.getElem?_map, List.getElem?_range (by simpa [xq] using hi)]
    have e1 : ((List.range rule.length).map fun _ => (none : Option ℝ)).getD i none = none := by simp [List.getD_eq_getElem?_getD, hi]
    simp only [Option.map_some, e1, lt_irrefl, if_false, Option.some.injEq]
    split <;> rfl
  | throw x => cases hl
  | ub => cases hl

end SadGrid
end HelFEM
