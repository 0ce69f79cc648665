import Verif.Props.Quadrature
import Verif.Lemmas.Trig

/-!
# C46, C47: Gauss-Chebyshev rules and the angular grid
-/

namespace HelFEM
namespace Quad
open Finset Polynomial Poly

/-! ### C46 -/

/-- The substitution behind the modified Gauss-Chebyshev rule. -/
noncomputable def subst (θ : ℝ) : ℝ :=
  1 - 2 * θ / Real.pi + 2 / Real.pi * (1 + 2 / 3 * Real.sin θ ^ 2) * Real.cos θ * Real.sin θ

/-- angle of point `i` -/
noncomputable def angle (n i : Nat) : ℝ := (i : ℝ) * Real.pi / ((n : ℝ) + 1)

theorem chebX_eq (n i : Nat) : chebX n i = subst (angle n i) := by
  have hn : ((n : ℝ) + 1) ≠ 0 := by positivity
  unfold chebX subst angle
  push_cast
  rw [show (i : ℝ) * Real.pi * (1 / ((n : ℝ) + 1)) = (i : ℝ) * Real.pi / ((n : ℝ) + 1) by ring]
  have hpi := Real.pi_ne_zero
  field_simp

theorem chebW_eq (n i : Nat) : chebW n i = 16 / (3 * ((n : ℝ) + 1)) * Real.sin (angle n i) ^ 4 := by
  have hn : ((n : ℝ) + 1) ≠ 0 := by positivity
  unfold chebW angle
  push_cast
  rw [show (i : ℝ) * Real.pi * (1 / ((n : ℝ) + 1)) = (i : ℝ) * Real.pi / ((n : ℝ) + 1) by ring]
  field_simp

theorem subst_deriv (θ : ℝ) : HasDerivAt subst (-(16 / (3 * Real.pi)) * Real.sin θ ^ 4) θ := by
  have hpi := Real.pi_ne_zero
  have h1 : HasDerivAt (fun θ : ℝ => 1 - 2 * θ / Real.pi) (-(2 / Real.pi)) θ := by
    have := (((hasDerivAt_id θ).const_mul 2).div_const Real.pi).const_sub 1
    simpa using this
  have hs := Real.hasDerivAt_sin θ
  have hc := Real.hasDerivAt_cos θ
  have h2 := ((((hs.pow 2).const_mul (2 / 3)).const_add 1).const_mul (2 / Real.pi)).mul hc |>.mul hs
  have h3 := h1.add h2
  refine h3.congr_deriv ?_
  have hsc := Real.sin_sq_add_cos_sq θ
  simp only [Pi.pow_apply, Pi.mul_apply]
  field_simp
  have hc2 : Real.cos θ ^ 2 = 1 - Real.sin θ ^ 2 := by linarith
  ring_nf
  simp only [hc2]
  ring

theorem angle_mem (n i : Nat) (h1 : 1 ≤ i) (h2 : i ≤ n) : angle n i ∈ Set.Ioo 0 Real.pi := by
  have hn : (0 : ℝ) < (n : ℝ) + 1 := by positivity
  have h1' : (0 : ℝ) < i := by exact_mod_cast h1
  have h2' : (i : ℝ) < (n : ℝ) + 1 := by
    have : i < n + 1 := by omega
    exact_mod_cast this
  constructor
  · unfold angle; have := Real.pi_pos; positivity
  · unfold angle
    rw [div_lt_iff₀ hn, mul_comm]
    exact mul_lt_mul_of_pos_left h2' Real.pi_pos

theorem subst_anti : StrictAntiOn subst (Set.Icc 0 Real.pi) := by
  apply strictAntiOn_of_deriv_neg (convex_Icc _ _)
  · exact fun θ _ => (subst_deriv θ).continuousAt.continuousWithinAt
  · intro θ hθ
    rw [interior_Icc] at hθ
    rw [(subst_deriv θ).deriv]
    have hs := Real.sin_pos_of_mem_Ioo hθ
    have hpi := Real.pi_pos
    have : 0 < 16 / (3 * Real.pi) * Real.sin θ ^ 4 := by positivity
    linarith

theorem subst_zero : subst 0 = 1 := by simp [subst]
theorem subst_pi : subst Real.pi = -1 := by
  have := Real.pi_ne_zero
  simp [subst]; field_simp; norm_num

theorem subst_sym (θ : ℝ) : subst (Real.pi - θ) = -subst θ := by
  have := Real.pi_ne_zero
  unfold subst
  rw [Real.sin_pi_sub, Real.cos_pi_sub]
  field_simp
  ring

theorem angle_sym (n i : Nat) (h : i ≤ n + 1) : angle n (n + 1 - i) = Real.pi - angle n i := by
  have hn : ((n : ℝ) + 1) ≠ 0 := by positivity
  unfold angle
  rw [Nat.cast_sub h]
  push_cast
  field_simp

/-- entry `k` of the rule is point `n - k` -/
theorem cheb_get (n k : Nat) (hk : k < n) :
    (chebyshev n)[k]? = some (subst (angle n (n - k)), 16 / (3 * ((n : ℝ) + 1)) * Real.sin (angle n (n - k)) ^ 4) := by
  unfold chebyshev
  rw [List.getElem?_reverse (by simpa using hk), List.length_map, List.length_range, List.getElem?_map,
    List.getElem?_range (by omega), Option.map_some, chebX_eq, chebW_eq, show n - 1 - k + 1 = n - k by omega]

theorem cheb_length (n : Nat) : (chebyshev n).length = n := by simp [chebyshev]

/-- **C46, nodes and weights.** The rule has `n` points, strictly increasing and strictly inside (-1, 1), with positive weights,
symmetric about zero. -/
theorem C46_chebyshev_points (n : Nat) :
    (chebyshev n).length = n ∧
    ((chebyshev n).map Prod.fst).Pairwise (· < ·) ∧
    (∀ p ∈ chebyshev n, -1 < p.1 ∧ p.1 < 1 ∧ 0 < p.2) ∧
    ∀ i < n, (chebyshev n)[n - 1 - i]? = (chebyshev n)[i]?.map (fun p => (-p.1, p.2)) := by
  refine ⟨cheb_length n, ?_, ?_, ?_⟩
  · rw [List.pairwise_iff_getElem]
    intro i j hi hj hij
    rw [List.length_map, cheb_length] at hi hj
    have ei := cheb_get n i hi
    have ej := cheb_get n j hj
    rw [List.getElem?_eq_getElem (by rw [cheb_length]; exact hi)] at ei
    rw [List.getElem?_eq_getElem (by rw [cheb_length]; exact hj)] at ej
    rw [List.getElem_map, List.getElem_map, Option.some.inj ei, Option.some.inj ej]
    have h1 := angle_mem n (n - i) (by omega) (by omega)
    have h2 := angle_mem n (n - j) (by omega) (by omega)
    apply subst_anti (Set.Ioo_subset_Icc_self h2) (Set.Ioo_subset_Icc_self h1)
    unfold angle
    have hn : (0 : ℝ) < (n : ℝ) + 1 := by positivity
    apply div_lt_div_of_pos_right _ hn
    apply mul_lt_mul_of_pos_right _ Real.pi_pos
    have : n - j < n - i := by omega
    exact_mod_cast this
  · intro p hp
    obtain ⟨k, hk, rfl⟩ := List.getElem_of_mem hp
    have hk' := hk
    rw [cheb_length] at hk'
    have e := cheb_get n k hk'
    rw [List.getElem?_eq_getElem hk] at e
    rw [Option.some.inj e]
    have h1 := angle_mem n (n - k) (by omega) (by omega)
    have hpi := Real.pi_pos
    refine ⟨?_, ?_, ?_⟩
    · have := subst_anti (Set.Ioo_subset_Icc_self h1) (Set.right_mem_Icc.2 hpi.le) h1.2
      rw [subst_pi] at this; exact this
    · have := subst_anti (Set.left_mem_Icc.2 hpi.le) (Set.Ioo_subset_Icc_self h1) h1.1
      rw [subst_zero] at this; exact this
    · have := Real.sin_pos_of_mem_Ioo h1
      have hn : (0 : ℝ) < (n : ℝ) + 1 := by positivity
      simp only
      positivity
  · intro i hi
    rw [cheb_get n i hi, cheb_get n (n - 1 - i) (by omega), Option.map_some]
    have e : angle n (n - (n - 1 - i)) = Real.pi - angle n (n - i) := by
      rw [← angle_sym n (n - i) (by omega)]
      congr 1
      omega
    rw [e, subst_sym, Real.sin_pi_sub]

/-- **C46, substitution.** Point and weight number `i` are `x(θ)` and `-x'(θ) π/(n+1)` at `θ = i π/(n+1)` for one fixed
function `x` that maps `0` to `1` and `π` to `-1`: the rule is the trapezoidal rule after that substitution. -/
theorem C46_chebyshev_substitution :
    ∃ x : ℝ → ℝ, ∃ x' : ℝ → ℝ, x 0 = 1 ∧ x Real.pi = -1 ∧ (∀ θ, HasDerivAt x (x' θ) θ) ∧
      ∀ n i, 1 ≤ i → i ≤ n →
        (chebyshev n)[n - i]? = some (x (i * Real.pi / (n + 1)), -(x' (i * Real.pi / (n + 1))) * (Real.pi / (n + 1))) := by
  refine ⟨subst, _, subst_zero, subst_pi, subst_deriv, ?_⟩
  intro n i h1 h2
  rw [cheb_get n (n - i) (by omega), show n - (n - i) = i by omega]
  unfold angle
  congr 2
  have := Real.pi_ne_zero
  field_simp

/-- sum of the weights of a rule -/
noncomputable def weightSum (l : List (ℝ × ℝ)) : ℝ := (l.map Prod.snd).sum

theorem weightSum_cheb (n : Nat) : weightSum (chebyshev n) =
    16 / (3 * ((n : ℝ) + 1)) * ∑ i ∈ range (n + 1), Real.sin (angle n i) ^ 4 := by
  unfold weightSum chebyshev
  rw [List.map_reverse, List.sum_reverse, List.map_map, sum_map_range, Finset.sum_range_succ']
  have : angle n 0 = 0 := by simp [angle]
  rw [this, Real.sin_zero, zero_pow (by norm_num), add_zero, Finset.mul_sum]
  apply Finset.sum_congr rfl
  intro i _
  simp only [Function.comp, chebW_eq]

/-- **C46, weight sum (partial).** For two or more points the weights sum to the length of the interval. -/
theorem C46_chebyshev_weight_sum_partial (n : Nat) (hn : 2 ≤ n) : weightSum (chebyshev n) = 2 := by
  rw [weightSum_cheb]
  have hn0 : ((n : ℝ) + 1) ≠ 0 := by positivity
  have e : ∀ i ∈ range (n + 1), Real.sin (angle n i) ^ 4 =
      3 / 8 - 1 / 2 * Real.cos ((1 : Nat) * ((i : ℝ) * (2 * Real.pi / (n + 1 : Nat))))
        + 1 / 8 * Real.cos ((2 : Nat) * ((i : ℝ) * (2 * Real.pi / (n + 1 : Nat)))) := by
    intro i _
    have e1 : ((1 : Nat) : ℝ) * ((i : ℝ) * (2 * Real.pi / (n + 1 : Nat))) = 2 * angle n i := by
      unfold angle; push_cast; ring
    have e2 : ((2 : Nat) : ℝ) * ((i : ℝ) * (2 * Real.pi / (n + 1 : Nat))) = 2 * (2 * angle n i) := by
      unfold angle; push_cast; ring
    rw [e1, e2, Real.cos_two_mul (2 * angle n i), Real.cos_two_mul, ]
    have h := Real.sin_sq_add_cos_sq (angle n i)
    have h2 : Real.cos (angle n i) ^ 2 = 1 - Real.sin (angle n i) ^ 2 := by linarith
    rw [h2]
    ring
  rw [Finset.sum_congr rfl e, Finset.sum_add_distrib, Finset.sum_sub_distrib, ← Finset.mul_sum, ← Finset.mul_sum,
    sum_cos (n + 1) 1 (by omega) (by intro h; have := Nat.le_of_dvd (by omega) h; omega),
    sum_cos (n + 1) 2 (by omega) (by intro h; have := Nat.le_of_dvd (by omega) h; omega)]
  simp
  field_simp
  norm_num

/-- **C46 is violated for one point**: the single weight is 8/3. -/
theorem C46_one_point_rule_wrong : weightSum (chebyshev 1) = 8 / 3 := by
  rw [weightSum_cheb, Finset.sum_range_succ, Finset.sum_range_one]
  have h0 : angle 1 0 = 0 := by simp [angle]
  have h1 : angle 1 1 = Real.pi / 2 := by simp [angle]; norm_num
  rw [h0, h1, Real.sin_zero, Real.sin_pi_div_two]
  norm_num

/-- **C46, radial rule.** The radial rule has one positive, increasing radius per point, and its weights are the weights of the rule on
(-1, 1) times the derivative of the map `x ↦ log₂(2 / (1 - x))` that takes -1 to 0. -/
theorem C46_radial_rule (n : Nat) :
    ((radialChebyshev n).map Prod.fst).Pairwise (· < ·) ∧
    (∀ p ∈ radialChebyshev n, 0 < p.1 ∧ 0 < p.2) ∧
    ∃ r r' : ℝ → ℝ, r (-1) = 0 ∧ (∀ x < 1, HasDerivAt r (r' x) x ∧ r x = Real.log (2 / (1 - x)) / Real.log 2) ∧
      radialChebyshev n = (chebyshev n).map fun p => (r p.1, p.2 * r' p.1) := by
  have hlog : 0 < Real.log 2 := Real.log_pos (by norm_num)
  obtain ⟨-, h2, h3, -⟩ := C46_chebyshev_points n
  refine ⟨?_, ?_, fun x => 1 / Real.log 2 * Real.log (2 / (1 - x)), fun x => 1 / Real.log 2 / (1 - x), ?_, ?_, rfl⟩
  · unfold radialChebyshev
    rw [List.map_map, List.pairwise_map]
    rw [List.pairwise_map] at h2
    refine List.Pairwise.imp_of_mem ?_ h2
    intro a b ha hb hab
    have ha' := h3 a ha
    have hb' := h3 b hb
    simp only [Function.comp]
    apply mul_lt_mul_of_pos_left _ (by positivity)
    apply Real.log_lt_log
    · apply div_pos (by norm_num); linarith
    · apply div_lt_div_of_pos_left (by norm_num) <;> linarith
  · unfold radialChebyshev
    intro p hp
    rw [List.mem_map] at hp
    obtain ⟨q, hq, rfl⟩ := hp
    have hq' := h3 q hq
    have h1 : 0 < 1 - q.1 := by linarith
    refine ⟨mul_pos (by positivity) (Real.log_pos ?_), ?_⟩
    · rw [lt_div_iff₀ h1]; linarith
    · exact mul_pos hq'.2.2 (by positivity)
  · norm_num
  · intro x hx
    have h1 : 0 < 1 - x := by linarith
    constructor
    · have hd : HasDerivAt (fun x : ℝ => 2 / (1 - x)) (2 / (1 - x) ^ 2) x := by
        have := ((hasDerivAt_id x).const_sub 1).inv (by simpa using h1.ne')
        have := this.const_mul 2
        refine (this.congr_deriv ?_).congr_of_eventuallyEq ?_
        · simp; field_simp
        · filter_upwards with y
          simp [div_eq_mul_inv]
      have := (hd.log (by positivity)).const_mul (1 / Real.log 2)
      refine this.congr_deriv ?_
      field_simp
    · ring

/-- non-vacuity: the three-point rule has a point at zero -/
example : (chebyshev 3)[1]? = some (0, 4 / 3) := by
  rw [cheb_get 3 1 (by omega)]
  have : angle 3 (3 - 1) = Real.pi / 2 := by simp [angle]; ring
  rw [this]
  have := Real.pi_ne_zero
  simp [subst]
  norm_num
  field_simp
  norm_num

/-! ### C47 -/

/-- quadrature sum on the angular grid -/
noncomputable def sphereSum (l : List (ℝ × ℝ × ℝ)) (f : ℝ → ℝ → ℝ) : ℝ := (l.map fun p => p.2.2 * f p.1 p.2.1).sum

/-- quadrature sum of a rule given as (node, weight) pairs -/
noncomputable def ruleSum (l : List (ℝ × ℝ)) (f : ℝ → ℝ) : ℝ := (l.map fun p => p.2 * f p.1).sum

/-- **C47, product structure.** On the compound grid a product `f(cos θ) g(φ)` is integrated to the product of the sum
over the polar rule and the equally spaced `φ` sum. -/
theorem C47_compound_product (rule : List (ℝ × ℝ)) (nphi : Nat) (f g : ℝ → ℝ) :
    (compoundRule rule nphi).length = rule.length * nphi ∧
    sphereSum (compoundRule rule nphi) (fun c φ => f c * g φ) =
      ruleSum rule f * ∑ j ∈ range nphi, 2 * Real.pi / nphi * g (j * (2 * Real.pi / nphi)) := by
  constructor
  · unfold compoundRule
    induction rule with
    | nil => simp
    | cons p r ih =>
      rw [List.flatMap_cons, List.length_append, ih, List.length_map, List.length_range, List.length_cons]
      ring
  · unfold compoundRule sphereSum ruleSum
    induction rule with
    | nil => simp
    | cons p r ih =>
      rw [List.flatMap_cons, List.map_append, List.sum_append, ih, List.map_cons, List.sum_cons, add_mul, List.map_map]
      congr 1
      rw [sum_map_range, Finset.mul_sum]
      apply Finset.sum_congr rfl
      intro j _
      simp only [Function.comp]
      ring

/-- **C47, azimuth.** `nphi` equally spaced points integrate `cos(mφ)` and `sin(mφ)` exactly for `0 ≤ m < nphi`. -/
theorem C47_phi_exact (nphi m : Nat) (hm : m < nphi) :
    ∑ j ∈ range nphi, 2 * Real.pi / nphi * Real.cos (m * (j * (2 * Real.pi / nphi))) = ∫ φ in (0 : ℝ)..(2 * Real.pi), Real.cos (m * φ) ∧
    ∑ j ∈ range nphi, 2 * Real.pi / nphi * Real.sin (m * (j * (2 * Real.pi / nphi))) = ∫ φ in (0 : ℝ)..(2 * Real.pi), Real.sin (m * φ) := by
  have hN : (nphi : ℝ) ≠ 0 := by
    have : nphi ≠ 0 := by omega
    exact_mod_cast this
  rw [← Finset.mul_sum, ← Finset.mul_sum, sum_sin nphi m (by omega), mul_zero]
  by_cases h0 : m = 0
  · subst h0
    simp
    field_simp
  · have hm0 : (m : ℝ) ≠ 0 := by exact_mod_cast h0
    rw [sum_cos nphi m (by omega) (by intro h; have := Nat.le_of_dvd (by omega) h; omega), mul_zero]
    rw [intervalIntegral.integral_comp_mul_left (fun x => Real.cos x) hm0,
      intervalIntegral.integral_comp_mul_left (fun x => Real.sin x) hm0, integral_cos, integral_sin]
    have h1 : (m : ℝ) * (2 * Real.pi) = ((2 * m : Nat) : ℝ) * Real.pi := by push_cast; ring
    rw [mul_zero, h1, Real.sin_nat_mul_pi, Real.sin_zero, Real.cos_nat_mul_pi, pow_mul]
    simp

/-- **C47, total weight.** The angular Chebyshev grid has total weight 4π whenever it has at least two polar and one azimuthal points. -/
theorem C47_solid_angle_partial (l m : Nat) (hl : 2 ≤ l) (hm : 1 ≤ m) :
    sphereSum (angularChebyshev l m) (fun _ _ => 1) = 4 * Real.pi := by
  have h := (C47_compound_product (chebyshev l) m (fun _ => 1) (fun _ => 1)).2
  simp only [mul_one] at h
  unfold angularChebyshev
  rw [h]
  have e : ruleSum (chebyshev l) (fun _ => 1) = 2 := by
    rw [← C46_chebyshev_weight_sum_partial l hl]
    unfold ruleSum weightSum
    simp
  have hm' : (m : ℝ) ≠ 0 := by
    have : m ≠ 0 := by omega
    exact_mod_cast this
  rw [e]
  simp
  field_simp
  norm_num

/-- pairs of finite nodes and weights -/
def rulePairs (x w : List (Option ℝ)) : List (ℝ × ℝ) := List.zipWith (fun a b => (val a, val b)) x w

/-- **C47, Lobatto sphere rule.** With an exactly converged `n`-point Lobatto rule and `nphi` azimuthal points, every
product of a polynomial in cos θ of degree up to `2n-3` and `cos(mφ)` or `sin(mφ)`, `m < nphi`, is integrated exactly. -/
theorem C47_lobatto_sphere_exact (fuel n : Nat) (hn : 2 ≤ n) (x w : List (Option ℝ))
    (h : lobattoCompute fuel 0 n = some (.ok (x, w))) (hfin : none ∉ x) (hdist : x.Nodup)
    (p : ℝ[X]) (hp : p.natDegree ≤ 2 * n - 3) (nphi m : Nat) (hm : m < nphi) :
    sphereSum (compoundRule (rulePairs x w) nphi) (fun c φ => p.eval c * Real.cos (m * φ)) =
      (∫ c in (-1 : ℝ)..1, p.eval c) * ∫ φ in (0 : ℝ)..(2 * Real.pi), Real.cos (m * φ) ∧
    sphereSum (compoundRule (rulePairs x w) nphi) (fun c φ => p.eval c * Real.sin (m * φ)) =
      (∫ c in (-1 : ℝ)..1, p.eval c) * ∫ φ in (0 : ℝ)..(2 * Real.pi), Real.sin (m * φ) := by
  have hq := C45_lobatto_exact fuel n hn x w h hfin hdist p hp
  have he : ruleSum (rulePairs x w) (fun c => p.eval c) = ∫ c in (-1 : ℝ)..1, p.eval c := by
    rw [← hq]
    unfold ruleSum rulePairs quadSum
    rw [List.map_zipWith]
  have hphi := C47_phi_exact nphi m hm
  constructor
  · rw [(C47_compound_product (rulePairs x w) nphi (fun c => p.eval c) (fun φ => Real.cos (m * φ))).2, he, hphi.1]
  · rw [(C47_compound_product (rulePairs x w) nphi (fun c => p.eval c) (fun φ => Real.sin (m * φ))).2, he, hphi.2]

/-- non-vacuity: the six-point grid from the Simpson rule -/
example : sphereSum (compoundRule (rulePairs [some (-1), some 0, some 1] [some (1/3), some (4/3), some (1/3)]) 2)
    (fun c φ => (X ^ 2 : ℝ[X]).eval c * Real.cos ((1 : Nat) * φ)) =
      (∫ c in (-1 : ℝ)..1, (X ^ 2 : ℝ[X]).eval c) * ∫ φ in (0 : ℝ)..(2 * Real.pi), Real.cos ((1 : Nat) * φ) :=
  (C47_lobatto_sphere_exact 1 3 (by omega) _ _ lobatto3 (by simp) (by simp; norm_num) _ (by simp) 2 1 (by omega)).1

end Quad
end HelFEM
