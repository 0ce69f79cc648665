import Verif.Model.Confinement
import Verif.Spec.Confinement
import Verif.Props.OneElectron
import Mathlib.Analysis.SpecialFunctions.Exponential
import Mathlib.MeasureTheory.Integral.IntervalIntegral.Basic

/-!
# C71: confinement potentials, and the matrices of the spherically averaged atom
-/

namespace HelFEM
namespace OneE

open Polynomial Finset Harm MeasureTheory

/-! ### The potentials -/

theorem expLoop (x : ℝ) (N : Nat) : (List.range N).foldl (expStep x) (0, 1, 1) = (-∑ k ∈ range N, x ^ k / k.factorial, (N.factorial : ℝ), x ^ N) := by
  induction N with
  | zero => simp
  | succ n ih =>
    rw [List.range_succ, List.foldl_append, ih, List.foldl_cons, List.foldl_nil, expStep, sum_range_succ, Nat.factorial_succ, pow_succ]
    refine Prod.ext ?_ (Prod.ext ?_ rfl)
    · simp only; ring
    · push_cast; ring

theorem expWeight_eq (N : Nat) (r0 s r : ℝ) (hr : ¬ r < s) :
    expWeight N r0 s r = ∑' k : Nat, (N.factorial : ℝ) * (((r - s) / r0) ^ (N + k) / (N + k).factorial) := by
  unfold expWeight
  rw [if_neg hr]
  simp only [expLoop]
  rw [tsum_mul_left, Real.exp_eq_exp_ℝ, NormedSpace.exp_eq_tsum_div]
  simp only
  rw [← (NormedSpace.expSeries_div_summable ((r - s) / r0)).sum_add_tsum_nat_add N]
  have : ∀ k, k + N = N + k := fun k => Nat.add_comm _ _
  simp only [this]
  ring

theorem outer_eq {R : Radial} {φ : Nat → Nat → ℝ[X]} (h : Spec.Functions R φ) : R.outer = R.bnd R.nel := by
  have : ∀ n ≤ R.nel, (List.range n).foldl (fun x e => max x (R.bnd (e + 1))) (R.bnd 0) = R.bnd n := by
    intro n
    induction n with
    | zero => intro _; rfl
    | succ n ih =>
      intro hn
      rw [List.range_succ, List.foldl_append, ih (by omega), List.foldl_cons, List.foldl_nil]
      exact max_eq_right (h.inc n (by omega)).le
  exact this R.nel le_rfl

/-- the polynomial potential as it is computed: `± (r - s)^(N+2)/(r² |R|^N)` outside the shift -/
noncomputable def shifted (N : Int) (r0 s r : ℝ) : ℝ :=
  if r < s then 0 else (if r0 < 0 then -1 else 1) * (if N < 0 then |r0| ^ N else |r0| ^ (-N)) * ((r - s) ^ (N + 2) / r ^ 2)

theorem polynomial_elem {R : Radial} {φ : Nat → Nat → ℝ[X]} (h : Spec.Functions R φ) (hx : Spec.Exact R φ) (N : Int) (r0 V s : ℝ) (hok : 0 ≤ N ∨ s = 0) :
    ∃ M, R.assemble (R.confinement N r0 1 V s) = .ok M ∧ M.rows = R.nbf ∧ M.cols = R.nbf ∧ ∀ a b, M.get a b =
      ∑ e ∈ range R.nel, ∫ r in (R.bnd e)..(R.bnd (e + 1)), (φ e a).eval r / r * ((φ e b).eval r / r) * (r ^ 2 * shifted N r0 s r) := by
  obtain ⟨M, g1, g2, g3, g4⟩ := assemble_exact h hx (R.confinement N r0 1 V s) .R0 .R0 (fun _ r => if r < s then 0 else (r - s) ^ (N + 2))
    (fun _ => (if r0 < 0 then -1 else 1) * if N < 0 then |r0| ^ N else |r0| ^ (-N)) (by
      intro e he
      unfold Radial.confinement Radial.polynomialConf
      by_cases hN : N < 0
      · have hs : s = 0 := hok.resolve_left (by omega)
        simp [hN, hs]
      · simp [hN])
  refine ⟨M, g1, g2, g3, fun a b => ?_⟩
  rw [g4]
  simp only [← intervalIntegral.integral_const_mul]
  refine radial_congr h _ _ fun e _ r _ _ hr => ?_
  simp only [Spec.value, shifted]
  by_cases hrs : r < s
  · simp [hrs]
  · simp only [hrs, if_false]
    generalize (r - s) ^ (N + 2) = y
    field_simp

/-- one element of the confinement matrix: the integrals with the potential; for the polynomial potential, with no shift -/
theorem confinement_elem {R : Radial} {φ : Nat → Nat → ℝ[X]} (h : Spec.Functions R φ) (hx : Spec.Exact R φ) (N iconf : Int) (r0 V s : ℝ) (hok : Spec.confinementOk N iconf V s)
    (h1 : iconf = 1 → s = 0 ∧ r0 ≠ 0) :
    ∃ M, R.assemble (R.confinement N r0 iconf V s) = .ok M ∧ M.rows = R.nbf ∧ M.cols = R.nbf ∧ ∀ a b, M.get a b =
      ∑ e ∈ range R.nel, ∫ r in (R.bnd e)..(R.bnd (e + 1)), (φ e a).eval r / r * ((φ e b).eval r / r) * (r ^ 2 * Spec.confining N r0 iconf V s (R.bnd R.nel) r) := by
  have hb : ∀ (w : ℝ → ℝ), (∀ r, 0 < r → w r = Spec.confining N r0 iconf V s (R.bnd R.nel) r) → (∀ e < R.nel, R.confinement N r0 iconf V s e = .ok (R.elem .B0 .B0 w e)) →
      ∃ M, R.assemble (R.confinement N r0 iconf V s) = .ok M ∧ M.rows = R.nbf ∧ M.cols = R.nbf ∧ ∀ a b, M.get a b =
        ∑ e ∈ range R.nel, ∫ r in (R.bnd e)..(R.bnd (e + 1)), (φ e a).eval r / r * ((φ e b).eval r / r) * (r ^ 2 * Spec.confining N r0 iconf V s (R.bnd R.nel) r) := by
    intro w hw hk
    obtain ⟨M, g1, g2, g3, g4⟩ := assemble_exact h hx (R.confinement N r0 iconf V s) .B0 .B0 (fun _ => w) (fun _ => 1) (by
      intro e he
      rw [hk e he]
      congr 1
      simp [Mat.smul])
    refine ⟨M, g1, g2, g3, fun a b => ?_⟩
    rw [g4]
    simp only [one_mul]
    refine radial_congr h _ _ fun e _ r _ _ hr => ?_
    simp only [Spec.value]
    rw [hw r hr]
    field_simp
  have hi : iconf = 1 ∨ iconf = 2 ∨ iconf = 3 ∨ iconf = 4 := by
    by_contra hc
    push_neg at hc
    unfold Spec.confinementOk at hok
    split at hok <;> simp_all
  rcases hi with rfl | rfl | rfl | rfl
  · obtain ⟨rfl, hr0⟩ := h1 rfl
    have hp := abs_pos.2 hr0
    obtain ⟨M, g1, g2, g3, g4⟩ := polynomial_elem h hx N r0 V 0 (Or.inr rfl)
    refine ⟨M, g1, g2, g3, fun a b => ?_⟩
    rw [g4]
    refine radial_congr h _ _ fun e _ r _ _ hr => ?_
    congr 2
    simp only [shifted, Spec.confining, hr.not_gt, if_false, sub_zero]
    rw [mul_assoc]
    congr 1
    rw [zpow_add₀ hr.ne', zpow_ofNat, mul_div_assoc, div_self (by positivity), mul_one]
    by_cases hN : N < 0
    · rw [if_pos hN, if_pos hN, mul_zpow]
    · rw [if_neg hN, if_neg hN, div_zpow, zpow_neg, div_eq_inv_mul]
  · refine hb (expWeight N.toNat |r0| s) (fun r _ => ?_) (fun e _ => ?_)
    · by_cases hr : r < s
      · simp [expWeight, Spec.confining, hr]
      · rw [expWeight_eq _ _ _ _ hr]
        simp [Spec.confining, hr]
    · have : 1 ≤ N := hok
      unfold Radial.confinement Radial.exponentialConf
      rw [if_neg (by norm_num), if_pos rfl, if_neg (by omega), if_neg (by omega)]
  · refine hb (fun r => if r < s then 0 else V) (fun r _ => rfl) (fun e _ => ?_)
    · have : 0 ≤ V := hok
      unfold Radial.confinement Radial.barrierConf
      rw [if_neg (by norm_num), if_neg (by norm_num), if_pos rfl, if_neg (by linarith)]
  · refine hb (fun r => if r < s then 0 else V * Real.exp (-(R.outer - s) / (r - s)) / (R.outer - r) ^ N) (fun r _ => ?_) (fun e _ => ?_)
    · simp only [Spec.confining, outer_eq h, neg_div]
    · have : 1 ≤ N ∧ 0 < V := hok
      unfold Radial.confinement Radial.junqConf
      rw [if_neg (by norm_num), if_neg (by norm_num), if_neg (by norm_num), if_pos rfl, if_neg (by omega), if_neg (by linarith)]

/-- arguments that are not accepted are refused -/
theorem C71_refused_assemble {R : Radial} (hn : 1 ≤ R.nel) (N iconf : Int) (r0 V s : ℝ) (hno : ¬ Spec.confinementOk N iconf V s) :
    R.assemble (R.confinement N r0 iconf V s) = .throw .logicError := by
  have : ∀ e, R.confinement N r0 iconf V s e = .throw .logicError := by
    intro e
    unfold Radial.confinement
    by_cases i1 : iconf = 1
    · subst i1
      simp only [Spec.confinementOk, not_or] at hno
      simp only [if_true]
      rw [if_pos (by omega), if_pos hno.2]
    by_cases i2 : iconf = 2
    · subst i2
      simp only [Spec.confinementOk] at hno
      simp only [if_true]
      rw [if_neg i1]
      by_cases hN : N < 0
      · rw [if_pos hN]
      · rw [if_neg hN, if_pos (by omega)]
    by_cases i3 : iconf = 3
    · subst i3
      simp only [Spec.confinementOk, not_le] at hno
      simp only [if_true]
      rw [if_neg i1, if_neg i2, if_pos hno]
    by_cases i4 : iconf = 4
    · subst i4
      simp only [Spec.confinementOk, not_and_or, not_lt] at hno
      simp only [if_true]
      rw [if_neg i1, if_neg i2, if_neg i3]
      by_cases hN : N ≤ 0
      · rw [if_pos hN]
      · rw [if_neg hN, if_pos (hno.resolve_left (by omega))]
    simp only
    rw [if_neg i1, if_neg i2, if_neg i3, if_neg i4]
  unfold Radial.assemble
  obtain ⟨n, hn⟩ : ∃ n, R.nel = n + 1 := ⟨R.nel - 1, by omega⟩
  rw [hn, List.range_succ_eq_map, List.foldlM_cons, this]
  rfl

/-- no confinement -/
theorem C71_none {A : Atom} (N : Int) (r0 V s : ℝ) : ∃ O, A.confinement N r0 0 V s = .ok O ∧ Spec.IsMatrix A O fun _ _ _ _ => 0 := by
  refine ⟨Mat.zero A.ndummy A.ndummy, rfl, rfl, rfl, fun i _ a _ j _ b _ => ?_⟩
  simp [Mat.zero]

/-- `confinement()` is the matrix of the confinement potential, and refuses arguments that are not accepted. The full statement has no condition `shift = 0` for the
polynomial potential; it is false: see `C71_polynomial_shift_wrong`. -/
theorem C71_confinement_partial {A : Atom} {φ : Nat → Nat → ℝ[X]} (h : Spec.Good A φ) (N iconf : Int) (r0 V s : ℝ) (hc : iconf ≠ 0) (hr : r0 ≠ 0) (h1 : iconf = 1 → s = 0) :
    (Spec.confinementOk N iconf V s → ∃ O, A.confinement N r0 iconf V s = .ok O ∧
      Spec.IsMatrix A O (Spec.potential A φ fun r _ => Spec.confining N r0 iconf V s (A.rad.bnd A.rad.nel) r)) ∧
    (¬ Spec.confinementOk N iconf V s → A.confinement N r0 iconf V s = .throw .logicError) := by
  unfold Atom.confinement
  rw [if_neg hc]
  constructor
  · intro hok
    obtain ⟨M, g1, g2, g3, g4⟩ := confinement_elem h.functions h.exact N iconf r0 V s hok (fun hi => ⟨h1 hi, hr⟩)
    rw [g1]
    exact diagonal_potential h M g2 g3 _ g4
  · intro hno
    rw [C71_refused_assemble h.functions.nel N iconf r0 V s hno]
    rfl

/-- with a shift the polynomial potential has the matrix of `± (r - s)^(N+2)/(r² |R|^N)` -/
theorem C71_polynomial_shift {A : Atom} {φ : Nat → Nat → ℝ[X]} (h : Spec.Good A φ) (N : Nat) (r0 V s : ℝ) :
    ∃ O, A.confinement N r0 1 V s = .ok O ∧
      Spec.IsMatrix A O (Spec.potential A φ fun r _ => if r < s then 0 else (if r0 < 0 then -1 else 1) * ((r - s) ^ (N + 2) / (r ^ 2 * |r0| ^ N))) := by
  obtain ⟨M, g1, g2, g3, g4⟩ := polynomial_elem h.functions h.exact N r0 V s (Or.inl (by omega))
  have : (fun r : ℝ => if r < s then 0 else (if r0 < 0 then -1 else 1) * ((r - s) ^ (N + 2) / (r ^ 2 * |r0| ^ N))) = shifted N r0 s := by
    funext r
    unfold shifted
    rw [if_neg (by omega : ¬ (N : Int) < 0), zpow_neg, zpow_natCast]
    norm_cast
    split_ifs <;> field_simp
  have e2 := diagonal_potential h M g2 g3 _ g4
  rw [← this] at e2
  unfold Atom.confinement
  rw [if_neg (by norm_num), g1]
  exact e2

/-- The shifted polynomial confinement is not the matrix of its potential. -/
theorem C71_polynomial_shift_wrong : ∃ (A : Atom) (φ : Nat → Nat → ℝ[X]) (N : Int) (r0 V s : ℝ), Spec.Good A φ ∧ r0 ≠ 0 ∧ Spec.confinementOk N 1 V s ∧
    ∀ O, A.confinement N r0 1 V s = .ok O → ¬ Spec.IsMatrix A O (Spec.potential A φ fun r _ => Spec.confining N r0 1 V s (A.rad.bnd A.rad.nel) r) := by
  refine ⟨exAtom none 1, exFun, (0 : Nat), 1, 0, 1, exGood none 1, one_ne_zero, Or.inl (by simp), ?_⟩
  intro O hO hM
  obtain ⟨O', h1, h2⟩ := C71_polynomial_shift (exGood none 1) 0 1 0 1
  rw [hO, Res.ok.injEq] at h1
  subst h1
  have e1 := hM.2.2 0 (by simp [exAtom]) 2 (by simp [exAtom, exRadial]) 0 (by simp [exAtom]) 2 (by simp [exAtom, exRadial])
  have e2 := h2.2.2 0 (by simp [exAtom]) 2 (by simp [exAtom, exRadial]) 0 (by simp [exAtom]) 2 (by simp [exAtom, exRadial])
  rw [e1] at e2
  have key : ∀ v : ℝ → ℝ, Spec.potential (exAtom none 1) exFun (fun r _ => v r) 0 2 0 2 =
      ((∫ r in (1 : ℝ)..2, (r - 1) * (2 - r) / r * ((r - 1) * (2 - r) / r) * (r ^ 2 * v r) : ℝ) : ℂ) := by
    intro v
    have := potential_sep (exGood none 1).functions v (fun _ => 1) 0 2 0 2 1 (by
      rw [sphere_orth _ _ _ _ (by simp [exAtom, Atom.m, Atom.l]) (by simp [exAtom, Atom.m, Atom.l]) 1]
      simp)
    simp only [mul_one] at this
    rw [this]
    simp only [exAtom, exRadial, sum_range_succ, sum_range_zero]
    norm_num [exFun]
  rw [key, key, Complex.ofReal_inj] at e2
  have hlt : (∫ r in (1 : ℝ)..2, (r - 1) * (2 - r) / r * ((r - 1) * (2 - r) / r) * (r ^ 2 * if r < 1 then 0 else (if (1 : ℝ) < 0 then -1 else 1) * ((r - 1) ^ (0 + 2) / (r ^ 2 * |(1 : ℝ)| ^ 0)))) <
      ∫ r in (1 : ℝ)..2, (r - 1) * (2 - r) / r * ((r - 1) * (2 - r) / r) * (r ^ 2 * Spec.confining (0 : Nat) 1 1 0 1 ((exAtom none 1).rad.bnd (exAtom none 1).rad.nel) r) := by
    have c1 : ∀ r ∈ Set.uIcc (1 : ℝ) 2, (r - 1) * (2 - r) / r * ((r - 1) * (2 - r) / r) * (r ^ 2 * if r < 1 then 0 else (if (1 : ℝ) < 0 then -1 else 1) * ((r - 1) ^ (0 + 2) / (r ^ 2 * |(1 : ℝ)| ^ 0))) =
        ((r - 1) * (2 - r)) ^ 2 * ((r - 1) ^ 2 / r ^ 2) := by
      intro r hr
      rw [Set.uIcc_of_le (by norm_num)] at hr
      rw [if_neg (by linarith [hr.1])]
      have : r ≠ 0 := by linarith [hr.1]
      norm_num
      field_simp
    have c2 : ∀ r ∈ Set.uIcc (1 : ℝ) 2, (r - 1) * (2 - r) / r * ((r - 1) * (2 - r) / r) * (r ^ 2 * Spec.confining (0 : Nat) 1 1 0 1 ((exAtom none 1).rad.bnd (exAtom none 1).rad.nel) r) =
        ((r - 1) * (2 - r)) ^ 2 := by
      intro r hr
      rw [Set.uIcc_of_le (by norm_num)] at hr
      have : r ≠ 0 := by linarith [hr.1]
      unfold Spec.confining
      rw [if_neg (by linarith [hr.1])]
      norm_num
      field_simp
    rw [intervalIntegral.integral_congr c1, intervalIntegral.integral_congr c2]
    refine intervalIntegral.integral_lt_integral_of_continuousOn_of_le_of_exists_lt (by norm_num) ?_ (by fun_prop) (fun r hr => ?_) ⟨3 / 2, by norm_num, by norm_num⟩
    · refine ContinuousOn.mul (by fun_prop) (ContinuousOn.div (by fun_prop) (by fun_prop) fun r hr => ?_)
      have := hr.1
      positivity
    · have h1 := hr.1
      have : (r - 1) ^ 2 / r ^ 2 ≤ 1 := by
        rw [div_le_one (by positivity)]
        nlinarith
      nlinarith [sq_nonneg ((r - 1) * (2 - r))]
  exact absurd e2 hlt.ne'

/-- Confinement never attracts, for positive radii, up to the outermost radius. -/
theorem C71_nonneg (N iconf : Int) (R V s rc r : ℝ) (hR : 0 < R) (hok : Spec.confinementOk N iconf V s) (h0 : 0 ≤ r) (hrc : r ≤ rc) : 0 ≤ Spec.confining N R iconf V s rc r := by
  unfold Spec.confining
  by_cases hr : r < s
  · rw [if_pos hr]
  rw [if_neg hr]
  rw [not_lt] at hr
  have hi : iconf = 1 ∨ iconf = 2 ∨ iconf = 3 ∨ iconf = 4 := by
    by_contra hc
    push_neg at hc
    unfold Spec.confinementOk at hok
    split at hok <;> simp_all
  have hx : 0 ≤ (r - s) / |R| := div_nonneg (by linarith) (abs_nonneg R)
  rcases hi with rfl | rfl | rfl | rfl
  · simp only [hR.not_gt, if_false, one_mul]
    split_ifs
    · exact zpow_nonneg (mul_nonneg (abs_nonneg R) h0) _
    · exact zpow_nonneg hx _
  · exact tsum_nonneg fun k => by positivity
  · exact hok
  · have : 1 ≤ N ∧ 0 < V := hok
    exact div_nonneg (mul_nonneg this.2.le (Real.exp_pos _).le) (zpow_nonneg (by linarith) _)

/-! ### The spherically averaged atom -/

/-- the basis with the single spherical harmonic `(l, m)` -/
def single (R : Radial) (l : Nat) (m : Int) : Atom := ⟨R, [(l, m)], 0, 0, 0, 0, none⟩

theorem single_good {R : Radial} {φ : Nat → Nat → ℝ[X]} (h : Spec.Functions R φ) (hx : Spec.Exact R φ) (l : Nat) (m : Int) (hm : |m| ≤ l) : Spec.Good (single R l m) φ :=
  ⟨h, hx, by simp [single], by simpa [single] using hm⟩

theorem single_potential {R : Radial} {φ : Nat → Nat → ℝ[X]} (h : Spec.Functions R φ) (hx : Spec.Exact R φ) (l : Nat) (m : Int) (hm : |m| ≤ l) (v : ℝ → ℝ) (a b : Nat) :
    Spec.potential (single R l m) φ (fun r _ => v r) 0 a 0 b =
      ((∑ e ∈ range R.nel, ∫ r in (R.bnd e)..(R.bnd (e + 1)), (φ e a).eval r / r * ((φ e b).eval r / r) * (r ^ 2 * v r) : ℝ) : ℂ) := by
  have hg := single_good h hx l m hm
  have hi : 0 < (single R l m).nang := by simp [single, Atom.nang]
  have := potential_sep hg.functions v (fun _ => 1) 0 a 0 b 1 (by
    rw [sphere_orth _ _ _ _ (hg.m_le' hi) (hg.m_le' hi) 1]
    simp)
  simp only [mul_one] at this
  rw [this]
  simp [single]

/-- The radial matrices of the spherically averaged program are the matrix elements in every shell `(l, m)`: overlap, kinetic energy as
`kinetic() + l (l + 1) kinetic_l()`, attraction by a point nucleus, a radial potential and moments. -/
theorem C71_spherical {R : Radial} {φ : Nat → Nat → ℝ[X]} (h : Spec.Functions R φ) (hx : Spec.Exact R φ) :
    (∃ S, R.sadOverlap = .ok S ∧ S.rows = R.nbf ∧ S.cols = R.nbf ∧ ∀ (l : Nat) (m : Int), |m| ≤ l → ∀ a b,
      ((S.get a b : ℝ) : ℂ) = Spec.potential (single R l m) φ (fun _ _ => 1) 0 a 0 b) ∧
    (∃ T Tl, R.sadKinetic = .ok T ∧ R.sadKineticL = .ok Tl ∧ T.rows = R.nbf ∧ T.cols = R.nbf ∧ Tl.rows = R.nbf ∧ Tl.cols = R.nbf ∧ ∀ (l : Nat) (m : Int), |m| ≤ l → ∀ a b,
      ((T.get a b + l * (l + 1) * Tl.get a b : ℝ) : ℂ) = Spec.kinetic (single R l m) φ 0 a 0 b) ∧
    (∀ Z : Int, ∃ V, R.sadNuclear Z none = .ok V ∧ V.rows = R.nbf ∧ V.cols = R.nbf ∧ ∀ (l : Nat) (m : Int), |m| ≤ l → ∀ a b,
      ((V.get a b : ℝ) : ℂ) = Spec.potential (single R l m) φ (fun r _ => -Z / r) 0 a 0 b) ∧
    (∀ (Z : Int) (v : ℝ → ℝ), ∃ V, R.sadNuclear Z (some v) = .ok V ∧ R.sadModel v = .ok V ∧ V.rows = R.nbf ∧ V.cols = R.nbf ∧ ∀ (l : Nat) (m : Int), |m| ≤ l → ∀ a b,
      ((V.get a b : ℝ) : ℂ) = Spec.potential (single R l m) φ (fun r _ => v r) 0 a 0 b) ∧
    (∃ L, R.sadRmatrices = .ok L ∧ L.map Prod.fst = [-2, -1, 1, 2, 3] ∧ ∀ p ∈ L, p.2.rows = R.nbf ∧ p.2.cols = R.nbf ∧ ∀ (l : Nat) (m : Int), |m| ≤ l → ∀ a b,
      ((p.2.get a b : ℝ) : ℂ) = Spec.potential (single R l m) φ (fun r _ => r ^ p.1) 0 a 0 b) := by
  have hpow : ∀ k : Int, ∃ M, R.assemble (fun e => .ok (R.radialIntegral k e)) = .ok M ∧ M.rows = R.nbf ∧ M.cols = R.nbf ∧ ∀ (l : Nat) (m : Int), |m| ≤ l → ∀ a b,
      ((M.get a b : ℝ) : ℂ) = Spec.potential (single R l m) φ (fun r _ => r ^ k) 0 a 0 b := by
    intro k
    obtain ⟨M, h1, h2, h3, h4⟩ := assemble_exact' h hx .R0 .R0 (fun r => r ^ (k + 2))
    refine ⟨M, h1, h2, h3, fun l m hm a b => ?_⟩
    rw [single_potential h hx l m hm, h4]
    congr 1
    refine radial_congr h _ _ fun e _ r _ _ hr => ?_
    simp only [Spec.value]
    rw [zpow_add₀ hr.ne', zpow_ofNat, mul_comm (r ^ k)]
  have hmodel : ∀ v : ℝ → ℝ, ∃ V, R.sadModel v = .ok V ∧ V.rows = R.nbf ∧ V.cols = R.nbf ∧ ∀ (l : Nat) (m : Int), |m| ≤ l → ∀ a b,
      ((V.get a b : ℝ) : ℂ) = Spec.potential (single R l m) φ (fun r _ => v r) 0 a 0 b := by
    intro v
    obtain ⟨M, h1, h2, h3, h4⟩ := assemble_exact' h hx .B0 .B0 v
    refine ⟨M, h1, h2, h3, fun l m hm a b => ?_⟩
    rw [single_potential h hx l m hm, h4]
    congr 1
    refine radial_congr h _ _ fun e _ r _ _ hr => ?_
    simp only [Spec.value]
    field_simp
  refine ⟨?_, ?_, fun Z => ?_, fun Z v => ?_, ?_⟩
  · obtain ⟨M, h1, h2, h3, h4⟩ := hpow 0
    refine ⟨M, h1, h2, h3, fun l m hm a b => ?_⟩
    rw [h4 l m hm]
    simp only [zpow_zero]
  · obtain ⟨M, h1, h2, h3, h4⟩ := assemble_exact h hx (fun e => .ok (R.kinetic e)) .B1 .B1 (fun _ _ => 1) (fun _ => 1 / 2) (fun _ _ => rfl)
    obtain ⟨Ml, k1, k2, k3, k4⟩ := assemble_exact h hx (fun e => .ok (R.kineticL e)) .R0 .R0 (fun _ _ => 1) (fun _ => 1 / 2) (fun _ _ => rfl)
    refine ⟨M, Ml, h1, k1, h2, h3, k2, k3, fun l m hm a b => ?_⟩
    have hg := single_good h hx l m hm
    have hi : 0 < (single R l m).nang := by simp [single, Atom.nang]
    rw [kinetic_eq hg.functions 0 a 0 b (hg.m_le' hi) (hg.m_le' hi), if_pos ⟨rfl, rfl⟩, h4, k4]
    rfl
  · obtain ⟨M, h1, h2, h3, h4⟩ := hpow (-1)
    refine ⟨M.smul (-(Z : ℝ)), by unfold Radial.sadNuclear; rw [h1]; rfl, h2, h3, fun l m hm a b => ?_⟩
    have := h4 l m hm a b
    rw [single_potential h hx l m hm, Complex.ofReal_inj] at this
    rw [single_potential h hx l m hm]
    simp only [Mat.smul]
    rw [this, mul_sum]
    congr 1
    refine sum_congr rfl fun e _ => ?_
    rw [← intervalIntegral.integral_const_mul]
    refine intervalIntegral.integral_congr fun r _ => ?_
    simp only [zpow_neg_one]
    ring
  · obtain ⟨M, h1, h2, h3, h4⟩ := hmodel v
    exact ⟨M, h1, h1, h2, h3, h4⟩
  · choose M h1 h2 h3 h4 using hpow
    refine ⟨([-2, -1, 1, 2, 3] : List Int).map fun n => (n, M n), ?_, rfl, fun p hp => ?_⟩
    · unfold Radial.sadRmatrices
      exact Res.mapM_ok _ _ _ fun n _ => by rw [h1]; rfl
    · obtain ⟨n, _, rfl⟩ := List.mem_map.1 hp
      exact ⟨h2 n, h3 n, h4 n⟩

/-- The confinement matrix of the spherically averaged program. As for `C71_confinement_partial`, the shifted polynomial is excepted. -/
theorem C71_spherical_confinement_partial {R : Radial} {φ : Nat → Nat → ℝ[X]} (h : Spec.Functions R φ) (hx : Spec.Exact R φ) (N iconf : Int) (r0 V s : ℝ) (hc : iconf ≠ 0) (hr : r0 ≠ 0) (h1 : iconf = 1 → s = 0) :
    (Spec.confinementOk N iconf V s → ∃ O, R.sadConfinement N r0 iconf V s = .ok O ∧ O.rows = R.nbf ∧ O.cols = R.nbf ∧ ∀ (l : Nat) (m : Int), |m| ≤ l → ∀ a b,
      ((O.get a b : ℝ) : ℂ) = Spec.potential (single R l m) φ (fun r _ => Spec.confining N r0 iconf V s (R.bnd R.nel) r) 0 a 0 b) ∧
    (¬ Spec.confinementOk N iconf V s → R.sadConfinement N r0 iconf V s = .throw .logicError) := by
  unfold Radial.sadConfinement
  rw [if_neg hc]
  refine ⟨fun hok => ?_, fun hno => C71_refused_assemble h.nel N iconf r0 V s hno⟩
  obtain ⟨M, g1, g2, g3, g4⟩ := confinement_elem h hx N iconf r0 V s hok (fun hi => ⟨h1 hi, hr⟩)
  refine ⟨M, g1, g2, g3, fun l m hm a b => ?_⟩
  rw [g4, single_potential h hx l m hm]

/-! ### Examples -/

/-- a harmonic potential, a Junquera potential from radius one, and refused arguments -/
example : (∃ O, (exAtom none 1).confinement 2 (1 / 2) 1 0 0 = .ok O ∧ Spec.IsMatrix (exAtom none 1) O (Spec.potential (exAtom none 1) exFun fun r _ => Spec.confining 2 (1 / 2) 1 0 0 2 r)) ∧
    (∃ O, (exAtom none 1).confinement 1 1 4 3 1 = .ok O ∧ Spec.IsMatrix (exAtom none 1) O (Spec.potential (exAtom none 1) exFun fun r _ => Spec.confining 1 1 4 3 1 2 r)) ∧
    (exAtom none 1).confinement 0 1 2 0 0 = .throw .logicError := by
  have hb : ((2 : Nat) : ℝ) = 2 := by norm_num
  rw [← hb]
  exact ⟨(C71_confinement_partial (exGood none 1) 2 1 (1 / 2) 0 0 (by norm_num) (by norm_num) (fun _ => rfl)).1 (Or.inr rfl),
    (C71_confinement_partial (exGood none 1) 1 4 1 3 1 (by norm_num) (by norm_num) (by norm_num)).1 ⟨by norm_num, by norm_num⟩,
    (C71_confinement_partial (exGood none 1) 0 2 1 0 0 (by norm_num) (by norm_num) (by norm_num)).2 (by simp [Spec.confinementOk])⟩

example : ∃ S, exRadial.sadOverlap = .ok S ∧ S.rows = 3 := by
  obtain ⟨⟨S, h1, h2, _⟩, _⟩ := C71_spherical (exGood none 1).functions (exGood none 1).exact
  exact ⟨S, h1, h2⟩

end OneE
end HelFEM
