import Mathlib.Analysis.SpecialFunctions.Pow.Continuity
import Mathlib.Analysis.SpecialFunctions.ExpDeriv
import Mathlib.Analysis.SpecialFunctions.Exp
import Mathlib.Analysis.Calculus.Deriv.MeanValue
import Mathlib.Analysis.Real.Pi.Bounds
import Mathlib.Tactic.Linarith
import Mathlib.Tactic.Positivity
import Mathlib.Tactic.FieldSimp
import Mathlib.Tactic.Ring
import Mathlib.Tactic.NormNum
import Verif.Model.ScreenedPot
import Verif.Spec.ScreenedPot

/-!
# Lemmas on the screened charges
-/

namespace HelFEM.Guess

open Filter Topology

/-! ### Green-Sellin-Zachor -/

theorem gszTable_length : gszTable.length = 103 := by decide

theorem gszTable_pos : ∀ n ∈ gszTable, 0 < n := by decide

theorem gszParameters_ok {Z : Int} (h0 : 0 ≤ Z) (h1 : Z ≤ 102) :
    ∃ n : Nat, gszTable[Z.toNat]? = some n ∧ 0 < n ∧
      gszParameters Z = .ok ((n : ℝ) / 1000, (powNaN ((Z - 1 : Int) : ℝ) (2 / 5)).map fun p => (n : ℝ) / 1000 * p) := by
  have hl := gszTable_length
  have hlt : Z.toNat < gszTable.length := by omega
  refine ⟨gszTable[Z.toNat], List.getElem?_eq_getElem hlt, gszTable_pos _ (List.getElem_mem hlt), ?_⟩
  rw [gszParameters, if_neg (by omega)]
  simp [readAt, List.getElem?_eq_getElem hlt]

theorem gsz_screened {Z d H : ℝ} (hZ : 1 ≤ Z) (hd : 0 < d) (hH : 0 ≤ H) (h1 : Z ≠ 1 → 0 < H) :
    Spec.ScreenedCharge (fun r => 1 + (Z - 1) * 1 / (1 + (Real.exp (r / d) - 1) * H)) Z 1 := by
  refine ⟨by simp, ?_, ?_⟩
  · intro a ha b hb hab
    have ha : 0 ≤ a := ha
    have e1 : 1 ≤ Real.exp (a / d) := Real.one_le_exp (by positivity)
    have e2 : Real.exp (a / d) ≤ Real.exp (b / d) := Real.exp_le_exp.mpr (by gcongr)
    have p1 : 0 < 1 + (Real.exp (a / d) - 1) * H := by nlinarith
    have : (1 + (Real.exp (a / d) - 1) * H) ≤ (1 + (Real.exp (b / d) - 1) * H) := by nlinarith
    have hz : 0 ≤ (Z - 1) * 1 := by linarith
    simp only
    gcongr
  · by_cases hz : Z = 1
    · subst hz; simp
    · have hH := h1 hz
      have t1 : Tendsto (fun r : ℝ => r / d) atTop atTop := tendsto_id.atTop_div_const hd
      have t2 : Tendsto (fun r : ℝ => Real.exp (r / d)) atTop atTop := Real.tendsto_exp_atTop.comp t1
      have t3 : Tendsto (fun r : ℝ => 1 + (Real.exp (r / d) - 1) * H) atTop atTop :=
        tendsto_atTop_add_const_left _ _ ((tendsto_atTop_add_const_right _ (-1) t2).atTop_mul_const hH)
      have := (t3.const_div_atTop ((Z - 1) * 1)).const_add 1
      simpa using this

/-! ### Thomas-Fermi -/

/-- the function squared in the Thomas-Fermi charge, of `s = √x` -/
noncomputable def tfRoot (s : ℝ) : ℝ :=
  (1 + 7280642371 / 10000000000 * s + -5430794693 / 10000000000 * s ^ 2 * Real.exp (-(3612163121 / 10000000000) * s))
    * Real.exp (-(7280642371 / 10000000000) * s)

theorem tfCharge_eq (r : ℝ) (Z : Int) (hr : 0 ≤ r) (hZ : 0 ≤ Z) :
    tfCharge Real.pi r Z = Z * tfRoot (Real.sqrt (r * (128 * (Z : ℝ) / (9 * Real.pi * Real.pi)) ^ ((1 : ℝ) / 3))) ^ 2 := by
  have hz : (0 : ℝ) ≤ (Z : ℝ) := by exact_mod_cast hZ
  have hx : 0 ≤ r * (128 * (Z : ℝ) / (9 * Real.pi * Real.pi)) ^ ((1 : ℝ) / 3) := by positivity
  simp only [tfCharge, tfRoot]
  generalize hxx : r * (128 * (Z : ℝ) / (9 * Real.pi * Real.pi)) ^ ((1 : ℝ) / 3) = x at hx
  rw [Real.sq_sqrt hx, mul_pow, ← Real.exp_nat_mul, ← mul_assoc]
  congr 2
  push_cast; ring

theorem exp_quad {u : ℝ} (hu : 0 ≤ u) : 1 + u + u ^ 2 / 2 ≤ Real.exp u := Real.quadratic_le_exp_of_nonneg hu

theorem tfRoot_pos {s : ℝ} (hs : 0 ≤ s) : 0 < tfRoot s := by
  refine mul_pos ?_ (Real.exp_pos _)
  have hq := exp_quad (u := 3612163121 / 10000000000 * s) (by positivity)
  have he : Real.exp (-(3612163121 / 10000000000) * s) = (Real.exp (3612163121 / 10000000000 * s))⁻¹ := by
    rw [← Real.exp_neg]; congr 1; ring
  rw [he]
  generalize Real.exp (3612163121 / 10000000000 * s) = E at hq
  have hE : 0 < E := by nlinarith [sq_nonneg s]
  have key : 0 < (1 + 7280642371 / 10000000000 * s) * E - 5430794693 / 10000000000 * s ^ 2 := by
    have h1 : (1 + 7280642371 / 10000000000 * s) * (1 + 3612163121 / 10000000000 * s + (3612163121 / 10000000000 * s) ^ 2 / 2)
        ≤ (1 + 7280642371 / 10000000000 * s) * E := by gcongr
    nlinarith [mul_nonneg hs (sq_nonneg (s - 4)), mul_nonneg hs hs]
  have : 1 + 7280642371 / 10000000000 * s + -5430794693 / 10000000000 * s ^ 2 * E⁻¹
      = ((1 + 7280642371 / 10000000000 * s) * E - 5430794693 / 10000000000 * s ^ 2) / E := by
    field_simp; ring
  rw [this]; positivity

theorem tfRoot_hasDerivAt (s : ℝ) : HasDerivAt tfRoot
    (s * (-(2 * (5430794693 / 10000000000)) * Real.exp (-(3612163121 / 10000000000) * s)
      + 5430794693 / 10000000000 * (3612163121 / 10000000000 + 7280642371 / 10000000000) * s * Real.exp (-(3612163121 / 10000000000) * s)
      - (7280642371 / 10000000000) ^ 2) * Real.exp (-(7280642371 / 10000000000) * s)) s := by
  unfold tfRoot
  have e (c : ℝ) : HasDerivAt (fun s => Real.exp (-c * s)) (Real.exp (-c * s) * (-c)) s := by
    simpa using ((hasDerivAt_id s).const_mul (-c)).exp
  have h := ((((hasDerivAt_id s).const_mul (7280642371 / 10000000000 : ℝ)).const_add (1 : ℝ)).add
    ((((hasDerivAt_id s).pow 2).const_mul (-5430794693 / 10000000000 : ℝ)).mul (e (3612163121 / 10000000000)))).mul
    (e (7280642371 / 10000000000))
  refine (h.congr_deriv ?_)
  simp; ring

theorem tfRoot_antitone : AntitoneOn tfRoot (Set.Ici 0) := by
  refine antitoneOn_of_deriv_nonpos (convex_Ici 0)
    (fun s _ => (tfRoot_hasDerivAt s).continuousAt.continuousWithinAt)
    (fun s _ => (tfRoot_hasDerivAt s).differentiableAt.differentiableWithinAt) ?_
  intro s hs
  rw [interior_Ici] at hs
  have hs : 0 < s := hs
  rw [(tfRoot_hasDerivAt s).deriv]
  refine mul_nonpos_of_nonpos_of_nonneg (mul_nonpos_of_nonneg_of_nonpos hs.le ?_) (Real.exp_pos _).le
  have hq := exp_quad (u := 3612163121 / 10000000000 * s) (by positivity)
  have he : Real.exp (-(3612163121 / 10000000000) * s) = (Real.exp (3612163121 / 10000000000 * s))⁻¹ := by
    rw [← Real.exp_neg]; congr 1; ring
  rw [he]
  generalize Real.exp (3612163121 / 10000000000 * s) = E at hq
  have hE : 0 < E := by nlinarith [sq_nonneg s]
  have key : 5430794693 / 10000000000 * ((3612163121 / 10000000000 + 7280642371 / 10000000000) * s - 2)
      ≤ (7280642371 / 10000000000) ^ 2 * E := by
    have h1 : (7280642371 / 10000000000 : ℝ) ^ 2 * (1 + 3612163121 / 10000000000 * s + (3612163121 / 10000000000 * s) ^ 2 / 2)
        ≤ (7280642371 / 10000000000) ^ 2 * E := by gcongr
    nlinarith [sq_nonneg (s - 6)]
  have : (-(2 * (5430794693 / 10000000000)) * E⁻¹
      + 5430794693 / 10000000000 * (3612163121 / 10000000000 + 7280642371 / 10000000000) * s * E⁻¹
      - (7280642371 / 10000000000) ^ 2 : ℝ)
      = (5430794693 / 10000000000 * ((3612163121 / 10000000000 + 7280642371 / 10000000000) * s - 2)
        - (7280642371 / 10000000000) ^ 2 * E) / E := by
    field_simp; ring
  rw [this]
  exact div_nonpos_of_nonpos_of_nonneg (by linarith) hE.le

theorem exp_decay {c : ℝ} (hc : 0 < c) (n : Nat) : Tendsto (fun s : ℝ => s ^ n * Real.exp (-c * s)) atTop (𝓝 0) := by
  have h := ((Real.tendsto_pow_mul_exp_neg_atTop_nhds_zero n).comp (tendsto_id.const_mul_atTop hc)).const_mul ((c ^ n)⁻¹)
  rw [mul_zero] at h
  refine h.congr fun s => ?_
  simp only [Function.comp, id, mul_pow, neg_mul]
  field_simp

theorem tfRoot_tendsto : Tendsto tfRoot atTop (𝓝 0) := by
  have hc : (0 : ℝ) < 7280642371 / 10000000000 := by norm_num
  have hg : (0 : ℝ) < 3612163121 / 10000000000 := by norm_num
  have h := ((exp_decay hc 0).add ((exp_decay hc 1).const_mul (7280642371 / 10000000000))).add
    (((exp_decay hc 2).mul (exp_decay hg 0)).const_mul (-5430794693 / 10000000000))
  simp only [mul_zero, add_zero] at h
  refine h.congr fun s => ?_
  simp only [tfRoot]; ring

theorem tf_screened {Z : Int} (hZ : 0 ≤ Z) :
    Spec.ScreenedCharge (fun r => tfCharge Real.pi r Z) Z 0 := by
  rcases hZ.lt_or_eq with hZ' | hZ'
  swap
  · subst hZ'
    have : (fun r => tfCharge Real.pi r 0) = fun _ => 0 := by funext r; simp [tfCharge]
    rw [this]
    exact ⟨by simp, fun _ _ _ _ _ => le_refl _, tendsto_const_nhds⟩
  have hz : (0 : ℝ) < (Z : ℝ) := by exact_mod_cast hZ'
  have hk : 0 < (128 * (Z : ℝ) / (9 * Real.pi * Real.pi)) ^ ((1 : ℝ) / 3) := by
    have := Real.pi_pos; positivity
  have heq := tfCharge_eq (Z := Z) (hZ := hZ)
  generalize (128 * (Z : ℝ) / (9 * Real.pi * Real.pi)) ^ ((1 : ℝ) / 3) = k at hk heq
  refine ⟨?_, ?_, ?_⟩
  · rw [heq 0 (le_refl _)]; simp [tfRoot]
  · intro a ha b hb hab
    have ha : 0 ≤ a := ha
    have hb : 0 ≤ b := hb
    simp only
    rw [heq a ha, heq b hb]
    have h1 := tfRoot_antitone (a := Real.sqrt (a * k)) (b := Real.sqrt (b * k)) (Real.sqrt_nonneg _) (Real.sqrt_nonneg _)
      (Real.sqrt_le_sqrt (by gcongr))
    have h2 := tfRoot_pos (Real.sqrt_nonneg (b * k))
    gcongr
  · have h1 : Tendsto (fun r : ℝ => Real.sqrt (r * k)) atTop atTop :=
      Real.tendsto_sqrt_atTop.comp (tendsto_id.atTop_mul_const hk)
    have h2 := ((tfRoot_tendsto.comp h1).pow 2).const_mul (Z : ℝ)
    simp only [ne_eq, OfNat.ofNat_ne_zero, not_false_eq_true, zero_pow, mul_zero] at h2
    refine h2.congr' ?_
    filter_upwards [eventually_ge_atTop 0] with r hr
    rw [heq r hr]; rfl

theorem tf_pos {Z : Int} (hZ : 0 < Z) {r : ℝ} (hr : 0 ≤ r) : 0 < tfCharge Real.pi r Z := by
  rw [tfCharge_eq r Z hr hZ.le]
  have hz : (0 : ℝ) < (Z : ℝ) := by exact_mod_cast hZ
  have := tfRoot_pos (Real.sqrt_nonneg (r * (128 * (Z : ℝ) / (9 * Real.pi * Real.pi)) ^ ((1 : ℝ) / 3)))
  positivity

/-! ### The table lookup -/

theorem search_real (xs : List ℝ) (x : ℝ) (n : Nat) (hn : xs.length = n) : ∀ (fuel l r : Nat), l < r → r < n →
    r - l ≤ fuel → xs.getD l 0 < x → x < xs.getD r 0 →
    ∃ h, search xs (some x) fuel l r = .ok (some h) ∧
      match h with
      | .exact i => i < n ∧ xs.getD i 0 = x
      | .between i => i + 1 < n ∧ xs.getD i 0 < x ∧ x < xs.getD (i + 1) 0 := by
  intro fuel
  induction fuel with
  | zero => intro l r h1 _ h2; omega
  | succ fuel ih =>
    intro l r hlr hrn hf hl hr
    have hm : (l + r) / 2 < n := by omega
    have hread : readAt xs ((l + r) / 2) = .ok (xs.getD ((l + r) / 2) 0) := by
      simp [readAt, List.getD, List.getElem?_eq_getElem (hn ▸ hm : (l + r) / 2 < xs.length)]
    rw [search, hread]
    simp only [Res.ok_bind]
    by_cases h1 : xs.getD ((l + r) / 2) 0 < x
    · rw [if_pos h1]
      by_cases h2 : (l + r) / 2 + 1 = r
      · rw [if_pos h2]
        exact ⟨_, rfl, by omega, h1, by rw [h2]; exact hr⟩
      · rw [if_neg h2]
        have : l < (l + r) / 2 := by omega
        exact ih _ _ (by omega) hrn (by omega) h1 hr
    · rw [if_neg h1]
      by_cases h2 : xs.getD ((l + r) / 2) 0 > x
      · rw [if_pos h2]
        have hlm : l < (l + r) / 2 := by
          rcases Nat.lt_or_ge l ((l + r) / 2) with h | h
          · exact h
          · have : (l + r) / 2 = l := by omega
            rw [this] at h2; exact absurd hl (not_lt.mpr h2.le)
        by_cases h3 : l + 1 = (l + r) / 2
        · rw [if_pos h3]
          exact ⟨_, rfl, by omega, hl, by rw [h3]; exact h2⟩
        · rw [if_neg h3]
          exact ih _ _ hlm hm (by omega) hl h2
      · rw [if_neg h2]
        exact ⟨_, rfl, hm, le_antisymm (not_lt.mp h2) (not_lt.mp h1)⟩

theorem search_nan (xs : List ℝ) : ∀ (fuel l r : Nat), l + 1 ≠ r → (l + r) / 2 < xs.length → search xs none fuel l r = .ok none := by
  intro fuel
  induction fuel with
  | zero => intros; rfl
  | succ fuel ih =>
    intro l r h hm
    rw [search]
    simp only [readAt, List.getElem?_eq_getElem hm, Res.ok_bind, if_neg h]
    exact ih l r h hm

/-- The table: rows of `nrad` numbers, the radii in row 0 starting at 0 and increasing. -/
structure SapTable (tab : List (List ℝ)) (nelem nrad : Nat) : Prop where
  rows : tab.length = nelem
  cols : ∀ row ∈ tab, row.length = nrad
  two : 2 ≤ nrad
  zero : (tab.getD 0 []).getD 0 0 = 0
  mono : ∀ i j, i < j → j < nrad → (tab.getD 0 []).getD i 0 < (tab.getD 0 []).getD j 0

theorem readAt_getD {α : Type} {l : List α} {i : Nat} (d : α) (h : i < l.length) : readAt l i = .ok (l.getD i d) := by
  simp [readAt, List.getD, List.getElem?_eq_getElem h]

theorem lagrange_two (x0 x1 y0 y1 x : ℝ) :
    lagrange [x0, x1] [y0, y1] 2 x = .ok (y0 * ((x - x1) / (x0 - x1)) + y1 * ((x - x0) / (x1 - x0))) := by
  simp [lagrange, List.range_succ, readAt]

theorem row_length {tab : List (List ℝ)} {nelem nrad : Nat} (T : SapTable tab nelem nrad) {z : Nat} (hz : z < nelem) :
    (tab.getD z []).length = nrad := by
  have h : z < tab.length := by rw [T.rows]; exact hz
  have : tab.getD z [] = tab[z] := by simp [List.getD, List.getElem?_eq_getElem h]
  rw [this]; exact T.cols _ (List.getElem_mem h)

theorem sap_interpolated {tab : List (List ℝ)} {nelem nrad : Nat} (T : SapTable tab nelem nrad) {Z : Int} (h1 : 1 ≤ Z) (h2 : Z < nelem)
    {fuel : Nat} (hf : nrad ≤ fuel) (x : ℝ) :
    ∃ v, sapCharge tab nelem nrad fuel Z (some x) = .ok (some v) ∧
      Spec.Interpolated (fun i => (tab.getD 0 []).getD i 0) (fun i => (tab.getD Z.toNat []).getD i 0) nrad x v := by
  have two := T.two
  have hx := row_length T (z := 0) (by omega)
  have hy := row_length T (z := Z.toNat) (by omega)
  have hr0 : readAt tab 0 = .ok (tab.getD 0 []) := readAt_getD _ (by rw [T.rows]; omega)
  have hrZ : readAt tab Z.toNat = .ok (tab.getD Z.toNat []) := readAt_getD _ (by rw [T.rows]; omega)
  have mono := T.mono
  have zero := T.zero
  generalize tab.getD 0 [] = xs at *
  generalize tab.getD Z.toNat [] = ys at *
  have hrx : ∀ i, i < nrad → readAt xs i = .ok (xs.getD i 0) := fun i h => readAt_getD _ (by omega)
  have hry : ∀ i, i < nrad → readAt ys i = .ok (ys.getD i 0) := fun i h => readAt_getD _ (by omega)
  have mono' : ∀ i j, i ≤ j → j < nrad → xs.getD i 0 ≤ xs.getD j 0 := fun i j hij hj => by
    rcases hij.lt_or_eq with h | h
    · exact (mono i j h hj).le
    · rw [h]
  have key : ∀ i, i < nrad → xs.getD i 0 = x → Spec.Interpolated (fun i => xs.getD i 0) (fun i => ys.getD i 0) nrad x (ys.getD i 0) := by
    intro i hi hix
    have uniq : ∀ j, j < nrad → xs.getD j 0 = x → j = i := fun j hj hjx => by
      rcases lt_trichotomy j i with h | h | h
      · exact absurd (mono _ _ h hi) (by rw [hix, hjx]; exact lt_irrefl _)
      · exact h
      · exact absurd (mono _ _ h hj) (by rw [hix, hjx]; exact lt_irrefl _)
    have le_iff : ∀ j, j < nrad → xs.getD j 0 ≤ x → j ≤ i := fun j hj h => by
      by_contra hc; exact absurd (mono _ _ (not_le.mp hc) hj) (by rw [hix]; exact not_lt.mpr h)
    have ge_iff : ∀ j, j < nrad → x ≤ xs.getD j 0 → i ≤ j := fun j hj h => by
      by_contra hc; exact absurd (mono _ _ (not_le.mp hc) hi) (by rw [hix]; exact not_lt.mpr h)
    refine ⟨fun h => ?_, fun h => ?_, fun j hj ha hb => ?_⟩
    · have := ge_iff 0 (by omega) h
      rw [show i = 0 by omega]
    · have := le_iff (nrad - 1) (by omega) h
      rw [show i = nrad - 1 by omega]
    · have h1 := le_iff j (by omega) ha
      have h2 := ge_iff (j + 1) hj hb
      rcases (show i = j ∨ i = j + 1 by omega) with h | h
      · subst h; rw [← hix]; ring
      · subst h; rw [← hix]; ring
  rw [sapCharge, if_neg (by omega), if_neg (by omega), hr0, hrZ]
  simp only [Res.ok_bind]
  rw [hrx _ (by omega)]
  simp only [Res.ok_bind]
  by_cases c1 : x ≤ 0
  · rw [if_pos c1, hry 0 (by omega)]
    refine ⟨_, rfl, ?_⟩
    rcases c1.lt_or_eq with h | h
    · refine ⟨fun _ => rfl, fun hh => ?_, fun j hj ha hb => ?_⟩
      · have := mono' 0 (nrad - 1) (by omega) (by omega); linarith
      · have := mono' 0 j (by omega) (by omega); linarith
    · exact key 0 (by omega) (by rw [zero, h])
  rw [if_neg c1]
  by_cases c2 : x ≥ xs.getD (nrad - 1) 0
  · rw [if_pos c2, hry _ (by omega)]
    refine ⟨_, rfl, ?_⟩
    rcases (show xs.getD (nrad - 1) 0 ≤ x from c2).lt_or_eq with h | h
    · refine ⟨fun hh => ?_, fun _ => rfl, fun j hj ha hb => ?_⟩
      · have := mono' 0 (nrad - 1) (by omega) (by omega); linarith
      · have := mono' (j + 1) (nrad - 1) (by omega) (by omega); linarith
    · exact key _ (by omega) h
  rw [if_neg c2]
  obtain ⟨h, hs, hp⟩ := search_real xs x nrad hx fuel 0 (nrad - 1) (by omega) (by omega) (by omega) (by rw [zero]; exact not_le.mp c1) (not_le.mp c2)
  rw [hs]
  cases h with
  | exact i =>
    simp only [Res.ok_bind]
    rw [hry i hp.1]
    exact ⟨_, rfl, key i hp.1 hp.2⟩
  | between l =>
    obtain ⟨p1, p2, p3⟩ := hp
    simp only [Res.ok_bind]
    rw [if_neg (by omega), show (List.range 2) = [0, 1] from rfl]
    simp only [List.mapM_cons, List.mapM_nil, Nat.add_zero, hrx l (by omega), hrx (l + 1) p1, hry l (by omega), hry (l + 1) p1, Res.ok_bind, Res.pure_eq,
      lagrange_two]
    refine ⟨_, rfl, fun hh => ?_, fun hh => ?_, fun j hj ha hb => ?_⟩
    · have := mono' 0 l (by omega) (by omega); linarith
    · have := mono' (l + 1) (nrad - 1) (by omega) (by omega); linarith
    · have hjl : j = l := by
        rcases lt_trichotomy j l with h | h | h
        · have := mono' (j + 1) l (by omega) (by omega); linarith
        · exact h
        · have := mono' (l + 1) j (by omega) (by omega); linarith
      subst hjl
      have hne : xs.getD (j + 1) 0 - xs.getD j 0 ≠ 0 := by linarith
      have hne' : xs.getD j 0 - xs.getD (j + 1) 0 ≠ 0 := by intro h; linarith
      field_simp
      ring

/-- The piece of the table between two entries, ramped from 0 to 1 -/
noncomputable def ramp (a b x : ℝ) : ℝ := min (max ((x - a) / (b - a)) 0) 1

theorem ramp_continuous (a b : ℝ) : Continuous (ramp a b) := by unfold ramp; fun_prop

theorem ramp_mono {a b : ℝ} (h : a < b) : Monotone (ramp a b) := by
  intro x y hxy
  have : 0 < b - a := by linarith
  unfold ramp; gcongr

theorem ramp_left {a b x : ℝ} (h : a < b) (hx : x ≤ a) : ramp a b x = 0 := by
  have : (x - a) / (b - a) ≤ 0 := div_nonpos_of_nonpos_of_nonneg (by linarith) (by linarith)
  rw [ramp, max_eq_right this]; simp

theorem ramp_right {a b x : ℝ} (h : a < b) (hx : b ≤ x) : ramp a b x = 1 := by
  have : 1 ≤ (x - a) / (b - a) := by rw [le_div_iff₀ (by linarith)]; linarith
  rw [ramp, max_eq_left (by linarith), min_eq_right this]

theorem ramp_mid {a b x : ℝ} (h : a < b) (h1 : a ≤ x) (h2 : x ≤ b) : ramp a b x = (x - a) / (b - a) := by
  have h3 : 0 ≤ (x - a) / (b - a) := div_nonneg (by linarith) (by linarith)
  have h4 : (x - a) / (b - a) ≤ 1 := by rw [div_le_one (by linarith)]; linarith
  rw [ramp, max_eq_left h3, min_eq_left h4]

/-- Reading by straight lines, in closed form -/
theorem interpolated_eq {xs ys : Nat → ℝ} {n : Nat} (hn : 0 < n) (mono : ∀ i j, i < j → j < n → xs i < xs j) {x v : ℝ}
    (h : Spec.Interpolated xs ys n x v) :
    v = ys 0 + ∑ i ∈ Finset.range (n - 1), (ys (i + 1) - ys i) * ramp (xs i) (xs (i + 1)) x := by
  have mono' : ∀ i j, i ≤ j → j < n → xs i ≤ xs j := fun i j hij hj => by
    rcases hij.lt_or_eq with h | h
    · exact (mono i j h hj).le
    · rw [h]
  have part : ∀ m, m < n → xs m ≤ x → ys 0 + ∑ i ∈ Finset.range m, (ys (i + 1) - ys i) * ramp (xs i) (xs (i + 1)) x = ys m := by
    intro m
    induction m with
    | zero => intros; simp
    | succ m ih =>
      intro hm hx
      rw [Finset.sum_range_succ, ← add_assoc, ih (by omega) ((mono' m (m + 1) (by omega) hm).trans hx),
        ramp_right (mono _ _ (by omega) hm) hx]
      ring
  by_cases c1 : x ≤ xs 0
  · rw [h.left c1, Finset.sum_eq_zero, add_zero]
    intro i hi
    have hi := Finset.mem_range.mp hi
    rw [ramp_left (mono _ _ (by omega) (by omega)) (c1.trans (mono' 0 i (by omega) (by omega))), mul_zero]
  by_cases c2 : xs (n - 1) ≤ x
  · rw [h.right c2, part _ (by omega) c2]
  have c1 := not_le.mp c1
  have c2 := not_le.mp c2
  have ex : ∃ k, k < n ∧ x < xs k := ⟨n - 1, by omega, c2⟩
  classical
  have hk := Nat.find_spec ex
  have hmin := fun m => Nat.find_min ex (m := m)
  generalize Nat.find ex = k at hk hmin
  obtain ⟨hkn, hkx⟩ := hk
  obtain ⟨k, rfl⟩ : ∃ j, k = j + 1 := ⟨k - 1, by
    rcases Nat.eq_zero_or_pos k with h0 | h0
    · subst h0; exact absurd hkx (not_lt.mpr c1.le)
    · omega⟩
  have hkl : xs k ≤ x := by
    have := hmin k (by omega)
    push Not at this
    exact this (by omega)
  have split : ∀ m, k + 1 ≤ m → m < n → ∑ i ∈ Finset.range m, (ys (i + 1) - ys i) * ramp (xs i) (xs (i + 1)) x
      = ∑ i ∈ Finset.range (k + 1), (ys (i + 1) - ys i) * ramp (xs i) (xs (i + 1)) x := by
    intro m hm hmn
    induction m, hm using Nat.le_induction with
    | base => rfl
    | succ m hm ih =>
      rw [Finset.sum_range_succ, ih (by omega), ramp_left (mono _ _ (by omega) hmn) (hkx.le.trans (mono' _ _ hm (by omega)))]
      ring
  rw [split (n - 1) (by omega) (by omega), Finset.sum_range_succ, ← add_assoc, part k (by omega) hkl,
    ramp_mid (mono _ _ (by omega) hkn) hkl hkx.le]
  have hb := h.between k hkn hkl hkx.le
  have hne : xs (k + 1) - xs k ≠ 0 := by have := mono k (k + 1) (by omega) hkn; intro h; linarith
  have : v = (ys k * (xs (k + 1) - x) + ys (k + 1) * (x - xs k)) / (xs (k + 1) - xs k) := by
    rw [← hb]; field_simp
  rw [this]; field_simp; ring

theorem interpolated_bounds {xs ys : Nat → ℝ} {n : Nat} (hn : 0 < n) (mono : ∀ i j, i < j → j < n → xs i < xs j) {x v : ℝ}
    (h : Spec.Interpolated xs ys n x v) {a b : ℝ} (hab : ∀ i, i < n → a ≤ ys i ∧ ys i ≤ b) : a ≤ v ∧ v ≤ b := by
  by_cases c1 : x ≤ xs 0
  · rw [h.left c1]; exact hab 0 hn
  by_cases c2 : xs (n - 1) ≤ x
  · rw [h.right c2]; exact hab _ (by omega)
  have c1 := not_le.mp c1
  have c2 := not_le.mp c2
  have ex : ∃ k, k < n ∧ x < xs k := ⟨n - 1, by omega, c2⟩
  classical
  have hk := Nat.find_spec ex
  have hmin := fun m => Nat.find_min ex (m := m)
  generalize Nat.find ex = k at hk hmin
  obtain ⟨hkn, hkx⟩ := hk
  obtain ⟨k, rfl⟩ : ∃ j, k = j + 1 := ⟨k - 1, by
    rcases Nat.eq_zero_or_pos k with h0 | h0
    · subst h0; exact absurd hkx (not_lt.mpr c1.le)
    · omega⟩
  have hkl : xs k ≤ x := by
    have := hmin k (by omega)
    push Not at this
    exact this (by omega)
  have hb := h.between k hkn hkl hkx.le
  have hd : 0 < xs (k + 1) - xs k := by have := mono k (k + 1) (by omega) hkn; linarith
  obtain ⟨a1, b1⟩ := hab k (by omega)
  obtain ⟨a2, b2⟩ := hab (k + 1) hkn
  have p : 0 ≤ x - xs k := by linarith
  have q : 0 ≤ xs (k + 1) - x := by linarith
  constructor
  · by_contra hc
    have hc := not_le.mp hc
    nlinarith [mul_le_mul_of_nonneg_right a1 q, mul_le_mul_of_nonneg_right a2 p]
  · by_contra hc
    have hc := not_le.mp hc
    nlinarith [mul_le_mul_of_nonneg_right b1 q, mul_le_mul_of_nonneg_right b2 p]

end HelFEM.Guess
