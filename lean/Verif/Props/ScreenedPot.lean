import Verif.Lemmas.ScreenedPot

/-!
# C79: the screened nuclear charges behind the initial guesses
-/

namespace HelFEM

open Filter Topology Guess

/-! ### Green-Sellin-Zachor -/

/-- C79. For `1 ≤ Z ≤ 102` the GSZ potential is `-q(r)/r` with a charge that starts at `Z`, never rises and goes over to 1. The parameters are entry `Z`
of the table, counted from 0, and that entry times `(Z-1)^0.4`. -/
theorem C79_gsz (Z : Int) (h1 : 1 ≤ Z) (h2 : Z ≤ 102) :
    ∃ q : ℝ → ℝ, Spec.ScreenedCharge q Z 1 ∧ (∀ r, 0 ≤ r → 1 ≤ q r ∧ q r ≤ Z) ∧
      (∃ n : Nat, gszTable[Z.toNat]? = some n ∧
        ∀ r, q r = 1 + ((Z : ℝ) - 1) / (1 + (Real.exp (r / (n / 1000)) - 1) * (n / 1000 * ((Z : ℝ) - 1) ^ ((2 : ℝ) / 5)))) ∧
      ∀ r, gszChargeZ r Z = .ok (some (q r)) ∧ gszPotential Z r = .ok (some (-q r / r)) := by
  obtain ⟨n, hn, hpos, hp⟩ := gszParameters_ok (Z := Z) (by omega) h2
  have hz : (1 : ℝ) ≤ Z := by exact_mod_cast h1
  have hd : (0 : ℝ) < (n : ℝ) / 1000 := by positivity
  have hpow : powNaN ((Z - 1 : Int) : ℝ) (2 / 5) = some (((Z : ℝ) - 1) ^ ((2 : ℝ) / 5)) := by
    rw [powNaN, if_neg]
    · push_cast; rfl
    · push_cast; linarith
  rw [hpow, Option.map_some] at hp
  have hb : (0 : ℝ) ≤ (Z : ℝ) - 1 := by linarith
  have hH : 0 ≤ (n : ℝ) / 1000 * ((Z : ℝ) - 1) ^ ((2 : ℝ) / 5) := by positivity
  have hs := gsz_screened hz hd hH (fun h => by
    have : (0 : ℝ) < (Z : ℝ) - 1 := lt_of_le_of_ne hb (fun h' => h (by linarith))
    positivity)
  refine ⟨_, hs, fun r hr => ?_, ⟨n, hn, fun r => by simp only [mul_one]⟩, fun r => ⟨?_, ?_⟩⟩
  · refine ⟨?_, ?_⟩
    · have e1 : 1 ≤ Real.exp (r / ((n : ℝ) / 1000)) := Real.one_le_exp (by positivity)
      have : 0 ≤ ((Z : ℝ) - 1) * 1 / (1 + (Real.exp (r / ((n : ℝ) / 1000)) - 1) * ((n : ℝ) / 1000 * ((Z : ℝ) - 1) ^ ((2 : ℝ) / 5))) := by
        refine div_nonneg (by linarith) ?_
        have : 0 ≤ (Real.exp (r / ((n : ℝ) / 1000)) - 1) * ((n : ℝ) / 1000 * ((Z : ℝ) - 1) ^ ((2 : ℝ) / 5)) := mul_nonneg (by linarith) hH
        linarith
      simpa using this
    · have := hs.falls (Set.mem_Ici.mpr (le_refl (0 : ℝ))) (Set.mem_Ici.mpr hr) hr
      rw [hs.nucleus] at this
      exact this
  · simp [gszChargeZ, hp, gszCharge]
  · simp [gszPotential, hp, gszCharge]

/-- The second entry, 0.215, is the one used for hydrogen, and the third, 0.563, for helium. -/
example : gszTable[(1 : Int).toNat]? = some 215 ∧ gszTable[(2 : Int).toNat]? = some 563 := by decide

/-- C79. The range check lets `Z = 103` pass and then reads behind the end of the table of 103 numbers; everything above and every negative number is
refused. -/
theorem C79_gsz_range (Z : Int) :
    (Z < 0 ∨ 103 < Z → gszParameters Z = .throw .logicError) ∧ (Z = 103 → gszParameters Z = .ub) ∧
      (0 ≤ Z ∧ Z ≤ 102 → ∃ p, gszParameters Z = .ok p) := by
  have hl := gszTable_length
  refine ⟨fun h => ?_, fun h => ?_, fun h => ?_⟩
  · rw [gszParameters, if_pos (by omega)]
  · subst h
    rw [gszParameters, if_neg (by omega)]
    have : readAt gszTable (103 : Int).toNat = .ub := by decide
    rw [this]; rfl
  · obtain ⟨n, _, _, hp⟩ := gszParameters_ok h.1 h.2
    exact ⟨_, hp⟩

/-- C79. A centre without charge gets NaN from the GSZ potential everywhere: its parameter is the 0.4th power of -1. The other guesses give zero there
(`C79_thomas_fermi`, `C79_sap_range`, `C79_sapfe`). -/
theorem C79_gsz_no_charge (r : ℝ) : gszChargeZ r 0 = .ok none ∧ gszPotential 0 r = .ok none := by
  obtain ⟨n, _, _, hp⟩ := gszParameters_ok (Z := 0) (by omega) (by omega)
  have hpow : powNaN ((0 - 1 : Int) : ℝ) (2 / 5) = none := by rw [powNaN, if_pos (by norm_num)]
  rw [hpow, Option.map_none] at hp
  simp [gszChargeZ, gszPotential, hp, gszCharge]

/-! ### Thomas-Fermi -/

/-- C79. The Thomas-Fermi potential is `-q(r)/r` with a charge that starts at `Z`, never rises, stays positive and goes to 0: `Z` times the
screening function at `r` in units of the Thomas-Fermi length `b`, `b³ = 9π²/(128 Z)`. Without a charge it is 0. -/
theorem C79_thomas_fermi (Z : Int) (hZ : 0 ≤ Z) :
    Spec.ScreenedCharge (fun r => tfCharge Real.pi r Z) Z 0 ∧
      (∀ r, 0 ≤ r → (0 < Z → 0 < tfCharge Real.pi r Z) ∧ tfCharge Real.pi r Z ≤ Z) ∧
      (∀ r b, 0 < b → b ^ 3 * (128 * Z) = 9 * Real.pi ^ 2 → tfCharge Real.pi r Z = Z * Spec.tfScreening (r / b)) ∧
      (∀ r, tfPotential Real.pi Z r = -tfCharge Real.pi r Z / r) ∧ (Z = 0 → ∀ r, tfPotential Real.pi Z r = 0) := by
  have hs := tf_screened hZ
  refine ⟨hs, fun r hr => ⟨fun h => tf_pos h hr, ?_⟩, fun r b hb hb3 => ?_, fun r => rfl, fun h r => ?_⟩
  · have := hs.falls (Set.mem_Ici.mpr (le_refl (0 : ℝ))) (Set.mem_Ici.mpr hr) hr
    rw [hs.nucleus] at this
    exact this
  · have hpi := Real.pi_pos
    have hz : (0 : ℝ) < 128 * (Z : ℝ) := by
      have : 0 < b ^ 3 * (128 * (Z : ℝ)) := by rw [hb3]; positivity
      exact pos_of_mul_pos_right this (by positivity)
    have hx : (128 * (Z : ℝ) / (9 * Real.pi * Real.pi)) ^ ((1 : ℝ) / 3) = b⁻¹ := by
      have : 128 * (Z : ℝ) / (9 * Real.pi * Real.pi) = (b⁻¹) ^ 3 := by
        field_simp; linarith
      rw [this, ← Real.rpow_natCast, ← Real.rpow_mul (by positivity)]
      norm_num
    simp only [tfCharge, Spec.tfScreening, hx, ← div_eq_mul_inv]
    norm_num
    ring
  · subst h; simp [tfPotential, tfCharge]

example : ∃ b : ℝ, 0 < b ∧ b ^ 3 * (128 * ((26 : Int) : ℝ)) = 9 * Real.pi ^ 2 := by
  have hpi := Real.pi_pos
  refine ⟨(9 * Real.pi ^ 2 / (128 * 26)) ^ ((1 : ℝ) / 3), by positivity, ?_⟩
  rw [← Real.rpow_natCast, ← Real.rpow_mul (by positivity)]
  norm_num

/-! ### The tabulated potentials -/

/-- a table of two elements and four radii -/
noncomputable def sapExample : List (List ℝ) := [[0, 1, 2, 4], [1, 1 / 2, 1 / 4, 0], [2, 1, 0, 0]]

theorem sapExample_table : SapTable sapExample 3 4 := by
  refine ⟨rfl, ?_, by norm_num, by simp [sapExample], ?_⟩
  · intro row h
    simp only [sapExample, List.mem_cons, List.not_mem_nil, or_false] at h
    rcases h with h | h | h <;> simp [h]
  · intro i j hij hj
    have : j = 0 ∨ j = 1 ∨ j = 2 ∨ j = 3 := by omega
    rcases this with rfl | rfl | rfl | rfl
    · omega
    · have : i = 0 := by omega
      subst this; norm_num [sapExample]
    · have : i = 0 ∨ i = 1 := by omega
      rcases this with rfl | rfl <;> norm_num [sapExample]
    · have : i = 0 ∨ i = 1 ∨ i = 2 := by omega
      rcases this with rfl | rfl | rfl <;> norm_num [sapExample]

/-- C79. For every element of the table and every radius the lookup returns, within `nrad` rounds of the search, the value read from the table by straight
lines. -/
theorem C79_sap {tab : List (List ℝ)} {nelem nrad : Nat} (T : SapTable tab nelem nrad) (Z : Int) (h1 : 1 ≤ Z) (h2 : Z < nelem)
    (fuel : Nat) (hf : nrad ≤ fuel) (x : ℝ) :
    ∃ v, sapCharge tab nelem nrad fuel Z (some x) = .ok (some v) ∧ sapPotential tab nelem nrad fuel Z x = .ok (some (-v / x)) ∧
      Spec.Interpolated (fun i => (tab.getD 0 []).getD i 0) (fun i => (tab.getD Z.toNat []).getD i 0) nrad x v := by
  obtain ⟨v, h, hv⟩ := sap_interpolated T h1 h2 hf x
  exact ⟨v, h, by simp [sapPotential, h], hv⟩

example (x : ℝ) : ∃ v, sapCharge sapExample 3 4 4 2 (some x) = .ok (some v) ∧ (x = 3 / 2 → v = 1 / 2) := by
  obtain ⟨v, h, _, hv⟩ := C79_sap sapExample_table 2 (by norm_num) (by norm_num) 4 (le_refl _) x
  refine ⟨v, h, fun hx => ?_⟩
  have := hv.between 1 (by norm_num) (by rw [hx]; norm_num [sapExample]) (by rw [hx]; norm_num [sapExample])
  rw [hx, show Int.toNat 2 = 2 from rfl] at this
  norm_num [sapExample] at this
  linarith

/-- C79. As a function of the radius the charge read from the table is continuous, lies between the smallest and the largest entry of its row, and never
rises if the row does not. -/
theorem C79_sap_shape {tab : List (List ℝ)} {nelem nrad : Nat} (T : SapTable tab nelem nrad) (Z : Int) (h1 : 1 ≤ Z) (h2 : Z < nelem)
    (fuel : Nat) (hf : nrad ≤ fuel) :
    ∃ q : ℝ → ℝ, (∀ x, sapCharge tab nelem nrad fuel Z (some x) = .ok (some (q x))) ∧ Continuous q ∧
      (∀ a b, (∀ i, i < nrad → a ≤ (tab.getD Z.toNat []).getD i 0 ∧ (tab.getD Z.toNat []).getD i 0 ≤ b) → ∀ x, a ≤ q x ∧ q x ≤ b) ∧
      ((∀ i, i + 1 < nrad → (tab.getD Z.toNat []).getD (i + 1) 0 ≤ (tab.getD Z.toNat []).getD i 0) → Antitone q) := by
  choose q hq hv using fun x => sap_interpolated T h1 h2 hf x
  have two := T.two
  have heq := fun x => interpolated_eq (by omega) T.mono (hv x)
  refine ⟨q, hq, ?_, fun a b hab x => interpolated_bounds (by omega) T.mono (hv x) hab, fun hrow => ?_⟩
  · rw [funext heq]
    refine continuous_const.add (continuous_finsetSum _ fun i _ => continuous_const.mul (ramp_continuous _ _))
  · intro x y hxy
    rw [heq x, heq y]
    refine add_le_add le_rfl (Finset.sum_le_sum fun i hi => ?_)
    have hi := Finset.mem_range.mp hi
    exact mul_le_mul_of_nonpos_left (ramp_mono (T.mono i (i + 1) (by omega) (by omega)) hxy) (sub_nonpos.mpr (hrow i (by omega)))

example : ∃ q : ℝ → ℝ, (∀ x, sapCharge sapExample 3 4 4 2 (some x) = .ok (some (q x))) ∧ Antitone q := by
  obtain ⟨q, hq, _, _, ha⟩ := C79_sap_shape sapExample_table 2 (by norm_num) (by norm_num) 4 (le_refl _)
  refine ⟨q, hq, ha fun i hi => ?_⟩
  have : i = 0 ∨ i = 1 ∨ i = 2 := by omega
  rw [show Int.toNat 2 = 2 from rfl]
  rcases this with rfl | rfl | rfl <;> norm_num [sapExample]

/-- C79. Outside the elements of the table the charge is 0 at every radius. -/
theorem C79_sap_range (tab : List (List ℝ)) (nelem nrad fuel : Nat) (Z : Int) (h : Z < 1 ∨ (nelem : Int) ≤ Z) (x : Option ℝ) :
    sapCharge tab nelem nrad fuel Z x = .ok (some 0) := by
  rw [sapCharge]
  by_cases c : Z < 1
  · rw [if_pos c]
  · rw [if_neg c, if_pos (by omega)]

/-- C79. At the radius NaN the search never ends: it is still running after any number of rounds. -/
theorem C79_sap_nan {tab : List (List ℝ)} {nelem nrad : Nat} (T : SapTable tab nelem nrad) (h3 : 3 ≤ nrad) (Z : Int) (h1 : 1 ≤ Z) (h2 : Z < nelem)
    (fuel : Nat) : sapCharge tab nelem nrad fuel Z none = .ok none ∧ search (tab.getD 0 []) none fuel 0 (nrad - 1) = .ok none := by
  have hx := row_length T (z := 0) (by omega)
  have hs := search_nan (tab.getD 0 []) fuel 0 (nrad - 1) (by omega) (by omega)
  refine ⟨?_, hs⟩
  have hr0 : readAt tab 0 = .ok (tab.getD 0 []) := readAt_getD _ (by rw [T.rows]; omega)
  have hrZ : readAt tab Z.toNat = .ok (tab.getD Z.toNat []) := readAt_getD _ (by rw [T.rows]; omega)
  rw [sapCharge, if_neg (by omega), if_neg (by omega), hr0, hrZ]
  simp only [Res.ok_bind]
  rw [readAt_getD (d := 0) (show nrad - 1 < (tab.getD 0 []).length by omega)]
  simp only [Res.ok_bind]
  rw [hs]; rfl

example (fuel : Nat) : sapCharge sapExample 3 4 fuel 1 none = .ok none :=
  (C79_sap_nan sapExample_table (by norm_num) 1 (by norm_num) (by norm_num) fuel).1

/-! ### The potential of the tabulated wave functions -/

/-- C79. A centre without charge has no record, the potential 0 and no breakpoints; other charges outside the database are refused. With a record the
potential is `-q(r)/r` for its effective charge, and the breakpoints are the element boundaries strictly inside the interval, in order. -/
theorem C79_sapfe (L : Screening.Lib) (pi : ℝ) (maxZ Z x c : Int) (db : AtomDB.Db) (table : Int → List AtomDB.Shell) :
    (Z = 0 → sapfe maxZ db table Z = .ok none ∧ (∀ r, sapfePotential L pi Z x c none r = .ok 0) ∧ ∀ lo hi, sapfeBreakpoints none lo hi = []) ∧
      (Z ≠ 0 → Z < 1 ∨ maxZ < Z → sapfe maxZ db table Z = .throw .logicError) ∧
      (∀ a, sapfe maxZ db table Z = .ok (some a) →
        (∀ r q, Screening.effectiveCharge L pi Z a x c r = .ok q → sapfePotential L pi Z x c (some a) r = .ok (-q / r)) ∧
        ∀ lo hi, (sapfeBreakpoints (some a) lo hi).Sublist a.db.o.bval ∧
          ∀ b, b ∈ sapfeBreakpoints (some a) lo hi ↔ b ∈ a.db.o.bval ∧ lo < b ∧ b < hi) := by
  refine ⟨fun h => ⟨by simp [sapfe, h], fun r => rfl, fun _ _ => rfl⟩, fun h0 h => ?_, fun a _ => ⟨fun r q hq => ?_, fun lo hi => ⟨?_, fun b => ?_⟩⟩⟩
  · simp [sapfe, h0, AtomDB.Atom.make, h]
  · simp [sapfePotential, hq]
  · exact List.filter_sublist
  · simp [sapfeBreakpoints, List.mem_filter]

end HelFEM
