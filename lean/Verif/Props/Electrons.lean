import Verif.Model.Electrons
import Mathlib.Tactic.IntervalCases

/-!
# C34: electron counts
-/

namespace HelFEM
namespace Elec

/-- Specification: `a` spin-up and `b` spin-down electrons for charge `Q`, multiplicity `M` and total nuclear charge `Z`. -/
def Consistent (a b Q M Z : Int) : Prop := 0 ≤ a ∧ 0 ≤ b ∧ a + b = Z - Q ∧ M = 1 + (a - b)

/-- **C34, charge and multiplicity.** Without explicit counts the parser succeeds exactly if a consistent split exists with multiplicity at least one, and returns it;
otherwise it throws. -/
theorem C34_charge_multiplicity (Q M Z a b Q' M' : Int) :
    parseNelaNelb 0 0 Q M Z = .ok ⟨a, b, Q', M'⟩ ↔ 1 ≤ M ∧ Consistent a b Q M Z ∧ Q' = Q ∧ M' = M := by
  unfold parseNelaNelb Consistent
  simp only [and_self, if_true]
  generalize hn : Z - Q = nel
  have h1 : nel.tmod 2 = nel - 2 * nel.tdiv 2 := by have := Int.mul_tdiv_add_tmod nel 2; omega
  have h2 : M.tmod 2 = M - 2 * M.tdiv 2 := by have := Int.mul_tdiv_add_tmod M 2; omega
  have h3 := Int.mul_tdiv_add_tmod (M - 1) 2
  have t1 : nel.tmod 2 = 0 ∨ nel.tmod 2 = 1 ∨ nel.tmod 2 = -1 := by
    rcases Int.tmod_two_eq nel with h | h | h <;> omega
  have t2 : M.tmod 2 = 0 ∨ M.tmod 2 = 1 ∨ M.tmod 2 = -1 := by
    rcases Int.tmod_two_eq M with h | h | h <;> omega
  have t3 : (M - 1).tmod 2 = 0 ∨ (M - 1).tmod 2 = 1 ∨ (M - 1).tmod 2 = -1 := by
    rcases Int.tmod_two_eq (M - 1) with h | h | h <;> omega
  have s1 : 0 ≤ nel → 0 ≤ nel.tmod 2 := fun h => Int.tmod_nonneg 2 h
  have s2 : 0 ≤ M → 0 ≤ M.tmod 2 := fun h => Int.tmod_nonneg 2 h
  have s3 : 0 ≤ M - 1 → 0 ≤ (M - 1).tmod 2 := fun h => Int.tmod_nonneg 2 h
  split_ifs with a1 a2 a3 a4 a5 a6 a5 a6 <;>
    simp only [Res.ok.injEq, Counts.mk.injEq, reduceCtorEq, false_iff, not_and] <;>
    generalize nel.tmod 2 = x at * <;> generalize M.tmod 2 = y at * <;> generalize (M - 1).tmod 2 = z at * <;>
    generalize nel.tdiv 2 = u at * <;> generalize M.tdiv 2 = v at * <;> generalize (M - 1).tdiv 2 = w at * <;> omega

theorem parse_not_ub (nela nelb Q M Z : Int) : parseNelaNelb nela nelb Q M Z ≠ .ub := by
  unfold parseNelaNelb
  simp only
  split_ifs <;> simp

/-- everything else throws -/
theorem C34_throws (Q M Z : Int) (h : ¬ ∃ a b, 1 ≤ M ∧ Consistent a b Q M Z) : parseNelaNelb 0 0 Q M Z = .throw .runtimeError := by
  cases hp : parseNelaNelb 0 0 Q M Z with
  | ok c =>
    obtain ⟨a, b, Q', M'⟩ := c
    obtain ⟨h1, h2, _⟩ := (C34_charge_multiplicity Q M Z a b Q' M').1 hp
    exact absurd ⟨a, b, h1, h2⟩ h
  | ub => exact absurd hp (parse_not_ub _ _ _ _ _)
  | throw e =>
    unfold parseNelaNelb at hp
    simp only [and_self, if_true] at hp
    split_ifs at hp <;> simp_all

/-- **C34, explicit counts (partial).** Explicit nonnegative counts, not both zero, are accepted exactly if there are at least as many spin-up as spin-down electrons, and charge and multiplicity
are then recomputed consistently. Missing: rejection of negative counts, see `C34_negative_accepted`. -/
theorem C34_explicit_partial (nela nelb Q M Z : Int) (h0 : ¬ (nela = 0 ∧ nelb = 0)) (ha : 0 ≤ nela) (hb : 0 ≤ nelb) :
    (nelb ≤ nela → ∃ Q' M', parseNelaNelb nela nelb Q M Z = .ok ⟨nela, nelb, Q', M'⟩ ∧ 1 ≤ M' ∧ Consistent nela nelb Q' M' Z) ∧
    (nela < nelb → parseNelaNelb nela nelb Q M Z = .throw .runtimeError) := by
  unfold parseNelaNelb
  simp only [if_neg h0]
  refine ⟨fun h => ⟨Z - nela - nelb, 1 + nela - nelb, by rw [if_neg (by omega)], by omega, ha, hb, by omega, by omega⟩, fun h => by rw [if_pos (by omega)]⟩

/-- **C34 is violated by explicit negative counts**: five spin-up and minus three spin-down electrons are accepted, for every nuclear charge. -/
theorem C34_negative_accepted (Q M Z : Int) : parseNelaNelb 5 (-3) Q M Z = .ok ⟨5, -3, Z - 5 - -3, 9⟩ := by
  unfold parseNelaNelb
  simp

/-- **C34, driver.** Whenever the driver's derivation succeeds with nonnegative explicit counts (or none), the counts are nonnegative and add up to the number of electrons in the calculation; without
explicit counts that number is the nuclear charge minus the net charge, and unrestricted mode is never chosen without a multiplicity. -/
theorem C34_derive (nela nelb restr Q M Z : Int) (ha : 0 ≤ nela) (hb : 0 ≤ nelb) (d : Derived) (h : derive nela nelb restr Q M Z = .ok d) :
    0 ≤ d.nela ∧ 0 ≤ d.nelb ∧ d.nelb ≤ d.nela ∧ d.nela + d.nelb = d.Ntot ∧ (d.restricted = true ↔ d.restr ≠ 0) ∧
    (nela = 0 ∧ nelb = 0 → d.Ntot = Z - Q ∧ (M ≠ 0 → M = 1 + (d.nela - d.nelb)) ∧ (M = 0 → d.restricted = true)) ∧
    (¬ (nela = 0 ∧ nelb = 0) → d.nela = nela ∧ d.nelb = nelb) ∧ (restr = -1 → M ≠ 0 → (d.restricted = true ↔ d.nela = d.nelb)) := by
  unfold derive at h
  simp only at h
  by_cases h1 : M = 0 ∧ nela = 0 ∧ nelb = 0
  · rw [if_pos h1] at h
    split_ifs at h with h2 h3
    simp only [Res.ok.injEq] at h
    subst h
    have e1 := Int.mul_tdiv_add_tmod (Z - Q) 2
    have e2 := Int.mul_tdiv_add_tmod (Z - Q + 1) 2
    have s1 : 0 ≤ (Z - Q).tmod 2 := Int.tmod_nonneg 2 (by omega)
    have s2 : 0 ≤ (Z - Q + 1).tmod 2 := Int.tmod_nonneg 2 (by omega)
    have t1 : (Z - Q).tmod 2 < 2 := Int.tmod_lt_of_pos _ (by omega)
    have t2 : (Z - Q + 1).tmod 2 < 2 := Int.tmod_lt_of_pos _ (by omega)
    obtain ⟨m0, a0, b0⟩ := h1
    refine ⟨by simp only; omega, by simp only; omega, by simp only; omega, by simp only; omega, by simp, fun _ => ⟨rfl, fun hm => absurd m0 hm, fun _ => rfl⟩, fun hn => absurd ⟨a0, b0⟩ hn, fun _ hm => absurd m0 hm⟩
  · rw [if_neg h1] at h
    cases hp : parseNelaNelb nela nelb Q M Z with
    | throw e => rw [hp] at h; cases h
    | ub => rw [hp] at h; cases h
    | ok c =>
      rw [hp] at h
      simp only [Res.ok.injEq] at h
      subst h
      obtain ⟨a, b, Q', M'⟩ := c
      have hr : (restr = -1 → M ≠ 0 → (((if restr = -1 then (if a = b then (1 : Int) else 0) else restr) != 0) = true ↔ a = b)) := by
        rintro rfl _
        by_cases hab : a = b <;> simp [hab]
      by_cases h0 : nela = 0 ∧ nelb = 0
      · obtain ⟨rfl, rfl⟩ := h0
        obtain ⟨hM, ⟨p1, p2, p3, p4⟩, _, _⟩ := (C34_charge_multiplicity Q M Z a b Q' M').1 hp
        refine ⟨p1, p2, by simp only; omega, rfl, by simp, fun _ => ⟨p3, fun _ => p4, fun hm => absurd hm (by omega)⟩, fun hn => absurd ⟨rfl, rfl⟩ hn, hr⟩
      · obtain ⟨q1, q2⟩ := C34_explicit_partial nela nelb Q M Z h0 ha hb
        rcases lt_or_ge nela nelb with hlt | hge
        · rw [q2 hlt] at hp; cases hp
        · obtain ⟨Q'', M'', e, _, _, _, _, _⟩ := q1 hge
          rw [e] at hp
          simp only [Res.ok.injEq, Counts.mk.injEq] at hp
          obtain ⟨rfl, rfl, _, _⟩ := hp
          exact ⟨ha, hb, hge, rfl, by simp, fun hn => absurd hn h0, fun _ => ⟨rfl, rfl⟩, hr⟩

/-- **C34, solver tables.** With one particle type in restricted and two in unrestricted mode, the numbers of particles handed to the solver add up to the number of electrons, every block has capacity one electron per spin and
degenerate orbital, and all tables have one entry per block. A wrong number of labels or degeneracies throws. -/
theorem C34_metadata (nsym : Nat) (restricted : Bool) (Ntot nela nelb : Int) (hN : nela + nelb = Ntot) (labels : List String) (deg : List Int) :
    (labels.length = nsym ∧ deg.length = nsym → ∃ md, blockMetadata nsym (if restricted then 1 else 2) restricted Ntot nela nelb labels deg = .ok md ∧
      md.particles.sum = Ntot ∧ md.maxOcc.length = nsym * (if restricted then 1 else 2) ∧ md.descriptions.length = nsym * (if restricted then 1 else 2) ∧
      md.maxOcc.sum = 2 * deg.sum) ∧
    (¬ (labels.length = nsym ∧ deg.length = nsym) → blockMetadata nsym (if restricted then 1 else 2) restricted Ntot nela nelb labels deg = .throw .logicError) := by
  unfold blockMetadata
  constructor
  · rintro ⟨h1, h2⟩
    have hs : ∀ c : Int, ((List.range nsym).map fun k => c * deg.getD k 0).sum = c * deg.sum := by
      intro c
      have e : (List.range nsym).map (fun k => c * deg.getD k 0) = deg.map (c * ·) := by
        apply List.ext_getElem
        · simp [h2]
        · intro i h3 h4
          simp only [List.length_map] at h4
          simp only [List.getElem_map, List.getElem_range]
          rw [List.getD_eq_getElem?_getD, List.getElem?_eq_getElem h4]; rfl
      rw [e]
      clear h2 e
      induction deg with
      | nil => simp
      | cons a l ih => rw [List.map_cons, List.sum_cons, List.sum_cons, ih, mul_add]
    rw [if_neg (by simp [h2]), if_neg (by simp [h1])]
    refine ⟨_, rfl, ?_⟩
    cases restricted
    · simp only [Bool.false_eq_true, if_false, List.range_succ, List.range_zero, List.nil_append, List.flatMap_append, List.flatMap_cons, List.flatMap_nil, List.append_nil,
        List.map_append, List.map_cons, List.map_nil, List.length_append, List.length_map, List.length_range, List.sum_append, List.sum_cons, List.sum_nil, hs]
      refine ⟨?_, by omega, by omega, by omega⟩
      simp
      omega
    · simp only [if_true, List.range_succ, List.range_zero, List.nil_append, List.flatMap_cons, List.flatMap_nil, List.append_nil,
        List.map_cons, List.map_nil, List.length_map, List.length_range, List.sum_cons, List.sum_nil, hs]
      exact ⟨by omega, by omega, by omega, trivial⟩
  · intro h
    by_cases h2 : deg.length = nsym
    · rw [if_neg (by simp [h2]), if_pos (fun h1 => h ⟨h1, h2⟩)]
    · rw [if_pos h2]

/-- triplet oxygen, a doublet cation, an impossible quintet of helium, and an odd restricted run -/
example : parseNelaNelb 0 0 0 3 8 = .ok ⟨5, 3, 0, 3⟩ ∧ parseNelaNelb 0 0 1 2 4 = .ok ⟨2, 1, 1, 2⟩ ∧ parseNelaNelb 0 0 0 5 2 = .throw .runtimeError ∧
    parseNelaNelb 0 0 7 2 4 = .throw .runtimeError ∧ derive 0 0 (-1) 0 0 7 = .ok ⟨4, 3, 1, true, 7⟩ ∧ derive 4 3 (-1) 0 0 7 = .ok ⟨4, 3, 0, false, 7⟩ := by decide
example : blockMetadata 2 2 false 7 4 3 ["m=0", "|m|=1"] [1, 2] =
    .ok ⟨[2, 2], [1, 2, 1, 2], [4, 3], ["a:m=0", "a:|m|=1", "b:m=0", "b:|m|=1"]⟩ := by decide

end Elec
end HelFEM
