import Verif.Lemmas.RadialGrid
import Verif.Props.Elements

/-!
# C06, C07: element grids
-/

namespace HelFEM
namespace RadialGrid
open Spec

/-- **C06.** For every positive outer radius, every number of elements `n ≥ 1` and every admissible grid type and
parameter, `get_grid` returns `n+1` strictly increasing boundaries from exactly 0 to exactly `rmax`. -/
theorem C06_grid_valid_partial (rmax zexp : ℝ) (n : Nat) (igrid : Int) (hr : 0 < rmax) (hn : 1 ≤ n)
    (ha : AdmissibleGrid igrid zexp) : ∃ b, getGrid rmax n igrid zexp = .ok b ∧ ValidGrid n rmax b :=
  getGrid_valid hr (by omega) ha

example : ∃ b, getGrid 40 5 4 2 = .ok b ∧ ValidGrid 5 40 b :=
  C06_grid_valid_partial 40 2 5 4 (by norm_num) (by norm_num) (Or.inr (Or.inr (Or.inr (Or.inl ⟨rfl, by norm_num⟩))))

/-- **C06 (snapping is harmless).** In exact arithmetic the formulas already give the exact end points: forcing them
to 0 and `rmax` does not move any boundary. -/
theorem C06_snap_noop (rmax zexp : ℝ) (n : Nat) (igrid : Int) (hr : 0 < rmax) (hn : 1 ≤ n)
    (ha : AdmissibleGrid igrid zexp) : getGrid rmax n igrid zexp = rawGrid rmax n igrid zexp := by
  obtain ⟨b, h1, h2⟩ := rawGrid_valid hr (show n ≠ 0 by omega) ha
  unfold getGrid
  rw [if_neg (by omega)]
  simp only [Int.toNat_natCast, h1, Res.ok_bind, Res.pure_eq, snap_valid h2]

/-- **C06 (rejections).** Unknown grid types and geometric ratios outside `(0,1)` throw, whatever the other arguments. -/
theorem C06_rejects (rmax zexp : ℝ) (numEl igrid : Int)
    (h : igrid < 1 ∨ 5 < igrid ∨ (igrid = 5 ∧ (zexp ≤ 0 ∨ 1 ≤ zexp))) :
    getGrid rmax numEl igrid zexp = .throw .logicError := by
  unfold getGrid
  have hraw : ∀ n, rawGrid rmax n igrid zexp = .throw .logicError := by
    intro n
    unfold rawGrid
    rcases h with h | h | ⟨rfl, h⟩
    · rw [if_neg (by omega), if_neg (by omega), if_neg (by omega), if_neg (by omega), if_neg (by omega)]
    · rw [if_neg (by omega), if_neg (by omega), if_neg (by omega), if_neg (by omega), if_neg (by omega)]
    · rw [if_neg (by omega), if_neg (by omega), if_neg (by omega), if_neg (by omega), if_pos rfl, if_pos h]
  split
  · rcases h with h | h | ⟨rfl, h⟩
    · rw [if_neg (by omega), if_pos (Or.inl h)]
    · rw [if_neg (by omega), if_pos (Or.inr h)]
    · rw [if_pos ⟨rfl, h⟩]
  · simp only [hraw, Res.throw_bind]

/-- **C06 (negative part).** The admissibility of the exponent of the polynomial grid is not checked: with exponent
`-1` and two elements the "grid" on `[0,1]` is `0, 2, 1`. -/
theorem C06_negative_exponent_accepted :
    getGrid 1 2 3 (-1) = .ok [0, 2, 1] ∧ ¬ ValidGrid 2 1 [0, 2, 1] := by
  constructor
  · have e : rawGrid 1 2 3 (-1) = .ok ((List.range 3).map fun i : Nat => (1 : ℝ) * (((i : ℝ) * (1 / (2 : Nat))) ^ (-1 : ℝ))) := rfl
    unfold getGrid
    rw [if_neg (by norm_num)]
    simp only [show (2 : Int).toNat = 2 from rfl, e, Res.ok_bind, Res.pure_eq, List.range_succ, List.range_zero]
    simp [Real.rpow_neg_one]
  · intro h
    have := h.increasing
    norm_num [List.pairwise_cons] at this

/-- **C07 (finite nuclei).** With a nuclear grid (`Nelem0 ≥ 1`), for every finite nucleus model of radius `rnuc`
inside `Rmax`, the grid is strictly increasing, starts at 0, has `rnuc` as an element boundary and
`2*Nelem0 + Nelem` elements, **but ends at `Rmax + rnuc`, not at `Rmax`**. -/
theorem C07_finite_nucleus_grid_partial (m : NuclearModel) (Rrms Rmax zexp zexp0 rnuc Rhalf : ℝ) (Nelem Nelem0 : Nat)
    (igrid igrid0 Z : Int) (hm : nuclearRadius m Rrms = .ok rnuc) (h0 : 0 < rnuc) (h1 : rnuc < Rmax)
    (hN : 1 ≤ Nelem) (hN0 : 1 ≤ Nelem0) (ha : AdmissibleGrid igrid zexp) (ha0 : AdmissibleGrid igrid0 zexp0) :
    ∃ b, formGrid m Rrms Nelem Rmax igrid zexp Nelem0 igrid0 zexp0 Z 0 0 Rhalf false 0 = .ok b ∧
      ValidGrid (2 * Nelem0 + Nelem) (Rmax + rnuc) b ∧ rnuc ∈ b := by
  obtain ⟨bn, e1, v1⟩ := C06_grid_valid_partial rnuc zexp0 Nelem0 igrid0 h0 hN0 ha0
  obtain ⟨be, e2, v2⟩ := C06_grid_valid_partial (Rmax - rnuc) zexp Nelem igrid (by linarith) hN ha
  obtain ⟨c, e3, v3, s3⟩ := concatenate_valid v1 v1
  obtain ⟨d, e4, v4, s4⟩ := concatenate_valid v3 v2
  have hm1 : m ≠ .point ∧ m ≠ .regularized := by
    constructor <;> rintro rfl <;> simp [nuclearRadius] at hm
  refine ⟨d, ?_, ?_, ?_⟩
  · unfold formGrid formGridBase
    rw [if_pos hm1, if_neg (by simp)]
    simp only [hm, Res.ok_bind, finiteNuclearGrid, ne_eq]
    rw [if_pos (by simpa using show Nelem0 ≠ 0 by omega)]
    simp [e1, e2, e3, e4]
  · have h2 : rnuc + rnuc + (Rmax - rnuc) = Rmax + rnuc := by ring
    have h3 : Nelem0 + Nelem0 + Nelem = 2 * Nelem0 + Nelem := by ring
    rw [h2, h3] at v4
    exact v4
  · exact s4 _ (s3 _ (List.mem_of_getLast? v1.last))

example : nuclearRadius .gaussian (1/3) = .ok 1 ∧ (0:ℝ) < 1 ∧ AdmissibleGrid 1 2 := by
  refine ⟨?_, one_pos, Or.inl rfl⟩
  simp [nuclearRadius]

/-- **C07 (negative part).** For a finite nucleus the grid never ends at the requested `Rmax`. -/
theorem C07_finite_nucleus_overshoots (m : NuclearModel) (Rrms Rmax zexp zexp0 rnuc Rhalf : ℝ) (Nelem Nelem0 : Nat)
    (igrid igrid0 Z : Int) (hm : nuclearRadius m Rrms = .ok rnuc) (h0 : 0 < rnuc) (h1 : rnuc < Rmax)
    (hN : 1 ≤ Nelem) (hN0 : 1 ≤ Nelem0) (ha : AdmissibleGrid igrid zexp) (ha0 : AdmissibleGrid igrid0 zexp0) :
    ∃ b, formGrid m Rrms Nelem Rmax igrid zexp Nelem0 igrid0 zexp0 Z 0 0 Rhalf false 0 = .ok b ∧
      b.getLast? ≠ some Rmax := by
  obtain ⟨b, h2, h3, _⟩ := C07_finite_nucleus_grid_partial m Rrms Rmax zexp zexp0 rnuc Rhalf Nelem Nelem0 igrid igrid0 Z
    hm h0 h1 hN hN0 ha ha0
  refine ⟨b, h2, ?_⟩
  rw [h3.last]
  intro h
  have := Option.some.inj h
  linarith

/-- **C07 (off-centre nuclei).** For a point nucleus with off-centre charges at distance `Rhalf` the grid is a valid
grid on `[0, Rmax]` that has `Rhalf` as an element boundary, with `Nelem0` elements between the centre
and `Rhalf` on each side of the split point (only one part if the central charge is zero) and
`Nelem` elements outside. -/
theorem C07_offcenter_grid (m : NuclearModel) (Rrms Rmax zexp zexp0 Rhalf : ℝ) (Nelem Nelem0 : Nat)
    (igrid igrid0 Z Zl Zr : Int) (hm : m = .point ∨ m = .regularized) (hZ : 0 ≤ Z) (hZl : 0 ≤ Zl) (hZr : 0 ≤ Zr)
    (hlr : Zl ≠ 0 ∨ Zr ≠ 0) (h0 : 0 < Rhalf) (h1 : Rhalf < Rmax)
    (hN : 1 ≤ Nelem) (hN0 : 1 ≤ Nelem0) (ha : AdmissibleGrid igrid zexp) :
    ∃ b, formGrid m Rrms Nelem Rmax igrid zexp Nelem0 igrid0 zexp0 Z Zl Zr Rhalf false 0 = .ok b ∧
      ValidGrid ((if Z = 0 then Nelem0 else 2 * Nelem0) + Nelem) Rmax b ∧ Rhalf ∈ b := by
  have hmax : 0 < max Zl Zr := by
    rcases hlr with h | h
    · exact lt_of_lt_of_le (lt_of_le_of_ne hZl (Ne.symm h)) (le_max_left _ _)
    · exact lt_of_lt_of_le (lt_of_le_of_ne hZr (Ne.symm h)) (le_max_right _ _)
  have hm' : ¬ (m ≠ .point ∧ m ≠ .regularized) := by
    rintro ⟨a, b⟩; rcases hm with h | h <;> contradiction
  obtain ⟨b2, e2, v2⟩ := C06_grid_valid_partial (Rmax - Rhalf) zexp Nelem igrid (by linarith) hN ha
  unfold formGrid formGridBase
  rw [if_neg hm', if_pos hlr]
  have hmax' : max Zl Zr ≠ 0 := hmax.ne'
  by_cases hZ0 : Z = 0
  · subst hZ0
    obtain ⟨b1, e1, v1⟩ := C06_grid_valid_partial Rhalf zexp Nelem0 igrid h0 hN0 ha
    have v1' := reversed_valid v1
    obtain ⟨c, e3, v3, s3⟩ := concatenate_valid v1' v2
    refine ⟨c, ?_, ?_, s3 _ (List.mem_of_getLast? v1'.last)⟩
    · simp [offcenterNuclearGrid, hmax', e1, e2, e3]
    · rw [if_pos rfl]
      have : Rhalf + (Rmax - Rhalf) = Rmax := by ring
      rwa [this] at v3
  · have hZp : 0 < Z := lt_of_le_of_ne hZ (Ne.symm hZ0)
    have hZr' : (0 : ℝ) < Z := by exact_mod_cast hZp
    have hmr : (0 : ℝ) < (max Zl Zr : Int) := by exact_mod_cast hmax
    set b0 : ℝ := Z * Rhalf / (Z + max Zl Zr : Int) with hb0
    have hsum : (0 : ℝ) < ((Z + max Zl Zr : Int) : ℝ) := by exact_mod_cast (by omega : 0 < Z + max Zl Zr)
    have hb0p : 0 < b0 := by rw [hb0]; positivity
    have hb0l : b0 < Rhalf := by
      rw [hb0, div_lt_iff₀ hsum, mul_comm]
      apply mul_lt_mul_of_pos_left _ h0
      push_cast
      push_cast at hmr
      linarith
    obtain ⟨b1, e1, v1⟩ := C06_grid_valid_partial b0 zexp Nelem0 igrid hb0p hN0 ha
    obtain ⟨b3, e3, v3⟩ := C06_grid_valid_partial (Rhalf - b0) zexp Nelem0 igrid (by linarith) hN0 ha
    have v3' := reversed_valid v3
    obtain ⟨c, e4, v4, s4⟩ := concatenate_valid v1 v3'
    have hR : b0 + (Rhalf - b0) = Rhalf := by ring
    rw [hR] at v4
    obtain ⟨d, e5, v5, s5⟩ := concatenate_valid v4 v2
    refine ⟨d, ?_, ?_, s5 _ (List.mem_of_getLast? v4.last)⟩
    · unfold offcenterNuclearGrid
      rw [← hb0]
      simp [hmax', hZ0, e1, e2, e3, e4, e5]
    · rw [if_neg hZ0]
      have h2 : Rhalf + (Rmax - Rhalf) = Rmax := by ring
      have h3 : Nelem0 + Nelem0 + Nelem = 2 * Nelem0 + Nelem := by ring
      rwa [h2, h3] at v5

example : ∃ b, formGrid .point 0 5 40 1 2 3 1 2 6 1 2 1 false 0 = .ok b ∧ ValidGrid (2 * 3 + 5) 40 b ∧ (1:ℝ) ∈ b :=
  C07_offcenter_grid .point 0 40 2 2 1 5 3 1 1 6 1 2 (Or.inl rfl) (by norm_num) (by norm_num) (by norm_num)
    (Or.inl (by norm_num)) (by norm_num) (by norm_num) (by norm_num) (by norm_num) (Or.inl rfl)

/-- **C07 (rejection).** A finite nucleus with off-centre charges is rejected. -/
theorem C07_finite_offcenter_throws (m : NuclearModel) (Rrms Rmax zexp zexp0 Rhalf shift : ℝ) (add : Bool)
    (Nelem Nelem0 igrid igrid0 Z Zl Zr : Int) (hm : m ≠ .point ∧ m ≠ .regularized) (hlr : Zl ≠ 0 ∨ Zr ≠ 0) :
    formGrid m Rrms Nelem Rmax igrid zexp Nelem0 igrid0 zexp0 Z Zl Zr Rhalf add shift = .throw .logicError := by
  unfold formGrid formGridBase
  rw [if_pos hm, if_pos hlr, Res.throw_bind]

/-- **C07 (plain grid and nuclear grid switched off).** -/
theorem C07_plain_grid (m : NuclearModel) (Rrms Rmax zexp zexp0 Rhalf : ℝ) (Nelem : Nat) (Nelem0 igrid igrid0 Z : Int)
    (hm : m = .point ∨ m = .regularized ∨ (Nelem0 = 0 ∧ m ≠ .nosuch)) (h1 : 0 < Rmax) (hN : 1 ≤ Nelem)
    (ha : AdmissibleGrid igrid zexp) :
    ∃ b, formGrid m Rrms Nelem Rmax igrid zexp Nelem0 igrid0 zexp0 Z 0 0 Rhalf false 0 = .ok b ∧
      ValidGrid Nelem Rmax b := by
  obtain ⟨b, e, v⟩ := C06_grid_valid_partial Rmax zexp Nelem igrid h1 hN ha
  refine ⟨b, ?_, v⟩
  rcases hm with rfl | rfl | ⟨rfl, hm⟩
  · simp [formGrid, formGridBase, e]
  · simp [formGrid, formGridBase, e]
  · cases m <;> simp_all [formGrid, formGridBase, finiteNuclearGrid, nuclearRadius]

/-- **C07 (extra boundary).** Asking for an additional element boundary inside the grid keeps it strictly increasing
with the same ends, adds that boundary (once) and keeps all the others. -/
theorem C07_extra_boundary (m : NuclearModel) (Rrms Rmax zexp zexp0 Rhalf rend shift : ℝ) (N : Nat)
    (Nelem Nelem0 igrid igrid0 Z Zl Zr : Int) (b : List ℝ)
    (hb : formGrid m Rrms Nelem Rmax igrid zexp Nelem0 igrid0 zexp0 Z Zl Zr Rhalf false 0 = .ok b)
    (hv : ValidGrid N rend b) (hs0 : 0 < shift) (hs1 : shift < rend) :
    ∃ b', formGrid m Rrms Nelem Rmax igrid zexp Nelem0 igrid0 zexp0 Z Zl Zr Rhalf true shift = .ok b' ∧
      (∀ x, x ∈ b' ↔ x ∈ b ∨ x = shift) ∧
      ValidGrid (if shift ∈ b then N else N + 1) rend b' := by
  unfold formGrid at hb ⊢
  generalize formGridBase m Rrms Nelem Rmax igrid zexp Nelem0 igrid0 zexp0 Z Zl Zr Rhalf = g at hb ⊢
  cases g with
  | throw e => simp at hb
  | ub => simp at hb
  | ok g =>
    simp only [Res.ok_bind, Bool.false_eq_true, if_false, Res.ok.injEq, if_true] at hb ⊢
    subst hb
    by_cases hin : shift ∈ g
    · refine ⟨g, by rw [if_pos hin], ?_, by rw [if_pos hin]; exact hv⟩
      intro x
      constructor
      · exact Or.inl
      · rintro (h | rfl)
        · exact h
        · exact hin
    · refine ⟨_, by rw [if_neg hin], ?_, ?_⟩
      · intro x
        simp [(Grid.stdSort_perm (g ++ [shift])).mem_iff]
      · rw [if_neg hin]
        have hnd : (g ++ [shift]).Nodup := by
          rw [List.nodup_append]
          refine ⟨hv.increasing.imp fun h => ne_of_lt h, by simp, ?_⟩
          intro a ha b hb
          simp at hb
          subst hb
          rintro rfl
          exact hin ha
        have hst := Grid.stdSort_strict _ hnd
        have hmem : ∀ x, x ∈ Grid.stdSort (g ++ [shift]) ↔ x ∈ g ∨ x = shift := by
          intro x; simp [(Grid.stdSort_perm (g ++ [shift])).mem_iff]
        have hlo : ∀ x ∈ g, 0 ≤ x := by
          intro x hx
          have hf := hv.first
          match g, hf, hv.increasing, hx with
          | y :: g, hf, hi, hx =>
            simp at hf
            subst hf
            rcases List.mem_cons.mp hx with rfl | hx
            · exact le_refl _
            · exact ((List.pairwise_cons.mp hi).1 x hx).le
        have hhi : ∀ x ∈ g, x ≤ rend := by
          intro x hx
          have hne : g ≠ [] := List.ne_nil_of_mem hx
          have hl := hv.last
          rw [List.getLast?_eq_some_getLast hne] at hl
          rw [← Option.some.inj hl]
          exact (hv.increasing.imp le_of_lt).rel_getLast hx
        have h0 : (0:ℝ) ∈ g := List.mem_of_head? hv.first
        have hr : rend ∈ g := List.mem_of_getLast? hv.last
        refine ⟨?_, ?_, ?_, hst⟩
        · rw [(Grid.stdSort_perm (g ++ [shift])).length_eq]; simp [hv.length]
        · -- smallest element is 0
          match hl : Grid.stdSort (g ++ [shift]), hst, hmem with
          | [], _, hmem => exact absurd ((hmem 0).2 (Or.inl h0)) (by simp)
          | y :: l, hst, hmem =>
            have hy := (hmem y).1 (by simp)
            have h0' := (hmem 0).2 (Or.inl h0)
            rcases List.mem_cons.mp h0' with h | h
            · simp [← h]
            · have h2 := (List.pairwise_cons.mp hst).1 0 h
              rcases hy with hy | hy
              · have := hlo y hy; linarith
              · linarith
        · have hne : Grid.stdSort (g ++ [shift]) ≠ [] := List.ne_nil_of_mem ((hmem 0).2 (Or.inl h0))
          rw [List.getLast?_eq_some_getLast hne]
          congr 1
          have hr' := (hmem rend).2 (Or.inl hr)
          have h2 := (hst.imp le_of_lt).rel_getLast hr'
          have h3 := (hmem _).1 (List.getLast_mem hne)
          rcases h3 with h3 | h3
          · exact le_antisymm (hhi _ h3) h2
          · linarith

/-- The hypotheses of `C07_extra_boundary` are met by a plain grid. -/
example : ∃ b, formGrid .point 0 5 40 1 2 0 1 2 6 0 0 1 false 0 = .ok b ∧ ValidGrid 5 40 b :=
  C07_plain_grid .point 0 40 2 2 1 5 0 1 1 6 (Or.inl rfl) (by norm_num) (by norm_num) (Or.inl rfl)

end RadialGrid
end HelFEM
