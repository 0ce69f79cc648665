import Verif.Model.Aij
import Verif.Spec.Aij
import Verif.Lemmas.Nucleus
import Verif.Props.RadialGrid

/-!
# Lemmas on the jellium background and its grid
-/

namespace HelFEM
namespace Aij

open MeasureTheory Set RadialGrid HelFEM.Spec

theorem cbrt_cube (x : ℝ) : cbrt x ^ 3 = x := by
  have h : ∀ y : ℝ, 0 ≤ y → (y ^ (1 / 3 : ℝ)) ^ 3 = y := fun y hy => by
    rw [← Real.rpow_natCast, ← Real.rpow_mul hy]
    norm_num
  unfold cbrt
  split_ifs with hx
  · exact h x hx
  · rw [Odd.neg_pow (by decide), h (-x) (by linarith)]
    ring

theorem cbrt_lt {x y : ℝ} : cbrt x < cbrt y ↔ x < y := by
  have h : StrictMono fun t : ℝ => t ^ 3 := Odd.strictMono_pow (by decide)
  rw [← h.lt_iff_lt]
  simp only [cbrt_cube]

theorem cbrt_zero : cbrt 0 = 0 := by
  have := cbrt_cube 0
  simpa using this

theorem cbrt_pos {x : ℝ} : 0 < cbrt x ↔ 0 < x := by
  have := cbrt_lt (x := 0) (y := x)
  rwa [cbrt_zero] at this

theorem period_pos {rs : ℝ} (h : 0 < rs) : 0 < period rs := mul_pos (cbrt_pos.2 (by positivity)) h

/-! ### The potential -/

theorem spherePot_eq (rs r R : ℝ) : spherePot rs r R = -Nucleus.sphericalV ((R / rs) ^ 3) R r := by
  unfold spherePot Nucleus.sphericalV
  by_cases h : r < R
  · rw [if_pos h, if_neg (not_le.2 h)]; ring
  · rw [if_neg h, if_pos (not_lt.1 h)]; ring

theorem shell_eq {rs a b : ℝ} (hrs : 0 < rs) (hb : a ≤ b) (h0 : 0 < b) {s : ℝ} (hs : 0 < s) :
    Spec.shell rs a b s = (b / rs) ^ 3 * Nucleus.ball b s - (a / rs) ^ 3 * Nucleus.ball a s := by
  have hp := Real.pi_pos
  unfold Spec.shell Nucleus.ball
  by_cases h1 : s ≤ a
  · rw [if_neg fun h => absurd h.1 (not_lt.2 h1), if_pos h1, if_pos (h1.trans hb)]
    have : 0 < a := hs.trans_le h1
    field_simp
    ring
  · rw [if_neg h1, mul_zero, sub_zero]
    by_cases h2 : s ≤ b
    · rw [if_pos ⟨not_le.1 h1, h2⟩, if_pos h2]
      field_simp
    · rw [if_neg fun h => h2 h.2, if_neg h2, mul_zero]

theorem ball_integrable (R : ℝ) (c : ℝ) : IntegrableOn (fun s => Nucleus.ball R s) (Ioi c) := by
  rw [Nucleus.ball_indicator, integrableOn_indicator_iff measurableSet_Iic, inter_comm, Ioi_inter_Iic]
  exact (by fun_prop : Continuous fun s : ℝ => 3 * s ^ 2 / R ^ 3).integrableOn_Ioc

theorem ball_div_integrable (R : ℝ) : IntegrableOn (fun s => Nucleus.ball R s / s) (Ioi 0) := by
  have e : (fun s => Nucleus.ball R s / s) = (Iic R).indicator fun s => 3 * s / R ^ 3 := by
    funext s
    rw [Nucleus.ball_indicator]
    unfold indicator
    split
    · by_cases h : s = 0
      · simp [h]
      · field_simp
    · simp
  rw [e, integrableOn_indicator_iff measurableSet_Iic, inter_comm, Ioi_inter_Iic]
  exact (by fun_prop : Continuous fun s : ℝ => 3 * s / R ^ 3).integrableOn_Ioc

theorem electrostatic_shell {rs a b : ℝ} (hrs : 0 < rs) (hb : a ≤ b) (h0 : 0 < b) {r : ℝ} (hr : 0 < r) (Z : ℝ) :
    Nucleus.electrostatic (Spec.shell rs a b) Z r = (b / rs) ^ 3 * Nucleus.electrostatic (Nucleus.ball b) Z r - (a / rs) ^ 3 * Nucleus.electrostatic (Nucleus.ball a) Z r := by
  have i1 : (∫ s in (0 : ℝ)..r, Spec.shell rs a b s) = (b / rs) ^ 3 * (∫ s in (0 : ℝ)..r, Nucleus.ball b s) - (a / rs) ^ 3 * ∫ s in (0 : ℝ)..r, Nucleus.ball a s := by
    rw [intervalIntegral.integral_of_le hr.le, intervalIntegral.integral_of_le hr.le, intervalIntegral.integral_of_le hr.le,
      setIntegral_congr_fun measurableSet_Ioc fun s hs => shell_eq hrs hb h0 hs.1, integral_sub, integral_const_mul, integral_const_mul]
    · exact ((ball_integrable b 0).mono_set Ioc_subset_Ioi_self).const_mul _
    · exact ((ball_integrable a 0).mono_set Ioc_subset_Ioi_self).const_mul _
  have i2 : (∫ s in Ioi r, Spec.shell rs a b s / s) = (b / rs) ^ 3 * (∫ s in Ioi r, Nucleus.ball b s / s) - (a / rs) ^ 3 * ∫ s in Ioi r, Nucleus.ball a s / s := by
    rw [setIntegral_congr_fun measurableSet_Ioi (g := fun s => (b / rs) ^ 3 * (Nucleus.ball b s / s) - (a / rs) ^ 3 * (Nucleus.ball a s / s)) fun s hs => by
      simp only; rw [shell_eq hrs hb h0 (hr.trans hs)]; ring, integral_sub, integral_const_mul, integral_const_mul]
    · exact ((ball_div_integrable b).mono_set (Ioi_subset_Ioi hr.le)).const_mul _
    · exact ((ball_div_integrable a).mono_set (Ioi_subset_Ioi hr.le)).const_mul _
  unfold Nucleus.electrostatic
  rw [i1, i2]
  ring

theorem spherical_scale (Z R r : ℝ) : Nucleus.sphericalV Z R r = Z * Nucleus.sphericalV 1 R r := by
  unfold Nucleus.sphericalV
  split <;> ring

theorem potential_shell {rs a b : ℝ} (hrs : 0 < rs) (ha : 0 ≤ a) (hb : a ≤ b) (h0 : 0 < b) {r : ℝ} (hr : 0 < r) (R : ℝ) :
    potfunc ⟨R, a, b⟩ rs r = Nucleus.electrostatic (Spec.shell rs a b) 1 r := by
  rw [electrostatic_shell hrs hb h0 hr, Nucleus.ball_electrostatic 1 b r h0 hr]
  unfold potfunc
  simp only
  rw [spherePot_eq, spherePot_eq, spherical_scale ((b / rs) ^ 3)]
  rcases ha.eq_or_lt with rfl | h
  · rw [if_neg (lt_irrefl _), if_pos h0]
    simp
  · rw [if_pos h, Nucleus.ball_electrostatic 1 a r h hr, spherical_scale ((a / rs) ^ 3)]
    ring

theorem shell_indicator (rs a b : ℝ) : Spec.shell rs a b = (Ioc a b).indicator fun s => 4 * Real.pi * s ^ 2 * (3 / (4 * Real.pi * rs ^ 3)) := by
  funext s
  unfold Spec.shell indicator
  simp only [mem_Ioc]

theorem shell_weighted {rs a b : ℝ} (hrs : 0 < rs) (ha : 0 ≤ a) (hb : a ≤ b) (f : ℝ → ℝ) : (∫ s in Ioi (0 : ℝ), Spec.shell rs a b s * f s) = ∫ s in a..b, 3 / rs ^ 3 * (s ^ 2 * f s) := by
  have e : (fun s => Spec.shell rs a b s * f s) = (Ioc a b).indicator fun s => 3 / rs ^ 3 * (s ^ 2 * f s) := by
    funext s
    have := Real.pi_pos
    rw [shell_indicator]
    unfold indicator
    split
    · field_simp
    · rw [zero_mul]
  rw [e, setIntegral_indicator measurableSet_Ioc, intervalIntegral.integral_of_le hb]
  congr 2
  ext s
  simp only [mem_inter_iff, mem_Ioi, mem_Ioc]
  exact ⟨fun h => h.2, fun h => ⟨ha.trans_lt h.1, h⟩⟩

theorem shell_charge {rs a b : ℝ} (hrs : 0 < rs) (ha : 0 ≤ a) (hb : a ≤ b) : Spec.charge (Spec.shell rs a b) = (b / rs) ^ 3 - (a / rs) ^ 3 := by
  have := shell_weighted hrs ha hb fun _ => 1
  simp only [mul_one] at this
  unfold Spec.charge
  rw [this, intervalIntegral.integral_const_mul, integral_pow]
  norm_num
  field_simp

theorem shell_centre {rs a b : ℝ} (hrs : 0 < rs) (ha : 0 ≤ a) (hb : a ≤ b) : Spec.atCentre (Spec.shell rs a b) = 3 * (b ^ 2 - a ^ 2) / (2 * rs ^ 3) := by
  have := shell_weighted hrs ha hb fun s => 1 / s
  unfold Spec.atCentre
  simp only [mul_one_div] at this
  rw [this, intervalIntegral.integral_const_mul, intervalIntegral.integral_congr (g := fun s => s) fun s _ => by
    by_cases h : s = 0
    · simp [h]
    · simp only; field_simp, integral_id]
  field_simp

theorem shell_self {rs a b : ℝ} (hrs : 0 < rs) (ha : 0 ≤ a) (hb : a ≤ b) (h0 : 0 < b) : Spec.selfEnergy (Spec.shell rs a b) = (3 * b ^ 5 + 4.5 * a ^ 5 - 7.5 * a ^ 3 * b ^ 2) / (5 * rs ^ 6) := by
  unfold Spec.selfEnergy
  rw [shell_weighted hrs ha hb, intervalIntegral.integral_of_le hb,
    setIntegral_congr_fun measurableSet_Ioc (g := fun s => 3 / rs ^ 3 * (3 * b ^ 2 / (2 * rs ^ 3) * s ^ 2 - 1 / (2 * rs ^ 3) * s ^ 4 - a ^ 3 / rs ^ 3 * s)), ← intervalIntegral.integral_of_le hb,
    intervalIntegral.integral_const_mul, intervalIntegral.integral_sub, intervalIntegral.integral_sub, intervalIntegral.integral_const_mul, intervalIntegral.integral_const_mul,
    intervalIntegral.integral_const_mul, integral_pow, integral_pow, integral_id]
  · norm_num
    field_simp
    ring
  · exact (by fun_prop : Continuous fun s : ℝ => _).intervalIntegrable _ _
  · exact (by fun_prop : Continuous fun s : ℝ => _).intervalIntegrable _ _
  · exact (by fun_prop : Continuous fun s : ℝ => _).intervalIntegrable _ _
  · exact (by fun_prop : Continuous fun s : ℝ => _).intervalIntegrable _ _
  · intro s hs
    have hs0 : 0 < s := ha.trans_lt hs.1
    simp only
    rw [electrostatic_shell hrs hb h0 hs0, Nucleus.ball_electrostatic 1 b s h0 hs0, Nucleus.spherical_left 1 b h0 s hs.2]
    rcases ha.eq_or_lt with rfl | h
    · field_simp
      ring
    · rw [Nucleus.ball_electrostatic 1 a s h hs0, Nucleus.spherical_right 1 a s hs.1.le]
      field_simp
      ring

/-! ### The grid -/

/-- every point up to `R` is at most `d` behind a boundary -/
def Cover (d R : ℝ) (b : List ℝ) : Prop := ∀ x, 0 ≤ x → x ≤ R → ∃ y ∈ b, y ≤ x ∧ x ≤ y + d

theorem Cover.mono {d R : ℝ} {b b' : List ℝ} (h : Cover d R b) (hs : ∀ y ∈ b, y ∈ b') : Cover d R b' := fun x h0 h1 => by
  obtain ⟨y, hy, h2⟩ := h x h0 h1
  exact ⟨y, hs y hy, h2⟩

theorem valid_bounds {n : Nat} {R : ℝ} {b : List ℝ} (h : ValidGrid n R b) : ∀ x ∈ b, 0 ≤ x ∧ x ≤ R := by
  intro x hx
  constructor
  · match b, h.first, h.increasing, hx with
    | y :: g, hf, hi, hx =>
      simp only [List.head?_cons, Option.some.injEq] at hf
      subst hf
      rcases List.mem_cons.mp hx with rfl | hx
      · exact le_refl _
      · exact ((List.pairwise_cons.mp hi).1 x hx).le
  · have hl := h.last
    rw [List.getLast?_eq_some_getLast (List.ne_nil_of_mem hx)] at hl
    rw [← Option.some.inj hl]
    exact (h.increasing.imp le_of_lt).rel_getLast hx

theorem cover_resolves {d R : ℝ} {b : List ℝ} {n : Nat} (hv : ValidGrid n R b) (hc : Cover d R b) : Spec.Resolves d b := by
  intro i x y hx hy
  by_contra h
  rw [not_le] at h
  have hx0 := valid_bounds hv x (List.mem_of_getElem? hx)
  have hy0 := valid_bounds hv y (List.mem_of_getElem? hy)
  obtain ⟨hi, rfl⟩ := List.getElem?_eq_some_iff.1 hx
  obtain ⟨hi', rfl⟩ := List.getElem?_eq_some_iff.1 hy
  have hlt : b[i] < b[i + 1] := List.pairwise_iff_getElem.1 hv.increasing i (i + 1) hi hi' (by omega)
  have hd : ∃ z, b[i] < z ∧ b[i] + d < z ∧ z < b[i + 1] := by
    refine ⟨max ((b[i] + d + b[i + 1]) / 2) ((b[i] + b[i + 1]) / 2), ?_, ?_, ?_⟩
    · exact lt_max_of_lt_right (by linarith)
    · exact lt_max_of_lt_left (by linarith)
    · exact max_lt (by linarith) (by linarith)
  obtain ⟨z, z1, z2, z3⟩ := hd
  obtain ⟨w, hw, w1, w2⟩ := hc z (by linarith) (by linarith)
  obtain ⟨j, hj, rfl⟩ := List.mem_iff_getElem.1 hw
  rcases Nat.lt_or_ge i j with hij | hij
  · have : b[i + 1] ≤ b[j] := by
      rcases Nat.lt_or_ge (i + 1) j with h1 | h1
      · exact (List.pairwise_iff_getElem.1 hv.increasing (i + 1) j hi' hj h1).le
      · have : i + 1 = j := by omega
        subst this
        exact le_rfl
    linarith
  · have : b[j] ≤ b[i] := by
      rcases Nat.lt_or_ge j i with h1 | h1
      · exact (List.pairwise_iff_getElem.1 hv.increasing j i hj hi h1).le
      · have : j = i := by omega
        subst this
        exact le_rfl
    linarith

theorem insert_valid {n : Nat} {R x : ℝ} {b : List ℝ} (hv : ValidGrid n R b) (h0 : 0 < x) (h1 : x < R) (hx : x ∉ b) : ValidGrid (n + 1) R (Grid.stdSort (b ++ [x])) := by
  have hnd : (b ++ [x]).Nodup := by
    rw [List.nodup_append]
    refine ⟨hv.increasing.imp fun h => ne_of_lt h, by simp, ?_⟩
    intro a ha c hc
    rw [List.mem_singleton] at hc
    subst hc
    rintro rfl
    exact hx ha
  have hst := Grid.stdSort_strict _ hnd
  have hmem : ∀ y, y ∈ Grid.stdSort (b ++ [x]) ↔ y ∈ b ∨ y = x := by
    intro y
    simp [(Grid.stdSort_perm (b ++ [x])).mem_iff]
  have hb := valid_bounds hv
  have hz : (0 : ℝ) ∈ b := List.mem_of_head? hv.first
  have hr : R ∈ b := List.mem_of_getLast? hv.last
  refine ⟨?_, ?_, ?_, hst⟩
  · rw [(Grid.stdSort_perm (b ++ [x])).length_eq]; simp [hv.length]
  · match hl : Grid.stdSort (b ++ [x]), hst, hmem with
    | [], _, hmem => exact absurd ((hmem 0).2 (Or.inl hz)) (by simp)
    | y :: l, hst, hmem =>
      have hy := (hmem y).1 (by simp)
      have h0' := (hmem 0).2 (Or.inl hz)
      rcases List.mem_cons.mp h0' with h | h
      · simp [← h]
      · have h2 := (List.pairwise_cons.mp hst).1 0 h
        rcases hy with hy | hy
        · have := (hb y hy).1; linarith
        · linarith
  · have hne : Grid.stdSort (b ++ [x]) ≠ [] := List.ne_nil_of_mem ((hmem 0).2 (Or.inl hz))
    rw [List.getLast?_eq_some_getLast hne]
    congr 1
    have h2 := (hst.imp le_of_lt).rel_getLast ((hmem R).2 (Or.inl hr))
    rcases (hmem _).1 (List.getLast_mem hne) with h3 | h3
    · exact le_antisymm (hb _ h3).2 h2
    · linarith

theorem formGrid_point (n : Int) (R : ℝ) (igrid : Int) (zexp : ℝ) (Z : Int) : formGrid .point 0 n R igrid zexp 0 0 0 Z 0 0 0 false 0 = getGrid R n igrid zexp := by
  have h : formGridBase .point 0 n R igrid zexp 0 0 0 Z 0 0 0 = getGrid R n igrid zexp := by
    unfold formGridBase
    rw [if_neg (by simp), if_neg (by simp)]
  unfold formGrid
  rw [h]
  cases getGrid R n igrid zexp <;> rfl

theorem uniform_ok {n : Nat} {R d : ℝ} (hR : 0 < R) (hn : 1 ≤ n) (Z : Int) (hd : R / n ≤ d) : ∃ b, uniformGrid n R Z = .ok b ∧ ValidGrid n R b ∧ Cover d R b := by
  obtain ⟨b, h1, h2⟩ := C06_grid_valid_partial R 0 n 1 hR hn (Or.inl rfl)
  refine ⟨b, by unfold uniformGrid; rw [formGrid_point]; exact h1, h2, ?_⟩
  have hn0 : (0 : ℝ) < n := by exact_mod_cast hn
  have h3 := C06_snap_noop R 0 n 1 hR hn (Or.inl rfl)
  rw [h1] at h3
  unfold rawGrid at h3
  rw [if_pos rfl, Res.ok.injEq, linSpaced_eq] at h3
  subst h3
  intro x hx0 hx1
  have hs : 0 < R / n := by positivity
  have hf := Nat.floor_le (div_nonneg hx0 hs.le)
  have hf2 := Nat.lt_floor_add_one (x / (R / n))
  refine ⟨(⌊x / (R / n)⌋₊ : ℝ) * (R / n), ?_, ?_, ?_⟩
  · refine List.mem_map.2 ⟨⌊x / (R / n)⌋₊, List.mem_range.2 ?_, rfl⟩
    have : x / (R / n) ≤ n := by
      rw [div_le_iff₀ hs]
      have : (n : ℝ) * (R / n) = R := by field_simp
      linarith
    have := Nat.floor_le_of_le this
    omega
  · rwa [le_div_iff₀ hs] at hf
  · rw [div_lt_iff₀ hs] at hf2
    linarith

theorem valid_split {n : Nat} {R : ℝ} {b : List ℝ} (hn : 1 ≤ n) (h : ValidGrid n R b) : ∃ u rest, b = 0 :: u :: rest ∧ 0 < u ∧ (∀ x ∈ rest, u < x) ∧ rest.Pairwise (· < ·) ∧
    rest.length + 1 = n ∧ (if rest = [] then u = R else rest.getLast? = some R) := by
  match b, h with
  | [], h => have := h.length; simp at this
  | [x], h => have := h.length; simp at this; omega
  | x :: u :: rest, h =>
    have h1 := h.first
    simp only [List.head?_cons, Option.some.injEq] at h1
    subst h1
    have hi := h.increasing
    rw [List.pairwise_cons, List.pairwise_cons] at hi
    refine ⟨u, rest, rfl, hi.1 u (by simp), hi.2.1, hi.2.2, ?_, ?_⟩
    · have := h.length
      simp only [List.length_cons] at this
      omega
    · have hl := h.last
      split
      · rename_i he
        subst he
        simpa using hl
      · rename_i he
        rw [List.getLast?_cons_cons] at hl
        obtain ⟨y, r, rfl⟩ := List.exists_cons_of_ne_nil he
        rwa [List.getLast?_cons_cons] at hl

theorem glued_ok {igrid : Int} {zexp : ℝ} {Nelem : Int} {Nu : Nat} {R d : ℝ} (Rmax : ℝ) (hR : 0 < R) (hN : 1 ≤ Nu) (hd : R / Nu ≤ d) (ha : AdmissibleGrid igrid zexp) (Z : Int) :
    ∃ b, gluedGrid igrid zexp Nelem Nu R Rmax Z = .ok b ∧ ValidGrid (Nu + (Nelem - 1).toNat) R b ∧ Cover d R b := by
  obtain ⟨u, h1, h2, h3⟩ := uniform_ok hR hN Z hd
  unfold gluedGrid
  rw [if_pos (by omega), h1, Res.ok_bind]
  by_cases hE : 0 < Nelem
  · obtain ⟨u1, rest, rfl, e1, e2, e3, e4, e5⟩ := valid_split hN h2
    obtain ⟨m, rfl⟩ : ∃ m : Nat, Nelem = m := ⟨Nelem.toNat, by omega⟩
    obtain ⟨a, g1, g2⟩ := C06_grid_valid_partial u1 zexp m igrid e1 (by omega) ha
    have hlast : lastOf a = .ok u1 := by
      unfold lastOf
      rw [g2.last]
    rw [if_pos hE, if_pos (by omega)]
    refine ⟨a ++ rest, ?_, ⟨?_, ?_, ?_, ?_⟩, ?_⟩
    · show (Res.ok u1 >>= _) = _
      rw [Res.ok_bind, formGrid_point, g1, Res.ok_bind, if_pos (by simp), hlast, Res.ok_bind]
      show (Res.ok u1 >>= _) = _
      rw [Res.ok_bind, if_neg (by simp)]
      rfl
    · rw [List.length_append, g2.length]
      omega
    · rw [List.head?_append, g2.first]
      rfl
    · rw [List.getLast?_append]
      split at e5
      · rename_i he
        subst he
        simp [g2.last, e5]
      · rw [e5]
        rfl
    · rw [List.pairwise_append]
      exact ⟨g2.increasing, e3, fun x hx y hy => lt_of_le_of_lt (valid_bounds g2 x hx).2 (e2 y hy)⟩
    · refine h3.mono fun y hy => ?_
      rw [List.mem_append]
      rcases List.mem_cons.1 hy with rfl | hy
      · exact Or.inl (List.mem_of_head? g2.first)
      · rcases List.mem_cons.1 hy with rfl | hy
        · exact Or.inl (List.mem_of_getLast? g2.last)
        · exact Or.inr hy
  · rw [if_neg hE]
    refine ⟨u, rfl, ?_, h3⟩
    rw [show (Nelem - 1).toNat = 0 by omega]
    exact h2

theorem vacuum_ok {b : List ℝ} {n Nv : Nat} {R Rmax d rs nufreq : ℝ} {Nu : Int} (hv : ValidGrid n R b) (hc : Cover d R b) (hNu : 0 < Nu) (hRm : 0 < Rmax)
    (hNv : ⌈Rmax / period rs * nufreq⌉ = Nv) (hN : 1 ≤ Nv) (hd : Rmax / Nv ≤ d) (Z : Int) :
    ∃ b', withVacuum Nu Rmax rs nufreq Z b = .ok b' ∧ ValidGrid (n + Nv) (R + Rmax) b' ∧ Cover d (R + Rmax) b' ∧ ∀ x ∈ b, x ∈ b' := by
  obtain ⟨v, h1, h2, h3⟩ := uniform_ok hRm hN Z hd
  obtain ⟨u1, rest, rfl, e1, e2, e3, e4, e5⟩ := valid_split hN h2
  have hlast : lastOf b = .ok R := by
    unfold lastOf
    rw [hv.last]
  have hpos : ∀ x ∈ u1 :: rest, 0 < x := by
    intro x hx
    rcases List.mem_cons.1 hx with rfl | hx
    · exact e1
    · exact e1.trans (e2 x hx)
  unfold withVacuum
  rw [if_pos ⟨hNu, hRm⟩, hNv, h1, Res.ok_bind, hlast, Res.ok_bind]
  refine ⟨b ++ (u1 :: rest).map (· + R), ?_, ⟨?_, ?_, ?_, ?_⟩, ?_, fun x hx => List.mem_append_left _ hx⟩
  · show (Res.ok (0 + R) >>= _) = _
    rw [Res.ok_bind, if_neg (by simp)]
    rfl
  · rw [List.length_append, hv.length, List.length_map, List.length_cons]
    omega
  · rw [List.head?_append, hv.first]
    rfl
  · rw [List.getLast?_append, List.getLast?_map]
    have : (u1 :: rest).getLast? = some Rmax := by
      have := h2.last
      rwa [List.getLast?_cons_cons] at this
    rw [this]
    simp [add_comm]
  · rw [List.pairwise_append]
    refine ⟨hv.increasing, ?_, ?_⟩
    · rw [List.pairwise_map]
      exact (List.pairwise_cons.2 ⟨e2, e3⟩).imp fun h => by linarith
    · intro x hx y hy
      obtain ⟨z, hz, rfl⟩ := List.mem_map.1 hy
      have := (valid_bounds hv x hx).2
      have := hpos z hz
      linarith
  · intro x x0 x1
    rcases le_total x R with h | h
    · obtain ⟨y, hy, h4⟩ := hc x x0 h
      exact ⟨y, List.mem_append_left _ hy, h4⟩
    · obtain ⟨y, hy, h4, h5⟩ := h3 (x - R) (by linarith) (by linarith)
      refine ⟨y + R, ?_, by linarith, by linarith⟩
      rcases List.mem_cons.1 hy with rfl | hy
      · rw [zero_add]
        exact List.mem_append_left _ (List.mem_of_getLast? hv.last)
      · exact List.mem_append_right _ (List.mem_map.2 ⟨y, hy, rfl⟩)

theorem count_pos {R p f : ℝ} (hR : 0 < R) (hp : 0 < p) (hf : 0 < f) : ∃ n : Nat, ⌈R / p * f⌉ = n ∧ 1 ≤ n ∧ R / n ≤ p / f := by
  have h : 0 < R / p * f := by positivity
  have h1 : 0 < ⌈R / p * f⌉ := Int.ceil_pos.2 h
  refine ⟨⌈R / p * f⌉.toNat, by omega, by omega, ?_⟩
  have h2 : R / p * f ≤ ⌈R / p * f⌉ := Int.le_ceil _
  have h3 : ((⌈R / p * f⌉.toNat : Nat) : ℝ) = (⌈R / p * f⌉ : ℝ) := by
    have : ((⌈R / p * f⌉.toNat : Nat) : Int) = ⌈R / p * f⌉ := by omega
    exact_mod_cast congrArg (fun z : Int => (z : ℝ)) this
  rw [h3, div_le_div_iff₀ (by exact_mod_cast h1) hf]
  have : R * f = p * (R / p * f) := by field_simp
  rw [this]
  exact mul_le_mul_of_nonneg_left h2 hp.le

end Aij
end HelFEM
