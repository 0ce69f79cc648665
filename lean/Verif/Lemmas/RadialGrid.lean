import Verif.Model.RadialGrid
import Verif.Spec.RadialGrid
import Mathlib.Tactic.Ring
import Mathlib.Tactic.Linarith
import Mathlib.Tactic.FieldSimp
import Mathlib.Tactic.Positivity
import Mathlib.Algebra.Ring.GeomSum

namespace HelFEM
namespace RadialGrid
open Spec

theorem map_range_valid {n : Nat} {rmax : ℝ} (g : Nat → ℝ) (h0 : g 0 = 0) (hn : g n = rmax)
    (hs : ∀ i j, i < j → j ≤ n → g i < g j) : ValidGrid n rmax ((List.range (n + 1)).map g) := by
  refine ⟨by simp, ?_, ?_, ?_⟩
  · rw [List.range_succ_eq_map]; simp [h0]
  · rw [List.range_succ]; simp [hn]
  · rw [List.pairwise_map]
    have : (List.range (n + 1)).Pairwise (fun a b => a < b ∧ b ≤ n) := by
      rw [List.pairwise_iff_getElem]
      intro i j hi hj hij
      simp at hi hj ⊢
      omega
    exact this.imp fun ⟨a, b⟩ => hs _ _ a b

theorem snap_valid {n : Nat} {rmax : ℝ} {b : List ℝ} (h : ValidGrid n rmax b) :
    (b.set 0 0).set (b.length - 1) rmax = b := by
  have h1 : b.set 0 0 = b := by
    have := h.first
    cases b with
    | nil => simp
    | cons a l => simp at this; simp [this]
  rw [h1]
  have hne : b ≠ [] := by intro hb; have := h.length; rw [hb] at this; simp at this
  have hl := h.last
  rw [List.getLast?_eq_getElem?] at hl
  apply List.ext_getElem?
  intro i
  by_cases hi : b.length - 1 = i
  · subst hi
    rw [List.getElem?_set_self (by
      have := List.length_pos_of_ne_nil hne; omega), hl]
  · rw [List.getElem?_set_ne hi]

theorem geomSteps_eq (s : ℝ) : ∀ (k : Nat) (h : ℝ) (acc : List ℝ),
    geomSteps s k h acc = ((List.range k).map fun i : Nat => h * s ^ (k - 1 - i)) ++ acc := by
  intro k
  induction k with
  | zero => intro h acc; simp [geomSteps]
  | succ k ih =>
    intro h acc
    rw [geomSteps, ih, List.range_succ, List.map_append]
    simp only [List.append_assoc, List.map_cons, List.map_nil, List.cons_append, List.nil_append]
    congr 1
    · apply List.map_congr_left
      intro i hi
      have hi' : i < k := by simpa using hi
      have e : k + 1 - 1 - i = (k - 1 - i) + 1 := by omega
      rw [e, pow_succ]; ring
    · simp

theorem cumul_eq (b : ℝ) (hs : List ℝ) :
    cumul b hs = (List.range (hs.length + 1)).map fun i : Nat => b + (hs.take i).sum := by
  induction hs generalizing b with
  | nil => simp [cumul]
  | cons h hs ih =>
    rw [cumul, ih, List.length_cons, List.range_succ_eq_map (n := hs.length + 1)]
    simp only [List.map_cons, List.map_map, List.take_zero, List.sum_nil, add_zero]
    congr 1
    apply List.map_congr_left
    intro i _
    simp [add_assoc]

theorem take_sum_lt {hs : List ℝ} (hpos : ∀ h ∈ hs, 0 < h) : ∀ i j, i < j → j ≤ hs.length →
    (hs.take i).sum < (hs.take j).sum := by
  induction hs with
  | nil => intro i j hij hj; simp at hj; omega
  | cons h hs ih =>
    intro i j hij hj
    have hh := hpos h (by simp)
    have hrest : ∀ x ∈ hs, 0 < x := fun x hx => hpos x (by simp [hx])
    obtain ⟨j, rfl⟩ : ∃ j', j = j' + 1 := ⟨j - 1, by omega⟩
    cases i with
    | zero =>
      simp only [List.take_zero, List.sum_nil, List.take_succ_cons, List.sum_cons]
      have : 0 ≤ (hs.take j).sum := List.sum_nonneg (fun x hx => (hrest x (List.mem_of_mem_take hx)).le)
      linarith
    | succ i =>
      simp only [List.take_succ_cons, List.sum_cons]
      have := ih hrest i j (by omega) (by simpa using hj)
      linarith

theorem geom_valid {rmax s : ℝ} {n : Nat} (hr : 0 < rmax) (hn : n ≠ 0) (h0 : 0 < s) (h1 : s < 1) :
    ValidGrid n rmax (cumul 0 (geomSteps s n ((1 - s) / (1 - s ^ n) * rmax) [])) := by
  have hsn : s ^ n < 1 := pow_lt_one₀ h0.le h1 hn
  have hd : 0 < 1 - s ^ n := by linarith
  have hs1 : 0 < 1 - s := by linarith
  rw [geomSteps_eq, List.append_nil, cumul_eq, List.length_map, List.length_range]
  have hpos : ∀ h ∈ (List.range n).map (fun i : Nat => (1 - s) / (1 - s ^ n) * rmax * s ^ (n - 1 - i)), 0 < h := by
    intro h hh
    obtain ⟨i, _, rfl⟩ := List.mem_map.mp hh
    positivity
  apply map_range_valid
  · simp
  · rw [List.take_of_length_le (by simp), zero_add]
    have e : ((List.range n).map (fun i : Nat => (1 - s) / (1 - s ^ n) * rmax * s ^ (n - 1 - i))).sum
        = (1 - s) / (1 - s ^ n) * rmax * ∑ i ∈ Finset.range n, s ^ (n - 1 - i) := by
      rw [Finset.mul_sum, ← List.sum_toFinset _ List.nodup_range]
      congr 1
      ext x; simp
    rw [e, Finset.sum_range_reflect (fun i => s ^ i) n]
    have hg : (∑ i ∈ Finset.range n, s ^ i) * (1 - s) = 1 - s ^ n := by
      have := geom_sum_mul_neg s n
      simpa using this
    have : (∑ i ∈ Finset.range n, s ^ i) = (1 - s ^ n) / (1 - s) := by
      rw [eq_div_iff hs1.ne', hg]
    rw [this]
    field_simp
  · intro i j hij hj
    have := take_sum_lt hpos i j hij (by simpa using hj)
    linarith

theorem linSpaced_eq (n : Nat) (hi : ℝ) : linSpaced n 0 hi = (List.range (n+1)).map fun i : Nat => (i : ℝ) * (hi / n) := by
  simp [linSpaced]

theorem rawGrid_valid {rmax zexp : ℝ} {n : Nat} {igrid : Int} (hr : 0 < rmax) (hn : n ≠ 0)
    (ha : AdmissibleGrid igrid zexp) : ∃ b, rawGrid rmax n igrid zexp = .ok b ∧ ValidGrid n rmax b := by
  have hn0 : (0 : ℝ) < n := by exact_mod_cast Nat.pos_of_ne_zero hn
  rcases ha with rfl | rfl | ⟨rfl, hz⟩ | ⟨rfl, hz⟩ | ⟨rfl, hz, hz1⟩
  · refine ⟨_, rfl, ?_⟩
    rw [linSpaced_eq]
    apply map_range_valid
    · simp
    · field_simp
    · intro i j hij _
      have : (i : ℝ) < j := by exact_mod_cast hij
      have : 0 < rmax / n := by positivity
      nlinarith
  · refine ⟨_, rfl, ?_⟩
    apply map_range_valid
    · simp
    · field_simp
    · intro i j hij _
      have h1 : (i : ℝ) < j := by exact_mod_cast hij
      have h2 : (0 : ℝ) ≤ i := by positivity
      have h3 : (i : ℝ) * i < j * j := by nlinarith
      have h4 : 0 < rmax * (1 / ((n : ℝ) * n)) := by positivity
      have := mul_lt_mul_of_pos_right h3 h4
      linarith [this]
  · refine ⟨_, rfl, ?_⟩
    apply map_range_valid
    · simp [Real.zero_rpow hz.ne']
    · have : (n : ℝ) * (n : ℝ)⁻¹ = 1 := by field_simp
      simp [this]
    · intro i j hij _
      have h1 : (i : ℝ) < j := by exact_mod_cast hij
      have h2 : (0 : ℝ) ≤ (i : ℝ) * (1 / n) := by positivity
      have h3 : (i : ℝ) * (1 / n) < j * (1 / n) := mul_lt_mul_of_pos_right h1 (by positivity)
      exact mul_lt_mul_of_pos_left (Real.rpow_lt_rpow h2 h3 hz) hr
  · refine ⟨_, rfl, ?_⟩
    have hlog : 0 < Real.log (rmax + 1) := Real.log_pos (by linarith)
    have hup : 0 < (Real.log (rmax + 1)) ^ (1 / zexp) := Real.rpow_pos_of_pos hlog _
    rw [linSpaced_eq, List.map_map]
    apply map_range_valid
    · simp [Real.zero_rpow hz.ne']
    · simp only [Function.comp]
      have : (n : ℝ) * ((Real.log (rmax + 1)) ^ (1 / zexp) / n) = (Real.log (rmax + 1)) ^ (1 / zexp) := by
        field_simp
      rw [this, ← Real.rpow_mul hlog.le, one_div_mul_cancel hz.ne', Real.rpow_one,
        Real.exp_log (by linarith)]
      ring
    · intro i j hij _
      simp only [Function.comp]
      have h1 : (i : ℝ) < j := by exact_mod_cast hij
      have hp : 0 < (Real.log (rmax + 1)) ^ (1 / zexp) / n := by positivity
      have h2 : (0 : ℝ) ≤ (i : ℝ) * ((Real.log (rmax + 1)) ^ (1 / zexp) / n) := by positivity
      have h3 := mul_lt_mul_of_pos_right h1 hp
      have := Real.exp_lt_exp.mpr (Real.rpow_lt_rpow h2 h3 hz)
      linarith
  · refine ⟨_, ?_, geom_valid hr hn hz hz1⟩
    have e : rawGrid rmax n 5 zexp = if zexp ≤ 0 ∨ zexp ≥ 1 then .throw .logicError
      else if n = 0 then .ub
      else .ok (cumul 0 (geomSteps zexp n ((1 - zexp) / (1 - zexp ^ n) * rmax) [])) := rfl
    rw [e, if_neg (by push Not; exact ⟨hz, hz1⟩), if_neg hn]

theorem getGrid_valid {rmax zexp : ℝ} {n : Nat} {igrid : Int} (hr : 0 < rmax) (hn : n ≠ 0)
    (ha : AdmissibleGrid igrid zexp) : ∃ b, getGrid rmax n igrid zexp = .ok b ∧ ValidGrid n rmax b := by
  obtain ⟨b, h1, h2⟩ := rawGrid_valid hr hn ha
  refine ⟨b, ?_, h2⟩
  unfold getGrid
  rw [if_neg (by omega)]
  simp only [Int.toNat_natCast, h1, Res.ok_bind, Res.pure_eq, snap_valid h2]

theorem concatenate_valid {n m : Nat} {r s : ℝ} {a b : List ℝ} (ha : ValidGrid n r a) (hb : ValidGrid m s b)
    : ∃ c, concatenateGrid a b = .ok c ∧ ValidGrid (n + m) (r + s) c ∧
      (∀ x ∈ a, x ∈ c) := by
  obtain ⟨a1, a2, a3, a4⟩ := ha
  obtain ⟨b1, b2, b3, b4⟩ := hb
  match a, b with
  | [], _ => simp at a1
  | _, [] => simp at b1
  | x :: a, y :: b =>
    simp only [List.head?_cons, Option.some.injEq] at a2 b2
    subst a2 b2
    have hlast : (0 :: a).getLast (by simp) = r := by
      rw [List.getLast?_eq_some_getLast (by simp)] at a3
      exact Option.some.inj a3
    refine ⟨_, by simp only [concatenateGrid]; simp; rfl, ⟨?_, ?_, ?_, ?_⟩, ?_⟩
    · simp at a1 b1 ⊢; omega
    · simp
    · rw [hlast]
      rcases List.eq_nil_or_concat b with rfl | ⟨b', z, rfl⟩
      · simp at b3 ⊢
        rw [List.getLast?_cons] at a3
        simp at a3
        simp [List.getLast?_cons, a3, ← b3]
      · have hz : z = s := by
          simpa [List.getLast?_cons] using b3
        subst hz
        simp [List.getLast?_cons, List.getLast?_append, add_comm]
    · rw [hlast]
      rw [← List.cons_append, List.pairwise_append]
      refine ⟨a4, ?_, ?_⟩
      · rw [List.pairwise_map]
        exact (List.pairwise_cons.mp b4).2.imp fun h => by linarith
      · intro u hu v hv
        obtain ⟨w, hw, rfl⟩ := List.mem_map.mp hv
        have h1 : 0 < w := (List.pairwise_cons.mp b4).1 w hw
        have h2 : u ≤ r := by
          rw [← hlast]
          have hs : (0 :: a).Pairwise (· ≤ ·) := a4.imp le_of_lt
          exact hs.rel_getLast hu
        linarith
    · intro u hu
      rw [← List.cons_append]
      exact List.mem_append_left _ hu

theorem reversed_valid {n : Nat} {r : ℝ} {g : List ℝ} (h : ValidGrid n r g) :
    ValidGrid n r (reversedGrid r g) := by
  have hv : ValidGrid n r (g.reverse.map (fun x => -x + r)) := by
    refine ⟨by simp [h.length], ?_, ?_, ?_⟩
    · rw [List.head?_map, List.head?_reverse, h.last]; simp
    · rw [List.getLast?_map, List.getLast?_reverse, h.first]; simp
    · rw [List.pairwise_map, List.pairwise_reverse]
      exact h.increasing.imp fun h => by linarith
  unfold reversedGrid
  simp only
  rw [snap_valid hv]
  exact hv

end RadialGrid
end HelFEM
