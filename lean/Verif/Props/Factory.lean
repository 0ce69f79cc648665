import Verif.Model.Factory
import Verif.Lemmas.Legendre
import Verif.Spec.Interp
import Mathlib.Analysis.SpecialFunctions.Trigonometric.Bounds

/-!
# C08: the polynomial basis factory
-/

namespace HelFEM
namespace Factory
open Grid Poly

/-- The node list of the Lobatto rule: `n` increasing numbers from -1 to 1. -/
structure LobattoList (lob : Nat → List ℝ) : Prop where
  len : ∀ n, 2 ≤ n → (lob n).length = n
  inc : ∀ n, 2 ≤ n → (lob n).Pairwise (· < ·)
  left : ∀ n, 2 ≤ n → (lob n)[0]? = some (-1 : ℝ)
  right : ∀ n, 2 ≤ n → (lob n)[n - 1]? = some (1 : ℝ)

theorem sort_of_inc (l : List ℝ) (h : l.Pairwise (· < ·)) : stdSort l = l := by
  unfold stdSort
  apply List.mergeSort_of_pairwise
  exact h.imp (fun hab => by simpa using le_of_lt hab)

theorem interpCtor_ok (f : Family) (x : List ℝ) (n : Nat) (hn : 2 ≤ n) (hl : x.length = n) (hi : x.Pairwise (· < ·))
    (h0 : x[0]? = some (-1 : ℝ)) (h1 : x[n - 1]? = some (1 : ℝ)) (id : Int) :
    interpCtor f x id = .ok ⟨id, PolyBasis.mk' f n, x⟩ := by
  have hs : 0 < sqrteps := by unfold sqrteps; positivity
  unfold interpCtor
  simp only [sort_of_inc x hi, readAt, h0, hl, h1, Res.ok_bind, Res.pure_eq]
  rw [if_neg (by simp [hs]), if_neg (by simp [hs])]

theorem cheb_lt (n : Nat) : (chebNodes n).Pairwise (· < ·) := by
  unfold chebNodes
  rw [List.pairwise_map]
  refine List.Pairwise.imp_of_mem ?_ List.pairwise_lt_range
  intro i j hi hj hij
  rw [List.mem_range] at hi hj
  have hn : (0 : ℝ) < (n : ℝ) - 1 := by
    have : 2 ≤ n := by omega
    have : (2 : ℝ) ≤ n := by exact_mod_cast this
    linarith
  have hj' : (j : ℝ) ≤ (n : ℝ) - 1 := by
    have : j + 1 ≤ n := by omega
    have : (j : ℝ) + 1 ≤ n := by exact_mod_cast this
    linarith
  have hij' : (i : ℝ) < j := by exact_mod_cast hij
  have hi0 : (0 : ℝ) ≤ i := by positivity
  apply Real.cos_lt_cos_of_nonneg_of_le_pi
  · apply div_nonneg _ hn.le
    apply mul_nonneg Real.pi_pos.le; linarith
  · rw [div_le_iff₀ hn]
    apply mul_le_mul_of_nonneg_left _ Real.pi_pos.le
    linarith
  · apply div_lt_div_of_pos_right _ hn
    apply mul_lt_mul_of_pos_left _ Real.pi_pos
    linarith

theorem cheb_ok (f : Family) (n : Nat) (hn : 2 ≤ n) (id : Int) :
    interpCtor f (chebNodes n) id = .ok ⟨id, PolyBasis.mk' f n, chebNodes n⟩ := by
  have hn' : (n : ℝ) - 1 ≠ 0 := by
    have : (2 : ℝ) ≤ n := by exact_mod_cast hn
    linarith
  apply interpCtor_ok f _ n hn (by simp [chebNodes]) (cheb_lt n)
  · unfold chebNodes
    rw [List.getElem?_map, List.getElem?_range (by omega)]
    simp only [Option.map_some, Nat.cast_zero, sub_zero]
    rw [mul_div_cancel_right₀ _ hn', Real.cos_pi]
  · unfold chebNodes
    rw [List.getElem?_map, List.getElem?_range (by omega)]
    simp only [Option.map_some]
    rw [Nat.cast_sub (by omega), Nat.cast_one, sub_self, mul_zero, zero_div, Real.cos_zero]

/-- **C08, rejections.** Fewer than two nodes give a `logic_error` whatever the identifier; retired identifiers a
`runtime_error`; all other unknown identifiers a `logic_error`. -/
theorem C08_rejects (lob : Nat → List ℝ) (p n : Int) :
    (n < 2 → getBasis lob p n = .throw .logicError) ∧
    (2 ≤ n → p ∈ [0, 1, 2, 6, 7, 10, 11] → getBasis lob p n = .throw .runtimeError) ∧
    (2 ≤ n → p ∉ [0, 1, 2, 6, 7, 10, 11] → p ∉ [3, 4, 5, 8, 9, 100, 101] → getBasis lob p n = .throw .logicError) := by
  refine ⟨fun h => by simp [getBasis, h], ?_, ?_⟩
  · intro h hp
    have h' : ¬ n < 2 := by omega
    simp only [List.mem_cons, List.not_mem_nil, or_false] at hp
    rcases hp with rfl | rfl | rfl | rfl | rfl | rfl | rfl <;> simp [getBasis, h']
  · intro h hp hq
    have h' : ¬ n < 2 := by omega
    simp only [List.mem_cons, List.not_mem_nil, or_false, not_or] at hp hq
    simp [getBasis, h', hp, hq]

/-- advertised number of functions per node (value and derivatives) -/
def advertisedOverlap : Int → Nat
  | 5 => 2 | 101 => 2 | 8 => 3 | 9 => 4 | _ => 1

/-- **C08, acceptance.** Each documented identifier with `n ≥ 2` nodes is accepted, and gives `n` nodes, the advertised overlap
and `overlap * n` primitives, all of them enabled. -/
theorem C08_accepts (lob : Nat → List ℝ) (hlob : LobattoList lob) (p : Int) (n : Nat) (hn : 2 ≤ n)
    (hp : p ∈ [3, 4, 5, 8, 9, 100, 101]) :
    ∃ b, getBasis lob p n = .ok b ∧ b.basis.nnodes = n ∧ b.basis.noverlap = advertisedOverlap p ∧
      b.basis.nprim = advertisedOverlap p * n ∧ b.basis.enabled = List.range (advertisedOverlap p * n) := by
  have h' : ¬ (n : Int) < 2 := by omega
  have hc : ∀ f id, interpCtor f (lob n) id = .ok ⟨id, PolyBasis.mk' f n, lob n⟩ := fun f id =>
    interpCtor_ok f _ n hn (hlob.len n hn) (hlob.inc n hn) (hlob.left n hn) (hlob.right n hn) id
  simp only [List.mem_cons, List.not_mem_nil, or_false] at hp
  rcases hp with rfl | rfl | rfl | rfl | rfl | rfl | rfl <;>
    simp [getBasis, h', hc, cheb_ok _ n hn, PolyBasis.mk', advertisedOverlap]

/-- **C08, round trip (partial).** For every accepted identifier other than the two Chebyshev ones, the reported
identifier and node count rebuild the same basis. -/
theorem C08_roundtrip_partial (lob : Nat → List ℝ) (hlob : LobattoList lob) (p : Int) (n : Nat) (hn : 2 ≤ n)
    (hp : p ∈ [3, 4, 5, 8, 9]) (b : Built) (hb : getBasis lob p n = .ok b) :
    getBasis lob b.id b.basis.nnodes = .ok b := by
  have h' : ¬ (n : Int) < 2 := by omega
  have hc : ∀ f id, interpCtor f (lob n) id = .ok ⟨id, PolyBasis.mk' f n, lob n⟩ := fun f id =>
    interpCtor_ok f _ n hn (hlob.len n hn) (hlob.inc n hn) (hlob.left n hn) (hlob.right n hn) id
  simp only [List.mem_cons, List.not_mem_nil, or_false] at hp
  rcases hp with rfl | rfl | rfl | rfl | rfl <;>
    · simp [getBasis, h', hc] at hb
      subst hb
      simp [getBasis, h', hc, PolyBasis.mk']

/-- **C08 is violated for the Chebyshev identifiers 100 and 101.** With four nodes the basis built for identifier 100
(101) reports identifier 4 (5), and the factory called with that gives a basis with other nodes, as long as
its second node is a stationary point of the Legendre polynomial `P_3`, as a Lobatto node is. -/
theorem C08_chebyshev_roundtrip_differs (lob : Nat → List ℝ) (hlob : LobattoList lob) (y : ℝ)
    (hy : (lob 4)[1]? = some y) (hroot : legDP y 3 = 0) (p : Int) (hp : p = 100 ∨ p = 101) :
    ∃ b b', getBasis lob p 4 = .ok b ∧ getBasis lob b.id b.basis.nnodes = .ok b' ∧
      b'.nodes ≠ b.nodes := by
  have hc : ∀ f id, interpCtor f (lob 4) id = .ok ⟨id, PolyBasis.mk' f 4, lob 4⟩ := fun f id =>
    interpCtor_ok f _ 4 (by omega) (hlob.len 4 (by omega)) (hlob.inc 4 (by omega)) (hlob.left 4 (by omega)) (hlob.right 4 (by omega)) id
  have hne : lob 4 ≠ chebNodes 4 := by
    intro h
    rw [h] at hy
    have h2 : (chebNodes 4)[1]? = some (Real.cos (Real.pi * (4 - 1 - 1) / (4 - 1))) := by
      simp [chebNodes]
    rw [h2] at hy
    have h3 := Option.some.inj hy
    rw [show Real.pi * (4 - 1 - 1) / (4 - 1) = Real.pi - Real.pi / 3 by ring, Real.cos_pi_sub, Real.cos_pi_div_three] at h3
    rw [← h3] at hroot
    norm_num [legDP, legP] at hroot
  rcases hp with rfl | rfl
  · refine ⟨⟨4, PolyBasis.mk' .lip 4, chebNodes 4⟩, ⟨4, PolyBasis.mk' .lip 4, lob 4⟩, ?_, ?_, hne⟩
    · simp [getBasis, cheb_ok .lip 4 (by omega)]
    · simp [getBasis, hc, PolyBasis.mk']
  · refine ⟨⟨5, PolyBasis.mk' .hip 4, chebNodes 4⟩, ⟨5, PolyBasis.mk' .hip 4, lob 4⟩, ?_, ?_, hne⟩
    · simp [getBasis, cheb_ok .hip 4 (by omega)]
    · simp [getBasis, hc, PolyBasis.mk']

/-- Hypotheses are met: there is a Lobatto list whose four-node entry has the exact node `-1/√5`. -/
example : ∃ lob, LobattoList lob ∧ (lob 4)[1]? = some (-(1 / Real.sqrt 5)) ∧ legDP (-(1 / Real.sqrt 5)) 3 = 0 := by
  have h5 : (0 : ℝ) < Real.sqrt 5 := by positivity
  have h51 : 1 < Real.sqrt 5 := by
    rw [show (1 : ℝ) = Real.sqrt 1 by simp]
    exact Real.sqrt_lt_sqrt (by norm_num) (by norm_num)
  have hlt : 1 / Real.sqrt 5 < 1 := by rw [div_lt_one h5]; exact h51
  have hpos : 0 < 1 / Real.sqrt 5 := by positivity
  refine ⟨fun n => if n = 4 then [-1, -(1 / Real.sqrt 5), 1 / Real.sqrt 5, 1] else chebNodes n, ⟨?_, ?_, ?_, ?_⟩, by simp, ?_⟩
  · intro n hn; split
    · next h => simp [h]
    · simp [chebNodes]
  · intro n hn; split
    · simp only [List.pairwise_cons, List.mem_cons, List.not_mem_nil, or_false]
      refine ⟨?_, ?_, ?_, by simp, List.Pairwise.nil⟩
      · rintro a (rfl | rfl | rfl) <;> linarith
      · rintro a (rfl | rfl) <;> linarith
      · rintro a rfl; linarith
    · exact cheb_lt n
  · intro n hn; split
    · simp
    · have := cheb_ok .lip n hn 4
      have hn' : (n : ℝ) - 1 ≠ 0 := by
        have : (2 : ℝ) ≤ n := by exact_mod_cast hn
        linarith
      unfold chebNodes
      rw [List.getElem?_map, List.getElem?_range (by omega)]
      simp only [Option.map_some, Nat.cast_zero, sub_zero]
      rw [mul_div_cancel_right₀ _ hn', Real.cos_pi]
  · intro n hn; split
    · next h => simp [h]
    · unfold chebNodes
      rw [List.getElem?_map, List.getElem?_range (by omega)]
      simp only [Option.map_some]
      rw [Nat.cast_sub (by omega), Nat.cast_one, sub_self, mul_zero, zero_div, Real.cos_zero]
  · have hsq : (1 / Real.sqrt 5) ^ 2 = 1 / 5 := by rw [div_pow, Real.sq_sqrt (by norm_num)]; norm_num
    simp only [legDP, legP]
    push_cast
    linear_combination (15 / 2 : ℝ) * hsq

end Factory
end HelFEM
