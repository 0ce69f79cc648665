import Verif.Lemmas.OverR
import Mathlib.RingTheory.Polynomial.DegreeLT

/-!
# C09–C14: shape functions

Shape functions are identified with polynomials of the reference coordinate through `Spec.HermiteCardinal`: the
polynomial of lowest degree with prescribed data at the nodes.  `C09_cardinal_exists_unique` shows that this is a definition.
-/

namespace HelFEM
namespace Poly
open Finset Polynomial Spec

variable {K : Type _} [Field K] [CharZero K]

/-- For distinct nodes there is exactly one polynomial satisfying the specification of a cardinal function, for the
Lagrange case and for the three Hermite orders. -/
theorem C09_cardinal_exists_unique (m N : Nat) (hm : m ∈ [1, 2, 3, 4]) (x0 : Nat → K) (hx : DistinctNodes N x0) (i j : Nat)
    (hi : i < N) (hj : j < m) : ∃! h : K[X], HermiteCardinal m N x0 i j h := by
  refine existsUnique_of_exists_of_unique ?_ (fun a b ha hb => HermiteCardinal_unique m N x0 hx i j a b ha hb)
  simp only [List.mem_cons, List.not_mem_nil, or_false] at hm
  rcases hm with rfl | rfl | rfl | rfl
  · obtain rfl : j = 0 := by omega
    exact ⟨_, lip_cardinal N x0 hx i hi⟩
  · exact ⟨_, shape_cardinal .hip N x0 hx i j hi hj⟩
  · exact ⟨_, shape_cardinal .hip2 N x0 hx i j hi hj⟩
  · exact ⟨_, shape_cardinal .hip3 N x0 hx i j hi hj⟩

/-- **C09.** Every supported order (0 to 20) of the Lagrange evaluator returns the true derivative of the
interpolating polynomial, for every node set, function and point … -/
theorem C09_lip_true_derivative (N : Nat) (x0 : Nat → K) (hx : DistinctNodes N x0) (i : Nat) (hi : i < N) (L : K[X])
    (hL : HermiteCardinal 1 N x0 i 0 L) (n : Nat) (hn : n ≤ 20) (x : K) :
    lipPrimDnf N x0 x n i = .ok ((derivative^[n] L).eval x) := by
  rw [HermiteCardinal_unique 1 N x0 hx i 0 L _ hL (lip_cardinal N x0 hx i hi)]
  exact lipPrimDnf_eq N x0 x n i hn

/-- … and every other order is rejected. -/
theorem C09_lip_unsupported (N : Nat) (x0 : Nat → K) (x : K) (n : Int) (i : Nat) (hn : n < 0 ∨ 20 < n) :
    lipPrimDnf N x0 x n i = .throw .logicError := by
  unfold lipPrimDnf
  rw [if_neg]
  rintro ⟨h1, h2⟩
  have : lipPrefactor.length = 21 := rfl
  omega

/-- **C09, physical coordinate.** With the scaling applied by `eval_dnf` the result is the `n`-th derivative with
respect to `r = mid + len * x`. -/
theorem C09_lip_physical_derivative (N : Nat) (x0 : Nat → K) (hx : DistinctNodes N x0) (i : Nat) (hi : i < N) (L : K[X])
    (hL : HermiteCardinal 1 N x0 i 0 L) (n : Nat) (hn : n ≤ 20) (x mid len : K) (hl : len ≠ 0) :
    scaleDnf (lipPrimDnf N x0 x n i) len n = .ok ((derivative^[n] (onElement mid len L)).eval (mid + len * x)) := by
  rw [C09_lip_true_derivative N x0 hx i hi L hL n hn x]
  unfold scaleDnf
  simp only [Res.ok_bind, Res.pure_eq, Int.toNat_natCast]
  exact congrArg Res.ok (dv_onElement mid len x hl L n).symm

/-- three nodes -1, 0, 1; the function of the middle node is 1 - x² -/
example : DistinctNodes 3 (fun k => ((k : ℚ) - 1)) ∧
    HermiteCardinal 1 3 (fun k => ((k : ℚ) - 1)) 1 0 (1 - X ^ 2) := by
  refine ⟨?_, ?_, ?_⟩
  · intro i _ j _ h
    simpa using h
  · rw [show (1 - X ^ 2 : ℚ[X]) = C (-1) * X ^ 2 + C 0 * X + C 1 by simp; ring]
    exact lt_of_le_of_lt degree_quadratic_le (by norm_num)
  · intro k hk d hd
    obtain rfl : d = 0 := by omega
    interval_cases k <;> norm_num

example : lipPrimDnf 3 (fun k => ((k : ℚ) - 1)) (1/2) 1 1 = .ok (-1) := by decide +kernel

/-- **C10.** The Lagrange functions are one at their own node and zero at the others. -/
theorem C10_lip_cardinal (N : Nat) (x0 : Nat → K) (hx : DistinctNodes N x0) (i k : Nat) (hi : i < N) (hk : k < N) :
    lipPrimDnf N x0 (x0 k) 0 i = .ok (if k = i then 1 else 0) := by
  have h := C09_lip_true_derivative N x0 hx i hi _ (lip_cardinal N x0 hx i hi) 0 (by omega) (x0 k)
  have h2 := (lip_cardinal N x0 hx i hi).2 k hk 0 (by omega)
  simp only [Nat.cast_zero] at h
  rw [h, h2]
  simp

/-- **C10.** The expansion with nodal values reproduces every polynomial of degree below the number of nodes, and all its
derivatives, everywhere. -/
theorem C10_lip_reproduces (N : Nat) (x0 : Nat → K) (hx : DistinctNodes N x0) (p : K[X]) (hp : p.degree < N) (n : Nat)
    (hn : n ≤ 20) (x : K) (v : Nat → K) (hv : ∀ i < N, lipPrimDnf N x0 x n i = .ok (v i)) :
    ∑ i ∈ range N, p.eval (x0 i) * v i = (derivative^[n] p).eval x := by
  have h1 : p = ∑ i ∈ range N, C (p.eval (x0 i)) * Lagrange.basis (range N) x0 i := by
    have := Lagrange.eq_interpolate (s := range N) (v := x0) (f := p) (injOn hx) (by simpa using hp)
    rw [Lagrange.interpolate_apply] at this
    exact this
  conv_rhs => rw [h1]
  rw [iterate_derivative_sum, eval_finsetSum]
  apply sum_congr rfl
  intro i hi
  have h2 := lipPrimDnf_eq N x0 x n i hn
  rw [hv i (mem_range.1 hi)] at h2
  rw [iterate_derivative_C_mul, eval_mul, eval_C, Res.ok.inj h2]

/-- **C10.** In particular the functions sum to one, and their derivatives to zero. -/
theorem C10_lip_partition_of_unity (N : Nat) (hN : 1 ≤ N) (x0 : Nat → K) (hx : DistinctNodes N x0) (n : Nat)
    (hn : n ≤ 20) (x : K) (v : Nat → K) (hv : ∀ i < N, lipPrimDnf N x0 x n i = .ok (v i)) :
    ∑ i ∈ range N, v i = if n = 0 then 1 else 0 := by
  have h := C10_lip_reproduces N x0 hx 1 (by rw [degree_one]; exact_mod_cast hN) n hn x v hv
  simp only [eval_one, one_mul] at h
  rw [h]
  cases n with
  | zero => simp
  | succ n => rw [Function.iterate_succ_apply, derivative_one]; simp

example : ∀ i < 3, lipPrimDnf 3 (fun k => ((k : ℚ) - 1)) 2 0 i = .ok (if i = 0 then 1 else if i = 1 then -3 else 3) := by
  decide +kernel

/-- **C11, C12.** Every supported derivative order (0–20 for first order, 0–5 for second and third order Hermite
functions) is the true derivative of the cardinal function times `len^j`. -/
theorem C11_hermite_true_derivative (f : HermiteFam) (N : Nat) (x0 : Nat → K) (hx : DistinctNodes N x0) (i j : Nat)
    (hi : i < N) (hj : j < f.m) (h : K[X]) (hh : HermiteCardinal f.m N x0 i j h) (n : Nat) (hn : n ≤ f.maxOrder)
    (x len : K) :
    hermitePrimDnf f N x0 x len n (f.m * i + j) = .ok ((derivative^[n] h).eval x * len ^ j) := by
  rw [HermiteCardinal_unique f.m N x0 hx i j h _ hh (shape_cardinal f N x0 hx i j hi hj)]
  exact hermitePrimDnf_eq f N x0 x len n i j hn hj

/-- … and every other order is rejected. -/
theorem C11_hermite_unsupported (f : HermiteFam) (N : Nat) (x0 : Nat → K) (x len : K) (n : Int) (idx : Nat)
    (hn : n < 0 ∨ (f.maxOrder : Int) < n) : hermitePrimDnf f N x0 x len n idx = .throw .logicError := by
  unfold hermitePrimDnf
  split
  · rfl
  · next h =>
    obtain ⟨k, rfl⟩ : ∃ k : Nat, n = k := ⟨n.toNat, by omega⟩
    have hk : f.maxOrder < k := by omega
    simp only [Int.toNat_natCast]
    generalize idx % f.m = j
    cases f with
    | hip =>
      simp only [HermiteFam.maxOrder] at hk
      obtain ⟨t, rfl⟩ : ∃ t, k = t + 21 := ⟨k - 21, by omega⟩
      simp only [HermiteFam.case]
      rw [show ∀ L : Nat → K, ∀ a b c d e : K, Gen.hip (t + 21) j L a b c d e = none from fun _ _ _ _ _ _ => rfl]
    | hip2 =>
      simp only [HermiteFam.maxOrder] at hk
      obtain ⟨t, rfl⟩ : ∃ t, k = t + 6 := ⟨k - 6, by omega⟩
      simp only [HermiteFam.case]
      rw [show ∀ L : Nat → K, ∀ a b c d e : K, Gen.hip2 (t + 6) j L a b c d e = none from fun _ _ _ _ _ _ => rfl]
    | hip3 =>
      simp only [HermiteFam.maxOrder] at hk
      obtain ⟨t, rfl⟩ : ∃ t, k = t + 6 := ⟨k - 6, by omega⟩
      simp only [HermiteFam.case]
      rw [show ∀ L : Nat → K, ∀ a b c d e : K, Gen.hip3 (t + 6) j L a b c d e = none from fun _ _ _ _ _ _ => rfl]

/-- **C11, C12, interpolation.** In the physical coordinate, the `d`-th derivative (`d = 0, …, m-1`) of the function
`(i, j)` at node `k` is one if `k = i` and `d = j` and zero otherwise, for every element length. -/
theorem C11_hermite_interpolates (f : HermiteFam) (N : Nat) (x0 : Nat → K) (hx : DistinctNodes N x0) (i j : Nat)
    (hi : i < N) (hj : j < f.m) (k d : Nat) (hk : k < N) (hd : d < f.m) (len : K) (hl : len ≠ 0) :
    scaleDnf (hermitePrimDnf f N x0 (x0 k) len d (f.m * i + j)) len d = .ok (if k = i ∧ d = j then 1 else 0) := by
  have hmo : d ≤ f.maxOrder := by cases f <;> simp only [HermiteFam.m, HermiteFam.maxOrder] at * <;> omega
  rw [C11_hermite_true_derivative f N x0 hx i j hi hj _ (shape_cardinal f N x0 hx i j hi hj) d hmo]
  rw [(shape_cardinal f N x0 hx i j hi hj).2 k hk d hd]
  unfold scaleDnf
  simp only [Res.ok_bind, Res.pure_eq, Int.toNat_natCast]
  split
  · next h => rw [h.2, one_mul, div_self (pow_ne_zero _ hl)]
  · simp

/-- **C11, C12, physical coordinate.** `eval_dnf` returns the derivatives with respect to `r` of one and the same
function of `r`. -/
theorem C11_hermite_physical_derivative (f : HermiteFam) (N : Nat) (x0 : Nat → K) (hx : DistinctNodes N x0) (i j : Nat)
    (hi : i < N) (hj : j < f.m) (h : K[X]) (hh : HermiteCardinal f.m N x0 i j h) (n : Nat) (hn : n ≤ f.maxOrder)
    (x mid len : K) (hl : len ≠ 0) :
    scaleDnf (hermitePrimDnf f N x0 x len n (f.m * i + j)) len n =
      .ok ((derivative^[n] (onElement mid len (C (len ^ j) * h))).eval (mid + len * x)) := by
  rw [C11_hermite_true_derivative f N x0 hx i j hi hj h hh n hn x len]
  unfold scaleDnf
  simp only [Res.ok_bind, Res.pure_eq, Int.toNat_natCast]
  have := dv_onElement mid len x hl (C (len ^ j) * h) n
  unfold dv at this
  rw [this, iterate_derivative_C_mul, eval_mul, eval_C, mul_comm (len ^ j)]

/-- **C11, C12.** The functions of an element are a basis of the polynomials of degree below `m*N`: every such polynomial
of the physical coordinate is reproduced, with all derivatives, by the expansion whose coefficients are the values
and derivatives at the nodes. -/
theorem C12_hermite_reproduces (f : HermiteFam) (N : Nat) (x0 : Nat → K) (hx : DistinctNodes N x0) (p : K[X])
    (hp : p.degree < (f.m * N : Nat)) (n : Nat) (hn : n ≤ f.maxOrder) (x : K) (v : Nat → Nat → K)
    (hv : ∀ i < N, ∀ j < f.m, hermitePrimDnf f N x0 x 1 n (f.m * i + j) = .ok (v i j)) :
    ∑ i ∈ range N, ∑ j ∈ range f.m, (derivative^[j] p).eval (x0 i) * v i j = (derivative^[n] p).eval x := by
  have h1 : p = ∑ i ∈ range N, ∑ j ∈ range f.m, C ((derivative^[j] p).eval (x0 i)) * shape f N x0 i j := by
    rw [← sub_eq_zero]
    apply zero_of_data f.m N x0 hx
    · refine lt_of_le_of_lt (degree_sub_le _ _) (max_lt hp ?_)
      refine mem_degreeLT.1 (Submodule.sum_mem _ fun i hi => Submodule.sum_mem _ fun j hj => ?_)
      rw [← smul_eq_C_mul]
      exact Submodule.smul_mem _ _
        (mem_degreeLT.2 (shape_cardinal f N x0 hx i j (mem_range.1 hi) (mem_range.1 hj)).1)
    · intro k hk d hd
      rw [iterate_derivative_sub, eval_sub, iterate_derivative_sum, eval_finsetSum]
      rw [Finset.sum_eq_single k]
      · rw [iterate_derivative_sum, eval_finsetSum, Finset.sum_eq_single d]
        · rw [iterate_derivative_C_mul, eval_mul, eval_C, (shape_cardinal f N x0 hx k d hk hd).2 k hk d hd,
            if_pos ⟨rfl, rfl⟩, mul_one, sub_self]
        · intro j hj hjd
          rw [iterate_derivative_C_mul, eval_mul, (shape_cardinal f N x0 hx k j hk (mem_range.1 hj)).2 k hk d hd,
            if_neg (fun h => hjd h.2.symm), mul_zero]
        · intro h; exact absurd (mem_range.2 hd) h
      · intro i hi hik
        rw [iterate_derivative_sum, eval_finsetSum]
        apply Finset.sum_eq_zero
        intro j hj
        rw [iterate_derivative_C_mul, eval_mul,
          (shape_cardinal f N x0 hx i j (mem_range.1 hi) (mem_range.1 hj)).2 k hk d hd,
            if_neg (fun h => hik h.1.symm), mul_zero]
      · intro h; exact absurd (mem_range.2 hk) h
  conv_rhs => rw [h1]
  rw [iterate_derivative_sum, eval_finsetSum]
  apply sum_congr rfl
  intro i hi
  rw [iterate_derivative_sum, eval_finsetSum]
  apply sum_congr rfl
  intro j hj
  have h2 := hermitePrimDnf_eq f N x0 x 1 n i j hn (mem_range.1 hj)
  rw [hv i (mem_range.1 hi) j (mem_range.1 hj)] at h2
  rw [iterate_derivative_C_mul, eval_mul, eval_C, Res.ok.inj h2, one_pow, mul_one]
  rfl

/-- two nodes ±1 and first-order Hermite functions: the value function of the left node -/
example : DistinctNodes 2 (fun k => (2 * (k : ℚ) - 1)) ∧
    HermiteCardinal 2 2 (fun k => (2 * (k : ℚ) - 1)) 0 0 (C (1/4) * X ^ 3 + C 0 * X ^ 2 + C (-3/4) * X + C (1/2)) := by
  refine ⟨?_, ?_, ?_⟩
  · intro i _ j _ h
    have : (2 * (i : ℚ)) = 2 * j := by linarith
    have : (i : ℚ) = j := by linarith
    exact_mod_cast this
  · exact lt_of_le_of_lt degree_cubic_le (by norm_num)
  · intro k hk d hd
    interval_cases k <;> interval_cases d <;> norm_num

example : hermitePrimDnf .hip 2 (fun k => (2 * (k : ℚ) - 1)) 0 3 1 0 = .ok (-3/4) := by decide +kernel
example : hermitePrimDnf .hip3 2 (fun k => (2 * (k : ℚ) - 1)) 0 3 0 4 = .ok (1/2) := by decide +kernel

/-! ### C13 -/

/-- **C13.** For every number of nodes `lmax + 1 ≥ 2` the Legendre functions are fixed polynomials whose values, first and
second derivatives the evaluator returns: the first is 1 at the left end and 0 at the right end, the
last 0 and 1, and the others vanish at both ends. -/
theorem C13_legendre_ends (lmax : Nat) (h : 1 ≤ lmax) (j : Nat) (hj : j ≤ lmax) :
    ∃ p : ℝ[X], (∀ n : Nat, n ≤ 2 → ∀ x : ℝ, legPrimDnf lmax x n j = .ok ((derivative^[n] p).eval x)) ∧
      p.eval (-1) = (if j = 0 then 1 else 0) ∧ p.eval 1 = (if j = lmax then 1 else 0) ∧ p.degree ≤ lmax := by
  refine ⟨legShape lmax j, fun n hn x => legPrimDnf_eq lmax x n j hn, ?_, ?_, ?_⟩
  · by_cases h0 : j = 0
    · rw [h0, legShape_first lmax h]; norm_num
    · rw [if_neg h0, legShape_red lmax j (by omega) hj]; simp
  · by_cases h1 : j = lmax
    · rw [h1, legShape_last lmax h]; norm_num
    · rw [if_neg h1]
      by_cases h0 : j = 0
      · rw [h0, legShape_first lmax h]; simp
      · rw [legShape_mid lmax j (by omega) (by omega)]
        simp [pP_one]
  · exact legShape_degree lmax j

/-- Orders above two (and negative ones) are rejected. -/
theorem C13_legendre_unsupported (lmax : Nat) (x : ℝ) (n : Int) (j : Nat) (hn : n < 0 ∨ 2 < n) :
    legPrimDnf lmax x n j = .throw .logicError := by
  unfold legPrimDnf
  rw [if_neg (by omega), if_neg (by omega), if_neg (by omega)]

/-- **C13.** The functions are linearly independent, so that they span all polynomials of degree at most `lmax`. -/
theorem C13_legendre_independent (lmax : Nat) (h : 1 ≤ lmax) (c : Nat → ℝ)
    (hc : ∀ x : ℝ, ∀ v : Nat → ℝ, (∀ j ≤ lmax, legPrimDnf lmax x 0 j = .ok (v j)) → ∑ j ∈ range (lmax + 1), c j * v j = 0) :
    ∀ j ≤ lmax, c j = 0 := by
  apply legShape_indep lmax h c
  apply Polynomial.funext
  intro x
  rw [eval_finsetSum, eval_zero]
  rw [← hc x (fun j => (legShape lmax j).eval x) (fun j _ => legPrimDnf_eq lmax x 0 j (by omega))]
  apply sum_congr rfl
  intro j _
  simp

/-! ### C14 -/

/-- What a division by `r` on the first element must deliver, for the function `B` of `r`: `f n x` is the outcome
at derivative order `n` and reference point `x`, where `r = len * (x + 1)`. -/
def IsOverR (len : K) (B : K[X]) (maxn : Nat) (f : Nat → K → Res K) : Prop :=
  ∃ R : K[X], B = X * R ∧ R.eval 0 = (derivative B).eval 0 ∧
    ∀ n ≤ maxn, ∀ x, f n x = .ok ((derivative^[n] R).eval (len * (x + 1)))

theorem isOverR_of_red (len : K) (hl : len ≠ 0) (g : K[X]) (maxn : Nat) (f : Nat → K → Res K)
    (hf : ∀ n ≤ maxn, ∀ x, f n x = .ok (dv g x n / len ^ (n + 1))) :
    IsOverR len (onFirstElement len ((X + 1) * g)) maxn f := by
  refine ⟨C len⁻¹ * onFirstElement len g, onFirst_red len g, ?_, ?_⟩
  · rw [onFirst_red]
    simp [derivative_mul]
  · intro n hn x
    rw [hf n hn x]
    exact congrArg Res.ok (dv_red len x hl g n).symm

/-- Consequence of `IsOverR`: multiplying by `r` gives back the shape function. -/
theorem C14_times_r (len : K) (B : K[X]) (maxn : Nat) (f : Nat → K → Res K) (h : IsOverR len B maxn f) (x : K) :
    ∃ v, f 0 x = .ok v ∧ len * (x + 1) * v = B.eval (len * (x + 1)) := by
  obtain ⟨R, h1, _, h3⟩ := h
  refine ⟨_, h3 0 (Nat.zero_le _) x, ?_⟩
  rw [h1]; simp

/-- Consequence of `IsOverR`: at the origin the value is the derivative of the shape function. -/
theorem C14_at_origin (len : K) (B : K[X]) (maxn : Nat) (f : Nat → K → Res K) (h : IsOverR len B maxn f) :
    f 0 (-1) = .ok ((derivative B).eval 0) := by
  obtain ⟨R, _, h2, h3⟩ := h
  rw [h3 0 (Nat.zero_le _) (-1), ← h2]
  simp

/-- **C14, Lagrange functions.** -/
theorem C14_lip_over_r (N : Nat) (x0 : Nat → K) (hx : DistinctNodes N x0) (h0 : x0 0 = -1) (i : Nat) (hi0 : 1 ≤ i)
    (hi : i < N) (L : K[X]) (hL : HermiteCardinal 1 N x0 i 0 L) (len : K) (hl : len ≠ 0) (first : Nat) (hf : 1 ≤ first) :
    IsOverR len (onFirstElement len L) 20 (fun n x => lipOverR N x0 (some first) x n len i) := by
  rw [HermiteCardinal_unique 1 N x0 hx i 0 L _ hL (lip_cardinal N x0 hx i hi)]
  have e : Lagrange.basis (range N) x0 i = (X + 1) * lipRed N x0 i := by
    rw [basis_red N x0 i (by omega) hi0 h0]; unfold lipRed; ring
  rw [e]
  obtain ⟨k, rfl⟩ : ∃ k, first = k + 1 := ⟨first - 1, by omega⟩
  exact isOverR_of_red len hl _ 20 _ (fun n hn x => lipOverR_eq N x0 k x n hn len i)

/-- **C14, Hermite functions** of all three orders. -/
theorem C14_hermite_over_r (f : HermiteFam) (N : Nat) (x0 : Nat → K) (hx : DistinctNodes N x0) (h0 : x0 0 = -1)
    (i j : Nat) (hi : i < N) (hj : j < f.m) (hij : ¬ (i = 0 ∧ j = 0)) (h : K[X]) (hh : HermiteCardinal f.m N x0 i j h)
    (len : K) (hl : len ≠ 0) (first : Nat) (hf : 1 ≤ first) :
    IsOverR len (onFirstElement len (C (len ^ j) * h)) 2
      (fun n x => hermiteOverR f N x0 (some first) x n len (f.m * i + j)) := by
  rw [HermiteCardinal_unique f.m N x0 hx i j h _ hh (shape_cardinal f N x0 hx i j hi hj)]
  rw [shape_red f N x0 i j hi hj hij h0]
  obtain ⟨k, rfl⟩ : ∃ k, first = k + 1 := ⟨first - 1, by omega⟩
  rw [show C (len ^ j) * ((X + 1) * hermRed f N x0 i j) = (X + 1) * (C (len ^ j) * hermRed f N x0 i j) by ring]
  apply isOverR_of_red len hl _ 2
  intro n hn x
  rw [hermiteOverR_eq f N x0 k x n hn len i j hj hij, dv_C_mul]
  congr 1
  rw [show ((j : Int) - 1 - n) = (j : Int) - ((n + 1 : Nat) : Int) by push_cast; ring, zpow_sub₀ hl, zpow_natCast, zpow_natCast]
  field_simp

/-- **C14, Legendre functions.** -/
theorem C14_legendre_over_r (lmax j : Nat) (h1 : 1 ≤ j) (h2 : j ≤ lmax) (p : ℝ[X])
    (hp : ∀ x : ℝ, legPrimDnf lmax x 0 j = .ok (p.eval x)) (len : ℝ) (hl : len ≠ 0) (first : Nat) (hf : 1 ≤ first) :
    IsOverR len (onFirstElement len p) 2 (fun n x => legOverR lmax (some first) x n len j) := by
  have e : p = legShape lmax j := by
    apply Polynomial.funext
    intro x
    have := legPrimDnf_eq lmax x 0 j (by omega)
    simp only [Nat.cast_zero] at this
    rw [hp x] at this
    exact Res.ok.inj this
  rw [e, legShape_red lmax j h1 h2]
  obtain ⟨k, rfl⟩ : ∃ k, first = k + 1 := ⟨first - 1, by omega⟩
  exact isOverR_of_red len hl _ 2 _ (fun n hn x => legOverR_eq lmax k x n j len hn)

/-- **C14, rejection.** If no function survives or the first surviving function is the value function of the origin, every
family throws. -/
theorem C14_rejects (N lmax : Nat) (x0 : Nat → K) (f : HermiteFam) (x len : K) (y leny : ℝ) (n : Int) (idx : Nat)
    (first : Option Nat) (hf : first = none ∨ first = some 0) :
    lipOverR N x0 first x n len idx = .throw .logicError ∧
    hermiteOverR f N x0 first x n len idx = .throw .logicError ∧
    legOverR lmax first y n leny idx = .throw .logicError := by
  rcases hf with rfl | rfl <;> simp [lipOverR, hermiteOverR, legOverR]

/-- Derivative orders that are not implemented are rejected. -/
theorem C14_unsupported (N lmax : Nat) (x0 : Nat → K) (f : HermiteFam) (x len : K) (y leny : ℝ) (n : Int) (idx : Nat)
    (first : Option Nat) :
    ((n < 0 ∨ 20 < n) → lipOverR N x0 first x n len idx = .throw .logicError) ∧
    ((n < 0 ∨ 2 < n) → hermiteOverR f N x0 first x n len idx = .throw .logicError ∧
      legOverR lmax first y n leny idx = .throw .logicError) := by
  refine ⟨fun h => ?_, fun h => ?_⟩
  · unfold lipOverR
    split
    · rfl
    · rfl
    · rw [C09_lip_unsupported _ _ _ _ _ h]; rfl
  · unfold hermiteOverR legOverR
    rw [if_pos h, if_pos h]
    exact ⟨rfl, rfl⟩

/-- at the origin of an element of length 4 (`len = 2`), second order Hermite: slope function of the origin -/
example : hermiteOverR .hip2 2 (fun k => (2 * (k : ℚ) - 1)) (some 1) (-1) 0 2 1 = .ok 1 := by decide +kernel
/-- and an inner point -/
example : hermiteOverR .hip2 2 (fun k => (2 * (k : ℚ) - 1)) (some 1) 0 0 2 3 = .ok (1/4) := by decide +kernel
example : lipOverR 3 (fun k => ((k : ℚ) - 1)) (some 1) (-1) 0 2 1 = .ok 1 := by decide +kernel

end Poly
end HelFEM
