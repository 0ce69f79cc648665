import Verif.Model.CheckCd
import Verif.Spec.CheckCd
import Verif.Lemmas.DiaKRad
import Verif.Lemmas.DiaTei
import Verif.Props.Exchange
import Verif.Props.Cholesky
import Verif.Props.DiaMultipole
import Mathlib.Algebra.Order.BigOperators.Ring.Finset

/-!
# C93: the self-check of the factorised two-electron integrals
-/

namespace HelFEM
namespace DiaJK
open Finset TwoE CdSpec Dia

/-- a matrix of the integrals of one pair of terms -/
def tmat (n : Nat) (T : ℕ → ℕ → ℕ → ℕ → ℝ) (α β : ℕ) : Mat ℝ := ⟨n * n, n * n, T α β⟩

/-- a set of test blocks -/
def quadOf (n : Nat) (R : ℕ → ℕ → ℕ → ℕ → ℝ) : Quad := ⟨⟨n, n, R 0 0⟩, ⟨n, n, R 0 1⟩, ⟨n, n, R 1 0⟩, ⟨n, n, R 1 1⟩⟩

/-- Symmetry of the integrals under exchange of the electrons. -/
def Swap (m : Nat) (T : ℕ → ℕ → ℕ → ℕ → ℝ) : Prop := ∀ α < 2, ∀ β < 2, ∀ i < m, ∀ j < m, T α β i j = T β α j i

theorem sum_mul_range (a b : Nat) (f : Nat → ℝ) : ∑ k ∈ range (a * b), f k = ∑ i ∈ range a, ∑ j ∈ range b, f (i * b + j) := by
  induction a with
  | zero => simp
  | succ a ih => rw [Nat.succ_mul, sum_range_add, ih, sum_range_succ]

theorem two_le {a b n : Nat} (ha : a < n) (hb : b < n) : a * n + b < n * n := by nlinarith

theorem kexStep_ok (n : Nat) (t : Nat → Nat → ℝ) (P : Nat → Nat → ℝ) (v : Vect ℝ) (hv : v.size = n * n) :
    ∃ w, kexStep n v (⟨n * n, n * n, t⟩, ⟨n, n, P⟩) = .ok w ∧ w.size = n * n ∧ ∀ a < n, ∀ b < n,
      w.get (b * n + a) = v.get (b * n + a) + ∑ c ∈ range n, ∑ d ∈ range n, t (a * n + c) (d * n + b) * P c d := by
  obtain ⟨M, m1, m2, m3, m4⟩ := C18_exchange (⟨n * n, n * n, t⟩ : Mat ℝ) n n n n rfl rfl
  unfold kexStep mulVec vec vadd
  simp only [m1, Res.ok_bind, m3, m2, hv, if_true]
  refine ⟨_, rfl, rfl, ?_⟩
  intro a ha b hb
  simp only
  congr 1
  rw [sum_mul_range, sum_comm]
  refine sum_congr rfl fun c hc => sum_congr rfl fun d hd => ?_
  have hc' := mem_range.1 hc
  rw [m4 c hc' a ha b hb d (mem_range.1 hd)]
  have e1 : (d * n + c) % n = c := by rw [Nat.mul_comm, Nat.mul_add_mod, Nat.mod_eq_of_lt hc']
  have e2 : (d * n + c) / n = d := by rw [Nat.mul_comm, Nat.mul_add_div (by omega), Nat.div_eq_of_lt hc', Nat.add_zero]
  rw [e1, e2]

theorem kExact_ok (n : Nat) (T R : ℕ → ℕ → ℕ → ℕ → ℝ) :
    ∃ K, kExact (tmat n T 0 0) (tmat n T 0 1) (tmat n T 1 0) (tmat n T 1 1) n (quadOf n R) = .ok K ∧ MIs n n K (exch n T R) := by
  obtain ⟨v1, a1, b1, c1⟩ := kexStep_ok n (T 0 0) (R 0 0) (Vect.zero (n * n)) rfl
  obtain ⟨v2, a2, b2, c2⟩ := kexStep_ok n (T 0 1) (R 0 1) v1 b1
  obtain ⟨v3, a3, b3, c3⟩ := kexStep_ok n (T 1 0) (R 1 0) v2 b2
  obtain ⟨v4, a4, b4, c4⟩ := kexStep_ok n (T 1 1) (R 1 1) v3 b3
  refine ⟨⟨n, n, fun i j => v4.get (j * n + i)⟩, ?_, rfl, rfl, ?_⟩
  · unfold kExact
    simp only [List.foldlM_cons, List.foldlM_nil, tmat, quadOf]
    rw [a1, Res.ok_bind, a2, Res.ok_bind, a3, Res.ok_bind, a4]
    show unvec v4 n n = _
    unfold unvec
    rw [if_pos (by rw [b4])]
  · intro a ha b hb
    show v4.get (b * n + a) = _
    rw [c4 a ha b hb, c3 a ha b hb, c2 a ha b hb, c1 a ha b hb]
    unfold exch
    rw [sum_terms]
    simp [Vect.zero]

theorem kRi_ok (n : Nat) (B : Mat ℝ) (sg : Vect ℝ) (hB : B.rows = 2 * (n * n)) (hs : sg.size = B.cols) (R : ℕ → ℕ → ℕ → ℕ → ℝ) :
    ∃ K, kRi B sg n (quadOf n R) = .ok K ∧ MIs n n K (exch n (fac (n * n) B.cols B.get sg.get) R) := by
  have hq : QuadIs n n (quadOf n R) R := ⟨⟨rfl, rfl, fun _ _ _ _ => rfl⟩, ⟨rfl, rfl, fun _ _ _ _ => rfl⟩, ⟨rfl, rfl, fun _ _ _ _ => rfl⟩, ⟨rfl, rfl, fun _ _ _ _ => rfl⟩⟩
  obtain ⟨K, k1, k2⟩ := foldlM_rect n n (exVector B sg n (quadOf n R)) _ (List.range B.cols) (Mat.zero n n) (fun _ _ => 0) ⟨rfl, rfl, fun _ _ _ _ => rfl⟩
    (fun p hp M F' hM => exVector_ok B sg n hB _ R hq p (by rw [hs]; exact List.mem_range.1 hp) M F' hM)
  refine ⟨K, k1, k2.congr ?_⟩
  intro a _ b _
  rw [sum_map_range, zero_add]
  unfold exch fac
  simp only [mul_sum, sum_mul]
  rw [sum_comm]
  refine sum_congr rfl fun α _ => ?_
  rw [sum_comm]
  refine sum_congr rfl fun β _ => ?_
  rw [sum_comm]
  refine sum_congr rfl fun c _ => ?_
  rw [sum_comm]
  refine sum_congr rfl fun d _ => sum_congr rfl fun p _ => ?_
  simp only [sgn, Spec.termSign]
  ring

theorem reconW_ok (m : Nat) (B : Mat ℝ) (sg : Vect ℝ) (hB : B.rows = m) (hs : sg.size = B.cols) :
    ∃ W, reconW m B sg = .ok W ∧ MIs m m W (fun i j => ∑ p ∈ range B.cols, sg.get p * (B.get i p * B.get j p)) := by
  obtain ⟨K, k1, k2⟩ := foldlM_rect m m (fun M p => if p < sg.size then M.add ⟨B.rows, B.rows, fun i j => sg.get p * (B.get i p * B.get j p)⟩ else .ub)
    (fun p i j => sg.get p * (B.get i p * B.get j p)) (List.range B.cols) (Mat.zero m m) (fun _ _ => 0) ⟨rfl, rfl, fun _ _ _ _ => rfl⟩
    (fun p hp M F' hM => by
      rw [if_pos (by rw [hs]; exact List.mem_range.1 hp)]
      exact mis_add hM ⟨hB, hB, fun _ _ _ _ => rfl⟩)
  refine ⟨K, k1, k2.congr ?_⟩
  intro i _ j _
  rw [sum_map_range, zero_add]

theorem frob_mis {n m : Nat} {M : Mat ℝ} {G : Nat → Nat → ℝ} (h : MIs n m M G) : frob M = Real.sqrt (∑ i ∈ range n, ∑ j ∈ range m, G i j ^ 2) := by
  unfold frob
  rw [h.1, h.2.1]
  congr 1
  refine sum_congr rfl fun i hi => sum_congr rfl fun j hj => ?_
  rw [h.2.2 i (mem_range.1 hi) j (mem_range.1 hj)]

theorem kernel_val (n : Nat) (T : ℕ → ℕ → ℕ → ℕ → ℝ) (hT : Swap (n * n) T) (W : Mat ℝ)
    (w4 : ∀ i < n * n, ∀ j < n * n, W.get i j = 1 / 2 * (T 0 0 i j + T 0 0 j i) ∧ W.get i (n * n + j) = -T 0 1 i j ∧ W.get (n * n + i) j = -T 0 1 j i ∧
      W.get (n * n + i) (n * n + j) = 1 / 2 * (T 1 1 i j + T 1 1 j i)) :
    ∀ α < 2, ∀ β < 2, ∀ i < n * n, ∀ j < n * n, W.get (α * (n * n) + i) (β * (n * n) + j) = sgn α β * T α β i j := by
  intro α hα β hβ i hi j hj
  have h := w4 i hi j hj
  have s00 := hT 0 (by omega) 0 (by omega) j hj i hi
  have s11 := hT 1 (by omega) 1 (by omega) j hj i hi
  have s01 := hT 0 (by omega) 1 (by omega) j hj i hi
  have ha : α = 0 ∨ α = 1 := by omega
  have hb : β = 0 ∨ β = 1 := by omega
  rcases ha with rfl | rfl <;> rcases hb with rfl | rfl
  · simp only [Nat.zero_mul, Nat.zero_add, sgn, if_true, one_mul]; rw [h.1, s00]; ring
  · simp only [Nat.zero_mul, Nat.zero_add, Nat.one_mul, sgn, zero_ne_one, if_false]; rw [h.2.1]; ring
  · simp only [Nat.zero_mul, Nat.zero_add, Nat.one_mul, sgn, one_ne_zero, if_false]; rw [h.2.2.1, s01]; ring
  · simp only [sgn, if_true, one_mul]; rw [h.2.2.2, s11]; ring

/-- The norms of the self-check are those of the true differences: between the integrals and the factorised ones, and between their exchange matrices. -/
theorem C93_norms (n : Nat) (T : ℕ → ℕ → ℕ → ℕ → ℝ) (hT : Swap (n * n) T) (B : Mat ℝ) (sg : Vect ℝ) (hB : B.rows = 2 * (n * n)) (hs : sg.size = B.cols)
    (R : ℕ → ℕ → ℕ → ℕ → ℝ) :
    norms (tmat n T 0 0) (tmat n T 0 1) (tmat n T 1 0) (tmat n T 1 1) B sg n (quadOf n R) = .ok
      (Real.sqrt (dist2 (n * n) T (fac (n * n) B.cols B.get sg.get)), Real.sqrt (dist2 (n * n) T 0),
        Real.sqrt (∑ a ∈ range n, ∑ b ∈ range n, (exch n T R a b - exch n (fac (n * n) B.cols B.get sg.get) R a b) ^ 2),
        Real.sqrt (∑ a ∈ range n, ∑ b ∈ range n, exch n T R a b ^ 2)) := by
  obtain ⟨W, w1, w2, w3, w4⟩ := kernel_ok (n * n) (T 0 0) (T 0 1) (T 1 1)
  obtain ⟨Wr, r1, r2⟩ := reconW_ok (2 * (n * n)) B sg hB hs
  have hW : MIs (2 * (n * n)) (2 * (n * n)) W W.get := ⟨w2, w3, fun _ _ _ _ => rfl⟩
  obtain ⟨D, d1, d2⟩ := mis_add hW (mis_smul (-1) r2)
  obtain ⟨Ke, e1, e2⟩ := kExact_ok n T R
  obtain ⟨Kr, k1, k2⟩ := kRi_ok n B sg hB hs R
  obtain ⟨E, f1, f2⟩ := mis_add e2 (mis_smul (-1) k2)
  have hWv := kernel_val n T hT W w4
  have hsplit : ∀ G : ℕ → ℕ → ℝ, ∑ i ∈ range (2 * (n * n)), ∑ j ∈ range (2 * (n * n)), G i j =
      ∑ α ∈ range 2, ∑ β ∈ range 2, ∑ i ∈ range (n * n), ∑ j ∈ range (n * n), G (α * (n * n) + i) (β * (n * n) + j) := by
    intro G
    simp only [sum_mul_range 2]
    exact sum_congr rfl fun α _ => sum_comm
  have hsq : ∀ α β : ℕ, sgn α β ^ 2 = 1 := by
    intro α β; unfold sgn; split_ifs <;> norm_num
  unfold norms inElementKernel
  rw [show (tmat n T 0 0).rows = n * n from rfl, show kernel (tmat n T 0 0) (tmat n T 0 1) (tmat n T 1 1) = .ok W from w1, Res.ok_bind, r1, Res.ok_bind, d1, Res.ok_bind,
    e1, Res.ok_bind, k1, Res.ok_bind, f1, Res.ok_bind, frob_mis d2, frob_mis hW, frob_mis e2, frob_mis f2]
  congr 3
  · rw [hsplit]
    unfold dist2 fac
    refine sum_congr rfl fun α hα => sum_congr rfl fun β hβ => sum_congr rfl fun i hi => sum_congr rfl fun j hj => ?_
    rw [hWv α (mem_range.1 hα) β (mem_range.1 hβ) i (mem_range.1 hi) j (mem_range.1 hj)]
    have := hsq α β
    generalize ∑ p ∈ range B.cols, sg.get p * (B.get (α * (n * n) + i) p * B.get (β * (n * n) + j) p) = x
    generalize sgn α β = s at this
    have e : T α β i j - s * x = s * (s * T α β i j + -1 * x) := by linear_combination (-1 * T α β i j) * this
    rw [e, mul_pow, this, one_mul]
  · rw [hsplit]
    unfold dist2
    congr 1
    refine sum_congr rfl fun α hα => sum_congr rfl fun β hβ => sum_congr rfl fun i hi => sum_congr rfl fun j hj => ?_
    rw [hWv α (mem_range.1 hα) β (mem_range.1 hβ) i (mem_range.1 hi) j (mem_range.1 hj), mul_pow, hsq]
    simp
  · congr 2
    refine sum_congr rfl fun a _ => sum_congr rfl fun b _ => ?_
    ring

theorem exch_sub (n : Nat) (T T' R : ℕ → ℕ → ℕ → ℕ → ℝ) (a b : ℕ) : exch n T R a b - exch n T' R a b = exch n (fun α β i j => T α β i j - T' α β i j) R a b := by
  unfold exch
  simp only [← sum_sub_distrib, sub_mul]

/-- The error of the exchange matrix is bounded by the error of the factorised integrals, for all blocks, not only the ones of the check; exact factors give the exact
exchange matrix. -/
theorem C93_bound (n : Nat) (T T' R : ℕ → ℕ → ℕ → ℕ → ℝ) :
    ∑ a ∈ range n, ∑ b ∈ range n, (exch n T R a b - exch n T' R a b) ^ 2 ≤ dist2 (n * n) T T' * size2 n R := by
  have cs : ∀ (a b : ℕ) (D : ℕ → ℕ → ℕ → ℕ → ℝ), exch n D R a b ^ 2 ≤
      (∑ α ∈ range 2, ∑ β ∈ range 2, ∑ c ∈ range n, ∑ d ∈ range n, D α β (a * n + c) (d * n + b) ^ 2) * size2 n R := by
    intro a b D
    have h := sum_mul_sq_le_sq_mul_sq (range 2 ×ˢ range 2 ×ˢ range n ×ˢ range n) (fun x => D x.1 x.2.1 (a * n + x.2.2.1) (x.2.2.2 * n + b)) (fun x => R x.1 x.2.1 x.2.2.1 x.2.2.2)
    simpa only [sum_product, exch, size2] using h
  calc ∑ a ∈ range n, ∑ b ∈ range n, (exch n T R a b - exch n T' R a b) ^ 2
      ≤ ∑ a ∈ range n, ∑ b ∈ range n,
        (∑ α ∈ range 2, ∑ β ∈ range 2, ∑ c ∈ range n, ∑ d ∈ range n, (T α β (a * n + c) (d * n + b) - T' α β (a * n + c) (d * n + b)) ^ 2) * size2 n R := by
        refine sum_le_sum fun a _ => sum_le_sum fun b _ => ?_
        rw [exch_sub]
        exact cs a b _
    _ = dist2 (n * n) T T' * size2 n R := by
        simp only [← sum_mul]
        congr 1
        unfold dist2
        simp only [sum_mul_range]
        rw [sum_congr rfl fun a _ => sum_comm, sum_comm]
        refine sum_congr rfl fun α _ => ?_
        rw [sum_congr rfl fun a _ => sum_congr rfl fun b _ => rfl]
        rw [sum_congr rfl fun a _ => sum_comm, sum_comm]
        refine sum_congr rfl fun β _ => sum_congr rfl fun a _ => ?_
        rw [sum_comm]
        refine sum_congr rfl fun c _ => ?_
        rw [sum_comm]

/-- The two numbers of the self-check: with integrals that are not all zero and a nonzero exchange matrix both are finite and not negative, and if the first is zero so is the second;
the first is zero exactly if the factors give all integrals. -/
theorem C93_check (n : Nat) (T : ℕ → ℕ → ℕ → ℕ → ℝ) (hT : Swap (n * n) T) (B : Mat ℝ) (sg : Vect ℝ) (hB : B.rows = 2 * (n * n)) (hs : sg.size = B.cols) :
    ∃ R x y, testR n = quadOf n R ∧ checkCd (tmat n T 0 0) (tmat n T 0 1) (tmat n T 1 0) (tmat n T 1 1) B sg n = .ok (x, y) ∧
      (dist2 (n * n) T 0 = 0 ↔ x = none) ∧ (∀ k, x = some k → 0 ≤ k ∧
        (k = 0 ↔ ∀ α < 2, ∀ β < 2, ∀ i < n * n, ∀ j < n * n, T α β i j = fac (n * n) B.cols B.get sg.get α β i j)) ∧
      (∀ k e, x = some k → y = some e → 0 ≤ e ∧
        e * Real.sqrt (∑ a ∈ range n, ∑ b ∈ range n, exch n T R a b ^ 2) ≤ k * Real.sqrt (dist2 (n * n) T 0) * Real.sqrt (size2 n R) ∧ (k = 0 → e = 0)) := by
  obtain ⟨R, hR⟩ : ∃ R, testR n = quadOf n R := by
    refine ⟨fun α β i j => if α = 0 then (if β = 0 then (testR n).r00.get i j else (testR n).r02.get i j) else (if β = 0 then (testR n).r20.get i j else (testR n).r22.get i j), ?_⟩
    simp [quadOf, testR]
  have hn := C93_norms n T hT B sg hB hs R
  have hb := C93_bound n T (fac (n * n) B.cols B.get sg.get) R
  set F := fac (n * n) B.cols B.get sg.get with hF
  have d0 : ∀ T', 0 ≤ dist2 (n * n) T T' := fun T' => sum_nonneg fun _ _ => sum_nonneg fun _ _ => sum_nonneg fun _ _ => sum_nonneg fun _ _ => sq_nonneg _
  have s0 : 0 ≤ size2 n R := sum_nonneg fun _ _ => sum_nonneg fun _ _ => sum_nonneg fun _ _ => sum_nonneg fun _ _ => sq_nonneg _
  refine ⟨R, _, _, hR, by unfold checkCd; rw [hR, hn, Res.ok_bind], ?_, ?_, ?_⟩
  · unfold quot
    simp only
    simp only [Real.sqrt_eq_zero (d0 _)]
    by_cases h : dist2 (n * n) T 0 = 0 <;> simp [h]
  · intro k hk
    unfold quot at hk
    simp only at hk
    split_ifs at hk with h
    obtain rfl := Option.some.inj hk
    refine ⟨div_nonneg (Real.sqrt_nonneg _) (Real.sqrt_nonneg _), ?_⟩
    rw [div_eq_zero_iff, or_iff_left h, Real.sqrt_eq_zero (d0 _)]
    constructor
    · intro e α hα β hβ i hi j hj
      unfold dist2 at e
      have e1 := (sum_eq_zero_iff_of_nonneg fun _ _ => sum_nonneg fun _ _ => sum_nonneg fun _ _ => sum_nonneg fun _ _ => sq_nonneg _).1 e α (mem_range.2 hα)
      have e2 := (sum_eq_zero_iff_of_nonneg fun _ _ => sum_nonneg fun _ _ => sum_nonneg fun _ _ => sq_nonneg _).1 e1 β (mem_range.2 hβ)
      have e3 := (sum_eq_zero_iff_of_nonneg fun _ _ => sum_nonneg fun _ _ => sq_nonneg _).1 e2 i (mem_range.2 hi)
      have e4 := (sum_eq_zero_iff_of_nonneg fun _ _ => sq_nonneg _).1 e3 j (mem_range.2 hj)
      exact sub_eq_zero.1 (pow_eq_zero_iff two_ne_zero |>.1 e4)
    · intro e
      refine sum_eq_zero fun α hα => sum_eq_zero fun β hβ => sum_eq_zero fun i hi => sum_eq_zero fun j hj => ?_
      rw [e α (mem_range.1 hα) β (mem_range.1 hβ) i (mem_range.1 hi) j (mem_range.1 hj), sub_self]
      norm_num
  · intro k e hk he
    unfold quot at hk he
    simp only at hk he
    split_ifs at hk with h
    split_ifs at he with h'
    obtain rfl := Option.some.inj hk
    obtain rfl := Option.some.inj he
    have key := Real.sqrt_le_sqrt hb
    rw [Real.sqrt_mul (d0 _)] at key
    refine ⟨div_nonneg (Real.sqrt_nonneg _) (Real.sqrt_nonneg _), ?_, ?_⟩
    · rw [div_mul_cancel₀ _ h', div_mul_cancel₀ _ h]
      exact key
    · intro e0
      rw [div_eq_zero_iff, or_iff_left h] at e0
      rw [e0, zero_mul] at key
      rw [le_antisymm key (Real.sqrt_nonneg _), zero_div]

theorem four_blocks (m : Nat) (M0 M1 M2 M3 : Mat ℝ) (h0 : M0.rows = m ∧ M0.cols = m) (h1 : M1.rows = m ∧ M1.cols = m) (h2 : M2.rows = m ∧ M2.cols = m)
    (h3 : M3.rows = m ∧ M3.cols = m) :
    ∃ K, ((Mat.zero m (4 * m) : Mat ℝ).setBlock 0 (0 * m) m m M0 >>= fun M => M.setBlock 0 (1 * m) m m M1 >>= fun M => M.setBlock 0 (2 * m) m m M2 >>= fun M =>
      M.setBlock 0 (3 * m) m m M3) = .ok K ∧ K.rows = m ∧ K.cols = 4 * m ∧ ∀ i < m, ∀ k < m,
        K.get i (0 * m + k) = M0.get i k ∧ K.get i (1 * m + k) = M1.get i k ∧ K.get i (2 * m + k) = M2.get i k ∧ K.get i (3 * m + k) = M3.get i k := by
  unfold Mat.setBlock Mat.zero
  simp only [h0.1, h0.2, h1.1, h1.2, h2.1, h2.2, h3.1, h3.2]
  rw [if_pos ⟨by omega, by omega, trivial, trivial⟩, Res.ok_bind]
  simp only
  rw [if_pos ⟨by omega, by omega, trivial, trivial⟩, Res.ok_bind]
  simp only
  rw [if_pos ⟨by omega, by omega, trivial, trivial⟩, Res.ok_bind]
  simp only
  rw [if_pos ⟨by omega, by omega, trivial, trivial⟩]
  refine ⟨_, rfl, rfl, rfl, ?_⟩
  intro i hi k hk
  refine ⟨?_, ?_, ?_, ?_⟩
  · dsimp only
    rw [if_neg (by omega), if_neg (by omega), if_neg (by omega), if_pos (by omega)]
    congr 1; omega
  · dsimp only
    rw [if_neg (by omega), if_neg (by omega), if_pos (by omega)]
    congr 1; omega
  · dsimp only
    rw [if_neg (by omega), if_pos (by omega)]
    congr 1; omega
  · dsimp only
    rw [if_pos (by omega)]
    congr 1; omega

/-- The matrix of exchange-ordered integrals, applied to the blocks stacked in the order `00`, `02`, `20`, `22`, gives the exchange matrix. -/
theorem C93_concat (n : Nat) (T R : ℕ → ℕ → ℕ → ℕ → ℝ) :
    ∃ K, kcat (tmat n T 0 0) (tmat n T 0 1) (tmat n T 1 0) (tmat n T 1 1) n = .ok K ∧ K.rows = n * n ∧ K.cols = 4 * (n * n) ∧ ∀ a < n, ∀ b < n,
      ∑ t ∈ range 4, ∑ d ∈ range n, ∑ c ∈ range n, K.get (b * n + a) (t * (n * n) + (d * n + c)) * R (t / 2) (t % 2) c d = exch n T R a b := by
  obtain ⟨M0, a0, b0, c0, d0⟩ := C18_exchange (tmat n T 0 0) n n n n rfl rfl
  obtain ⟨M1, a1, b1, c1, d1⟩ := C18_exchange (tmat n T 0 1) n n n n rfl rfl
  obtain ⟨M2, a2, b2, c2, d2⟩ := C18_exchange (tmat n T 1 0) n n n n rfl rfl
  obtain ⟨M3, a3, b3, c3, d3⟩ := C18_exchange (tmat n T 1 1) n n n n rfl rfl
  obtain ⟨K, k1, k2, k3, k4⟩ := four_blocks (n * n) M0 M1 M2 M3 ⟨b0, c0⟩ ⟨b1, c1⟩ ⟨b2, c2⟩ ⟨b3, c3⟩
  refine ⟨K, ?_, k2, k3, ?_⟩
  · unfold kcat
    rw [a0, Res.ok_bind, a1, Res.ok_bind, a2, Res.ok_bind, a3, Res.ok_bind, b0]
    exact k1
  intro a ha b hb
  have hab := two_le hb ha
  have one : ∀ (t : ℕ) (X : Mat ℝ) (G : ℕ → ℕ → ℝ) (V : ℕ → ℕ → ℝ),
      (∀ i < n, ∀ j < n, ∀ k < n, ∀ l < n, X.get (k * n + j) (l * n + i) = G (j * n + i) (l * n + k)) →
      (∀ k < n * n, K.get (b * n + a) (t * (n * n) + k) = X.get (b * n + a) k) →
      ∑ d ∈ range n, ∑ c ∈ range n, K.get (b * n + a) (t * (n * n) + (d * n + c)) * V c d = ∑ c ∈ range n, ∑ d ∈ range n, G (a * n + c) (d * n + b) * V c d := by
    intro t X G V hX hF
    rw [sum_comm]
    refine sum_congr rfl fun c hc => sum_congr rfl fun d hd => ?_
    rw [hF _ (two_le (mem_range.1 hd) (mem_range.1 hc)), hX c (mem_range.1 hc) a ha b hb d (mem_range.1 hd)]
  unfold exch
  rw [sum_terms, sum_range_succ, sum_range_succ, sum_range_succ, sum_range_succ, sum_range_zero, zero_add,
    one 0 M0 (T 0 0) _ d0 fun k hk => (k4 _ hab k hk).1, one 1 M1 (T 0 1) _ d1 fun k hk => (k4 _ hab k hk).2.1,
    one 2 M2 (T 1 0) _ d2 fun k hk => (k4 _ hab k hk).2.2.1, one 3 M3 (T 1 1) _ d3 fun k hk => (k4 _ hab k hk).2.2.2]

/-- Factors that were computed at a threshold from a kernel without negative directions have the sizes the check needs, and the distance it finds is bounded by the threshold:
every integral is reproduced to `thresh` times a bound of the diagonal. -/
theorem C93_threshold (n : Nat) (hn : 0 < n) (T : ℕ → ℕ → ℕ → ℕ → ℝ) (hT : Swap (n * n) T) (W : Mat ℝ)
    (hW : inElementKernel (tmat n T 0 0) (tmat n T 0 1) (tmat n T 1 1) = .ok W) (hP : Chol.PSD (2 * (n * n)) W.get) (thresh : ℝ) (ht : 0 ≤ thresh) (b : ℝ)
    (hb : ∀ i < n * n, T 0 0 i i ≤ b ∧ T 1 1 i i ≤ b) :
    ∃ B sg, factorise thresh W = .ok (B, sg) ∧ B.rows = 2 * (n * n) ∧ sg.size = B.cols ∧
      (∀ α < 2, ∀ β < 2, ∀ i < n * n, ∀ j < n * n, |T α β i j - fac (n * n) B.cols B.get sg.get α β i j| ≤ thresh * b) ∧
      dist2 (n * n) T (fac (n * n) B.cols B.get sg.get) ≤ (2 * n ^ 2 * (thresh * b)) ^ 2 := by
  obtain ⟨W', w1, w2, w3, w4⟩ := kernel_ok (n * n) (T 0 0) (T 0 1) (T 1 1)
  have hWW : W' = W := by
    have h := w1.symm.trans hW
    injection h
  subst hWW
  have hv := kernel_val n T hT W' w4
  have hm : 0 < n * n := Nat.mul_pos hn hn
  have hdiag : ∀ i < 2 * (n * n), W'.get i i ≤ b := by
    intro i hi
    by_cases h : i < n * n
    · have := hv 0 (by omega) 0 (by omega) i h i h
      simp only [Nat.zero_mul, Nat.zero_add, sgn, if_true, one_mul] at this
      rw [this]; exact (hb i h).1
    · have hi' : i - n * n < n * n := by omega
      have := hv 1 (by omega) 1 (by omega) (i - n * n) hi' (i - n * n) hi'
      rw [show 1 * (n * n) + (i - n * n) = i by omega] at this
      simp only [sgn, if_true, one_mul] at this
      rw [this]; exact (hb _ hi').2
  obtain ⟨_, _, hc⟩ := Chol.C23_signed_psd (2 * (n * n)) (by omega) W'.get hP thresh ht b hdiag
  have hent : ∀ α < 2, ∀ β < 2, ∀ i < n * n, ∀ j < n * n,
      |T α β i j - fac (n * n) (facMat thresh W').cols (facMat thresh W').get (facSig thresh W').get α β i j| ≤ thresh * b := by
    intro α hα β hβ i hi j hj
    have h1 : α * (n * n) + i < 2 * (n * n) := by nlinarith
    have h2 : β * (n * n) + j < 2 * (n * n) := by nlinarith
    have h := hc _ h1 _ h2
    rw [hv α hα β hβ i hi j hj, sum_getD (fun _ => 0, 0)] at h
    unfold fac facMat facSig
    simp only [w2]
    by_cases hab : α = β
    · simpa [sgn, hab] using h
    · simp only [sgn, hab, if_false] at h ⊢
      rw [← abs_neg]
      convert h using 2
      ring
  refine ⟨facMat thresh W', facSig thresh W', factorise_ok _ _ (by rw [w2]; omega), w2, rfl, hent, ?_⟩
  calc dist2 (n * n) T _ ≤ ∑ α ∈ range 2, ∑ β ∈ range 2, ∑ i ∈ range (n * n), ∑ j ∈ range (n * n), (thresh * b) ^ 2 :=
        sum_le_sum fun α hα => sum_le_sum fun β hβ => sum_le_sum fun i hi => sum_le_sum fun j hj =>
          sq_le_sq' (abs_le.1 (hent α (mem_range.1 hα) β (mem_range.1 hβ) i (mem_range.1 hi) j (mem_range.1 hj))).1
            (abs_le.1 (hent α (mem_range.1 hα) β (mem_range.1 hβ) i (mem_range.1 hi) j (mem_range.1 hj))).2
    _ = (2 * n ^ 2 * (thresh * b)) ^ 2 := by
        simp only [sum_const, card_range, nsmul_eq_mul]
        push_cast
        ring

/-- The check of a multipole and an element reads the factors stored for that multipole and element; a multipole that couples no two channels of the basis is an error. -/
theorem C93_lookup (lm : List (Int × Int)) (t : Multipoles) (h : multipoles lm = .ok t) (nel : Nat) (cdB : List (Mat ℝ)) (cdS : List (Vect ℝ))
    (T00 T02 T20 T22 : Mat ℝ) (ni iel : Nat) (L M : Int) :
    ((¬∃ a ∈ lm, ∃ b ∈ lm, ∃ M', Couples a b L M' ∧ |M'| = |M|) → checkCdAt t.lm nel cdB cdS T00 T02 T20 T22 ni iel L M = .throw .logicError) ∧
    ((∃ a ∈ lm, ∃ b ∈ lm, ∃ M', Couples a b L M' ∧ |M'| = |M|) → ∃ k : Nat, t.lm[k]? = some (L, |M|) ∧
      ∀ B sg, cdB[k * nel + iel]? = some B → cdS[k * nel + iel]? = some sg →
        checkCdAt t.lm nel cdB cdS T00 T02 T20 T22 ni iel L M = checkCd T00 T02 T20 T22 B sg ni) := by
  obtain ⟨_, _, h3, h4⟩ := C39_lookup lm t h L M
  unfold checkCdAt
  constructor
  · intro hc; rw [h4 hc]; rfl
  · intro hc
    obtain ⟨k, k1, k2⟩ := h3 hc
    refine ⟨k, k2, fun B sg hB hS => ?_⟩
    rw [k1, Res.ok_bind]
    simp only [readAt, hB, hS, Res.ok_bind]

/-- One function, kernel `((2, 1), (1, 3))` with a factor of rank two: the hypotheses are met and the factors are exact. -/
example : let T : ℕ → ℕ → ℕ → ℕ → ℝ := fun α β _ _ => if α = β then (if α = 0 then 2 else 3) else -1
    let B : Mat ℝ := ⟨2, 2, fun i p => if p = 0 then (if i = 0 then 2 else 1) else (if i = 0 then 0 else 1)⟩
    let sg : Vect ℝ := ⟨2, fun p => if p = 0 then 1 / 2 else 5 / 2⟩
    Swap (1 * 1) T ∧ B.rows = 2 * (1 * 1) ∧ sg.size = B.cols ∧
      (∀ α < 2, ∀ β < 2, ∀ i < 1 * 1, ∀ j < 1 * 1, T α β i j = fac (1 * 1) B.cols B.get sg.get α β i j) ∧ dist2 (1 * 1) T 0 ≠ 0 := by
  intro T B sg
  refine ⟨?_, rfl, rfl, ?_, ?_⟩
  · intro α hα β hβ i _ j _
    have ha : α = 0 ∨ α = 1 := by omega
    have hb : β = 0 ∨ β = 1 := by omega
    rcases ha with rfl | rfl <;> rcases hb with rfl | rfl <;> simp [T]
  · intro α hα β hβ i hi j hj
    have hi' : i = 0 := by omega
    have hj' : j = 0 := by omega
    subst hi' hj'
    have ha : α = 0 ∨ α = 1 := by omega
    have hb : β = 0 ∨ β = 1 := by omega
    rcases ha with rfl | rfl <;> rcases hb with rfl | rfl <;> simp [T, B, sg, fac, sgn, sum_range_succ] <;> norm_num
  · simp [dist2, T, sum_range_succ]
    norm_num

/-- the hypotheses of `C93_threshold` are met by a kernel that couples the two terms -/
example : let T : ℕ → ℕ → ℕ → ℕ → ℝ := fun α β _ _ => if α = β then (if α = 0 then 2 else 3) else -1
    ∃ W, inElementKernel (tmat 1 T 0 0) (tmat 1 T 0 1) (tmat 1 T 1 1) = .ok W ∧ Chol.PSD (2 * (1 * 1)) W.get ∧ W.get 0 1 = 1 ∧ ∀ i < 1 * 1, T 0 0 i i ≤ 3 ∧ T 1 1 i i ≤ 3 := by
  intro T
  obtain ⟨W, w1, w2, w3, w4⟩ := kernel_ok 1 (T 0 0) (T 0 1) (T 1 1)
  obtain ⟨h1, h2, h3, h4⟩ := w4 0 (by omega) 0 (by omega)
  simp only [Nat.add_zero] at h1 h2 h3 h4
  have e1 : W.get 0 0 = 2 := by rw [h1]; simp only [T]; norm_num
  have e2 : W.get 0 1 = 1 := by rw [h2]; simp only [T]; norm_num
  have e3 : W.get 1 0 = 1 := by rw [h3]; simp only [T]; norm_num
  have e4 : W.get 1 1 = 3 := by rw [h4]; simp only [T]; norm_num
  refine ⟨W, w1, ⟨?_, ?_⟩, e2, fun i _ => by simp only [T]; norm_num⟩
  · intro i hi j hj
    have ha : i = 0 ∨ i = 1 := by omega
    have hb : j = 0 ∨ j = 1 := by omega
    rcases ha with rfl | rfl <;> rcases hb with rfl | rfl <;> simp only [e2, e3]
  · intro v
    simp only [sum_range_succ, sum_range_zero, show 2 * (1 * 1) = 2 from rfl, e1, e2, e3, e4]
    nlinarith [sq_nonneg (v 0 + v 1), sq_nonneg (v 0), sq_nonneg (v 1)]

end DiaJK
end HelFEM
