import Verif.Lemmas.Legendre

/-! Lemmas on the deflated shape functions. -/

namespace HelFEM
namespace Poly
open Finset Polynomial Spec

variable {K : Type _} [Field K]

theorem onFirst_mul (len : K) (p q : K[X]) : onFirstElement len (p * q) = onFirstElement len p * onFirstElement len q := by
  simp [onFirstElement]

theorem onFirst_xp1 (len : K) : onFirstElement len (X + 1 : K[X]) = X * C len⁻¹ := by
  simp [onFirstElement]

theorem onFirst_red (len : K) (g : K[X]) :
    onFirstElement len ((X + 1) * g) = X * (C len⁻¹ * onFirstElement len g) := by
  rw [onFirst_mul, onFirst_xp1]; ring

theorem dv_red (len x : K) (hl : len ≠ 0) (g : K[X]) (n : Nat) :
    dv (C len⁻¹ * onFirstElement len g) (len * (x + 1)) n = dv g x n / len ^ (n + 1) := by
  rw [dv_C_mul, dv_onFirst len x hl, pow_succ]
  field_simp

theorem basis_prod (N : Nat) (x0 : Nat → K) (i : Nat) :
    Lagrange.basis (range N) x0 i = ∏ j ∈ range N, if j = i then 1 else Lagrange.basisDivisor (x0 i) (x0 j) := by
  unfold Lagrange.basis
  rw [← Finset.prod_filter_mul_prod_filter_not (range N) (fun j => j = i)]
  have h1 : (∏ j ∈ range N with j = i, if j = i then (1 : K[X]) else Lagrange.basisDivisor (x0 i) (x0 j)) = 1 := by
    apply Finset.prod_eq_one
    intro j hj; rw [mem_filter] at hj; rw [if_pos hj.2]
  rw [h1, one_mul]
  apply Finset.prod_congr
  · ext j; simp only [mem_erase, mem_filter, mem_range]; tauto
  · intro j hj; rw [mem_filter] at hj; rw [if_neg hj.2]

theorem basis_red (N : Nat) (x0 : Nat → K) (i : Nat) (hN : 1 ≤ N) (hi : 1 ≤ i) (h0 : x0 0 = -1) :
    Lagrange.basis (range N) x0 i =
      C (x0 i + 1)⁻¹ * ((X + 1) * Lagrange.basis (range (N - 1)) (fun k => x0 (k + 1)) (i - 1)) := by
  obtain ⟨M, rfl⟩ : ∃ M, N = M + 1 := ⟨N - 1, by omega⟩
  obtain ⟨k, rfl⟩ : ∃ k, i = k + 1 := ⟨i - 1, by omega⟩
  simp only [Nat.add_sub_cancel]
  rw [basis_prod, basis_prod, prod_range_succ']
  simp only [Nat.add_right_cancel_iff]
  rw [if_neg (by omega)]
  simp only [Lagrange.basisDivisor, h0]
  rw [sub_neg_eq_add]
  simp only [map_neg, map_one, sub_neg_eq_add]
  ring

/-- reduced Lagrange function -/
noncomputable def lipRed (N : Nat) (x0 : Nat → K) (i : Nat) : K[X] :=
  C (x0 i + 1)⁻¹ * Lagrange.basis (range (N - 1)) (fun k => x0 (k + 1)) (i - 1)

theorem lipOverR_eq (N : Nat) (x0 : Nat → K) (f : Nat) (x : K) (n : Nat) (hn : n ≤ 20) (len : K) (i : Nat) :
    lipOverR N x0 (some (f + 1)) x n len i = .ok (dv (lipRed N x0 i) x n / len ^ (n + 1)) := by
  unfold lipOverR lipRed
  simp only
  rw [lipPrimDnf_eq _ _ _ _ _ hn, dv_C_mul]
  simp only [Res.pure_eq, Res.ok_bind, Int.toNat_natCast]
  congr 1
  unfold dv
  ring

/-- reduced Hermite function, without the length factor -/
noncomputable def hermRed (f : HermiteFam) (N : Nat) (x0 : Nat → K) (i j : Nat) : K[X] :=
  let L := Lagrange.basis (range N) x0 i
  if i = 0 then L ^ f.m * qtil f j (dv L (x0 i) 1) (dv L (x0 i) 2) (dv L (x0 i) 3) (x0 i)
  else C ((x0 i + 1) ^ f.m)⁻¹ * ((X + 1) ^ (f.m - 1) *
    Lagrange.basis (range (N - 1)) (fun k => x0 (k + 1)) (i - 1) ^ f.m *
      qpoly f j (dv L (x0 i) 1) (dv L (x0 i) 2) (dv L (x0 i) 3) (x0 i))

theorem q_red (f : HermiteFam) (j : Nat) (hj : j ≠ 0) (hjm : j < f.m) (p1 p2 p3 a : K) :
    qpoly f j p1 p2 p3 a = (X - C a) * qtil f j p1 p2 p3 a := by
  unfold qpoly qtil cubic
  have : (qcoef f j p1 p2 p3).1 = 0 := by
    cases f <;> simp only [HermiteFam.m] at hjm <;> interval_cases j <;> simp_all [qcoef]
  simp only [this, map_zero]
  ring

theorem shape_red (f : HermiteFam) (N : Nat) (x0 : Nat → K) (i j : Nat) (hi : i < N) (hj : j < f.m)
    (hij : ¬ (i = 0 ∧ j = 0)) (h0 : x0 0 = -1) : shape f N x0 i j = (X + 1) * hermRed f N x0 i j := by
  unfold shape hermRed
  simp only
  split
  · next h =>
    rw [q_red f j (fun e => hij ⟨h, e⟩) hj, h, h0]
    simp only [map_neg, map_one, sub_neg_eq_add]; ring
  · next h =>
    generalize qpoly f j (dv (Lagrange.basis (range N) x0 i) (x0 i) 1) (dv (Lagrange.basis (range N) x0 i) (x0 i) 2)
      (dv (Lagrange.basis (range N) x0 i) (x0 i) 3) (x0 i) = q
    rw [basis_red N x0 i (by omega) (by omega) h0]
    rw [mul_pow, mul_pow, ← C_pow, inv_pow]
    have : f.m = f.m - 1 + 1 := by cases f <;> rfl
    have h2 : (X + 1 : K[X]) ^ f.m = (X + 1) * (X + 1) ^ (f.m - 1) := by rw [← pow_succ', ← this]
    rw [h2]
    ring

theorem hermiteOverR_eq [CharZero K] (f : HermiteFam) (N : Nat) (x0 : Nat → K) (fst : Nat) (x : K) (n : Nat) (hn : n ≤ 2)
    (len : K) (i j : Nat) (hj : j < f.m) (hij : ¬ (i = 0 ∧ j = 0)) :
    hermiteOverR f N x0 (some (fst + 1)) x n len (f.m * i + j) =
      .ok (dv (hermRed f N x0 i j) x n * len ^ ((j : Int) - 1 - n)) := by
  unfold hermiteOverR
  rw [if_neg (by omega)]
  obtain ⟨h1, h2⟩ := divmod f.m i j hj
  simp only [h1, h2, Int.toNat_natCast, lipxi_eq N x0 _ i (show 1 ≤ 20 by omega), lipxi_eq N x0 _ i (show 2 ≤ 20 by omega),
    lipxi_eq N x0 _ i (show 3 ≤ 20 by omega)]
  congr 2
  unfold hermRed
  simp only
  split
  · next h =>
    rw [caseR0_eq f n j hn hj (fun e => hij ⟨h, e⟩)]
    rw [Option.getD_some, dv_mul, dv_pow]
    apply conv_congr (n := n) _ (fun _ _ => rfl) n (le_refl _)
    apply pow_congr f
    intro k hk
    rw [if_pos hk, h]
    exact lipVal_eq N x0 x k 0 (by omega)
  · next h =>
    rw [caseR1_eq f n j hn hj]
    rw [Option.getD_some, dv_C_mul, dv_mul, dv_fun_mul, dv_pow, div_eq_inv_mul]
    congr 1
    apply conv_congr (n := n) _ (fun _ _ => rfl) n (le_refl _)
    apply conv_congr (fun _ _ => rfl)
    apply pow_congr f
    intro k hk
    rw [if_pos hk]
    exact lipVal_eq (N - 1) (fun k => x0 (k + 1)) x k (i - 1) (by omega)

end Poly
end HelFEM
