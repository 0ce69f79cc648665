import Verif.Lemmas.TwoElectron

/-!
# C18: the exchange ordering of two-electron integrals
-/

namespace HelFEM
namespace TwoE
open Finset

variable {K : Type _}

theorem mem_quads (Ni Nj Nk Nl : Nat) (t : Nat × Nat × Nat × Nat) :
    t ∈ quads Ni Nj Nk Nl ↔ t.1 < Ni ∧ t.2.1 < Nj ∧ t.2.2.1 < Nk ∧ t.2.2.2 < Nl := by
  obtain ⟨a, b, c, d⟩ := t
  simp only [quads, List.mem_flatMap, List.mem_range, List.mem_map, Prod.mk.injEq]
  constructor
  · rintro ⟨i, hi, j, hj, k, hk, l, hl, rfl, rfl, rfl, rfl⟩
    exact ⟨hi, hj, hk, hl⟩
  · rintro ⟨h1, h2, h3, h4⟩
    exact ⟨a, h1, b, h2, c, h3, d, h4, rfl, rfl, rfl, rfl⟩

/-- **C18.** `exchange_tei` moves every integral `(ij|kl)`, stored at row `j*Ni+i` and column `l*Nk+k`, to row `k*Nj+j` and
column `l*Ni+i`, for all dimensions. -/
theorem C18_exchange [Zero K] (tei : Mat K) (Ni Nj Nk Nl : Nat) (hr : tei.rows = Ni * Nj) (hc : tei.cols = Nk * Nl) :
    ∃ M, exchangeTei tei Ni Nj Nk Nl = .ok M ∧ M.rows = Nj * Nk ∧ M.cols = Ni * Nl ∧
      ∀ i < Ni, ∀ j < Nj, ∀ k < Nk, ∀ l < Nl, M.get (k * Nj + j) (l * Ni + i) = tei.get (j * Ni + i) (l * Nk + k) := by
  unfold exchangeTei
  rw [if_neg (by simpa using hr), if_neg (by simpa using hc)]
  obtain ⟨M, m1, m2, m3, m4, _⟩ := foldlM_write (Nj * Nk) (Ni * Nl)
    (fun ktei (t : Nat × Nat × Nat × Nat) => do
      let v ← readM tei (t.2.1 * Ni + t.1) (t.2.2.2 * Nk + t.2.2.1)
      writeM ktei (t.2.2.1 * Nj + t.2.1) (t.2.2.2 * Ni + t.1) v)
    (fun t => t.2.2.1 * Nj + t.2.1) (fun t => t.2.2.2 * Ni + t.1) (fun t => tei.get (t.2.1 * Ni + t.1) (t.2.2.2 * Nk + t.2.2.1))
    (quads Ni Nj Nk Nl) (Mat.zero (Nj * Nk) (Ni * Nl)) rfl rfl (by
      intro t ht M _ _
      obtain ⟨h1, h2, h3, h4⟩ := (mem_quads _ _ _ _ _).1 ht
      unfold readM
      rw [if_pos ⟨by rw [hr]; exact pair_lt h2 h1, by rw [hc]; exact pair_lt h4 h3⟩]
      rfl) (by
      intro t ht
      obtain ⟨h1, h2, h3, h4⟩ := (mem_quads _ _ _ _ _).1 ht
      exact ⟨pair_lt h3 h2, pair_lt h4 h1⟩) (by
      intro t ht t' ht' e1 e2
      obtain ⟨h1, h2, h3, h4⟩ := (mem_quads _ _ _ _ _).1 ht
      obtain ⟨g1, g2, g3, g4⟩ := (mem_quads _ _ _ _ _).1 ht'
      obtain ⟨a1, a2⟩ := pair_inj h2 g2 e1
      obtain ⟨a3, a4⟩ := pair_inj h1 g1 e2
      rw [a1, a2, a3, a4])
  refine ⟨M, m1, m2, m3, ?_⟩
  intro i hi j hj k hk l hl
  exact m4 (i, j, k, l) ((mem_quads _ _ _ _ _).2 ⟨hi, hj, hk, hl⟩)

theorem flat_split {n m r : Nat} (h : r < n * m) : ∃ b a, b < n ∧ a < m ∧ r = a * n + b := by
  have hn : 0 < n := Nat.pos_of_ne_zero (by rintro rfl; simp at h)
  refine ⟨r % n, r / n, Nat.mod_lt _ hn, (Nat.div_lt_iff_lt_mul hn).2 (by rwa [Nat.mul_comm] at h), ?_⟩
  rw [Nat.mul_comm]; exact (Nat.div_add_mod r n).symm

/-- **C18.** No integral is lost: the reordering is a cyclic permutation, and three applications (with the dimensions permuted along) restore
the matrix. -/
theorem C18_cycle [Zero K] (tei : Mat K) (Ni Nj Nk Nl : Nat) (hr : tei.rows = Ni * Nj) (hc : tei.cols = Nk * Nl) :
    ∃ M1 M2 M3, exchangeTei tei Ni Nj Nk Nl = .ok M1 ∧ exchangeTei M1 Nj Nk Ni Nl = .ok M2 ∧ exchangeTei M2 Nk Ni Nj Nl = .ok M3 ∧
      M3.Same tei := by
  obtain ⟨M1, a1, a2, a3, a4⟩ := C18_exchange tei Ni Nj Nk Nl hr hc
  obtain ⟨M2, b1, b2, b3, b4⟩ := C18_exchange M1 Nj Nk Ni Nl a2 a3
  obtain ⟨M3, c1, c2, c3, c4⟩ := C18_exchange M2 Nk Ni Nj Nl b2 b3
  refine ⟨M1, M2, M3, a1, b1, c1, by rw [c2, hr], by rw [c3, hc], ?_⟩
  intro r hr' c hc'
  rw [c2] at hr'
  rw [c3] at hc'
  obtain ⟨i, j, hi, hj, rfl⟩ := flat_split hr'
  obtain ⟨k, l, hk, hl, rfl⟩ := flat_split hc'
  rw [c4 k hk i hi j hj l hl, b4 j hj k hk i hi l hl, a4 i hi j hj k hk l hl]

/-- **C18.** It throws `logic_error` exactly when a stated dimension does not match, and never runs out of bounds. -/
theorem C18_throws_iff [Zero K] (tei : Mat K) (Ni Nj Nk Nl : Nat) :
    (exchangeTei tei Ni Nj Nk Nl = .throw .logicError ↔ (tei.rows ≠ Ni * Nj ∨ tei.cols ≠ Nk * Nl)) ∧
    exchangeTei tei Ni Nj Nk Nl ≠ .ub := by
  by_cases hr : tei.rows = Ni * Nj
  · by_cases hc : tei.cols = Nk * Nl
    · obtain ⟨M, m1, _⟩ := C18_exchange tei Ni Nj Nk Nl hr hc
      rw [m1]
      simp [hr, hc]
    · unfold exchangeTei
      rw [if_neg (by simpa using hr), if_pos hc]
      simp [hc]
  · unfold exchangeTei
    rw [if_pos hr]
    simp [hr]

/-- non-vacuity: a rectangular case (2, 1, 3, 1) with distinguishable integrals -/
example : ∃ M, exchangeTei (⟨2, 3, fun i j => (10 * i + j : ℤ)⟩ : Mat ℤ) 2 1 3 1 = .ok M ∧ M.get 2 1 = 12 ∧ M.get 1 0 = 1 := by
  obtain ⟨M, m1, _, _, m4⟩ := C18_exchange (⟨2, 3, fun i j => (10 * i + j : ℤ)⟩ : Mat ℤ) 2 1 3 1 rfl rfl
  exact ⟨M, m1, m4 1 (by omega) 0 (by omega) 2 (by omega) 0 (by omega), m4 0 (by omega) 0 (by omega) 1 (by omega) 0 (by omega)⟩

example : exchangeTei (⟨2, 3, fun _ _ => (0 : ℤ)⟩ : Mat ℤ) 2 2 3 1 = .throw .logicError := rfl

end TwoE
end HelFEM
