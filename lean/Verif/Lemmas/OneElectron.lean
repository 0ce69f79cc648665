import Verif.Spec.OneElectron
import Verif.Lemmas.Couplings

/-!
# Lemmas for C70: assembling radial matrices and angular blocks
-/

namespace HelFEM
namespace OneE

open Polynomial Finset

theorem assemble_get (R : Radial) (kernel : Nat → Res (Mat ℝ)) (K : Nat → Mat ℝ) (hk : ∀ e < R.nel, kernel e = .ok (K e))
    (hr : ∀ e < R.nel, (K e).rows = R.last e + 1 - R.first e) (hc : ∀ e < R.nel, (K e).cols = R.last e + 1 - R.first e)
    (hidx : ∀ e < R.nel, R.first e ≤ R.last e + 1 ∧ R.last e + 1 ≤ R.nbf) :
    ∃ M, R.assemble kernel = .ok M ∧ M.rows = R.nbf ∧ M.cols = R.nbf ∧ ∀ a b, M.get a b =
      ∑ e ∈ range R.nel, if (R.first e ≤ a ∧ a < R.last e + 1) ∧ (R.first e ≤ b ∧ b < R.last e + 1) then (K e).get (a - R.first e) (b - R.first e) else 0 := by
  have key : ∀ n ≤ R.nel, ∃ M, (List.range n).foldlM (fun M e => kernel e >>= fun K => M.addBlock (R.first e) (R.first e) (R.last e + 1 - R.first e) (R.last e + 1 - R.first e) K) (Mat.zero R.nbf R.nbf) = Res.ok M ∧
      M.rows = R.nbf ∧ M.cols = R.nbf ∧ ∀ a b, M.get a b =
      ∑ e ∈ range n, if (R.first e ≤ a ∧ a < R.last e + 1) ∧ (R.first e ≤ b ∧ b < R.last e + 1) then (K e).get (a - R.first e) (b - R.first e) else 0 := by
    intro n
    induction n with
    | zero => exact fun _ => ⟨_, rfl, rfl, rfl, fun a b => rfl⟩
    | succ n ih =>
      intro hn
      obtain ⟨M, h1, h2, h3, h4⟩ := ih (by omega)
      have hi := hidx n (by omega)
      rw [List.range_succ, List.foldlM_append, h1]
      simp only [Res.ok_bind, List.foldlM_cons, List.foldlM_nil, hk n (by omega), Mat.addBlock]
      rw [if_pos ⟨by omega, by omega, hr n (by omega), hc n (by omega)⟩]
      refine ⟨_, rfl, h2, h3, fun a b => ?_⟩
      rw [sum_range_succ, ← h4]
      by_cases hab : (R.first n ≤ a ∧ a < R.last n + 1) ∧ (R.first n ≤ b ∧ b < R.last n + 1)
      · rw [if_pos hab]
        exact if_pos (by omega)
      · rw [if_neg hab, add_zero]
        exact if_neg (by omega)
  exact key R.nel le_rfl

/-- the assembled matrix of element integrals with factors -/
theorem assemble_exact {R : Radial} {φ : Nat → Nat → ℝ[X]} (hF : Spec.Functions R φ) (hE : Spec.Exact R φ) (kernel : Nat → Res (Mat ℝ)) (k k' : Kind) (w : Nat → ℝ → ℝ) (s : Nat → ℝ)
    (hk : ∀ e < R.nel, kernel e = .ok ((R.elem k k' (w e) e).smul (s e))) :
    ∃ M, R.assemble kernel = .ok M ∧ M.rows = R.nbf ∧ M.cols = R.nbf ∧ ∀ a b, M.get a b =
      ∑ e ∈ range R.nel, s e * ∫ r in (R.bnd e)..(R.bnd (e + 1)), Spec.value k (φ e a) r * Spec.value k' (φ e b) r * w e r := by
  obtain ⟨M, h1, h2, h3, h4⟩ := assemble_get R kernel _ hk (fun e he => hE.rows k k' (w e) e he) (fun e he => hE.cols k k' (w e) e he) hF.idx
  refine ⟨M, h1, h2, h3, fun a b => ?_⟩
  rw [h4]
  refine sum_congr rfl fun e he => ?_
  rw [mem_range] at he
  have hz : ∀ k r, Spec.value k 0 r = 0 := by intro k r; cases k <;> simp [Spec.value]
  split_ifs with hab
  · simp only [Mat.smul]
    rw [hE.entry k k' (w e) e he _ (by omega) _ (by omega), show R.first e + (a - R.first e) = a by omega, show R.first e + (b - R.first e) = b by omega]
  · by_cases ha : R.first e ≤ a ∧ a < R.last e + 1
    · rw [hF.outside e he b (by omega)]
      simp [hz]
    · rw [hF.outside e he a (by omega)]
      simp [hz]

theorem assemble_exact' {R : Radial} {φ : Nat → Nat → ℝ[X]} (hF : Spec.Functions R φ) (hE : Spec.Exact R φ) (k k' : Kind) (w : ℝ → ℝ) :
    ∃ M, R.assemble (fun e => .ok (R.elem k k' w e)) = .ok M ∧ M.rows = R.nbf ∧ M.cols = R.nbf ∧ ∀ a b, M.get a b =
      ∑ e ∈ range R.nel, ∫ r in (R.bnd e)..(R.bnd (e + 1)), Spec.value k (φ e a) r * Spec.value k' (φ e b) r * w r := by
  obtain ⟨M, h1, h2, h3, h4⟩ := assemble_exact hF hE (fun e => .ok (R.elem k k' w e)) k k' (fun _ => w) (fun _ => 1) (by
    intro e _
    simp [Mat.smul])
  exact ⟨M, h1, h2, h3, fun a b => by rw [h4]; simp only [one_mul]⟩

/-! ### Blocks -/

/-- entries of a matrix of `n × n'` blocks -/
def ent (n n' : Nat) (V : Mat ℝ) (i a j b : Nat) : ℝ := V.get (i * n + a) (j * n' + b)

theorem blk_inj {n i a i' a' : Nat} (ha : a < n) (ha' : a' < n) (h : i * n + a = i' * n + a') : i = i' ∧ a = a' := by
  have h1 : (i * n + a) / n = i := by rw [Nat.add_div_of_dvd_right (Dvd.intro_left i rfl), Nat.mul_div_cancel _ (by omega), Nat.div_eq_of_lt ha, add_zero]
  have h2 : (i' * n + a') / n = i' := by rw [Nat.add_div_of_dvd_right (Dvd.intro_left i' rfl), Nat.mul_div_cancel _ (by omega), Nat.div_eq_of_lt ha', add_zero]
  have : i = i' := by rw [← h1, ← h2, h]
  subst this
  exact ⟨rfl, by omega⟩

theorem blk_in {n i a i' : Nat} (ha : a < n) : (i' * n ≤ i * n + a ∧ i * n + a < i' * n + n) ↔ i = i' := by
  constructor
  · rintro ⟨h1, h2⟩
    exact (blk_inj (a' := i * n + a - i' * n) ha (by omega) (by omega)).1
  · rintro rfl
    omega

theorem blk_le {n i N : Nat} (hi : i < N) : i * n + n ≤ N * n := by
  calc i * n + n = (i + 1) * n := by ring
    _ ≤ N * n := Nat.mul_le_mul_right n hi

/-- setting one block -/
theorem setBlock_ent {n n' N N' : Nat} {V M : Mat ℝ} (hr : V.rows = N * n) (hc : V.cols = N' * n') (hM : M.rows = n) (hM' : M.cols = n') {i j : Nat} (hi : i < N) (hj : j < N') :
    ∃ V', V.setBlock (i * n) (j * n') n n' M = .ok V' ∧ V'.rows = N * n ∧ V'.cols = N' * n' ∧
      ∀ i' a j' b, a < n → b < n' → ent n n' V' i' a j' b = if i' = i ∧ j' = j then M.get a b else ent n n' V i' a j' b := by
  unfold Mat.setBlock
  have h1 := blk_le (n := n) hi
  have h2 := blk_le (n := n') hj
  rw [if_pos ⟨by omega, by omega, hM, hM'⟩]
  refine ⟨_, rfl, hr, hc, fun i' a j' b ha hb => ?_⟩
  simp only [ent]
  by_cases h : i' = i ∧ j' = j
  · obtain ⟨rfl, rfl⟩ := h
    rw [if_pos ⟨by omega, by omega, by omega, by omega⟩, if_pos ⟨rfl, rfl⟩]
    congr 1 <;> omega
  · rw [if_neg h, if_neg]
    rintro ⟨g1, g2, g3, g4⟩
    exact h ⟨(blk_in ha).1 ⟨g1, g2⟩, (blk_in hb).1 ⟨g3, g4⟩⟩

/-- adding to one block -/
theorem addBlock_ent {n n' N N' : Nat} {V M : Mat ℝ} (hr : V.rows = N * n) (hc : V.cols = N' * n') (hM : M.rows = n) (hM' : M.cols = n') {i j : Nat} (hi : i < N) (hj : j < N') :
    ∃ V', V.addBlock (i * n) (j * n') n n' M = .ok V' ∧ V'.rows = N * n ∧ V'.cols = N' * n' ∧
      ∀ i' a j' b, a < n → b < n' → ent n n' V' i' a j' b = if i' = i ∧ j' = j then ent n n' V i' a j' b + M.get a b else ent n n' V i' a j' b := by
  unfold Mat.addBlock
  have h1 := blk_le (n := n) hi
  have h2 := blk_le (n := n') hj
  rw [if_pos ⟨by omega, by omega, hM, hM'⟩]
  refine ⟨_, rfl, hr, hc, fun i' a j' b ha hb => ?_⟩
  simp only [ent]
  by_cases h : i' = i ∧ j' = j
  · obtain ⟨rfl, rfl⟩ := h
    rw [if_pos ⟨by omega, by omega, by omega, by omega⟩, if_pos ⟨rfl, rfl⟩]
    congr 2 <;> omega
  · rw [if_neg h, if_neg]
    rintro ⟨g1, g2, g3, g4⟩
    exact h ⟨(blk_in ha).1 ⟨g1, g2⟩, (blk_in hb).1 ⟨g3, g4⟩⟩

/-- a loop over distinct blocks, each changed by its own iteration only -/
theorem blocks {n n' N N' : Nat} {ι : Type} (key : ι → Nat × Nat) (step : Mat ℝ → ι → Res (Mat ℝ)) (f : Nat → Nat → ℝ → Nat → Nat → ℝ) (sched : List ι) (hnd : (sched.map key).Nodup)
    (hstep : ∀ x ∈ sched, ∀ V : Mat ℝ, V.rows = N * n → V.cols = N' * n' → ∃ V', step V x = .ok V' ∧ V'.rows = N * n ∧ V'.cols = N' * n' ∧
      ∀ i a j b, a < n → b < n' → ent n n' V' i a j b = if (i, j) = key x then f i j (ent n n' V i a j b) a b else ent n n' V i a j b)
    (V : Mat ℝ) (hr : V.rows = N * n) (hc : V.cols = N' * n') :
    ∃ V', sched.foldlM step V = .ok V' ∧ V'.rows = N * n ∧ V'.cols = N' * n' ∧
      ∀ i a j b, a < n → b < n' → ent n n' V' i a j b = if (i, j) ∈ sched.map key then f i j (ent n n' V i a j b) a b else ent n n' V i a j b := by
  induction sched generalizing V with
  | nil => exact ⟨V, rfl, hr, hc, fun i a j b _ _ => by simp⟩
  | cons x r ih =>
    rw [List.map_cons, List.nodup_cons] at hnd
    obtain ⟨V1, s1, s2, s3, s4⟩ := hstep x (by simp) V hr hc
    obtain ⟨V2, t1, t2, t3, t4⟩ := ih hnd.2 (fun y hy => hstep y (by simp [hy])) V1 s2 s3
    refine ⟨V2, ?_, t2, t3, fun i a j b ha hb => ?_⟩
    · rw [List.foldlM_cons, s1]; exact t1
    · rw [t4 i a j b ha hb, s4 i a j b ha hb, List.map_cons]
      by_cases hx : (i, j) = key x
      · rw [if_pos hx, if_pos (List.mem_cons.2 (Or.inl hx)), if_neg (by rw [hx]; exact hnd.1)]
      · rw [if_neg hx]
        by_cases hr : (i, j) ∈ r.map key
        · rw [if_pos hr, if_pos (List.mem_cons.2 (Or.inr hr))]
        · rw [if_neg hr, if_neg (by rw [List.mem_cons]; rintro (h | h) <;> contradiction)]

theorem zero_ent (n n' N N' i a j b : Nat) : ent n n' (Mat.zero N N') i a j b = 0 := rfl

theorem pairs_nodup (A : Atom) : A.pairs.Nodup := by
  unfold Atom.pairs
  refine List.nodup_flatMap.2 ⟨fun i _ => ?_, ?_⟩
  · exact List.nodup_range.map (fun a b h => by simpa using h)
  · refine List.nodup_range.pairwise_of_forall_ne fun i _ j _ hij => ?_
    intro x hx hy
    rw [List.mem_map] at hx hy
    obtain ⟨_, _, rfl⟩ := hx
    obtain ⟨_, _, h⟩ := hy
    exact hij (Prod.ext_iff.1 h).1.symm

theorem mem_pairs (A : Atom) (i j : Nat) : (i, j) ∈ A.pairs ↔ i < A.nang ∧ j < A.nang := by
  simp [Atom.pairs]

/-- a diagonal matrix of blocks -/
theorem diagonal_ent (A : Atom) (M : Mat ℝ) (hM : M.rows = A.rad.nbf) (hM' : M.cols = A.rad.nbf) :
    ∃ V, A.diagonal M = .ok V ∧ V.rows = A.ndummy ∧ V.cols = A.ndummy ∧
      ∀ i < A.nang, ∀ a < A.rad.nbf, ∀ j < A.nang, ∀ b < A.rad.nbf, V.get (i * A.rad.nbf + a) (j * A.rad.nbf + b) = if i = j then M.get a b else 0 := by
  obtain ⟨V, h1, h2, h3, h4⟩ := blocks (n := A.rad.nbf) (n' := A.rad.nbf) (N := A.nang) (N' := A.nang) (fun i : Nat => (i, i)) (fun V i => A.setSub V i i M)
    (fun _ _ _ a b => M.get a b) (List.range A.nang) (List.nodup_range.map fun a b h => by simpa using h) (by
      intro i hi V hr hc
      rw [List.mem_range] at hi
      obtain ⟨V', s1, s2, s3, s4⟩ := setBlock_ent hr hc hM hM' hi hi
      refine ⟨V', s1, s2, s3, fun i' a j' b ha hb => ?_⟩
      rw [s4 i' a j' b ha hb]
      simp only [Prod.mk.injEq])
    (Mat.zero A.ndummy A.ndummy) rfl rfl
  refine ⟨V, h1, h2, h3, fun i hi a ha j hj b hb => ?_⟩
  have := h4 i a j b ha hb
  rw [ent, zero_ent] at this
  rw [this]
  by_cases hij : i = j
  · subst hij
    rw [if_pos (by simp [hi]), if_pos rfl]
  · rw [if_neg hij, if_neg]
    simp only [List.mem_map, List.mem_range, Prod.mk.injEq]
    rintro ⟨x, _, rfl, rfl⟩
    exact hij rfl

end OneE
end HelFEM
