import Verif.Lemmas.DiaJKAng

/-! The radial contractions of the diatomic Coulomb and exchange matrices. -/

namespace HelFEM
namespace DiaJK
open Finset Spec TwoE Sym Dia

variable {R : Radial} {ne N : Nat} {first last : Nat → Nat}

/-- the stored integrals of one `(L, |M|)`: `Pm α e`, `Qm α e` between elements, the factor of `W e` inside -/
structure SliceOk (s : Slice) (ne : Nat) (n : Nat → Nat) (Pm Qm : Nat → Nat → Nat → Nat → ℝ) (W : Nat → Nat → Nat → ℝ) : Prop where
  P0 : ∀ e < ne, s.P0 e = .ok ⟨n e, n e, Pm 0 e⟩
  P2 : ∀ e < ne, s.P2 e = .ok ⟨n e, n e, Pm 1 e⟩
  Q0 : ∀ e < ne, s.Q0 e = .ok ⟨n e, n e, Qm 0 e⟩
  Q2 : ∀ e < ne, s.Q2 e = .ok ⟨n e, n e, Qm 1 e⟩
  symP : ∀ α < 2, ∀ e < ne, ∀ a < n e, ∀ b < n e, Pm α e a b = Pm α e b a
  symQ : ∀ α < 2, ∀ e < ne, ∀ a < n e, ∀ b < n e, Qm α e a b = Qm α e b a
  factor : ∀ e < ne, ∃ B sg, s.B e = .ok B ∧ s.sigma e = .ok sg ∧ B.rows = 2 * (n e * n e) ∧ sg.size = B.cols ∧
    ∀ i < 2 * (n e * n e), ∀ j < 2 * (n e * n e), W e i j = ∑ p ∈ range B.cols, sg.get p * (B.get i p * B.get j p)

/-- the in-element integrals that the factor stands for -/
def teiOf (n : Nat → Nat) (W : Nat → Nat → Nat → ℝ) (α β e i j : Nat) : ℝ := termSign α β * W e (α * (n e * n e) + i) (β * (n e * n e) + j)

/-- the four-index integrals of terms `α`, `β` -/
noncomputable def fourOf (ne : Nat) (first last : Nat → Nat) (Pm Qm : Nat → Nat → Nat → Nat → ℝ) (W : Nat → Nat → Nat → ℝ) (α β : Nat) : Nat → Nat → Nat → Nat → ℝ :=
  fourIndex ne first last (neumannBlk (cnt first last) Pm Qm (teiOf (cnt first last) W) α β)

/-- loops over pairs of matrices -/
theorem foldlM_acc2 {ι : Type _} (N N' : Nat) (body : Mat ℝ × Mat ℝ → ι → Res (Mat ℝ × Mat ℝ)) (c : ι → Nat → Nat → Nat → ℝ) :
    ∀ (l : List ι) (M : Mat ℝ × Mat ℝ), (M.1.rows = N ∧ M.1.cols = N' ∧ M.2.rows = N ∧ M.2.cols = N') →
      (∀ e ∈ l, ∀ M : Mat ℝ × Mat ℝ, (M.1.rows = N ∧ M.1.cols = N' ∧ M.2.rows = N ∧ M.2.cols = N') →
        ∃ M', body M e = .ok M' ∧ (M'.1.rows = N ∧ M'.1.cols = N' ∧ M'.2.rows = N ∧ M'.2.cols = N') ∧
          ∀ i j, M'.1.get i j = M.1.get i j + c e 0 i j ∧ M'.2.get i j = M.2.get i j + c e 1 i j) →
      ∃ M', l.foldlM body M = .ok M' ∧ (M'.1.rows = N ∧ M'.1.cols = N' ∧ M'.2.rows = N ∧ M'.2.cols = N') ∧
        ∀ i j, M'.1.get i j = M.1.get i j + (l.map fun e => c e 0 i j).sum ∧ M'.2.get i j = M.2.get i j + (l.map fun e => c e 1 i j).sum := by
  intro l
  induction l with
  | nil => intro M h _; exact ⟨M, rfl, h, by simp⟩
  | cons e l ih =>
    intro M h0 h
    obtain ⟨M1, a1, a2, a3⟩ := h e (by simp) M h0
    obtain ⟨M2, b1, b2, b3⟩ := ih M1 a2 (fun e' he' => h e' (by simp [he']))
    refine ⟨M2, by rw [List.foldlM_cons, a1]; exact b1, b2, ?_⟩
    intro i j
    rw [(b3 i j).1, (b3 i j).2, (a3 i j).1, (a3 i j).2, List.map_cons, List.sum_cons, List.map_cons, List.sum_cons, add_assoc, add_assoc]
    exact ⟨rfl, rfl⟩

/-- the density block of a term, contracted with the element integrals -/
def mom (n first : Nat → Nat) (A : Nat → Nat → Nat → ℝ) (X : Nat → Nat → ℝ) (e : Nat) : ℝ :=
  ∑ c ∈ range (n e), ∑ d ∈ range (n e), A e c d * X (first e + c) (first e + d)

theorem momentOf_ok (n first : Nat → Nat) (A : Nat → Nat → Nat → ℝ) (e : Nat) (hA : ∀ a < n e, ∀ b < n e, A e a b = A e b a) (fac : ℝ) (X : Nat → Nat → ℝ)
    (rA : Res (Mat ℝ)) (hr : rA = .ok ⟨n e, n e, A e⟩) :
    momentOf fac rA ⟨n e, n e, fun a b => X (first e + a) (first e + b)⟩ = .ok (fac * mom n first A X e) := by
  subst hr
  unfold momentOf
  rw [Res.ok_bind, show (⟨n e, n e, A e⟩ : Mat ℝ).mul ⟨n e, n e, fun a b => X (first e + a) (first e + b)⟩ =
    .ok ⟨n e, n e, fun i j => ∑ k ∈ range (n e), A e i k * X (first e + k) (first e + j)⟩ from if_pos rfl, Res.ok_bind]
  congr 2
  unfold trace mom
  simp only
  rw [sum_comm]
  apply sum_congr rfl; intro c hc
  apply sum_congr rfl; intro d hd
  rw [hA d (mem_range.1 hd) c (mem_range.1 hc)]

theorem inElement_ok {s : Slice} {n first : Nat → Nat} {Pm Qm : Nat → Nat → Nat → Nat → ℝ} {W : Nat → Nat → Nat → ℝ} (hs : SliceOk s ne n Pm Qm W) (fac : ℝ) (e : Nat)
    (he : e < ne) (X : Nat → Nat → Nat → ℝ) :
    ∃ S, inElement s fac e (n e) ⟨n e, n e, fun a b => X 0 (first e + a) (first e + b)⟩ ⟨n e, n e, fun a b => X 1 (first e + a) (first e + b)⟩ = .ok S ∧
      S.1.rows = n e ∧ S.1.cols = n e ∧ S.2.rows = n e ∧ S.2.cols = n e ∧ ∀ a < n e, ∀ b < n e,
        S.1.get a b = fac * ∑ β ∈ range 2, termSign 0 β * ∑ c ∈ range (n e), ∑ d ∈ range (n e), teiOf n W 0 β e (b * n e + a) (d * n e + c) * X β (first e + c) (first e + d) ∧
        S.2.get a b = fac * ∑ β ∈ range 2, termSign 1 β * ∑ c ∈ range (n e), ∑ d ∈ range (n e), teiOf n W 1 β e (b * n e + a) (d * n e + c) * X β (first e + c) (first e + d) := by
  obtain ⟨B, sg, b1, b2, b3, b4, b5⟩ := hs.factor e he
  obtain ⟨m, hm⟩ : ∃ m, m = n e * n e := ⟨_, rfl⟩
  rw [← hm] at b3 b5
  obtain ⟨v, hv⟩ : ∃ v : Vect ℝ, v = stack (vec ⟨n e, n e, fun a b => X 0 (first e + a) (first e + b)⟩) (vec ⟨n e, n e, fun a b => X 1 (first e + a) (first e + b)⟩) := ⟨_, rfl⟩
  have hvs : v.size = 2 * m := by rw [hv, hm, two_mul]; rfl
  -- value of the contraction
  have key : ∀ i < 2 * m, (∑ p ∈ range B.cols, B.get i p * ((∑ k ∈ range (2 * m), B.get k p * v.get k) * sg.get p)) = ∑ k ∈ range (2 * m), W e i k * v.get k := by
    intro i hi
    simp only [sum_mul, mul_sum]
    rw [sum_comm]
    apply sum_congr rfl; intro k hk
    rw [b5 i hi k (mem_range.1 hk), sum_mul]
    apply sum_congr rfl; intro p _
    ring
  have split : ∀ i, ∑ k ∈ range (2 * m), W e i k * v.get k = ∑ β ∈ range 2, ∑ c ∈ range (n e), ∑ d ∈ range (n e),
      W e i (β * m + (d * n e + c)) * X β (first e + c) (first e + d) := by
    intro i
    rw [two_mul, sum_range_add, sum_range_succ, sum_range_one]
    congr 1
    · have := sum_flat (n e) (n e) (fun c d => W e i (0 * m + (d * n e + c)) * X 0 (first e + c) (first e + d))
      rw [sum_comm] at this
      rw [← this, ← hm]
      apply sum_congr rfl; intro k hk
      have hk := mem_range.1 hk
      rw [show 0 * m + (k / n e * n e + k % n e) = k by rw [Nat.mul_comm (k / n e), Nat.div_add_mod]; omega]
      have e1 : (vec (⟨n e, n e, fun a b => X 0 (first e + a) (first e + b)⟩ : Mat ℝ)).size = m := hm.symm
      rw [hv]
      unfold stack
      simp only
      rw [e1, if_pos hk]
      rfl
    · have := sum_flat (n e) (n e) (fun c d => W e i (1 * m + (d * n e + c)) * X 1 (first e + c) (first e + d))
      rw [sum_comm] at this
      rw [← this, ← hm]
      apply sum_congr rfl; intro k hk
      have hk := mem_range.1 hk
      rw [show 1 * m + (k / n e * n e + k % n e) = m + k by rw [Nat.mul_comm (k / n e), Nat.div_add_mod]; omega]
      have e1 : (vec (⟨n e, n e, fun a b => X 0 (first e + a) (first e + b)⟩ : Mat ℝ)).size = m := hm.symm
      rw [hv]
      unfold stack
      simp only
      rw [e1, if_neg (by omega), show m + k - m = k by omega]
      rfl
  unfold inElement
  rw [b1, Res.ok_bind, b2, Res.ok_bind, ← hv,
    show mulVec B.transpose v = .ok ⟨B.cols, fun i => ∑ k ∈ range B.rows, B.get k i * v.get k⟩ from if_pos (by rw [hvs]; exact b3), Res.ok_bind,
    show hadamard ⟨B.cols, fun i => ∑ k ∈ range B.rows, B.get k i * v.get k⟩ sg = .ok ⟨B.cols, fun i => (∑ k ∈ range B.rows, B.get k i * v.get k) * sg.get i⟩ from if_pos b4.symm,
    Res.ok_bind, show mulVec B ⟨B.cols, fun i => (∑ k ∈ range B.rows, B.get k i * v.get k) * sg.get i⟩ =
      .ok ⟨B.rows, fun i => ∑ p ∈ range B.cols, B.get i p * ((∑ k ∈ range B.rows, B.get k p * v.get k) * sg.get p)⟩ from if_pos rfl, Res.ok_bind]
  simp only [b3]
  rw [← hm]
  unfold head tail
  simp only
  rw [if_pos (by omega), Res.ok_bind, if_pos (by omega), Res.ok_bind]
  unfold unvec
  simp only
  rw [if_pos (by omega), Res.ok_bind, if_pos (by omega), Res.ok_bind]
  refine ⟨_, rfl, rfl, rfl, rfl, rfl, ?_⟩
  intro a ha b hb
  have hab : b * n e + a < m := by rw [hm]; exact pair_lt hb ha
  simp only
  constructor
  · rw [key _ (by omega), split]
    congr 1
    apply sum_congr rfl; intro β _
    rw [mul_sum]
    apply sum_congr rfl; intro c _
    rw [mul_sum]
    apply sum_congr rfl; intro d _
    unfold teiOf
    rw [← hm, Nat.zero_mul, Nat.zero_add]
    unfold termSign
    split_ifs <;> ring
  · rw [show 2 * m - m + (b * n e + a) = 1 * m + (b * n e + a) by omega, key _ (by omega), split]
    congr 1
    apply sum_congr rfl; intro β _
    rw [mul_sum]
    apply sum_congr rfl; intro c _
    rw [mul_sum]
    apply sum_congr rfl; intro d _
    unfold teiOf
    rw [← hm]
    unfold termSign
    split_ifs <;> ring

/-- what one input element adds to the Coulomb matrix of term `α` -/
noncomputable def jelAdds (ne : Nat) (first last : Nat → Nat) (Pm Qm : Nat → Nat → Nat → Nat → ℝ) (W : Nat → Nat → Nat → ℝ) (fac : ℝ) (X : Nat → Nat → Nat → ℝ)
    (e2 α i j : Nat) : ℝ :=
  ∑ e1 ∈ range ne, fac * ∑ β ∈ range 2, termSign α β * at_ (first e1) (cnt first last e1) (first e1) (cnt first last e1) (fun a b =>
    ∑ c ∈ range (cnt first last e2), ∑ d ∈ range (cnt first last e2),
      neumannBlk (cnt first last) Pm Qm (teiOf (cnt first last) W) α β e1 e2 a b c d * X β (first e2 + c) (first e2 + d)) i j

theorem at_smul (f n f' n' : Nat) (s : ℝ) (B : Nat → Nat → ℝ) (i j : Nat) : s * at_ f n f' n' B i j = at_ f n f' n' (fun a b => s * B a b) i j := by
  unfold at_
  split_ifs
  · rfl
  · rw [mul_zero]

theorem jelStep_ok (h : Layout R ne N first last) {s : Slice} {Pm Qm : Nat → Nat → Nat → Nat → ℝ} {W : Nat → Nat → Nat → ℝ}
    (hs : SliceOk s ne (cnt first last) Pm Qm W) (fac : ℝ) (X0 X2 : Mat ℝ) (x1 : X0.rows = N ∧ X0.cols = N) (x2 : X2.rows = N ∧ X2.cols = N)
    (J : Mat ℝ × Mat ℝ) (hJ : J.1.rows = N ∧ J.1.cols = N ∧ J.2.rows = N ∧ J.2.cols = N) (e2 : Nat) (he2 : e2 < ne) :
    ∃ J', jelStep R s fac X0 X2 J e2 = .ok J' ∧ (J'.1.rows = N ∧ J'.1.cols = N ∧ J'.2.rows = N ∧ J'.2.cols = N) ∧
      ∀ i j, J'.1.get i j = J.1.get i j + jelAdds ne first last Pm Qm W fac (fun β => if β = 0 then X0.get else X2.get) e2 0 i j ∧
        J'.2.get i j = J.2.get i j + jelAdds ne first last Pm Qm W fac (fun β => if β = 0 then X0.get else X2.get) e2 1 i j := by
  obtain ⟨X, hX⟩ : ∃ X : Nat → Nat → Nat → ℝ, X = fun β => if β = 0 then X0.get else X2.get := ⟨_, rfl⟩
  have hX0 : X 0 = X0.get := by rw [hX]; rfl
  have hX1 : X 1 = X2.get := by rw [hX]; rfl
  rw [← hX]
  obtain ⟨n, hn⟩ : ∃ n, n = cnt first last := ⟨_, rfl⟩
  have hf := h.fits e2 he2
  rw [← hn] at hf hs
  have hblk : ∀ (Y : Mat ℝ), Y.rows = N → Y.cols = N → Y.block (first e2) (first e2) (n e2) (n e2) = .ok ⟨n e2, n e2, fun a b => Y.get (first e2 + a) (first e2 + b)⟩ :=
    fun Y y1 y2 => block_ok Y N y1 y2 _ _ _ _ hf hf
  obtain ⟨S, s1, s2, s3, s4, s5, s6⟩ := inElement_ok (first := first) hs fac e2 he2 X
  have mP0 := momentOf_ok n first (Pm 0) e2 (hs.symP 0 (by omega) e2 he2) fac (X 0) _ (hs.P0 e2 he2)
  have mQ0 := momentOf_ok n first (Qm 0) e2 (hs.symQ 0 (by omega) e2 he2) fac (X 0) _ (hs.Q0 e2 he2)
  have mP2 := momentOf_ok n first (Pm 1) e2 (hs.symP 1 (by omega) e2 he2) fac (X 1) _ (hs.P2 e2 he2)
  have mQ2 := momentOf_ok n first (Qm 1) e2 (hs.symQ 1 (by omega) e2 he2) fac (X 1) _ (hs.Q2 e2 he2)
  have aS : ∀ (sc : ℝ) (A : Nat → Res (Mat ℝ)) (Am : Nat → Nat → Nat → ℝ) (hA : ∀ e < ne, A e = .ok ⟨n e, n e, Am e⟩) (l : List Nat) (hl : ∀ e ∈ l, e < ne) (Y : Mat ℝ)
      (y1 : Y.rows = N) (y2 : Y.cols = N), ∃ Y', addScaled R sc A l Y = .ok Y' ∧ Y'.rows = N ∧ Y'.cols = N ∧ ∀ i j, Y'.get i j = Y.get i j +
        (l.map fun e => at_ (first e) (n e) (first e) (n e) (fun a b => sc * Am e a b) i j).sum := by
    intro sc A Am hA l hl Y y1 y2
    have := addScaled_ok h sc A (fun e => ⟨n e, n e, Am e⟩) l (fun e he => ⟨hl e he, hA e (hl e he), by rw [hn], by rw [hn]⟩) Y y1 y2
    rw [← hn] at this
    exact this
  have hlo : ∀ e ∈ List.range e2, e < ne := fun e he => by have := List.mem_range.1 he; omega
  have hhi : ∀ e ∈ List.range' (e2 + 1) (ne - (e2 + 1)), e < ne := fun e he => by have := List.mem_range'_1.1 he; omega
  obtain ⟨A0, p1, p2, p3, p4⟩ := aS (fac * mom n first (Qm 0) (X 0) e2 - fac * mom n first (Qm 1) (X 1) e2) s.P0 (Pm 0) hs.P0 (List.range e2) hlo J.1 hJ.1 hJ.2.1
  obtain ⟨A2, q1, q2, q3, q4⟩ := aS (-(fac * mom n first (Qm 0) (X 0) e2) + fac * mom n first (Qm 1) (X 1) e2) s.P2 (Pm 1) hs.P2 (List.range e2) hlo J.2 hJ.2.2.1 hJ.2.2.2
  obtain ⟨B0, u1, u2, u3, u4⟩ := aS (fac * mom n first (Pm 0) (X 0) e2 - fac * mom n first (Pm 1) (X 1) e2) s.Q0 (Qm 0) hs.Q0 (List.range' (e2 + 1) (ne - (e2 + 1))) hhi A0 p2 p3
  obtain ⟨B2, v1, v2, v3, v4⟩ := aS (-(fac * mom n first (Pm 0) (X 0) e2) + fac * mom n first (Pm 1) (X 1) e2) s.Q2 (Qm 1) hs.Q2 (List.range' (e2 + 1) (ne - (e2 + 1))) hhi A2 q2 q3
  obtain ⟨C0, w1, w2, w3, w4⟩ := addBlock_ok B0 N u2 u3 (first e2) (first e2) (n e2) (n e2) S.1 s2 s3 hf hf
  obtain ⟨C2, z1, z2, z3, z4⟩ := addBlock_ok B2 N v2 v3 (first e2) (first e2) (n e2) (n e2) S.2 s4 s5 hf hf
  rw [hX0] at mP0 mQ0 
  rw [hX1] at mP2 mQ2
  rw [hX0, hX1] at p1 q1 u1 v1 s1
  refine ⟨(C0, C2), ?_, ⟨w2, w3, z2, z3⟩, ?_⟩
  · unfold jelStep
    have hr := h.range e2 he2
    rw [← hn] at hr
    rw [hr, Res.ok_bind]
    simp only
    rw [hblk X0 x1.1 x1.2, Res.ok_bind, hblk X2 x2.1 x2.2, Res.ok_bind, mP0, Res.ok_bind, mQ0, Res.ok_bind, mP2, Res.ok_bind, mQ2, Res.ok_bind, p1, Res.ok_bind, q1, Res.ok_bind,
      h.nel, u1, Res.ok_bind, v1, Res.ok_bind, s1, Res.ok_bind, w1, Res.ok_bind, z1, Res.ok_bind]
  -- sums over the other elements
  have lo : ∀ α < 2, ∀ e1, e1 < e2 → ∀ i j, at_ (first e1) (n e1) (first e1) (n e1) (fun a b => (fac * ∑ β ∈ range 2, termSign α β * mom n first (Qm β) (X β) e2) * Pm α e1 a b) i j =
      fac * ∑ β ∈ range 2, termSign α β * at_ (first e1) (n e1) (first e1) (n e1) (fun a b => ∑ c ∈ range (n e2), ∑ d ∈ range (n e2),
        neumannBlk n Pm Qm (teiOf n W) α β e1 e2 a b c d * X β (first e2 + c) (first e2 + d)) i j := by
    intro α _ e1 he i j
    simp only [at_smul]
    rw [at_sum, at_smul]
    apply at_congr; intro a _ b _
    rw [mul_assoc, sum_mul]
    congr 1
    apply sum_congr rfl; intro β _
    rw [mul_assoc]
    congr 1
    unfold mom
    rw [sum_mul]
    apply sum_congr rfl; intro c _
    rw [sum_mul]
    apply sum_congr rfl; intro d _
    unfold neumannBlk
    rw [if_neg (by omega), if_pos he]; ring
  have hi : ∀ α < 2, ∀ e1, e2 < e1 → ∀ i j, at_ (first e1) (n e1) (first e1) (n e1) (fun a b => (fac * ∑ β ∈ range 2, termSign α β * mom n first (Pm β) (X β) e2) * Qm α e1 a b) i j =
      fac * ∑ β ∈ range 2, termSign α β * at_ (first e1) (n e1) (first e1) (n e1) (fun a b => ∑ c ∈ range (n e2), ∑ d ∈ range (n e2),
        neumannBlk n Pm Qm (teiOf n W) α β e1 e2 a b c d * X β (first e2 + c) (first e2 + d)) i j := by
    intro α _ e1 he i j
    simp only [at_smul]
    rw [at_sum, at_smul]
    apply at_congr; intro a _ b _
    rw [mul_assoc, sum_mul]
    congr 1
    apply sum_congr rfl; intro β _
    rw [mul_assoc]
    congr 1
    unfold mom
    rw [sum_mul]
    apply sum_congr rfl; intro c _
    rw [sum_mul]
    apply sum_congr rfl; intro d _
    unfold neumannBlk
    rw [if_neg (by omega), if_neg (by omega)]; ring
  have same : ∀ α < 2, ∀ (Y : Nat → Nat → ℝ), (∀ a < n e2, ∀ b < n e2, Y a b = fac * ∑ β ∈ range 2, termSign α β * ∑ c ∈ range (n e2), ∑ d ∈ range (n e2),
      teiOf n W α β e2 (b * n e2 + a) (d * n e2 + c) * X β (first e2 + c) (first e2 + d)) → ∀ i j, at_ (first e2) (n e2) (first e2) (n e2) Y i j =
      fac * ∑ β ∈ range 2, termSign α β * at_ (first e2) (n e2) (first e2) (n e2) (fun a b => ∑ c ∈ range (n e2), ∑ d ∈ range (n e2),
        neumannBlk n Pm Qm (teiOf n W) α β e2 e2 a b c d * X β (first e2 + c) (first e2 + d)) i j := by
    intro α _ Y hY i j
    simp only [at_smul]
    rw [at_sum, at_smul]
    apply at_congr; intro a ha b hb
    rw [hY a ha b hb]
    congr 1
    apply sum_congr rfl; intro β _
    congr 1
    apply sum_congr rfl; intro c _
    apply sum_congr rfl; intro d _
    unfold neumannBlk
    rw [if_pos rfl]
  have comb : ∀ (f : Nat → ℝ), ∑ e1 ∈ range ne, f e1 = ∑ e1 ∈ range e2, f e1 + ∑ e1 ∈ Ico (e2 + 1) ne, f e1 + f e2 := by
    intro f
    rw [range_eq_Ico, ← sum_Ico_consecutive _ (Nat.zero_le e2) he2.le, sum_eq_sum_Ico_succ_bot he2, ← range_eq_Ico]
    ring
  have sgn : ∀ A : Nat → Nat → Nat → Nat → ℝ, (fac * ∑ β ∈ range 2, termSign 0 β * mom n first (A β) (X β) e2 = fac * mom n first (A 0) (X 0) e2 - fac * mom n first (A 1) (X 1) e2) ∧
      fac * ∑ β ∈ range 2, termSign 1 β * mom n first (A β) (X β) e2 = -(fac * mom n first (A 0) (X 0) e2) + fac * mom n first (A 1) (X 1) e2 := by
    intro A
    simp only [sum_range_succ, sum_range_zero, termSign]
    norm_num
    constructor <;> ring
  intro i j
  constructor
  · simp only
    rw [w4, u4, p4, add_assoc, add_assoc]
    congr 1
    unfold jelAdds
    rw [← hn, comb, sum_map_range, sum_map_range', show e2 + 1 + (ne - (e2 + 1)) = ne by omega, same 0 (by omega) S.1.get (fun a ha b hb => (s6 a ha b hb).1) i j, ← add_assoc]
    congr 2
    · apply sum_congr rfl; intro e1 he1
      rw [← lo 0 (by omega) e1 (mem_range.1 he1), (sgn Qm).1]
    · apply sum_congr rfl; intro e1 he1
      have := mem_Ico.1 he1
      rw [← hi 0 (by omega) e1 (by omega), (sgn Pm).1]
  · simp only
    rw [z4, v4, q4, add_assoc, add_assoc]
    congr 1
    unfold jelAdds
    rw [← hn, comb, sum_map_range, sum_map_range', show e2 + 1 + (ne - (e2 + 1)) = ne by omega, same 1 (by omega) S.2.get (fun a ha b hb => (s6 a ha b hb).2) i j, ← add_assoc]
    congr 2
    · apply sum_congr rfl; intro e1 he1
      rw [← lo 1 (by omega) e1 (mem_range.1 he1), (sgn Qm).2]
    · apply sum_congr rfl; intro e1 he1
      have := mem_Ico.1 he1
      rw [← hi 1 (by omega) e1 (by omega), (sgn Pm).2]

/-- the radial contraction of `coulomb` for one `(L, M)` -/
theorem jelLoop_ok (h : Layout R ne N first last) {s : Slice} {Pm Qm : Nat → Nat → Nat → Nat → ℝ} {W : Nat → Nat → Nat → ℝ}
    (hs : SliceOk s ne (cnt first last) Pm Qm W) (fac : ℝ) (X0 X2 : Mat ℝ) (x1 : X0.rows = N ∧ X0.cols = N) (x2 : X2.rows = N ∧ X2.cols = N)
    (J : Mat ℝ × Mat ℝ) (hJ : J.1.rows = N ∧ J.1.cols = N ∧ J.2.rows = N ∧ J.2.cols = N) :
    ∃ J', (List.range R.nel).foldlM (jelStep R s fac X0 X2) J = .ok J' ∧ (J'.1.rows = N ∧ J'.1.cols = N ∧ J'.2.rows = N ∧ J'.2.cols = N) ∧
      ∀ i j, J'.1.get i j = J.1.get i j + fac * ∑ β ∈ range 2, termSign 0 β * Spec.coulomb N (fourOf ne first last Pm Qm W 0 β) (if β = 0 then X0.get else X2.get) i j ∧
        J'.2.get i j = J.2.get i j + fac * ∑ β ∈ range 2, termSign 1 β * Spec.coulomb N (fourOf ne first last Pm Qm W 1 β) (if β = 0 then X0.get else X2.get) i j := by
  obtain ⟨J', a1, a2, a3⟩ := foldlM_acc2 N N (jelStep R s fac X0 X2) (jelAdds ne first last Pm Qm W fac (fun β => if β = 0 then X0.get else X2.get)) (List.range ne) J hJ
    (fun e he M hM => jelStep_ok h hs fac X0 X2 x1 x2 M hM e (List.mem_range.1 he))
  have key : ∀ α i j, ((List.range ne).map fun e => jelAdds ne first last Pm Qm W fac (fun β => if β = 0 then X0.get else X2.get) e α i j).sum =
      fac * ∑ β ∈ range 2, termSign α β * Spec.coulomb N (fourOf ne first last Pm Qm W α β) (if β = 0 then X0.get else X2.get) i j := by
    intro α i j
    rw [sum_map_range]
    unfold jelAdds fourOf
    simp only [coulomb_blocks h]
    rw [sum_comm]
    simp only [← mul_sum]
    congr 1
    simp only [mul_sum]
    have : ∀ e1 ∈ range ne, (∑ e2 ∈ range ne, ∑ β ∈ range 2, termSign α β * at_ (first e1) (cnt first last e1) (first e1) (cnt first last e1) (fun a b =>
        ∑ c ∈ range (cnt first last e2), ∑ d ∈ range (cnt first last e2), neumannBlk (cnt first last) Pm Qm (teiOf (cnt first last) W) α β e1 e2 a b c d *
          (fun β => if β = 0 then X0.get else X2.get) β (first e2 + c) (first e2 + d)) i j) =
        ∑ β ∈ range 2, ∑ e2 ∈ range ne, termSign α β * at_ (first e1) (cnt first last e1) (first e1) (cnt first last e1) (fun a b =>
        ∑ c ∈ range (cnt first last e2), ∑ d ∈ range (cnt first last e2), neumannBlk (cnt first last) Pm Qm (teiOf (cnt first last) W) α β e1 e2 a b c d *
          (fun β => if β = 0 then X0.get else X2.get) β (first e2 + c) (first e2 + d)) i j := fun e1 _ => sum_comm
    rw [sum_congr rfl this, sum_comm]
  refine ⟨J', by rw [h.nel]; exact a1, a2, ?_⟩
  intro i j
  rw [(a3 i j).1, (a3 i j).2, key, key]
  exact ⟨rfl, rfl⟩

end DiaJK
end HelFEM
