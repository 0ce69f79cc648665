import Verif.Lemmas.DiaJFin
import Verif.Lemmas.AtomicK

/-! The exchange matrix of the diatomic basis: elements. -/

namespace HelFEM
namespace DiaJK
open Finset Spec TwoE Sym Dia AtomJK

/-- an `n × m` matrix with entries `G` -/
def MIs (n m : Nat) (M : Mat ℝ) (G : Nat → Nat → ℝ) : Prop := M.rows = n ∧ M.cols = m ∧ ∀ a < n, ∀ b < m, M.get a b = G a b

theorem MIs.congr {n m : Nat} {M : Mat ℝ} {G G' : Nat → Nat → ℝ} (h : MIs n m M G) (he : ∀ a < n, ∀ b < m, G a b = G' a b) : MIs n m M G' :=
  ⟨h.1, h.2.1, fun a ha b hb => by rw [h.2.2 a ha b hb, he a ha b hb]⟩

theorem mis_add {n m : Nat} {M X : Mat ℝ} {G H : Nat → Nat → ℝ} (h : MIs n m M G) (hx : MIs n m X H) : ∃ Y, M.add X = .ok Y ∧ MIs n m Y (fun a b => G a b + H a b) := by
  refine ⟨⟨M.rows, M.cols, fun a b => M.get a b + X.get a b⟩, if_pos ⟨by rw [h.1, hx.1], by rw [h.2.1, hx.2.1]⟩, h.1, h.2.1, ?_⟩
  intro a ha b hb
  change M.get a b + X.get a b = _
  rw [h.2.2 a ha b hb, hx.2.2 a ha b hb]

theorem mis_smul {n m : Nat} {M : Mat ℝ} {G : Nat → Nat → ℝ} (s : ℝ) (h : MIs n m M G) : MIs n m (Mat.smul s M) (fun a b => s * G a b) :=
  ⟨h.1, h.2.1, fun a ha b hb => by change s * M.get a b = _; rw [h.2.2 a ha b hb]⟩

theorem mis_mul {n m k : Nat} {M X : Mat ℝ} {G H : Nat → Nat → ℝ} (h : MIs n m M G) (hx : MIs m k X H) :
    ∃ Y, M.mul X = .ok Y ∧ MIs n k Y (fun a b => ∑ c ∈ range m, G a c * H c b) := by
  refine ⟨⟨M.rows, X.cols, fun a b => ∑ c ∈ range M.cols, M.get a c * X.get c b⟩, if_pos (by rw [h.2.1, hx.1]), h.1, hx.2.1, ?_⟩
  intro a ha b hb
  change ∑ c ∈ range M.cols, M.get a c * X.get c b = _
  rw [h.2.1]
  apply sum_congr rfl; intro c hc
  rw [h.2.2 a ha c (Finset.mem_range.1 hc), hx.2.2 c (Finset.mem_range.1 hc) b hb]

theorem mis_transpose {n m : Nat} {M : Mat ℝ} {G : Nat → Nat → ℝ} (h : MIs n m M G) : MIs m n M.transpose (fun a b => G b a) :=
  ⟨h.2.1, h.1, fun a ha b hb => h.2.2 b hb a ha⟩

theorem mis_block {n m : Nat} {M : Mat ℝ} {G : Nat → Nat → ℝ} (h : MIs n m M G) (i j ni nj : Nat) (hi : i + ni ≤ n) (hj : j + nj ≤ m) :
    ∃ Y, M.block i j ni nj = .ok Y ∧ MIs ni nj Y (fun a b => G (i + a) (j + b)) :=
  ⟨⟨ni, nj, fun a b => M.get (i + a) (j + b)⟩, if_pos ⟨by rw [h.1]; exact hi, by rw [h.2.1]; exact hj⟩, rfl, rfl, fun a ha b hb => h.2.2 _ (by omega) _ (by omega)⟩

theorem foldlM_rect {ι : Type _} (N N' : Nat) (body : Mat ℝ → ι → Res (Mat ℝ)) (c : ι → Nat → Nat → ℝ) :
    ∀ (l : List ι) (M : Mat ℝ) (F : Nat → Nat → ℝ), MIs N N' M F →
      (∀ e ∈ l, ∀ (M : Mat ℝ) (F : Nat → Nat → ℝ), MIs N N' M F → ∃ M', body M e = .ok M' ∧ MIs N N' M' (fun i j => F i j + c e i j)) →
      ∃ M', l.foldlM body M = .ok M' ∧ MIs N N' M' (fun i j => F i j + (l.map fun e => c e i j).sum) := by
  intro l
  induction l with
  | nil => intro M F h _; exact ⟨M, rfl, by simpa using h⟩
  | cons e l ih =>
    intro M F h hb
    obtain ⟨M1, a1, a2⟩ := hb e (by simp) M F h
    obtain ⟨M2, b1, b2⟩ := ih M1 _ a2 (fun e' he' => hb e' (by simp [he']))
    refine ⟨M2, by rw [List.foldlM_cons, a1]; exact b1, b2.congr ?_⟩
    intro i _ j _
    rw [List.map_cons, List.sum_cons, add_assoc]

/-- the four helper matrices -/
def QuadIs (n m : Nat) (q : Quad) (G : Nat → Nat → Nat → Nat → ℝ) : Prop := MIs n m q.r00 (G 0 0) ∧ MIs n m q.r02 (G 0 1) ∧ MIs n m q.r20 (G 1 0) ∧ MIs n m q.r22 (G 1 1)

theorem quad_block {n m : Nat} {q : Quad} {G : Nat → Nat → Nat → Nat → ℝ} (h : QuadIs n m q G) (i j ni nj : Nat) (hi : i + ni ≤ n) (hj : j + nj ≤ m) :
    ∃ r, q.block i j ni nj = .ok r ∧ QuadIs ni nj r (fun α β a b => G α β (i + a) (j + b)) := by
  obtain ⟨h0, h1, h2, h3⟩ := h
  obtain ⟨r0, a0, b0⟩ := mis_block h0 i j ni nj hi hj
  obtain ⟨r1, a1, b1⟩ := mis_block h1 i j ni nj hi hj
  obtain ⟨r2, a2, b2⟩ := mis_block h2 i j ni nj hi hj
  obtain ⟨r3, a3, b3⟩ := mis_block h3 i j ni nj hi hj
  exact ⟨⟨r0, r1, r2, r3⟩, by unfold Quad.block; rw [a0, Res.ok_bind, a1, Res.ok_bind, a2, Res.ok_bind, a3, Res.ok_bind], b0, b1, b2, b3⟩

/-- sums over two terms for each electron -/
theorem sum_terms (f : Nat → Nat → ℝ) : ∑ α ∈ range 2, ∑ β ∈ range 2, f α β = f 0 0 + f 0 1 + f 1 0 + f 1 1 := by
  simp only [sum_range_succ, sum_range_zero, zero_add]; ring

theorem exVector_ok (B : Mat ℝ) (sg : Vect ℝ) (n : Nat) (hB : B.rows = 2 * (n * n)) (r : Quad) (G : Nat → Nat → Nat → Nat → ℝ) (hr : QuadIs n n r G) (p : Nat) (hp : p < sg.size)
    (Ks : Mat ℝ) (F : Nat → Nat → ℝ) (hK : MIs n n Ks F) :
    ∃ K', exVector B sg n r Ks p = .ok K' ∧ MIs n n K' (fun a b => F a b + sg.get p * ∑ α ∈ range 2, ∑ β ∈ range 2, termSign α β *
      ∑ c ∈ range n, ∑ d ∈ range n, B.get (α * (n * n) + (a * n + c)) p * B.get (β * (n * n) + (d * n + b)) p * G α β c d) := by
  obtain ⟨h0, h1, h2, h3⟩ := hr
  have m0 : MIs n n (⟨n, n, fun i j => B.get (j * n + i) p⟩ : Mat ℝ).transpose (fun a c => B.get (a * n + c) p) := ⟨rfl, rfl, fun _ _ _ _ => rfl⟩
  have m2 : MIs n n (⟨n, n, fun i j => B.get (n * n + (j * n + i)) p⟩ : Mat ℝ).transpose (fun a c => B.get (n * n + (a * n + c)) p) := ⟨rfl, rfl, fun _ _ _ _ => rfl⟩
  obtain ⟨A00, u00, v00⟩ := mis_mul m0 h0
  obtain ⟨C00, w00, z00⟩ := mis_mul v00 m0
  obtain ⟨A02, u02, v02⟩ := mis_mul m0 h1
  obtain ⟨C02, w02, z02⟩ := mis_mul v02 m2
  obtain ⟨A20, u20, v20⟩ := mis_mul m2 h2
  obtain ⟨C20, w20, z20⟩ := mis_mul v20 m0
  obtain ⟨A22, u22, v22⟩ := mis_mul m2 h3
  obtain ⟨C22, w22, z22⟩ := mis_mul v22 m2
  obtain ⟨S1, s1, t1⟩ := mis_add z00 (mis_smul (-1) z02)
  obtain ⟨S2, s2, t2⟩ := mis_add t1 (mis_smul (-1) z20)
  obtain ⟨S3, s3, t3⟩ := mis_add t2 z22
  obtain ⟨K', k1, k2⟩ := mis_add hK (mis_smul (sg.get p) t3)
  refine ⟨K', ?_, k2.congr ?_⟩
  · unfold exVector
    rw [if_neg (by omega), show unvec (⟨n * n, fun i => B.get i p⟩ : Vect ℝ) n n = .ok ⟨n, n, fun i j => B.get (j * n + i) p⟩ from if_pos le_rfl, Res.ok_bind,
      show unvec (⟨n * n, fun i => B.get (n * n + i) p⟩ : Vect ℝ) n n = .ok ⟨n, n, fun i j => B.get (n * n + (j * n + i)) p⟩ from if_pos le_rfl, Res.ok_bind]
    simp only
    rw [u00, Res.ok_bind, w00, Res.ok_bind, u02, Res.ok_bind, w02, Res.ok_bind, u20, Res.ok_bind, w20, Res.ok_bind, u22, Res.ok_bind, w22, Res.ok_bind, s1, Res.ok_bind,
      s2, Res.ok_bind, s3, Res.ok_bind, if_pos hp, k1]
  · intro a _ b _
    rw [sum_terms]
    have e : ∀ (x y : Nat → ℝ) (g : Nat → Nat → ℝ), ∑ d ∈ range n, (∑ c ∈ range n, x c * g c d) * y d = ∑ c ∈ range n, ∑ d ∈ range n, x c * y d * g c d := by
      intro x y g
      simp only [sum_mul]
      rw [sum_comm]
      apply sum_congr rfl; intro c _
      apply sum_congr rfl; intro d _
      ring
    rw [e (fun c => B.get (a * n + c) p) (fun d => B.get (d * n + b) p), e (fun c => B.get (a * n + c) p) (fun d => B.get (n * n + (d * n + b)) p),
      e (fun c => B.get (n * n + (a * n + c)) p) (fun d => B.get (d * n + b) p), e (fun c => B.get (n * n + (a * n + c)) p) (fun d => B.get (n * n + (d * n + b)) p)]
    simp only [termSign, Nat.zero_mul, Nat.zero_add, Nat.one_mul]
    norm_num

variable {ne : Nat} {first last : Nat → Nat}

/-- the integrals of one table entry between two elements -/
def elBlk (first last : Nat → Nat) (Pm Qm : Nat → Nat → Nat → Nat → ℝ) (W : Nat → Nat → Nat → ℝ) (α β e1 e2 a b c d : Nat) : ℝ :=
  neumannBlk (cnt first last) Pm Qm (teiOf (cnt first last) W) α β e1 e2 a b c d

/-- what two elements contribute for one table entry -/
def elSum (first last : Nat → Nat) (Pm Qm : Nat → Nat → Nat → Nat → ℝ) (W : Nat → Nat → Nat → ℝ) (G : Nat → Nat → Nat → Nat → ℝ) (e1 e2 a b : Nat) : ℝ :=
  ∑ α ∈ range 2, ∑ β ∈ range 2, ∑ c ∈ range (cnt first last e1), ∑ d ∈ range (cnt first last e2),
    elBlk first last Pm Qm W α β e1 e2 c a b d * G α β (first e1 + c) (first e2 + d)

theorem exSame_ok {N : Nat} {s : Slice} {Pm Qm : Nat → Nat → Nat → Nat → ℝ} {W : Nat → Nat → Nat → ℝ} (hs : SliceOk s ne (cnt first last) Pm Qm W) (e : Nat) (he : e < ne)
    (hf : first e + cnt first last e ≤ N) (q : Quad) (G : Nat → Nat → Nat → Nat → ℝ) (hq : QuadIs N N q G) (Ks : Mat ℝ) (F : Nat → Nat → ℝ)
    (hK : MIs (cnt first last e) (cnt first last e) Ks F) :
    ∃ K', exSame s e (first e) (first e) (cnt first last e) (cnt first last e) q Ks = .ok K' ∧ MIs (cnt first last e) (cnt first last e) K'
      (fun a b => F a b + elSum first last Pm Qm W G e e a b) := by
  obtain ⟨B, sg, b1, b2, b3, b4, b5⟩ := hs.factor e he
  obtain ⟨r, r1, r2⟩ := quad_block hq (first e) (first e) (cnt first last e) (cnt first last e) hf hf
  obtain ⟨K', k1, k2⟩ := foldlM_rect (cnt first last e) (cnt first last e) (exVector B sg (cnt first last e) r) _ (List.range B.cols) Ks F hK
    (fun p hp M F' hM => exVector_ok B sg (cnt first last e) b3 r _ r2 p (by rw [b4]; exact List.mem_range.1 hp) M F' hM)
  refine ⟨K', ?_, k2.congr ?_⟩
  · unfold exSame
    rw [b1, Res.ok_bind, b2, Res.ok_bind, r1, Res.ok_bind, k1]
  · intro a ha b hb
    rw [sum_map_range]
    congr 1
    simp only [mul_sum]
    rw [sum_comm]
    unfold elSum
    apply sum_congr rfl; intro α hα
    rw [sum_comm]
    apply sum_congr rfl; intro β hβ
    rw [sum_comm]
    apply sum_congr rfl; intro c hc
    rw [sum_comm]
    apply sum_congr rfl; intro d hd
    have hα := Finset.mem_range.1 hα
    have hβ := Finset.mem_range.1 hβ
    have hc := Finset.mem_range.1 hc
    have hd := Finset.mem_range.1 hd
    have l1 := pair_lt ha hc
    have l2 := pair_lt hd hb
    have hm : ∀ α, α < 2 → α * (cnt first last e * cnt first last e) ≤ cnt first last e * cnt first last e := by
      intro α hα
      calc α * (cnt first last e * cnt first last e) ≤ 1 * (cnt first last e * cnt first last e) := Nat.mul_le_mul_right _ (by omega)
        _ = _ := Nat.one_mul _
    have := hm α hα
    have := hm β hβ
    unfold elBlk neumannBlk
    rw [if_pos rfl, teiOf, b5 _ (by omega) _ (by omega), mul_sum, sum_mul]
    apply sum_congr rfl; intro p _
    ring

theorem exOther_ok {N : Nat} {s : Slice} {Pm Qm : Nat → Nat → Nat → Nat → ℝ} {W : Nat → Nat → Nat → ℝ} (hs : SliceOk s ne (cnt first last) Pm Qm W) (e1 e2 : Nat) (h1 : e1 < ne)
    (h2 : e2 < ne) (hne : e1 ≠ e2) (f1 : first e1 + cnt first last e1 ≤ N) (f2 : first e2 + cnt first last e2 ≤ N) (q : Quad) (G : Nat → Nat → Nat → Nat → ℝ) (hq : QuadIs N N q G)
    (Ks : Mat ℝ) (F : Nat → Nat → ℝ) (hK : MIs (cnt first last e1) (cnt first last e2) Ks F) :
    ∃ K', exOther s e1 e2 (first e1) (first e2) (cnt first last e1) (cnt first last e2) q Ks = .ok K' ∧ MIs (cnt first last e1) (cnt first last e2) K'
      (fun a b => F a b + -elSum first last Pm Qm W G e1 e2 a b) := by
  obtain ⟨r, r1, r00, r02, r20, r22⟩ := quad_block hq (first e1) (first e2) (cnt first last e1) (cnt first last e2) f1 f2
  obtain ⟨I, hI⟩ : ∃ I : Nat → Nat → Nat → ℝ, I = fun α => if e2 < e1 then Qm α e1 else Pm α e1 := ⟨_, rfl⟩
  obtain ⟨J, hJ⟩ : ∃ J : Nat → Nat → Nat → ℝ, J = fun α => if e2 < e1 then Pm α e2 else Qm α e2 := ⟨_, rfl⟩
  have i0 : pick (e2 < e1) (s.Q0 e1) (s.P0 e1) = .ok ⟨cnt first last e1, cnt first last e1, I 0⟩ := by
    unfold pick; rw [hI, hs.Q0 e1 h1, hs.P0 e1 h1]; split_ifs <;> rfl
  have i2 : pick (e2 < e1) (s.Q2 e1) (s.P2 e1) = .ok ⟨cnt first last e1, cnt first last e1, I 1⟩ := by
    unfold pick; rw [hI, hs.Q2 e1 h1, hs.P2 e1 h1]; split_ifs <;> rfl
  have j0 : pick (e2 < e1) (s.P0 e2) (s.Q0 e2) = .ok ⟨cnt first last e2, cnt first last e2, J 0⟩ := by
    unfold pick; rw [hJ, hs.P0 e2 h2, hs.Q0 e2 h2]; split_ifs <;> rfl
  have j2 : pick (e2 < e1) (s.P2 e2) (s.Q2 e2) = .ok ⟨cnt first last e2, cnt first last e2, J 1⟩ := by
    unfold pick; rw [hJ, hs.P2 e2 h2, hs.Q2 e2 h2]; split_ifs <;> rfl
  have mI : ∀ α, MIs (cnt first last e1) (cnt first last e1) ⟨cnt first last e1, cnt first last e1, I α⟩ (I α) := fun α => ⟨rfl, rfl, fun _ _ _ _ => rfl⟩
  have mJ : ∀ α, MIs (cnt first last e2) (cnt first last e2) (⟨cnt first last e2, cnt first last e2, J α⟩ : Mat ℝ).transpose (fun a b => J α b a) := fun α => ⟨rfl, rfl, fun _ _ _ _ => rfl⟩
  obtain ⟨A0, a0, b0⟩ := mis_mul r00 (mJ 0)
  obtain ⟨A1, a1, b1⟩ := mis_mul r02 (mJ 1)
  obtain ⟨T0, t0, u0⟩ := mis_add b0 b1
  obtain ⟨X0, x0, y0⟩ := mis_mul (mI 0) u0
  obtain ⟨K0, k0, l0⟩ := mis_add hK (mis_smul (-1) y0)
  obtain ⟨A2, a2, b2⟩ := mis_mul r20 (mJ 0)
  obtain ⟨A3, a3, b3⟩ := mis_mul r22 (mJ 1)
  obtain ⟨T1, t1, u1⟩ := mis_add b2 b3
  obtain ⟨X1, x1, y1⟩ := mis_mul (mI 1) u1
  obtain ⟨K1, k1, l1⟩ := mis_add l0 (mis_smul (-1) y1)
  refine ⟨K1, ?_, l1.congr ?_⟩
  · unfold exOther
    rw [i0, Res.ok_bind, i2, Res.ok_bind, j0, Res.ok_bind, j2, Res.ok_bind, r1, Res.ok_bind, a0, Res.ok_bind, a1, Res.ok_bind, t0, Res.ok_bind, x0, Res.ok_bind, k0, Res.ok_bind,
      a2, Res.ok_bind, a3, Res.ok_bind, t1, Res.ok_bind, x1, Res.ok_bind, k1]
  · intro a ha b _
    have blk : ∀ α < 2, ∀ β < 2, ∀ c < cnt first last e1, ∀ d, elBlk first last Pm Qm W α β e1 e2 c a b d = I α a c * J β b d := by
      intro α hα β hβ c hc d
      unfold elBlk neumannBlk
      rw [if_neg hne, hI, hJ]
      by_cases hlt : e1 < e2
      · rw [if_pos hlt]
        simp only [if_neg (show ¬ e2 < e1 by omega)]
        rw [hs.symP α hα e1 h1 c hc a ha]
      · rw [if_neg hlt]
        simp only [if_pos (show e2 < e1 by omega)]
        rw [hs.symQ α hα e1 h1 c hc a ha]
    have e : ∀ α < 2, ∀ β < 2, ∑ c ∈ range (cnt first last e1), ∑ d ∈ range (cnt first last e2), elBlk first last Pm Qm W α β e1 e2 c a b d * G α β (first e1 + c) (first e2 + d) =
        ∑ c ∈ range (cnt first last e1), I α a c * ∑ d ∈ range (cnt first last e2), G α β (first e1 + c) (first e2 + d) * J β b d := by
      intro α hα β hβ
      apply sum_congr rfl; intro c hc
      rw [mul_sum]
      apply sum_congr rfl; intro d _
      rw [blk α hα β hβ c (Finset.mem_range.1 hc) d]; ring
    unfold elSum
    rw [sum_terms, e 0 (by omega) 0 (by omega), e 0 (by omega) 1 (by omega), e 1 (by omega) 0 (by omega), e 1 (by omega) 1 (by omega)]
    simp only [mul_add, sum_add_distrib]
    ring

/-! ### helpers of all table entries -/

/-- the helpers hold the sums `G`; those of uncoupled entries are zero -/
def QIs (tab : List (Int × Int)) (nrad : Nat) (h : List (Option Quad)) (G : Int → Int → Nat → Nat → Nat → Nat → ℝ) : Prop :=
  h.length = tab.length ∧ ∀ (i : Nat) (L M : Int), tab[i]? = some (L, M) →
    (h[i]? = some none ∧ ∀ α < 2, ∀ β < 2, ∀ a < nrad, ∀ b < nrad, G L M α β a b = 0) ∨ ∃ q, h[i]? = some (some q) ∧ QuadIs nrad nrad q (G L M)

theorem quad_congr {n m : Nat} {q : Quad} {G G' : Nat → Nat → Nat → Nat → ℝ} (h : QuadIs n m q G) (he : ∀ α < 2, ∀ β < 2, ∀ a < n, ∀ b < m, G α β a b = G' α β a b) : QuadIs n m q G' :=
  ⟨h.1.congr (he 0 (by omega) 0 (by omega)), h.2.1.congr (he 0 (by omega) 1 (by omega)), h.2.2.1.congr (he 1 (by omega) 0 (by omega)), h.2.2.2.congr (he 1 (by omega) 1 (by omega))⟩

theorem QIs.congr {tab : List (Int × Int)} {nrad : Nat} {h : List (Option Quad)} {G G' : Int → Int → Nat → Nat → Nat → Nat → ℝ} (hq : QIs tab nrad h G)
    (he : ∀ L M, (L, M) ∈ tab → ∀ α < 2, ∀ β < 2, ∀ a < nrad, ∀ b < nrad, G L M α β a b = G' L M α β a b) : QIs tab nrad h G' := by
  refine ⟨hq.1, ?_⟩
  intro i L M hi
  have hm := List.mem_of_getElem? hi
  rcases hq.2 i L M hi with ⟨h1, h2⟩ | ⟨q, h1, h2⟩
  · exact Or.inl ⟨h1, fun α hα β hβ a ha b hb => by rw [← he L M hm α hα β hβ a ha b hb]; exact h2 α hα β hβ a ha b hb⟩
  · exact Or.inr ⟨q, h1, quad_congr h2 (he L M hm)⟩

theorem qis_init (tab : List (Int × Int)) (nrad : Nat) : QIs tab nrad (List.replicate tab.length none) (fun _ _ _ _ _ _ => 0) := by
  refine ⟨by simp, ?_⟩
  intro i L M hi
  obtain ⟨hlt, _⟩ := List.getElem?_eq_some_iff.1 hi
  exact Or.inl ⟨by rw [List.getElem?_replicate, if_pos hlt], fun _ _ _ _ _ _ _ _ => rfl⟩

theorem foldlM_qis {tab : List (Int × Int)} {nrad : Nat} {ι : Type _} (body : List (Option Quad) → ι → Res (List (Option Quad))) (c : ι → Int → Int → Nat → Nat → Nat → Nat → ℝ) :
    ∀ (l : List ι) (h : List (Option Quad)) (G : Int → Int → Nat → Nat → Nat → Nat → ℝ), QIs tab nrad h G →
      (∀ e ∈ l, ∀ (h : List (Option Quad)) (G : Int → Int → Nat → Nat → Nat → Nat → ℝ), QIs tab nrad h G →
        ∃ h', body h e = .ok h' ∧ QIs tab nrad h' (fun L M α β a b => G L M α β a b + c e L M α β a b)) →
      ∃ h', l.foldlM body h = .ok h' ∧ QIs tab nrad h' (fun L M α β a b => G L M α β a b + (l.map fun e => c e L M α β a b).sum) := by
  intro l
  induction l with
  | nil => intro h G hq _; exact ⟨h, rfl, by simpa using hq⟩
  | cons e l ih =>
    intro h G hq hb
    obtain ⟨h1, a1, a2⟩ := hb e (by simp) h G hq
    obtain ⟨h2, b1, b2⟩ := ih h1 _ a2 (fun e' he' => hb e' (by simp [he']))
    refine ⟨h2, by rw [List.foldlM_cons, a1]; exact b1, b2.congr ?_⟩
    intro L M _ α _ β _ a _ b _
    rw [List.map_cons, List.sum_cons, add_assoc]

variable {b : Basis} {c : Ints} {Pm Qm : Int → Int → Nat → Nat → Nat → Nat → ℝ} {W : Int → Int → Nat → Nat → Nat → ℝ}

/-- the entry with number `i` of the table -/
def tabL (tab : List (Int × Int)) (i : Nat) : Int := (tab.getD i (0, 0)).1
def tabM (tab : List (Int × Int)) (i : Nat) : Int := (tab.getD i (0, 0)).2

theorem tab_get {tab : List (Int × Int)} {i : Nat} (h : i < tab.length) : tab[i]? = some (tabL tab i, tabM tab i) := by
  unfold tabL tabM
  rw [List.getD_eq_getElem?_getD, List.getElem?_eq_getElem h]; rfl

theorem elSum_zero {nrad : Nat} (first last : Nat → Nat) (Pm Qm : Nat → Nat → Nat → Nat → ℝ) (W : Nat → Nat → Nat → ℝ) (G : Nat → Nat → Nat → Nat → ℝ) (e1 e2 a b : Nat)
    (f1 : first e1 + cnt first last e1 ≤ nrad) (f2 : first e2 + cnt first last e2 ≤ nrad) (h : ∀ α < 2, ∀ β < 2, ∀ a < nrad, ∀ b < nrad, G α β a b = 0) :
    elSum first last Pm Qm W G e1 e2 a b = 0 := by
  unfold elSum
  apply sum_eq_zero; intro α hα
  apply sum_eq_zero; intro β hβ
  apply sum_eq_zero; intro c hc
  apply sum_eq_zero; intro d hd
  have hc := Finset.mem_range.1 hc
  have hd := Finset.mem_range.1 hd
  rw [h α (Finset.mem_range.1 hα) β (Finset.mem_range.1 hβ) _ (by omega) _ (by omega), mul_zero]

/-- what two elements contribute -/
def elOut (tab : List (Int × Int)) (first last : Nat → Nat) (Pm Qm : Int → Int → Nat → Nat → Nat → Nat → ℝ) (W : Int → Int → Nat → Nat → Nat → ℝ)
    (G : Int → Int → Nat → Nat → Nat → Nat → ℝ) (e1 e2 a d : Nat) : ℝ :=
  -∑ i ∈ range tab.length, elSum first last (Pm (tabL tab i) (tabM tab i)) (Qm (tabL tab i) (tabM tab i)) (W (tabL tab i) (tabM tab i)) (G (tabL tab i) (tabM tab i)) e1 e2 a d

/-- what all elements contribute -/
noncomputable def exOut (tab : List (Int × Int)) (nrad ne : Nat) (first last : Nat → Nat) (Pm Qm : Int → Int → Nat → Nat → Nat → Nat → ℝ) (W : Int → Int → Nat → Nat → Nat → ℝ)
    (G : Int → Int → Nat → Nat → Nat → Nat → ℝ) (a d : Nat) : ℝ :=
  -∑ i ∈ range tab.length, ∑ α ∈ range 2, ∑ β ∈ range 2, Spec.exchange nrad (fun a' c' b' d' => fourOf ne first last (Pm (tabL tab i) (tabM tab i))
    (Qm (tabL tab i) (tabM tab i)) (W (tabL tab i) (tabM tab i)) α β c' a' b' d') (G (tabL tab i) (tabM tab i) α β) a d

theorem exElements_ok (hR : Layout b.rad ne b.rad.nbf first last) (hs : Holds b c ne first last Pm Qm W) {h : List (Option Quad)}
    {G : Int → Int → Nat → Nat → Nat → Nat → ℝ} (hq : QIs b.mp.lm b.rad.nbf h G) (j k : Nat) (hj : j < b.lm.length) (hk : k < b.lm.length) (e1 e2 : Nat) (h1 : e1 < ne) (h2 : e2 < ne)
    (K : Mat ℝ) (k1 : K.rows = b.lm.length * b.rad.nbf) (k2 : K.cols = b.lm.length * b.rad.nbf) :
    ∃ K', exElements b c h j k e1 e2 (first e1, cnt first last e1) (first e2, cnt first last e2) K = .ok K' ∧ K'.rows = b.lm.length * b.rad.nbf ∧ K'.cols = b.lm.length * b.rad.nbf ∧
      ∀ x y, K'.get x y = K.get x y + at_ (j * b.rad.nbf + first e1) (cnt first last e1) (k * b.rad.nbf + first e2) (cnt first last e2) (elOut b.mp.lm first last Pm Qm W G e1 e2) x y := by
  have f1 := hR.fits e1 h1
  have f2 := hR.fits e2 h2
  have g1 := block_fits (nrad := b.rad.nbf) hj
  have g2 := block_fits (nrad := b.rad.nbf) hk
  have zero : MIs (cnt first last e1) (cnt first last e2) (Mat.zero (cnt first last e1) (cnt first last e2) : Mat ℝ) (fun _ _ => 0) := ⟨rfl, rfl, fun _ _ _ _ => rfl⟩
  by_cases hee : e1 = e2
  · subst hee
    obtain ⟨Ks, s1, s2, s3, s4⟩ := foldlM_rect (cnt first last e1) (cnt first last e1)
      (fun Ks ilm => coupled h ilm (exSame (c.slice b.rad.nel ilm) e1 (first e1) (first e1) (cnt first last e1) (cnt first last e1)) Ks)
      (fun i a d => elSum first last (Pm (tabL b.mp.lm i) (tabM b.mp.lm i)) (Qm (tabL b.mp.lm i) (tabM b.mp.lm i)) (W (tabL b.mp.lm i) (tabM b.mp.lm i))
          (G (tabL b.mp.lm i) (tabM b.mp.lm i)) e1 e1 a d) (List.range b.mp.lm.length) _ _ zero (by
        intro i hi M F hM
        have hi := tab_get (List.mem_range.1 hi)
        unfold coupled readAt
        rcases hq.2 i _ _ hi with ⟨q1, q2⟩ | ⟨q, q1, q2⟩
        · rw [q1]
          refine ⟨M, rfl, hM.congr ?_⟩
          intro a _ d _
          rw [elSum_zero first last _ _ _ _ e1 e1 a d f1 f1 q2, add_zero]
        · rw [q1]
          exact exSame_ok (hs i _ _ hi) e1 h1 f1 q _ q2 M F hM)
    obtain ⟨K', r1, r2, r3, r4⟩ := addBlock_ok K (b.lm.length * b.rad.nbf) k1 k2 (j * b.rad.nbf + first e1) (k * b.rad.nbf + first e1) (cnt first last e1) (cnt first last e1)
      (Mat.smul (-1) Ks) s2 s3 (by omega) (by omega)
    refine ⟨K', ?_, r2, r3, ?_⟩
    · unfold exElements
      rw [if_pos rfl, s1, Res.ok_bind]; exact r1
    · intro x y
      rw [r4]
      congr 1
      apply at_congr
      intro a ha d hd
      change -1 * Ks.get a d = _
      rw [s4 a ha d hd]
      unfold elOut
      beta_reduce
      rw [sum_map_range, zero_add, neg_one_mul]
  · obtain ⟨Ks, s1, s2, s3, s4⟩ := foldlM_rect (cnt first last e1) (cnt first last e2)
      (fun Ks ilm => coupled h ilm (exOther (c.slice b.rad.nel ilm) e1 e2 (first e1) (first e2) (cnt first last e1) (cnt first last e2)) Ks)
      (fun i a d => -elSum first last (Pm (tabL b.mp.lm i) (tabM b.mp.lm i)) (Qm (tabL b.mp.lm i) (tabM b.mp.lm i)) (W (tabL b.mp.lm i) (tabM b.mp.lm i))
          (G (tabL b.mp.lm i) (tabM b.mp.lm i)) e1 e2 a d) (List.range b.mp.lm.length) _ _ zero (by
        intro i hi M F hM
        have hi := tab_get (List.mem_range.1 hi)
        unfold coupled readAt
        rcases hq.2 i _ _ hi with ⟨q1, q2⟩ | ⟨q, q1, q2⟩
        · rw [q1]
          refine ⟨M, rfl, hM.congr ?_⟩
          intro a _ d _
          rw [elSum_zero first last _ _ _ _ e1 e2 a d f1 f2 q2, neg_zero, add_zero]
        · rw [q1]
          exact exOther_ok (hs i _ _ hi) e1 e2 h1 h2 hee f1 f2 q _ q2 M F hM)
    obtain ⟨K', r1, r2, r3, r4⟩ := addBlock_ok K (b.lm.length * b.rad.nbf) k1 k2 (j * b.rad.nbf + first e1) (k * b.rad.nbf + first e2) (cnt first last e1) (cnt first last e2)
      Ks s2 s3 (by omega) (by omega)
    refine ⟨K', ?_, r2, r3, ?_⟩
    · unfold exElements
      rw [if_neg hee, s1, Res.ok_bind]; exact r1
    · intro x y
      rw [r4]
      congr 1
      apply at_congr
      intro a ha d hd
      rw [s4 a ha d hd]
      unfold elOut
      beta_reduce
      rw [sum_map_range, zero_add, sum_neg_distrib]

theorem at_shift (x y fi ni fj nj N : Nat) (hi : fi + ni ≤ N) (hj : fj + nj ≤ N) (B : Nat → Nat → ℝ) (i j : Nat) :
    at_ (x + fi) ni (y + fj) nj B i j = at_ x N y N (fun a c => at_ fi ni fj nj B a c) i j := by
  unfold at_
  by_cases h1 : (x + fi ≤ i ∧ i < x + fi + ni) ∧ (y + fj ≤ j ∧ j < y + fj + nj)
  · rw [if_pos h1, if_pos (by omega)]
    beta_reduce
    rw [if_pos (by omega), Nat.sub_sub, Nat.sub_sub]
  · rw [if_neg h1]
    by_cases h2 : (x ≤ i ∧ i < x + N) ∧ (y ≤ j ∧ j < y + N)
    · rw [if_pos h2]
      beta_reduce
      rw [if_neg (by omega)]
    · rw [if_neg h2]

/-- the integrals with the first two functions exchanged -/
theorem four_swap (ne : Nat) (first last : Nat → Nat) (Pm Qm : Nat → Nat → Nat → Nat → ℝ) (W : Nat → Nat → Nat → ℝ) (α β i j k l : Nat) :
    fourOf ne first last Pm Qm W α β i j k l = fourIndex ne first last (fun e1 e2 a b c d => elBlk first last Pm Qm W α β e1 e2 b a c d) j i k l := by
  unfold fourOf fourIndex elBlk
  apply sum_congr rfl; intro e1 _
  apply sum_congr rfl; intro e2 _
  by_cases h : ((first e1 ≤ i ∧ i ≤ last e1) ∧ (first e1 ≤ j ∧ j ≤ last e1)) ∧ ((first e2 ≤ k ∧ k ≤ last e2) ∧ (first e2 ≤ l ∧ l ≤ last e2))
  · rw [if_pos h, if_pos ⟨h.1.symm, h.2⟩]
  · rw [if_neg h, if_neg (fun h' => h ⟨h'.1.symm, h'.2⟩)]

/-- the element loops of one table entry -/
theorem elSum_total {R : Radial} {N : Nat} (hR : Layout R ne N first last) (Pm Qm : Nat → Nat → Nat → Nat → ℝ) (W : Nat → Nat → Nat → ℝ) (G : Nat → Nat → Nat → Nat → ℝ) (i j : Nat) :
    ∑ e1 ∈ range ne, ∑ e2 ∈ range ne, at_ (first e1) (cnt first last e1) (first e2) (cnt first last e2) (fun a d => elSum first last Pm Qm W G e1 e2 a d) i j =
      ∑ α ∈ range 2, ∑ β ∈ range 2, Spec.exchange N (fun a c b d => fourOf ne first last Pm Qm W α β c a b d) (G α β) i j := by
  have e : ∀ α β, (fun a c b d => fourOf ne first last Pm Qm W α β c a b d) = fourIndex ne first last (fun e1 e2 a b c d => elBlk first last Pm Qm W α β e1 e2 b a c d) := by
    intro α β
    funext a c b d
    exact four_swap ne first last Pm Qm W α β c a b d
  simp only [e, exchange_blocks hR]
  unfold elSum
  have s : ∀ e1 e2, at_ (first e1) (cnt first last e1) (first e2) (cnt first last e2) (fun a d => ∑ α ∈ range 2, ∑ β ∈ range 2, ∑ c ∈ range (cnt first last e1), ∑ d_1 ∈ range (cnt first last e2),
      elBlk first last Pm Qm W α β e1 e2 c a d d_1 * G α β (first e1 + c) (first e2 + d_1)) i j = ∑ α ∈ range 2, ∑ β ∈ range 2,
      at_ (first e1) (cnt first last e1) (first e2) (cnt first last e2) (fun a d => ∑ c ∈ range (cnt first last e1), ∑ d_1 ∈ range (cnt first last e2),
      elBlk first last Pm Qm W α β e1 e2 c a d d_1 * G α β (first e1 + c) (first e2 + d_1)) i j := by
    intro e1 e2
    simp only [at_sum]
  simp only [s]
  have t : ∀ e1 ∈ range ne, ∑ e2 ∈ range ne, ∑ α ∈ range 2, ∑ β ∈ range 2,
      at_ (first e1) (cnt first last e1) (first e2) (cnt first last e2) (fun a d => ∑ c ∈ range (cnt first last e1), ∑ d_1 ∈ range (cnt first last e2),
      elBlk first last Pm Qm W α β e1 e2 c a d d_1 * G α β (first e1 + c) (first e2 + d_1)) i j = ∑ α ∈ range 2, ∑ β ∈ range 2, ∑ e2 ∈ range ne,
      at_ (first e1) (cnt first last e1) (first e2) (cnt first last e2) (fun a d => ∑ c ∈ range (cnt first last e1), ∑ d_1 ∈ range (cnt first last e2),
      elBlk first last Pm Qm W α β e1 e2 c a d d_1 * G α β (first e1 + c) (first e2 + d_1)) i j := by
    intro e1 _
    rw [sum_comm]
    apply sum_congr rfl; intro α _
    rw [sum_comm]
  rw [sum_congr rfl t, sum_comm]
  apply sum_congr rfl; intro α _
  rw [sum_comm]

theorem at_neg (f n f' n' : Nat) (B : Nat → Nat → ℝ) (i j : Nat) : at_ f n f' n' (fun a b => -B a b) i j = -at_ f n f' n' B i j := by
  unfold at_
  split_ifs <;> simp

theorem elOut_total {R : Radial} {N : Nat} (hR : Layout R ne N first last) (tab : List (Int × Int)) (Pm Qm : Int → Int → Nat → Nat → Nat → Nat → ℝ) (W : Int → Int → Nat → Nat → Nat → ℝ)
    (G : Int → Int → Nat → Nat → Nat → Nat → ℝ) (i j : Nat) :
    ∑ e1 ∈ range ne, ∑ e2 ∈ range ne, at_ (first e1) (cnt first last e1) (first e2) (cnt first last e2) (elOut tab first last Pm Qm W G e1 e2) i j =
      exOut tab N ne first last Pm Qm W G i j := by
  unfold exOut
  simp only [← elSum_total hR]
  unfold elOut
  simp only [at_neg, sum_neg_distrib, ← at_sum]
  congr 1
  have s : ∀ e1 ∈ range ne, ∀ f : Nat → Nat → ℝ, (∑ e2 ∈ range ne, ∑ x ∈ range tab.length, f e2 x) = ∑ x ∈ range tab.length, ∑ e2 ∈ range ne, f e2 x := fun e1 _ f => sum_comm
  rw [sum_congr rfl (fun e1 he => s e1 he _), sum_comm]

theorem exRadial_ok (hR : Layout b.rad ne b.rad.nbf first last) (hs : Holds b c ne first last Pm Qm W) {h : List (Option Quad)}
    {G : Int → Int → Nat → Nat → Nat → Nat → ℝ} (hq : QIs b.mp.lm b.rad.nbf h G) (j k : Nat) (hj : j < b.lm.length) (hk : k < b.lm.length)
    (K : Mat ℝ) (k1 : K.rows = b.lm.length * b.rad.nbf) (k2 : K.cols = b.lm.length * b.rad.nbf) :
    ∃ K', exRadial b c h j k K = .ok K' ∧ K'.rows = b.lm.length * b.rad.nbf ∧ K'.cols = b.lm.length * b.rad.nbf ∧
      ∀ x y, K'.get x y = K.get x y + at_ (j * b.rad.nbf) b.rad.nbf (k * b.rad.nbf) b.rad.nbf (exOut b.mp.lm b.rad.nbf ne first last Pm Qm W G) x y := by
  unfold exRadial
  by_cases hany : h.any Option.isSome = true
  · rw [if_pos hany]
    obtain ⟨K', r1, r2, r3, r4⟩ := foldlM_acc (b.lm.length * b.rad.nbf) (b.lm.length * b.rad.nbf)
      (fun K iel => b.rad.range iel >>= fun ri => (List.range b.rad.nel).foldlM (fun K jel => b.rad.range jel >>= fun rj => exElements b c h j k iel jel ri rj K) K)
      (fun e1 x y => ∑ e2 ∈ range ne, at_ (j * b.rad.nbf + first e1) (cnt first last e1) (k * b.rad.nbf + first e2) (cnt first last e2) (elOut b.mp.lm first last Pm Qm W G e1 e2) x y) (List.range ne) K k1 k2 (by
        intro e1 h1 K k1 k2
        have h1 := List.mem_range.1 h1
        obtain ⟨K', q1, q2, q3, q4⟩ := foldlM_acc (b.lm.length * b.rad.nbf) (b.lm.length * b.rad.nbf)
          (fun K jel => b.rad.range jel >>= fun rj => exElements b c h j k e1 jel (first e1, cnt first last e1) rj K)
          (fun e2 x y => at_ (j * b.rad.nbf + first e1) (cnt first last e1) (k * b.rad.nbf + first e2) (cnt first last e2) (elOut b.mp.lm first last Pm Qm W G e1 e2) x y) (List.range ne) K k1 k2 (by
            intro e2 h2 K k1 k2
            have h2 := List.mem_range.1 h2
            rw [hR.range e2 h2, Res.ok_bind]
            exact exElements_ok hR hs hq j k hj hk e1 e2 h1 h2 K k1 k2)
        refine ⟨K', by rw [hR.range e1 h1, Res.ok_bind, hR.nel]; exact q1, q2, q3, ?_⟩
        intro x y
        rw [q4, sum_map_range])
    refine ⟨K', by rw [hR.nel] at r1 ⊢; exact r1, r2, r3, ?_⟩
    intro x y
    rw [r4, sum_map_range]
    congr 1
    have e : ∀ e1 ∈ range ne, (∑ e2 ∈ range ne, at_ (j * b.rad.nbf + first e1) (cnt first last e1) (k * b.rad.nbf + first e2) (cnt first last e2)
        (elOut b.mp.lm first last Pm Qm W G e1 e2) x y) = ∑ e2 ∈ range ne, at_ (j * b.rad.nbf) b.rad.nbf (k * b.rad.nbf) b.rad.nbf (fun a d =>
        at_ (first e1) (cnt first last e1) (first e2) (cnt first last e2) (elOut b.mp.lm first last Pm Qm W G e1 e2) a d) x y := by
      intro e1 h1
      apply sum_congr rfl; intro e2 h2
      exact at_shift _ _ _ _ _ _ _ (hR.fits e1 (Finset.mem_range.1 h1)) (hR.fits e2 (Finset.mem_range.1 h2)) _ x y
    rw [sum_congr rfl e]
    simp only [at_sum]
    apply at_congr
    intro a _ d _
    exact elOut_total hR _ _ _ _ _ a d
  · rw [if_neg hany]
    refine ⟨K, rfl, k1, k2, ?_⟩
    intro x y
    have hz : ∀ i ∈ range b.mp.lm.length, ∀ α < 2, ∀ β < 2, ∀ p < b.rad.nbf, ∀ q < b.rad.nbf, G (tabL b.mp.lm i) (tabM b.mp.lm i) α β p q = 0 := by
      intro i hi
      rcases hq.2 i _ _ (tab_get (Finset.mem_range.1 hi)) with ⟨_, q2⟩ | ⟨q, q1, _⟩
      · exact q2
      · exact absurd (List.any_eq_true.2 ⟨some q, List.mem_of_getElem? q1, rfl⟩) hany
    rw [show exOut b.mp.lm b.rad.nbf ne first last Pm Qm W G = fun _ _ => 0 from by
      funext a d
      unfold exOut
      rw [sum_eq_zero, neg_zero]
      intro i hi
      apply sum_eq_zero; intro α hα
      apply sum_eq_zero; intro β hβ
      exact exchange_zero _ _ _ (hz i hi α (Finset.mem_range.1 hα) β (Finset.mem_range.1 hβ)) a d]
    unfold at_
    simp

end DiaJK
end HelFEM
