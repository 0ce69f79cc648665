import Verif.Props.Exchange
import Mathlib.Tactic.IntervalCases
import Mathlib.Algebra.Field.Rat

/-!
# C20, C21, C22: Coulomb and exchange matrices from element integrals
-/

namespace HelFEM
namespace TwoE
open Finset Spec

variable {K : Type _} [CommRing K] {R : Radial} {ne N : Nat} {first last : Nat → Nat}

theorem block_ok (P : Mat K) (N : Nat) (h1 : P.rows = N) (h2 : P.cols = N) (fi fj ni nj : Nat) (hi : fi + ni ≤ N) (hj : fj + nj ≤ N) :
    P.block fi fj ni nj = .ok ⟨ni, nj, fun a b => P.get (fi + a) (fj + b)⟩ :=
  if_pos ⟨by omega, by omega⟩

theorem addScaled_ok (h : Layout R ne N first last) (s : K) (A : Nat → Res (Mat K)) (B : Nat → Mat K) (l : List Nat)
    (hA : ∀ e ∈ l, e < ne ∧ A e = .ok (B e) ∧ (B e).rows = cnt first last e ∧ (B e).cols = cnt first last e)
    (J : Mat K) (j1 : J.rows = N) (j2 : J.cols = N) :
    ∃ J', addScaled R s A l J = .ok J' ∧ J'.rows = N ∧ J'.cols = N ∧ ∀ i j, J'.get i j = J.get i j +
      (l.map fun e => at_ (first e) (cnt first last e) (first e) (cnt first last e) (fun a b => s * (B e).get a b) i j).sum := by
  apply foldlM_acc N N _ (fun e i j => at_ (first e) (cnt first last e) (first e) (cnt first last e) (fun a b => s * (B e).get a b) i j) l J j1 j2
  intro e he M m1 m2
  obtain ⟨h1, h2, h3, h4⟩ := hA e he
  obtain ⟨M', b1, b2, b3, b4⟩ := addBlock_ok M N m1 m2 (first e) (first e) (cnt first last e) (cnt first last e) (Mat.smul s (B e)) h3 h4
    (h.fits e h1) (h.fits e h1)
  exact ⟨M', by simp only [h.range e h1, h2, Res.ok_bind, b1], b2, b3, b4⟩

/-- contraction of a moment with the density block, `trace(A * Psub)` -/
def moment (first last : Nat → Nat) (A : Nat → Mat K) (P : Mat K) (e : Nat) : K :=
  ∑ c ∈ range (cnt first last e), ∑ d ∈ range (cnt first last e), (A e).get c d * P.get (first e + d) (first e + c)

theorem assembleJ_ok (h : Layout R ne N first last) (rSmall rBig : Nat → Res (Mat K)) (Sm Bg : Nat → Mat K)
    (hsm : ∀ e < ne, rSmall e = .ok (Sm e) ∧ (Sm e).rows = cnt first last e ∧ (Sm e).cols = cnt first last e)
    (hbg : ∀ e, 0 < e → e < ne → rBig e = .ok (Bg e) ∧ (Bg e).rows = cnt first last e ∧ (Bg e).cols = cnt first last e)
    (inel : (jel n : Nat) → Mat K → Res (Mat K)) (P : Mat K) (p1 : P.rows = N) (p2 : P.cols = N) (In : Nat → Mat K)
    (hin : ∀ e < ne, inel e (cnt first last e) ⟨cnt first last e, cnt first last e, fun a b => P.get (first e + a) (first e + b)⟩ = .ok (In e) ∧
      (In e).rows = cnt first last e ∧ (In e).cols = cnt first last e) :
    ∃ J, assembleJ R rSmall rBig inel P = .ok J ∧ J.rows = N ∧ J.cols = N ∧ ∀ i j, J.get i j =
      ∑ e2 ∈ range ne, (∑ e1 ∈ range e2, at_ (first e1) (cnt first last e1) (first e1) (cnt first last e1)
          (fun a b => moment first last Bg P e2 * (Sm e1).get a b) i j +
        ∑ e1 ∈ Ico (e2 + 1) ne, at_ (first e1) (cnt first last e1) (first e1) (cnt first last e1)
          (fun a b => moment first last Sm P e2 * (Bg e1).get a b) i j +
        at_ (first e2) (cnt first last e2) (first e2) (cnt first last e2) (In e2).get i j) := by
  unfold assembleJ
  rw [h.nel, h.nbf]
  obtain ⟨J, j1, j2, j3, j4⟩ := foldlM_acc N N (fun J jel => do
    let (jf, nj) ← R.range jel
    let Psub ← P.block jf jf nj nj
    let sm ← rSmall jel
    let jsm ← sm.mul Psub
    let jbig ← outerMoment rBig jel Psub
    let J ← addScaled R jbig rSmall (List.range jel) J
    let J ← addScaled R (trace jsm) rBig (List.range' (jel + 1) (ne - (jel + 1))) J
    let B ← inel jel nj Psub
    J.addBlock jf jf nj nj B)
    (fun e2 i j => (∑ e1 ∈ range e2, at_ (first e1) (cnt first last e1) (first e1) (cnt first last e1)
          (fun a b => moment first last Bg P e2 * (Sm e1).get a b) i j +
        ∑ e1 ∈ Ico (e2 + 1) ne, at_ (first e1) (cnt first last e1) (first e1) (cnt first last e1)
          (fun a b => moment first last Sm P e2 * (Bg e1).get a b) i j +
        at_ (first e2) (cnt first last e2) (first e2) (cnt first last e2) (In e2).get i j))
    (List.range ne) (Mat.zero N N) rfl rfl (by
      intro e2 he2 M m1 m2
      have he2 := List.mem_range.1 he2
      obtain ⟨s1, s2, s3⟩ := hsm e2 he2
      obtain ⟨i1, i2, i3⟩ := hin e2 he2
      have hf := h.fits e2 he2
      have hmul : ∀ A : Nat → Mat K, (A e2).rows = cnt first last e2 → (A e2).cols = cnt first last e2 →
          ∃ m, (A e2).mul ⟨cnt first last e2, cnt first last e2, fun a b => P.get (first e2 + a) (first e2 + b)⟩ = .ok m ∧ trace m = moment first last A P e2 := by
        intro A a1 a2
        refine ⟨_, if_pos a2, ?_⟩
        simp only [trace, moment, a1, a2]
      obtain ⟨ms, q1, q2⟩ := hmul Sm s2 s3
      have hbig : ∃ v, outerMoment rBig e2 ⟨cnt first last e2, cnt first last e2, fun a b => P.get (first e2 + a) (first e2 + b)⟩ = .ok v ∧ (0 < e2 → v = moment first last Bg P e2) := by
        by_cases h0 : 0 < e2
        · obtain ⟨b1, b2, b3⟩ := hbg e2 h0 he2
          obtain ⟨mb, r1, r2⟩ := hmul Bg b2 b3
          refine ⟨trace mb, ?_, fun _ => r2⟩
          rw [outerMoment, if_pos h0]
          simp only [b1, r1, Res.ok_bind, Res.pure_eq]
        · exact ⟨0, by rw [outerMoment, if_neg h0]; rfl, fun h => absurd h h0⟩
      obtain ⟨v, v1, v2⟩ := hbig
      obtain ⟨J1, x1, x2, x3, x4⟩ := addScaled_ok h v rSmall Sm (List.range e2) (by
        intro e he
        have he := List.mem_range.1 he
        exact ⟨by omega, hsm e (by omega)⟩) M m1 m2
      obtain ⟨J2, y1, y2, y3, y4⟩ := addScaled_ok h (trace ms) rBig Bg (List.range' (e2 + 1) (ne - (e2 + 1))) (by
        intro e he
        have he := List.mem_range'_1.1 he
        exact ⟨by omega, hbg e (by omega) (by omega)⟩) J1 x2 x3
      obtain ⟨J3, z1, z2, z3, z4⟩ := addBlock_ok J2 N y2 y3 (first e2) (first e2) (cnt first last e2) (cnt first last e2) (In e2) i2 i3 hf hf
      refine ⟨J3, ?_, z2, z3, ?_⟩
      · simp only [h.range e2 he2, Res.ok_bind, block_ok P N p1 p2 _ _ _ _ hf hf, s1, q1, v1, x1, y1, i1, z1]
      · intro i j
        rw [z4, y4, x4, sum_map_range, sum_map_range', q2]
        rw [show e2 + 1 + (ne - (e2 + 1)) = ne by omega]
        have : ∑ e1 ∈ range e2, at_ (first e1) (cnt first last e1) (first e1) (cnt first last e1) (fun a b => v * (Sm e1).get a b) i j =
            ∑ e1 ∈ range e2, at_ (first e1) (cnt first last e1) (first e1) (cnt first last e1) (fun a b => moment first last Bg P e2 * (Sm e1).get a b) i j := by
          apply sum_congr rfl
          intro e1 he1
          have := mem_range.1 he1
          rw [v2 (by omega)]
        rw [this]
        ring)
  refine ⟨J, j1, j2, j3, ?_⟩
  intro i j
  rw [j4, sum_map_range]
  simp [Mat.zero]

/-- the elementwise Coulomb sum is the full contraction -/
theorem coulomb_sum (h : Layout R ne N first last) (Sm Bg T In : Nat → Mat K)
    (hss : ∀ e < ne, ∀ a < cnt first last e, ∀ b < cnt first last e, (Sm e).get a b = (Sm e).get b a)
    (hbs : ∀ e, 0 < e → e < ne → ∀ a < cnt first last e, ∀ b < cnt first last e, (Bg e).get a b = (Bg e).get b a)
    (P : Mat K)
    (hIn : ∀ e < ne, ∀ a < cnt first last e, ∀ b < cnt first last e, (In e).get a b =
      ∑ c ∈ range (cnt first last e), ∑ d ∈ range (cnt first last e), (T e).get (b * cnt first last e + a) (d * cnt first last e + c) *
        P.get (first e + c) (first e + d)) (i j : Nat) :
    ∑ e2 ∈ range ne, (∑ e1 ∈ range e2, at_ (first e1) (cnt first last e1) (first e1) (cnt first last e1)
          (fun a b => moment first last Bg P e2 * (Sm e1).get a b) i j +
        ∑ e1 ∈ Ico (e2 + 1) ne, at_ (first e1) (cnt first last e1) (first e1) (cnt first last e1)
          (fun a b => moment first last Sm P e2 * (Bg e1).get a b) i j +
        at_ (first e2) (cnt first last e2) (first e2) (cnt first last e2) (In e2).get i j) =
    coulomb N (fourIndex ne first last (multipoleBlk (cnt first last) (fun e => (Sm e).get) (fun e => (Bg e).get) (fun e => (T e).get))) P.get i j := by
  rw [coulomb_blocks h, sum_comm]
  apply sum_congr rfl
  intro e2 he2
  have he2 := mem_range.1 he2
  conv_rhs => rw [range_eq_Ico, ← sum_Ico_consecutive _ (Nat.zero_le e2) he2.le, sum_eq_sum_Ico_succ_bot he2, ← range_eq_Ico]
  have hmom : ∀ A : Nat → Mat K, (∀ a < cnt first last e2, ∀ b < cnt first last e2, (A e2).get a b = (A e2).get b a) →
      moment first last A P e2 = ∑ c ∈ range (cnt first last e2), ∑ d ∈ range (cnt first last e2), (A e2).get c d * P.get (first e2 + c) (first e2 + d) := by
    intro A hA
    unfold moment
    rw [sum_comm]
    apply sum_congr rfl; intro c hc
    apply sum_congr rfl; intro d hd
    rw [hA d (mem_range.1 hd) c (mem_range.1 hc)]
  have t1 : ∑ e1 ∈ range e2, at_ (first e1) (cnt first last e1) (first e1) (cnt first last e1)
          (fun a b => moment first last Bg P e2 * (Sm e1).get a b) i j = ∑ e1 ∈ range e2, at_ (first e1) (cnt first last e1) (first e1) (cnt first last e1) (fun a b =>
        ∑ c ∈ range (cnt first last e2), ∑ d ∈ range (cnt first last e2),
          multipoleBlk (cnt first last) (fun e => (Sm e).get) (fun e => (Bg e).get) (fun e => (T e).get) e1 e2 a b c d * P.get (first e2 + c) (first e2 + d)) i j := by
    apply sum_congr rfl; intro e1 he1
    have he1 := mem_range.1 he1
    apply at_congr; intro a _ b _
    rw [hmom Bg (hbs e2 (by omega) he2), sum_mul]
    apply sum_congr rfl; intro c _
    rw [sum_mul]
    apply sum_congr rfl; intro d _
    unfold multipoleBlk
    rw [if_neg (by omega), if_pos he1]
    ring
  have t2 : ∑ e1 ∈ Ico (e2 + 1) ne, at_ (first e1) (cnt first last e1) (first e1) (cnt first last e1)
          (fun a b => moment first last Sm P e2 * (Bg e1).get a b) i j = ∑ e1 ∈ Ico (e2 + 1) ne, at_ (first e1) (cnt first last e1) (first e1) (cnt first last e1) (fun a b =>
        ∑ c ∈ range (cnt first last e2), ∑ d ∈ range (cnt first last e2),
          multipoleBlk (cnt first last) (fun e => (Sm e).get) (fun e => (Bg e).get) (fun e => (T e).get) e1 e2 a b c d * P.get (first e2 + c) (first e2 + d)) i j := by
    apply sum_congr rfl; intro e1 he1
    have he1 := mem_Ico.1 he1
    apply at_congr; intro a _ b _
    rw [hmom Sm (hss e2 he2), sum_mul]
    apply sum_congr rfl; intro c _
    rw [sum_mul]
    apply sum_congr rfl; intro d _
    unfold multipoleBlk
    rw [if_neg (by omega), if_neg (by omega)]
    ring
  have t3 : at_ (first e2) (cnt first last e2) (first e2) (cnt first last e2) (In e2).get i j = at_ (first e2) (cnt first last e2) (first e2) (cnt first last e2) (fun a b =>
        ∑ c ∈ range (cnt first last e2), ∑ d ∈ range (cnt first last e2),
          multipoleBlk (cnt first last) (fun e => (Sm e).get) (fun e => (Bg e).get) (fun e => (T e).get) e2 e2 a b c d * P.get (first e2 + c) (first e2 + d)) i j := by
    apply at_congr; intro a ha b hb
    rw [hIn e2 he2 a ha b hb]
    simp [multipoleBlk]
  rw [t1, t2, t3]
  ring

theorem denseJ_ok (T : Mat K) (n : Nat) (t1 : T.rows = n * n) (t2 : T.cols = n * n) (P : Nat → Nat → K) (twoe : Nat → Res (Mat K)) (e : Nat)
    (ht : twoe e = .ok T) :
    ∃ B, denseJ twoe e n ⟨n, n, P⟩ = .ok B ∧ B.rows = n ∧ B.cols = n ∧ ∀ a < n, ∀ b < n, B.get a b =
      ∑ c ∈ range n, ∑ d ∈ range n, T.get (b * n + a) (d * n + c) * P c d := by
  unfold denseJ mulVec vec unvec
  simp only [ht, Res.ok_bind, t2, if_true, t1, le_refl]
  refine ⟨_, rfl, rfl, rfl, ?_⟩
  intro a _ b _
  simp only
  have := sum_flat n n (fun c d => T.get (b * n + a) (d * n + c) * P c d)
  rw [sum_comm] at this
  rw [← this]
  apply sum_congr rfl
  intro k _
  rw [show k / n * n + k % n = k by rw [Nat.mul_comm]; exact Nat.div_add_mod k n]

/-- **C20.** For any number of elements, any density `P` (symmetric or not) and any integrals, the Coulomb assembly returns
`J_ij = Σ_kl (ij|kl) P_kl` with the full four-index tensor, every element pair counted once. The outer moments of the innermost element are
never read (nothing is assumed about `rBig 0`). -/
theorem C20_coulomb (h : Layout R ne N first last) (rSmall rBig twoe : Nat → Res (Mat K)) (Sm Bg T : Nat → Mat K)
    (hsm : ∀ e < ne, rSmall e = .ok (Sm e) ∧ (Sm e).rows = cnt first last e ∧ (Sm e).cols = cnt first last e)
    (hbg : ∀ e, 0 < e → e < ne → rBig e = .ok (Bg e) ∧ (Bg e).rows = cnt first last e ∧ (Bg e).cols = cnt first last e)
    (htw : ∀ e < ne, twoe e = .ok (T e) ∧ (T e).rows = cnt first last e * cnt first last e ∧ (T e).cols = cnt first last e * cnt first last e)
    (hss : ∀ e < ne, ∀ a < cnt first last e, ∀ b < cnt first last e, (Sm e).get a b = (Sm e).get b a)
    (hbs : ∀ e, 0 < e → e < ne → ∀ a < cnt first last e, ∀ b < cnt first last e, (Bg e).get a b = (Bg e).get b a)
    (P : Mat K) (p1 : P.rows = N) (p2 : P.cols = N) :
    ∃ J, assembleJ R rSmall rBig (denseJ twoe) P = .ok J ∧ J.rows = N ∧ J.cols = N ∧ ∀ i < N, ∀ j < N,
      J.get i j = coulomb N (fourIndex ne first last (multipoleBlk (cnt first last) (fun e => (Sm e).get) (fun e => (Bg e).get)
        (fun e => (T e).get))) P.get i j := by
  have : Nonempty (Mat K) := ⟨Mat.zero 0 0⟩
  have hin := fun e (he : e < ne) => denseJ_ok (T e) (cnt first last e) (htw e he).2.1 (htw e he).2.2 (fun a b => P.get (first e + a) (first e + b)) twoe e (htw e he).1
  choose! In i1 i2 i3 i4 using hin
  obtain ⟨J, j1, j2, j3, j4⟩ := assembleJ_ok h rSmall rBig Sm Bg hsm hbg (denseJ twoe) P p1 p2 In (fun e he => ⟨i1 e he, i2 e he, i3 e he⟩)
  refine ⟨J, j1, j2, j3, fun i _ j _ => ?_⟩
  rw [j4, coulomb_sum h Sm Bg T In hss hbs P i4]

theorem cholJ_ok (L T : Mat K) (n : Nat) (l1 : L.rows = n * n)
    (hLT : ∀ r < n * n, ∀ c < n * n, ∑ p ∈ range L.cols, L.get r p * L.get c p = T.get r c) (P : Nat → Nat → K) (fac : Nat → Res (Mat K)) (e : Nat)
    (ht : fac e = .ok L) :
    ∃ B, cholJ fac e n ⟨n, n, P⟩ = .ok B ∧ B.rows = n ∧ B.cols = n ∧ ∀ a < n, ∀ b < n, B.get a b =
      ∑ c ∈ range n, ∑ d ∈ range n, T.get (b * n + a) (d * n + c) * P c d := by
  unfold cholJ mulVec vec unvec Mat.transpose
  simp only [ht, Res.ok_bind, l1, if_true, le_refl]
  refine ⟨_, rfl, rfl, rfl, ?_⟩
  intro a ha b hb
  simp only
  have := sum_flat n n (fun c d => T.get (b * n + a) (d * n + c) * P c d)
  rw [sum_comm] at this
  rw [← this]
  simp only [mul_sum]
  rw [sum_comm]
  apply sum_congr rfl
  intro k hk
  rw [show k / n * n + k % n = k by rw [Nat.mul_comm]; exact Nat.div_add_mod k n, ← hLT _ (pair_lt hb ha) k (mem_range.1 hk), sum_mul]
  apply sum_congr rfl
  intro p _
  ring

/-- **C22, Coulomb.** With any factor `L` reproducing the in-element integrals, the factorised assembly gives the same Coulomb matrix. -/
theorem C22_coulomb_factorised (h : Layout R ne N first last) (rSmall rBig fac : Nat → Res (Mat K)) (Sm Bg T L : Nat → Mat K)
    (hsm : ∀ e < ne, rSmall e = .ok (Sm e) ∧ (Sm e).rows = cnt first last e ∧ (Sm e).cols = cnt first last e)
    (hbg : ∀ e, 0 < e → e < ne → rBig e = .ok (Bg e) ∧ (Bg e).rows = cnt first last e ∧ (Bg e).cols = cnt first last e)
    (hfac : ∀ e < ne, fac e = .ok (L e) ∧ (L e).rows = cnt first last e * cnt first last e)
    (hLT : ∀ e < ne, ∀ r < cnt first last e * cnt first last e, ∀ c < cnt first last e * cnt first last e,
      ∑ p ∈ range (L e).cols, (L e).get r p * (L e).get c p = (T e).get r c)
    (hss : ∀ e < ne, ∀ a < cnt first last e, ∀ b < cnt first last e, (Sm e).get a b = (Sm e).get b a)
    (hbs : ∀ e, 0 < e → e < ne → ∀ a < cnt first last e, ∀ b < cnt first last e, (Bg e).get a b = (Bg e).get b a)
    (P : Mat K) (p1 : P.rows = N) (p2 : P.cols = N) :
    ∃ J, assembleJ R rSmall rBig (cholJ fac) P = .ok J ∧ J.rows = N ∧ J.cols = N ∧ ∀ i < N, ∀ j < N,
      J.get i j = coulomb N (fourIndex ne first last (multipoleBlk (cnt first last) (fun e => (Sm e).get) (fun e => (Bg e).get)
        (fun e => (T e).get))) P.get i j := by
  have : Nonempty (Mat K) := ⟨Mat.zero 0 0⟩
  have hin := fun e (he : e < ne) => cholJ_ok (L e) (T e) (cnt first last e) (hfac e he).2 (hLT e he) (fun a b => P.get (first e + a) (first e + b)) fac e (hfac e he).1
  choose! In i1 i2 i3 i4 using hin
  obtain ⟨J, j1, j2, j3, j4⟩ := assembleJ_ok h rSmall rBig Sm Bg hsm hbg (cholJ fac) P p1 p2 In (fun e he => ⟨i1 e he, i2 e he, i3 e he⟩)
  refine ⟨J, j1, j2, j3, fun i _ j _ => ?_⟩
  rw [j4, coulomb_sum h Sm Bg T In hss hbs P i4]

/-! ### exchange -/

theorem assembleK_ok (h : Layout R ne N first last) (blk : (iel jel ni nj : Nat) → Mat K → Res (Mat K)) (P : Mat K) (p1 : P.rows = N) (p2 : P.cols = N)
    (B : Nat → Nat → Mat K)
    (hB : ∀ e1 < ne, ∀ e2 < ne, blk e1 e2 (cnt first last e1) (cnt first last e2)
        ⟨cnt first last e1, cnt first last e2, fun a b => P.get (first e1 + a) (first e2 + b)⟩ = .ok (B e1 e2) ∧
      (B e1 e2).rows = cnt first last e1 ∧ (B e1 e2).cols = cnt first last e2) :
    ∃ M, assembleK R blk P = .ok M ∧ M.rows = N ∧ M.cols = N ∧ ∀ i j, M.get i j =
      ∑ e1 ∈ range ne, ∑ e2 ∈ range ne, at_ (first e1) (cnt first last e1) (first e2) (cnt first last e2) (B e1 e2).get i j := by
  unfold assembleK
  rw [h.nel, h.nbf]
  obtain ⟨M, m1, m2, m3, m4⟩ := foldlM_acc N N (fun Km iel => do
    let (fi, ni) ← R.range iel
    (List.range ne).foldlM (fun Km jel => do
      let (fj, nj) ← R.range jel
      let Psub ← P.block fi fj ni nj
      let B ← blk iel jel ni nj Psub
      Km.addBlock fi fj ni nj B) Km)
    (fun e1 i j => ∑ e2 ∈ range ne, at_ (first e1) (cnt first last e1) (first e2) (cnt first last e2) (B e1 e2).get i j)
    (List.range ne) (Mat.zero N N) rfl rfl (by
      intro e1 he1 M m1 m2
      have he1 := List.mem_range.1 he1
      simp only [h.range e1 he1, Res.ok_bind]
      obtain ⟨M', a1, a2, a3, a4⟩ := foldlM_acc N N (fun Km jel => do
        let (fj, nj) ← R.range jel
        let Psub ← P.block (first e1) fj (cnt first last e1) nj
        let B ← blk e1 jel (cnt first last e1) nj Psub
        Km.addBlock (first e1) fj (cnt first last e1) nj B)
        (fun e2 i j => at_ (first e1) (cnt first last e1) (first e2) (cnt first last e2) (B e1 e2).get i j)
        (List.range ne) M m1 m2 (by
          intro e2 he2 M m1 m2
          have he2 := List.mem_range.1 he2
          obtain ⟨b1, b2, b3⟩ := hB e1 he1 e2 he2
          have f1 := h.fits e1 he1
          have f2 := h.fits e2 he2
          simp only [h.range e2 he2, Res.ok_bind, block_ok P N p1 p2 _ _ _ _ f1 f2, b1]
          exact addBlock_ok M N m1 m2 _ _ _ _ (B e1 e2) b2 b3 f1 f2)
      refine ⟨M', a1, a2, a3, ?_⟩
      intro i j
      rw [a4, sum_map_range])
  refine ⟨M, m1, m2, m3, ?_⟩
  intro i j
  rw [m4, sum_map_range]
  simp [Mat.zero]

/-- permuted tensor times packed density block -/
theorem ktei_apply (tei : Mat K) (ni nj : Nat) (t1 : tei.rows = ni * ni) (t2 : tei.cols = nj * nj)
    (hsym : ∀ a < ni, ∀ b < ni, ∀ m < nj * nj, tei.get (b * ni + a) m = tei.get (a * ni + b) m) (P : Nat → Nat → K) :
    ∃ B, (do let t ← exchangeTei tei ni ni nj nj; let v ← mulVec t (vec ⟨ni, nj, P⟩); unvec v ni nj) = .ok B ∧ B.rows = ni ∧ B.cols = nj ∧
      ∀ a < ni, ∀ c < nj, B.get a c = ∑ b ∈ range ni, ∑ d ∈ range nj, tei.get (b * ni + a) (d * nj + c) * P b d := by
  obtain ⟨M, m1, m2, m3, m4⟩ := C18_exchange tei ni ni nj nj t1 t2
  simp only [m1, Res.ok_bind]
  unfold mulVec vec unvec
  simp only [Res.ok_bind, m3, if_true, m2, le_refl]
  refine ⟨_, rfl, rfl, rfl, ?_⟩
  intro a ha c hc
  simp only
  have := sum_flat ni nj (fun b d => M.get (c * ni + a) (d * ni + b) * P b d)
  rw [sum_comm] at this
  rw [show (∑ k ∈ range (ni * nj), M.get (c * ni + a) k * P (k % ni) (k / ni)) = ∑ k ∈ range (ni * nj), M.get (c * ni + a) (k / ni * ni + k % ni) * P (k % ni) (k / ni) from
    sum_congr rfl fun k _ => by rw [show k / ni * ni + k % ni = k by rw [Nat.mul_comm]; exact Nat.div_add_mod k ni], this]
  apply sum_congr rfl; intro b hb
  apply sum_congr rfl; intro d hd
  rw [m4 b (mem_range.1 hb) a ha c hc d (mem_range.1 hd), hsym a ha b (mem_range.1 hb) _ (pair_lt (mem_range.1 hd) hc)]

theorem disjointK_ok (rSmall rBig : Nat → Res (Mat K)) (e1 e2 n1 n2 : Nat) (I1 I2 : Mat K)
    (h1 : pick (e2 < e1) (rBig e1) (rSmall e1) = .ok I1) (h2 : pick (e2 < e1) (rSmall e2) (rBig e2) = .ok I2)
    (i1 : I1.rows = n1) (i2 : I1.cols = n1) (i3 : I2.rows = n2) (i4 : I2.cols = n2) (P : Nat → Nat → K) :
    ∃ B, disjointK rSmall rBig e1 e2 ⟨n1, n2, P⟩ = .ok B ∧ B.rows = n1 ∧ B.cols = n2 ∧
      ∀ a c, B.get a c = ∑ b ∈ range n1, ∑ d ∈ range n2, I1.get a b * I2.get c d * P b d := by
  unfold disjointK
  simp only [h1, h2, Res.ok_bind, Mat.mul, Mat.transpose, i1, i2, i3, i4, if_true]
  refine ⟨_, rfl, rfl, rfl, ?_⟩
  intro a c
  simp only [mul_sum]
  apply sum_congr rfl; intro b _
  apply sum_congr rfl; intro d _
  ring

/-- the cached assembly with any in-element routine that contracts the stored integrals -/
theorem cachedK_ok (h : Layout R ne N first last) (rSmall rBig : Nat → Res (Mat K)) (Sm Bg T : Nat → Mat K)
    (hsm : ∀ e < ne, rSmall e = .ok (Sm e) ∧ (Sm e).rows = cnt first last e ∧ (Sm e).cols = cnt first last e)
    (hbg : ∀ e, 0 < e → e < ne → rBig e = .ok (Bg e) ∧ (Bg e).rows = cnt first last e ∧ (Bg e).cols = cnt first last e)
    (inel : (iel ni nj : Nat) → Mat K → Res (Mat K)) (P : Mat K) (p1 : P.rows = N) (p2 : P.cols = N)
    (hin : ∀ e < ne, ∃ B, inel e (cnt first last e) (cnt first last e) ⟨cnt first last e, cnt first last e, fun a b => P.get (first e + a) (first e + b)⟩ = .ok B ∧
      B.rows = cnt first last e ∧ B.cols = cnt first last e ∧ ∀ a < cnt first last e, ∀ c < cnt first last e, B.get a c =
        ∑ b ∈ range (cnt first last e), ∑ d ∈ range (cnt first last e),
          (T e).get (b * cnt first last e + a) (d * cnt first last e + c) * P.get (first e + b) (first e + d)) :
    ∃ M, assembleK R (cachedBlk rSmall rBig inel) P = .ok M ∧ M.rows = N ∧ M.cols = N ∧ ∀ i < N, ∀ k < N,
      M.get i k = exchange N (fourIndex ne first last (multipoleBlk (cnt first last) (fun e => (Sm e).get) (fun e => (Bg e).get)
        (fun e => (T e).get))) P.get i k := by
  have : Nonempty (Mat K) := ⟨Mat.zero 0 0⟩
  have hblk : ∀ e1 e2, e1 < ne → e2 < ne → ∃ B, cachedBlk rSmall rBig inel e1 e2 (cnt first last e1) (cnt first last e2)
      ⟨cnt first last e1, cnt first last e2, fun a b => P.get (first e1 + a) (first e2 + b)⟩ = .ok B ∧
      B.rows = cnt first last e1 ∧ B.cols = cnt first last e2 ∧ ∀ a < cnt first last e1, ∀ c < cnt first last e2, B.get a c =
        ∑ b ∈ range (cnt first last e1), ∑ d ∈ range (cnt first last e2),
          multipoleBlk (cnt first last) (fun e => (Sm e).get) (fun e => (Bg e).get) (fun e => (T e).get) e1 e2 a b c d *
            P.get (first e1 + b) (first e2 + d) := by
    intro e1 e2 he1 he2
    by_cases heq : e1 = e2
    · subst heq
      obtain ⟨B, b1, b2, b3, b4⟩ := hin e1 he1
      refine ⟨B, by rw [cachedBlk, if_pos rfl]; exact b1, b2, b3, ?_⟩
      intro a ha c hc
      rw [b4 a ha c hc]
      simp [multipoleBlk]
    · by_cases hlt : e2 < e1
      · obtain ⟨g1, g2, g3⟩ := hbg e1 (by omega) he1
        obtain ⟨s1, s2, s3⟩ := hsm e2 he2
        obtain ⟨B, b1, b2, b3, b4⟩ := disjointK_ok rSmall rBig e1 e2 (cnt first last e1) (cnt first last e2) (Bg e1) (Sm e2)
          (by rw [pick, if_pos hlt, g1]) (by rw [pick, if_pos hlt, s1]) g2 g3 s2 s3 (fun a b => P.get (first e1 + a) (first e2 + b))
        refine ⟨B, by rw [cachedBlk, if_neg heq]; exact b1, b2, b3, ?_⟩
        intro a _ c _
        rw [b4 a c]
        simp only [multipoleBlk, if_neg heq, if_neg (show ¬ e1 < e2 by omega)]
      · obtain ⟨g1, g2, g3⟩ := hbg e2 (by omega) he2
        obtain ⟨s1, s2, s3⟩ := hsm e1 he1
        obtain ⟨B, b1, b2, b3, b4⟩ := disjointK_ok rSmall rBig e1 e2 (cnt first last e1) (cnt first last e2) (Sm e1) (Bg e2)
          (by rw [pick, if_neg hlt, s1]) (by rw [pick, if_neg hlt, g1]) s2 s3 g2 g3 (fun a b => P.get (first e1 + a) (first e2 + b))
        refine ⟨B, by rw [cachedBlk, if_neg heq]; exact b1, b2, b3, ?_⟩
        intro a _ c _
        rw [b4 a c]
        simp only [multipoleBlk, if_neg heq, if_pos (show e1 < e2 by omega)]
  choose! B b1 b2 b3 b4 using hblk
  obtain ⟨M, m1, m2, m3, m4⟩ := assembleK_ok h (cachedBlk rSmall rBig inel) P p1 p2 B (fun e1 h1 e2 h2 => ⟨b1 e1 e2 h1 h2, b2 e1 e2 h1 h2, b3 e1 e2 h1 h2⟩)
  refine ⟨M, m1, m2, m3, ?_⟩
  intro i _ k _
  rw [m4, exchange_blocks h]
  apply sum_congr rfl; intro e1 he1
  apply sum_congr rfl; intro e2 he2
  exact at_congr _ _ _ _ _ _ (fun a ha c hc => b4 e1 e2 (mem_range.1 he1) (mem_range.1 he2) a ha c hc) i k

/-- **C21.** For any number of elements, any density and any integrals with the natural symmetry `(ab|cd) = (ba|cd)` inside an element, the
exchange assembly with the permuted tensors returns `K_ik = Σ_jl (ij|kl) P_jl` with the full four-index tensor, every element
pair counted once. -/
theorem C21_exchange (h : Layout R ne N first last) (rSmall rBig tei : Nat → Res (Mat K)) (Sm Bg T : Nat → Mat K)
    (hsm : ∀ e < ne, rSmall e = .ok (Sm e) ∧ (Sm e).rows = cnt first last e ∧ (Sm e).cols = cnt first last e)
    (hbg : ∀ e, 0 < e → e < ne → rBig e = .ok (Bg e) ∧ (Bg e).rows = cnt first last e ∧ (Bg e).cols = cnt first last e)
    (htw : ∀ e < ne, tei e = .ok (T e) ∧ (T e).rows = cnt first last e * cnt first last e ∧ (T e).cols = cnt first last e * cnt first last e)
    (hsym : ∀ e < ne, ∀ a < cnt first last e, ∀ b < cnt first last e, ∀ m < cnt first last e * cnt first last e,
      (T e).get (b * cnt first last e + a) m = (T e).get (a * cnt first last e + b) m)
    (P : Mat K) (p1 : P.rows = N) (p2 : P.cols = N) :
    ∃ M, assembleK R (cachedBlk rSmall rBig (denseK (kteiOf R tei))) P = .ok M ∧ M.rows = N ∧ M.cols = N ∧ ∀ i < N, ∀ k < N,
      M.get i k = exchange N (fourIndex ne first last (multipoleBlk (cnt first last) (fun e => (Sm e).get) (fun e => (Bg e).get)
        (fun e => (T e).get))) P.get i k := by
  apply cachedK_ok h rSmall rBig Sm Bg T hsm hbg _ P p1 p2
  intro e he
  obtain ⟨t1, t2, t3⟩ := htw e he
  obtain ⟨B, b1, b2⟩ := ktei_apply (T e) (cnt first last e) (cnt first last e) t2 t3 (hsym e he) (fun a b => P.get (first e + a) (first e + b))
  refine ⟨B, ?_, b2⟩
  unfold denseK kteiOf
  rw [h.range e he]
  simp only [Res.ok_bind, t1]
  exact b1

/-- **C21, non-separable kernels.** The pairwise assembly, with one permuted tensor per element pair, returns the exchange contraction of the
tensor with these blocks. -/
theorem C21_exchange_pairwise (h : Layout R ne N first last) (erfc : Nat → Nat → Res (Mat K)) (T : Nat → Nat → Mat K)
    (htw : ∀ e1 < ne, ∀ e2 < ne, erfc e1 e2 = .ok (T e1 e2) ∧ (T e1 e2).rows = cnt first last e1 * cnt first last e1 ∧
      (T e1 e2).cols = cnt first last e2 * cnt first last e2)
    (hsym : ∀ e1 < ne, ∀ e2 < ne, ∀ a < cnt first last e1, ∀ b < cnt first last e1, ∀ m < cnt first last e2 * cnt first last e2,
      (T e1 e2).get (b * cnt first last e1 + a) m = (T e1 e2).get (a * cnt first last e1 + b) m)
    (P : Mat K) (p1 : P.rows = N) (p2 : P.cols = N) :
    ∃ M, assembleK R (pairBlk (erfcKteiOf R erfc)) P = .ok M ∧ M.rows = N ∧ M.cols = N ∧ ∀ i < N, ∀ k < N,
      M.get i k = exchange N (fourIndex ne first last fun e1 e2 a b c d =>
        (T e1 e2).get (b * cnt first last e1 + a) (d * cnt first last e2 + c)) P.get i k := by
  have : Nonempty (Mat K) := ⟨Mat.zero 0 0⟩
  have hblk : ∀ e1 e2, e1 < ne → e2 < ne → ∃ B, pairBlk (erfcKteiOf R erfc) e1 e2 (cnt first last e1) (cnt first last e2)
      ⟨cnt first last e1, cnt first last e2, fun a b => P.get (first e1 + a) (first e2 + b)⟩ = .ok B ∧
      B.rows = cnt first last e1 ∧ B.cols = cnt first last e2 ∧ ∀ a < cnt first last e1, ∀ c < cnt first last e2, B.get a c =
        ∑ b ∈ range (cnt first last e1), ∑ d ∈ range (cnt first last e2),
          (T e1 e2).get (b * cnt first last e1 + a) (d * cnt first last e2 + c) * P.get (first e1 + b) (first e2 + d) := by
    intro e1 e2 he1 he2
    obtain ⟨t1, t2, t3⟩ := htw e1 he1 e2 he2
    obtain ⟨B, b1, b2⟩ := ktei_apply (T e1 e2) (cnt first last e1) (cnt first last e2) t2 t3 (hsym e1 he1 e2 he2) (fun a b => P.get (first e1 + a) (first e2 + b))
    refine ⟨B, ?_, b2⟩
    unfold pairBlk erfcKteiOf
    rw [h.range e1 he1, h.range e2 he2]
    simp only [Res.ok_bind, t1]
    exact b1
  choose! B b1 b2 b3 b4 using hblk
  obtain ⟨M, m1, m2, m3, m4⟩ := assembleK_ok h _ P p1 p2 B (fun e1 h1 e2 h2 => ⟨b1 e1 e2 h1 h2, b2 e1 e2 h1 h2, b3 e1 e2 h1 h2⟩)
  refine ⟨M, m1, m2, m3, ?_⟩
  intro i _ k _
  rw [m4, exchange_blocks h]
  apply sum_congr rfl; intro e1 he1
  apply sum_congr rfl; intro e2 he2
  exact at_congr _ _ _ _ _ _ (fun a ha c hc => b4 e1 e2 (mem_range.1 he1) (mem_range.1 he2) a ha c hc) i k

theorem cholK_ok (L T : Mat K) (n : Nat) (l1 : L.rows = n * n)
    (hLT : ∀ r < n * n, ∀ c < n * n, ∑ p ∈ range L.cols, L.get r p * L.get c p = T.get r c) (P : Nat → Nat → K) (fac : Nat → Res (Mat K)) (e : Nat)
    (ht : fac e = .ok L) :
    ∃ B, cholK fac e n n ⟨n, n, P⟩ = .ok B ∧ B.rows = n ∧ B.cols = n ∧ ∀ a < n, ∀ c < n, B.get a c =
      ∑ b ∈ range n, ∑ d ∈ range n, T.get (b * n + a) (d * n + c) * P b d := by
  unfold cholK
  simp only [ht, Res.ok_bind]
  obtain ⟨B, b1, b2, b3, b4⟩ := foldlM_acc n n (fun Ks p => do
    let Mp ← unvec ⟨L.rows, fun i => L.get i p⟩ n n
    let t ← Mat.mul ⟨n, n, P⟩ Mp.transpose
    let u ← Mp.mul t
    Ks.add u) (fun p a c => ∑ b ∈ range n, L.get (b * n + a) p * ∑ d ∈ range n, P b d * L.get (d * n + c) p)
    (List.range L.cols) (Mat.zero n n) rfl rfl (by
      intro p _ M m1 m2
      unfold unvec Mat.mul Mat.add Mat.transpose
      simp only [l1, le_refl, if_true, Res.ok_bind, m1, m2, and_self]
      exact ⟨_, rfl, rfl, rfl, fun _ _ => rfl⟩)
  refine ⟨B, b1, b2, b3, ?_⟩
  intro a ha c hc
  rw [b4, sum_map_range]
  simp only [Mat.zero, zero_add, mul_sum]
  rw [sum_comm]
  apply sum_congr rfl; intro b hb
  rw [sum_comm]
  apply sum_congr rfl; intro d hd
  rw [← hLT _ (pair_lt (mem_range.1 hb) ha) _ (pair_lt (mem_range.1 hd) hc), sum_mul]
  apply sum_congr rfl; intro p _
  ring

/-- **C22, exchange.** With any factor reproducing the in-element integrals, the factorised assembly gives the same exchange matrix. -/
theorem C22_exchange_factorised (h : Layout R ne N first last) (rSmall rBig fac : Nat → Res (Mat K)) (Sm Bg T L : Nat → Mat K)
    (hsm : ∀ e < ne, rSmall e = .ok (Sm e) ∧ (Sm e).rows = cnt first last e ∧ (Sm e).cols = cnt first last e)
    (hbg : ∀ e, 0 < e → e < ne → rBig e = .ok (Bg e) ∧ (Bg e).rows = cnt first last e ∧ (Bg e).cols = cnt first last e)
    (hfac : ∀ e < ne, fac e = .ok (L e) ∧ (L e).rows = cnt first last e * cnt first last e)
    (hLT : ∀ e < ne, ∀ r < cnt first last e * cnt first last e, ∀ c < cnt first last e * cnt first last e,
      ∑ p ∈ range (L e).cols, (L e).get r p * (L e).get c p = (T e).get r c)
    (P : Mat K) (p1 : P.rows = N) (p2 : P.cols = N) :
    ∃ M, assembleK R (cachedBlk rSmall rBig (cholK fac)) P = .ok M ∧ M.rows = N ∧ M.cols = N ∧ ∀ i < N, ∀ k < N,
      M.get i k = exchange N (fourIndex ne first last (multipoleBlk (cnt first last) (fun e => (Sm e).get) (fun e => (Bg e).get)
        (fun e => (T e).get))) P.get i k := by
  apply cachedK_ok h rSmall rBig Sm Bg T hsm hbg _ P p1 p2
  intro e he
  exact cholK_ok (L e) (T e) (cnt first last e) (hfac e he).2 (hLT e he) (fun a b => P.get (first e + a) (first e + b)) fac e (hfac e he).1

/-! ### non-vacuity: two elements sharing a function -/

def exR : Radial := ⟨2, 3, fun e => if e = 0 then .ok (0, 1) else .ok (1, 2)⟩

theorem exLayout : Layout exR 2 3 (fun e => e) (fun e => e + 1) := by
  refine ⟨rfl, rfl, ?_, ?_, ?_⟩ <;> intro e he <;> interval_cases e <;> first | rfl | decide

/-- distinct integrals; the outer moment of element 0 does not exist; a nonsymmetric density -/
example : ∃ J, assembleJ exR (fun e => .ok ⟨2, 2, fun a b => (e + a + b + 1 : ℚ)⟩) (fun e => if e = 0 then .ub else .ok ⟨2, 2, fun a b => (7 + a * b : ℚ)⟩)
    (denseJ fun e => .ok ⟨4, 4, fun r c => (100 + 3 * e + r * c : ℚ)⟩) ⟨3, 3, fun i j => (i + 2 * j : ℚ)⟩ = .ok J ∧ J.rows = 3 := by
  obtain ⟨J, h1, h2, _, _⟩ := C20_coulomb exLayout (fun e => .ok ⟨2, 2, fun a b => (e + a + b + 1 : ℚ)⟩) (fun e => if e = 0 then .ub else .ok ⟨2, 2, fun a b => (7 + a * b : ℚ)⟩)
    (fun e => .ok ⟨4, 4, fun r c => (100 + 3 * e + r * c : ℚ)⟩) (fun e => ⟨2, 2, fun a b => (e + a + b + 1 : ℚ)⟩) (fun _ => ⟨2, 2, fun a b => (7 + a * b : ℚ)⟩)
    (fun e => ⟨4, 4, fun r c => (100 + 3 * e + r * c : ℚ)⟩) (by intro e he; interval_cases e <;> exact ⟨rfl, rfl, rfl⟩)
    (by intro e h0 he; interval_cases e; exact ⟨rfl, rfl, rfl⟩) (by intro e he; interval_cases e <;> exact ⟨rfl, rfl, rfl⟩)
    (by intro e _ a _ b _; simp only; ring) (by intro e _ _ a _ b _; simp only; ring) ⟨3, 3, fun i j => (i + 2 * j : ℚ)⟩ rfl rfl
  exact ⟨J, h1, h2⟩

example : ∃ M, assembleK exR (cachedBlk (fun e => .ok ⟨2, 2, fun a b => (e + a + b + 1 : ℚ)⟩) (fun e => if e = 0 then .ub else .ok ⟨2, 2, fun a b => (7 + a * b : ℚ)⟩)
    (cholK fun _ => .ok ⟨4, 2, fun r p => (r + 1 + p : ℚ)⟩)) ⟨3, 3, fun i j => (i + 2 * j : ℚ)⟩ = .ok M ∧ M.rows = 3 := by
  obtain ⟨J, h1, h2, _, _⟩ := C22_exchange_factorised exLayout (fun e => .ok ⟨2, 2, fun a b => (e + a + b + 1 : ℚ)⟩) (fun e => if e = 0 then .ub else .ok ⟨2, 2, fun a b => (7 + a * b : ℚ)⟩)
    (fun _ => .ok ⟨4, 2, fun r p => (r + 1 + p : ℚ)⟩) (fun e => ⟨2, 2, fun a b => (e + a + b + 1 : ℚ)⟩) (fun _ => ⟨2, 2, fun a b => (7 + a * b : ℚ)⟩)
    (fun _ => ⟨4, 4, fun r c => ∑ p ∈ range 2, (r + 1 + p : ℚ) * (c + 1 + p)⟩) (fun _ => ⟨4, 2, fun r p => (r + 1 + p : ℚ)⟩)
    (by intro e he; interval_cases e <;> exact ⟨rfl, rfl, rfl⟩)
    (by intro e h0 he; interval_cases e; exact ⟨rfl, rfl, rfl⟩) (by intro e he; interval_cases e <;> exact ⟨rfl, rfl⟩)
    (by intro e _ r _ c _; rfl) ⟨3, 3, fun i j => (i + 2 * j : ℚ)⟩ rfl rfl
  exact ⟨J, h1, h2⟩

end TwoE
end HelFEM
