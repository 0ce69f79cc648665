import Verif.Lemmas.AtomicJK

/-! Lemmas on the atomic exchange matrix. -/

namespace HelFEM
namespace AtomJK
open Finset Spec TwoE Sym

variable {G : Nat → Int → Nat → Int → Nat → Int → ℝ} {lm : List (Int × Int)} {lmax nrad : Nat} {T : Gaunt.Table ℝ}

/-- the helpers hold `nrad × nrad` matrices with entries `F L a b`; uncoupled ones are zero -/
def HIs (nl nrad : Nat) (h : Helpers) (F : Nat → Nat → Nat → ℝ) : Prop :=
  ∀ L < nl, (h.mat L).rows = nrad ∧ (h.mat L).cols = nrad ∧ (∀ a < nrad, ∀ b < nrad, (h.mat L).get a b = F L a b) ∧
    (h.couple L = false → ∀ a < nrad, ∀ b < nrad, F L a b = 0)

theorem HIs.congr {nl : Nat} {h : Helpers} {F F' : Nat → Nat → Nat → ℝ} (hF : HIs nl nrad h F) (he : ∀ L < nl, ∀ a < nrad, ∀ b < nrad, F L a b = F' L a b) :
    HIs nl nrad h F' := by
  intro L hL
  obtain ⟨h1, h2, h3, h4⟩ := hF L hL
  exact ⟨h1, h2, fun a ha b hb => by rw [h3 a ha b hb, he L hL a ha b hb], fun hc a ha b hb => by rw [← he L hL a ha b hb]; exact h4 hc a ha b hb⟩

theorem his_init (nl nrad : Nat) : HIs nl nrad ⟨fun _ => Mat.zero nrad nrad, fun _ => false⟩ (fun _ _ _ => 0) :=
  fun _ _ => ⟨rfl, rfl, fun _ _ _ _ => rfl, fun _ _ _ _ _ => rfl⟩

theorem exAdd_is {nl : Nat} {h : Helpers} {F : Nat → Nat → Nat → ℝ} (hF : HIs nl nrad h F) (fac : Nat → ℝ) (L : Nat) (hL : L < nl) (cpl : ℝ) (B : Mat ℝ)
    (b1 : B.rows = nrad) (b2 : B.cols = nrad) :
    ∃ h', exAdd nl fac B h L cpl = .ok h' ∧ HIs nl nrad h' (fun L' a b => F L' a b + if L' = L then fac L * cpl * B.get a b else 0) := by
  unfold exAdd
  by_cases hz : cpl = 0
  · rw [if_pos hz]
    refine ⟨h, rfl, hF.congr ?_⟩
    intro L' _ a _ b _
    simp [hz]
  · rw [if_neg hz]
    obtain ⟨h1, h2, h3, h4⟩ := hF L hL
    unfold Helpers.add
    rw [if_pos hL, show (h.mat L).add (Mat.smul (fac L * cpl) B) = .ok ⟨(h.mat L).rows, (h.mat L).cols, fun i j => (h.mat L).get i j + (Mat.smul (fac L * cpl) B).get i j⟩ from
      if_pos ⟨by rw [h1]; exact b1.symm, by rw [h2]; exact b2.symm⟩, Res.ok_bind]
    refine ⟨_, rfl, ?_⟩
    intro L' hL'
    by_cases hc : L' = L
    · subst hc
      refine ⟨by simp only [if_true]; exact h1, by simp only [if_true]; exact h2, ?_, ?_⟩
      · intro a ha b hb
        simp only [if_true]
        rw [h3 a ha b hb]; rfl
      · intro hf; exact absurd hf (by simp)
    · obtain ⟨q1, q2, q3, q4⟩ := hF L' hL'
      simp only [if_neg hc, add_zero]
      exact ⟨q1, q2, q3, q4⟩

theorem foldlM_his {nl nrad : Nat} {ι : Type _} (body : Helpers → ι → Res Helpers) (c : ι → Nat → Nat → Nat → ℝ) :
    ∀ (l : List ι) (h : Helpers) (F : Nat → Nat → Nat → ℝ), HIs nl nrad h F →
      (∀ e ∈ l, ∀ (h : Helpers) (F : Nat → Nat → Nat → ℝ), HIs nl nrad h F →
        ∃ h', body h e = .ok h' ∧ HIs nl nrad h' (fun L a b => F L a b + c e L a b)) →
      ∃ h', l.foldlM body h = .ok h' ∧ HIs nl nrad h' (fun L a b => F L a b + (l.map fun e => c e L a b).sum) := by
  intro l
  induction l with
  | nil => intro h F hF _; exact ⟨h, rfl, by simpa using hF⟩
  | cons e l ih =>
    intro h F hF hb
    obtain ⟨h1, a1, a2⟩ := hb e (by simp) h F hF
    obtain ⟨h2, b1, b2⟩ := ih h1 _ a2 (fun e' he' => hb e' (by simp [he']))
    refine ⟨h2, by rw [List.foldlM_cons, a1]; exact b1, ?_⟩
    simpa [add_assoc] using b2

theorem div_at {nrad x a : Nat} (ha : a < nrad) : (x * nrad + a) / nrad = x := by
  rw [Nat.mul_comm, Nat.mul_add_div (by omega), Nat.div_eq_of_lt ha, add_zero]

theorem screened_at (nrad : Nat) (thr : ℝ) (P : Nat → Nat → ℝ) (i l a b : Nat) (ha : a < nrad) (hb : b < nrad) :
    screened nrad thr P (i * nrad + a) (l * nrad + b) =
      if frob ⟨nrad, nrad, fun a b => P (i * nrad + a) (l * nrad + b)⟩ < thr then 0 else P (i * nrad + a) (l * nrad + b) := by
  unfold screened frob
  rw [div_at ha, div_at hb]

theorem exBlock_ok (hG : Gaunt.Symmetric G) (hS : Selection G) (hA : Angular lm lmax) (hT : Looks T G lm lmax) (fac : Nat → ℝ) (thr : ℝ)
    (P : Mat ℝ) (p1 : P.rows = lm.length * nrad) (p2 : P.cols = lm.length * nrad) (i l : Nat) (hi : i < lm.length) (hl : l < lm.length)
    (ai aj ak al : Int × Int) (mi : ai ∈ lm) (mj : aj ∈ lm) (mk : ak ∈ lm) (ml : al ∈ lm) (h : Helpers) (F : Nat → Nat → Nat → ℝ)
    (hF : HIs (2 * lmax + 1) nrad h F) :
    ∃ h', exBlock T (2 * lmax + 1) nrad fac thr P i l ai aj ak al h = .ok h' ∧ HIs (2 * lmax + 1) nrad h' (fun L a b => F L a b +
      fac L * (sphere G aj L (aj.2 - ai.2) ai * sphere G ak L (aj.2 - ai.2) al) * screened nrad thr P.get (i * nrad + a) (l * nrad + b)) := by
  obtain ⟨i1, i2⟩ := hA.valid ai mi
  obtain ⟨j1, j2⟩ := hA.valid aj mj
  obtain ⟨k1, k2⟩ := hA.valid ak mk
  obtain ⟨l1, l2⟩ := hA.valid al ml
  have := abs_nonneg ai.2
  have := abs_nonneg aj.2
  have := abs_nonneg ak.2
  have := abs_nonneg al.2
  unfold exBlock
  by_cases hM : aj.2 - ai.2 ≠ ak.2 - al.2
  · rw [if_pos hM]
    refine ⟨h, rfl, hF.congr ?_⟩
    intro L _ a _ b _
    rw [sphere_sel hS ak al L (aj.2 - ai.2) hM]; simp
  · rw [if_neg hM]
    have hM : aj.2 - ai.2 = ak.2 - al.2 := not_not.1 hM
    rw [show P.block (i * nrad) (l * nrad) nrad nrad = .ok ⟨nrad, nrad, fun a b => P.get (i * nrad + a) (l * nrad + b)⟩ from
      if_pos ⟨by rw [p1]; exact block_fits hi, by rw [p2]; exact block_fits hl⟩, Res.ok_bind]
    unfold exDense
    by_cases hthr : frob ⟨nrad, nrad, fun a b => P.get (i * nrad + a) (l * nrad + b)⟩ < thr
    · rw [if_pos hthr]
      refine ⟨h, rfl, hF.congr ?_⟩
      intro L _ a ha b hb
      rw [screened_at nrad thr P.get i l a b ha hb, if_pos hthr]; simp
    · rw [if_neg hthr]
      obtain ⟨h', c1, c2⟩ := foldlM_his (nl := 2 * lmax + 1) (nrad := nrad) (exStep T (2 * lmax + 1) fac ⟨nrad, nrad, fun a b => P.get (i * nrad + a) (l * nrad + b)⟩ ai aj ak al)
        (fun L' L a b => if L = L'.toNat then fac L'.toNat * (sphere G aj L'.toNat (aj.2 - ai.2) ai * sphere G ak L'.toNat (aj.2 - ai.2) al) * P.get (i * nrad + a) (l * nrad + b) else 0)
        (intRange (max (max |ai.1 - aj.1| |ak.1 - al.1|) |aj.2 - ai.2|) (min (ai.1 + aj.1) (ak.1 + al.1))) h F hF (by
          intro L hL h F hF
          have hL := (mem_intRange _ _ _).1 hL
          have := abs_nonneg (aj.2 - ai.2)
          unfold exStep
          rw [hT aj mj ai mi L (aj.2 - ai.2) (by omega) (by omega), Res.ok_bind, hT ak mk al ml L (aj.2 - ai.2) (by omega) (by omega), Res.ok_bind]
          rw [show aj.2 - (aj.2 - ai.2) = ai.2 by omega, show ak.2 - (aj.2 - ai.2) = al.2 by omega]
          exact exAdd_is hF fac L.toNat (by omega) _ _ rfl rfl)
      refine ⟨h', c1, c2.congr ?_⟩
      intro L hL a ha b hb
      congr 1
      rw [sum_couples _ _ (2 * lmax + 1) (by have := abs_nonneg (aj.2 - ai.2); omega) (by push_cast; omega)
        (fun L' => if L = L' then fac L' * (sphere G aj L' (aj.2 - ai.2) ai * sphere G ak L' (aj.2 - ai.2) al) * P.get (i * nrad + a) (l * nrad + b) else 0)]
      · rw [sum_ite_eq (range (2 * lmax + 1)) L, if_pos (Finset.mem_range.2 hL), screened_at nrad thr P.get i l a b ha hb, if_neg hthr]
      · intro L' hL' hout
        have hz : sphere G aj L' (aj.2 - ai.2) ai * sphere G ak L' (aj.2 - ai.2) al = 0 := by
          rw [abs_sub_comm ai.1 aj.1] at hout
          by_cases hq : (L' : Int) < |aj.1 - ai.1| ∨ aj.1 + ai.1 < L' ∨ (L' : Int) < |aj.2 - ai.2|
          · rw [sphere_zero hG hS aj ai (by omega) (by omega) L' _ hq, zero_mul]
          · rw [sphere_zero hG hS ak al (by omega) (by omega) L' _ (by omega), mul_zero]
        rw [hz]; simp

theorem exSums_ok (hG : Gaunt.Symmetric G) (hS : Selection G) (hA : Angular lm lmax) (hT : Looks T G lm lmax) (fac : Nat → ℝ) (thr : ℝ)
    (P : Mat ℝ) (p1 : P.rows = lm.length * nrad) (p2 : P.cols = lm.length * nrad) (aj ak : Int × Int) (mj : aj ∈ lm) (mk : ak ∈ lm) :
    ∃ h, exSums T lm (2 * lmax + 1) nrad fac thr P aj ak = .ok h ∧ HIs (2 * lmax + 1) nrad h (fun L a b =>
      ∑ i ∈ range lm.length, ∑ l ∈ range lm.length, fac L * (sphere G aj L (aj.2 - (lm.getD i (0, 0)).2) (lm.getD i (0, 0)) *
        sphere G ak L (aj.2 - (lm.getD i (0, 0)).2) (lm.getD l (0, 0))) * screened nrad thr P.get (i * nrad + a) (l * nrad + b)) := by
  obtain ⟨h, a1, a2⟩ := foldlM_his (nl := 2 * lmax + 1) (nrad := nrad)
    (fun h i => (readAt lm i).bind fun ai => (List.range lm.length).foldlM (fun h l => (readAt lm l).bind fun al =>
      exBlock T (2 * lmax + 1) nrad fac thr P i l ai aj ak al h) h)
    (fun i L a b => ∑ l ∈ range lm.length, fac L * (sphere G aj L (aj.2 - (lm.getD i (0, 0)).2) (lm.getD i (0, 0)) *
        sphere G ak L (aj.2 - (lm.getD i (0, 0)).2) (lm.getD l (0, 0))) * screened nrad thr P.get (i * nrad + a) (l * nrad + b))
    (List.range lm.length) _ _ (his_init (2 * lmax + 1) nrad) (by
      intro i hi h F hF
      have hi := List.mem_range.1 hi
      obtain ⟨i1, i2⟩ := readAt_lm hi
      generalize lm.getD i (0, 0) = ai at *
      obtain ⟨h', b1, b2⟩ := foldlM_his (nl := 2 * lmax + 1) (nrad := nrad)
        (fun h l => (readAt lm l).bind fun al => exBlock T (2 * lmax + 1) nrad fac thr P i l ai aj ak al h)
        (fun l L a b => fac L * (sphere G aj L (aj.2 - ai.2) ai * sphere G ak L (aj.2 - ai.2) (lm.getD l (0, 0))) * screened nrad thr P.get (i * nrad + a) (l * nrad + b))
        (List.range lm.length) h F hF (by
          intro l hl h F hF
          have hl := List.mem_range.1 hl
          obtain ⟨l1, l2⟩ := readAt_lm hl
          generalize lm.getD l (0, 0) = al at *
          obtain ⟨h', c1, c2⟩ := exBlock_ok hG hS hA hT fac thr P p1 p2 i l hi hl ai aj ak al i2 mj mk l2 h F hF
          exact ⟨h', by rw [l1]; exact c1, c2⟩)
      refine ⟨h', by rw [i1]; exact b1, b2.congr ?_⟩
      intro L _ a _ b _
      rw [sum_map_range])
  refine ⟨h, a1, a2.congr ?_⟩
  intro L _ a _ b _
  rw [sum_map_range, zero_add]

theorem exchange_zero (N : Nat) (four : Nat → Nat → Nat → Nat → ℝ) (P : Nat → Nat → ℝ) (h : ∀ a < N, ∀ b < N, P a b = 0) (i k : Nat) :
    Spec.exchange N four P i k = 0 := by
  unfold Spec.exchange
  apply sum_eq_zero; intro a ha
  apply sum_eq_zero; intro b hb
  rw [h a (Finset.mem_range.1 ha) b (Finset.mem_range.1 hb), mul_zero]

/-- matrices of fixed size with entries known inside -/
theorem foldlM_mat {ι : Type _} (N : Nat) (body : Mat ℝ → ι → Res (Mat ℝ)) (c : ι → Nat → Nat → ℝ) :
    ∀ (l : List ι) (M : Mat ℝ) (F : Nat → Nat → ℝ), M.rows = N → M.cols = N → (∀ i < N, ∀ j < N, M.get i j = F i j) →
      (∀ e ∈ l, ∀ (M : Mat ℝ) (F : Nat → Nat → ℝ), M.rows = N → M.cols = N → (∀ i < N, ∀ j < N, M.get i j = F i j) →
        ∃ M', body M e = .ok M' ∧ M'.rows = N ∧ M'.cols = N ∧ ∀ i < N, ∀ j < N, M'.get i j = F i j + c e i j) →
      ∃ M', l.foldlM body M = .ok M' ∧ M'.rows = N ∧ M'.cols = N ∧ ∀ i < N, ∀ j < N, M'.get i j = F i j + (l.map fun e => c e i j).sum := by
  intro l
  induction l with
  | nil => intro M F h1 h2 h3 _; exact ⟨M, rfl, h1, h2, by simpa using h3⟩
  | cons e l ih =>
    intro M F h1 h2 h3 h
    obtain ⟨M1, a1, a2, a3, a4⟩ := h e (by simp) M F h1 h2 h3
    obtain ⟨M2, b1, b2, b3, b4⟩ := ih M1 _ a2 a3 a4 (fun e' he' => h e' (by simp [he']))
    refine ⟨M2, by rw [List.foldlM_cons, a1]; exact b1, b2, b3, ?_⟩
    intro i hi j hj
    rw [b4 i hi j hj, List.map_cons, List.sum_cons, add_assoc]

theorem exRadial_ok {radK : Nat → Mat ℝ → Res (Mat ℝ)} {nl : Nat} {radial : Nat → Nat → Nat → Nat → Nat → ℝ} (hK : RadK radK nl nrad radial) {h : Helpers}
    {F : Nat → Nat → Nat → ℝ} (hF : HIs nl nrad h F) :
    ∃ Kb, (List.range nl).foldlM (exRadial radK h) (Mat.zero nrad nrad) = .ok Kb ∧ Kb.rows = nrad ∧ Kb.cols = nrad ∧
      ∀ a < nrad, ∀ b < nrad, Kb.get a b = ∑ L ∈ range nl, Spec.exchange nrad (radial L) (F L) a b := by
  obtain ⟨Kb, k1, k2, k3, k4⟩ := foldlM_mat nrad (exRadial radK h) (fun L a b => Spec.exchange nrad (radial L) (F L) a b) (List.range nl)
    (Mat.zero nrad nrad) (fun _ _ => 0) rfl rfl (fun _ _ _ _ => rfl) (by
      intro L hL M F' m1 m2 m3
      have hL := List.mem_range.1 hL
      obtain ⟨h1, h2, h3, h4⟩ := hF L hL
      unfold exRadial
      rcases Bool.eq_false_or_eq_true (h.couple L) with hc | hc
      · rw [if_pos hc]
        obtain ⟨X, x1, x2, x3, x4⟩ := hK L hL (h.mat L) h1 h2
        rw [x1, Res.ok_bind, show M.add X = .ok ⟨M.rows, M.cols, fun i j => M.get i j + X.get i j⟩ from if_pos ⟨by omega, by omega⟩]
        refine ⟨_, rfl, m1, m2, ?_⟩
        intro a ha b hb
        simp only
        rw [m3 a ha b hb, x4 a ha b hb, exchange_congr nrad (radial L) _ _ h3]
      · rw [if_neg (by simp [hc])]
        refine ⟨M, rfl, m1, m2, ?_⟩
        intro a ha b hb
        rw [m3 a ha b hb, exchange_zero nrad (radial L) _ (h4 hc), add_zero])
  refine ⟨Kb, k1, k2, k3, ?_⟩
  intro a ha b hb
  rw [k4 a ha b hb, zero_add, sum_map_range]

/-- all pairs of angular functions -/
def allPairs (n : Nat) : List (Nat × Nat) := (List.range n).flatMap fun j => (List.range n).map fun k => (j, k)

theorem exchangeWith_ok (hG : Gaunt.Symmetric G) (hS : Selection G) (hA : Angular lm lmax) (hT : Looks T G lm lmax) (fac : Nat → ℝ) (thr : ℝ)
    {radK : Nat → Mat ℝ → Res (Mat ℝ)} {radial : Nat → Nat → Nat → Nat → Nat → ℝ} (hK : RadK radK (2 * lmax + 1) nrad radial)
    (hrs : ∀ L < 2 * lmax + 1, ∀ a b c d, radial L a b c d = radial L b a c d)
    (order : List (Nat × Nat)) (ho : order.Perm (allPairs lm.length))
    (P : Mat ℝ) (p1 : P.rows = lm.length * nrad) (p2 : P.cols = lm.length * nrad) :
    ∃ K, exchangeWith T lm nrad fac radK thr order P = .ok K ∧ K.rows = lm.length * nrad ∧ K.cols = lm.length * nrad ∧
      ∀ j < lm.length * nrad, ∀ k < lm.length * nrad, K.get j k = -∑ i ∈ range (lm.length * nrad), ∑ l ∈ range (lm.length * nrad),
        eri G fac (2 * lmax + 1) radial (orbital lm nrad i) (orbital lm nrad j) (orbital lm nrad k) (orbital lm nrad l) * screened nrad thr P.get i l := by
  obtain ⟨K, k1, k2, k3, k4⟩ := foldlM_acc (lm.length * nrad) (lm.length * nrad) (exBody T lm (2 * lmax + 1) nrad fac radK thr P)
    (fun jk x y => at_ (jk.1 * nrad) nrad (jk.2 * nrad) nrad (fun a b => -∑ L ∈ range (2 * lmax + 1), Spec.exchange nrad (radial L) (fun c d =>
      ∑ i ∈ range lm.length, ∑ l ∈ range lm.length, fac L * (sphere G (lm.getD jk.1 (0, 0)) L ((lm.getD jk.1 (0, 0)).2 - (lm.getD i (0, 0)).2) (lm.getD i (0, 0)) *
        sphere G (lm.getD jk.2 (0, 0)) L ((lm.getD jk.1 (0, 0)).2 - (lm.getD i (0, 0)).2) (lm.getD l (0, 0))) * screened nrad thr P.get (i * nrad + c) (l * nrad + d)) a b) x y)
    order (Mat.zero (lm.length * nrad) (lm.length * nrad)) rfl rfl (by
      intro jk hjk K m1 m2
      have hjk := ho.mem_iff.1 hjk
      obtain ⟨j, hj, hjk⟩ := List.mem_flatMap.1 hjk
      obtain ⟨k, hk, rfl⟩ := List.mem_map.1 hjk
      have hj := List.mem_range.1 hj
      have hk := List.mem_range.1 hk
      obtain ⟨j1, j2⟩ := readAt_lm hj
      obtain ⟨k1, k2⟩ := readAt_lm hk
      obtain ⟨h, h1, h2⟩ := exSums_ok hG hS hA hT fac thr P p1 p2 _ _ j2 k2
      obtain ⟨Kb, q1, q2, q3, q4⟩ := exRadial_ok hK h2
      obtain ⟨K', r1, r2, r3, r4⟩ := addBlock_ok K (lm.length * nrad) m1 m2 (j * nrad) (k * nrad) nrad nrad (Mat.smul (-1) Kb) q2 q3 (block_fits hj) (block_fits hk)
      refine ⟨K', ?_, r2, r3, ?_⟩
      · unfold exBody
        simp only
        rw [j1, Res.ok_bind, k1, Res.ok_bind, h1, Res.ok_bind, q1, Res.ok_bind]
        exact r1
      · intro x y
        rw [r4]
        congr 1
        apply at_congr
        intro a ha b hb
        simp only [Mat.smul]
        rw [q4 a ha b hb, neg_one_mul])
  refine ⟨K, ?_, k2, k3, ?_⟩
  · unfold exchangeWith
    rw [hA.num, Res.ok_bind]
    exact k1
  intro j hj k hk
  have hn : 0 < nrad := Nat.pos_of_ne_zero (by rintro rfl; simp at hj)
  have hj' : j / nrad < lm.length := (Nat.div_lt_iff_lt_mul hn).2 hj
  have hja := (readAt_lm hj').2
  have vj := hA.valid _ hja
  have := abs_nonneg (lm.getD (j / nrad) (0, 0)).2
  rw [k4, (ho.map _).sum_eq]
  unfold allPairs
  rw [sum_flatMap_pairs]
  simp only [List.map_map, Function.comp_def, sum_map_range]
  rw [at_grid lm.length nrad (fun x y a b => -∑ L ∈ range (2 * lmax + 1), Spec.exchange nrad (radial L) (fun c d =>
      ∑ i ∈ range lm.length, ∑ l ∈ range lm.length, fac L * (sphere G (lm.getD x (0, 0)) L ((lm.getD x (0, 0)).2 - (lm.getD i (0, 0)).2) (lm.getD i (0, 0)) *
        sphere G (lm.getD y (0, 0)) L ((lm.getD x (0, 0)).2 - (lm.getD i (0, 0)).2) (lm.getD l (0, 0))) * screened nrad thr P.get (i * nrad + c) (l * nrad + d)) a b) j k hj hk]
  rw [show (Mat.zero (lm.length * nrad) (lm.length * nrad) : Mat ℝ).get j k = 0 from rfl, zero_add]
  congr 1
  unfold orbital
  generalize lm.getD (j / nrad) (0, 0) = aj at *
  generalize lm.getD (k / nrad) (0, 0) = ak at *
  generalize j % nrad = a at *
  generalize k % nrad = b at *
  have e : ∑ i ∈ range (lm.length * nrad), ∑ l ∈ range (lm.length * nrad),
      eri G fac (2 * lmax + 1) radial (lm.getD (i / nrad) (0, 0), i % nrad) (aj, a) (ak, b) (lm.getD (l / nrad) (0, 0), l % nrad) * screened nrad thr P.get i l =
      ∑ i ∈ range lm.length, ∑ c ∈ range nrad, ∑ l ∈ range lm.length, ∑ d ∈ range nrad, ∑ L ∈ range (2 * lmax + 1), 
        fac L * (sphere G aj L (aj.2 - (lm.getD i (0, 0)).2) (lm.getD i (0, 0)) * sphere G ak L (aj.2 - (lm.getD i (0, 0)).2) (lm.getD l (0, 0))) * radial L a c b d *
          screened nrad thr P.get (i * nrad + c) (l * nrad + d) := by
    rw [sum_orbitals]
    apply sum_congr rfl; intro i hi
    apply sum_congr rfl; intro c hc
    rw [sum_orbitals]
    apply sum_congr rfl; intro l _
    apply sum_congr rfl; intro d hd
    have hc := Finset.mem_range.1 hc
    have hd := Finset.mem_range.1 hd
    rw [div_at hc, div_at hd, show (i * nrad + c) % nrad = c by rw [Nat.mul_comm, Nat.mul_add_mod, Nat.mod_eq_of_lt hc],
      show (l * nrad + d) % nrad = d by rw [Nat.mul_comm, Nat.mul_add_mod, Nat.mod_eq_of_lt hd]]
    unfold eri
    rw [sum_mul]
    apply sum_congr rfl; intro L hL
    simp only
    have vi := hA.valid _ (readAt_lm (Finset.mem_range.1 hi)).2
    have := abs_nonneg (lm.getD i (0, 0)).2
    rw [sum_single_M L (aj.2 - (lm.getD i (0, 0)).2), hrs L (Finset.mem_range.1 hL) c a b d]
    · intro M hM'
      rw [sphere_sel hS _ _ L M hM', zero_mul, mul_zero, zero_mul]
    · intro hL
      rw [sphere_zero hG hS _ _ (by omega) (by omega) L _ (Or.inr (Or.inr hL)), zero_mul, mul_zero, zero_mul]
  rw [e]
  have s1 : ∀ i ∈ range lm.length, (∑ c ∈ range nrad, ∑ l ∈ range lm.length, ∑ d ∈ range nrad, ∑ L ∈ range (2 * lmax + 1), 
        fac L * (sphere G aj L (aj.2 - (lm.getD i (0, 0)).2) (lm.getD i (0, 0)) * sphere G ak L (aj.2 - (lm.getD i (0, 0)).2) (lm.getD l (0, 0))) * radial L a c b d *
          screened nrad thr P.get (i * nrad + c) (l * nrad + d)) =
        ∑ L ∈ range (2 * lmax + 1), ∑ c ∈ range nrad, ∑ d ∈ range nrad, ∑ l ∈ range lm.length,
        fac L * (sphere G aj L (aj.2 - (lm.getD i (0, 0)).2) (lm.getD i (0, 0)) * sphere G ak L (aj.2 - (lm.getD i (0, 0)).2) (lm.getD l (0, 0))) * radial L a c b d *
          screened nrad thr P.get (i * nrad + c) (l * nrad + d) := by
    intro i _
    have : ∀ c ∈ range nrad, (∑ l ∈ range lm.length, ∑ d ∈ range nrad, ∑ L ∈ range (2 * lmax + 1), 
        fac L * (sphere G aj L (aj.2 - (lm.getD i (0, 0)).2) (lm.getD i (0, 0)) * sphere G ak L (aj.2 - (lm.getD i (0, 0)).2) (lm.getD l (0, 0))) * radial L a c b d *
          screened nrad thr P.get (i * nrad + c) (l * nrad + d)) =
        ∑ L ∈ range (2 * lmax + 1), ∑ d ∈ range nrad, ∑ l ∈ range lm.length,
        fac L * (sphere G aj L (aj.2 - (lm.getD i (0, 0)).2) (lm.getD i (0, 0)) * sphere G ak L (aj.2 - (lm.getD i (0, 0)).2) (lm.getD l (0, 0))) * radial L a c b d *
          screened nrad thr P.get (i * nrad + c) (l * nrad + d) := by
      intro c _
      rw [sum_comm]
      rw [sum_comm (s := range (2 * lmax + 1))]
      apply sum_congr rfl; intro d _
      rw [sum_comm]
    rw [sum_congr rfl this, sum_comm]
  rw [sum_congr rfl s1, sum_comm]
  apply sum_congr rfl; intro L _
  unfold Spec.exchange
  symm
  rw [sum_comm]
  apply sum_congr rfl; intro c _
  rw [sum_comm]
  apply sum_congr rfl; intro d _
  rw [mul_sum]
  apply sum_congr rfl; intro i _
  rw [mul_sum]
  apply sum_congr rfl; intro l _
  ring

end AtomJK
end HelFEM
