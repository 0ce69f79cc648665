import Verif.Lemmas.AtomicK

/-! Lemmas on the integral caches. -/

namespace HelFEM
namespace AtomJK
open Finset Spec TwoE Sym

theorem flat_pairs (m : Nat) (hm : 0 < m) : ∀ n : Nat, ((List.range n).flatMap fun L => (List.range m).map fun e => (L, e)) =
    (List.range (n * m)).map fun k => (k / m, k % m) := by
  intro n
  induction n with
  | zero => simp
  | succ n ih =>
    rw [List.range_succ, List.flatMap_append, ih, Nat.succ_mul, List.range_add, List.map_append]
    congr 1
    rw [List.flatMap_singleton, List.map_map]
    apply List.map_congr_left
    intro e he
    have he := List.mem_range.1 he
    simp only [Function.comp_def, Prod.mk.injEq]
    rw [Nat.mul_comm, Nat.mul_add_div hm, Nat.div_eq_of_lt he, Nat.mul_add_mod, Nat.mod_eq_of_lt he]
    simp

theorem readAt_flat {α : Type _} (n m : Nat) (g : Nat → Nat → α) (L e : Nat) (hL : L < n) (he : e < m) :
    readAt (((List.range n).flatMap fun L => (List.range m).map fun e => (L, e)).map fun p => g p.1 p.2) (L * m + e) = .ok (g L e) := by
  have hm : 0 < m := by omega
  rw [flat_pairs m hm, List.map_map]
  have hlt : L * m + e < n * m := by
    calc L * m + e < L * m + m := by omega
      _ = (L + 1) * m := by ring
      _ ≤ n * m := Nat.mul_le_mul_right _ hL
  unfold readAt
  rw [List.getElem?_map, List.getElem?_range hlt]
  simp only [Option.map_some, Function.comp_def]
  rw [Nat.mul_comm, Nat.mul_add_div hm, Nat.div_eq_of_lt he, Nat.mul_add_mod, Nat.mod_eq_of_lt he, add_zero]

theorem fillCache_ok (nl nel : Nat) (f : Nat → Nat → Res (Mat ℝ)) (g : Nat → Nat → Mat ℝ) (h : ∀ L < nl, ∀ e < nel, f L e = .ok (g L e)) :
    ∃ c, fillCache nl nel f = .ok c ∧ c.length = nl * nel ∧ ∀ L < nl, ∀ e < nel, readAt c (L * nel + e) = .ok (g L e) := by
  refine ⟨_, Res.mapM_ok _ (fun p : Nat × Nat => g p.1 p.2) _ ?_, ?_, fun L hL e he => readAt_flat nl nel g L e hL he⟩
  · intro p hp
    obtain ⟨L, hL, hp⟩ := List.mem_flatMap.1 hp
    obtain ⟨e, he, rfl⟩ := List.mem_map.1 hp
    exact h L (List.mem_range.1 hL) e (List.mem_range.1 he)
  · rcases Nat.eq_zero_or_pos nel with h0 | h0
    · subst h0; simp
    · rw [flat_pairs nel h0]; simp

theorem flatMap_pair_map {α β γ : Type _} (l : List α) (g : α → List β) (f : α → β → γ) :
    (l.flatMap fun a => (g a).map fun b => f a b) = (l.flatMap fun a => (g a).map fun b => (a, b)).map fun p => f p.1 p.2 := by
  rw [List.map_flatMap]
  congr 1; funext a
  rw [List.map_map]; rfl

theorem fillPairs_ok (nl nel : Nat) (f : Nat → Nat → Nat → Res (Mat ℝ)) (g : Nat → Nat → Nat → Mat ℝ)
    (h : ∀ L < nl, ∀ e < nel, ∀ e' < nel, f L e e' = .ok (g L e e')) :
    ∃ c, fillPairs nl nel f = .ok c ∧ c.length = nl * (nel * nel) ∧
      ∀ L < nl, ∀ e < nel, ∀ e' < nel, readAt c (nel * nel * L + e * nel + e') = .ok (g L e e') := by
  rcases Nat.eq_zero_or_pos nel with h0 | h0
  · subst h0
    refine ⟨[], ?_, by simp, fun L _ e he => by omega⟩
    have : ((List.range nl).flatMap fun L => (List.range 0).flatMap fun iel => (List.range 0).map fun jel => (L, iel, jel)) = [] := by
      rw [List.flatMap_eq_nil_iff]; intro x _; rfl
    unfold fillPairs; rw [this]; rfl
  have hl : ((List.range nl).flatMap fun L => (List.range nel).flatMap fun iel => (List.range nel).map fun jel => (L, iel, jel)) =
      (((List.range nl).flatMap fun L => (List.range (nel * nel)).map fun k => (L, k)).map fun p => (p.1, p.2 / nel, p.2 % nel)) := by
    rw [← flatMap_pair_map (List.range nl) (fun _ => List.range (nel * nel)) (fun L k => (L, k / nel, k % nel))]
    congr 1; funext L
    rw [flatMap_pair_map (List.range nel) (fun _ => List.range nel) (fun i j => (L, i, j)), flat_pairs nel h0, List.map_map]
    rfl
  refine ⟨_, Res.mapM_ok _ (fun p : Nat × Nat × Nat => g p.1 p.2.1 p.2.2) _ ?_, ?_, ?_⟩
  · intro p hp
    obtain ⟨L, hL, hp⟩ := List.mem_flatMap.1 hp
    obtain ⟨e, he, hp⟩ := List.mem_flatMap.1 hp
    obtain ⟨e', he', rfl⟩ := List.mem_map.1 hp
    exact h L (List.mem_range.1 hL) e (List.mem_range.1 he) e' (List.mem_range.1 he')
  · rw [hl, flat_pairs (nel * nel) (Nat.mul_pos h0 h0)]; simp
  · intro L hL e he e' he'
    rw [hl, List.map_map]
    have hk : e * nel + e' < nel * nel := by
      calc e * nel + e' < e * nel + nel := by omega
        _ = (e + 1) * nel := by ring
        _ ≤ nel * nel := Nat.mul_le_mul_right _ he
    have := readAt_flat nl (nel * nel) (fun L k => g L (k / nel) (k % nel)) L (e * nel + e') hL hk
    rw [show nel * nel * L + e * nel + e' = L * (nel * nel) + (e * nel + e') by ring]
    rw [div_at he', show (e * nel + e') % nel = e' by rw [Nat.mul_comm, Nat.mul_add_mod, Nat.mod_eq_of_lt he']] at this
    exact this

theorem foldlM_congr {ι α : Type _} (f f' : α → ι → Res α) : ∀ (l : List ι) (a : α), (∀ e ∈ l, ∀ a, f a e = f' a e) → l.foldlM f a = l.foldlM f' a := by
  intro l
  induction l with
  | nil => intro a _; rfl
  | cons e l ih =>
    intro a h
    rw [List.foldlM_cons, List.foldlM_cons, h e (by simp)]
    cases f' a e with
    | ok b => exact ih b (fun e' he' => h e' (by simp [he']))
    | throw _ => rfl
    | ub => rfl

theorem assembleK_congr (R : Radial) (blk blk' : (iel jel ni nj : Nat) → Mat ℝ → Res (Mat ℝ)) (h : ∀ i < R.nel, ∀ j < R.nel, blk i j = blk' i j) (P : Mat ℝ) :
    assembleK R blk P = assembleK R blk' P := by
  unfold assembleK
  apply foldlM_congr
  intro i hi M
  cases R.range i with
  | throw _ => rfl
  | ub => rfl
  | ok p =>
    apply foldlM_congr
    intro j hj M
    rw [h i (List.mem_range.1 hi) j (List.mem_range.1 hj)]

variable {R : Radial} {ne N nl : Nat} {first last : Nat → Nat}

/-- Integrals of one kernel. `S`, `B` are the inner and outer moments (the outer one does not exist on the innermost element), `T` the
integrals inside an element, packed with the first index of a pair fast: a positive semidefinite matrix that does not distinguish the two
functions of a pair. -/
structure Ints (small big twoe : Nat → Nat → Res (Mat ℝ)) (nl ne : Nat) (first last : Nat → Nat) (S B T : Nat → Nat → Mat ℝ) : Prop where
  small : ∀ L < nl, ∀ e < ne, small L e = .ok (S L e) ∧ (S L e).rows = cnt first last e ∧ (S L e).cols = cnt first last e
  big : ∀ L < nl, ∀ e, 0 < e → e < ne → big L e = .ok (B L e) ∧ (B L e).rows = cnt first last e ∧ (B L e).cols = cnt first last e
  twoe : ∀ L < nl, ∀ e < ne, twoe L e = .ok (T L e) ∧ (T L e).rows = cnt first last e * cnt first last e ∧
    (T L e).cols = cnt first last e * cnt first last e
  small_symm : ∀ L < nl, ∀ e < ne, ∀ a < cnt first last e, ∀ b < cnt first last e, (S L e).get a b = (S L e).get b a
  big_symm : ∀ L < nl, ∀ e, 0 < e → e < ne → ∀ a < cnt first last e, ∀ b < cnt first last e, (B L e).get a b = (B L e).get b a
  psd : ∀ L < nl, ∀ e < ne, Chol.PSD (cnt first last e * cnt first last e) (T L e).get
  pair : ∀ L < nl, ∀ e < ne, ∀ a < cnt first last e, ∀ b < cnt first last e, ∀ c < cnt first last e * cnt first last e,
    (T L e).get (b * cnt first last e + a) c = (T L e).get (a * cnt first last e + b) c

/-- the radial integrals of one kernel as four-index quantities -/
def radialOf (ne : Nat) (first last : Nat → Nat) (S B : Nat → Nat → Mat ℝ) (T : Nat → Nat → Nat → Nat → ℝ) (L : Nat) : Nat → Nat → Nat → Nat → ℝ :=
  fourIndex ne first last (multipoleBlk (cnt first last) (fun e => (S L e).get) (fun e => (B L e).get) (T L))

/-- approximate in-element integrals as the assembly uses them -/
structure Approx (nl ne : Nat) (first last : Nat → Nat) (tol : ℝ) (T : Nat → Nat → Mat ℝ) (T' : Nat → Nat → Nat → Nat → ℝ) : Prop where
  close : ∀ L < nl, ∀ e < ne, ∀ r < cnt first last e * cnt first last e, ∀ s < cnt first last e * cnt first last e, |(T L e).get r s - T' L e r s| ≤ tol
  symm : ∀ L < nl, ∀ e < ne, ∀ r < cnt first last e * cnt first last e, ∀ s < cnt first last e * cnt first last e, T' L e r s = T' L e s r
  pair : ∀ L < nl, ∀ e < ne, ∀ a < cnt first last e, ∀ b < cnt first last e, ∀ c < cnt first last e * cnt first last e,
    T' L e (b * cnt first last e + a) c = T' L e (a * cnt first last e + b) c

/-- the three caches of one kernel and what is read from them -/
theorem kernel_ok (h : Layout R ne N first last) {small big twoe : Nat → Nat → Res (Mat ℝ)} {S B T : Nat → Nat → Mat ℝ}
    (hI : Ints small big twoe nl ne first last S B T) (tol : ℝ) (ht : 0 ≤ tol) :
    ∃ cs cb cc, fillCache nl R.nel small = .ok cs ∧ fillCache nl R.nel (skipInner big) = .ok cb ∧ fillCache nl R.nel (factor twoe tol) = .ok cc ∧
      cc.length = nl * ne ∧ ∃ T', Approx nl ne first last tol T T' ∧
      RadJ (fun L P => assembleJ R (fun iel => readAt cs (L * R.nel + iel)) (fun iel => readAt cb (L * R.nel + iel)) (cholJ fun iel => readAt cc (L * R.nel + iel)) P)
        nl N (radialOf ne first last S B T') ∧
      RadK (fun L P => assembleK R (cachedBlk (fun iel => readAt cs (L * R.nel + iel)) (fun iel => readAt cb (L * R.nel + iel)) (cholK fun iel => readAt cc (L * R.nel + iel))) P)
        nl N (radialOf ne first last S B T') := by
  have hne := h.nel
  have hf : ∀ L e, ∃ F : Mat ℝ, L < nl → e < ne → Chol.pivotedCholesky (T L e) tol = .ok F ∧ F.rows = cnt first last e * cnt first last e ∧
      (∀ r < cnt first last e * cnt first last e, ∀ s < cnt first last e * cnt first last e, |(T L e).get r s - ∑ p ∈ range F.cols, F.get r p * F.get s p| ≤ tol) ∧
      ∀ a < cnt first last e, ∀ b < cnt first last e, ∀ p < F.cols, F.get (b * cnt first last e + a) p = F.get (a * cnt first last e + b) p := by
    intro L e
    by_cases hc : L < nl ∧ e < ne
    · obtain ⟨h1, h2, h3⟩ := hI.twoe L hc.1 e hc.2
      obtain ⟨F, f1, f2, _, f4⟩ := Chol.C23_residual (T L e) (by rw [h2, h3]) (by rw [h2]; exact hI.psd L hc.1 e hc.2) tol ht
      refine ⟨F, fun _ _ => ⟨f1, by rw [f2, h2], by rw [h2] at f4; exact f4, ?_⟩⟩
      intro a ha b hb p hp
      apply Chol.C23_equal_rows (T L e) (by rw [h2]; exact hI.psd L hc.1 e hc.2) tol ht F f1 _ _ (by rw [h2]; exact pair_lt hb ha) (by rw [h2]; exact pair_lt ha hb) _ p hp
      rw [h2]
      exact fun c hc' => hI.pair L hc.1 e hc.2 a ha b hb c hc'
    · exact ⟨⟨0, 0, fun _ _ => 0⟩, fun h1 h2 => absurd ⟨h1, h2⟩ hc⟩
  choose F hF using hf
  obtain ⟨cs, s1, _, s3⟩ := fillCache_ok nl ne small S (fun L hL e he => (hI.small L hL e he).1)
  obtain ⟨cb, b1, _, b3⟩ := fillCache_ok nl ne (skipInner big) (fun L e => if e = 0 then ⟨0, 0, fun _ _ => 0⟩ else B L e) (by
    intro L hL e he
    unfold skipInner
    split_ifs with h0
    · rfl
    · exact (hI.big L hL e (by omega) he).1)
  obtain ⟨cc, c1, c2, c3⟩ := fillCache_ok nl ne (factor twoe tol) F (by
    intro L hL e he
    unfold factor
    rw [(hI.twoe L hL e he).1, Res.ok_bind]
    exact (hF L e hL he).1)
  refine ⟨cs, cb, cc, by rw [hne]; exact s1, by rw [hne]; exact b1, by rw [hne]; exact c1, c2,
    fun L e r s => ∑ p ∈ range (F L e).cols, (F L e).get r p * (F L e).get s p, ⟨?_, ?_, ?_⟩, ?_, ?_⟩
  · intro L hL e he
    exact (hF L e hL he).2.2.1
  · intro L hL e he r _ s _
    apply sum_congr rfl; intro p _; ring
  · intro L hL e he a ha b hb c _
    apply sum_congr rfl; intro p hp
    rw [(hF L e hL he).2.2.2 a ha b hb p (Finset.mem_range.1 hp)]
  · intro L hL P p1 p2
    rw [hne]
    exact C22_coulomb_factorised h (fun iel => readAt cs (L * ne + iel)) (fun iel => readAt cb (L * ne + iel)) (fun iel => readAt cc (L * ne + iel)) (S L) (B L)
      (fun e => ⟨cnt first last e * cnt first last e, cnt first last e * cnt first last e, fun r s => ∑ p ∈ range (F L e).cols, (F L e).get r p * (F L e).get s p⟩) (F L)
      (fun e he => ⟨s3 L hL e he, (hI.small L hL e he).2⟩)
      (fun e h0 he => ⟨by rw [b3 L hL e he, if_neg (by omega)], (hI.big L hL e h0 he).2⟩)
      (fun e he => ⟨c3 L hL e he, (hF L e hL he).2.1⟩) (fun e he r _ c _ => rfl) (hI.small_symm L hL) (hI.big_symm L hL) P p1 p2
  · intro L hL P p1 p2
    rw [hne]
    exact C22_exchange_factorised h (fun iel => readAt cs (L * ne + iel)) (fun iel => readAt cb (L * ne + iel)) (fun iel => readAt cc (L * ne + iel)) (S L) (B L)
      (fun e => ⟨cnt first last e * cnt first last e, cnt first last e * cnt first last e, fun r s => ∑ p ∈ range (F L e).cols, (F L e).get r p * (F L e).get s p⟩) (F L)
      (fun e he => ⟨s3 L hL e he, (hI.small L hL e he).2⟩)
      (fun e h0 he => ⟨by rw [b3 L hL e he, if_neg (by omega)], (hI.big L hL e h0 he).2⟩)
      (fun e he => ⟨c3 L hL e he, (hF L e hL he).2.1⟩) (fun e he r _ c _ => rfl) P p1 p2

/-- the radial integrals do not distinguish the two functions of a pair -/
theorem radialOf_pair (h : Layout R ne N first last) {small big twoe : Nat → Nat → Res (Mat ℝ)} {S B T : Nat → Nat → Mat ℝ}
    (hI : Ints small big twoe nl ne first last S B T) {tol : ℝ} {T' : Nat → Nat → Nat → Nat → ℝ} (hT : Approx nl ne first last tol T T') (L : Nat) (hL : L < nl)
    (a b c d : Nat) : radialOf ne first last S B T' L a b c d = radialOf ne first last S B T' L b a c d := by
  unfold radialOf fourIndex
  apply sum_congr rfl; intro e1 he1
  apply sum_congr rfl; intro e2 he2
  have he1 := Finset.mem_range.1 he1
  have he2 := Finset.mem_range.1 he2
  by_cases hc : ((first e1 ≤ a ∧ a ≤ last e1) ∧ (first e1 ≤ b ∧ b ≤ last e1)) ∧ ((first e2 ≤ c ∧ c ≤ last e2) ∧ (first e2 ≤ d ∧ d ≤ last e2))
  · rw [if_pos hc, if_pos (by tauto)]
    have ha : a - first e1 < cnt first last e1 := by unfold cnt; omega
    have hb : b - first e1 < cnt first last e1 := by unfold cnt; omega
    have hcc : c - first e2 < cnt first last e2 := by unfold cnt; omega
    have hd : d - first e2 < cnt first last e2 := by unfold cnt; omega
    unfold multipoleBlk
    split_ifs with h1 h2
    · subst h1
      exact hT.pair L hL e1 he1 _ ha _ hb _ (pair_lt hd hcc)
    · beta_reduce; rw [hI.small_symm L hL e1 he1 _ ha _ hb]
    · beta_reduce; rw [hI.big_symm L hL e1 (by omega) he1 _ ha _ hb]
  · rw [if_neg hc, if_neg (by tauto)]

/-- the radial integrals do not distinguish the two electrons -/
theorem radialOf_swap (h : Layout R ne N first last) {S B T : Nat → Nat → Mat ℝ} {tol : ℝ} {T' : Nat → Nat → Nat → Nat → ℝ}
    (hT : Approx nl ne first last tol T T') (L : Nat) (hL : L < nl) (a b c d : Nat) : radialOf ne first last S B T' L a b c d = radialOf ne first last S B T' L c d a b := by
  unfold radialOf fourIndex
  rw [sum_comm]
  apply sum_congr rfl; intro e1 he1
  apply sum_congr rfl; intro e2 he2
  have he1 := Finset.mem_range.1 he1
  have he2 := Finset.mem_range.1 he2
  by_cases hc : ((first e2 ≤ a ∧ a ≤ last e2) ∧ (first e2 ≤ b ∧ b ≤ last e2)) ∧ ((first e1 ≤ c ∧ c ≤ last e1) ∧ (first e1 ≤ d ∧ d ≤ last e1))
  · rw [if_pos hc, if_pos (by tauto)]
    have ha : a - first e2 < cnt first last e2 := by unfold cnt; omega
    have hb : b - first e2 < cnt first last e2 := by unfold cnt; omega
    have hcc : c - first e1 < cnt first last e1 := by unfold cnt; omega
    have hd : d - first e1 < cnt first last e1 := by unfold cnt; omega
    unfold multipoleBlk
    rcases lt_trichotomy e1 e2 with hlt | rfl | hgt
    · rw [if_neg (by omega), if_neg (by omega), if_neg (by omega), if_pos hlt]; ring
    · rw [if_pos rfl, if_pos rfl]
      exact hT.symm L hL e1 he1 _ (pair_lt hb ha) _ (pair_lt hd hcc)
    · rw [if_neg (by omega), if_pos hgt, if_neg (by omega), if_neg (by omega)]; ring
  · rw [if_neg hc, if_neg (by tauto)]

end AtomJK
end HelFEM
