import Verif.Lemmas.DiaKRad
import Verif.Props.SymBlocks

/-! The exchange matrix of the diatomic basis: density blocks and angular sums. -/

namespace HelFEM
namespace DiaJK
open Finset Spec TwoE Sym Dia AtomJK

variable {b : Basis}

/-! ### buckets -/

/-- the density block between two angular functions -/
def denBlock (nrad : Nat) (P : Nat → Nat → ℝ) (p : Nat × Nat) : Mat ℝ := ⟨nrad, nrad, fun a c => P (p.1 * nrad + a) (p.2 * nrad + c)⟩

/-- difference of the two quantum numbers `m` of a pair -/
def dmOf (lm : List (Int × Int)) (p : Nat × Nat) : Int := (lm.getD p.1 (0, 0)).2 - (lm.getD p.2 (0, 0)).2

open Classical in
/-- the pairs in bucket `k` -/
noncomputable def inBucket (b : Basis) (mabs : Int) (thr : ℝ) (P : Mat ℝ) (k : Nat) (p : Nat × Nat) : Bool :=
  decide (¬ frob (denBlock b.rad.nbf P.get p) < thr ∧ dmOf b.lm p + 2 * mabs = k)

theorem mem_pairs (n : Nat) (p : Nat × Nat) : p ∈ pairs n ↔ p.1 < n ∧ p.2 < n := by
  unfold pairs
  rw [List.mem_flatMap]
  constructor
  · rintro ⟨j, hj, hp⟩
    obtain ⟨k, hk, rfl⟩ := List.mem_map.1 hp
    exact ⟨List.mem_range.1 hj, List.mem_range.1 hk⟩
  · rintro ⟨h1, h2⟩
    exact ⟨p.1, List.mem_range.2 h1, List.mem_map.2 ⟨p.2, List.mem_range.2 h2, rfl⟩⟩

theorem buckets_ok {mabs : Int} (hm : ∀ a ∈ b.lm, |a.2| ≤ mabs) (thr : ℝ) (P : Mat ℝ) (p1 : P.rows = b.lm.length * b.rad.nbf) (p2 : P.cols = b.lm.length * b.rad.nbf) :
    ∀ (l : List (Nat × Nat)) (A : List (List (Nat × Nat))) (l0 : List (Nat × Nat)), (∀ p ∈ l, p.1 < b.lm.length ∧ p.2 < b.lm.length) → A.length = (4 * mabs + 1).toNat →
      (∀ k < (4 * mabs + 1).toNat, A[k]? = some (l0.filter (inBucket b mabs thr P k))) →
      ∃ A', l.foldlM (bucketStep b mabs thr P) A = .ok A' ∧ A'.length = (4 * mabs + 1).toNat ∧
        ∀ k < (4 * mabs + 1).toNat, A'[k]? = some ((l0 ++ l).filter (inBucket b mabs thr P k)) := by
  intro l
  induction l with
  | nil => intro A l0 _ h1 h2; exact ⟨A, rfl, h1, by simpa using h2⟩
  | cons p l ih =>
    intro A l0 hp h1 h2
    have hstep : ∃ A1, bucketStep b mabs thr P A p = .ok A1 ∧ A1.length = (4 * mabs + 1).toNat ∧ ∀ k < (4 * mabs + 1).toNat, A1[k]? = some ((l0 ++ [p]).filter (inBucket b mabs thr P k)) := by
      obtain ⟨q1, q2⟩ := hp p (by simp)
      unfold bucketStep
      rw [show P.block (p.1 * b.rad.nbf) (p.2 * b.rad.nbf) b.rad.nbf b.rad.nbf = .ok (denBlock b.rad.nbf P.get p) from
        if_pos ⟨by rw [p1]; exact block_fits q1, by rw [p2]; exact block_fits q2⟩, Res.ok_bind]
      by_cases hf : frob (denBlock b.rad.nbf P.get p) < thr
      · rw [if_pos hf]
        refine ⟨A, rfl, h1, ?_⟩
        intro k hk
        rw [h2 k hk, List.filter_append]
        have : inBucket b mabs thr P k p = false := by unfold inBucket; simp [hf]
        simp [this]
      · rw [if_neg hf]
        obtain ⟨x1, x2⟩ := readAt_lm q1
        obtain ⟨y1, y2⟩ := readAt_lm q2
        rw [x1, Res.ok_bind, y1, Res.ok_bind]
        have hx := abs_le.1 (hm _ x2)
        have hy := abs_le.1 (hm _ y2)
        have hb : -(2 * mabs) ≤ dmOf b.lm p ∧ dmOf b.lm p ≤ 2 * mabs := by unfold dmOf; omega
        rw [show (b.lm.getD p.1 (0, 0)).2 - (b.lm.getD p.2 (0, 0)).2 = dmOf b.lm p from rfl]
        rw [if_neg (by rw [not_lt, abs_le]; omega)]
        have hlt : (dmOf b.lm p + 2 * mabs).toNat < (4 * mabs + 1).toNat := by omega
        unfold push readAt writeAt
        rw [if_neg (by omega), h2 _ hlt]
        simp only [Res.ok_bind]
        rw [if_pos (by rw [h1]; exact hlt)]
        refine ⟨_, rfl, by rw [List.length_set, h1], ?_⟩
        intro k hk
        rw [List.filter_append]
        by_cases hk' : k = (dmOf b.lm p + 2 * mabs).toNat
        · subst hk'
          rw [List.getElem?_set_self (by rw [h1]; exact hlt)]
          have : inBucket b mabs thr P (dmOf b.lm p + 2 * mabs).toNat p = true := by
            unfold inBucket
            rw [decide_eq_true_eq]
            exact ⟨hf, by omega⟩
          simp [this]
        · rw [List.getElem?_set_ne (fun h => hk' h.symm), h2 k hk]
          have : inBucket b mabs thr P k p = false := by
            unfold inBucket
            rw [decide_eq_false_iff_not]
            rintro ⟨_, h⟩
            omega
          simp [this]
    obtain ⟨A1, a1, a2, a3⟩ := hstep
    obtain ⟨A2, b1, b2, b3⟩ := ih A1 (l0 ++ [p]) (fun q hq => hp q (by simp [hq])) a2 a3
    refine ⟨A2, by rw [List.foldlM_cons, a1]; exact b1, b2, ?_⟩
    intro k hk
    rw [b3 k hk, List.append_assoc]; rfl

/-! ### angular sums -/

/-- what the density block `(i, l)` contributes to the helper of `(L, Ma)` -/
noncomputable def exTerm (Rh : ℝ) (xi xj xk xl : Int × Int) (L Ma : Int) (α β : Nat) : ℝ :=
  if Ma = |xj.2 - xi.2| then termSign α β * facOf Rh L (xj.2 - xi.2) * (angular α xj L.toNat (xj.2 - xi.2) xi * angular β xk L.toNat (xj.2 - xi.2) xl) else 0

theorem quad_add {n : Nat} {q : Quad} {G : Nat → Nat → Nat → Nat → ℝ} (h : QuadIs n n q G) (B : Mat ℝ) (D : Nat → Nat → ℝ) (hB : MIs n n B D) (c : Nat → Nat → ℝ) :
    ∃ q', q.add (c 0 0) (c 0 1) (c 1 0) (c 1 1) B = .ok q' ∧ QuadIs n n q' (fun α β a d => G α β a d + c α β * D a d) := by
  obtain ⟨h0, h1, h2, h3⟩ := h
  obtain ⟨r0, a0, b0⟩ := mis_add h0 (mis_smul (c 0 0) hB)
  obtain ⟨r1, a1, b1⟩ := mis_add h1 (mis_smul (c 0 1) hB)
  obtain ⟨r2, a2, b2⟩ := mis_add h2 (mis_smul (c 1 0) hB)
  obtain ⟨r3, a3, b3⟩ := mis_add h3 (mis_smul (c 1 1) hB)
  exact ⟨⟨r0, r1, r2, r3⟩, by unfold Quad.add; rw [a0, Res.ok_bind, a1, Res.ok_bind, a2, Res.ok_bind, a3, Res.ok_bind], b0, b1, b2, b3⟩

theorem QIs.write {tab : List (Int × Int)} {nrad : Nat} (hnd : tab.Nodup) {h : List (Option Quad)} {G : Int → Int → Nat → Nat → Nat → Nat → ℝ} (hq : QIs tab nrad h G) {i : Nat} {L M : Int}
    (hi : tab[i]? = some (L, M)) (q : Quad) (D : Nat → Nat → Nat → Nat → ℝ) (hQ : QuadIs nrad nrad q (fun α β a d => G L M α β a d + D α β a d)) :
    ∃ h', writeAt h i (some q) = .ok h' ∧ QIs tab nrad h' (fun L' M' α β a d => G L' M' α β a d + if (L', M') = (L, M) then D α β a d else 0) := by
  obtain ⟨hlt, hget⟩ := List.getElem?_eq_some_iff.1 hi
  refine ⟨h.set i (some q), if_pos (by rw [hq.1]; exact hlt), by rw [List.length_set, hq.1], ?_⟩
  intro k L' M' hk
  by_cases hki : k = i
  · subst hki
    rw [hi] at hk
    cases hk
    refine Or.inr ⟨q, by rw [List.getElem?_set_self (by rw [hq.1]; exact hlt)], quad_congr hQ ?_⟩
    intro α _ β _ a _ d _
    beta_reduce
    rw [if_pos rfl]
  · have hne : ¬ (L', M') = (L, M) := by
      intro he
      rw [he] at hk
      obtain ⟨hk', hkg⟩ := List.getElem?_eq_some_iff.1 hk
      exact hki ((List.Nodup.getElem_inj_iff hnd).1 (hkg.trans hget.symm))
    rw [List.getElem?_set_ne (fun h => hki h.symm)]
    rcases hq.2 k L' M' hk with ⟨h1, h2⟩ | ⟨q', h1, h2⟩
    · refine Or.inl ⟨h1, ?_⟩
      intro α hα β hβ a ha d hd
      beta_reduce
      rw [if_neg hne, add_zero, h2 α hα β hβ a ha d hd]
    · refine Or.inr ⟨q', h1, quad_congr h2 ?_⟩
      intro α _ β _ a _ d _
      beta_reduce
      rw [if_neg hne, add_zero]

theorem exStep_ok (h : Ready b) (P : Mat ℝ) (p1 : P.rows = b.lm.length * b.rad.nbf) (p2 : P.cols = b.lm.length * b.rad.nbf) (i l : Nat) (hi : i < b.lm.length) (hl : l < b.lm.length)
    (xi xj xk xl : Int × Int) (mi : xi ∈ b.lm) (mj : xj ∈ b.lm) (mk : xk ∈ b.lm) (ml : xl ∈ b.lm) (hm : xj.2 - xi.2 = xk.2 - xl.2) (L : Int) (hL : L ∈ exchangeL xi xj xk xl)
    (hh : List (Option Quad)) (G : Int → Int → Nat → Nat → Nat → Nat → ℝ) (hq : QIs b.mp.lm b.rad.nbf hh G) :
    ∃ h', exStep b P i l xi xj xk xl hh L = .ok h' ∧ QIs b.mp.lm b.rad.nbf h' (fun L' M' α β a d => G L' M' α β a d +
      if (L', M') = (L, |xj.2 - xi.2|) then exTerm b.Rhalf xi xj xk xl L |xj.2 - xi.2| α β * P.get (i * b.rad.nbf + a) (l * b.rad.nbf + d) else 0) := by
  obtain ⟨ilm, i1, i2⟩ := C39_exchange_never_misses b.lm b.mp h.tables xi xj xk xl mi mj L hL
  unfold exchangeL at hL
  rw [mem_intRange] at hL
  have c1 : Couples xi xj L (xj.2 - xi.2) := ⟨rfl, by rw [abs_sub_comm]; omega, by omega, by omega⟩
  have c2 : Couples xl xk L (xk.2 - xl.2) := ⟨rfl, by omega, by rw [← hm]; omega, by omega⟩
  obtain ⟨g0, g2⟩ := h.cpl xj xi mj mi L c1
  obtain ⟨k0, k2⟩ := h.cpl xk xl mk ml L c2
  rw [← hm] at k0 k2
  unfold exStep
  rw [g0, Res.ok_bind, k0, Res.ok_bind, g2, Res.ok_bind, k2, Res.ok_bind]
  obtain ⟨c, hc⟩ : ∃ c : Nat → Nat → ℝ, c = fun α β => termSign α β * (angular α xj L.toNat (xj.2 - xi.2) xi * angular β xk L.toNat (xj.2 - xi.2) xl) := ⟨_, rfl⟩
  have e00 : angular 0 xj L.toNat (xj.2 - xi.2) xi * angular 0 xk L.toNat (xj.2 - xi.2) xl = c 0 0 := by rw [hc]; simp [termSign]
  have e01 : -angular 0 xj L.toNat (xj.2 - xi.2) xi * angular 1 xk L.toNat (xj.2 - xi.2) xl = c 0 1 := by rw [hc]; simp [termSign]
  have e10 : -angular 1 xj L.toNat (xj.2 - xi.2) xi * angular 0 xk L.toNat (xj.2 - xi.2) xl = c 1 0 := by rw [hc]; simp [termSign]
  have e11 : angular 1 xj L.toNat (xj.2 - xi.2) xi * angular 1 xk L.toNat (xj.2 - xi.2) xl = c 1 1 := by rw [hc]; simp [termSign]
  rw [e00, e01, e10, e11]
  have ht : ∀ α β, exTerm b.Rhalf xi xj xk xl L |xj.2 - xi.2| α β = facOf b.Rhalf L (xj.2 - xi.2) * c α β := by
    intro α β
    unfold exTerm
    rw [if_pos rfl, hc]; ring
  unfold exAdd
  by_cases hz : c 0 0 = 0 ∧ c 0 1 = 0 ∧ c 1 0 = 0 ∧ c 1 1 = 0
  · rw [if_pos hz]
    refine ⟨hh, rfl, hq.congr ?_⟩
    intro L' M' _ α hα β hβ a _ d _
    have : c α β = 0 := by
      obtain ⟨z0, z1, z2, z3⟩ := hz
      interval_cases α <;> interval_cases β <;> assumption
    rw [ht, this]; simp
  · rw [if_neg hz]
    have hfac : readAt (lmFacs b.Rhalf b.mp.lm) ilm = .ok (prefactor b.Rhalf L |xj.2 - xi.2|) := by
      unfold readAt lmFacs
      rw [List.getElem?_map, i2]; rfl
    have hB : MIs b.rad.nbf b.rad.nbf (denBlock b.rad.nbf P.get (i, l)) (fun a d => P.get (i * b.rad.nbf + a) (l * b.rad.nbf + d)) := ⟨rfl, rfl, fun _ _ _ _ => rfl⟩
    rw [i1, Res.ok_bind, hfac, Res.ok_bind, show P.block (i * b.rad.nbf) (l * b.rad.nbf) b.rad.nbf b.rad.nbf = .ok (denBlock b.rad.nbf P.get (i, l)) from
        if_pos ⟨by rw [p1]; exact block_fits hi, by rw [p2]; exact block_fits hl⟩, Res.ok_bind]
    obtain ⟨q0, hq0, hQ⟩ : ∃ q0, readAt hh ilm = .ok q0 ∧ QuadIs b.rad.nbf b.rad.nbf (Quad.start b.rad.nbf q0) (G L |xj.2 - xi.2|) := by
      unfold readAt
      rcases hq.2 ilm _ _ i2 with ⟨h1, h2⟩ | ⟨q, h1, h2⟩
      · refine ⟨none, by rw [h1], ?_⟩
        have zero : MIs b.rad.nbf b.rad.nbf (Mat.zero b.rad.nbf b.rad.nbf : Mat ℝ) (fun _ _ => 0) := ⟨rfl, rfl, fun _ _ _ _ => rfl⟩
        exact quad_congr (G := fun _ _ _ _ => 0) ⟨zero, zero, zero, zero⟩ (fun α hα β hβ a ha d hd => (h2 α hα β hβ a ha d hd).symm)
      · exact ⟨some q, by rw [h1], h2⟩
    rw [hq0, Res.ok_bind]
    obtain ⟨q1, s1, s2⟩ := quad_add hQ _ _ hB (fun α β => signM (xj.2 - xi.2) * prefactor b.Rhalf L |xj.2 - xi.2| * c α β)
    obtain ⟨h', w1, w2⟩ := hq.write h.nodup_lm i2 q1 _ s2
    refine ⟨h', by rw [s1, Res.ok_bind, w1], w2.congr ?_⟩
    intro L' M' _ α _ β _ a _ d _
    rw [ht]; rfl

theorem exPair_ok (h : Ready b) (P : Mat ℝ) (p1 : P.rows = b.lm.length * b.rad.nbf) (p2 : P.cols = b.lm.length * b.rad.nbf) (i l : Nat) (hi : i < b.lm.length) (hl : l < b.lm.length)
    (xi xj xk xl : Int × Int) (mi : xi ∈ b.lm) (mj : xj ∈ b.lm) (mk : xk ∈ b.lm) (ml : xl ∈ b.lm) (hm : xj.2 - xi.2 = xk.2 - xl.2)
    (hh : List (Option Quad)) (G : Int → Int → Nat → Nat → Nat → Nat → ℝ) (hq : QIs b.mp.lm b.rad.nbf hh G) :
    ∃ h', (exchangeL xi xj xk xl).foldlM (exStep b P i l xi xj xk xl) hh = .ok h' ∧ QIs b.mp.lm b.rad.nbf h' (fun L M α β a d => G L M α β a d +
      exTerm b.Rhalf xi xj xk xl L M α β * P.get (i * b.rad.nbf + a) (l * b.rad.nbf + d)) := by
  obtain ⟨h', a1, a2⟩ := foldlM_qis (exStep b P i l xi xj xk xl) _ (exchangeL xi xj xk xl) hh G hq (fun L hL hh' G' hq' => exStep_ok h P p1 p2 i l hi hl xi xj xk xl mi mj mk ml hm L hL hh' G' hq')
  refine ⟨h', a1, a2.congr ?_⟩
  intro L M hLM α _ β _ a _ d _
  congr 1
  have := sum_ite_mem ((exchangeL xi xj xk xl).map fun L => (L, |xj.2 - xi.2|)) ((nodup_intRange _ _).map (fun a b h => (Prod.mk.inj h).1)) (L, M)
    (fun q => exTerm b.Rhalf xi xj xk xl q.1 q.2 α β * P.get (i * b.rad.nbf + a) (l * b.rad.nbf + d))
  rw [List.map_map] at this
  refine this.trans ?_
  by_cases hmem : (L, M) ∈ (exchangeL xi xj xk xl).map fun L => (L, |xj.2 - xi.2|)
  · rw [if_pos hmem]
  · rw [if_neg hmem]
    have hz : exTerm b.Rhalf xi xj xk xl L M α β = 0 := by
      unfold exTerm
      by_cases hM : M = |xj.2 - xi.2|
      · rw [if_pos hM]
        obtain ⟨_, _, _, _, M', hc, hM'⟩ := (h.mem_lm L M).1 hLM
        have hL0 : 0 ≤ L := le_trans (abs_nonneg _) hc.2.2.1
        have hnot : ¬ L ∈ exchangeL xi xj xk xl := fun hL => hmem (List.mem_map.2 ⟨L, hL, by rw [hM]⟩)
        unfold exchangeL at hnot
        rw [mem_intRange] at hnot
        have hprod : angular α xj L.toNat (xj.2 - xi.2) xi * angular β xk L.toNat (xj.2 - xi.2) xl = 0 := by
          have e1 := abs_sub_comm xi.1 xj.1
          by_cases hA : ((L.toNat : Nat) : Int) < |xj.1 - xi.1| - 2 ∨ xj.1 + xi.1 + 2 < (L.toNat : Nat) ∨ ((L.toNat : Nat) : Int) < |xj.2 - xi.2|
          · rw [ang_zero α xj xi (h.pos xj mj) (h.pos xi mi) _ _ hA, zero_mul]
          · rw [ang_zero β xk xl (h.pos xk mk) (h.pos xl ml) _ _ (by omega), mul_zero]
        rw [hprod, mul_zero]
      · rw [if_neg hM]
    rw [hz, zero_mul]

theorem exSums_ok (h : Ready b) (P : Mat ℝ) (p1 : P.rows = b.lm.length * b.rad.nbf) (p2 : P.cols = b.lm.length * b.rad.nbf) (xj xk : Int × Int) (mj : xj ∈ b.lm) (mk : xk ∈ b.lm)
    (cand : List (Nat × Nat)) (hc : ∀ p ∈ cand, p.1 < b.lm.length ∧ p.2 < b.lm.length ∧ dmOf b.lm p = xj.2 - xk.2) :
    ∃ hh, exSums b P cand xj xk = .ok hh ∧ QIs b.mp.lm b.rad.nbf hh (fun L M α β a d => (cand.map fun p =>
      exTerm b.Rhalf (b.lm.getD p.1 (0, 0)) xj xk (b.lm.getD p.2 (0, 0)) L M α β * P.get (p.1 * b.rad.nbf + a) (p.2 * b.rad.nbf + d)).sum) := by
  obtain ⟨hh, a1, a2⟩ := foldlM_qis (fun h p => readAt b.lm p.1 >>= fun xi => readAt b.lm p.2 >>= fun xl => (exchangeL xi xj xk xl).foldlM (exStep b P p.1 p.2 xi xj xk xl) h)
    (fun p L M α β a d => exTerm b.Rhalf (b.lm.getD p.1 (0, 0)) xj xk (b.lm.getD p.2 (0, 0)) L M α β * P.get (p.1 * b.rad.nbf + a) (p.2 * b.rad.nbf + d)) cand _ _
    (qis_init b.mp.lm b.rad.nbf) (by
      intro p hp hh G hq
      obtain ⟨q1, q2, q3⟩ := hc p hp
      obtain ⟨x1, x2⟩ := readAt_lm q1
      obtain ⟨y1, y2⟩ := readAt_lm q2
      rw [x1, Res.ok_bind, y1, Res.ok_bind]
      unfold dmOf at q3
      exact exPair_ok h P p1 p2 p.1 p.2 q1 q2 _ xj xk _ x2 mj mk y2 (by omega) hh G hq)
  refine ⟨hh, a1, a2.congr ?_⟩
  intro L M _ α _ β _ a _ d _
  rw [zero_add]

/-! ### one output block -/

/-- the sum over all density blocks that pass the screening -/
noncomputable def denSum (b : Basis) (thr : ℝ) (P : Mat ℝ) (xj xk : Int × Int) (L M : Int) (α β a d : Nat) : ℝ :=
  ∑ i ∈ range b.lm.length, ∑ l ∈ range b.lm.length, exTerm b.Rhalf (b.lm.getD i (0, 0)) xj xk (b.lm.getD l (0, 0)) L M α β *
    screened b.rad.nbf thr P.get (i * b.rad.nbf + a) (l * b.rad.nbf + d)

theorem sum_filter_list {ι : Type _} (l : List ι) (p : ι → Bool) (f : ι → ℝ) : ((l.filter p).map f).sum = (l.map fun x => if p x then f x else 0).sum := by
  induction l with
  | nil => rfl
  | cons x l ih =>
    rw [List.filter_cons]
    by_cases hp : p x = true
    · rw [if_pos hp]; simp [ih, hp]
    · rw [if_neg hp]; simp [ih, hp]

theorem cand_sum {mabs : Int} (thr : ℝ) (P : Mat ℝ) (xj xk : Int × Int) (k : Nat) (hk : xj.2 - xk.2 + 2 * mabs = k) (L M : Int) (α β a d : Nat) (ha : a < b.rad.nbf) (hd : d < b.rad.nbf) :
    (((pairs b.lm.length).filter (inBucket b mabs thr P k)).map fun p =>
      exTerm b.Rhalf (b.lm.getD p.1 (0, 0)) xj xk (b.lm.getD p.2 (0, 0)) L M α β * P.get (p.1 * b.rad.nbf + a) (p.2 * b.rad.nbf + d)).sum = denSum b thr P xj xk L M α β a d := by
  rw [sum_filter_list]
  unfold pairs denSum
  rw [sum_flatMap_pairs]
  simp only [List.map_map, Function.comp_def, sum_map_range]
  apply sum_congr rfl; intro i _
  apply sum_congr rfl; intro l _
  rw [screened_at _ thr P.get i l a d ha hd]
  unfold inBucket denBlock dmOf
  simp only [decide_eq_true_eq]
  by_cases hf : frob ⟨b.rad.nbf, b.rad.nbf, fun a d => P.get (i * b.rad.nbf + a) (l * b.rad.nbf + d)⟩ < thr
  · rw [if_neg (by tauto), if_pos hf, mul_zero]
  · rw [if_neg hf]
    by_cases hm : (b.lm.getD i (0, 0)).2 - (b.lm.getD l (0, 0)).2 + 2 * mabs = k
    · rw [if_pos ⟨hf, hm⟩]
    · rw [if_neg (by tauto)]
      have : exTerm b.Rhalf (b.lm.getD i (0, 0)) xj xk (b.lm.getD l (0, 0)) L M α β = 0 := by
        unfold exTerm
        split_ifs
        · rw [ang_sel β xk (b.lm.getD l (0, 0)) L.toNat _ (by omega), mul_zero, mul_zero]
        · rfl
      rw [this, zero_mul]

variable {ne : Nat} {first last : Nat → Nat} {c : Ints} {Pm Qm : Int → Int → Nat → Nat → Nat → Nat → ℝ} {W : Int → Int → Nat → Nat → Nat → ℝ}

/-- what an output block receives -/
noncomputable def blockOut (b : Basis) (ne : Nat) (first last : Nat → Nat) (Pm Qm : Int → Int → Nat → Nat → Nat → Nat → ℝ) (W : Int → Int → Nat → Nat → Nat → ℝ) (thr : ℝ) (P : Mat ℝ)
    (j k : Nat) : Nat → Nat → ℝ := exOut b.mp.lm b.rad.nbf ne first last Pm Qm W (denSum b thr P (b.lm.getD j (0, 0)) (b.lm.getD k (0, 0)))

theorem exOut_congr (tab : List (Int × Int)) (nrad : Nat) (G G' : Int → Int → Nat → Nat → Nat → Nat → ℝ)
    (he : ∀ L M, (L, M) ∈ tab → ∀ α < 2, ∀ β < 2, ∀ a < nrad, ∀ d < nrad, G L M α β a d = G' L M α β a d) (a d : Nat) :
    exOut tab nrad ne first last Pm Qm W G a d = exOut tab nrad ne first last Pm Qm W G' a d := by
  unfold exOut
  congr 1
  apply sum_congr rfl; intro i hi
  apply sum_congr rfl; intro α hα
  apply sum_congr rfl; intro β hβ
  exact exchange_congr _ _ _ _ (he _ _ (List.mem_of_getElem? (tab_get (Finset.mem_range.1 hi))) α (Finset.mem_range.1 hα) β (Finset.mem_range.1 hβ)) a d

theorem exBody_ok (h : Ready b) (hR : Layout b.rad ne b.rad.nbf first last) (hs : Holds b c ne first last Pm Qm W) {mabs : Int} (hm : ∀ a ∈ b.lm, |a.2| ≤ mabs) (thr : ℝ) (P : Mat ℝ)
    (p1 : P.rows = b.lm.length * b.rad.nbf) (p2 : P.cols = b.lm.length * b.rad.nbf) {bk : List (List (Nat × Nat))}
    (hbk : ∀ k < (4 * mabs + 1).toNat, bk[k]? = some ((pairs b.lm.length).filter (inBucket b mabs thr P k))) (j k : Nat) (hj : j < b.lm.length) (hk : k < b.lm.length)
    (hab : ¬(b.absmSym = true ∧ ((b.lm.getD j (0, 0)).2 < 0 ∨ (b.lm.getD k (0, 0)).2 < 0))) (K : Mat ℝ)
    (k1 : K.rows = b.lm.length * b.rad.nbf) (k2 : K.cols = b.lm.length * b.rad.nbf) :
    ∃ K', exBody b c mabs bk P K (j, k) = .ok K' ∧ K'.rows = b.lm.length * b.rad.nbf ∧ K'.cols = b.lm.length * b.rad.nbf ∧
      ∀ x y, K'.get x y = K.get x y + at_ (j * b.rad.nbf) b.rad.nbf (k * b.rad.nbf) b.rad.nbf (blockOut b ne first last Pm Qm W thr P j k) x y := by
  obtain ⟨x1, x2⟩ := readAt_lm hj
  obtain ⟨y1, y2⟩ := readAt_lm hk
  have hx := abs_le.1 (hm _ x2)
  have hy := abs_le.1 (hm _ y2)
  unfold exBody
  simp only
  rw [x1, Res.ok_bind, y1, Res.ok_bind, if_neg hab, if_neg (by rw [not_lt, abs_le]; omega), if_neg (by omega)]
  unfold blockOut
  generalize b.lm.getD j (0, 0) = xj at *
  generalize b.lm.getD k (0, 0) = xk at *
  have hlt : (xj.2 - xk.2 + 2 * mabs).toNat < (4 * mabs + 1).toNat := by omega
  have hkk : xj.2 - xk.2 + 2 * mabs = ((xj.2 - xk.2 + 2 * mabs).toNat : Nat) := by omega
  rw [show readAt bk (xj.2 - xk.2 + 2 * mabs).toNat = .ok ((pairs b.lm.length).filter (inBucket b mabs thr P (xj.2 - xk.2 + 2 * mabs).toNat)) from by
    unfold readAt; rw [hbk _ hlt], Res.ok_bind]
  have hcand : ∀ p ∈ (pairs b.lm.length).filter (inBucket b mabs thr P (xj.2 - xk.2 + 2 * mabs).toNat), p.1 < b.lm.length ∧ p.2 < b.lm.length ∧ dmOf b.lm p = xj.2 - xk.2 := by
    intro p hp
    obtain ⟨q1, q2⟩ := List.mem_filter.1 hp
    unfold inBucket at q2
    rw [decide_eq_true_eq] at q2
    have := (mem_pairs _ _).1 q1
    exact ⟨this.1, this.2, by omega⟩
  have hsum := fun L M α β a d ha hd => cand_sum (b := b) thr P xj xk _ hkk L M α β a d ha hd
  unfold exCand
  by_cases hz : ((pairs b.lm.length).filter (inBucket b mabs thr P (xj.2 - xk.2 + 2 * mabs).toNat)).length = 0
  · rw [if_pos hz]
    refine ⟨K, rfl, k1, k2, ?_⟩
    intro x y
    rw [List.length_eq_zero_iff.1 hz] at hsum
    rw [at_congr _ _ _ _ _ (fun _ _ => 0)]
    · unfold at_; simp
    · intro a _ d _
      rw [exOut_congr _ _ _ (fun _ _ _ _ _ _ => 0) (fun L M _ α _ β _ a ha d hd => (hsum L M α β a d ha hd).symm)]
      unfold exOut
      rw [sum_eq_zero, neg_zero]
      intro i _
      apply sum_eq_zero; intro α _
      apply sum_eq_zero; intro β _
      exact exchange_zero _ _ _ (fun _ _ _ _ => rfl) a d
  · rw [if_neg hz]
    obtain ⟨hh, a1, a2⟩ := exSums_ok h P p1 p2 xj xk x2 y2 _ hcand
    rw [a1, Res.ok_bind]
    exact exRadial_ok hR hs (a2.congr (fun L M _ α _ β _ a ha d hd => hsum L M α β a d ha hd)) j k hj hk K k1 k2

/-! ### the sum over the table -/

theorem sum_table {tab : List (Int × Int)} (hnd : tab.Nodup) (nL : Nat) (hb : ∀ p ∈ tab, 0 ≤ p.1 ∧ p.1 < nL) (Ma : Int) (g : Nat → ℝ)
    (hg : ∀ L < nL, ((L : Int), Ma) ∉ tab → g L = 0) : ∑ i ∈ range tab.length, (if tabM tab i = Ma then g (tabL tab i).toNat else 0) = ∑ L ∈ range nL, g L := by
  have h1 : ∑ i ∈ range tab.length, (if tabM tab i = Ma then g (tabL tab i).toNat else 0) = (tab.map fun p => if p.2 = Ma then g p.1.toNat else 0).sum := by
    rw [← sum_map_range]
    congr 1
    apply List.ext_getElem
    · simp
    · intro i h1 h2
      simp only [List.length_map] at h2
      simp only [List.getElem_map, List.getElem_range]
      unfold tabM tabL
      rw [List.getD_eq_getElem?_getD, List.getElem?_eq_getElem h2]; rfl
  rw [h1, ← List.sum_toFinset _ hnd]
  have h2 : ∀ L ∈ range nL, g L = ∑ p ∈ tab.toFinset, if p = ((L : Int), Ma) then g L else 0 := by
    intro L hL
    rw [sum_ite_eq']
    by_cases hm : ((L : Int), Ma) ∈ tab
    · rw [if_pos (List.mem_toFinset.2 hm)]
    · rw [if_neg (fun h => hm (List.mem_toFinset.1 h)), hg L (Finset.mem_range.1 hL) hm]
  rw [sum_congr rfl h2, sum_comm]
  apply sum_congr rfl; intro p hp
  obtain ⟨b1, b2⟩ := hb p (List.mem_toFinset.1 hp)
  by_cases hM : p.2 = Ma
  · rw [if_pos hM, sum_eq_single_of_mem p.1.toNat (Finset.mem_range.2 (by omega)), if_pos]
    · ext
      · simp; omega
      · exact hM
    · intro L _ hne
      rw [if_neg]
      intro he
      apply hne
      rw [he]; simp
  · rw [if_neg hM, sum_eq_zero]
    intro L _
    rw [if_neg]
    intro he
    exact hM (by rw [he])

/-- an output block is the sum over all integrals -/
theorem blockOut_eq (h : Ready b) (nL : Nat) (hnL : ∀ x ∈ b.lm, ∀ y ∈ b.lm, x.1 + y.1 + 2 < nL) (thr : ℝ) (P : Mat ℝ) (j k : Nat) (hj : j < b.lm.length) (hk : k < b.lm.length) (a d : Nat) :
    blockOut b ne first last Pm Qm W thr P j k a d = -∑ i ∈ range (b.lm.length * b.rad.nbf), ∑ l ∈ range (b.lm.length * b.rad.nbf),
      neumann b.Rhalf nL (radialOf ne first last Pm Qm W) (orbital b.lm b.rad.nbf i) (b.lm.getD j (0, 0), a) (b.lm.getD k (0, 0), d) (orbital b.lm b.rad.nbf l) *
        screened b.rad.nbf thr P.get i l := by
  obtain ⟨nrad, hnr⟩ : ∃ n, n = b.rad.nbf := ⟨_, rfl⟩
  obtain ⟨n, hn⟩ : ∃ n, n = b.lm.length := ⟨_, rfl⟩
  have mj := (readAt_lm hj).2
  have mk := (readAt_lm hk).2
  have hpj := h.pos _ mj
  unfold blockOut exOut
  rw [← hnr, ← hn]
  generalize b.lm.getD j (0, 0) = xj at *
  generalize b.lm.getD k (0, 0) = xk at *
  congr 1
  rw [sum_orbitals]
  have e : ∀ i ∈ range n, ∑ p ∈ range nrad, ∑ l ∈ range (n * nrad), neumann b.Rhalf nL (radialOf ne first last Pm Qm W) (orbital b.lm nrad (i * nrad + p)) (xj, a) (xk, d) (orbital b.lm nrad l) *
        screened nrad thr P.get (i * nrad + p) l =
      ∑ p ∈ range nrad, ∑ l ∈ range n, ∑ q ∈ range nrad, ∑ t ∈ range b.mp.lm.length, ∑ α ∈ range 2, ∑ β ∈ range 2,
        fourOf ne first last (Pm (tabL b.mp.lm t) (tabM b.mp.lm t)) (Qm (tabL b.mp.lm t) (tabM b.mp.lm t)) (W (tabL b.mp.lm t) (tabM b.mp.lm t)) α β p a d q *
          (exTerm b.Rhalf (b.lm.getD i (0, 0)) xj xk (b.lm.getD l (0, 0)) (tabL b.mp.lm t) (tabM b.mp.lm t) α β * screened nrad thr P.get (i * nrad + p) (l * nrad + q)) := by
    intro i hi
    have hi := (readAt_lm (hn ▸ Finset.mem_range.1 hi)).2
    apply sum_congr rfl; intro p hp
    rw [sum_orbitals]
    apply sum_congr rfl; intro l _
    apply sum_congr rfl; intro q hq
    rw [orbital_at b.lm nrad i p (Finset.mem_range.1 hp), orbital_at b.lm nrad l q (Finset.mem_range.1 hq), neumann_single _ _ _ _ _ _ _ (h.pos _ hi) hpj]
    generalize b.lm.getD i (0, 0) = xi at *
    generalize b.lm.getD l (0, 0) = xl at *
    generalize screened nrad thr P.get (i * nrad + p) (l * nrad + q) = S
    simp only
    have hzero : ∀ L : Nat, ((L : Int), |xj.2 - xi.2|) ∉ b.mp.lm → ∀ α, angular α xj L (xj.2 - xi.2) xi = 0 := by
      intro L hL α
      apply ang_zero α xj xi hpj (h.pos _ hi)
      by_contra hc
      exact hL ((h.mem_lm _ _).2 ⟨xi, hi, xj, mj, xj.2 - xi.2, ⟨rfl, by omega, by omega, by omega⟩, rfl⟩)
    have key := sum_table h.nodup_lm nL (by
        intro p hp
        obtain ⟨x, hx, y, hy, M, hc, _⟩ := (h.mem_lm p.1 p.2).1 hp
        have := hnL x hx y hy
        have := hc.2.2.2
        have := hc.2.2.1
        have := abs_nonneg M
        omega) |xj.2 - xi.2| (fun L => facOf b.Rhalf L (xj.2 - xi.2) * (∑ α ∈ range 2, ∑ β ∈ range 2, termSign α β *
      (angular α xj L (xj.2 - xi.2) xi * angular β xk L (xj.2 - xi.2) xl) * radialOf ne first last Pm Qm W L (xj.2 - xi.2).natAbs α β p a d q) * S) (by
        intro L _ hm
        rw [sum_eq_zero, mul_zero, zero_mul]
        intro α _
        apply sum_eq_zero; intro β _
        rw [hzero L hm α]; ring)
    rw [sum_mul, ← key]
    apply sum_congr rfl; intro t ht
    have htab := (h.mem_lm _ _).1 (List.mem_of_getElem? (tab_get (Finset.mem_range.1 ht)))
    obtain ⟨_, _, _, _, M', hc, _⟩ := htab
    have hL0 : (((tabL b.mp.lm t).toNat : Nat) : Int) = tabL b.mp.lm t := by have := hc.2.2.1; have := abs_nonneg M'; omega
    unfold exTerm
    by_cases hM : tabM b.mp.lm t = |xj.2 - xi.2|
    · rw [if_pos hM, mul_sum, sum_mul]
      apply sum_congr rfl; intro α _
      rw [mul_sum, sum_mul]
      apply sum_congr rfl; intro β _
      rw [if_pos hM]
      unfold radialOf
      rw [hL0, ← Int.abs_eq_natAbs, hM]
      ring
    · rw [if_neg hM, sum_eq_zero]
      intro α _
      apply sum_eq_zero; intro β _
      rw [if_neg hM]; ring
  rw [sum_congr rfl e, sum_swap]
  apply sum_congr rfl; intro t _
  rw [sum_swap]
  apply sum_congr rfl; intro α _
  rw [sum_swap]
  apply sum_congr rfl; intro β _
  rw [sum_regroup]
  unfold Spec.exchange denSum
  rw [← hnr, ← hn]
  apply sum_congr rfl; intro p _
  apply sum_congr rfl; intro q _
  rw [mul_sum]
  apply sum_congr rfl; intro i _
  rw [mul_sum]

end DiaJK
end HelFEM
