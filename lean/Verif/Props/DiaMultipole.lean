import Verif.Lemmas.DiaMultipole
import Verif.Props.SymBlocks
import Verif.Props.Gaunt

/-!
# C39: multipole tables of the diatomic basis

`lm` lists the `(l, m)` of the angular functions.
-/

namespace HelFEM
namespace Dia
open Sym

/-- The multipole `(L, M)` couples angular functions `a` and `b`: `M` is the difference of their `m`, and `L` lies in the range reached by their
product with the weight `cosh² μ - cos² ν`, which adds at most two. -/
def Couples (a b : Int × Int) (L M : Int) : Prop := M = b.2 - a.2 ∧ |b.1 - a.1| - 2 ≤ L ∧ |M| ≤ L ∧ L ≤ a.1 + b.1 + 2

theorem mem_coupledL (a b : Int × Int) (L : Int) : L ∈ coupledL a b (b.2 - a.2) ↔ Couples a b L (b.2 - a.2) := by
  unfold coupledL Couples
  rw [mem_intRange, max_le_iff]
  constructor
  · rintro ⟨⟨h1, h2⟩, h3⟩; exact ⟨rfl, h1, h2, by omega⟩
  · rintro ⟨_, h1, h2, h3⟩; exact ⟨⟨h1, h2⟩, by omega⟩

/-- **C39, the tables.** Building the tables never fails. The `(L, M)` table consists, each once and in order, of the multipoles coupling two angular
functions; the `(L, |M|)` table likewise, up to the sign of `M`, with `|M|` the leading key. `Lmax` bounds every `L`. -/
theorem C39_tables (lm : List (Int × Int)) :
    ∃ t, multipoles lm = .ok t ∧
      (∀ L M, (L, M) ∈ t.LM ↔ ∃ a ∈ lm, ∃ b ∈ lm, Couples a b L M) ∧
      (∀ L Ma, (L, Ma) ∈ t.lm ↔ ∃ a ∈ lm, ∃ b ∈ lm, ∃ M, Couples a b L M ∧ Ma = |M|) ∧
      (t.LM.Pairwise fun p q => p.1 < q.1 ∨ (p.1 = q.1 ∧ p.2 < q.2)) ∧ (t.lm.Pairwise fun p q => p.2 < q.2 ∨ (p.2 = q.2 ∧ p.1 < q.1)) ∧
      (∀ a ∈ lm, ∀ b ∈ lm, ∀ L M, Couples a b L M → L ≤ t.Lmax) := by
  obtain ⟨t, e, h⟩ := multipoles_ok lm
  have hS : ∀ L M, (∃ a ∈ lm, ∃ b ∈ lm, M = b.2 - a.2 ∧ L ∈ coupledL a b (b.2 - a.2)) ↔ ∃ a ∈ lm, ∃ b ∈ lm, Couples a b L M := by
    intro L M
    refine exists_congr fun a => and_congr_right fun _ => exists_congr fun b => and_congr_right fun _ => ?_
    rw [mem_coupledL]
    constructor
    · rintro ⟨rfl, h⟩; exact h
    · intro h
      obtain rfl := h.1
      exact ⟨rfl, h⟩
  refine ⟨t, e, ?_, ?_, ?_, ?_, ?_⟩
  · intro L M; rw [h.LMmem, hS]
  · intro L Ma
    rw [h.lmmem]
    constructor
    · rintro ⟨M, h1, h2⟩
      obtain ⟨a, ha, b, hb, h3⟩ := (hS L M).1 h1
      exact ⟨a, ha, b, hb, M, h3, h2⟩
    · rintro ⟨a, ha, b, hb, M, h3, h2⟩
      exact ⟨M, (hS L M).2 ⟨a, ha, b, hb, h3⟩, h2⟩
  · exact h.LMSorted.imp fun h => (LMLess_iff _ _).1 h
  · exact h.lmSorted.imp fun h => (lmLess_iff _ _).1 h
  · intro a ha b hb L M hc
    exact (h.top.1 (L, M) ((hS L M).2 ⟨a, ha, b, hb, hc⟩)).1

/-- **C39, lookups.** On the built tables a lookup returns the position of the multipole asked for, and throws `logic_error` for one that is not in the
table; it never returns a wrong position. -/
theorem C39_lookup (lm : List (Int × Int)) (t : Multipoles) (ht : multipoles lm = .ok t) (L M : Int) :
    ((∃ a ∈ lm, ∃ b ∈ lm, Couples a b L M) → ∃ k : Nat, LMind t.LM L M true = .ok k ∧ t.LM[k]? = some (L, M)) ∧
    ((¬∃ a ∈ lm, ∃ b ∈ lm, Couples a b L M) → LMind t.LM L M true = .throw .logicError) ∧
    ((∃ a ∈ lm, ∃ b ∈ lm, ∃ M', Couples a b L M' ∧ |M'| = |M|) → ∃ k : Nat, lmind t.lm L M true = .ok k ∧ t.lm[k]? = some (L, |M|)) ∧
    ((¬∃ a ∈ lm, ∃ b ∈ lm, ∃ M', Couples a b L M' ∧ |M'| = |M|) → lmind t.lm L M true = .throw .logicError) := by
  obtain ⟨t', e, h1, h2, h3, h4, _⟩ := C39_tables lm
  rw [ht] at e; cases e
  have s1 : t.LM.Pairwise fun a b => LMLess a b = true := h3.imp fun h => (LMLess_iff _ _).2 h
  have s2 : t.lm.Pairwise fun a b => lmLess a b = true := h4.imp fun h => (lmLess_iff _ _).2 h
  have l1 := lookup_check order_LM t.LM s1 (L, M)
  have l2 := lookup_check order_lm t.lm s2 (L, |M|)
  refine ⟨fun h => ?_, fun h => l1.2 fun hm => h ((h1 L M).1 hm), fun h => ?_, fun h => l2.2 fun hm => h ?_⟩
  · obtain ⟨k, hk⟩ := List.getElem?_of_mem ((h1 L M).2 h)
    exact ⟨k, l1.1 k hk, hk⟩
  · obtain ⟨a, ha, b, hb, M', hc, hM⟩ := h
    obtain ⟨k, hk⟩ := List.getElem?_of_mem ((h2 L |M|).2 ⟨a, ha, b, hb, M', hc, hM.symm⟩)
    exact ⟨k, l2.1 k hk, hk⟩
  · obtain ⟨a, ha, b, hb, M', hc, hM⟩ := (h2 L |M|).1 hm
    exact ⟨a, ha, b, hb, M', hc, hM.symm⟩

/-- **C39, Coulomb.** Every multipole the Coulomb builder looks up is in the `(L, M)` table, and so is, in the `(L, |M|)` table, every entry it goes
through in between: the lookup error cannot occur. -/
theorem C39_coulomb_never_misses (lm : List (Int × Int)) (t : Multipoles) (ht : multipoles lm = .ok t) :
    (∀ p ∈ coulombRequests lm, ∃ k : Nat, LMind t.LM p.1 p.2 true = .ok k ∧ t.LM[k]? = some p) ∧
    ∀ p ∈ t.LM, ∃ k : Nat, lmind t.lm p.1 p.2 true = .ok k ∧ t.lm[k]? = some (p.1, |p.2|) := by
  constructor
  · intro p hp
    refine (C39_lookup lm t ht p.1 p.2).1 ?_
    rw [coulombRequests, List.mem_append] at hp
    rcases hp with hp | hp
    all_goals
      obtain ⟨a, ha, h1⟩ := List.mem_flatMap.1 hp
      obtain ⟨b, hb, h2⟩ := List.mem_flatMap.1 h1
      obtain ⟨L, hL, rfl⟩ := List.mem_map.1 h2
    · exact ⟨b, hb, a, ha, (mem_coupledL b a L).1 hL⟩
    · exact ⟨a, ha, b, hb, (mem_coupledL a b L).1 hL⟩
  · intro p hp
    refine (C39_lookup lm t ht p.1 p.2).2.2.1 ?_
    obtain ⟨t', e, h1, _⟩ := C39_tables lm
    rw [ht] at e; cases e
    obtain ⟨a, ha, b, hb, hc⟩ := (h1 p.1 p.2).1 hp
    exact ⟨a, ha, b, hb, p.2, hc, rfl⟩

/-- **C39, exchange.** For every four angular functions, whatever their `m`, each `L` the exchange builder visits is in the `(L, |M|)` table. -/
theorem C39_exchange_never_misses (lm : List (Int × Int)) (t : Multipoles) (ht : multipoles lm = .ok t) (i j k l : Int × Int) (hi : i ∈ lm) (hj : j ∈ lm)
    (L : Int) (hL : L ∈ exchangeL i j k l) : ∃ n : Nat, lmind t.lm L (j.2 - i.2) true = .ok n ∧ t.lm[n]? = some (L, |j.2 - i.2|) := by
  refine (C39_lookup lm t ht L (j.2 - i.2)).2.2.1 ⟨i, hi, j, hj, j.2 - i.2, ?_, rfl⟩
  unfold exchangeL at hL
  rw [mem_intRange, max_le_iff] at hL
  obtain ⟨⟨h1, h2⟩, h3⟩ := hL
  refine ⟨rfl, ?_, h2, ?_⟩
  · have := le_max_left |i.1 - j.1| |k.1 - l.1|
    rw [abs_sub_comm i.1 j.1] at this h1
    omega
  · have := min_le_left (i.1 + j.1) (k.1 + l.1)
    omega

/-- **C39, coupling coefficients.** The Gaunt table sized by the constructor covers every coupling coefficient of the two-electron builders: for angular
functions `a`, `b` and every multipole coupling them, both coefficients are found, without error, and equal the directly computed ones. -/
theorem C39_couplings_tabulated {K : Type _} [CommRing K] {G : Nat → Int → Nat → Int → Nat → Int → K} (hG : Gaunt.Symmetric G) (c0 c2 : K)
    (lm : List (Int × Int)) (hl : ∀ p ∈ lm, 0 ≤ p.1) (t : Multipoles) (ht : multipoles lm = .ok t) (sched : List Nat)
    (hs : ∃ n, sched.Perm (List.range (n + 1)) ∧ (n : Int) = max (t.Lmax + 2) 5) (a b : Int × Int) (ha : a ∈ lm) (hb : b ∈ lm) :
    ∃ T, ctorGaunt G lm t.Lmax sched = .ok T ∧ ∀ L : Nat, Couples a b L (b.2 - a.2) →
      T.modCoeff c0 c2 b.1 b.2 L (b.2 - a.2) a.1 a.2 = .ok (Gaunt.modDirect G c0 c2 b.1.toNat b.2 L (b.2 - a.2) a.1.toNat a.2) ∧
      T.coeff b.1 b.2 L (b.2 - a.2) a.1 = .ok (Gaunt.direct G b.1.toNat b.2 L (b.2 - a.2) a.1.toNat a.2) := by
  obtain ⟨n, hperm, hn⟩ := hs
  obtain ⟨t', e, _, _, _, _, htop⟩ := C39_tables lm
  rw [ht] at e; cases e
  have hlm : ∀ p ∈ lm, 2 * p.1 + 2 ≤ t.Lmax := by
    intro p hp
    have h0 := hl p hp
    have := htop p hp p hp (2 * p.1 + 2) 0 ⟨by omega, by simp only [sub_self, abs_zero]; omega, by simp; omega, by omega⟩
    exact this
  have hpos : 0 ≤ t.Lmax := by have := hlm a ha; have := hl a ha; omega
  have hne : lm ≠ [] := by rintro rfl; cases ha
  obtain ⟨mabs, hm, hm0, hmle⟩ := absmMax_spec lm hne
  obtain ⟨p, r, rfl⟩ : ∃ p r, lm = p :: r := by
    cases lm with
    | nil => exact absurd rfl hne
    | cons p r => exact ⟨p, r, rfl⟩
  have hg : r.foldl (fun a q => max a q.1) p.1 + 2 ≤ t.Lmax + 2 := by
    have : ∀ (r : List (Int × Int)) (c : Int), c ≤ t.Lmax → (∀ q ∈ r, q.1 ≤ t.Lmax) → r.foldl (fun a q => max a q.1) c ≤ t.Lmax := by
      intro r
      induction r with
      | nil => intro c hc _; exact hc
      | cons q r ih => intro c hc hq; rw [List.foldl_cons]; exact ih _ (max_le hc (hq q (by simp))) fun x hx => hq x (by simp [hx])
    have := this r p.1 (by have := hlm p (by simp); have := hl p (by simp); omega) fun q hq => by
      have := hlm q (by simp [hq]); have := hl q (by simp [hq]); omega
    omega
  have e1 : max (t.Lmax + 2) (r.foldl (fun a q => max a q.1) p.1 + 2) = t.Lmax + 2 := max_eq_left hg
  have hbuild : ctorGaunt G (p :: r) t.Lmax sched = Gaunt.build G (t.Lmax + 2).toNat (max t.Lmax 5).toNat (t.Lmax + 2).toNat (2 * mabs) sched := by
    unfold ctorGaunt
    simp only
    rw [hm, Res.ok_bind, e1]
  have hsched : sched.Perm (List.range (max (max (t.Lmax + 2).toNat (max t.Lmax 5).toNat) (t.Lmax + 2).toNat + 1)) := by
    have : max (max (t.Lmax + 2).toNat (max t.Lmax 5).toNat) (t.Lmax + 2).toNat = n := by omega
    rw [this]; exact hperm
  obtain ⟨T, hT, hlook⟩ := Gaunt.C25_lookup hG (t.Lmax + 2).toNat (max t.Lmax 5).toNat (t.Lmax + 2).toNat (2 * mabs) sched hsched
  refine ⟨T, hbuild.trans hT, ?_⟩
  intro L hc
  have hLtop := htop a ha b hb L (b.2 - a.2) hc
  have h1 := hlm a ha
  have h2 := hlm b hb
  have h3 := hl a ha
  have h4 := hl b hb
  have h5 := hmle a ha
  have h6 := hmle b hb
  have hM : |b.2 - a.2| ≤ 2 * mabs := by
    have := abs_sub b.2 a.2
    omega
  constructor
  · obtain ⟨T', hT', hmod⟩ := Gaunt.C25_modified hG c0 c2 (t.Lmax + 2).toNat (max t.Lmax 5).toNat (t.Lmax + 2).toNat (2 * mabs) sched hsched b.1.toNat L a.1.toNat
      b.2 (b.2 - a.2) a.2 (by omega) (by omega) (by omega) (by omega) (by omega) (Or.inr ⟨hM, by omega, by omega⟩) (by omega)
    rw [hT] at hT'; cases hT'
    rwa [Int.toNat_of_nonneg h4, Int.toNat_of_nonneg h3] at hmod
  · rw [hlook]
    simp only
    rw [if_pos ⟨⟨h4, by omega⟩, ⟨by omega, by omega⟩, h3, by omega⟩, if_neg]
    · rw [Int.toNat_natCast, show b.2 - (b.2 - a.2) = a.2 by omega]
    · split_ifs <;> omega

/-- **C39, integral runs.** The tasks of the integral build go through every pair of a table entry and an element exactly once, each with that entry's
`L` and `|M|` and a Legendre cache reaching at least its `L`. -/
theorem C39_integral_tasks (tab : List (Int × Int)) (nel : Nat) :
    ((disjointTasks tab nel).map fun s => (s.ilm, s.iel)).Nodup ∧
    (∀ ilm iel, ilm < tab.length → iel < nel → ∃ s ∈ disjointTasks tab nel, s.ilm = ilm ∧ s.iel = iel) ∧
    ∀ s ∈ disjointTasks tab nel, s.ilm < tab.length ∧ s.iel < nel ∧ tab[s.ilm]? = some (s.L, s.Mabs) ∧ s.L ≤ s.Lhi := by
  obtain ⟨p1, p2, p3⟩ := mruns_spec tab tab.length 0 (by omega)
  have get : ∀ k, k < tab.length → tab[k]? = some (tab.getD k (0, 0)) := by
    intro k hk; rw [getD_get _ _ hk, List.getElem?_eq_getElem hk]
  refine ⟨?_, ?_, ?_⟩
  · unfold disjointTasks
    rw [List.map_flatMap]
    refine List.nodup_flatMap.2 ⟨?_, ?_⟩
    · intro g _
      rw [List.map_flatMap]
      refine List.nodup_flatMap.2 ⟨?_, ?_⟩
      · intro iel _
        simp only [List.map_map, Function.comp_def]
        exact (List.nodup_range').map fun x y h => (Prod.mk.inj h).1
      · refine List.nodup_range.imp ?_
        intro x y hxy
        simp only [Function.onFun, List.disjoint_left, List.map_map, Function.comp_def, List.mem_map]
        rintro q ⟨u, _, rfl⟩ ⟨v, _, h⟩
        exact hxy (Prod.mk.inj h).2.symm
    · refine p1.imp ?_
      intro g h hgh
      simp only [Function.onFun, List.disjoint_left, List.map_flatMap, List.mem_flatMap, List.map_map, Function.comp_def, List.mem_map, List.mem_range'_1]
      rintro q ⟨x, _, u, hu, rfl⟩ ⟨y, _, v, hv, h⟩
      have := (Prod.mk.inj h).1
      omega
  · intro ilm iel h1 h2
    obtain ⟨g, hg, h3, h4⟩ := p3 ilm (by omega) h1
    refine ⟨_, List.mem_flatMap.2 ⟨g, hg, List.mem_flatMap.2 ⟨iel, List.mem_range.2 h2, List.mem_map.2 ⟨ilm, List.mem_range'_1.2 ⟨h3, by omega⟩, rfl⟩⟩⟩, rfl, rfl⟩
  · intro s hs
    obtain ⟨g, hg, hs⟩ := List.mem_flatMap.1 hs
    obtain ⟨iel, hiel, hs⟩ := List.mem_flatMap.1 hs
    obtain ⟨ilm, hilm, rfl⟩ := List.mem_map.1 hs
    obtain ⟨h1, h2⟩ := List.mem_range'_1.1 hilm
    obtain ⟨_, h3, h4, h5⟩ := p2 g hg
    have hlt : ilm < tab.length := by omega
    refine ⟨hlt, List.mem_range.1 hiel, ?_, ?_⟩
    · simp only
      rw [get ilm hlt, ← h5 ilm h1 (by omega)]
    · exact (foldl_max_mem (fun k => (tab.getD k (0, 0)).1) (List.range' g.1 (g.2 - g.1)) 0).2 ilm hilm

/-- A `σ` and a `π` function: the tables and two lookups. -/
example : ∃ t, multipoles [(0, 0), (1, 1)] = .ok t ∧ t.lm = [(0, 0), (1, 0), (2, 0), (3, 0), (4, 0), (1, 1), (2, 1), (3, 1)] ∧ t.LM.length = 11 ∧
    LMind t.LM 2 (-1) true = .ok 4 ∧ lmind t.lm 2 (-1) true = .ok 6 ∧ LMind t.LM 2 2 true = .throw .logicError := by
  refine ⟨_, rfl, ?_, ?_, ?_, ?_, ?_⟩ <;> decide

example : disjointTasks [(0, 0), (2, 0), (1, 1)] 2 = [⟨0, 0, 0, 0, 2⟩, ⟨1, 0, 2, 0, 2⟩, ⟨0, 1, 0, 0, 2⟩, ⟨1, 1, 2, 0, 2⟩, ⟨2, 0, 1, 1, 1⟩, ⟨2, 1, 1, 1, 1⟩] := by decide

end Dia
end HelFEM
