import Verif.Spec.SymBlocks
import Verif.Lemmas.SymBlocks
import Mathlib.Algebra.BigOperators.Group.List.Basic

/-!
# C26, C27: angular functions and symmetry blocks
-/

namespace HelFEM
namespace Sym

/-! ### C26 -/

theorem push_all (n : Nat) : ∀ (es acc : List (Int × Int)), acc.length + es.length ≤ n → es.foldlM (push n) acc = .ok (acc ++ es) := by
  intro es
  induction es with
  | nil => intro acc _; simp
  | cons e r ih =>
    intro acc h
    simp only [List.length_cons] at h
    rw [List.foldlM_cons, push, if_pos (by omega), Res.ok_bind, ih _ (by simp; omega)]
    simp

theorem mem_body (mabs l : Int) (h0 : 0 ≤ mabs) (p : Int × Int) : p ∈ bodyEntries mabs l ↔ p.1 = l ∧ |p.2| = mabs := by
  obtain ⟨a, b⟩ := p
  unfold bodyEntries
  split_ifs with h
  · simp only [List.mem_cons, Prod.mk.injEq, List.not_mem_nil, or_false]
    constructor
    · rintro (⟨rfl, rfl⟩ | ⟨rfl, rfl⟩)
      · exact ⟨rfl, abs_of_pos h⟩
      · exact ⟨rfl, by rw [abs_neg, abs_of_pos h]⟩
    · rintro ⟨rfl, h2⟩
      rcases abs_cases b with ⟨h3, _⟩ | ⟨h3, _⟩ <;> omega
  · have : mabs = 0 := by omega
    subst this
    simp [Prod.mk.injEq]

theorem nodup_body (mabs l : Int) : (bodyEntries mabs l).Nodup := by
  unfold bodyEntries
  split_ifs with h
  · simp; omega
  · simp

/-- the nested loops list each pair once -/
theorem nodup_loops (ms : List Int) (hms : ms.Nodup) (h0 : ∀ x ∈ ms, 0 ≤ x) (top : Int → Int) :
    (ms.flatMap fun mabs => (intRange mabs (top mabs)).flatMap (bodyEntries mabs)).Nodup := by
  rw [List.nodup_flatMap]
  refine ⟨?_, ?_⟩
  · intro m hm
    rw [List.nodup_flatMap]
    refine ⟨fun l _ => nodup_body m l, ?_⟩
    refine List.Pairwise.imp_of_mem ?_ (nodup_intRange m (top m))
    intro a b _ _ hab p hp hp'
    rw [mem_body m _ (h0 m hm)] at hp hp'
    exact hab (hp.1.symm.trans hp'.1)
  · refine List.Pairwise.imp_of_mem ?_ hms
    intro a b ha hb hab p hp hp'
    rw [List.mem_flatMap] at hp hp'
    obtain ⟨l, _, h1⟩ := hp
    obtain ⟨l', _, h1'⟩ := hp'
    rw [mem_body _ _ (h0 _ ha)] at h1
    rw [mem_body _ _ (h0 _ hb)] at h1'
    exact hab (h1.2.symm.trans h1'.2)

theorem mem_loops (ms : List Int) (h0 : ∀ x ∈ ms, 0 ≤ x) (top : Int → Int) (p : Int × Int) :
    p ∈ (ms.flatMap fun mabs => (intRange mabs (top mabs)).flatMap (bodyEntries mabs)) ↔ |p.2| ∈ ms ∧ |p.2| ≤ p.1 ∧ p.1 ≤ top |p.2| := by
  simp only [List.mem_flatMap]
  constructor
  · rintro ⟨m, hm, l, hl, hp⟩
    rw [mem_body _ _ (h0 m hm)] at hp
    obtain ⟨rfl, rfl⟩ := hp
    exact ⟨hm, (mem_intRange _ _ _).1 hl⟩
  · rintro ⟨h1, h2⟩
    exact ⟨_, h1, p.1, (mem_intRange _ _ _).2 h2, (mem_body _ _ (h0 _ h1) p).2 ⟨rfl, rfl⟩⟩

/-- number of entries of the loops -/
theorem loops_length (lmax : Int) (M : Nat) :
    (((intRange 0 M).flatMap fun mabs => (intRange mabs lmax).flatMap (bodyEntries mabs)).length : Int) =
      ((intRange 0 lmax).map fun l => 2 * min (M : Int) l + 1).sum := by
  have hbody : ∀ mabs : Int, ((intRange mabs lmax).flatMap (bodyEntries mabs)).length = (lmax + 1 - mabs).toNat * (if 0 < mabs then 2 else 1) := by
    intro mabs
    have hlen : ∀ l, (bodyEntries mabs l).length = if 0 < mabs then 2 else 1 := by
      intro l; unfold bodyEntries; split_ifs <;> rfl
    rw [List.length_flatMap, ← intRange_length]
    simp only [hlen]
    simp
  have hdiff : ∀ (n M : Nat), ((List.range n).map fun k : Nat => 2 * min ((M : Int) + 1) (k : Int) + 1).sum =
      ((List.range n).map fun k : Nat => 2 * min (M : Int) (k : Int) + 1).sum + 2 * ((n - (M + 1) : Nat) : Int) := by
    intro n M
    induction n with
    | zero => simp
    | succ n ih =>
      rw [List.range_succ, List.map_append, List.map_append, List.sum_append, List.sum_append, ih]
      simp only [List.map_cons, List.map_nil, List.sum_cons, List.sum_nil]
      omega
  have hconv : ∀ M : Nat, ((intRange 0 lmax).map fun l => 2 * min (M : Int) l + 1).sum =
      ((List.range (lmax + 1).toNat).map fun k : Nat => 2 * min (M : Int) (k : Int) + 1).sum := by
    intro M
    rw [intRange, List.map_map]
    simp only [sub_zero]
    congr 1
    refine List.map_congr_left ?_
    intro k _
    simp
  induction M with
  | zero =>
    have : intRange 0 ((0 : Nat) : Int) = [0] := rfl
    rw [this, hconv]
    simp only [List.flatMap_cons, List.flatMap_nil, List.append_nil, hbody]
    have : ∀ n : Nat, ((List.range n).map fun k : Nat => 2 * min ((0 : Nat) : Int) (k : Int) + 1).sum = (n : Int) := by
      intro n
      induction n with
      | zero => rfl
      | succ n ih => rw [List.range_succ, List.map_append, List.sum_append, ih]; simp
    rw [this]
    simp
  | succ M ih =>
    have e : intRange 0 ((M + 1 : Nat) : Int) = intRange 0 (M : Int) ++ [((M + 1 : Nat) : Int)] := by
      unfold intRange
      have h1 : ((((M + 1 : Nat) : Int) + 1 - 0).toNat) = (((M : Nat) : Int) + 1 - 0).toNat + 1 := by omega
      rw [h1, List.range_succ, List.map_append]
      simp
    rw [e, List.flatMap_append, List.length_append]
    simp only [List.flatMap_cons, List.flatMap_nil, List.append_nil, hbody]
    push_cast
    rw [ih, hconv, ← Nat.cast_succ, hconv]
    have := hdiff (lmax + 1).toNat M
    push_cast at this ⊢
    rw [this, if_pos (by omega)]
    omega

/-- **C26.** For every `lmax` and every `mmax ≥ 0` the angular basis is built without error and lists each `(l, m)` with `|m| ≤ mmax` and
`|m| ≤ l ≤ lmax` exactly once. -/
theorem C26_angular_basis (lmax mmax : Int) (h : 0 ≤ mmax) :
    ∃ v, angularBasis lmax mmax = .ok v ∧ v.Nodup ∧ ∀ l m : Int, (l, m) ∈ v ↔ |m| ≤ mmax ∧ |m| ≤ l ∧ l ≤ lmax := by
  obtain ⟨M, rfl⟩ := Int.eq_ofNat_of_zero_le h
  have hl := loops_length lmax M
  obtain ⟨es, hes⟩ : ∃ es, es = (intRange 0 (M : Int)).flatMap fun mabs => (intRange mabs lmax).flatMap (bodyEntries mabs) := ⟨_, rfl⟩
  obtain ⟨nang, hn⟩ : ∃ nang, nang = ((intRange 0 lmax).map fun l => 2 * min (M : Int) l + 1).sum := ⟨_, rfl⟩
  rw [← hes, ← hn] at hl
  have h0 : ∀ x ∈ intRange 0 (M : Int), 0 ≤ x := fun x hx => ((mem_intRange _ _ _).1 hx).1
  refine ⟨es, ?_, ?_, ?_⟩
  · rw [angularBasis]
    rw [← hn, if_neg (by omega), ← hes, push_all nang.toNat es [] (by simp; omega)]
    simp only [Res.ok_bind, List.nil_append]
    exact if_neg (by omega)
  · rw [hes]; exact nodup_loops _ (nodup_intRange _ _) h0 fun _ => lmax
  · intro l m
    rw [hes, mem_loops _ h0 fun _ => lmax, mem_intRange]
    simp only
    constructor
    · rintro ⟨⟨_, h1⟩, h2⟩; exact ⟨h1, h2⟩
    · rintro ⟨h1, h2⟩; exact ⟨⟨abs_nonneg _, h1⟩, h2⟩

/-- Outside: with a negative `mmax` and `lmax ≥ 0` the reported size wraps around instead of being 0. -/
theorem C26_negative_mmax (lmax mmax : Int) (h : mmax < 0) (hl : 0 ≤ lmax) : angularBasis lmax mmax = .ub := by
  rw [angularBasis]
  refine if_pos ?_
  have : ∀ n : Nat, ((List.range (n + 1)).map fun k : Nat => 2 * min mmax (k : Int) + 1).sum < 0 := by
    intro n
    induction n with
    | zero => simp; omega
    | succ n ih =>
      rw [List.range_succ, List.map_append, List.sum_append]
      simp only [List.map_cons, List.map_nil, List.sum_cons, List.sum_nil]
      omega
  have h2 := this lmax.toNat
  rw [intRange, List.map_map]
  have e : (lmax + 1 - 0).toNat = lmax.toNat + 1 := by omega
  rw [e]
  refine lt_of_le_of_lt (le_of_eq ?_) h2
  congr 1
  refine List.map_congr_left ?_
  intro k _
  simp

/-- The diatomic enumeration from a list of the largest `l` per `|m|` lists each admissible `(l, m)` exactly once. -/
theorem C26_diatomic_basis (lmax : List Int) :
    (lmToLM lmax).Nodup ∧ ∀ l m : Int, (l, m) ∈ lmToLM lmax ↔ |m| < lmax.length ∧ |m| ≤ l ∧ l ≤ lmax.getD m.natAbs 0 := by
  have e : lmToLM lmax = ((List.range lmax.length).map fun k : Nat => (k : Int)).flatMap fun mabs =>
      (intRange mabs ((fun x : Int => lmax.getD x.toNat 0) mabs)).flatMap (bodyEntries mabs) := by
    rw [lmToLM, List.flatMap_map]
    rfl
  have h0 : ∀ x ∈ (List.range lmax.length).map fun k : Nat => (k : Int), 0 ≤ x := by
    intro x hx
    obtain ⟨k, _, rfl⟩ := List.mem_map.1 hx
    omega
  refine ⟨?_, ?_⟩
  · rw [e]
    refine nodup_loops _ ?_ h0 _
    exact List.Nodup.map (fun a b h => by simpa using h) List.nodup_range
  · intro l m
    rw [e, mem_loops _ h0]
    simp only [List.mem_map, List.mem_range]
    have h1 : |m|.toNat = m.natAbs := by rw [Int.abs_eq_natAbs]; rfl
    have h1' : |m| = (m.natAbs : Int) := Int.abs_eq_natAbs m
    rw [h1]
    constructor
    · rintro ⟨⟨k, hk, h2⟩, h3⟩; exact ⟨by omega, h3⟩
    · rintro ⟨h2, h3⟩; exact ⟨⟨m.natAbs, by omega, by omega⟩, h3⟩

example : ∃ v, angularBasis 3 1 = .ok v ∧ v.length = 10 ∧ v.Nodup := ⟨_, rfl, by decide, by decide⟩
example : angularBasis 2 5 = .ok [(0, 0), (1, 0), (2, 0), (1, 1), (1, -1), (2, 1), (2, -1), (2, 2), (2, -2)] := by decide
example : lmToLM [2, 1] = [(0, 0), (1, 0), (2, 0), (1, 1), (1, -1)] := by decide

/-! ### C27 -/

theorem isBlocks_map (n : Nat) (lmOf : Nat → Int × Int) (ls : List Label) (f : Label → List Nat) (hnd : ls.Nodup)
    (hmem : ∀ x ∈ ls, ∀ k, k ∈ f x ↔ k < n ∧ Fits x (lmOf k)) (hsort : ∀ x ∈ ls, (f x).Pairwise (· < ·))
    (hdisj : ∀ x ∈ ls, ∀ y ∈ ls, x ≠ y → ∀ p, Fits x p → ¬ Fits y p) (hcov : ∀ k < n, ∃ x ∈ ls, Fits x (lmOf k)) :
    IsBlocks n lmOf (ls.map f) ls := by
  refine ⟨by simp, hnd, ?_, ?_, ?_⟩
  · intro i b x hb hx k
    rw [List.getElem?_map, hx] at hb
    simp only [Option.map_some, Option.some.injEq] at hb
    rw [← hb]
    exact hmem x (List.mem_of_getElem? hx) k
  · intro b hb
    obtain ⟨x, hx, rfl⟩ := List.mem_map.1 hb
    exact hsort x hx
  · rw [List.perm_ext_iff_of_nodup _ List.nodup_range]
    · intro k
      simp only [List.mem_flatten, List.mem_map, List.mem_range]
      constructor
      · rintro ⟨b, ⟨x, hx, rfl⟩, hk⟩; exact ((hmem x hx k).1 hk).1
      · intro hk
        obtain ⟨x, hx, hfit⟩ := hcov k hk
        exact ⟨f x, ⟨x, hx, rfl⟩, (hmem x hx k).2 ⟨hk, hfit⟩⟩
    · rw [List.nodup_flatten]
      refine ⟨?_, ?_⟩
      · intro b hb
        obtain ⟨x, hx, rfl⟩ := List.mem_map.1 hb
        exact (hsort x hx).imp (fun h => ne_of_lt h)
      · rw [List.pairwise_map]
        refine List.Pairwise.imp_of_mem ?_ hnd
        intro x y hx hy hxy k hk hk'
        exact hdisj x hx y hy hxy _ ((hmem x hx k).1 hk).2 ((hmem y hy k).1 hk').2

theorem getD_get {α : Type _} (l : List α) {i : Nat} (d : α) (h : i < l.length) : l.getD i d = l[i] := by
  rw [List.getD_eq_getElem?_getD, List.getElem?_eq_getElem h]; rfl

theorem getD_mem (lm : List (Int × Int)) (i : Nat) (h : i < lm.length) : lm.getD i (0, 0) ∈ lm := by
  rw [getD_get _ _ h]; exact List.getElem_mem h

theorem atom_lt {lm : List (Int × Int)} {nrad k : Nat} (h : k < lm.length * nrad) : k / nrad < lm.length := by
  rw [Nat.div_lt_iff_lt_mul (by rcases Nat.eq_zero_or_pos nrad with h' | h'; · simp [h'] at h
                                · exact h')]
  exact h

/-- **C27, atoms.** For every list of angular functions without repetitions, every radial size and every supported symmetry level the blocks with
their labels partition the basis. -/
theorem C27_atomic (lm : List (Int × Int)) (nrad : Nat) (hnd : lm.Nodup) (symm : Int) (hs : symm = 0 ∨ symm = 1 ∨ symm = 2) :
    ∃ blocks labels, atomSymIdx lm nrad symm = .ok blocks ∧ atomLabels lm symm = .ok labels ∧
      IsBlocks (lm.length * nrad) (atomLMOf lm nrad) blocks labels := by
  have hcol : ∀ (mt : Nat → Bool) (k : Nat), k ∈ collect lm.length (fun _ => nrad) mt ↔ k < lm.length * nrad ∧ mt (k / nrad) = true := by
    intro mt k
    rw [mem_collect, shells_const]
    split_ifs with h
    · simp only [Option.some.injEq, h, true_and]
      constructor
      · rintro ⟨i, rfl, h2⟩; exact h2
      · intro h2; exact ⟨_, rfl, h2⟩
    · simp [h]
  rcases hs with rfl | rfl | rfl
  · refine ⟨_, _, rfl, rfl, ?_⟩
    refine isBlocks_map _ _ [.all] (fun _ => List.range (atomNbf lm nrad)) (by simp) ?_ ?_ ?_ ?_
    · intro x hx k
      rw [List.mem_singleton.1 hx, List.mem_range]
      simp [Fits, atomNbf]
    · intro x _; exact List.pairwise_lt_range
    · intro x hx y hy hxy
      exact absurd ((List.mem_singleton.1 hx).trans (List.mem_singleton.1 hy).symm) hxy
    · intro k _; exact ⟨.all, by simp, trivial⟩
  · refine ⟨(uniqueM lm).map (atomM lm nrad), (uniqueM lm).map .m, rfl, rfl, ?_⟩
    have e : (uniqueM lm).map (atomM lm nrad) = ((uniqueM lm).map Label.m).map fun x => match x with | .m a => atomM lm nrad a | _ => [] := by
      rw [List.map_map]; rfl
    rw [e]
    refine isBlocks_map _ _ _ _ ?_ ?_ ?_ ?_ ?_
    · exact List.Nodup.map (fun a b h => by simpa using h) ((unique_sorted lm).imp fun h => ne_of_lt h)
    · intro x hx k
      obtain ⟨a, _, rfl⟩ := List.mem_map.1 hx
      simp only [atomM, hcol, beq_iff_eq, Fits, atomLMOf]
    · intro x hx
      obtain ⟨a, _, rfl⟩ := List.mem_map.1 hx
      exact collect_sorted _ _ _
    · intro x hx y hy hxy p h1 h2
      obtain ⟨a, _, rfl⟩ := List.mem_map.1 hx
      obtain ⟨b, _, rfl⟩ := List.mem_map.1 hy
      simp only [Fits] at h1 h2
      exact hxy (by rw [← h1, ← h2])
    · intro k hk
      exact ⟨.m (atomLMOf lm nrad k).2, List.mem_map.2 ⟨_, (mem_unique lm _).2 ⟨_, getD_mem lm _ (atom_lt hk), rfl⟩, rfl⟩, rfl⟩
  · refine ⟨lm.map fun p => atomLM lm nrad p.1 p.2, lm.map fun p => .lm p.1 p.2, rfl, rfl, ?_⟩
    have e : (lm.map fun p => atomLM lm nrad p.1 p.2) = (lm.map fun p => Label.lm p.1 p.2).map
        fun x => match x with | .lm l a => atomLM lm nrad l a | _ => [] := by
      rw [List.map_map]; rfl
    rw [e]
    refine isBlocks_map _ _ _ _ ?_ ?_ ?_ ?_ ?_
    · refine List.Nodup.map (fun a b h => ?_) hnd
      simp only [Label.lm.injEq] at h
      exact Prod.ext h.1 h.2
    · intro x hx k
      obtain ⟨⟨l, a⟩, _, rfl⟩ := List.mem_map.1 hx
      simp only [atomLM, hcol, beq_iff_eq, Bool.and_eq_true, Fits, atomLMOf]
      rw [Prod.ext_iff]
      simp only
      rw [and_comm (a := (lm.getD (k / nrad) (0, 0)).2 = a)]
    · intro x hx
      obtain ⟨a, _, rfl⟩ := List.mem_map.1 hx
      exact collect_sorted _ _ _
    · intro x hx y hy hxy p h1 h2
      obtain ⟨a, _, rfl⟩ := List.mem_map.1 hx
      obtain ⟨b, _, rfl⟩ := List.mem_map.1 hy
      simp only [Fits] at h1 h2
      rw [h1] at h2
      simp only [Prod.mk.injEq] at h2
      exact hxy (by rw [h2.1, h2.2])
    · intro k hk
      exact ⟨.lm (atomLMOf lm nrad k).1 (atomLMOf lm nrad k).2, List.mem_map.2 ⟨_, getD_mem lm _ (atom_lt hk), rfl⟩, rfl⟩

theorem C27_atomic_rejects (lm : List (Int × Int)) (nrad : Nat) (symm : Int) (hs : symm ≠ 0 ∧ symm ≠ 1 ∧ symm ≠ 2) :
    atomSymIdx lm nrad symm = .throw .logicError ∧ atomLabels lm symm = .throw .logicError := by
  unfold atomSymIdx atomLabels
  simp [hs]

theorem dia_mem (lm : List (Int × Int)) (nrad : Nat) (mt : Nat → Bool) (k : Nat) :
    k ∈ collect lm.length (diaSize lm nrad) mt ↔ k < (pureIndices lm nrad).length ∧ mt ((pureIndices lm nrad).getD k 0 / nrad) = true := by
  rw [mem_collect, shells_dia, List.getElem?_map]
  by_cases h : k < (pureIndices lm nrad).length
  · rw [List.getElem?_eq_getElem h, getD_get _ _ h]
    simp [h]
  · rw [List.getElem?_eq_none (by omega)]
    simp [h]

theorem dia_shell_lt (lm : List (Int × Int)) (nrad k : Nat) (h : k < (pureIndices lm nrad).length) :
    (pureIndices lm nrad).getD k 0 / nrad < lm.length := by
  refine shells_lt lm.length (diaSize lm nrad) k _ ?_
  rw [shells_dia, List.getElem?_map, List.getElem?_eq_getElem h, getD_get _ _ h]
  rfl

/-- **C27, diatomics.** The blocks of symmetry levels 0 (none), 1 (`m`) and 2 (`m` and parity) with their labels partition the basis. -/
theorem C27_diatomic (lm : List (Int × Int)) (nrad : Nat) (hr : 1 ≤ nrad) (hl : ∀ p ∈ lm, 0 ≤ p.1) (symm : Int)
    (hs : symm = 0 ∨ symm = 1 ∨ symm = 2) :
    ∃ blocks labels, diaSymIdx lm nrad symm = .ok blocks ∧ diaLabels lm symm = .ok labels ∧
      IsBlocks (diaNbf lm nrad) (diaLMOf lm nrad) blocks labels ∧ diaMirrorIdx lm nrad symm = .ok (blocks.map fun _ => []) := by
  have hn := diaNbf_eq lm nrad hr
  rcases hs with rfl | rfl | rfl
  · refine ⟨_, _, rfl, rfl, ?_, rfl⟩
    refine isBlocks_map _ _ [.all] (fun _ => List.range (diaNbf lm nrad)) (by simp) ?_ ?_ ?_ ?_
    · intro x hx k
      rw [List.mem_singleton.1 hx, List.mem_range]
      simp [Fits]
    · intro x _; exact List.pairwise_lt_range
    · intro x hx y hy hxy
      exact absurd ((List.mem_singleton.1 hx).trans (List.mem_singleton.1 hy).symm) hxy
    · intro k _; exact ⟨.all, by simp, trivial⟩
  · refine ⟨(uniqueM lm).map (diaM lm nrad), (uniqueM lm).map .m, rfl, rfl, ?_, rfl⟩
    have e : (uniqueM lm).map (diaM lm nrad) = ((uniqueM lm).map Label.m).map fun x => match x with | .m a => diaM lm nrad a | _ => [] := by
      rw [List.map_map]; rfl
    rw [e]
    refine isBlocks_map _ _ _ _ ?_ ?_ ?_ ?_ ?_
    · exact List.Nodup.map (fun a b h => by simpa using h) ((unique_sorted lm).imp fun h => ne_of_lt h)
    · intro x hx k
      obtain ⟨a, _, rfl⟩ := List.mem_map.1 hx
      simp only [diaM, dia_mem, beq_iff_eq, Fits, diaLMOf, hn]
    · intro x hx
      obtain ⟨a, _, rfl⟩ := List.mem_map.1 hx
      exact collect_sorted _ _ _
    · intro x hx y hy hxy p h1 h2
      obtain ⟨a, _, rfl⟩ := List.mem_map.1 hx
      obtain ⟨b, _, rfl⟩ := List.mem_map.1 hy
      simp only [Fits] at h1 h2
      exact hxy (by rw [← h1, ← h2])
    · intro k hk
      rw [hn] at hk
      exact ⟨.m (diaLMOf lm nrad k).2, List.mem_map.2 ⟨_, (mem_unique lm _).2 ⟨_, getD_mem lm _ (dia_shell_lt lm nrad k hk), rfl⟩, rfl⟩, rfl⟩
  · refine ⟨(uniqueM lm).flatMap fun m => [diaMP lm nrad m 0, diaMP lm nrad m 1], (uniqueM lm).flatMap fun m => [.g m, .u m], rfl, rfl, ?_, rfl⟩
    have e : ((uniqueM lm).flatMap fun m => [diaMP lm nrad m 0, diaMP lm nrad m 1]) = ((uniqueM lm).flatMap fun m => [Label.g m, Label.u m]).map
        fun x => match x with | .g a => diaMP lm nrad a 0 | .u a => diaMP lm nrad a 1 | _ => [] := by
      rw [List.map_flatMap]; rfl
    have hls : ∀ x ∈ (uniqueM lm).flatMap (fun m => [Label.g m, Label.u m]), ∃ a, x = .g a ∨ x = .u a := by
      intro x hx
      obtain ⟨a, _, h⟩ := List.mem_flatMap.1 hx
      simp only [List.mem_cons, List.not_mem_nil, or_false] at h
      exact ⟨a, h⟩
    have hpar : ∀ k, k < (pureIndices lm nrad).length → 0 ≤ (lm.getD ((pureIndices lm nrad).getD k 0 / nrad) (0, 0)).1 := fun k hk =>
      hl _ (getD_mem lm _ (dia_shell_lt lm nrad k hk))
    rw [e]
    refine isBlocks_map _ _ _ _ ?_ ?_ ?_ ?_ ?_
    · rw [List.nodup_flatMap]
      refine ⟨by intro a _; simp, ?_⟩
      refine (unique_sorted lm).imp ?_
      intro a b hab x hx hx'
      simp only [List.mem_cons, List.not_mem_nil, or_false] at hx hx'
      rcases hx with rfl | rfl <;> simp at hx' <;> omega
    · intro x hx k
      obtain ⟨a, rfl | rfl⟩ := hls x hx
      · simp only [diaMP, dia_mem, beq_iff_eq, Bool.and_eq_true, Fits, diaLMOf, hn]
        refine and_congr_right fun hk => and_congr_right fun _ => ?_
        rw [Int.tmod_eq_emod_of_nonneg (hpar k hk)]
      · simp only [diaMP, dia_mem, beq_iff_eq, Bool.and_eq_true, Fits, diaLMOf, hn]
        refine and_congr_right fun hk => and_congr_right fun _ => ?_
        rw [Int.tmod_eq_emod_of_nonneg (hpar k hk)]
    · intro x hx
      obtain ⟨a, rfl | rfl⟩ := hls x hx <;> exact collect_sorted _ _ _
    · intro x hx y hy hxy p h1 h2
      obtain ⟨a, rfl | rfl⟩ := hls x hx <;> obtain ⟨b, rfl | rfl⟩ := hls y hy <;> simp only [Fits] at h1 h2
      · exact hxy (by rw [← h1.1, ← h2.1])
      · omega
      · omega
      · exact hxy (by rw [← h1.1, ← h2.1])
    · intro k hk
      rw [hn] at hk
      have hm : (diaLMOf lm nrad k).2 ∈ uniqueM lm := (mem_unique lm _).2 ⟨_, getD_mem lm _ (dia_shell_lt lm nrad k hk), rfl⟩
      rcases Int.emod_two_eq_zero_or_one (diaLMOf lm nrad k).1 with h | h
      · exact ⟨.g _, List.mem_flatMap.2 ⟨_, hm, by simp⟩, rfl, h⟩
      · exact ⟨.u _, List.mem_flatMap.2 ⟨_, hm, by simp⟩, rfl, h⟩

theorem foldl_max_ge (r : List (Int × Int)) : ∀ a : Int, a ≤ r.foldl (fun a q => max a q.2) a ∧ ∀ q ∈ r, q.2 ≤ r.foldl (fun a q => max a q.2) a := by
  induction r with
  | nil => intro a; simp
  | cons q r ih =>
    intro a
    rw [List.foldl_cons]
    have h := ih (max a q.2)
    refine ⟨by omega, ?_⟩
    intro x hx
    rcases List.mem_cons.1 hx with rfl | hx
    · omega
    · exact h.2 x hx

theorem foldl_min_le (r : List (Int × Int)) : ∀ a : Int, r.foldl (fun a q => min a q.2) a ≤ a ∧ ∀ q ∈ r, r.foldl (fun a q => min a q.2) a ≤ q.2 := by
  induction r with
  | nil => intro a; simp
  | cons q r ih =>
    intro a
    rw [List.foldl_cons]
    have h := ih (min a q.2)
    refine ⟨by omega, ?_⟩
    intro x hx
    rcases List.mem_cons.1 hx with rfl | hx
    · omega
    · exact h.2 x hx

theorem absmMax_spec (lm : List (Int × Int)) (h : lm ≠ []) : ∃ a, absmMax lm = .ok a ∧ 0 ≤ a ∧ ∀ p ∈ lm, |p.2| ≤ a := by
  cases lm with
  | nil => exact absurd rfl h
  | cons p r =>
    have h1 := foldl_max_ge r p.2
    have h2 := foldl_min_le r p.2
    refine ⟨_, rfl, le_max_of_le_left (abs_nonneg _), ?_⟩
    obtain ⟨a, ha⟩ : ∃ a, a = r.foldl (fun a q => max a q.2) p.2 := ⟨_, rfl⟩
    obtain ⟨b, hb⟩ : ∃ b, b = r.foldl (fun a q => min a q.2) p.2 := ⟨_, rfl⟩
    rw [← ha] at h1 ⊢
    rw [← hb] at h2 ⊢
    intro q hq
    have : b ≤ q.2 ∧ q.2 ≤ a := by
      rcases List.mem_cons.1 hq with rfl | hq
      · exact ⟨h2.1, h1.1⟩
      · exact ⟨h2.2 q hq, h1.2 q hq⟩
    rcases abs_cases q.2 with ⟨e, _⟩ | ⟨e, _⟩ <;> rcases abs_cases a with ⟨e', _⟩ | ⟨e', _⟩ <;> rcases abs_cases b with ⟨e'', _⟩ | ⟨e'', _⟩ <;> omega

/-- **C27, diatomics, level 3 (`|m|`).** There is one block and one mirror block per `|m|`, block `m` holds exactly the functions of `+m` and its mirror those
of `-m` (none for `m = 0`), and blocks and mirrors together list every function once. -/
theorem C27_diatomic_mirror (lm : List (Int × Int)) (nrad : Nat) (hr : 1 ≤ nrad) (hne : lm ≠ []) :
    ∃ (a : Int) (blocks mirror : List (List Nat)) (labels : List Label), diaSymIdx lm nrad 3 = .ok blocks ∧ diaMirrorIdx lm nrad 3 = .ok mirror ∧
      diaLabels lm 3 = .ok labels ∧ labels = (intRange 0 a).map Label.absm ∧ blocks.length = labels.length ∧ mirror.length = labels.length ∧
      (∀ (i : Nat) (m : Int) (b c : List Nat), labels[i]? = some (.absm m) → blocks[i]? = some b → mirror[i]? = some c →
        (∀ k, k ∈ b ↔ k < diaNbf lm nrad ∧ (diaLMOf lm nrad k).2 = m) ∧
        (∀ k, k ∈ c ↔ m ≠ 0 ∧ k < diaNbf lm nrad ∧ (diaLMOf lm nrad k).2 = -m) ∧ b.Pairwise (· < ·) ∧ c.Pairwise (· < ·)) ∧
      (blocks.flatten ++ mirror.flatten).Perm (List.range (diaNbf lm nrad)) := by
  obtain ⟨a, ha, ha0, hal⟩ := absmMax_spec lm hne
  have hn := diaNbf_eq lm nrad hr
  have hM : ∀ m k, k ∈ diaM lm nrad m ↔ k < diaNbf lm nrad ∧ (diaLMOf lm nrad k).2 = m := by
    intro m k
    simp only [diaM, dia_mem, beq_iff_eq, diaLMOf, hn]
  refine ⟨a, (intRange 0 a).map (diaM lm nrad), (intRange 0 a).map fun m => if m ≠ 0 then diaM lm nrad (-m) else [], (intRange 0 a).map .absm,
    ?_, ?_, ?_, rfl, by simp, by simp, ?_, ?_⟩
  · rw [diaSymIdx, ha]; rfl
  · rw [diaMirrorIdx, ha]; rfl
  · rw [diaLabels, ha]; rfl
  · intro i m b c h1 h2 h3
    simp only [List.getElem?_map, Option.map_eq_some_iff] at h1 h2 h3
    obtain ⟨x, hx, h1⟩ := h1
    obtain ⟨y, hy, rfl⟩ := h2
    obtain ⟨z, hz, rfl⟩ := h3
    rw [hx] at hy hz
    simp only [Option.some.injEq] at hy hz
    subst hy hz
    simp only [Label.absm.injEq] at h1
    subst h1
    refine ⟨hM x, ?_, collect_sorted _ _ _, ?_⟩
    · intro k
      split_ifs with h
      · rw [hM]; simp [h]
      · simp only [List.not_mem_nil, false_iff]
        exact fun h' => h h'.1
    · split_ifs
      · exact collect_sorted _ _ _
      · exact List.Pairwise.nil
  · rw [List.perm_ext_iff_of_nodup _ List.nodup_range]
    · intro k
      simp only [List.mem_append, List.mem_flatten, List.mem_map, List.mem_range]
      constructor
      · rintro (⟨b, ⟨x, hx, rfl⟩, hk⟩ | ⟨b, ⟨x, hx, rfl⟩, hk⟩)
        · exact ((hM x k).1 hk).1
        · split_ifs at hk
          · exact ((hM _ k).1 hk).1
          · cases hk
      · intro hk
        have hk' := hk
        rw [hn] at hk'
        have hle := hal _ (getD_mem lm _ (dia_shell_lt lm nrad k hk'))
        by_cases hs : 0 ≤ (diaLMOf lm nrad k).2
        · refine Or.inl ⟨_, ⟨(diaLMOf lm nrad k).2, (mem_intRange _ _ _).2 ⟨hs, le_trans (le_abs_self _) hle⟩, rfl⟩, (hM _ k).2 ⟨hk, rfl⟩⟩
        · refine Or.inr ⟨_, ⟨-(diaLMOf lm nrad k).2, (mem_intRange _ _ _).2 ⟨by omega, le_trans (neg_le_abs _) hle⟩, rfl⟩, ?_⟩
          rw [if_pos (by omega), hM]
          exact ⟨hk, by omega⟩
    · rw [List.nodup_append]
      refine ⟨?_, ?_, ?_⟩
      · rw [List.nodup_flatten]
        refine ⟨?_, ?_⟩
        · intro b hb
          obtain ⟨x, _, rfl⟩ := List.mem_map.1 hb
          exact (collect_sorted _ _ _).imp fun h => ne_of_lt h
        · rw [List.pairwise_map]
          refine List.Pairwise.imp_of_mem ?_ (nodup_intRange 0 a)
          intro x y _ _ hxy k hk hk'
          exact hxy (((hM x k).1 hk).2.symm.trans ((hM y k).1 hk').2)
      · rw [List.nodup_flatten]
        refine ⟨?_, ?_⟩
        · intro b hb
          obtain ⟨x, _, rfl⟩ := List.mem_map.1 hb
          split_ifs
          · exact (collect_sorted _ _ _).imp fun h => ne_of_lt h
          · exact List.nodup_nil
        · rw [List.pairwise_map]
          refine List.Pairwise.imp_of_mem ?_ (nodup_intRange 0 a)
          intro x y _ _ hxy k hk hk'
          split_ifs at hk hk'
          · have h1 := ((hM _ k).1 hk).2
            have h2 := ((hM _ k).1 hk').2
            exact hxy (by omega)
          all_goals first | cases hk | cases hk'
      · intro k hk k' hk' he
        subst he
        simp only [List.mem_flatten, List.mem_map] at hk hk'
        obtain ⟨b, ⟨x, hx, rfl⟩, hk⟩ := hk
        obtain ⟨c, ⟨y, hy, rfl⟩, hk'⟩ := hk'
        rw [mem_intRange] at hx hy
        split_ifs at hk' with hy0
        · have h1 := ((hM _ k).1 hk).2
          have h2 := ((hM _ k).1 hk').2
          omega
        · cases hk'

theorem C27_diatomic_rejects (lm : List (Int × Int)) (nrad : Nat) (symm : Int) (hs : symm ≠ 0 ∧ symm ≠ 1 ∧ symm ≠ 2 ∧ symm ≠ 3) :
    diaSymIdx lm nrad symm = .throw .logicError ∧ diaMirrorIdx lm nrad symm = .throw .logicError ∧ diaLabels lm symm = .throw .logicError := by
  obtain ⟨h0, h1, h2, h3⟩ := hs
  have e : diaSymIdx lm nrad symm = .throw .logicError := by
    rw [diaSymIdx, if_neg h0, if_neg h1, if_neg h2, if_neg h3]
  refine ⟨e, ?_, ?_⟩
  · rw [diaMirrorIdx, if_pos h3, e]; rfl
  · rw [diaLabels, if_neg h0, if_neg h1, if_neg h2, if_neg h3]

/-- the block lists of small bases; the enumerations of C26 meet the hypotheses -/
example : atomSymIdx [(0, 0), (1, 0), (1, 1), (1, -1)] 2 2 = .ok [[0, 1], [2, 3], [4, 5], [6, 7]] := by decide
example : atomM [(0, 0), (1, 0), (1, 1), (1, -1)] 2 0 = [0, 1, 2, 3] := by decide
example : [(0, 0), (1, 0), (1, 1), (1, -1)].Nodup ∧ ∀ p ∈ lmToLM [2, 1], 0 ≤ p.1 := by decide
example : ∃ blocks labels, diaSymIdx (lmToLM [1, 1]) 3 2 = .ok blocks ∧ diaLabels (lmToLM [1, 1]) 2 = .ok labels ∧
    IsBlocks 10 (diaLMOf (lmToLM [1, 1]) 3) blocks labels := by
  obtain ⟨b, l, h1, h2, h3, _⟩ := C27_diatomic (lmToLM [1, 1]) 3 (by decide) (by decide) 2 (by decide)
  exact ⟨b, l, h1, h2, h3⟩
example : diaMP (lmToLM [1, 1]) 3 (-1) 1 = [8, 9] ∧ diaMP (lmToLM [1, 1]) 3 0 1 = [3, 4, 5] ∧ diaMP (lmToLM [1, 1]) 3 1 0 = [] := by decide
example : diaSymIdx (lmToLM [1, 1]) 3 3 = .ok [[0, 1, 2, 3, 4, 5], [6, 7]] ∧ diaMirrorIdx (lmToLM [1, 1]) 3 3 = .ok [[], [8, 9]] := by decide

end Sym
end HelFEM
