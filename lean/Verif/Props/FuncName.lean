import Verif.Spec.FuncName
import Mathlib.Data.Nat.Digits.Lemmas
import Mathlib.Tactic.NormNum
import Mathlib.Tactic.Ring

/-!
# C88: the functionals a name stands for, and their exact exchange
-/

namespace HelFEM
namespace Func

open Spec

theorem caseEq_iff (s t : Str) : caseEq s t = true ↔ s.map Char.toLower = t.map Char.toLower := by
  unfold caseEq
  rw [decide_eq_true_eq]

theorem low_none : ("none".toList).map Char.toLower = "none".toList := by decide +kernel
theorem low_hf : ("HF".toList).map Char.toLower = "hf".toList := by decide +kernel
theorem low_hf' : ("hyb_x_hf".toList).map Char.toLower = "hyb_x_hf".toList := by decide +kernel

theorem find_plain (L : Lib) {s : Str} (h : Plain s) : findFunc L s = if L.number s = -1 then .throw .runtimeError else .ok (L.number s) := by
  have h0 : ¬(s.head?.any Char.isDigit) = true := by
    cases hs : s.head? with
    | none => simp
    | some c => simp [h.digit c hs]
  unfold findFunc
  rw [if_neg h0, if_neg (by rw [caseEq_iff, low_none]; exact h.none), if_neg (by rw [caseEq_iff, low_hf']; exact h.hf'), if_neg (by rw [caseEq_iff, low_hf]; exact h.hf)]

theorem not_digit_find (L : Lib) {s : Str} (h : ∀ c, s.head? = some c → c.isDigit = false) : findFunc L s = if s.map Char.toLower = "none".toList then .ok 0
    else if s.map Char.toLower = "hyb_x_hf".toList then .ok (-1) else if s.map Char.toLower = "hf".toList then .ok (-1) else if L.number s = -1 then .throw .runtimeError else .ok (L.number s) := by
  have h0 : ¬(s.head?.any Char.isDigit) = true := by
    cases hs : s.head? with
    | none => simp
    | some c => simp [h c hs]
  unfold findFunc
  rw [if_neg h0]
  simp only [caseEq_iff, low_none, low_hf, low_hf']

/-- `none`, `HF` and `hyb_x_hf`, in capitals or not, are no functional and Hartree-Fock; any other name is what libxc says it is, and one it does not know is refused. -/
theorem C88_name (L : Lib) (s : Str) (h : ∀ c, s.head? = some c → c.isDigit = false) :
    (s.map Char.toLower = "none".toList → findFunc L s = .ok 0) ∧ (s.map Char.toLower = "hf".toList ∨ s.map Char.toLower = "hyb_x_hf".toList → findFunc L s = .ok (-1)) ∧
    (Plain s → L.number s ≠ -1 → findFunc L s = .ok (L.number s)) ∧ (Plain s → L.number s = -1 → findFunc L s = .throw .runtimeError) := by
  refine ⟨fun e => ?_, fun e => ?_, fun hp e => ?_, fun hp e => ?_⟩
  · rw [not_digit_find L h, if_pos e]
  · rw [not_digit_find L h]
    rcases e with e | e
    · rw [e, if_neg (by decide +kernel), if_neg (by decide +kernel), if_pos rfl]
    · rw [e, if_neg (by decide +kernel), if_pos rfl]
  · rw [find_plain L hp, if_neg e]
  · rw [find_plain L hp, if_pos e]

theorem foldl_digits (ds : Str) (a : Nat) : ds.foldl (fun a c => 10 * a + (c.toNat - '0'.toNat)) a = a * 10 ^ ds.length + Nat.ofDigits 10 (ds.reverse.map fun c => c.toNat - 48) := by
  induction ds generalizing a with
  | nil => simp
  | cons c ds ih =>
    rw [List.foldl_cons, ih, List.reverse_cons, List.map_append, Nat.ofDigits_append]
    simp only [List.map_cons, List.map_nil, Nat.ofDigits_singleton, List.length_map, List.length_reverse, List.length_cons, show ('0' : Char).toNat = 48 from rfl]
    ring

/-- A text that starts with digits is the number they are, whatever follows them; a number too large for `int` is undefined behaviour. -/
theorem C88_number (L : Lib) (ds t : Str) (hd : ds ≠ []) (h : ∀ c ∈ ds, c.isDigit = true) (ht : ∀ c, t.head? = some c → c.isDigit = false) :
    (Nat.ofDigits 10 (ds.reverse.map fun c => c.toNat - 48) < 2 ^ 31 → findFunc L (ds ++ t) = .ok (Nat.ofDigits 10 (ds.reverse.map fun c => c.toNat - 48) : Nat)) ∧
    (2 ^ 31 ≤ Nat.ofDigits 10 (ds.reverse.map fun c => c.toNat - 48) → findFunc L (ds ++ t) = .ub) := by
  have h0 : ((ds ++ t).head?.any Char.isDigit) = true := by
    cases ds with
    | nil => exact absurd rfl hd
    | cons c ds => simp [h c (by simp)]
  have hw : (ds ++ t).takeWhile Char.isDigit = ds := by
    rw [List.takeWhile_append_of_pos h]
    cases t with
    | nil => simp
    | cons c t => simp [ht c rfl]
  unfold findFunc atoi
  rw [if_pos h0, hw, foldl_digits, Nat.zero_mul, Nat.zero_add]
  constructor
  · intro hl
    simp only
    rw [if_pos (by omega)]
  · intro hl
    simp only
    rw [if_neg (by omega)]

/-- A misspelt number is not refused: `1abc` is functional 1. -/
theorem C88_trailing (L : Lib) : findFunc L "1abc".toList = .ok 1 :=
  (C88_number L ['1'] "abc".toList (by simp) (by decide +kernel) (by decide +kernel)).1 (by decide +kernel)

theorem split_dash (a b : Str) (h : '-' ∉ a) : (a ++ '-' :: b).takeWhile (fun c => decide (c ≠ '-')) = a ∧ ((a ++ '-' :: b).dropWhile (fun c => decide (c ≠ '-'))).drop 1 = b := by
  have hp : ∀ c ∈ a, (decide (c ≠ '-')) = true := fun c hc => decide_eq_true fun e => h (e ▸ hc)
  constructor
  · rw [List.takeWhile_append_of_pos hp]
    simp
  · rw [List.dropWhile_append_of_pos hp]
    simp

/-- With a dash, the text before the first dash is the exchange and the rest is the correlation; without one, the text is the exchange and there is no correlation functional. -/
theorem C88_parse (L : Lib) (a b : Str) (h : '-' ∉ a) :
    parse L (a ++ '-' :: b) = (findFunc L a >>= fun x => findFunc L b >>= fun c => notKinetic L x >>= fun _ => notKinetic L c >>= fun _ => .ok (x, c)) ∧
    parse L a = (findFunc L a >>= fun x => notKinetic L x >>= fun _ => .ok (x, 0)) := by
  obtain ⟨h1, h2⟩ := split_dash a b h
  constructor
  · unfold parse
    rw [if_pos (by simp), h1, h2]
    cases findFunc L a with
    | ok x =>
      simp only [Res.ok_bind]
      cases findFunc L b <;> rfl
    | throw e => rfl
    | ub => rfl
  · unfold parse
    rw [if_neg h]
    cases findFunc L a with
    | ok x =>
      simp only [Res.ok_bind]
      cases notKinetic L x with
      | ok u => rfl
      | throw e => rfl
      | ub => rfl
    | throw e => rfl
    | ub => rfl

theorem notKinetic_inv {L : Lib} {id : Int} (h : notKinetic L id = .ok ()) (hp : 0 < id) : ∃ i, L.info id = some i ∧ i.kind ≠ .kinetic := by
  unfold notKinetic isKinetic query at h
  rw [if_pos hp] at h
  cases hi : L.info id with
  | none => rw [hi] at h; cases h
  | some i =>
    rw [hi] at h
    simp only [Res.ok_bind] at h
    refine ⟨i, rfl, fun e => ?_⟩
    rw [if_pos (by simpa using e)] at h
    cases hk : keyword L id <;> rw [hk] at h <;> cases h

/-- Whatever the text, the functionals it is read as exist and are not for kinetic energy. -/
theorem C88_parsed {L : Lib} {s : Str} {x c : Int} (h : parse L s = .ok (x, c)) : ∀ id ∈ [x, c], 0 < id → ∃ i, L.info id = some i ∧ i.kind ≠ .kinetic := by
  have hx : notKinetic L x = .ok () ∧ notKinetic L c = .ok () := by
    unfold parse at h
    generalize (if '-' ∈ s then _ else _ : Res (Int × Int)) = r at h
    cases r with
    | throw e => cases h
    | ub => cases h
    | ok f =>
      simp only [Res.ok_bind] at h
      cases h1 : notKinetic L f.1 with
      | throw e => rw [h1] at h; cases h
      | ub => rw [h1] at h; cases h
      | ok u =>
        rw [h1, Res.ok_bind] at h
        cases h2 : notKinetic L f.2 with
        | throw e => rw [h2] at h; cases h
        | ub => rw [h2] at h; cases h
        | ok u =>
          rw [h2, Res.ok_bind, Res.ok.injEq] at h
          subst h
          exact ⟨h1, h2⟩
  intro id hid hp
  simp only [List.mem_cons, List.not_mem_nil, or_false] at hid
  rcases hid with rfl | rfl
  · exact notKinetic_inv hx.1 hp
  · exact notKinetic_inv hx.2 hp

theorem known_keyword {L : Lib} {id : Int} (h : Known L id) : ∃ s, keyword L id = .ok s ∧ '-' ∉ s ∧ findFunc L s = .ok id ∧ notKinetic L id = .ok () := by
  rcases h with rfl | rfl | ⟨hp, i, s, h1, h2, h3, h4, h5⟩
  · exact ⟨"none".toList, rfl, by decide +kernel, rfl, rfl⟩
  · refine ⟨"HF".toList, rfl, by decide +kernel, ?_, rfl⟩
    exact (C88_name L "HF".toList (by simp)).2.1 (Or.inl (by decide +kernel))
  · refine ⟨s, ?_, h5.dash, ?_, ?_⟩
    · unfold keyword
      rw [if_neg (by omega), if_neg (by omega), h3]
    · rw [find_plain L h5, h4, if_neg (by omega)]
    · unfold notKinetic isKinetic query
      rw [if_pos hp, h1]
      simp only [Res.ok_bind]
      rw [if_neg (by simpa using h2)]

/-- The keywords of two functionals with a dash between are read as these functionals; the keyword of one alone as this one and no correlation. -/
theorem C88_roundtrip {L : Lib} {x c : Int} (hx : Known L x) (hc : Known L c) : ∃ sx sc, keyword L x = .ok sx ∧ keyword L c = .ok sc ∧ parse L (sx ++ '-' :: sc) = .ok (x, c) ∧ parse L sx = .ok (x, 0) := by
  obtain ⟨sx, h1, h2, h3, h4⟩ := known_keyword hx
  obtain ⟨sc, k1, k2, k3, k4⟩ := known_keyword hc
  refine ⟨sx, sc, h1, k1, ?_, ?_⟩
  · rw [(C88_parse L sx sc h2).1, h3, k3]
    simp only [Res.ok_bind, h4, k4]
  · rw [(C88_parse L sx sc h2).2, h3]
    simp only [Res.ok_bind, h4]

/-- Hartree-Fock cannot be given by its number: the dash of `-1` is the one between the functionals. -/
theorem C88_minus_one (L : Lib) (h : L.number [] = -1) : parse L "-1".toList = .throw .runtimeError := by
  have := (C88_parse L [] "1".toList (by simp)).1
  rw [show "-1".toList = [] ++ '-' :: "1".toList by decide +kernel, this, find_plain L ⟨by simp, by simp, by simp, by simp, by simp⟩, h, if_pos rfl]
  rfl

/-- A kinetic energy functional, or a number without a functional, is refused in both places. -/
theorem C88_refused (L : Lib) (a b : Str) (ha : '-' ∉ a) (x c : Int) (hx : findFunc L a = .ok x) (hc : findFunc L b = .ok c) (id : Int) (hid : id = x ∨ id = c) (hp : 0 < id)
    (hbad : L.info id = none ∨ ∃ i, L.info id = some i ∧ i.kind = .kinetic) : ∃ e, parse L (a ++ '-' :: b) = .throw e := by
  have hk : ∀ j, ∃ r, notKinetic L j = r ∧ (r = .ok () ∨ ∃ e, r = .throw e) := by
    intro j
    refine ⟨_, rfl, ?_⟩
    unfold notKinetic isKinetic query keyword
    by_cases hj : 0 < j
    · rw [if_pos hj]
      cases L.info j with
      | none => exact Or.inr ⟨_, rfl⟩
      | some i =>
        simp only [Res.ok_bind]
        by_cases hi : i.kind = .kinetic
        · rw [if_pos (by simpa using hi), if_neg (by omega), if_neg (by omega)]
          cases L.name j with
          | none => exact Or.inr ⟨_, rfl⟩
          | some s => exact Or.inr ⟨_, rfl⟩
        · rw [if_neg (by simpa using hi)]
          exact Or.inl rfl
    · rw [if_neg hj]
      exact Or.inl rfl
  have hno : notKinetic L id ≠ .ok () := by
    intro h
    obtain ⟨i, h1, h2⟩ := notKinetic_inv h hp
    rcases hbad with h0 | ⟨j, h3, h4⟩
    · rw [h0] at h1; cases h1
    · rw [h3, Option.some.injEq] at h1
      exact h2 (h1 ▸ h4)
  rw [(C88_parse L a b ha).1, hx, hc]
  simp only [Res.ok_bind]
  obtain ⟨r, h1, h2⟩ := hk x
  rcases h2 with rfl | ⟨e, rfl⟩
  · rw [h1, Res.ok_bind]
    obtain ⟨r, h3, h4⟩ := hk c
    rcases h4 with rfl | ⟨e, rfl⟩
    · rcases hid with rfl | rfl
      · exact absurd h1 hno
      · exact absurd h3 hno
    · rw [h3]
      exact ⟨e, rfl⟩
  · rw [h1]
    exact ⟨e, rfl⟩

/-! ### Exact exchange -/

/-- Whether a functional is one of these is never ambiguous: at most one of exchange, correlation and kinetic energy. -/
theorem C88_kinds (L : Lib) (id : Int) (i : Info) (hp : 0 < id) (h : L.info id = some i) :
    ∃ x b c k, isExchange L id = .ok x ∧ isBoth L id = .ok b ∧ isCorrelation L id = .ok c ∧ isKinetic L id = .ok k ∧ (b = true → x = true) ∧ (x = true ∧ c = false ∧ k = false ∨ x = false ∧ c = true ∧ k = false ∨
      x = false ∧ c = false ∧ k = true) := by
  unfold isExchange isBoth isCorrelation isKinetic query
  simp only [if_pos hp, h]
  refine ⟨_, _, _, _, rfl, rfl, rfl, rfl, ?_⟩
  cases i.kind <;> simp

theorem query_pos {α : Type _} (L : Lib) {id : Int} (d : α) (f : Info → Res α) {i : Info} (hp : 0 < id) (h : L.info id = some i) : query L id d f = f i := by
  unfold query
  rw [if_pos hp, h]

theorem query_neg {α : Type _} (L : Lib) {id : Int} (d : α) (f : Info → Res α) (hp : ¬0 < id) : query L id d f = .ok d := by
  unfold query
  rw [if_neg hp]

/-- The numbers of exact exchange are those of the functional, for every functional the code calls supported; the others are refused. -/
theorem C88_share (L : Lib) (h8 : L.v8 = true) (id : Int) (hk : 0 < id → ∃ i, L.info id = some i) :
    (isSupported L id = .ok true → rangeSep L id = .ok (share L id)) ∧ (isSupported L id = .ok false → rangeSep L id = .throw .logicError) := by
  unfold rangeSep kernels isSupported share
  by_cases hp : 0 < id
  · obtain ⟨i, hi⟩ := hk hp
    simp only [query_pos L _ _ hp hi, h8, if_true, hi]
    rw [if_neg (by omega), if_neg (by omega)]
    cases hh : i.hyb <;> simp [Exx.zero]
  · simp only [query_neg L _ _ hp]
    constructor
    · intro _
      by_cases h1 : id = -1
      · simp [h1]
      · cases hi : L.info id <;> simp [h1, Exx.zero]
        omega
    · intro h
      simp at h

/-- With libxc before version 8, a functional of a hybrid family has its three numbers if it is flagged as range separated, and its fraction only if it is not; others have none. -/
theorem C88_share_old (L : Lib) (h8 : L.v8 = false) (id : Int) (hp : 0 < id) (i : Info) (hi : L.info id = some i) :
    rangeSep L id = .ok (if i.famHyb then (if i.flagErf || i.flagYuk then i.coef else ⟨0, i.coef.alpha, 0⟩) else Exx.zero) ∧ isSupported L id = .ok true := by
  unfold rangeSep kernels isSupported
  simp only [query_pos L _ _ hp hi, h8, Bool.false_eq_true, if_false, Res.ok_bind]
  refine ⟨?_, by simp⟩
  cases i.famHyb <;> cases i.flagErf <;> cases i.flagYuk <;> simp [Exx.zero]

theorem method_inv {L : Lib} {s : Str} {f : Int × Int} (h : method L s = .ok f) : parse L s = .ok f ∧ isSupported L f.1 = .ok true ∧ isSupported L f.2 = .ok true := by
  unfold method at h
  cases hp : parse L s with
  | throw e => rw [hp] at h; cases h
  | ub => rw [hp] at h; cases h
  | ok g =>
    rw [hp, Res.ok_bind] at h
    cases h1 : isSupported L g.1 with
    | throw e => rw [h1] at h; cases h
    | ub => rw [h1] at h; cases h
    | ok a =>
      rw [h1, Res.ok_bind] at h
      cases a with
      | false => simp at h
      | true =>
        simp only [Bool.true_eq_false, if_false] at h
        cases h2 : isSupported L g.2 with
        | throw e => rw [h2] at h; cases h
        | ub => rw [h2] at h; cases h
        | ok b =>
          rw [h2, Res.ok_bind] at h
          cases b with
          | false => simp at h
          | true =>
            simp only [Bool.true_eq_false, if_false, Res.ok.injEq] at h
            subst h
            exact ⟨rfl, h1, h2⟩

/-- A method is accepted exactly if it can be read and both its functionals are supported. -/
theorem C88_accepted (L : Lib) (s : Str) (f : Int × Int) : method L s = .ok f ↔ parse L s = .ok f ∧ isSupported L f.1 = .ok true ∧ isSupported L f.2 = .ok true := by
  refine ⟨method_inv, fun ⟨h1, h2, h3⟩ => ?_⟩
  unfold method
  rw [h1, Res.ok_bind, h2, Res.ok_bind, if_neg (by simp), h3, Res.ok_bind, if_neg (by simp)]

theorem method_known {L : Lib} {s : Str} {f : Int × Int} (h : method L s = .ok f) : ∀ id ∈ [f.1, f.2], 0 < id → ∃ i, L.info id = some i :=
  fun id hid hp => (C88_parsed (x := f.1) (c := f.2) (method_inv h).1 id hid hp).imp fun _ h => h.1

theorem kernels_v8 (L : Lib) (h8 : L.v8 = true) (id : Int) (hk : 0 < id → ∃ i, L.info id = some i) :
    ∃ e y, kernels L id = .ok (e, y) ∧ (e = true ↔ 0 < id ∧ ∃ i, L.info id = some i ∧ i.hyb = .cam) ∧ (y = true ↔ 0 < id ∧ ∃ i, L.info id = some i ∧ i.hyb = .camy) := by
  unfold kernels
  by_cases hp : 0 < id
  · obtain ⟨i, hi⟩ := hk hp
    simp only [query_pos L _ _ hp hi, h8, if_true]
    exact ⟨_, _, rfl, by simp [hp, hi], by simp [hp, hi]⟩
  · simp only [query_neg L _ _ hp]
    exact ⟨_, _, rfl, by simp [hp], by simp [hp]⟩

/-- The atomic programs use the exact exchange of the exchange functional. The integrals of the short range kernel are computed exactly if there is short range exchange, with the kernel of the functional. -/
theorem C88_atomic {L : Lib} (h8 : L.v8 = true) {s : Str} {x c : Int} (h : method L s = .ok (x, c)) :
    ∃ k, atomic L s = .ok ⟨x, c, share L x, k⟩ ∧ (k = .none ↔ (share L x).beta = 0) ∧
      (k = .erfc → ∃ i, L.info x = some i ∧ i.hyb = .cam) ∧ (k = .yukawa → ∃ i, L.info x = some i ∧ i.hyb = .camy) := by
  obtain ⟨-, hs, -⟩ := method_inv h
  have hkn := method_known h x (by simp)
  have hr := (C88_share L h8 x hkn).1 hs
  obtain ⟨e, y, hk, he, hy⟩ := kernels_v8 L h8 x hkn
  unfold atomic
  rw [h, Res.ok_bind, hr, Res.ok_bind]
  by_cases hb : (share L x).beta = 0
  · rw [if_neg (by simpa using hb)]
    exact ⟨.none, rfl, by simp [hb], by simp, by simp⟩
  · rw [if_pos hb]
    unfold isRangeSep
    simp only [hk, hr, Res.ok_bind]
    refine ⟨_, rfl, ?_, ?_, ?_⟩
    · refine iff_of_false ?_ hb
      have hc : e = true ∨ y = true := by
        by_contra hno
        rw [not_or] at hno
        apply hb
        unfold share
        by_cases h1 : x = -1
        · rw [if_pos h1]
        · rw [if_neg h1]
          cases hi : L.info x with
          | none => rfl
          | some i =>
            simp only
            by_cases hp : 0 < x
            · rw [if_neg (by omega)]
              by_cases hh : i.hyb = .hybrid
              · rw [if_pos hh]
              · rw [if_neg hh, if_neg]
                · rfl
                · rintro (h2 | h2)
                  · exact hno.1 (he.2 ⟨hp, i, hi, h2⟩)
                  · exact hno.2 (hy.2 ⟨hp, i, hi, h2⟩)
            · rw [if_pos (by omega)]
              rfl
      rcases hc with rfl | rfl
      · cases y <;> simp
      · simp
    · intro h'
      have : y = false ∧ e = true := by cases y <;> cases e <;> simp_all
      exact (he.1 this.2).2
    · intro h'
      have : y = true := by cases y <;> cases e <;> simp_all
      exact (hy.1 this).2

/-- The diatomic program uses the same numbers and refuses short range exchange. -/
theorem C88_diatomic {L : Lib} (h8 : L.v8 = true) {s : Str} {x c : Int} (h : method L s = .ok (x, c)) :
    ((share L x).beta = 0 → diatomic L s = .ok ⟨x, c, share L x, .none⟩) ∧ ((share L x).beta ≠ 0 → diatomic L s = .throw .logicError) := by
  obtain ⟨-, hs, -⟩ := method_inv h
  have hr := (C88_share L h8 x (method_known h x (by simp))).1 hs
  unfold diatomic
  rw [h, Res.ok_bind, hr, Res.ok_bind]
  constructor
  · intro hb
    rw [if_neg (by simp [hb])]
  · intro hb
    rw [if_pos ⟨Or.inr hb, hb⟩]

/-- What should be used is the sum of what the two functionals ask for. It is, if the functional in the place of correlation asks for none. -/
theorem C88_total {L : Lib} (h8 : L.v8 = true) {s : Str} {x c : Int} (h : method L s = .ok (x, c)) (hc : Semilocal L c) :
    ∃ k, atomic L s = .ok ⟨x, c, ⟨(share L x).omega + (share L c).omega, (share L x).alpha + (share L c).alpha, (share L x).beta + (share L c).beta⟩, k⟩ := by
  obtain ⟨k, hk, -⟩ := C88_atomic h8 h
  have hz : share L c = Exx.zero := by
    unfold share
    rcases hc with rfl | ⟨i, hp, hi, hh⟩
    · cases L.info 0 <;> simp
    · rw [if_neg (by omega), hi]
      simp only
      rw [if_neg (by omega), hh]
      simp
  refine ⟨k, ?_⟩
  rw [hk, hz]
  simp [Exx.zero]

/-- `exact_exchange` is the fraction of a global hybrid and of Hartree-Fock; it is 0 for a range separated functional, whatever its fraction. -/
theorem C88_exact_exchange (L : Lib) (h8 : L.v8 = true) (id : Int) (hk : 0 < id → ∃ i, L.info id = some i) :
    ∃ f, exactExchange L id = .ok f ∧ ((∀ i, L.info id = some i → i.hyb ≠ .cam ∧ i.hyb ≠ .camy) → f = (share L id).alpha) ∧
      (0 < id → ∀ i, L.info id = some i → i.hyb = .cam ∨ i.hyb = .camy → f = 0) := by
  unfold exactExchange share
  by_cases hp : 0 < id
  · obtain ⟨i, hi⟩ := hk hp
    simp only [query_pos L _ _ hp hi, h8, if_true, hi]
    rw [if_neg (show ¬id = -1 by omega), if_neg (show ¬id ≤ 0 by omega)]
    refine ⟨_, rfl, fun h => ?_, fun _ j hj hc => ?_⟩
    · obtain ⟨h1, h2⟩ := h i rfl
      cases hh : i.hyb <;> simp_all [Exx.zero]
    · cases hj
      rcases hc with hc | hc <;> simp [hc]
  · simp only [query_neg L _ _ hp]
    refine ⟨_, rfl, fun _ => ?_, fun h => absurd h hp⟩
    by_cases h1 : id = -1
    · simp [h1]
    · rw [if_neg h1, if_neg h1]
      cases hi : L.info id with
      | none => rfl
      | some i =>
        simp only
        rw [if_pos (by omega)]
        rfl

/-! ### Where the exact exchange is lost -/

/-- The program for an atom in jellium accepts the same methods and computes no exact exchange. -/
theorem C88_aij {L : Lib} {s : Str} {x c : Int} (h : method L s = .ok (x, c)) : aij L s = .ok ⟨x, c, Exx.zero, .none⟩ := by
  unfold aij
  rw [h]
  rfl

/-- the functionals of `lib`: local exchange, local correlation, a global hybrid (with nonlocal correlation), a range separated one, kinetic energy -/
noncomputable def libInfo (id : Int) : Option Info :=
  if id = 1 then some ⟨.exchange, .semilocal, false, false, false, 0, Exx.zero, false⟩
  else if id = 7 then some ⟨.correlation, .semilocal, false, false, false, 0, Exx.zero, false⟩
  else if id = 402 then some ⟨.both, .hybrid, false, false, false, 1 / 5, Exx.zero, true⟩
  else if id = 433 then some ⟨.both, .cam, false, false, false, 0, ⟨1 / 3, 1, -1 / 2⟩, false⟩
  else if id = 5 then some ⟨.kinetic, .semilocal, false, false, false, 0, Exx.zero, false⟩
  else none

/-- the names of `lib` -/
def libNumber (s : Str) : Int := if s = ['x'] then 1 else if s = ['c'] then 7 else -1

/-- a small library -/
noncomputable def lib : Lib := ⟨true, libInfo, libNumber, fun id => if id = 1 then some ['x'] else if id = 7 then some ['c'] else none⟩

theorem lib_info (id : Int) : lib.info id = libInfo id := rfl
theorem lib_v8 : lib.v8 = true := rfl
theorem lib_num (s : Str) : lib.number s = libNumber s := rfl

theorem lib_ok {id : Int} {i : Info} (hp : 0 < id) (h : libInfo id = some i) (h1 : i.kind ≠ .kinetic) (h2 : i.hyb ≠ .other) : notKinetic lib id = .ok () ∧ isSupported lib id = .ok true := by
  constructor
  · unfold notKinetic isKinetic
    rw [query_pos lib _ _ hp h, Res.ok_bind, if_neg (by simpa using h1)]
  · unfold isSupported
    rw [query_pos lib _ _ hp h, lib_v8]
    simp [h2]

theorem lib_402 : libInfo 402 = some ⟨.both, .hybrid, false, false, false, 1 / 5, Exx.zero, true⟩ := by simp [libInfo]
theorem lib_7 : libInfo 7 = some ⟨.correlation, .semilocal, false, false, false, 0, Exx.zero, false⟩ := by simp [libInfo]
theorem lib_1 : libInfo 1 = some ⟨.exchange, .semilocal, false, false, false, 0, Exx.zero, false⟩ := by simp [libInfo]
theorem lib_433 : libInfo 433 = some ⟨.both, .cam, false, false, false, 0, ⟨1 / 3, 1, -1 / 2⟩, false⟩ := by simp [libInfo]

theorem lib_number (a b : Str) (x c : Int) (ha : '-' ∉ a) (h1 : findFunc lib a = .ok x) (h2 : findFunc lib b = .ok c) (hx : notKinetic lib x = .ok ()) (hc : notKinetic lib c = .ok ())
    (sx : isSupported lib x = .ok true) (sc : isSupported lib c = .ok true) : method lib (a ++ '-' :: b) = .ok (x, c) := by
  unfold method
  rw [(C88_parse lib a b ha).1, h1, h2]
  simp only [Res.ok_bind, hx, hc, sx, sc]
  rfl

theorem lib_b3lyp : method lib "none-402".toList = .ok (0, 402) := by
  obtain ⟨h1, h2⟩ := lib_ok (by norm_num) lib_402 (by simp) (by simp)
  exact lib_number "none".toList "402".toList 0 402 (by decide +kernel) rfl ((C88_number lib "402".toList [] (by decide) (by decide +kernel) (by simp)).1 (by decide +kernel)) rfl h1 rfl h2

/-- A hybrid in the place of the correlation functional is accepted, and its exact exchange is not computed; nor is the nonlocal correlation it needs. -/
theorem C88_lost : ∃ (L : Lib) (s : Str) (x c : Int) (st : Setup), method L s = .ok (x, c) ∧ 0 < (share L c).alpha ∧ atomic L s = .ok st ∧ st.exx = Exx.zero ∧ needsVV10 L c = .ok true := by
  obtain ⟨k, hk, -⟩ := C88_atomic (L := lib) rfl lib_b3lyp
  refine ⟨lib, _, 0, 402, _, lib_b3lyp, ?_, hk, ?_, ?_⟩
  · unfold share
    rw [lib_info, lib_402]
    norm_num
  · unfold share
    rw [lib_info]
    simp [libInfo]
  · unfold needsVV10
    have h402 : lib.info 402 = some _ := lib_402
    rw [query_pos lib _ _ (by norm_num) h402]

theorem lib_hf : method lib "HF".toList = .ok (-1, 0) := by
  have h1 : findFunc lib "HF".toList = .ok (-1) := (C88_name lib "HF".toList (by simp)).2.1 (Or.inl (by decide +kernel))
  unfold method
  rw [(C88_parse lib "HF".toList [] (by decide +kernel)).2, h1]
  rfl

/-- Hartree-Fock in the program for an atom in jellium runs without exchange; asked for as a potential, it is not written and not refused; with a correlation functional the potential of the correlation
functional alone is written. -/
theorem C88_hf_ignored : (∃ st, aij lib "HF".toList = .ok st ∧ st.exx = Exx.zero ∧ (share lib st.x).alpha = 1) ∧ (∀ mgga, potential lib mgga "HF".toList = .ok none) ∧
    ∀ mgga, mgga 7 = false → potential lib mgga "HF-7".toList = .ok (some (-1, 7)) := by
  refine ⟨⟨_, C88_aij lib_hf, rfl, rfl⟩, fun mgga => ?_, fun mgga hm => ?_⟩
  · unfold potential
    rw [(method_inv lib_hf).1]
    simp
  · have h7 : method lib "HF-7".toList = .ok (-1, 7) := by
      obtain ⟨h1, h2⟩ := lib_ok (by norm_num) lib_7 (by simp) (by simp)
      exact lib_number "HF".toList "7".toList (-1) 7 (by decide +kernel) ((C88_name lib "HF".toList (by simp)).2.1 (Or.inl (by decide +kernel)))
        ((C88_number lib "7".toList [] (by decide) (by decide +kernel) (by simp)).1 (by decide +kernel)) rfl h1 rfl h2
    unfold potential
    rw [(method_inv h7).1]
    simp [hm]

/-- The potential is refused for a functional with exact exchange in the place of exchange. -/
theorem C88_potential {L : Lib} (h8 : L.v8 = true) (mgga : Int → Bool) {s : Str} {x c : Int} (h : parse L s = .ok (x, c)) (hp : 0 < x) (f : Int × Int) (hf : potential L mgga s = .ok (some f)) :
    f = (x, c) ∧ mgga x = false ∧ (0 < c → mgga c = false) ∧ share L x = Exx.zero := by
  unfold potential at hf
  rw [h, Res.ok_bind] at hf
  simp only at hf
  split at hf
  · cases hf
  · rename_i h1
    split at hf
    · cases hf
    · rename_i h2
      have hkn := C88_parsed h x (by simp) hp
      have hk : 0 < x → ∃ i, L.info x = some i := fun _ => hkn.imp fun _ h => h.1
      obtain ⟨hs1, hs2⟩ := C88_share L h8 x hk
      obtain ⟨i, hi, -⟩ := hkn
      have hsup : isSupported L x = .ok (decide (i.hyb ≠ .other)) := by
        unfold isSupported
        rw [query_pos L _ _ hp hi, h8]
        rfl
      by_cases ho : i.hyb = .other
      · rw [hs2 (by rw [hsup]; simp [ho])] at hf
        cases hf
      · rw [hs1 (by rw [hsup]; simp [ho]), Res.ok_bind] at hf
        split at hf
        · cases hf
        · rename_i h3
          rw [Res.ok_bind, if_pos (Or.inl hp), Res.ok.injEq, Option.some.injEq] at hf
          simp only [not_or, not_not] at h3
          refine ⟨hf.symm, ?_, ?_, ?_⟩
          · simpa [hp] using h1
          · intro hc
            simpa [hc] using h2
          · ext
            · exact h3.1
            · exact h3.2.1
            · exact h3.2.2

theorem lib_known : Known lib 1 ∧ Known lib 7 :=
  ⟨Or.inr (Or.inr ⟨by norm_num, _, ['x'], lib_1, by simp, rfl, rfl, ⟨by decide, by decide, by decide +kernel, by decide +kernel, by decide +kernel⟩⟩),
   Or.inr (Or.inr ⟨by norm_num, _, ['c'], lib_7, by simp, rfl, rfl, ⟨by decide, by decide, by decide +kernel, by decide +kernel, by decide +kernel⟩⟩)⟩

/-- The hypotheses are met: two functionals with names, a local correlation functional, a short range functional. -/
example : Known lib 1 ∧ Known lib 7 ∧ Semilocal lib 7 ∧ (share lib 433).beta ≠ 0 ∧ Known lib (-1) ∧ Known lib 0 := by
  refine ⟨lib_known.1, lib_known.2, Or.inr ⟨_, by norm_num, lib_7, rfl⟩, ?_, Or.inr (Or.inl rfl), Or.inl rfl⟩
  unfold share
  rw [lib_info, lib_433]
  simp

example : ∃ sx sc, keyword lib 1 = .ok sx ∧ keyword lib 7 = .ok sc ∧ parse lib (sx ++ '-' :: sc) = .ok (1, 7) ∧ parse lib sx = .ok (1, 0) := C88_roundtrip lib_known.1 lib_known.2

end Func
end HelFEM
