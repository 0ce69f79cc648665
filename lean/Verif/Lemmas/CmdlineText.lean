import Verif.Lemmas.Cmdline
import Mathlib.Data.Nat.Digits.Lemmas

/-!
# Texts: the words of a command line, and integers
-/

namespace HelFEM
namespace Cmd

theorem tokens_escape (a : Str) (s buf : Str) (args : List Str) (q : Bool) : tokens (Spec.escape a ++ s) buf q args = tokens s (buf ++ a) q args := by
  induction a generalizing buf with
  | nil => simp [Spec.escape]
  | cons c a ih =>
    have := ih (buf ++ [c])
    unfold Spec.escape at this ⊢
    rw [List.flatMap_cons, List.append_assoc]
    show tokens ('\\' :: c :: _) buf q args = _
    rw [tokens]
    simp only [show ('\\' : Char) ≠ '"' by decide, show ('\\' : Char) ≠ ' ' by decide, if_false, if_true, false_and]
    exact this.trans (by simp)

theorem tokens_join (l : List Str) (h : l ≠ []) (hl : l.getLast h ≠ []) (args : List Str) : tokens (Spec.join l) [] false args = .ok (args ++ l) := by
  induction l generalizing args with
  | nil => exact absurd rfl h
  | cons a l ih =>
    cases l with
    | nil =>
      have ha : a ≠ [] := hl
      have := tokens_escape a [] [] args false
      rw [List.append_nil] at this
      rw [Spec.join, this, tokens.eq_def]
      simp [ha]
    | cons b l =>
      rw [Spec.join, tokens_escape, tokens.eq_def]
      simp only [show (' ' : Char) ≠ '"' by decide, if_false, if_true, and_self, List.nil_append]
      rw [ih (by simp) (by simpa using hl)]
      simp

theorem tokens_plain (a : Str) (h : ∀ c ∈ a, c ≠ '"' ∧ c ≠ '\\') (q : Bool) (hq : q = false → ' ' ∉ a) (s buf : Str) (args : List Str) : tokens (a ++ s) buf q args = tokens s (buf ++ a) q args := by
  induction a generalizing buf with
  | nil => simp
  | cons c a ih =>
    have hc := h c (by simp)
    have hs : ¬(c = ' ' ∧ q = false) := fun ⟨e, hf⟩ => hq hf (by simp [e])
    rw [List.cons_append, tokens.eq_def]
    · simp only [hc.1, if_false, hs, hc.2]
      rw [ih (fun d hd => h d (List.mem_cons_of_mem _ hd)) (fun hf hm => hq hf (List.mem_cons_of_mem _ hm))]
      simp

theorem takeWhile_all (s : Str) (h : ∀ c ∈ s, c ≠ Char.ofNat 0) : s.takeWhile (fun c => decide (c ≠ Char.ofNat 0)) = s := by
  induction s with
  | nil => rfl
  | cons c s ih =>
    rw [List.takeWhile_cons, if_pos (by simpa using h c (by simp)), ih fun d hd => h d (List.mem_cons_of_mem _ hd)]

/-! ### Integers -/

theorem foldl_decimal (ds : Str) (a : Nat) : ds.foldl (fun a c => 10 * a + (c.toNat - '0'.toNat)) a = a * 10 ^ ds.length + Spec.decimal ds := by
  induction ds generalizing a with
  | nil => simp [Spec.decimal]
  | cons c ds ih =>
    rw [List.foldl_cons, ih]
    unfold Spec.decimal
    rw [List.reverse_cons, List.map_append, Nat.ofDigits_append]
    simp only [List.map_cons, List.map_nil, Nat.ofDigits_singleton, List.length_map, List.length_reverse, List.length_cons, show ('0' : Char).toNat = 48 from rfl]
    ring

theorem readNat_iff (s : Str) (n : Nat) : readNat s = some n ↔ s ≠ [] ∧ (∀ c ∈ s, c.isDigit = true) ∧ n = Spec.decimal s := by
  unfold readNat
  rw [foldl_decimal, Nat.zero_mul, Nat.zero_add]
  by_cases h : s ≠ [] ∧ (s.all Char.isDigit) = true
  · rw [if_pos h, Option.some.injEq]
    exact ⟨fun e => ⟨h.1, List.all_eq_true.1 h.2, e.symm⟩, fun e => e.2.2.symm⟩
  · rw [if_neg h]
    exact ⟨fun e => by simp at e, fun e => absurd ⟨e.1, List.all_eq_true.2 e.2.1⟩ h⟩

theorem digit_not_space {c : Char} (h : c.isDigit = true) : isSpace c = false := by
  rw [Bool.eq_false_iff]
  intro hs
  unfold isSpace at hs
  rw [decide_eq_true_eq] at hs
  rcases hs with rfl | rfl | rfl | rfl | rfl | rfl <;> revert h <;> decide

theorem digit_not_sign {c : Char} (h : c.isDigit = true) : c ≠ '-' ∧ c ≠ '+' := by
  refine ⟨?_, ?_⟩ <;> rintro rfl <;> revert h <;> decide

theorem dropWhile_skip (ws s : Str) (hw : ∀ c ∈ ws, isSpace c = true) (hs : ∀ c ∈ s.head?, isSpace c = false) : (ws ++ s).dropWhile isSpace = s := by
  induction ws with
  | nil =>
    cases s with
    | nil => rfl
    | cons c s =>
      have : isSpace c = false := hs c (by simp)
      rw [List.nil_append, List.dropWhile_cons, this]
      rfl
  | cons c ws ih =>
    rw [List.cons_append, List.dropWhile_cons, if_pos (hw c (by simp))]
    exact ih fun d hd => hw d (List.mem_cons_of_mem _ hd)

/-- the number after the white space -/
def signed : Str → Option Int
  | '-' :: t => (readNat t).map fun n : Nat => -(n : Int)
  | '+' :: t => (readNat t).map fun n : Nat => (n : Int)
  | t => (readNat t).map fun n : Nat => (n : Int)

theorem signed_plain (t : Str) (h : ∀ c ∈ t.head?, c ≠ '-' ∧ c ≠ '+') : signed t = (readNat t).map fun n : Nat => (n : Int) := by
  unfold signed
  split
  · exact absurd rfl (h '-' (by simp)).1
  · exact absurd rfl (h '+' (by simp)).2
  · rfl

theorem readInteger_signed (low high : Int) (s : Str) : readInteger low high s = (signed (s.dropWhile isSpace)).bind fun n => if low ≤ n ∧ n ≤ high then some n else none := rfl

theorem signed_iff (s : Str) (n : Int) : signed (s.dropWhile isSpace) = some n ↔ Spec.Denotes s n := by
  constructor
  · intro h
    have hs : s = s.takeWhile isSpace ++ s.dropWhile isSpace := List.takeWhile_append_dropWhile.symm
    have hw : ∀ c ∈ s.takeWhile isSpace, isSpace c = true := fun c hc => List.all_eq_true.1 List.all_takeWhile c hc
    generalize s.takeWhile isSpace = ws at hs hw
    generalize s.dropWhile isSpace = t at hs h
    subst hs
    unfold signed at h
    split at h
    · obtain ⟨m, hm, rfl⟩ := Option.map_eq_some_iff.1 h
      obtain ⟨h1, h2, h3⟩ := (readNat_iff _ _).1 hm
      exact ⟨ws, ['-'], _, by simp, hw, h1, h2, Or.inr ⟨rfl, by rw [h3]⟩⟩
    · obtain ⟨m, hm, rfl⟩ := Option.map_eq_some_iff.1 h
      obtain ⟨h1, h2, h3⟩ := (readNat_iff _ _).1 hm
      exact ⟨ws, ['+'], _, by simp, hw, h1, h2, Or.inl ⟨Or.inr rfl, by rw [h3]⟩⟩
    · obtain ⟨m, hm, rfl⟩ := Option.map_eq_some_iff.1 h
      obtain ⟨h1, h2, h3⟩ := (readNat_iff _ _).1 hm
      exact ⟨ws, [], t, by simp, hw, h1, h2, Or.inl ⟨Or.inl rfl, by rw [h3]⟩⟩
  · rintro ⟨ws, sign, ds, rfl, hw, h1, h2, h⟩
    have hd : ∀ c ∈ ds.head?, c.isDigit = true := fun c hc => h2 c (List.mem_of_mem_head? hc)
    have hr : readNat ds = some (Spec.decimal ds) := (readNat_iff _ _).2 ⟨h1, h2, rfl⟩
    rw [List.append_assoc]
    rcases h with ⟨rfl | rfl, rfl⟩ | ⟨rfl, rfl⟩
    · rw [dropWhile_skip _ _ hw (fun c hc => digit_not_space (hd c (by simpa using hc))), List.nil_append, signed_plain _ fun c hc => digit_not_sign (hd c hc), hr]
      rfl
    · rw [dropWhile_skip _ _ hw (fun c hc => by simp at hc; subst hc; decide)]
      show (readNat ds).map _ = _
      rw [hr]
      rfl
    · rw [dropWhile_skip _ _ hw (fun c hc => by simp at hc; subst hc; decide)]
      show (readNat ds).map _ = _
      rw [hr]
      rfl

theorem readInteger_iff (low high : Int) (s : Str) (n : Int) : readInteger low high s = some n ↔ Spec.Denotes s n ∧ low ≤ n ∧ n ≤ high := by
  rw [readInteger_signed, Option.bind_eq_some_iff]
  constructor
  · rintro ⟨m, h, h'⟩
    split at h'
    · rename_i hr
      rw [Option.some.injEq] at h'
      subst h'
      exact ⟨(signed_iff s m).1 h, hr⟩
    · cases h'
  · rintro ⟨h, hr⟩
    exact ⟨n, (signed_iff s n).2 h, if_pos hr⟩

theorem denotes_unique {s : Str} {m n : Int} (h : Spec.Denotes s m) (h' : Spec.Denotes s n) : m = n := by
  rw [← signed_iff] at h h'
  rw [h, Option.some.injEq] at h'
  exact h'

/-! ### Adding options -/

theorem insertOpt_perm (o : Opt) (l : List Opt) : (insertOpt o l).Perm (o :: l) := by
  induction l with
  | nil => exact List.Perm.refl _
  | cons x l ih =>
    rw [insertOpt]
    split
    · exact List.Perm.refl _
    · exact (ih.cons x).trans (List.Perm.swap o x l)

theorem add_inv {p q : Parser} {name : Str} {short : Option Char} {kind : Kind} {dflt : Val} (h : p.add name short kind dflt = .ok q) :
    p.find name = none ∧ q = { p with options := insertOpt ⟨name, short, kind, false, dflt⟩ p.options, ordered := p.ordered ++ [name] } := by
  unfold Parser.add at h
  split at h
  · cases h
  · rename_i hn
    simp only [Res.ok.injEq] at h
    exact ⟨by simpa using hn, h.symm⟩

theorem add_named {p q : Parser} {name : Str} {short : Option Char} {kind : Kind} {dflt : Val} (hp : Spec.Named p) (h : p.add name short kind dflt = .ok q) : Spec.Named q := by
  obtain ⟨h1, rfl⟩ := add_inv h
  have : Std.Symm fun a b : Opt => a.name ≠ b.name := ⟨fun _ _ h => Ne.symm h⟩
  show (insertOpt _ _).Pairwise _
  rw [(insertOpt_perm _ _).pairwise_iff (fun {a b} h => Ne.symm h)]
  refine List.Pairwise.cons (fun o ho e => ?_) hp
  have := List.find?_eq_none.1 h1 o ho
  simp [← e] at this

theorem parse_named {p : Parser} (hp : Spec.Named p) (args : List Str) : Spec.Named (p.parse args).1 := by
  cases args with
  | nil => exact hp
  | cons a args =>
    cases hl : lookupTable p.options [] with
    | error c => rw [parse_error p a args hl]; exact hp
    | ok lk =>
      rw [parse_eq hp a args hl]
      exact named_map hp _ fun o => (foldStep_same o _).1

theorem step_typed {o : Opt} (h : Spec.Typed o) (e : Ev) : Spec.Typed (optStep o e) := by
  intro ty need read hk
  rw [(optStep_same o e).2.1] at hk
  obtain ⟨h1, h2⟩ := h ty need read hk
  refine ⟨?_, h2⟩
  unfold optStep
  cases e with
  | flag n =>
    simp only
    split
    · unfold Opt.set0; rw [hk]; exact h1
    · exact h1
  | value n v =>
    simp only
    split
    · unfold Opt.set1
      rw [hk]
      simp only
      cases hr : read v with
      | none => exact h1
      | some x => exact h2 v x hr
    · exact h1
  | err e => exact h1
  | other a => exact h1

theorem fold_typed {o : Opt} (h : Spec.Typed o) (l : List Ev) : Spec.Typed (l.foldl optStep o) := by
  induction l generalizing o with
  | nil => exact h
  | cons e l ih => exact ih (step_typed h e)

theorem parse_typed {p : Parser} (hp : Spec.Named p) (h : ∀ o ∈ p.options, Spec.Typed o) (args : List Str) : ∀ o ∈ (p.parse args).1.options, Spec.Typed o := by
  cases args with
  | nil => exact h
  | cons a args =>
    cases hl : lookupTable p.options [] with
    | error c => rw [parse_error p a args hl]; exact h
    | ok lk =>
      rw [parse_eq hp a args hl]
      intro o ho
      obtain ⟨o', ho', rfl⟩ := List.mem_map.1 ho
      exact fold_typed (h o' ho') _

theorem parseLine_cases {p : Parser} {line : Str} {r : Parser × Bool} (h : p.parseLine line = .ok r) : (∃ e, r = (p.err e, false)) ∨ ∃ args, r = p.parse args := by
  unfold Parser.parseLine Parser.parseVec at h
  split at h
  · rw [Res.ok.injEq] at h
    exact Or.inl ⟨_, h.symm⟩
  · split at h
    · cases h
    · rw [Res.ok.injEq] at h
      exact Or.inr ⟨_, h.symm⟩

theorem reach_inv {p : Parser} (h : Spec.Reach p) : Spec.Named p ∧ ∀ o ∈ p.options, Spec.Typed o := by
  induction h with
  | empty => exact ⟨List.Pairwise.nil, fun o ho => by simp [Parser.empty] at ho⟩
  | add _ ht ha ih =>
    refine ⟨add_named ih.1 ha, fun o ho => ?_⟩
    obtain ⟨-, rfl⟩ := add_inv ha
    rcases List.mem_cons.1 ((insertOpt_perm _ _).mem_iff.1 ho) with rfl | h'
    · exact ht
    · exact ih.2 o h'
  | parse args _ ih => exact ⟨parse_named ih.1 args, parse_typed ih.1 ih.2 args⟩
  | parseLine line _ hr ih =>
    rcases parseLine_cases hr with ⟨e, rfl⟩ | ⟨args, rfl⟩
    · exact ih
    · exact ⟨parse_named ih.1 args, parse_typed ih.1 ih.2 args⟩

/-! ### Values given to an option -/

theorem lookupTable_inv {l : List Opt} {t lk : List (Char × Str)} (h : lookupTable l t = .ok lk) :
    (l.Pairwise fun a b => a.name ≠ [] → b.name ≠ [] → a.short = none ∨ a.short ≠ b.short) ∧ ∀ o ∈ l, o.name ≠ [] → ∀ c, o.short = some c → t.lookup c = none := by
  induction l generalizing t with
  | nil => exact ⟨List.Pairwise.nil, fun o ho => by simp at ho⟩
  | cons o l ih =>
    rw [lookupTable] at h
    split at h
    · rename_i h0
      obtain ⟨h1, h2⟩ := ih h
      refine ⟨List.Pairwise.cons (fun b _ hn => absurd h0 hn) h1, fun x hx hn => ?_⟩
      rcases List.mem_cons.1 hx with rfl | hx
      · exact absurd h0 hn
      · exact h2 x hx hn
    · rename_i h0
      cases hs : o.short with
      | none =>
        rw [hs] at h
        obtain ⟨h1, h2⟩ := ih h
        refine ⟨List.Pairwise.cons (fun b _ _ _ => Or.inl hs) h1, fun x hx hn c hc => ?_⟩
        rcases List.mem_cons.1 hx with rfl | hx
        · rw [hs] at hc; cases hc
        · exact h2 x hx hn c hc
      | some d =>
        rw [hs] at h
        simp only at h
        split at h
        · cases h
        · rename_i hd
          obtain ⟨h1, h2⟩ := ih h
          refine ⟨List.Pairwise.cons (fun b hb _ hbn => Or.inr fun e => ?_) h1, fun x hx hn c hc => ?_⟩
          · have := h2 b hb hbn d (by rw [← e, hs])
            rw [lookup_append, if_pos rfl] at this
            cases ht : t.lookup d <;> simp [ht] at this
          · rcases List.mem_cons.1 hx with rfl | hx
            · rw [hs, Option.some.injEq] at hc
              subst hc
              exact Option.not_isSome_iff_eq_none.1 hd
            · have := h2 x hx hn c hc
              rw [lookup_append] at this
              cases ht : t.lookup c with
              | none => rfl
              | some y => simp [ht] at this

theorem lookupTable_keep {l : List Opt} {t lk : List (Char × Str)} (h : lookupTable l t = .ok lk) {c : Char} (hc : t.lookup c ≠ none) : lk.lookup c ≠ none := by
  induction l generalizing t with
  | nil =>
    rw [lookupTable, Except.ok.injEq] at h
    exact h ▸ hc
  | cons o l ih =>
    rw [lookupTable] at h
    split at h
    · exact ih h hc
    · cases hs : o.short with
      | none =>
        rw [hs] at h
        exact ih h hc
      | some d =>
        rw [hs] at h
        simp only at h
        split at h
        · cases h
        · refine ih h ?_
          rw [lookup_append]
          cases ht : t.lookup c with
          | none => exact absurd ht hc
          | some y => simp

theorem lookupTable_has {l : List Opt} {t lk : List (Char × Str)} (h : lookupTable l t = .ok lk) {o : Opt} (ho : o ∈ l) (h0 : o.name ≠ []) {c : Char} (hc : o.short = some c) : lk.lookup c ≠ none := by
  induction l generalizing t with
  | nil => simp at ho
  | cons x l ih =>
    rw [lookupTable] at h
    rcases List.mem_cons.1 ho with rfl | ho
    · rw [if_neg h0, hc] at h
      simp only at h
      split at h
      · cases h
      · refine lookupTable_keep h ?_
        rw [lookup_append, if_pos rfl]
        cases t.lookup c <;> simp
    · split at h
      · exact ih h ho
      · cases hs : x.short with
        | none =>
          rw [hs] at h
          exact ih h ho
        | some d =>
          rw [hs] at h
          simp only at h
          split at h
          · cases h
          · exact ih h ho

theorem valid_iff (o : Opt) : o.valid = true ↔ (Spec.Needed o → o.has = true) := by
  unfold Opt.valid Spec.Needed
  cases hk : o.kind with
  | flag => simp
  | value ty need read => cases need <;> simp

theorem needErrs_nil (l : List Opt) : needErrs l = [] ↔ ∀ o ∈ l, Spec.Needed o → o.has = true := by
  unfold needErrs
  rw [List.map_eq_nil_iff, List.filter_eq_nil_iff]
  simp only [Bool.not_eq_true', Bool.not_eq_false, valid_iff]

/-- the readable values given to the option -/
def given (o : Opt) (l : List (Str × Str)) : List Val := (l.filter fun x => x.1 = o.name).filterMap fun x => Spec.reads o x.2

theorem fold_values (l : List (Str × Str)) (o : Opt) : (l.map fun x => Ev.value x.1 x.2).foldl optStep o = { o with has := o.has || !(given o l).isEmpty, actual := (given o l).getLast?.getD o.actual } := by
  induction l generalizing o with
  | nil => simp [given]
  | cons x l ih =>
    rw [List.map_cons, List.foldl_cons]
    by_cases hx : x.1 = o.name
    · have hg : given o (x :: l) = (Spec.reads o x.2).toList ++ given o l := by
        unfold given
        rw [List.filter_cons, if_pos (by simpa using hx), toList_filterMap]
      rw [hg]
      cases hr : Spec.reads o x.2 with
      | none =>
        have : optStep o (.value x.1 x.2) = o := by
          unfold optStep
          simp only
          rw [if_pos hx]
          unfold Opt.set1
          unfold Spec.reads at hr
          split
          · rfl
          · rename_i hk
            rw [hk] at hr
            simp only at hr
            rw [hr]
            rfl
        rw [this, ih]
        rfl
      | some y =>
        have : optStep o (.value x.1 x.2) = { o with has := true, actual := y } := by
          unfold optStep
          simp only
          rw [if_pos hx]
          unfold Opt.set1
          unfold Spec.reads at hr
          split
          · rename_i hk
            rw [hk] at hr
            cases hr
          · rename_i hk
            rw [hk] at hr
            simp only at hr
            rw [hr]
            rfl
        have hg' : given { o with has := true, actual := y } l = given o l := rfl
        rw [this, ih, hg']
        cases given o l with
        | nil => simp
        | cons z zs => simp [List.getLast?_cons]
    · have hg : given o (x :: l) = given o l := by
        unfold given
        rw [List.filter_cons, if_neg (by simpa using hx)]
      have : optStep o (.value x.1 x.2) = o := by
        unfold optStep
        simp only
        rw [if_neg hx]
      rw [this, hg, ih]

theorem find_map (p q : Parser) (f : Opt → Opt) (hf : ∀ o, (f o).name = o.name) (hq : q.options = p.options.map f) (n : Str) : q.find n = (p.find n).map f := by
  unfold Parser.find
  rw [hq, List.find?_map]
  have : ((fun o : Opt => decide (o.name = n)) ∘ f) = fun o => decide (o.name = n) := by
    funext o
    simp only [Function.comp, hf o]
  rw [this]

theorem filterMap_nil {α β : Type} (f : α → Option β) (l : List α) : l.filterMap f = [] ↔ ∀ a ∈ l, f a = none := by
  rw [List.filterMap_eq_nil_iff]

theorem kindOf_some {p : Parser} {n : Str} {k : Kind} (h : kindOf p n = some k) : ∃ o ∈ p.options, o.name = n ∧ o.kind = k := by
  obtain ⟨o, ho, hk⟩ := Option.map_eq_some_iff.1 h
  exact ⟨o, find_mem ho, find_name ho, hk⟩

theorem kindOf_mem {p : Parser} (hp : Spec.Named p) {o : Opt} (ho : o ∈ p.options) : kindOf p o.name = some o.kind := by
  unfold kindOf
  rw [find_of_mem hp ho]
  rfl

theorem evErr_value {p : Parser} (hp : Spec.Named p) (n v : Str) : evErr (kindOf p) (.value n v) = none ↔ ∃ o ∈ p.options, o.name = n ∧ Spec.Accepts o v := by
  constructor
  · intro h
    unfold evErr at h
    simp only at h
    cases hk : kindOf p n with
    | none => rw [hk] at h; cases h
    | some k =>
      obtain ⟨o, h1, h2, h3⟩ := kindOf_some hk
      rw [hk] at h
      cases k with
      | flag => cases h
      | value ty need read =>
        simp only at h
        split at h
        · rename_i hr
          exact ⟨o, h1, h2, ty, need, read, h3, hr⟩
        · cases h
  · rintro ⟨o, ho, rfl, ty, need, read, hk, hr⟩
    unfold evErr
    simp only
    rw [kindOf_mem hp ho, hk]
    simp only [hr, if_true]

/-- a flag after the events -/
theorem fold_flag (l : List Ev) (o : Opt) (hk : o.kind = .flag) : ∃ b, (l.foldl optStep o = { o with has := b } ∧ (o.has = true → b = true)) ∧ l.foldl optStep { o with has := true } = { o with has := true } := by
  induction l generalizing o with
  | nil => exact ⟨o.has, ⟨rfl, id⟩, rfl⟩
  | cons e l ih =>
    rw [List.foldl_cons, List.foldl_cons]
    have h0 : ∀ b : Bool, optStep { o with has := b } e = { o with has := b } ∨ optStep { o with has := b } e = { o with has := true } := by
      intro b
      unfold optStep
      cases e with
      | flag n =>
        simp only
        split
        · unfold Opt.set0
          simp only [hk]
          exact Or.inr rfl
        · exact Or.inl rfl
      | value n v =>
        simp only
        split
        · unfold Opt.set1
          simp only [hk]
          exact Or.inl (by rw [← hk]; rfl)
        · exact Or.inl rfl
      | err e => exact Or.inl rfl
      | other a => exact Or.inl rfl
    have h1 : optStep { o with has := true } e = { o with has := true } := by
      rcases h0 true with h | h <;> exact h
    rw [h1]
    rcases h0 o.has with h | h
    · rw [show optStep o e = o from h]
      exact ih o hk
    · rw [show optStep o e = { o with has := true } from h]
      obtain ⟨b, -, h3⟩ := ih o hk
      exact ⟨true, ⟨h3, fun _ => rfl⟩, h3⟩

theorem fold_ne (pre post : List Ev) (n : Str) (o : Opt) (h : o.name ≠ n) : (pre ++ .flag n :: post).foldl optStep o = (pre ++ post).foldl optStep o := by
  rw [List.foldl_append, List.foldl_append, List.foldl_cons]
  congr 1
  have hn := (foldStep_same o pre).1
  generalize pre.foldl optStep o = o' at hn ⊢
  unfold optStep
  simp only
  rw [if_neg]
  rw [hn]
  exact Ne.symm h

theorem fold_eq_flag (pre post : List Ev) (o : Opt) (hk : o.kind = .flag) : (pre ++ .flag o.name :: post).foldl optStep o = { (pre ++ post).foldl optStep o with has := true } := by
  rw [List.foldl_append, List.foldl_append, List.foldl_cons]
  obtain ⟨b, ⟨h1, -⟩, -⟩ := fold_flag pre o hk
  rw [h1]
  have : optStep { o with has := b } (.flag o.name) = { o with has := true } := by
    unfold optStep Opt.set0
    simp only [if_true, hk]
    rfl
  rw [this]
  obtain ⟨c, ⟨h2, -⟩, h3⟩ := fold_flag post { o with has := b } hk
  rw [h2]
  exact h3

end Cmd
end HelFEM
