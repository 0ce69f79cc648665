import Verif.Spec.Cmdline
import Mathlib.Data.List.Pairwise
import Mathlib.Tactic.Linarith

/-!
# A command line as a sequence of events
-/

namespace HelFEM
namespace Cmd

/-- what an argument does -/
inductive Ev where
  | flag (n : Str)
  | value (n v : Str)
  | err (e : Err)
  | other (a : Str)

def Ev.apply (p : Parser) : Ev → Parser
  | .flag n => p.setFlag n
  | .value n v => p.setValue n v
  | .err e => p.err e
  | .other a => { p with others := p.others ++ [a] }

/-- the kind of the option of a name -/
def kindOf (p : Parser) (n : Str) : Option Kind := (p.find n).map Opt.kind

def Kind.hasValue : Kind → Bool
  | .flag => false
  | .value .. => true

theorem hasValue_kind (o : Opt) : o.hasValue = o.kind.hasValue := by
  unfold Opt.hasValue Kind.hasValue
  cases o.kind <;> rfl

def clusterEv (lk : List (Char × Str)) (c : Char) : Ev :=
  match lk.lookup c with
  | none => .err (.undefinedShort c)
  | some n => if n = [] then .err (.ambiguousShort c) else .flag n

/-- the events of the arguments, which depend on the kinds of the options only -/
def plan (lk : List (Char × Str)) (K : Str → Option Kind) : List Str → List Ev
  | [] => []
  | a :: rest =>
    if a.take 2 = ['-', '-'] then
      match splitEq (a.drop 2) with
      | some (n, v) => .value n v :: plan lk K rest
      | none =>
        match K (a.drop 2) with
        | none => .err (.undefined (a.drop 2)) :: plan lk K rest
        | some k =>
          if k.hasValue then
            match rest with
            | [] => [.err (.needsValue (a.drop 2))]
            | v :: rest' => .value (a.drop 2) v :: plan lk K rest'
          else .flag (a.drop 2) :: plan lk K rest
    else if a.take 1 = ['-'] then
      match a.drop 1 with
      | [] => plan lk K rest
      | c :: cs =>
        (c :: cs).dropLast.map (clusterEv lk) ++
        match lk.lookup ((c :: cs).getLast (List.cons_ne_nil c cs)) with
        | none => .err (.undefinedShort ((c :: cs).getLast (List.cons_ne_nil c cs))) :: plan lk K rest
        | some n =>
          if n = [] then .err (.ambiguousShort ((c :: cs).getLast (List.cons_ne_nil c cs))) :: plan lk K rest
          else
            match rest with
            | [] => [.flag n]
            | v :: rest' => if (K n).any Kind.hasValue then .value n v :: plan lk K rest' else .flag n :: plan lk K (v :: rest')
    else .other a :: plan lk K rest
  termination_by l => l.length

theorem find_name {p : Parser} {n : Str} {o : Opt} (h : p.find n = some o) : o.name = n := by
  have := List.find?_some h
  simpa using this

theorem put_find (p : Parser) (o : Opt) (n : Str) : (p.put o).find n = (p.find n).map fun x => if x.name = o.name then o else x := by
  unfold Parser.put Parser.find
  simp only [List.find?_map]
  congr 2
  funext x
  simp only [Function.comp]
  split
  · rename_i h
    rw [h]
  · rfl

theorem put_kind {p : Parser} {o o' : Opt} (h : p.find o'.name = some o) (hk : o'.kind = o.kind) (n : Str) : kindOf (p.put o') n = kindOf p n := by
  unfold kindOf
  rw [put_find]
  cases hn : p.find n with
  | none => rfl
  | some x =>
    simp only [Option.map_some, Option.some.injEq]
    split
    · rename_i e
      rw [find_name hn] at e
      subst e
      rw [hn, Option.some.injEq] at h
      rw [hk, h]
    · rfl

theorem set0_same {o o' : Opt} (h : o.set0 = some o') : o'.name = o.name ∧ o'.kind = o.kind ∧ o'.short = o.short := by
  unfold Opt.set0 at h
  split at h
  · cases h; exact ⟨rfl, rfl, rfl⟩
  · cases h

theorem set1_same {o o' : Opt} {v : Str} (h : o.set1 v = some o') : o'.name = o.name ∧ o'.kind = o.kind ∧ o'.short = o.short := by
  unfold Opt.set1 at h
  split at h
  · cases h
  · obtain ⟨x, -, rfl⟩ := Option.map_eq_some_iff.1 h
    exact ⟨rfl, rfl, rfl⟩

theorem apply_kind (p : Parser) (e : Ev) : kindOf (e.apply p) = kindOf p := by
  funext n
  cases e with
  | flag m =>
    unfold Ev.apply Parser.setFlag
    simp only
    cases h : p.find m with
    | none => rfl
    | some o =>
      simp only
      cases h' : o.set0 with
      | none => rfl
      | some o' =>
        obtain ⟨h1, h2, -⟩ := set0_same h'
        exact put_kind (by rw [h1, find_name h]; exact h) h2 n
  | value m v =>
    unfold Ev.apply Parser.setValue
    simp only
    cases h : p.find m with
    | none => rfl
    | some o =>
      simp only
      cases h' : o.set1 v with
      | none => rfl
      | some o' =>
        obtain ⟨h1, h2, -⟩ := set1_same h'
        exact put_kind (by rw [h1, find_name h]; exact h) h2 n
  | err e => rfl
  | other a => rfl

theorem foldl_kind (p : Parser) (l : List Ev) : kindOf (l.foldl Ev.apply p) = kindOf p := by
  induction l generalizing p with
  | nil => rfl
  | cons e l ih => rw [List.foldl_cons, ih, apply_kind]

theorem cluster_eq (lk : List (Char × Str)) (p : Parser) (c : Char) : clusterStep lk p c = (clusterEv lk c).apply p := by
  unfold clusterStep clusterEv
  cases lk.lookup c with
  | none => rfl
  | some n =>
    simp only
    split <;> rfl

theorem cluster_fold (lk : List (Char × Str)) (p : Parser) (l : List Char) : l.foldl (clusterStep lk) p = (l.map (clusterEv lk)).foldl Ev.apply p := by
  induction l generalizing p with
  | nil => rfl
  | cons c l ih => rw [List.foldl_cons, cluster_eq, ih, List.map_cons, List.foldl_cons]

theorem any_hasValue (p : Parser) (n : Str) : (p.find n).any Opt.hasValue = (kindOf p n).any Kind.hasValue := by
  unfold kindOf
  cases p.find n with
  | none => rfl
  | some o => exact hasValue_kind o

/-- The loop carries out the events. -/
theorem run_eq (lk : List (Char × Str)) (p : Parser) (args : List Str) : run lk p args = (plan lk (kindOf p) args).foldl Ev.apply p := by
  induction h : args.length using Nat.strong_induction_on generalizing p args with
  | _ N ih =>
    subst h
    have ih' : ∀ (e : Ev) (l : List Str), l.length < args.length → run lk (e.apply p) l = (plan lk (kindOf p) l).foldl Ev.apply (e.apply p) := fun e l hl => by
      rw [ih l.length hl _ l rfl, apply_kind]
    cases args with
    | nil => rw [run.eq_def, plan]; rfl
    | cons a rest =>
      rw [run.eq_def, plan.eq_def]
      simp only
      by_cases h2 : a.take 2 = ['-', '-']
      · rw [if_pos h2, if_pos h2]
        cases splitEq (a.drop 2) with
        | some x => exact ih' (.value x.1 x.2) rest (by simp)
        | none =>
          simp only
          unfold kindOf
          cases hf : p.find (a.drop 2) with
          | none => exact ih' (.err _) rest (by simp)
          | some o =>
            simp only [Option.map_some, hasValue_kind]
            by_cases hv : o.kind.hasValue = true
            · rw [if_pos hv, if_pos hv]
              cases rest with
              | nil => rfl
              | cons v rest' => exact ih' (.value _ v) rest' (by simp only [List.length_cons]; omega)
            · rw [if_neg hv, if_neg hv]
              exact ih' (.flag _) rest (by simp)
      · rw [if_neg h2, if_neg h2]
        by_cases h1 : a.take 1 = ['-']
        · rw [if_pos h1, if_pos h1]
          cases hd : a.drop 1 with
          | nil => exact ih _ (by simp) _ _ rfl
          | cons c cs =>
            simp only
            rw [List.foldl_append, ← cluster_fold]
            have hk : kindOf ((c :: cs).dropLast.foldl (clusterStep lk) p) = kindOf p := by
              rw [cluster_fold]
              exact foldl_kind _ _
            generalize (c :: cs).dropLast.foldl (clusterStep lk) p = p' at hk ⊢
            have ih2 : ∀ (e : Ev) (l : List Str), l.length < (a :: rest).length → run lk (e.apply p') l = (plan lk (kindOf p) l).foldl Ev.apply (e.apply p') := fun e l hl => by
              rw [ih l.length hl _ l rfl, apply_kind, hk]
            cases lk.lookup ((c :: cs).getLast (List.cons_ne_nil c cs)) with
            | none => exact ih2 (.err _) rest (by simp)
            | some n =>
              simp only
              by_cases hn : n = []
              · rw [if_pos hn, if_pos hn]
                exact ih2 (.err _) rest (by simp)
              · rw [if_neg hn, if_neg hn]
                cases rest with
                | nil => rfl
                | cons v rest' =>
                  simp only
                  rw [any_hasValue, hk]
                  split
                  · exact ih2 (.value n v) rest' (by simp only [List.length_cons]; omega)
                  · exact ih2 (.flag n) (v :: rest') (by simp)
        · rw [if_neg h1, if_neg h1]
          exact ih' (.other a) rest (by simp)

/-! ### What the events leave -/

/-- the effect of an event on an option -/
def optStep (o : Opt) : Ev → Opt
  | .flag n => if n = o.name then (o.set0).getD o else o
  | .value n v => if n = o.name then (o.set1 v).getD o else o
  | _ => o

theorem optStep_same (o : Opt) (e : Ev) : (optStep o e).name = o.name ∧ (optStep o e).kind = o.kind ∧ (optStep o e).short = o.short := by
  unfold optStep
  cases e with
  | flag n =>
    simp only
    split
    · cases h : o.set0 with
      | none => exact ⟨rfl, rfl, rfl⟩
      | some o' => exact set0_same h
    · exact ⟨rfl, rfl, rfl⟩
  | value n v =>
    simp only
    split
    · cases h : o.set1 v with
      | none => exact ⟨rfl, rfl, rfl⟩
      | some o' => exact set1_same h
    · exact ⟨rfl, rfl, rfl⟩
  | err e => exact ⟨rfl, rfl, rfl⟩
  | other a => exact ⟨rfl, rfl, rfl⟩

theorem foldStep_same (o : Opt) (l : List Ev) : (l.foldl optStep o).name = o.name ∧ (l.foldl optStep o).kind = o.kind ∧ (l.foldl optStep o).short = o.short := by
  induction l generalizing o with
  | nil => exact ⟨rfl, rfl, rfl⟩
  | cons e l ih =>
    rw [List.foldl_cons]
    obtain ⟨h1, h2, h3⟩ := ih (optStep o e)
    obtain ⟨k1, k2, k3⟩ := optStep_same o e
    exact ⟨h1.trans k1, h2.trans k2, h3.trans k3⟩

/-- the message of an event -/
def evErr (K : Str → Option Kind) : Ev → Option Err
  | .flag n =>
    match K n with
    | none => some (.undefined n)
    | some k => if k.hasValue then some (.needsValue n) else none
  | .value n v =>
    match K n with
    | none => some (.undefined n)
    | some .flag => some (.invalid n v)
    | some (.value _ _ read) => if (read v).isSome then none else some (.invalid n v)
  | .err e => some e
  | .other _ => none

def evOther : Ev → Option Str
  | .other a => some a
  | _ => none

theorem find_mem {p : Parser} {n : Str} {o : Opt} (h : p.find n = some o) : o ∈ p.options := List.mem_of_find?_eq_some h

theorem named_eq {p : Parser} (hp : Spec.Named p) {a b : Opt} (ha : a ∈ p.options) (hb : b ∈ p.options) (h : a.name = b.name) : a = b := by
  by_contra hne
  have : Std.Symm fun a b : Opt => a.name ≠ b.name := ⟨fun _ _ h => Ne.symm h⟩
  exact hp.forall ha hb hne h

theorem find_of_mem {p : Parser} (hp : Spec.Named p) {o : Opt} (ho : o ∈ p.options) : p.find o.name = some o := by
  cases h : p.find o.name with
  | none =>
    have := List.find?_eq_none.1 h o ho
    simp at this
  | some x => rw [named_eq hp (find_mem h) ho (find_name h)]

theorem put_options {p : Parser} (hp : Spec.Named p) {o o' : Opt} (ho : o ∈ p.options) (hn : o'.name = o.name) (f : Opt → Opt) (hf : f o = o') (hg : ∀ x, x.name ≠ o.name → f x = x) :
    (p.put o').options = p.options.map f := by
  refine List.map_congr_left fun x hx => ?_
  rw [hn]
  split
  · rename_i h
    rw [named_eq hp hx ho h, hf]
  · rename_i h
    exact (hg x h).symm

theorem apply_eq {p : Parser} (hp : Spec.Named p) (e : Ev) : e.apply p = ⟨p.options.map fun o => optStep o e, p.ordered, p.prog, p.others ++ (evOther e).toList, p.errors ++ (evErr (kindOf p) e).toList⟩ := by
  have hid : ∀ e : Ev, (∀ o ∈ p.options, optStep o e = o) → p.options.map (fun o => optStep o e) = p.options := fun e h => (List.map_congr_left h).trans (List.map_id _)
  have hnone : ∀ n, p.find n = none → ∀ o ∈ p.options, n ≠ o.name := fun n h o ho e => by
    have := List.find?_eq_none.1 h o ho
    simp [e] at this
  cases e with
  | flag n =>
    unfold Ev.apply Parser.setFlag evErr kindOf
    simp only [evOther, Option.toList_none, List.append_nil]
    cases h : p.find n with
    | none =>
      rw [hid (.flag n) fun o ho => by unfold optStep; simp only; rw [if_neg (hnone n h o ho)]]
      rfl
    | some o =>
      have hn := find_name h
      simp only [Option.map_some]
      cases hk : o.kind with
      | flag =>
        have h0 : o.set0 = some { o with has := true } := by unfold Opt.set0; rw [hk]
        simp only [h0, Kind.hasValue, Bool.false_eq_true, if_false, Option.toList_none, List.append_nil]
        have := put_options hp (find_mem h) (o' := { o with has := true }) rfl (fun x => optStep x (.flag n)) (by unfold optStep; simp only; rw [if_pos hn.symm, h0]; rfl) fun x hx => by
          unfold optStep; simp only; rw [if_neg (by rw [← hn]; exact Ne.symm hx)]
        rw [← this]
        rfl
      | value ty need read =>
        have h0 : o.set0 = none := by unfold Opt.set0; rw [hk]
        simp only [h0, Kind.hasValue, if_true, Option.toList_some]
        rw [hid (.flag n) fun x hx => by
          unfold optStep
          simp only
          split
          · rename_i e
            rw [named_eq hp hx (find_mem h) (by rw [← e, hn]), h0]
            rfl
          · rfl]
        rfl
  | value n v =>
    unfold Ev.apply Parser.setValue evErr kindOf
    simp only [evOther, Option.toList_none, List.append_nil]
    cases h : p.find n with
    | none =>
      rw [hid (.value n v) fun o ho => by unfold optStep; simp only; rw [if_neg (hnone n h o ho)]]
      rfl
    | some o =>
      have hn := find_name h
      have hskip : o.set1 v = none → p.options.map (fun o => optStep o (.value n v)) = p.options := fun h0 => hid (.value n v) fun x hx => by
          unfold optStep
          simp only
          split
          · rename_i e
            rw [named_eq hp hx (find_mem h) (by rw [← e, hn]), h0]
            rfl
          · rfl
      simp only [Option.map_some]
      cases hk : o.kind with
      | flag =>
        have h0 : o.set1 v = none := by unfold Opt.set1; rw [hk]
        simp only [h0, Option.toList_some]
        rw [hskip h0]
        rfl
      | value ty need read =>
        simp only
        cases hr : read v with
        | none =>
          have h0 : o.set1 v = none := by unfold Opt.set1; rw [hk]; simp only [hr, Option.map_none]
          simp only [h0, Option.isSome_none, Bool.false_eq_true, if_false, Option.toList_some]
          rw [hskip h0]
          rfl
        | some x =>
          have h0 : o.set1 v = some { o with has := true, actual := x } := by unfold Opt.set1; rw [hk]; simp only [hr, Option.map_some]
          simp only [h0, Option.isSome_some, if_true, Option.toList_none, List.append_nil]
          have := put_options hp (find_mem h) (o' := { o with has := true, actual := x }) rfl (fun x => optStep x (.value n v)) (by unfold optStep; simp only; rw [if_pos hn.symm, h0]; rfl) fun x hx => by
            unfold optStep; simp only; rw [if_neg (by rw [← hn]; exact Ne.symm hx)]
          rw [← this]
          rfl
  | err e =>
    rw [hid (.err e) fun o _ => rfl]
    simp [Ev.apply, evErr, evOther, Parser.err]
  | other a =>
    rw [hid (.other a) fun o _ => rfl]
    simp [Ev.apply, evErr, evOther]

theorem named_map {l : List Opt} (h : l.Pairwise fun a b => a.name ≠ b.name) (f : Opt → Opt) (hf : ∀ o, (f o).name = o.name) : (l.map f).Pairwise fun a b => a.name ≠ b.name := by
  rw [List.pairwise_map]
  simpa only [hf] using h

theorem apply_named {p : Parser} (hp : Spec.Named p) (e : Ev) : Spec.Named (e.apply p) := by
  rw [apply_eq hp]
  exact named_map hp _ fun o => (optStep_same o e).1

theorem toList_filterMap {α β : Type} (f : α → Option β) (a : α) (l : List α) : (a :: l).filterMap f = (f a).toList ++ l.filterMap f := by
  rw [List.filterMap_cons]
  cases f a <;> rfl

theorem foldl_eq {p : Parser} (hp : Spec.Named p) (l : List Ev) :
    l.foldl Ev.apply p = ⟨p.options.map fun o => l.foldl optStep o, p.ordered, p.prog, p.others ++ l.filterMap evOther, p.errors ++ l.filterMap (evErr (kindOf p))⟩ := by
  induction l generalizing p with
  | nil => simp
  | cons e l ih =>
    rw [List.foldl_cons, ih (apply_named hp e), apply_kind, apply_eq hp, toList_filterMap, toList_filterMap]
    simp only [List.map_map, List.append_assoc]
    rfl

/-! ### The parse -/

theorem lookupTable_congr (f : Opt → Opt) (hf : ∀ o, (f o).name = o.name ∧ (f o).short = o.short) (l : List Opt) (t : List (Char × Str)) : lookupTable (l.map f) t = lookupTable l t := by
  induction l generalizing t with
  | nil => rfl
  | cons o l ih =>
    rw [List.map_cons, lookupTable, lookupTable, (hf o).1, (hf o).2]
    simp only [ih]

theorem lookup_append (t : List (Char × Str)) (c d : Char) (n : Str) : (t ++ [(c, n)]).lookup d = (t.lookup d).or (if d = c then some n else none) := by
  induction t with
  | nil =>
    simp only [List.nil_append, List.lookup_nil, Option.none_or, List.lookup_cons]
    by_cases h : d = c
    · simp [h]
    · rw [if_neg h, beq_eq_false_iff_ne.2 h]
  | cons x t ih =>
    rw [List.cons_append, List.lookup_cons, List.lookup_cons, ih]
    split <;> rfl

theorem lookupTable_ok (l : List Opt) (h : l.Pairwise fun a b => a.name ≠ [] → b.name ≠ [] → a.short = none ∨ a.short ≠ b.short) (t : List (Char × Str))
    (ht : ∀ o ∈ l, o.name ≠ [] → ∀ c, o.short = some c → t.lookup c = none) : ∃ lk, lookupTable l t = .ok lk := by
  induction l generalizing t with
  | nil => exact ⟨t, rfl⟩
  | cons o l ih =>
    rw [List.pairwise_cons] at h
    rw [lookupTable]
    split
    · exact ih h.2 t fun o' ho' => ht o' (List.mem_cons_of_mem _ ho')
    · rename_i hn
      cases hs : o.short with
      | none => exact ih h.2 t fun o' ho' => ht o' (List.mem_cons_of_mem _ ho')
      | some c =>
        simp only
        rw [ht o (by simp) hn c hs]
        refine ih h.2 _ fun o' ho' hn' d hd => ?_
        rw [lookup_append, ht o' (List.mem_cons_of_mem _ ho') hn' d hd, Option.none_or, if_neg]
        rintro rfl
        rcases h.1 o' ho' hn hn' with h' | h'
        · rw [hs] at h'; cases h'
        · exact h' (by rw [hs, hd])

theorem lookupTable_mem {l : List Opt} {t lk : List (Char × Str)} (h : lookupTable l t = .ok lk) {c : Char} {n : Str} (hl : lk.lookup c = some n) :
    t.lookup c = some n ∨ ∃ o ∈ l, o.name = n ∧ o.short = some c ∧ n ≠ [] := by
  induction l generalizing t with
  | nil =>
    rw [lookupTable, Except.ok.injEq] at h
    subst h
    exact Or.inl hl
  | cons o l ih =>
    rw [lookupTable] at h
    have lift : ∀ {t}, lookupTable l t = .ok lk → t.lookup c = some n ∨ ∃ o' ∈ o :: l, o'.name = n ∧ o'.short = some c ∧ n ≠ [] := fun h' => by
      rcases ih h' with h1 | ⟨o', h1, h2⟩
      · exact Or.inl h1
      · exact Or.inr ⟨o', List.mem_cons_of_mem _ h1, h2⟩
    split at h
    · exact lift h
    · rename_i hn
      cases hs : o.short with
      | none =>
        rw [hs] at h
        exact lift h
      | some d =>
        rw [hs] at h
        simp only at h
        split at h
        · cases h
        · rcases lift h with h1 | h1
          · rw [lookup_append] at h1
            cases ht : t.lookup c with
            | some m =>
              rw [ht] at h1
              exact Or.inl h1
            | none =>
              rw [ht, Option.none_or] at h1
              split at h1
              · rename_i e
                subst e
                rw [Option.some.injEq] at h1
                exact Or.inr ⟨o, by simp, h1, hs, h1 ▸ hn⟩
              · cases h1
          · exact Or.inr h1

/-- the errors about options that have to be given -/
def needErrs (l : List Opt) : List Err := (l.filter fun o => !o.valid).map fun o => .need o.name

/-- What `parse` returns. -/
theorem parse_eq {p : Parser} (hp : Spec.Named p) (a : Str) (args : List Str) {lk : List (Char × Str)} (hl : lookupTable p.options [] = .ok lk) :
    p.parse (a :: args) = (⟨p.options.map fun o => (plan lk (kindOf p) args).foldl optStep o, p.ordered, if p.prog = [] then a else p.prog, (plan lk (kindOf p) args).filterMap evOther,
        (plan lk (kindOf p) args).filterMap (evErr (kindOf p)) ++ needErrs (p.options.map fun o => (plan lk (kindOf p) args).foldl optStep o)⟩,
      ((plan lk (kindOf p) args).filterMap (evErr (kindOf p)) ++ needErrs (p.options.map fun o => (plan lk (kindOf p) args).foldl optStep o)).isEmpty) := by
  have h : ∀ q : Parser, Spec.Named q → q.options = p.options → q.errors = [] → q.others = [] → run lk q args = ⟨p.options.map fun o => (plan lk (kindOf p) args).foldl optStep o, q.ordered, q.prog,
      (plan lk (kindOf p) args).filterMap evOther, (plan lk (kindOf p) args).filterMap (evErr (kindOf p))⟩ := by
    intro q hq h1 h2 h3
    have hk : kindOf q = kindOf p := by
      funext n
      unfold kindOf Parser.find
      rw [h1]
    rw [run_eq, foldl_eq hq, hk, h1, h2, h3]
    rfl
  unfold Parser.parse
  simp only
  by_cases h0 : p.prog = []
  · simp only [h0, if_true]
    rw [hl]
    simp only
    rw [h ⟨p.options, p.ordered, a, [], []⟩ hp rfl rfl rfl]
    rfl
  · simp only [h0, if_false]
    rw [hl]
    simp only
    rw [h ⟨p.options, p.ordered, p.prog, [], []⟩ hp rfl rfl rfl]
    rfl

theorem parse_error (p : Parser) (a : Str) (args : List Str) {c : Char} (hl : lookupTable p.options [] = .error c) :
    p.parse (a :: args) = (⟨p.options, p.ordered, if p.prog = [] then a else p.prog, [], [.ambiguous c]⟩, false) := by
  unfold Parser.parse
  simp only
  by_cases h0 : p.prog = []
  · simp only [h0, if_true]
    rw [hl]
    rfl
  · simp only [h0, if_false]
    rw [hl]
    rfl

/-! ### Events twice -/

/-- the options that differ in what a command line can set only -/
def Cls (o o' : Opt) : Prop := o'.name = o.name ∧ o'.kind = o.kind ∧ o'.short = o.short ∧ (o.kind = .flag → o'.actual = o.actual)

theorem cls_step (o o' : Opt) (h : Cls o o') (e : Ev) : Cls o (optStep o' e) := by
  obtain ⟨h1, h2, h3, h4⟩ := h
  obtain ⟨k1, k2, k3⟩ := optStep_same o' e
  refine ⟨k1.trans h1, k2.trans h2, k3.trans h3, fun hf => (?_ : _ = o'.actual).trans (h4 hf)⟩
  rw [hf] at h2
  unfold optStep
  cases e with
  | flag n =>
    simp only
    split
    · unfold Opt.set0; rw [h2]; rfl
    · rfl
  | value n v =>
    simp only
    split
    · unfold Opt.set1; rw [h2]; rfl
    · rfl
  | err e => rfl
  | other a => rfl

theorem cls_fold (o o' : Opt) (h : Cls o o') (l : List Ev) : Cls o (l.foldl optStep o') := by
  induction l generalizing o' with
  | nil => exact h
  | cons e l ih => exact ih _ (cls_step o o' h e)

/-- An event keeps the option or puts it into a state that does not depend on the one before. -/
theorem step_settle (o : Opt) (e : Ev) : (∀ o', Cls o o' → optStep o' e = o') ∨ ∃ r, ∀ o', Cls o o' → optStep o' e = r := by
  cases e with
  | flag n =>
    by_cases hn : n = o.name
    · cases hk : o.kind with
      | flag =>
        refine Or.inr ⟨{ o with has := true }, fun o' h => ?_⟩
        obtain ⟨h1, h2, h3, h4⟩ := h
        unfold optStep Opt.set0
        simp only
        rw [if_pos (by rw [hn, h1]), h2, hk]
        obtain ⟨a, b, c, d, e⟩ := o'
        simp only at h1 h2 h3 h4
        rw [Option.getD_some, h1, h2, h3, h4 hk, hk]
      | value ty need read =>
        refine Or.inl fun o' h => ?_
        unfold optStep Opt.set0
        simp only
        rw [if_pos (by rw [hn, h.1]), h.2.1, hk]
        rfl
    · refine Or.inl fun o' h => ?_
      unfold optStep
      simp only
      rw [if_neg (by rw [h.1]; exact hn)]
  | value n v =>
    by_cases hn : n = o.name
    · cases hk : o.kind with
      | flag =>
        refine Or.inl fun o' h => ?_
        unfold optStep Opt.set1
        simp only
        rw [if_pos (by rw [hn, h.1]), h.2.1, hk]
        rfl
      | value ty need read =>
        cases hr : read v with
        | none =>
          refine Or.inl fun o' h => ?_
          unfold optStep Opt.set1
          simp only
          rw [if_pos (by rw [hn, h.1]), h.2.1, hk]
          simp only [hr]
          rfl
        | some x =>
          refine Or.inr ⟨{ o with has := true, actual := x }, fun o' h => ?_⟩
          obtain ⟨h1, h2, h3, h4⟩ := h
          unfold optStep Opt.set1
          simp only
          rw [if_pos (by rw [hn, h1]), h2, hk]
          obtain ⟨a, b, c, d, e⟩ := o'
          simp only at h1 h2 h3 h4
          simp only [hr, Option.map_some, Option.getD_some]
          rw [h1, h3]
    · refine Or.inl fun o' h => ?_
      unfold optStep
      simp only
      rw [if_neg (by rw [h.1]; exact hn)]
  | err e => exact Or.inl fun o' _ => rfl
  | other a => exact Or.inl fun o' _ => rfl

theorem fold_settle (o : Opt) (l : List Ev) : (∀ o', Cls o o' → l.foldl optStep o' = o') ∨ ∃ r, ∀ o', Cls o o' → l.foldl optStep o' = r := by
  induction l with
  | nil => exact Or.inl fun o' _ => rfl
  | cons e l ih =>
    rcases ih with h | ⟨r, h⟩
    · rcases step_settle o e with h' | ⟨r, h'⟩
      · exact Or.inl fun o' ho => by rw [List.foldl_cons, h' o' ho, h o' ho]
      · exact Or.inr ⟨r, fun o' ho => by rw [List.foldl_cons, h _ (cls_step o o' ho e), h' o' ho]⟩
    · exact Or.inr ⟨r, fun o' ho => by rw [List.foldl_cons, h _ (cls_step o o' ho e)]⟩

theorem fold_twice (o : Opt) (l : List Ev) : l.foldl optStep (l.foldl optStep o) = l.foldl optStep o := by
  have h0 : Cls o o := ⟨rfl, rfl, rfl, fun _ => rfl⟩
  rcases fold_settle o l with h | ⟨r, h⟩
  · rw [h o h0, h o h0]
  · rw [h _ (cls_fold o o h0 l), h o h0]

theorem kindOf_map (p : Parser) (f : Opt → Opt) (hf : ∀ o, (f o).name = o.name ∧ (f o).kind = o.kind) (q : Parser) (hq : q.options = p.options.map f) : kindOf q = kindOf p := by
  funext n
  unfold kindOf Parser.find
  rw [hq, List.find?_map, Option.map_map]
  have : ((fun o : Opt => decide (o.name = n)) ∘ f) = fun o => decide (o.name = n) := by
    funext o
    simp only [Function.comp, (hf o).1]
  rw [this]
  congr 1
  funext o
  exact (hf o).2

/-! ### The events of some arguments -/

theorem splitEq_assign (n v : Str) (h : '=' ∉ n) : splitEq (n ++ '=' :: v) = some (n, v) := by
  induction n with
  | nil => simp [splitEq]
  | cons c n ih =>
    rw [List.mem_cons, not_or] at h
    rw [List.cons_append, splitEq, if_neg (Ne.symm h.1), ih h.2]
    rfl

theorem splitEq_none (n : Str) (h : '=' ∉ n) : splitEq n = none := by
  induction n with
  | nil => rfl
  | cons c n ih =>
    rw [List.mem_cons, not_or] at h
    rw [splitEq, if_neg (Ne.symm h.1), ih h.2]
    rfl

theorem plan_assign (lk : List (Char × Str)) (K : Str → Option Kind) (n v : Str) (h : '=' ∉ n) (rest : List Str) :
    plan lk K (Spec.assign n v :: rest) = .value n v :: plan lk K rest := by
  rw [plan.eq_def]
  simp only [Spec.assign, List.take, List.drop, if_true, splitEq_assign n v h]

theorem plan_assigns (lk : List (Char × Str)) (K : Str → Option Kind) (l : List (Str × Str)) (h : ∀ x ∈ l, '=' ∉ x.1) (rest : List Str) :
    plan lk K (Spec.assigns l ++ rest) = (l.map fun x => .value x.1 x.2) ++ plan lk K rest := by
  induction l with
  | nil => rfl
  | cons x l ih =>
    have := ih fun y hy => h y (List.mem_cons_of_mem _ hy)
    unfold Spec.assigns at this ⊢
    rw [List.map_cons, List.cons_append, plan_assign lk K x.1 x.2 (h x (by simp)), this]
    rfl

theorem plan_word (lk : List (Char × Str)) (K : Str → Option Kind) (n v : Str) (h : '=' ∉ n) (rest : List Str) {k : Kind} (hk : K n = some k) (hv : k.hasValue = true) :
    plan lk K (Spec.word n :: v :: rest) = .value n v :: plan lk K rest := by
  rw [plan.eq_def]
  simp only [Spec.word, List.take, List.drop, if_true, splitEq_none n h, hk, hv]

theorem plan_word_end (lk : List (Char × Str)) (K : Str → Option Kind) (n : Str) (h : '=' ∉ n) {k : Kind} (hk : K n = some k) (hv : k.hasValue = true) :
    plan lk K [Spec.word n] = [.err (.needsValue n)] := by
  rw [plan.eq_def]
  simp only [Spec.word, List.take, List.drop, if_true, splitEq_none n h, hk, hv]

theorem plan_flag (lk : List (Char × Str)) (K : Str → Option Kind) (n : Str) (h : '=' ∉ n) (rest : List Str) (hk : K n = some .flag) :
    plan lk K (Spec.word n :: rest) = .flag n :: plan lk K rest := by
  rw [plan.eq_def]
  simp [Spec.word, splitEq_none n h, hk, Kind.hasValue]

theorem plan_undefined (lk : List (Char × Str)) (K : Str → Option Kind) (n : Str) (h : '=' ∉ n) (rest : List Str) (hk : K n = none) :
    plan lk K (Spec.word n :: rest) = .err (.undefined n) :: plan lk K rest := by
  rw [plan.eq_def]
  simp [Spec.word, splitEq_none n h, hk]

theorem plan_other (lk : List (Char × Str)) (K : Str → Option Kind) (a : Str) (h : a.head? ≠ some '-') (rest : List Str) : plan lk K (a :: rest) = .other a :: plan lk K rest := by
  rw [plan.eq_def]
  cases a with
  | nil => simp
  | cons c a =>
    have hc : c ≠ '-' := fun e => h (by rw [e]; rfl)
    simp [hc]

theorem plan_dash (lk : List (Char × Str)) (K : Str → Option Kind) (rest : List Str) : plan lk K (['-'] :: rest) = plan lk K rest := by
  rw [plan.eq_def]
  simp

/-- the events of a short option and what follows -/
theorem plan_short (lk : List (Char × Str)) (K : Str → Option Kind) (c : Char) (hc : c ≠ '-') (rest : List Str)
    (h : ∀ n, lk.lookup c = some n → n ≠ [] → (K n).any Kind.hasValue = false) : plan lk K (['-', c] :: rest) = clusterEv lk c :: plan lk K rest := by
  rw [plan.eq_def]
  simp only [List.take, List.drop, List.cons.injEq, hc, and_false, and_true, if_false, if_true, List.dropLast, List.map_nil, List.nil_append, List.getLast_singleton]
  unfold clusterEv
  cases hl : lk.lookup c with
  | none => rfl
  | some n =>
    simp only
    by_cases hn : n = []
    · rw [if_pos hn, if_pos hn]
    · rw [if_neg hn, if_neg hn]
      cases rest with
      | nil => simp [plan]
      | cons v rest' => simp only [h n hl hn, Bool.false_eq_true, if_false]

theorem plan_cluster (lk : List (Char × Str)) (K : Str → Option Kind) (cs : List Char) (hcs : cs ≠ []) (hd : '-' ∉ cs) (rest : List Str)
    (h : ∀ c ∈ cs.dropLast, ∀ n, lk.lookup c = some n → n ≠ [] → (K n).any Kind.hasValue = false) :
    plan lk K (('-' :: cs) :: rest) = plan lk K ((cs.map fun c => ['-', c]) ++ rest) := by
  induction cs with
  | nil => exact absurd rfl hcs
  | cons c cs ih =>
    rw [List.mem_cons, not_or] at hd
    cases cs with
    | nil => rfl
    | cons d cs =>
      have ih := ih (by simp) hd.2 fun x hx => h x (List.mem_cons_of_mem _ hx)
      rw [List.map_cons, List.cons_append, plan_short lk K c (Ne.symm hd.1) _ (h c (by simp)), ← ih]
      have hd' : d ≠ '-' := fun e => hd.2 (by simp [e])
      rw [plan.eq_def, plan.eq_def lk K (('-' :: d :: cs) :: rest)]
      simp [Ne.symm hd.1, hd']

end Cmd
end HelFEM
