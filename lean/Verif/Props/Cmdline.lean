import Verif.Lemmas.CmdlineText

/-!
# C87: what a command line does to the options
-/

namespace HelFEM
namespace Cmd

open Spec

theorem table {p : Parser} (hu : Unambiguous p) : ∃ lk, lookupTable p.options [] = .ok lk := lookupTable_ok p.options hu [] fun _ _ _ _ _ => rfl

/-- The events of arguments that start with assignments; whatever follows. -/
theorem parse_pre {p : Parser} (hn : Named p) (a : Str) (pre : List (Str × Str)) (he : ∀ x ∈ pre, '=' ∉ x.1) {u v : List Str}
    (h : ∀ lk, lookupTable p.options [] = .ok lk → plan lk (kindOf p) u = plan lk (kindOf p) v) : p.parse (a :: (assigns pre ++ u)) = p.parse (a :: (assigns pre ++ v)) := by
  cases hl : lookupTable p.options [] with
  | error c => rw [parse_error p a _ hl, parse_error p a _ hl]
  | ok lk => rw [parse_eq hn a _ hl, parse_eq hn a _ hl, plan_assigns lk _ pre he, plan_assigns lk _ pre he, h lk hl]

/-- After any number of `--name=value`, successful or not, an option has the last of its values that could be read, or the one it had. -/
theorem C87_values {p : Parser} (hn : Named p) (hu : Unambiguous p) (a : Str) (l : List (Str × Str)) (he : ∀ x ∈ l, '=' ∉ x.1) (o : Opt) (ho : o ∈ p.options) (ty : Ty) (need : Bool)
    (read : Str → Option Val) (hk : o.kind = .value ty need read) :
    (p.parse (a :: assigns l)).1.get ty o.name = .ok (((l.filter fun x => x.1 = o.name).filterMap fun x => read x.2).getLast?.getD o.actual) ∧
    (p.parse (a :: assigns l)).1.exist o.name = .ok (o.has || !((l.filter fun x => x.1 = o.name).filterMap fun x => read x.2).isEmpty) := by
  obtain ⟨lk, hl⟩ := table hu
  have hg : given o l = (l.filter fun x => x.1 = o.name).filterMap fun x => read x.2 := by
    unfold given reads
    rw [hk]
  have hp := plan_assigns lk (kindOf p) l he []
  rw [List.append_nil, show plan lk (kindOf p) [] = [] by rw [plan], List.append_nil] at hp
  have hf : (p.parse (a :: assigns l)).1.find o.name = some { o with has := o.has || !(given o l).isEmpty, actual := (given o l).getLast?.getD o.actual } := by
    rw [find_map p _ (fun o => (l.map fun x => Ev.value x.1 x.2).foldl optStep o) (fun o => (foldStep_same o _).1) (by rw [parse_eq hn a _ hl, hp]), find_of_mem hn ho, Option.map_some, fold_values]
  rw [← hg]
  constructor
  · unfold Parser.get
    rw [hf]
    simp only [hk, if_true]
  · unfold Parser.exist
    rw [hf]

/-- A command line of `--name=value` is accepted if and only if every name is that of an option with a value, every value can be read, and every option that has to be given is given now or was given
earlier. Then an option has the last of its values, or, if it is not given, the value it had. -/
theorem C87_assign {p : Parser} (hn : Named p) (hu : Unambiguous p) (a : Str) (l : List (Str × Str)) (he : ∀ x ∈ l, '=' ∉ x.1) :
    (p.parse (a :: assigns l)).1.others = [] ∧
    ((p.parse (a :: assigns l)).2 = true ↔ (∀ x ∈ l, ∃ o ∈ p.options, o.name = x.1 ∧ Accepts o x.2) ∧ ∀ o ∈ p.options, Needed o → o.has = true ∨ ∃ v, lastFor o.name l = some v) ∧
    ((p.parse (a :: assigns l)).2 = true → ∀ o ∈ p.options, ∀ ty need read, o.kind = .value ty need read →
      (lastFor o.name l = none → (p.parse (a :: assigns l)).1.get ty o.name = .ok o.actual) ∧
      ∀ v, lastFor o.name l = some v → ∃ x, read v = some x ∧ (p.parse (a :: assigns l)).1.get ty o.name = .ok x) := by
  obtain ⟨lk, hl⟩ := table hu
  have hp := plan_assigns lk (kindOf p) l he []
  rw [List.append_nil, show plan lk (kindOf p) [] = [] by rw [plan], List.append_nil] at hp
  have hq := parse_eq hn a (assigns l) hl
  rw [hp] at hq
  have hgood : ((l.map fun x => Ev.value x.1 x.2).filterMap (evErr (kindOf p)) = []) ↔ ∀ x ∈ l, ∃ o ∈ p.options, o.name = x.1 ∧ Accepts o x.2 := by
    rw [filterMap_nil]
    simp only [List.forall_mem_map, evErr_value hn]
  -- with good values, the values read are as many as the values given
  have hall : (∀ x ∈ l, ∃ o ∈ p.options, o.name = x.1 ∧ Accepts o x.2) → ∀ o ∈ p.options, ∀ ty need read, o.kind = .value ty need read →
      ((l.filter fun x => x.1 = o.name).filterMap fun x => read x.2).getLast? = (lastFor o.name l).bind read := by
    intro hx o ho ty need read hk
    have hs : ∀ x ∈ l.filter (fun x => x.1 = o.name), (read x.2).isSome := by
      intro x hx'
      rw [List.mem_filter, decide_eq_true_eq] at hx'
      obtain ⟨o', ho', h1, ty', need', read', h2, h3⟩ := hx x hx'.1
      rw [named_eq hn ho' ho (h1.trans hx'.2), hk] at h2
      cases h2
      exact h3
    unfold lastFor
    generalize l.filter (fun x => x.1 = o.name) = m at hs
    induction m using List.reverseRecOn with
    | nil => rfl
    | append_singleton m x _ =>
      have := hs x (by simp)
      obtain ⟨y, hy⟩ := Option.isSome_iff_exists.1 this
      simp [List.filterMap_append, hy]
  have hlast : ∀ o ∈ p.options, Needed o → (∀ x ∈ l, ∃ o ∈ p.options, o.name = x.1 ∧ Accepts o x.2) → (((o.has || !(given o l).isEmpty) = true) ↔ o.has = true ∨ ∃ v, lastFor o.name l = some v) := by
    rintro o ho ⟨ty, read, hk⟩ hx
    have hg : given o l = (l.filter fun x => x.1 = o.name).filterMap fun x => read x.2 := by
      unfold given reads
      rw [hk]
    have h1 := hall hx o ho ty true read hk
    rw [← hg] at h1
    rw [Bool.or_eq_true]
    refine or_congr Iff.rfl ?_
    constructor
    · intro h
      cases hv : lastFor o.name l with
      | some v => exact ⟨v, rfl⟩
      | none =>
        rw [hv, Option.bind_none, List.getLast?_eq_none_iff] at h1
        rw [h1] at h
        simp at h
    · rintro ⟨v, hv⟩
      cases hgl : given o l with
      | cons y ys => rfl
      | nil =>
        exfalso
        unfold lastFor at hv
        obtain ⟨x, hx1, hx2⟩ := Option.map_eq_some_iff.1 hv
        have hx3 := List.mem_of_getLast? hx1
        rw [hgl] at hg
        have := (filterMap_nil _ _).1 hg.symm x hx3
        rw [List.mem_filter, decide_eq_true_eq] at hx3
        obtain ⟨o', ho', h1', ty', need', read', h2', h3'⟩ := hx x hx3.1
        rw [named_eq hn ho' ho (h1'.trans hx3.2), hk] at h2'
        cases h2'
        rw [this] at h3'
        cases h3'
  have hok : (p.parse (a :: assigns l)).2 = true ↔ (∀ x ∈ l, ∃ o ∈ p.options, o.name = x.1 ∧ Accepts o x.2) ∧ ∀ o ∈ p.options, Needed o → o.has = true ∨ ∃ v, lastFor o.name l = some v := by
    rw [hq]
    simp only [List.isEmpty_iff, List.append_eq_nil_iff]
    rw [hgood, needErrs_nil]
    simp only [List.forall_mem_map, fold_values]
    exact and_congr_right fun hx => forall₂_congr fun o ho => forall_congr' fun (hnd : Needed o) => hlast o ho hnd hx
  refine ⟨?_, hok, fun h o ho ty need read hk => ?_⟩
  · rw [hq]
    simp only
    rw [filterMap_nil]
    exact fun e he => by obtain ⟨x, -, rfl⟩ := List.mem_map.1 he; rfl
  · have hx := (hok.1 h).1
    have h1 := (C87_values hn hu a l he o ho ty need read hk).1
    rw [hall hx o ho ty need read hk] at h1
    refine ⟨fun h0 => by rw [h1, h0]; rfl, fun v hv => ?_⟩
    rw [hv, Option.bind_some] at h1
    unfold lastFor at hv
    obtain ⟨x, hx1, rfl⟩ := Option.map_eq_some_iff.1 hv
    have hx3 := List.mem_of_getLast? hx1
    rw [List.mem_filter, decide_eq_true_eq] at hx3
    obtain ⟨o', ho', h1', ty', need', read', h2', h3'⟩ := hx x hx3.1
    rw [named_eq hn ho' ho (h1'.trans hx3.2), hk] at h2'
    cases h2'
    obtain ⟨y, hy⟩ := Option.isSome_iff_exists.1 h3'
    exact ⟨y, hy, by rw [h1, hy]; rfl⟩

/-- `--name value` is `--name=value`, for every value, one that starts with a dash too, and whatever follows. -/
theorem C87_two_words {p : Parser} (hn : Named p) (a : Str) (pre : List (Str × Str)) (he : ∀ x ∈ pre, '=' ∉ x.1) (o : Opt) (ho : o ∈ p.options) (hv : o.kind ≠ .flag) (hq : '=' ∉ o.name) (v : Str)
    (post : List Str) : p.parse (a :: (assigns pre ++ word o.name :: v :: post)) = p.parse (a :: (assigns pre ++ assign o.name v :: post)) := by
  refine parse_pre hn a pre he fun lk _ => ?_
  rw [plan_word lk _ o.name v hq post (kindOf_mem hn ho), plan_assign lk _ o.name v hq]
  cases hk : o.kind with
  | flag => exact absurd hk hv
  | value => rfl

/-- `--name` sets the flag of that name, and does nothing else. -/
theorem C87_flag {p : Parser} (hn : Named p) (hu : Unambiguous p) (a : Str) (pre : List (Str × Str)) (he : ∀ x ∈ pre, '=' ∉ x.1) (o : Opt) (ho : o ∈ p.options) (hk : o.kind = .flag) (hq : '=' ∉ o.name)
    (post : List Str) :
    (p.parse (a :: (assigns pre ++ word o.name :: post))).1.exist o.name = .ok true ∧
    (∀ m, m ≠ o.name → (p.parse (a :: (assigns pre ++ word o.name :: post))).1.find m = (p.parse (a :: (assigns pre ++ post))).1.find m) ∧
    (p.parse (a :: (assigns pre ++ word o.name :: post))).1.others = (p.parse (a :: (assigns pre ++ post))).1.others ∧
    (p.parse (a :: (assigns pre ++ word o.name :: post))).1.errors = (p.parse (a :: (assigns pre ++ post))).1.errors ∧
    (p.parse (a :: (assigns pre ++ word o.name :: post))).2 = (p.parse (a :: (assigns pre ++ post))).2 := by
  obtain ⟨lk, hl⟩ := table hu
  have hk' : kindOf p o.name = some .flag := by rw [kindOf_mem hn ho, hk]
  have h1 := parse_eq hn a (assigns pre ++ word o.name :: post) hl
  have h2 := parse_eq hn a (assigns pre ++ post) hl
  rw [plan_assigns lk _ pre he, plan_flag lk _ o.name hq post hk'] at h1
  rw [plan_assigns lk _ pre he] at h2
  generalize (pre.map fun x => Ev.value x.1 x.2) = E at h1 h2
  generalize plan lk (kindOf p) post = F at h1 h2
  have herr : evErr (kindOf p) (.flag o.name) = none := by
    unfold evErr
    simp only [hk', Kind.hasValue, Bool.false_eq_true, if_false]
  have hE : (E ++ Ev.flag o.name :: F).filterMap (evErr (kindOf p)) = (E ++ F).filterMap (evErr (kindOf p)) := by
    rw [List.filterMap_append, List.filterMap_append, List.filterMap_cons, herr]
  have hO : (E ++ Ev.flag o.name :: F).filterMap evOther = (E ++ F).filterMap evOther := by
    rw [List.filterMap_append, List.filterMap_append, List.filterMap_cons]
    rfl
  have hN : needErrs (p.options.map fun o' => (E ++ Ev.flag o.name :: F).foldl optStep o') = needErrs (p.options.map fun o' => (E ++ F).foldl optStep o') := by
    unfold needErrs
    rw [List.filter_map, List.filter_map, List.map_map, List.map_map]
    have hfil : p.options.filter ((fun o => !o.valid) ∘ fun o' => (E ++ Ev.flag o.name :: F).foldl optStep o') = p.options.filter ((fun o => !o.valid) ∘ fun o' => (E ++ F).foldl optStep o') := by
      refine List.filter_congr fun x hx => ?_
      simp only [Function.comp]
      by_cases hxn : x.name = o.name
      · rw [named_eq hn hx ho hxn, fold_eq_flag E F o hk]
        unfold Opt.valid
        simp only [(foldStep_same o (E ++ F)).2.1, hk]
      · rw [fold_ne E F o.name x hxn]
    rw [hfil]
    refine List.map_congr_left fun x _ => ?_
    simp only [Function.comp]
    rw [(foldStep_same x _).1, (foldStep_same x _).1]
  rw [hE, hO, hN] at h1
  refine ⟨?_, fun m hm => ?_, ?_, ?_, ?_⟩
  · unfold Parser.exist
    rw [find_map p _ (fun x => (E ++ Ev.flag o.name :: F).foldl optStep x) (fun x => (foldStep_same x _).1) (by rw [h1]), find_of_mem hn ho, Option.map_some, fold_eq_flag E F o hk]
  · rw [find_map p _ (fun x => (E ++ Ev.flag o.name :: F).foldl optStep x) (fun x => (foldStep_same x _).1) (by rw [h1]),
      find_map p (p.parse (a :: (assigns pre ++ post))).1 (fun x => (E ++ F).foldl optStep x) (fun x => (foldStep_same x _).1) (by rw [h2])]
    cases hf : p.find m with
    | none => rfl
    | some x => rw [Option.map_some, Option.map_some, fold_ne E F o.name x (by rw [find_name hf]; exact hm)]
  · rw [h1, h2]
  · rw [h1, h2]
  · rw [h1, h2]

/-- `-abc` is `-a -b -c`, if the options before the last take no value. -/
theorem C87_cluster {p : Parser} (hn : Named p) (a : Str) (pre : List (Str × Str)) (he : ∀ x ∈ pre, '=' ∉ x.1) (cs : List Char) (hcs : cs ≠ []) (hd : '-' ∉ cs)
    (hf : ∀ c ∈ cs.dropLast, ∀ o ∈ p.options, o.short = some c → o.kind = .flag) (post : List Str) :
    p.parse (a :: (assigns pre ++ ('-' :: cs) :: post)) = p.parse (a :: (assigns pre ++ ((cs.map fun c => ['-', c]) ++ post))) := by
  refine parse_pre hn a pre he fun lk hl => plan_cluster lk _ cs hcs hd post fun c hc n hln _ => ?_
  rcases lookupTable_mem hl hln with h | ⟨o, ho, h1, h2, -⟩
  · simp at h
  · rw [← h1, kindOf_mem hn ho, hf c hc o ho h2]
    rfl

theorem short_lookup {p : Parser} (hu : Unambiguous p) {lk : List (Char × Str)} (hl : lookupTable p.options [] = .ok lk) {o : Opt} (ho : o ∈ p.options) (h0 : o.name ≠ []) {c : Char} (hc : o.short = some c) :
    lk.lookup c = some o.name := by
  cases h : lk.lookup c with
  | none =>
    exact absurd h (lookupTable_has hl ho h0 hc)
  | some n =>
    rcases lookupTable_mem hl h with h' | ⟨o', ho', h1, h2, h3⟩
    · simp at h'
    · by_contra hne
      have hoo : o' ≠ o := fun e => hne (by rw [← h1, e])
      have : Std.Symm fun a b : Opt => a.name ≠ [] → b.name ≠ [] → a.short = none ∨ a.short ≠ b.short := ⟨fun x y h hy hx => by
        rcases h hx hy with h | h
        · by_cases hys : y.short = none
          · exact Or.inl hys
          · exact Or.inr (by rw [h]; exact hys)
        · exact Or.inr (Ne.symm h)⟩
      rcases hu.forall ho' ho hoo (by rw [h1]; exact h3) h0 with h4 | h4
      · rw [h2] at h4; cases h4
      · exact h4 (by rw [h2, hc])

/-- `-c value` is `--name=value` for the option of the short name `c`. -/
theorem C87_short_value {p : Parser} (hn : Named p) (hu : Unambiguous p) (a : Str) (pre : List (Str × Str)) (he : ∀ x ∈ pre, '=' ∉ x.1) (o : Opt) (ho : o ∈ p.options) (c : Char) (hc : o.short = some c)
    (hd : c ≠ '-') (h0 : o.name ≠ []) (hv : o.kind ≠ .flag) (hq : '=' ∉ o.name) (v : Str) (post : List Str) :
    p.parse (a :: (assigns pre ++ ['-', c] :: v :: post)) = p.parse (a :: (assigns pre ++ assign o.name v :: post)) := by
  refine parse_pre hn a pre he fun lk hl => ?_
  have hlk := short_lookup hu hl ho h0 hc
  have hk : (kindOf p o.name).any Kind.hasValue = true := by
    rw [kindOf_mem hn ho]
    cases hk : o.kind with
    | flag => exact absurd hk hv
    | value => rfl
  rw [plan_assign lk _ o.name v hq, plan.eq_def]
  simp [hd, hlk, h0, hk]

/-- `-c` at the end, for an option with a value, is an error; so is a short name of no option, anywhere. No option is changed by it. -/
theorem C87_short_wrong {p : Parser} (hn : Named p) (hu : Unambiguous p) (a : Str) (pre : List (Str × Str)) (he : ∀ x ∈ pre, '=' ∉ x.1) (c : Char) (hd : c ≠ '-') :
    (∀ o ∈ p.options, o.short = some c → o.name ≠ [] → o.kind ≠ .flag → (p.parse (a :: (assigns pre ++ [['-', c]]))).2 = false ∧ .needsValue o.name ∈ (p.parse (a :: (assigns pre ++ [['-', c]]))).1.errors ∧
      (p.parse (a :: (assigns pre ++ [['-', c]]))).1.options = (p.parse (a :: assigns pre)).1.options) ∧
    ((∀ o ∈ p.options, o.name ≠ [] → o.short ≠ some c) → ∀ post, (p.parse (a :: (assigns pre ++ ['-', c] :: post))).2 = false ∧
      .undefinedShort c ∈ (p.parse (a :: (assigns pre ++ ['-', c] :: post))).1.errors ∧
      (p.parse (a :: (assigns pre ++ ['-', c] :: post))).1.options = (p.parse (a :: (assigns pre ++ post))).1.options) := by
  obtain ⟨lk, hl⟩ := table hu
  have hgen : ∀ (ev : Ev) (e : Err) (u post : List Str), plan lk (kindOf p) u = ev :: plan lk (kindOf p) post → evErr (kindOf p) ev = some e →
      (∀ o ∈ p.options, ∀ E : List Ev, optStep (E.foldl optStep o) ev = E.foldl optStep o) →
      (p.parse (a :: (assigns pre ++ u))).2 = false ∧ e ∈ (p.parse (a :: (assigns pre ++ u))).1.errors ∧ (p.parse (a :: (assigns pre ++ u))).1.options = (p.parse (a :: (assigns pre ++ post))).1.options := by
    intro ev e u post h hev hst
    have h1 := parse_eq hn a (assigns pre ++ u) hl
    have h2 := parse_eq hn a (assigns pre ++ post) hl
    rw [plan_assigns lk _ pre he, h] at h1
    rw [plan_assigns lk _ pre he] at h2
    have hmem : ∀ E F : List Ev, e ∈ (E ++ ev :: F).filterMap (evErr (kindOf p)) := fun E F => List.mem_filterMap.2 ⟨ev, by simp, hev⟩
    refine ⟨?_, ?_, ?_⟩
    · rw [h1]
      simp only
      rw [List.isEmpty_eq_false_iff]
      intro hnil
      have := hmem (pre.map fun x => Ev.value x.1 x.2) (plan lk (kindOf p) post)
      rw [(List.append_eq_nil_iff.1 hnil).1] at this
      simp at this
    · rw [h1]
      exact List.mem_append_left _ (hmem _ _)
    · rw [h1, h2]
      simp only [List.foldl_append, List.foldl_cons]
      exact List.map_congr_left fun o ho => by rw [hst o ho]
  constructor
  · intro o ho hc h0 hv
    have hk : ∃ ty need read, o.kind = .value ty need read := by
      cases hk : o.kind with
      | flag => exact absurd hk hv
      | value ty need read => exact ⟨ty, need, read, rfl⟩
    obtain ⟨ty, need, read, hk⟩ := hk
    have := hgen (.flag o.name) (.needsValue o.name) [['-', c]] [] (by
      rw [plan.eq_def, plan.eq_def lk _ []]
      simp [hd, short_lookup hu hl ho h0 hc, h0]) (by
      unfold evErr
      simp only [kindOf_mem hn ho, hk, Kind.hasValue, if_true]) (fun x hx E => by
      have hs := foldStep_same x E
      generalize E.foldl optStep x = y at hs ⊢
      unfold optStep
      simp only
      split
      · rename_i e
        rw [hs.1] at e
        have hxo := named_eq hn hx ho e.symm
        unfold Opt.set0
        rw [hs.2.1, hxo, hk]
        rfl
      · rfl)
    rwa [List.append_nil] at this
  · intro hno post
    have hlk : lk.lookup c = none := by
      cases h : lk.lookup c with
      | none => rfl
      | some n =>
        rcases lookupTable_mem hl h with h' | ⟨o, ho, h1, h2, h3⟩
        · simp at h'
        · exact absurd h2 (hno o ho (by rw [h1]; exact h3))
    exact hgen (.err (.undefinedShort c)) (.undefinedShort c) (['-', c] :: post) post (by
      rw [plan_short lk _ c hd post fun n h => by rw [hlk] at h; cases h]
      unfold clusterEv
      rw [hlk]) rfl fun _ _ _ => rfl

/-- An argument without a dash at the front is kept, in its place, among the arguments that are not options, and does nothing else. -/
theorem C87_rest {p : Parser} (hn : Named p) (hu : Unambiguous p) (a : Str) (pre : List (Str × Str)) (he : ∀ x ∈ pre, '=' ∉ x.1) (x : Str) (hx : x.head? ≠ some '-') (post : List Str) :
    (p.parse (a :: (assigns pre ++ x :: post))).1.others = x :: (p.parse (a :: (assigns pre ++ post))).1.others ∧
    (p.parse (a :: (assigns pre ++ x :: post))).1.options = (p.parse (a :: (assigns pre ++ post))).1.options ∧
    (p.parse (a :: (assigns pre ++ x :: post))).1.errors = (p.parse (a :: (assigns pre ++ post))).1.errors ∧
    (p.parse (a :: (assigns pre ++ x :: post))).2 = (p.parse (a :: (assigns pre ++ post))).2 := by
  obtain ⟨lk, hl⟩ := table hu
  have h1 := parse_eq hn a (assigns pre ++ x :: post) hl
  have h2 := parse_eq hn a (assigns pre ++ post) hl
  rw [plan_assigns lk _ pre he, plan_other lk _ x hx post] at h1
  rw [plan_assigns lk _ pre he] at h2
  have hE : ∀ E F : List Ev, (E ++ Ev.other x :: F).filterMap (evErr (kindOf p)) = (E ++ F).filterMap (evErr (kindOf p)) := fun E F => by
    rw [List.filterMap_append, List.filterMap_append, List.filterMap_cons]
    rfl
  have hf : ∀ (E F : List Ev) (o : Opt), (E ++ Ev.other x :: F).foldl optStep o = (E ++ F).foldl optStep o := fun E F o => by
    rw [List.foldl_append, List.foldl_append, List.foldl_cons]
    rfl
  simp only [hE, hf] at h1
  refine ⟨?_, ?_, ?_, ?_⟩
  · rw [h1, h2]
    have h0 : (pre.map fun x => Ev.value x.1 x.2).filterMap evOther = [] := by
      rw [filterMap_nil]
      exact fun e he => by obtain ⟨x, -, rfl⟩ := List.mem_map.1 he; rfl
    simp only [List.filterMap_append, h0, List.nil_append, List.filterMap_cons]
    rfl
  · rw [h1, h2]
  · rw [h1, h2]
  · rw [h1, h2]

/-- A dash alone is skipped. -/
theorem C87_dash {p : Parser} (hn : Named p) (a : Str) (pre : List (Str × Str)) (he : ∀ x ∈ pre, '=' ∉ x.1) (post : List Str) :
    p.parse (a :: (assigns pre ++ ['-'] :: post)) = p.parse (a :: (assigns pre ++ post)) := parse_pre hn a pre he fun lk _ => plan_dash lk _ post

/-- `--name` at the end, for an option with a value, is an error. So is the name of no option, anywhere. The values given before are kept. -/
theorem C87_wrong {p : Parser} (hn : Named p) (hu : Unambiguous p) (a : Str) (pre : List (Str × Str)) (he : ∀ x ∈ pre, '=' ∉ x.1) (n : Str) (hq : '=' ∉ n) :
    ((∃ o ∈ p.options, o.name = n ∧ o.kind ≠ .flag) → (p.parse (a :: (assigns pre ++ [word n]))).2 = false ∧ .needsValue n ∈ (p.parse (a :: (assigns pre ++ [word n]))).1.errors ∧
      (p.parse (a :: (assigns pre ++ [word n]))).1.options = (p.parse (a :: assigns pre)).1.options) ∧
    ((∀ o ∈ p.options, o.name ≠ n) → ∀ post, (p.parse (a :: (assigns pre ++ word n :: post))).2 = false ∧ .undefined n ∈ (p.parse (a :: (assigns pre ++ word n :: post))).1.errors ∧
      (p.parse (a :: (assigns pre ++ word n :: post))).1.options = (p.parse (a :: (assigns pre ++ post))).1.options) := by
  obtain ⟨lk, hl⟩ := table hu
  have hgen : ∀ (e : Err) (u post : List Str), plan lk (kindOf p) u = .err e :: plan lk (kindOf p) post →
      (p.parse (a :: (assigns pre ++ u))).2 = false ∧ e ∈ (p.parse (a :: (assigns pre ++ u))).1.errors ∧ (p.parse (a :: (assigns pre ++ u))).1.options = (p.parse (a :: (assigns pre ++ post))).1.options := by
    intro e u post h
    have h1 := parse_eq hn a (assigns pre ++ u) hl
    have h2 := parse_eq hn a (assigns pre ++ post) hl
    rw [plan_assigns lk _ pre he, h] at h1
    rw [plan_assigns lk _ pre he] at h2
    have hmem : ∀ E F : List Ev, e ∈ (E ++ Ev.err e :: F).filterMap (evErr (kindOf p)) := fun E F => List.mem_filterMap.2 ⟨.err e, by simp, rfl⟩
    refine ⟨?_, ?_, ?_⟩
    · rw [h1]
      simp only
      rw [List.isEmpty_eq_false_iff]
      intro hnil
      have := hmem (pre.map fun x => Ev.value x.1 x.2) (plan lk (kindOf p) post)
      rw [(List.append_eq_nil_iff.1 hnil).1] at this
      simp at this
    · rw [h1]
      exact List.mem_append_left _ (hmem _ _)
    · rw [h1, h2]
      simp only [List.foldl_append, List.foldl_cons]
      rfl
  constructor
  · rintro ⟨o, ho, rfl, hv⟩
    have := hgen (.needsValue o.name) [word o.name] [] (by
      rw [plan_word_end lk _ o.name hq (kindOf_mem hn ho), show plan lk (kindOf p) [] = [] by rw [plan]]
      cases hk : o.kind with
      | flag => exact absurd hk hv
      | value => rfl)
    rwa [List.append_nil] at this
  · intro h post
    refine hgen (.undefined n) (word n :: post) post (plan_undefined lk _ n hq post ?_)
    cases hk : kindOf p n with
    | none => rfl
    | some k =>
      obtain ⟨o, h1, h2, -⟩ := kindOf_some hk
      exact absurd h2 (h o h1)

/-- Parsing the same arguments once more changes nothing, whether they are right or wrong. -/
theorem C87_again {p : Parser} (hn : Named p) (args : List Str) : (p.parse args).1.parse args = p.parse args := by
  cases args with
  | nil => rfl
  | cons a args =>
    have hprog : ∀ s : Str, (if (if s = [] then a else s) = [] then a else if s = [] then a else s) = if s = [] then a else s := by
      intro s
      by_cases h : s = []
      · simp only [h, if_true, ite_self]
      · simp only [h, if_false]
    cases hl : lookupTable p.options [] with
    | error c =>
      rw [parse_error p a args hl]
      simp only
      refine (parse_error ⟨p.options, p.ordered, if p.prog = [] then a else p.prog, [], [.ambiguous c]⟩ a args hl).trans ?_
      simp only [hprog]
    | ok lk =>
      have h1 := parse_eq hn a args hl
      have hn' := parse_named hn (a :: args)
      have hl' : lookupTable (p.parse (a :: args)).1.options [] = .ok lk := by
        rw [h1, lookupTable_congr _ fun o => ⟨(foldStep_same o _).1, (foldStep_same o _).2.2⟩]
        exact hl
      have hk : kindOf (p.parse (a :: args)).1 = kindOf p := kindOf_map p (fun o => (plan lk (kindOf p) args).foldl optStep o) (fun o => ⟨(foldStep_same o _).1, (foldStep_same o _).2.1⟩) _ (by rw [h1])
      rw [parse_eq hn' a args hl', hk]
      rw [h1]
      simp only [List.map_map, Function.comp_def, fold_twice, hprog]

/-- A parse with the program name only changes no option; it succeeds if the options that have to be given were given to an earlier parse. -/
theorem C87_keeps {p : Parser} (hn : Named p) (hu : Unambiguous p) (a : Str) : (p.parse [a]).1.options = p.options ∧ ((p.parse [a]).2 = true ↔ ∀ o ∈ p.options, Needed o → o.has = true) := by
  obtain ⟨lk, hl⟩ := table hu
  rw [parse_eq hn a [] hl, show plan lk (kindOf p) [] = [] by rw [plan]]
  simp only [List.foldl_nil, List.map_id', List.filterMap_nil, List.nil_append, List.isEmpty_iff, true_and]
  exact needErrs_nil p.options

/-- So after a parse that succeeds, a parse with the program name only succeeds too and leaves all values. -/
theorem C87_persist {p : Parser} (hn : Named p) (args : List Str) (h : (p.parse args).2 = true) (a : Str) : ((p.parse args).1.parse [a]).2 = true ∧ ((p.parse args).1.parse [a]).1.options = (p.parse args).1.options := by
  cases args with
  | nil => cases h
  | cons b args =>
    cases hl : lookupTable p.options [] with
    | error c =>
      rw [parse_error p b args hl] at h
      cases h
    | ok lk =>
      have h1 := parse_eq hn b args hl
      have hu : Unambiguous (p.parse (b :: args)).1 := by
        refine (lookupTable_inv (t := []) (lk := lk) ?_).1
        rw [h1, lookupTable_congr _ fun o => ⟨(foldStep_same o _).1, (foldStep_same o _).2.2⟩]
        exact hl
      obtain ⟨h2, h3⟩ := C87_keeps (parse_named hn (b :: args)) hu a
      refine ⟨h3.2 ?_, h2⟩
      rw [h1] at h ⊢
      simp only [List.isEmpty_iff, List.append_eq_nil_iff] at h
      exact (needErrs_nil _).1 h.2

/-- A name can be added once. The new option has its default and counts as not given; the others stay. -/
theorem C87_add (p : Parser) (name : Str) (short : Option Char) (kind : Kind) (dflt : Val) :
    ((∃ o ∈ p.options, o.name = name) → p.add name short kind dflt = .throw .cmdlineError) ∧
    ((∀ o ∈ p.options, o.name ≠ name) → Named p → ∃ q, p.add name short kind dflt = .ok q ∧ q.exist name = .ok false ∧ (∀ ty need read, kind = .value ty need read → q.get ty name = .ok dflt) ∧
      ∀ m, m ≠ name → q.find m = p.find m) := by
  constructor
  · rintro ⟨o, ho, h⟩
    unfold Parser.add
    rw [if_pos]
    unfold Parser.find
    rw [List.find?_isSome]
    exact ⟨o, ho, by simpa using h⟩
  · intro h hn
    have h0 : p.find name = none := List.find?_eq_none.2 fun o ho => by simpa using h o ho
    have ha : p.add name short kind dflt = .ok { p with options := insertOpt ⟨name, short, kind, false, dflt⟩ p.options, ordered := p.ordered ++ [name] } := by
      unfold Parser.add
      rw [h0]
      rfl
    have hq := add_named hn ha
    have hf := find_of_mem hq (o := ⟨name, short, kind, false, dflt⟩) ((insertOpt_perm _ _).mem_iff.2 (by simp))
    refine ⟨_, ha, ?_, fun ty need read hk => ?_, fun m hm => ?_⟩
    · unfold Parser.exist
      rw [hf]
    · unfold Parser.get
      rw [hf]
      simp only [hk, if_true]
    · cases hx : p.find m with
      | some x =>
        have := find_of_mem hq (o := x) ((insertOpt_perm _ _).mem_iff.2 (List.mem_cons_of_mem _ (find_mem hx)))
        rwa [find_name hx] at this
      | none =>
        refine List.find?_eq_none.2 fun x hx' => ?_
        rcases List.mem_cons.1 ((insertOpt_perm _ _).mem_iff.1 hx') with rfl | hx'
        · simpa using Ne.symm hm
        · exact List.find?_eq_none.1 hx x hx'

/-- In whatever way the parser was used, `get` returns a value of the type asked for if the option was added with that type, and throws otherwise. No name is there twice. -/
theorem C87_types {p : Parser} (h : Reach p) : Named p ∧ ∀ T n,
    ((∃ o ∈ p.options, o.name = n ∧ ∃ need read, o.kind = .value T need read) → ∃ v, p.get T n = .ok v ∧ v.ty = T) ∧
    ((¬∃ o ∈ p.options, o.name = n ∧ ∃ need read, o.kind = .value T need read) → p.get T n = .throw .cmdlineError) := by
  obtain ⟨hn, ht⟩ := reach_inv h
  refine ⟨hn, fun T n => ⟨?_, fun hno => ?_⟩⟩
  · rintro ⟨o, ho, rfl, need, read, hk⟩
    refine ⟨o.actual, ?_, (ht o ho T need read hk).1⟩
    unfold Parser.get
    rw [find_of_mem hn ho]
    simp only [hk, if_true]
  · unfold Parser.get
    cases hf : p.find n with
    | none => rfl
    | some o =>
      simp only
      cases hk : o.kind with
      | flag => rfl
      | value ty need read =>
        simp only
        rw [if_neg]
        rintro rfl
        exact hno ⟨o, find_mem hf, find_name hf, need, read, hk⟩

/-- Two options with one short name: every parse fails, and no option is set. -/
theorem C87_ambiguous {p : Parser} (h : ¬Unambiguous p) (args : List Str) : (p.parse args).2 = false ∧ (p.parse args).1.options = p.options := by
  cases args with
  | nil => exact ⟨rfl, rfl⟩
  | cons a args =>
    cases hl : lookupTable p.options [] with
    | error c =>
      rw [parse_error p a args hl]
      exact ⟨rfl, rfl⟩
    | ok lk => exact absurd (lookupTable_inv hl).1 h

/-- A short name stands for an option that exists. -/
theorem C87_lookup {p : Parser} {lk : List (Char × Str)} (hl : lookupTable p.options [] = .ok lk) (c : Char) (n : Str) (h : lk.lookup c = some n) :
    n ≠ [] ∧ ∃ o ∈ p.options, o.name = n ∧ o.short = some c := by
  rcases lookupTable_mem hl h with h | ⟨o, ho, h1, h2, h3⟩
  · simp at h
  · exact ⟨h3, o, ho, h1, h2⟩

/-! ### `parse_check` -/

/-- the parser with the option `--help` that `parse_check` adds -/
def WithHelp (p q : Parser) : Prop := p.add "help".toList (some '?') .flag (.bool false) = .ok q

theorem check_eq {p q : Parser} (hn : Named p) (hq : WithHelp p q) (args : List Str) :
    ∃ o ∈ q.options, o.name = "help".toList ∧ o.kind = .flag ∧ ∃ help, (q.parse args).1.exist "help".toList = .ok help ∧
      p.parseCheck args = .ok (if (args.length = 1 ∧ (q.parse args).2 = false) ∨ help = true then .exit 0 else if (q.parse args).2 = false then .exit 1 else .go (q.parse args).1) := by
  have hqn := add_named hn hq
  obtain ⟨h0, rfl⟩ := add_inv hq
  set q : Parser := { p with options := insertOpt ⟨"help".toList, some '?', .flag, false, .bool false⟩ p.options, ordered := p.ordered ++ ["help".toList] } with hqd
  have hm : (⟨"help".toList, some '?', .flag, false, .bool false⟩ : Opt) ∈ q.options := (insertOpt_perm _ _).mem_iff.2 (by simp)
  have hf : ∃ o, (q.parse args).1.find "help".toList = some o := by
    cases args with
    | nil => exact ⟨_, find_of_mem hqn hm⟩
    | cons a args =>
      cases hl : lookupTable q.options [] with
      | error c =>
        rw [parse_error q a args hl]
        exact ⟨_, find_of_mem hqn hm⟩
      | ok lk =>
        have := find_map q (q.parse (a :: args)).1 (fun o => (plan lk (kindOf q) args).foldl optStep o) (fun o => (foldStep_same o _).1) (by rw [parse_eq hqn a args hl]) "help".toList
        rw [find_of_mem hqn hm] at this
        exact ⟨_, this⟩
  obtain ⟨o, ho⟩ := hf
  have he : (q.parse args).1.exist "help".toList = .ok o.has := by
    unfold Parser.exist
    rw [ho]
  refine ⟨_, hm, rfl, rfl, o.has, he, ?_⟩
  unfold Parser.parseCheck
  rw [h0]
  simp only [Option.isSome_none, Bool.false_eq_true, if_false]
  rw [hq, Res.ok_bind, he, Res.ok_bind]
  split
  · rfl
  · split <;> rfl

/-- A program goes on after `parse_check` only with a command line without errors, every option that has to be given set, and no call for help. -/
theorem C87_check_go {p q : Parser} (hn : Named p) (hq : WithHelp p q) (hu : Unambiguous q) (args : List Str) (r : Parser) (h : p.parseCheck args = .ok (.go r)) :
    r = (q.parse args).1 ∧ r.errors = [] ∧ (∀ o ∈ r.options, Needed o → o.has = true) ∧ r.exist "help".toList = .ok false := by
  obtain ⟨o, -, -, -, help, h1, h2⟩ := check_eq hn hq args
  rw [h2, Res.ok.injEq] at h
  split at h
  · cases h
  · rename_i hne
    split at h
    · cases h
    · rename_i hok
      cases h
      have hb : help = false := by
        cases help with
        | false => rfl
        | true => exact absurd (Or.inr rfl) hne
      have hqn := add_named hn hq
      obtain ⟨lk, hl⟩ := table hu
      cases args with
      | nil => exact absurd rfl hok
      | cons a args =>
        have hp := parse_eq hqn a args hl
        have he : (q.parse (a :: args)).1.errors = [] := by
          rw [hp] at hok ⊢
          simpa using hok
        refine ⟨rfl, he, ?_, by rw [h1, hb]⟩
        rw [hp] at he ⊢
        exact (needErrs_nil _).1 (List.append_eq_nil_iff.1 he).2

/-- With `--help` the program ends with code 0, whatever else is given. -/
theorem C87_check_help {p q : Parser} (hn : Named p) (hq : WithHelp p q) (hu : Unambiguous q) (a : Str) (pre : List (Str × Str)) (he : ∀ x ∈ pre, '=' ∉ x.1) (post : List Str) :
    p.parseCheck (a :: (assigns pre ++ word "help".toList :: post)) = .ok (.exit 0) := by
  obtain ⟨o, ho, hon, hok, help, h1, h2⟩ := check_eq hn hq (a :: (assigns pre ++ word "help".toList :: post))
  have := (C87_flag (add_named hn hq) hu a pre he o ho hok (by rw [hon]; decide) post).1
  rw [hon, h1, Res.ok.injEq] at this
  rw [h2, if_pos (Or.inr this)]

theorem help_false {p q : Parser} (hn : Named p) (hq : WithHelp p q) (hu : Unambiguous q) (a : Str) (l : List (Str × Str)) (he : ∀ x ∈ l, '=' ∉ x.1) :
    (q.parse (a :: assigns l)).1.exist "help".toList = .ok false := by
  have hqn := add_named hn hq
  obtain ⟨lk, hl⟩ := table hu
  obtain ⟨h0, hqd⟩ := add_inv hq
  have hm : (⟨"help".toList, some '?', .flag, false, .bool false⟩ : Opt) ∈ q.options := by rw [hqd]; exact (insertOpt_perm _ _).mem_iff.2 (by simp)
  have hp := plan_assigns lk (kindOf q) l he []
  rw [List.append_nil, show plan lk (kindOf q) [] = [] by rw [plan], List.append_nil] at hp
  have hg : given (⟨"help".toList, some '?', .flag, false, .bool false⟩ : Opt) l = [] := by
    unfold given
    rw [filterMap_nil]
    intro x _
    rfl
  unfold Parser.exist
  rw [find_map q _ (fun o => (l.map fun x => Ev.value x.1 x.2).foldl optStep o) (fun o => (foldStep_same o _).1) (by rw [parse_eq hqn a _ hl, hp]), find_of_mem hqn hm, Option.map_some, fold_values, hg]
  rfl

/-- A command line of `--name=value` lets the program go on, or ends it with code 1; with the program name alone, a missing option that has to be given ends it with code 0. -/
theorem C87_check {p q : Parser} (hn : Named p) (hq : WithHelp p q) (hu : Unambiguous q) (a : Str) (l : List (Str × Str)) (he : ∀ x ∈ l, '=' ∉ x.1) :
    ((q.parse (a :: assigns l)).2 = true → p.parseCheck (a :: assigns l) = .ok (.go (q.parse (a :: assigns l)).1)) ∧
    ((q.parse (a :: assigns l)).2 = false → l ≠ [] → p.parseCheck (a :: assigns l) = .ok (.exit 1)) ∧
    ((q.parse [a]).2 = false → p.parseCheck [a] = .ok (.exit 0)) := by
  obtain ⟨o, ho, hon, hok, help, h1, h2⟩ := check_eq hn hq (a :: assigns l)
  have hf := help_false hn hq hu a l he
  rw [h1, Res.ok.injEq] at hf
  subst hf
  refine ⟨fun h => ?_, fun h hl => ?_, fun h => ?_⟩
  · rw [h2, h]
    simp
  · rw [h2, h, if_neg]
    · rfl
    · simp only [List.length_cons, and_true, Bool.false_eq_true, or_false]
      unfold assigns
      rw [List.length_map]
      intro h'
      exact hl (List.length_eq_zero_iff.1 (by omega))
  · obtain ⟨o, ho, hon, hok, help, h1, h2⟩ := check_eq hn hq [a]
    rw [h2, if_pos (Or.inl ⟨rfl, h⟩)]

/-! ### A command line in one text -/

/-- Arguments put into one text, with a backslash before each character and a space between, are read back, if the last is not empty. -/
theorem C87_join (p : Parser) (args : List Str) (h : args ≠ []) (hl : args.getLast h ≠ []) (h0 : ∀ s ∈ args, Char.ofNat 0 ∉ s) : p.parseLine (join args) = .ok (p.parse args) := by
  unfold Parser.parseLine Parser.parseVec
  rw [tokens_join args h hl, List.nil_append]
  simp only
  rw [if_neg h]
  congr 2
  conv_rhs => rw [← List.map_id args]
  refine List.map_congr_left fun s hs => ?_
  exact takeWhile_all _ fun c hc e => h0 s hs (e ▸ hc)

/-- Quotes keep spaces: a program name, an option and a value in quotes. -/
theorem C87_quote (p : Parser) (a n v : Str) (ha : ∀ c ∈ a, c ≠ '"' ∧ c ≠ '\\' ∧ c ≠ ' ' ∧ c ≠ Char.ofNat 0) (hn : ∀ c ∈ n, c ≠ '"' ∧ c ≠ '\\' ∧ c ≠ ' ' ∧ c ≠ Char.ofNat 0)
    (hv : ∀ c ∈ v, c ≠ '"' ∧ c ≠ '\\' ∧ c ≠ Char.ofNat 0) : p.parseLine (a ++ ' ' :: (assign n [] ++ '"' :: (v ++ ['"']))) = .ok (p.parse [a, assign n v]) := by
  have hs : ∀ c ∈ assign n [], c ≠ '"' ∧ c ≠ '\\' ∧ c ≠ ' ' ∧ c ≠ Char.ofNat 0 := by
    intro c hc
    simp only [assign, List.mem_cons, List.mem_append, List.not_mem_nil, or_false] at hc
    rcases hc with rfl | rfl | hc | rfl
    · decide
    · decide
    · exact hn c hc
    · decide
  have hx : assign n [] ++ v = assign n v := by simp [assign]
  have ht : tokens (a ++ ' ' :: (assign n [] ++ '"' :: (v ++ ['"']))) [] false [] = .ok [a, assign n v] := by
    rw [tokens_plain a (fun c hc => ⟨(ha c hc).1, (ha c hc).2.1⟩) false fun _ hm => (ha _ hm).2.2.1 rfl, tokens.eq_def]
    simp only [show (' ' : Char) ≠ '"' by decide, if_false, if_true, and_self, List.nil_append]
    rw [tokens_plain (assign n []) (fun c hc => ⟨(hs c hc).1, (hs c hc).2.1⟩) false fun _ hm => (hs _ hm).2.2.1 rfl, tokens.eq_def]
    simp only [if_true, Bool.not_false, List.nil_append]
    rw [tokens_plain v (fun c hc => ⟨(hv c hc).1, (hv c hc).2.1⟩) true fun h => by cases h]
    rw [hx]
    rw [tokens.eq_def]
    simp [tokens, assign]
  unfold Parser.parseLine Parser.parseVec
  rw [ht]
  simp only [List.map_cons, List.map_nil, reduceCtorEq, if_false]
  rw [takeWhile_all a fun c hc => (ha c hc).2.2.2, takeWhile_all (assign n v) fun c hc => ?_]
  rw [← hx, List.mem_append] at hc
  rcases hc with hc | hc
  · exact (hs c hc).2.2.2
  · exact (hv c hc).2.2

/-- The text without characters has no arguments; the first element of a vector without elements is taken. Two spaces make an argument without characters. A text that cannot be split adds its error to those
of the parse before. -/
theorem C87_line_faults (p : Parser) :
    p.parseLine [] = .ub ∧ (∀ n v, Named p → Unambiguous p → (p.parse [n, [], v]).1.others = [] :: (p.parse [n, v]).1.others) ∧
    p.parseLine "p  x".toList = .ok (p.parse ["p".toList, [], "x".toList]) ∧ p.parseLine "p \\".toList = .ok (p.err .backslash, false) ∧ p.parseLine "p \"x".toList = .ok (p.err .quote, false) := by
  refine ⟨rfl, fun n v hn hu => ?_, ?_, ?_, ?_⟩
  · exact (C87_rest hn hu n [] (by simp) [] (by simp) [v]).1
  · have : tokens "p  x".toList [] false [] = .ok ["p".toList, [], "x".toList] := by decide +kernel
    unfold Parser.parseLine Parser.parseVec
    rw [this]
    rfl
  · have : tokens "p \\".toList [] false [] = .error .backslash := by decide +kernel
    unfold Parser.parseLine
    rw [this]
  · have : tokens "p \"x".toList [] false [] = .error .quote := by decide +kernel
    unfold Parser.parseLine
    rw [this]

/-! ### Values -/

/-- An integer option takes white space, a sign and digits up to the end, within the range of `int`, and has the value they denote; nothing else. -/
theorem C87_int (s : Str) (v : Val) : readInt s = some v ↔ ∃ n : Int, v = .int n ∧ Denotes s n ∧ -2 ^ 31 ≤ n ∧ n < 2 ^ 31 := by
  unfold readInt
  rw [Option.map_eq_some_iff]
  constructor
  · rintro ⟨n, h, rfl⟩
    obtain ⟨h1, h2, h3⟩ := (readInteger_iff _ _ _ _).1 h
    exact ⟨n, rfl, h1, by omega, by omega⟩
  · rintro ⟨n, rfl, h1, h2, h3⟩
    exact ⟨n, (readInteger_iff _ _ _ _).2 ⟨h1, by omega, by omega⟩, rfl⟩

/-- A truth value is the integer 0 or 1; `true` and `false` cannot be read. -/
theorem C87_bool (s : Str) (v : Val) : readBool s = some v ↔ v = .bool false ∧ Denotes s 0 ∨ v = .bool true ∧ Denotes s 1 := by
  unfold readBool
  rw [Option.bind_eq_some_iff]
  constructor
  · rintro ⟨n, h, h'⟩
    obtain ⟨h1, -⟩ := (readInteger_iff _ _ _ _).1 h
    split at h'
    · rename_i e
      subst e
      exact Or.inl ⟨(Option.some.inj h').symm, h1⟩
    · split at h'
      · rename_i e
        subst e
        exact Or.inr ⟨(Option.some.inj h').symm, h1⟩
      · cases h'
  · rintro (⟨rfl, h⟩ | ⟨rfl, h⟩)
    · exact ⟨0, (readInteger_iff _ _ _ _).2 ⟨h, by decide, by decide⟩, rfl⟩
    · exact ⟨1, (readInteger_iff _ _ _ _).2 ⟨h, by decide, by decide⟩, rfl⟩

/-- The decimal digits of an integer are read back. -/
theorem C87_int_print (n : Int) (h1 : -2 ^ 31 ≤ n) (h2 : n < 2 ^ 31) (ds : Str) (hd : ds.map Char.toNat = ((Nat.digits 10 n.natAbs).reverse.map (48 + ·))) (h0 : n ≠ 0) :
    readInt ((if n < 0 then ['-'] else []) ++ ds) = some (.int n) := by
  rw [C87_int]
  refine ⟨n, rfl, ?_, h1, h2⟩
  have hne : ds ≠ [] := by
    rintro rfl
    have : (Nat.digits 10 n.natAbs) = [] := by simpa using hd.symm
    rw [Nat.digits_eq_nil_iff_eq_zero] at this
    exact h0 (Int.natAbs_eq_zero.1 this)
  have hdig : ∀ c ∈ ds, c.isDigit = true := by
    intro c hc
    have hm : c.toNat ∈ ds.map Char.toNat := List.mem_map.2 ⟨c, hc, rfl⟩
    rw [hd, List.mem_map] at hm
    obtain ⟨d, hd1, hd2⟩ := hm
    have hlt := Nat.digits_lt_base (by norm_num) (List.mem_reverse.1 hd1)
    unfold Char.isDigit
    simp only [Bool.and_eq_true, decide_eq_true_eq, ge_iff_le, UInt32.le_iff_toNat_le]
    have hcv : c.val.toNat = c.toNat := rfl
    rw [hcv, ← hd2]
    exact ⟨by show 48 ≤ _; omega, by show _ ≤ 57; omega⟩
  have hval : decimal ds = n.natAbs := by
    unfold decimal
    have : ds.reverse.map (fun c => c.toNat - 48) = Nat.digits 10 n.natAbs := by
      have : (ds.map Char.toNat).reverse.map (fun k => k - 48) = Nat.digits 10 n.natAbs := by
        rw [hd, ← List.map_reverse, List.reverse_reverse, List.map_map]
        conv_rhs => rw [← List.map_id (Nat.digits 10 n.natAbs)]
        refine List.map_congr_left fun d _ => ?_
        simp
      rw [← List.map_reverse, List.map_map] at this
      exact this
    rw [this, Nat.ofDigits_digits]
  refine ⟨[], if n < 0 then ['-'] else [], ds, by simp, by simp, hne, hdig, ?_⟩
  rw [hval]
  by_cases hneg : n < 0
  · rw [if_pos hneg]
    exact Or.inr ⟨rfl, by omega⟩
  · rw [if_neg hneg]
    exact Or.inl ⟨Or.inl rfl, by omega⟩

/-! ### A parser that meets the hypotheses -/

namespace Example

/-- an integer that has to be given, a text, a flag -/
def p : Parser := ⟨[⟨"Z".toList, some 'z', .value .int true readInt, false, .int 0⟩, ⟨"method".toList, none, .value .str false readStr, false, .str "HF".toList⟩, ⟨"verbose".toList, some 'v', .flag, false, .bool false⟩],
  ["Z".toList, "method".toList, "verbose".toList], [], [], []⟩

theorem named : Named p := by
  unfold Named p
  simp

theorem unambiguous : Unambiguous p := by
  unfold Unambiguous p
  simp

theorem add_ok {q : Parser} {name : Str} {short : Option Char} {kind : Kind} {dflt : Val} (h : ∀ o ∈ q.options, o.name ≠ name) :
    q.add name short kind dflt = .ok { q with options := insertOpt ⟨name, short, kind, false, dflt⟩ q.options, ordered := q.ordered ++ [name] } := by
  unfold Parser.add
  rw [show q.find name = none from List.find?_eq_none.2 fun o ho => by simpa using h o ho]
  rfl

/-- It can be made. -/
theorem reach : Reach p := by
  have t1 : Typed ⟨"Z".toList, some 'z', .value .int true readInt, false, .int 0⟩ := by
    rintro ty need read h
    cases h
    exact ⟨rfl, fun s v hv => by obtain ⟨n, -, rfl⟩ := Option.map_eq_some_iff.1 hv; rfl⟩
  have t2 : Typed ⟨"method".toList, none, .value .str false readStr, false, .str "HF".toList⟩ := by
    rintro ty need read h
    cases h
    exact ⟨rfl, fun s v hv => by cases hv; rfl⟩
  have t3 : Typed ⟨"verbose".toList, some 'v', .flag, false, .bool false⟩ := fun ty need read h => by cases h
  have r1 := Reach.add Reach.empty t1 (add_ok (by simp [Parser.empty]))
  have r2 := Reach.add r1 t2 (add_ok (by simp [Parser.empty, insertOpt]))
  have l1 : ¬("method".toList < "Z".toList) := by decide +kernel
  have l2 : ¬("verbose".toList < "Z".toList) := by decide +kernel
  have l3 : ¬("verbose".toList < "method".toList) := by decide +kernel
  simp only [Parser.empty, insertOpt, l1, if_false] at r2
  have r3 := Reach.add r2 t3 (add_ok (by simp))
  simp only [insertOpt, l2, l3, if_false] at r3
  exact r3

def hf : Str := "LDA".toList

/-- `--Z=7 --method=LDA` is accepted, and a later parse without arguments then succeeds although `Z` has to be given. -/
theorem persists : (p.parse ["x".toList, assign "Z".toList "7".toList, assign "method".toList hf]).2 = true ∧ (p.parse ["x".toList]).2 = false ∧
    ((p.parse ["x".toList, assign "Z".toList "7".toList, assign "method".toList hf]).1.parse ["x".toList]).2 = true := by
  have h := C87_assign named unambiguous "x".toList [("Z".toList, "7".toList), ("method".toList, hf)] (by simp)
  have h7 : readInt "7".toList = some (.int 7) := by decide +kernel
  have h1 : (p.parse ["x".toList, assign "Z".toList "7".toList, assign "method".toList hf]).2 = true := by
    refine h.2.1.2 ⟨?_, ?_⟩
    · intro x hx
      simp only [List.mem_cons, List.not_mem_nil, or_false] at hx
      rcases hx with rfl | rfl
      · exact ⟨_, List.mem_cons_self, rfl, _, _, _, rfl, by rw [h7]; rfl⟩
      · exact ⟨_, List.mem_cons_of_mem _ List.mem_cons_self, rfl, _, _, _, rfl, rfl⟩
    · rintro o ho ⟨ty, read, hk⟩
      simp only [p, List.mem_cons, List.not_mem_nil, or_false] at ho
      rcases ho with rfl | rfl | rfl
      · exact Or.inr ⟨"7".toList, by decide +kernel⟩
      · cases hk
      · cases hk
  refine ⟨h1, ?_, ?_⟩
  · rw [Bool.eq_false_iff]
    intro h'
    have := (C87_keeps named unambiguous "x".toList).2.1 h' _ List.mem_cons_self ⟨.int, readInt, rfl⟩
    cases this
  · exact (C87_persist named _ h1 _).1

example : ∃ q, WithHelp p q ∧ Unambiguous q := by
  have h := add_ok (q := p) (name := "help".toList) (short := some '?') (kind := .flag) (dflt := .bool false) (by simp [p])
  refine ⟨_, h, ?_⟩
  unfold Unambiguous
  have hs : Std.Symm fun a b : Opt => a.name ≠ [] → b.name ≠ [] → a.short = none ∨ a.short ≠ b.short := ⟨fun x y h hy hx => by
    rcases h hx hy with h | h
    · by_cases hys : y.short = none
      · exact Or.inl hys
      · exact Or.inr (by rw [h]; exact hys)
    · exact Or.inr (Ne.symm h)⟩
  rw [(insertOpt_perm _ _).pairwise_iff (fun {a b} h => hs.symm a b h)]
  exact List.Pairwise.cons (by simp [p]) unambiguous

/-- `-vz 7` is `-v -z 7` is `-v --Z=7`. -/
example : p.parse ["x".toList, "-vz".toList, "7".toList] = p.parse ["x".toList, "-v".toList, "-z".toList, "7".toList] :=
  C87_cluster named "x".toList [] (by simp) ['v', 'z'] (by simp) (by simp) (by simp [p]) ["7".toList]

example : p.parse ["x".toList, "-z".toList, "-7".toList] = p.parse ["x".toList, assign "Z".toList "-7".toList] :=
  C87_short_value named unambiguous "x".toList [] (by simp) _ List.mem_cons_self 'z' rfl (by decide) (by simp) (by simp) (by simp) "-7".toList []

example : p.parse ["x".toList, word "Z".toList, "-7".toList] = p.parse ["x".toList, assign "Z".toList "-7".toList] :=
  C87_two_words named "x".toList [] (by simp) _ List.mem_cons_self (by simp) (by simp) "-7".toList []

example : ¬Unambiguous ⟨[⟨"a".toList, some 'x', .flag, false, .bool false⟩, ⟨"b".toList, some 'x', .flag, false, .bool false⟩], [], [], [], []⟩ := by
  unfold Unambiguous
  simp

example : Denotes " +042".toList 42 := ⟨[' '], ['+'], ['0', '4', '2'], by decide, by decide, by decide, by decide, Or.inl ⟨Or.inr rfl, by decide +kernel⟩⟩

example : readInt ((if (-17 : Int) < 0 then ['-'] else []) ++ "17".toList) = some (.int (-17)) := C87_int_print (-17) (by norm_num) (by norm_num) "17".toList (by decide +kernel) (by norm_num)

end Example

end Cmd
end HelFEM
