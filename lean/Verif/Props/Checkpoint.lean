import Verif.Lemmas.CheckpointHist
import Verif.Props.Factory

/-!
# C30, C31, C32, C33, C53: checkpoint files
-/

namespace HelFEM
namespace Ckpt

variable {F : Type} (env : Env F)

theorem construct_spec {file : Option (Store F)} {w t : Bool} {s : St F} (h : construct file w t = (.ok (), s)) :
    s.WF ∧ s.file.isSome = true ∧ s.writemode = w ∧ (∀ k old, (file.getD fun _ => none) k = old → s.store k = if w = true ∧ t = true then none else old) ∧
      (w = false → s.file = file) := by
  unfold construct at h
  split_ifs at h with h1
  · obtain ⟨-, rfl⟩ := Prod.mk.inj h
    refine ⟨fun hh => rfl, rfl, rfl, ?_, fun hw => ?_⟩
    · rintro k old rfl
      rcases h1.2 with ht | hf
      · simp [St.store, h1.1, ht]
      · cases file with
        | none => simp [St.store]
        | some _ => simp at hf
    · rw [hw] at h1; exact absurd h1.1 (by decide)
  · unfold openF at h
    cases file with
    | none => simp at h
    | some st =>
      simp at h
      subst h
      refine ⟨fun hh => rfl, rfl, rfl, ?_, fun _ => rfl⟩
      rintro k old rfl
      cases w <;> cases t <;> simp_all [St.store]

theorem hist_spec {s s' : St F} {tr : List (Event F)} (h : Hist env s tr s') (hwf : s.WF) :
    s'.WF ∧ (s.file.isSome = true → s'.file.isSome = true) ∧ ∀ k, s'.store k = tr.foldl (effect env k) (s.store k) := by
  induction h with
  | nil s => exact ⟨hwf, id, fun _ => rfl⟩
  | @call s s1 s2 op r tr hop hr _ ih =>
    obtain ⟨a, _, c, d, _, _⟩ := run_spec env hwf op r s1 hop hr
    obtain ⟨x, y, z⟩ := ih a
    exact ⟨x, fun hf => y (by rw [c]; exact hf), fun k => by rw [z, d, List.foldl_cons]⟩
  | @session s s1 s2 w t tr hc _ ih =>
    obtain ⟨a, b, _, d, _⟩ := construct_spec hc
    obtain ⟨x, y, z⟩ := ih a
    refine ⟨x, fun _ => y b, fun k => ?_⟩
    rw [z, d k (s.store k) rfl, List.foldl_cons]
    cases w <;> cases t <;> rfl

/-- **C30, contents.** After any history of calls, successful or not, and reopenings, the entry under each link name is what the last
successful write of that entry stored, unless it was removed or the file truncated since; calls on other entries leave it alone. -/
theorem C30_last_written {s s' : St F} {tr : List (Event F)} (h : Hist env s tr s') (hwf : s.WF) (k : String) :
    s'.store k = tr.foldl (effect env k) (s.store k) := (hist_spec env h hwf).2.2 k

theorem foldl_untouched {k : String} : ∀ (tr : List (Event F)) (o : Option (Dataset F)), (∀ e ∈ tr, ¬ Touches env k e) → tr.foldl (effect env k) o = o := by
  intro tr
  induction tr with
  | nil => intro o _; rfl
  | cons e tr ih =>
    intro o h
    rw [List.foldl_cons]
    have he : effect env k o e = o := by
      have := h e (by simp)
      unfold effect
      split
      · next n v => exact if_neg (by simpa [Touches] using this)
      · next n => exact if_neg (by simpa [Touches] using this)
      · exact absurd trivial this
      · rfl
    rw [he]; exact ih o fun e' he' => h e' (by simp [he'])

/-- **C30, reading back (partial).** In any history, if `v` was successfully written under `n` and since then there was no successful write or removal
of that entry and no truncation, then reading it with the type of `v` returns `v`, whatever else happened and whether the file is open or closed, and `exist` says yes.
Missing: strings with embedded zero bytes, see `C30_nul_truncates`, and empty `std::vector`s, whose write is undefined. -/
theorem C30_read_back_partial {s s' : St F} {pre post : List (Event F)} {n n' k : String} {v : Value F} (hwf : s.WF) (hf : s.file.isSome = true)
    (h : Hist env s (pre ++ .call (.write n v) true :: post) s') (hn : env.resolve n = some k) (hn' : env.resolve n' = some k)
    (hpost : ∀ e ∈ post, ¬ Touches env k e) (hv : Storable env v) :
    (read env n' v.kind s').1 = .ok v ∧ (exist env n' s').1 = .ok true := by
  obtain ⟨hw, hf', hs⟩ := hist_spec env h hwf
  have hst : s'.store k = some (encode v) := by
    rw [hs, List.foldl_append, List.foldl_cons, foldl_untouched env post _ hpost]
    simp [effect, hn]
  refine ⟨read_stored env (hf' hf) hn' hv hst, ?_⟩
  have he : existsIn env s'.store n' = true := by simp [existsIn, hn', hst]
  rcases Bool.eq_false_or_eq_true s'.opend with ho | ho
  · rw [exist_open env ho, he]
  · rw [exist_closed env ho (hf' hf), he]

/-- **C30, absence.** A name HDF5 can resolve is reported to exist exactly if it has an entry, and reading an absent entry throws for every type. -/
theorem C30_exist {s : St F} (hf : s.file.isSome = true) {n k : String} (hn : env.resolve n = some k) :
    (exist env n s).1 = .ok (s.store k).isSome ∧ (s.store k = none → ∀ kd, (read env n kd s).1 = .throw .runtimeError) := by
  have he : existsIn env s.store n = (s.store k).isSome := by simp [existsIn, hn]
  refine ⟨?_, fun hk kd => ?_⟩
  · rcases Bool.eq_false_or_eq_true s.opend with ho | ho
    · rw [exist_open env ho, he]
    · rw [exist_closed env ho hf, he]
  · rw [read_fst env hf]
    have : ∀ kd, found env s.store n kd = .throw .runtimeError := by
      intro kd; simp [found, lookup, hn, hk]
    cases kd <;> simp [this]

/-- A name HDF5 cannot resolve is reported to exist although reading it throws. -/
theorem C30_unresolvable_exists {s : St F} (hf : s.file.isSome = true) {n : String} (hn : env.resolve n = none) (kd : Kind) :
    (exist env n s).1 = .ok true ∧ (read env n kd s).1 = .throw .runtimeError := by
  have he : existsIn env s.store n = true := by simp [existsIn, hn]
  constructor
  · rcases Bool.eq_false_or_eq_true s.opend with ho | ho
    · rw [exist_open env ho, he]
    · rw [exist_closed env ho hf, he]
  · rw [read_fst env hf]
    have : ∀ kd, found env s.store n kd = .throw .runtimeError := by
      intro kd; simp [found, lookup, hn]
    cases kd <;> simp [this]

/-- A string with an embedded zero byte reads back cut off: "a\0b" gives "a". -/
theorem C30_nul_truncates {s : St F} (hf : s.file.isSome = true) {n k : String} (hn : env.resolve n = some k) (hs : s.store k = some (encode (.str [97, 0, 98]))) :
    (read env n .str s).1 = .ok (.str [97]) := by
  rw [read_fst env hf]
  simp [found, lookup, hn, hs, encode, decode, readI, clip, IType.lo, IType.hi]

/-- The type is not always checked: a 2x1 matrix of reals is read as integers without an error, and comes out as a 1x2 matrix. -/
theorem C30_imat_unchecked {s : St F} (hf : s.file.isSome = true) {n k : String} (hn : env.resolve n = some k) (x : F)
    (hs : s.store k = some (encode (.mat .double 2 1 fun _ _ => x))) : ∃ m, (read env n .imat s).1 = .ok (.imat 1 2 m) := by
  rw [read_fst env hf]
  simp [found, lookup, hn, hs, encode, decode]

/-- The number of dimensions an overload reads or writes. -/
def rankOf : Kind → Nat
  | .mat _ => 2 | .vec _ => 2 | .imat => 2
  | .arr _ => 1 | .harr => 1 | .str => 1
  | .scalar _ => 0 | .int => 0 | .hsize => 0 | .bool => 0

/-- **C30, shapes.** An entry last written as a scalar, array or matrix cannot be read as one of the other shapes: every such read throws. -/
theorem C30_wrong_shape {s : St F} (hf : s.file.isSome = true) {n k : String} (hn : env.resolve n = some k) (v : Value F) (hs : s.store k = some (encode v))
    (kd : Kind) (hk : rankOf kd ≠ rankOf v.kind) : (read env n kd s).1 = .throw .runtimeError := by
  rw [read_fst env hf]
  cases v <;> cases kd <;> simp [rankOf, Value.kind] at hk <;> simp [found, lookup, hn, hs, encode, decode, readF, readI]

/-- **C31 (partial).** A call other than `open` and `close` leaves the file open or closed as it was, if the call succeeds, or if the file was open, or if it
is neither a read nor a write to a name HDF5 cannot resolve. Missing: failing reads on a closed file. -/
theorem C31_restores_partial {s s' : St F} (hwf : s.WF) (op : Op F) (r : Res (Out F)) (h : op.run env s = (r, s')) (hr : r ≠ .ub)
    (h1 : op ≠ .openFile) (h2 : op ≠ .closeFile)
    (h3 : r.isOk = true ∨ s.opend = true ∨ (∀ n k, op ≠ .read n k) ∧ ∀ n v, op = .write n v → (env.resolve n).isSome = true) : s'.opend = s.opend := by
  obtain ⟨_, _, _, _, e, _⟩ := run_spec env hwf op r s' h hr
  obtain ⟨e1, e2⟩ := e ⟨h1, h2⟩
  rcases h3 with h3 | h3 | ⟨h3, h4⟩
  · exact e2 h3
  · rw [h3, e1 h3]
  · by_cases hk : r.isOk = true
    · exact e2 hk
    rcases Bool.eq_false_or_eq_true s.opend with ho | ho
    · rw [ho, e1 ho]
    cases op with
    | openFile => exact absurd rfl h1
    | closeFile => exact absurd rfl h2
    | flush => obtain ⟨rfl, rfl⟩ := Prod.mk.inj h; rfl
    | read n k => exact absurd rfl (h3 n k)
    | exist n =>
      simp only [Op.run] at h
      rw [bind_apply] at h
      rcases Option.eq_none_or_eq_some s.file with hf | ⟨st, hf⟩
      · unfold exist at h
        rw [bind_throw (openIfClosed_nofile ho hf)] at h
        obtain ⟨rfl, rfl⟩ := Prod.mk.inj h; rfl
      · rw [exist_closed env ho (by simp [hf])] at h
        obtain ⟨rfl, rfl⟩ := Prod.mk.inj h; rfl
    | remove n =>
      simp only [Op.run] at h
      rw [bind_apply] at h
      rcases Bool.eq_false_or_eq_true s.writemode with hw | hw
      · rcases Option.eq_none_or_eq_some s.file with hf | ⟨st, hf⟩
        · rw [remove_nofile env hw ho hf] at h
          obtain ⟨rfl, rfl⟩ := Prod.mk.inj h; rfl
        · rw [remove_closed env hw ho (by simp [hf])] at h
          obtain ⟨rfl, rfl⟩ := Prod.mk.inj h; rfl
      · rw [remove_readonly env hw] at h
        obtain ⟨rfl, rfl⟩ := Prod.mk.inj h; rfl
    | write n v =>
      obtain ⟨k, hk'⟩ := Option.isSome_iff_exists.1 (h4 n v rfl)
      simp only [Op.run] at h
      rw [bind_apply] at h
      rcases Bool.eq_false_or_eq_true s.writemode with hw | hw
      · rcases Option.eq_none_or_eq_some s.file with hf | ⟨st, hf⟩
        · rw [write_nofile env hw ho hf] at h
          obtain ⟨rfl, rfl⟩ := Prod.mk.inj h; rfl
        · have hf' : s.file.isSome = true := by simp [hf]
          rcases Bool.eq_false_or_eq_true v.addressable with hv | hv
          · rw [write_closed env hw ho hf' hk' hv] at h
            obtain ⟨rfl, rfl⟩ := Prod.mk.inj h; rfl
          · have hu := write_ub env hw hf' hk' hv
            rcases hq : write env n v s with ⟨q, s1⟩
            rw [hq] at hu h
            simp only at hu
            subst hu
            obtain ⟨rfl, rfl⟩ := Prod.mk.inj h
            exact absurd rfl hr
      · rw [write_readonly env hw] at h
        obtain ⟨rfl, rfl⟩ := Prod.mk.inj h; rfl

/-- **C31 is violated by failing reads.** Reading a missing entry (any type) of a closed file throws and leaves the file open;
the next explicit `open` then throws. -/
theorem C31_missing_entry_leaves_open {s : St F} (ho : s.opend = false) (hf : s.file.isSome = true) {n k : String} (hn : env.resolve n = some k)
    (hs : s.store k = none) (kd : Kind) :
    read env n kd s = (.throw .runtimeError, { s with opend := true }) ∧ (Op.run env (.openFile) { s with opend := true }).1 = .throw .runtimeError := by
  have hr : ∀ kd, readRaw env n kd s = (.throw .runtimeError, { s with opend := true }) := by
    intro kd
    have : found env s.store n kd = .throw .runtimeError := by simp [found, lookup, hn, hs]
    rw [readRaw_closed env ho hf, this]; rfl
  constructor
  · unfold read
    cases kd with
    | vec t => simp only; rw [bind_throw (hr _)]
    | _ => exact hr _
  · simp only [Op.run]
    obtain ⟨a, b, c⟩ := s
    cases c <;> simp [bind_apply, openF] at hf ⊢

/-- **C31 is violated by reads of the wrong type**, e.g. reading a stored integer as a real matrix. -/
theorem C31_wrong_type_leaves_open {s : St F} (ho : s.opend = false) (hf : s.file.isSome = true) {n k : String} (hn : env.resolve n = some k) (z : Int)
    (hs : s.store k = some (encode (.int z))) (t : FType) :
    read env n (.mat t) s = (.throw .runtimeError, { s with opend := true }) := by
  have : found env s.store n (.mat t) = .throw .runtimeError := by simp [found, lookup, hn, hs, encode, decode, readF]
  unfold read
  simp only
  rw [readRaw_closed env ho hf, this]; rfl

/-- **C32, rejection.** Without write permission `write` and `remove` throw and change nothing, for every name and value. -/
theorem C32_rejects {s : St F} (h : s.writemode = false) (n : String) (v : Value F) :
    write env n v s = (.throw .runtimeError, s) ∧ remove env n s = (.throw .runtimeError, s) :=
  ⟨write_readonly env h n v, remove_readonly env h n⟩

/-- **C32, histories.** No history of calls on a checkpoint opened without write permission, reopened without write permission any number of times, changes the file. -/
theorem C32_unchanged {s s' : St F} {tr : List (Event F)} (h : Hist env s tr s') (hwf : s.WF) (hw : s.writemode = false) (htr : ∀ e ∈ tr, ReadOnly e) :
    s'.file = s.file := by
  induction h with
  | nil s => rfl
  | @call s s1 s2 op r tr hop hr _ ih =>
    obtain ⟨a, b, _, _, _, f⟩ := run_spec env hwf op r s1 hop hr
    rw [ih a (by rw [b, hw]) (fun e he => htr e (by simp [he])), f hw]
  | @session s s1 s2 w t tr hc _ ih =>
    have hw' : w = false := htr (.session w t) (by simp)
    obtain ⟨a, _, c, _, e⟩ := construct_spec hc
    rw [ih a (by rw [c, hw']) (fun e he => htr e (by simp [he])), e hw']
    rfl

/-! ### C53: a crash in the middle of an overwrite -/

/-- All calls together are the effect of `write`. -/
theorem C53_complete (k : String) (v : Value F) (st : Store F) : crashAfter env k (encode v) st 3 = put k v st := by
  funext x
  simp only [crashAfter, overwriteCalls, putCalls, List.take, List.foldl_cons, List.foldl_nil, put]
  split <;> rfl

/-- **C53 (partial).** At every crash point of an overwrite all other entries are intact, and the entry itself is the old one, absent, filled with zeros, or the new one.
Missing: that it is the old or the new one, see `C53_old_value_lost` and `C53_zeros_read_back`. -/
theorem C53_crash_partial (k : String) (ds : Dataset F) (st : Store F) (j : Nat) :
    (∀ x, x ≠ k → crashAfter env k ds st j x = st x) ∧
    (crashAfter env k ds st j k = st k ∨ crashAfter env k ds st j k = none ∨ crashAfter env k ds st j k = some (blank env ds) ∨
      crashAfter env k ds st j k = some ds) := by
  have h : j = 0 ∨ j = 1 ∨ j = 2 ∨ ∃ m, j = m + 3 := by
    rcases j with _ | _ | _ | m
    · exact .inl rfl
    · exact .inr (.inl rfl)
    · exact .inr (.inr (.inl rfl))
    · exact .inr (.inr (.inr ⟨m, rfl⟩))
  rcases h with rfl | rfl | rfl | ⟨m, rfl⟩
  · exact ⟨fun x _ => rfl, .inl rfl⟩
  · exact ⟨fun x hx => by simp [crashAfter, overwriteCalls, hx], .inr (.inl (by simp [crashAfter, overwriteCalls]))⟩
  · exact ⟨fun x hx => by simp [crashAfter, overwriteCalls, putCalls, hx], .inr (.inr (.inl (by simp [crashAfter, overwriteCalls, putCalls])))⟩
  · exact ⟨fun x hx => by simp [crashAfter, overwriteCalls, putCalls, hx], .inr (.inr (.inr (by simp [crashAfter, overwriteCalls, putCalls])))⟩

/-- **C53 is violated: the old value can be lost.** After a crash right behind the deletion the next run finds no entry. -/
theorem C53_old_value_lost (n k : String) (hn : env.resolve n = some k) (v : Value F) (st : Store F) (kd : Kind) (s : St F)
    (hc : construct (some (crashAfter env k (encode v) st 1)) false false = (.ok (), s)) : (read env n kd s).1 = .throw .runtimeError := by
  obtain ⟨_, hf, _, _, hs⟩ := construct_spec hc
  refine (C30_exist env hf hn).2 ?_ kd
  rw [St.store, hs rfl]
  simp [crashAfter, overwriteCalls]

/-- **C53 is violated: zeros can be read back.** After a crash between creating and filling the dataset of a matrix the next run reads the zero matrix of the new shape without an error. -/
theorem C53_zeros_read_back (n k : String) (hn : env.resolve n = some k) (t : FType) (r c : Nat) (m : Fin r → Fin c → F) (hz : env.fconv t env.zero = env.zero)
    (st : Store F) (s : St F) (hc : construct (some (crashAfter env k (encode (.mat t r c m)) st 2)) false false = (.ok (), s)) :
    (read env n (.mat t) s).1 = .ok (.mat t r c fun _ _ => env.zero) := by
  obtain ⟨_, hf, _, _, hs⟩ := construct_spec hc
  have hst : s.store k = some (encode (.mat t r c fun _ _ => env.zero)) := by
    rw [St.store, hs rfl]
    simp [crashAfter, overwriteCalls, putCalls, blank, encode, colMajor_map]
  exact read_stored env hf hn (v := .mat t r c fun _ _ => env.zero) (fun _ _ => hz) hst

/-! ### C33: saving and loading basis sets -/

/-- the contents after a list of writes -/
theorem writeAll_spec {s : St F} (hw : s.writemode = true) (ho : s.opend = true) : ∀ (l : List (String × Value F)),
    (∀ e ∈ l, env.resolve e.1 = some e.1) → (∀ e ∈ l, e.2.addressable = true) →
    writeAll env l s = (.ok (), { s with file := s.file.map fun st => l.foldl (fun st e => put e.1 e.2 st) st }) := by
  intro l
  induction l generalizing s with
  | nil =>
    intro _ _
    obtain ⟨a, b, c⟩ := s
    cases c <;> rfl
  | cons e l ih =>
    intro h1 h2
    obtain ⟨n, v⟩ := e
    rw [writeAll, bind_ok (write_open env hw ho (h1 (n, v) (by simp)) (h2 (n, v) (by simp)))]
    rw [ih (s := { s with file := s.file.map (put n v) }) hw ho (fun e he => h1 e (by simp [he])) (fun e he => h2 e (by simp [he]))]
    simp only [Option.map_map, List.foldl_cons]
    rfl

theorem foldl_put_get : ∀ (l : List (String × Value F)) (st : Store F), (l.map Prod.fst).Nodup → ∀ e ∈ l, (l.foldl (fun st e => put e.1 e.2 st) st) e.1 = some (encode e.2) := by
  intro l
  induction l with
  | nil => intro _ _ e he; cases he
  | cons a l ih =>
    intro st hnd e he
    rw [List.foldl_cons]
    rw [List.map_cons, List.nodup_cons] at hnd
    rcases List.mem_cons.1 he with rfl | he
    · have key : ∀ (l : List (String × Value F)) (st : Store F), e.1 ∉ l.map Prod.fst → (l.foldl (fun st e => put e.1 e.2 st) st) e.1 = st e.1 := by
        intro l
        induction l with
        | nil => intro _ _; rfl
        | cons b l ihl =>
          intro st hb
          simp only [List.map_cons, List.mem_cons, not_or] at hb
          rw [List.foldl_cons, ihl _ hb.2]
          exact if_neg hb.1
      rw [key l _ hnd.1]
      exact if_pos rfl
    · exact ih _ hnd.2 e he

/-- saving entries on a writable file: success, the open/closed state restored and every entry stored -/
theorem writeEntries_spec {s : St F} (hw : s.writemode = true) (hf : s.file.isSome = true) (l : List (String × Value F)) (h0 : (l.map Prod.fst).Nodup)
    (h1 : ∀ e ∈ l, env.resolve e.1 = some e.1) (h2 : ∀ e ∈ l, e.2.addressable = true) :
    ∃ s', writeEntries env l s = (.ok (), s') ∧ s'.opend = s.opend ∧ s'.file.isSome = true ∧ ∀ e ∈ l, s'.store e.1 = some (encode e.2) := by
  have fin : ∀ (w o : Bool), ∀ e ∈ l, (St.mk w o (s.file.map fun st => l.foldl (fun st e => put e.1 e.2 st) st)).store e.1 = some (encode e.2) := by
    intro w o e he
    obtain ⟨st, hst⟩ := Option.isSome_iff_exists.1 hf
    simp only [St.store, hst, Option.map_some, Option.getD_some]
    exact foldl_put_get l st h0 e he
  unfold writeEntries
  rcases Bool.eq_false_or_eq_true s.opend with ho | ho
  · rw [bind_ok (checkWrite_ok hw), bind_ok (openIfClosed_open ho), bind_ok (writeAll_spec env hw ho l h1 h2), closeIf_false]
    exact ⟨_, rfl, rfl, by simpa using hf, fin _ _⟩
  · rw [bind_ok (checkWrite_ok hw), bind_ok (openIfClosed_closed ho hf), bind_ok (writeAll_spec env (s := { s with opend := true }) hw rfl l h1 h2), closeIf_true rfl]
    exact ⟨_, rfl, ho.symm, by simpa using hf, fin _ _⟩

theorem read_stored_st {s : St F} (hf : s.file.isSome = true) {name : String} (hr : env.resolve name = some name) {v : Value F}
    (hv : Storable env v) (hs : s.store name = some (encode v)) {kd : Kind} (hk : v.kind = kd) : read env name kd s = (.ok v, s) := by
  subst hk
  have h1 := read_stored env hf hr hv hs
  rcases hq : read env name v.kind s with ⟨r, s'⟩
  rw [hq] at h1
  simp only at h1
  subst h1
  obtain ⟨a, b, _, _, e⟩ := read_state env (fun _ => hf) name v.kind _ _ hq
  have := e v rfl
  obtain ⟨x1, x2, x3⟩ := s
  obtain ⟨y1, y2, y3⟩ := s'
  simp only at a b this
  subst a b this
  rfl

theorem readInt_stored {s : St F} (hf : s.file.isSome = true) {name : String} (hr : env.resolve name = some name) {z : Int}
    (hv : Storable env (.int z)) (hs : s.store name = some (encode (.int z))) : readInt env name s = (.ok z, s) := by
  unfold readInt
  rw [bind_ok (read_stored_st env hf hr hv hs (kd := .int) rfl)]; rfl

theorem readDouble_stored {s : St F} (hf : s.file.isSome = true) {name : String} (hr : env.resolve name = some name) {x : F}
    (hv : Storable env (.scalar .double x)) (hs : s.store name = some (encode (.scalar .double x))) : readDouble env name s = (.ok x, s) := by
  unfold readDouble
  rw [bind_ok (read_stored_st env hf hr hv hs (kd := (.scalar .double)) rfl)]; rfl

theorem readVec_stored (env : Env ℝ) {s : St ℝ} (hf : s.file.isSome = true) {name : String} (hr : env.resolve name = some name) {xs : List ℝ}
    (hv : Storable env (vecOf xs)) (hs : s.store name = some (encode (vecOf xs))) : readVec env name s = (.ok xs, s) := by
  unfold readVec
  rw [bind_ok (read_stored_st env hf hr hv hs (kd := (.vec .double)) rfl)]
  simp [vecOf, Value.toList]

theorem col0_colOf (xs : List Int) : (colOf xs).col0 = .ok xs := by
  simp [colOf, Value.col0]

theorem lift_ok {α : Type} {r : Res α} {a : α} (h : r = .ok a) (s : St F) : lift r s = (.ok a, s) := by rw [h]; rfl

/-- The names of the entries are plain link names. -/
def PlainNames (env : Env F) (l : List (String × Value F)) : Prop := ∀ e ∈ l, env.resolve e.1 = some e.1

/-- loading from a file with the atomic entries -/
theorem readAtomic_stored (env : Env ℝ) (lob : Nat → List ℝ) (b : AtomicBasis) (q : Factory.Built) {s : St ℝ} (hf : s.file.isSome = true)
    (hs : ∀ e ∈ atomicEntries b, s.store e.1 = some (encode e.2)) (hn : PlainNames env (atomicEntries b))
    (hv : ∀ e ∈ atomicEntries b, Storable env e.2) (hq : Factory.getBasis lob b.poly.id b.poly.basis.nnodes = .ok q) :
    readAtomic env lob s = (.ok { b with poly := q }, s) := by
  have main : ∀ s : St ℝ, s.file.isSome = true → (∀ e ∈ atomicEntries b, s.store e.1 = some (encode e.2)) → ∀ cl : Bool, ∀ s', closeIf cl s = (.ok (), s') → (do
      let id ← readInt env "HelFEM_ID"
      checkId id 1
      let Z ← readInt env "Z"
      let Zl ← readInt env "Zl"
      let Zr ← readInt env "Zr"
      let fin ← readInt env "finitenuc"
      let Rrms ← readDouble env "Rrms"
      let Rhalf ← readDouble env "Rhalf"
      let bval ← readVec env "bval"
      let nquad ← readInt env "n_quad"
      let pid ← readInt env "poly_id"
      let pn ← readInt env "poly_nnodes"
      let zd ← readInt env "zeroder"
      let lm ← read env "lval" .imat
      let mm ← read env "mval" .imat
      let poly ← lift (Factory.getBasis lob pid pn)
      let lval ← lift lm.col0
      let mval ← lift mm.col0
      closeIf cl
      pure ⟨Z, Zl, Zr, Rhalf, bval, fin, Rrms, nquad, poly, zd != 0, lval, mval⟩ : M ℝ AtomicBasis) s = (.ok { b with poly := q }, s') := by
    intro s hf hs cl s' hcl
    have I : ∀ n z, (n, Value.int z) ∈ atomicEntries b → readInt env n s = (.ok z, s) := fun n z h => readInt_stored env hf (hn _ h) (hv _ h) (hs _ h)
    have D : ∀ n z, (n, Value.scalar .double z) ∈ atomicEntries b → readDouble env n s = (.ok z, s) := fun n z h => readDouble_stored env hf (hn _ h) (hv _ h) (hs _ h)
    have V : ∀ n xs, (n, vecOf xs) ∈ atomicEntries b → readVec env n s = (.ok xs, s) := fun n z h => readVec_stored env hf (hn _ h) (hv _ h) (hs _ h)
    have C : ∀ n xs, (n, colOf xs) ∈ atomicEntries b → read env n .imat s = (.ok (colOf xs), s) := fun n z h => read_stored_st env hf (hn _ h) (hv _ h) (hs _ h) rfl
    have hz : (boolInt b.zeroder != 0) = b.zeroder := by cases b.zeroder <;> rfl
    rw [bind_ok (I "HelFEM_ID" 1 (by simp [atomicEntries])), bind_ok (s' := s) (a := ()) (by simp [checkId]),
      bind_ok (I "Z" b.Z (by simp [atomicEntries])), bind_ok (I "Zl" b.Zl (by simp [atomicEntries])), bind_ok (I "Zr" b.Zr (by simp [atomicEntries])),
      bind_ok (I "finitenuc" b.model (by simp [atomicEntries])), bind_ok (D "Rrms" b.Rrms (by simp [atomicEntries])), bind_ok (D "Rhalf" b.Rhalf (by simp [atomicEntries])),
      bind_ok (V "bval" b.bval (by simp [atomicEntries])), bind_ok (I "n_quad" b.nquad (by simp [atomicEntries])), bind_ok (I "poly_id" b.poly.id (by simp [atomicEntries])),
      bind_ok (I "poly_nnodes" b.poly.basis.nnodes (by simp [atomicEntries])), bind_ok (I "zeroder" (boolInt b.zeroder) (by simp [atomicEntries])),
      bind_ok (C "lval" b.lval (by simp [atomicEntries])), bind_ok (C "mval" b.mval (by simp [atomicEntries])),
      bind_ok (lift_ok hq s), bind_ok (lift_ok (col0_colOf _) s), bind_ok (lift_ok (col0_colOf _) s), bind_ok hcl, hz]
    rfl
  unfold readAtomic
  rcases Bool.eq_false_or_eq_true s.opend with ho | ho
  · rw [bind_ok (openIfClosed_open ho)]
    exact main s hf hs false s (closeIf_false s)
  · rw [bind_ok (openIfClosed_closed ho hf)]
    rw [main { s with opend := true } hf hs true _ (closeIf_true rfl)]
    obtain ⟨a, c, d⟩ := s
    simp only at ho
    subst ho; rfl

/-- loading from a file with the diatomic entries -/
theorem readDiatomic_stored (env : Env ℝ) (lob : Nat → List ℝ) (b : DiatomicBasis) (q : Factory.Built) {s : St ℝ} (hf : s.file.isSome = true)
    (hs : ∀ e ∈ diatomicEntries b, s.store e.1 = some (encode e.2)) (hn : PlainNames env (diatomicEntries b))
    (hv : ∀ e ∈ diatomicEntries b, Storable env e.2) (hq : Factory.getBasis lob b.poly.id b.poly.basis.nnodes = .ok q) :
    readDiatomic env lob s = (.ok { b with poly := q }, s) := by
  have main : ∀ s : St ℝ, s.file.isSome = true → (∀ e ∈ diatomicEntries b, s.store e.1 = some (encode e.2)) → ∀ cl : Bool, ∀ s', closeIf cl s = (.ok (), s') → (do
      let id ← readInt env "HelFEM_ID"
      checkId id 2
      let Z1 ← readInt env "Z1"
      let Z2 ← readInt env "Z2"
      let Rhalf ← readDouble env "Rhalf"
      let bval ← readVec env "bval"
      let nquad ← readInt env "n_quad"
      let pid ← readInt env "poly_id"
      let pn ← readInt env "poly_nnodes"
      let lm ← read env "lval" .imat
      let mm ← read env "mval" .imat
      let poly ← lift (Factory.getBasis lob pid pn)
      let lval ← lift lm.col0
      let mval ← lift mm.col0
      closeIf cl
      pure ⟨Z1, Z2, Rhalf, bval, nquad, poly, lval, mval⟩ : M ℝ DiatomicBasis) s = (.ok { b with poly := q }, s') := by
    intro s hf hs cl s' hcl
    have I : ∀ n z, (n, Value.int z) ∈ diatomicEntries b → readInt env n s = (.ok z, s) := fun n z h => readInt_stored env hf (hn _ h) (hv _ h) (hs _ h)
    have D : ∀ n z, (n, Value.scalar .double z) ∈ diatomicEntries b → readDouble env n s = (.ok z, s) := fun n z h => readDouble_stored env hf (hn _ h) (hv _ h) (hs _ h)
    have V : ∀ n xs, (n, vecOf xs) ∈ diatomicEntries b → readVec env n s = (.ok xs, s) := fun n z h => readVec_stored env hf (hn _ h) (hv _ h) (hs _ h)
    have C : ∀ n xs, (n, colOf xs) ∈ diatomicEntries b → read env n .imat s = (.ok (colOf xs), s) := fun n z h => read_stored_st env hf (hn _ h) (hv _ h) (hs _ h) rfl
    rw [bind_ok (I "HelFEM_ID" 2 (by simp [diatomicEntries])), bind_ok (s' := s) (a := ()) (by simp [checkId]),
      bind_ok (I "Z1" b.Z1 (by simp [diatomicEntries])), bind_ok (I "Z2" b.Z2 (by simp [diatomicEntries])), bind_ok (D "Rhalf" b.Rhalf (by simp [diatomicEntries])),
      bind_ok (V "bval" b.bval (by simp [diatomicEntries])), bind_ok (I "n_quad" b.nquad (by simp [diatomicEntries])), bind_ok (I "poly_id" b.poly.id (by simp [diatomicEntries])),
      bind_ok (I "poly_nnodes" b.poly.basis.nnodes (by simp [diatomicEntries])),
      bind_ok (C "lval" b.lval (by simp [diatomicEntries])), bind_ok (C "mval" b.mval (by simp [diatomicEntries])),
      bind_ok (lift_ok hq s), bind_ok (lift_ok (col0_colOf _) s), bind_ok (lift_ok (col0_colOf _) s), bind_ok hcl]
    rfl
  unfold readDiatomic
  rcases Bool.eq_false_or_eq_true s.opend with ho | ho
  · rw [bind_ok (openIfClosed_open ho)]
    exact main s hf hs false s (closeIf_false s)
  · rw [bind_ok (openIfClosed_closed ho hf)]
    rw [main { s with opend := true } hf hs true _ (closeIf_true rfl)]
    obtain ⟨a, c, d⟩ := s
    simp only at ho
    subst ho; rfl

/-- a load that finds the other identifier -/
theorem wrong_id (env : Env ℝ) (lob : Nat → List ℝ) {s : St ℝ} (hf : s.file.isSome = true) (hn : env.resolve "HelFEM_ID" = some "HelFEM_ID") (z : Int)
    (hs : s.store "HelFEM_ID" = some (encode (.int z))) :
    (z = 1 → (readDiatomic env lob s).1 = .throw .logicError) ∧ (z = 2 → (readAtomic env lob s).1 = .throw .logicError) := by
  constructor
  · rintro rfl
    have hv : Storable env (.int 1) := by simp [Storable, IType.lo, IType.hi]
    have hc : ∀ s : St ℝ, checkId 1 2 s = (.throw .logicError, s) := fun s => rfl
    unfold readDiatomic
    rcases Bool.eq_false_or_eq_true s.opend with ho | ho
    · rw [bind_ok (openIfClosed_open ho), bind_ok (readInt_stored env hf hn hv hs), bind_throw (hc s)]
    · rw [bind_ok (openIfClosed_closed ho hf), bind_ok (readInt_stored env (s := { s with opend := true }) hf hn hv hs), bind_throw (hc _)]
  · rintro rfl
    have hv : Storable env (.int 2) := by simp [Storable, IType.lo, IType.hi]
    have hc : ∀ s : St ℝ, checkId 2 1 s = (.throw .logicError, s) := fun s => rfl
    unfold readAtomic
    rcases Bool.eq_false_or_eq_true s.opend with ho | ho
    · rw [bind_ok (openIfClosed_open ho), bind_ok (readInt_stored env hf hn hv hs), bind_throw (hc s)]
    · rw [bind_ok (openIfClosed_closed ho hf), bind_ok (readInt_stored env (s := { s with opend := true }) hf hn hv hs), bind_throw (hc _)]

theorem atomic_addr (b : AtomicBasis) : ∀ e ∈ atomicEntries b, e.2.addressable = true := by
  simp [atomicEntries, Value.addressable, vecOf, colOf]
theorem diatomic_addr (b : DiatomicBasis) : ∀ e ∈ diatomicEntries b, e.2.addressable = true := by
  simp [diatomicEntries, Value.addressable, vecOf, colOf]

/-- **C33, atoms (partial).** Saving an atomic basis on a writable file and loading it gives the same basis, for every parameter set whose numbers are doubles and 32-bit
integers and whose polynomial basis came from one of the identifiers 3, 4, 5, 8, 9. The file is left open or closed as it was; loading it as a diatomic basis throws. Missing: the
Chebyshev node families, see `C33_chebyshev_changes`. -/
theorem C33_atomic_partial (env : Env ℝ) (lob : Nat → List ℝ) (hlob : Factory.LobattoList lob) (b : AtomicBasis) (p : Int) (n : Nat) (hn : 2 ≤ n)
    (hp : p ∈ [3, 4, 5, 8, 9]) (hb : Factory.getBasis lob p n = .ok b.poly) (hnames : PlainNames env (atomicEntries b))
    (hv : ∀ e ∈ atomicEntries b, Storable env e.2) {s : St ℝ} (hw : s.writemode = true) (hf : s.file.isSome = true) :
    ∃ s', writeEntries env (atomicEntries b) s = (.ok (), s') ∧ s'.opend = s.opend ∧ readAtomic env lob s' = (.ok b, s') ∧
      (readDiatomic env lob s').1 = .throw .logicError := by
  obtain ⟨s', h1, h2, h3, h4⟩ := writeEntries_spec env hw hf (atomicEntries b) (by simp [atomicEntries]) hnames (atomic_addr b)
  refine ⟨s', h1, h2, readAtomic_stored env lob b b.poly h3 h4 hnames hv (Factory.C08_roundtrip_partial lob hlob p n hn hp _ hb), ?_⟩
  have hm : ("HelFEM_ID", Value.int 1) ∈ atomicEntries b := by simp [atomicEntries]
  exact (wrong_id env lob h3 (hnames _ hm) 1 (h4 _ hm)).1 rfl

/-- **C33, diatomic molecules (partial).** The same for diatomic bases. -/
theorem C33_diatomic_partial (env : Env ℝ) (lob : Nat → List ℝ) (hlob : Factory.LobattoList lob) (b : DiatomicBasis) (p : Int) (n : Nat) (hn : 2 ≤ n)
    (hp : p ∈ [3, 4, 5, 8, 9]) (hb : Factory.getBasis lob p n = .ok b.poly) (hnames : PlainNames env (diatomicEntries b))
    (hv : ∀ e ∈ diatomicEntries b, Storable env e.2) {s : St ℝ} (hw : s.writemode = true) (hf : s.file.isSome = true) :
    ∃ s', writeEntries env (diatomicEntries b) s = (.ok (), s') ∧ s'.opend = s.opend ∧ readDiatomic env lob s' = (.ok b, s') ∧
      (readAtomic env lob s').1 = .throw .logicError := by
  obtain ⟨s', h1, h2, h3, h4⟩ := writeEntries_spec env hw hf (diatomicEntries b) (by simp [diatomicEntries]) hnames (diatomic_addr b)
  refine ⟨s', h1, h2, readDiatomic_stored env lob b b.poly h3 h4 hnames hv (Factory.C08_roundtrip_partial lob hlob p n hn hp _ hb), ?_⟩
  have hm : ("HelFEM_ID", Value.int 2) ∈ diatomicEntries b := by simp [diatomicEntries]
  exact (wrong_id env lob h3 (hnames _ hm) 2 (h4 _ hm)).2 rfl

/-- **C33 is violated for Chebyshev nodes.** An atomic basis with four nodes built with identifier 100 or 101 is saved without an error and loaded without an error as a basis
with other nodes. -/
theorem C33_chebyshev_changes (env : Env ℝ) (lob : Nat → List ℝ) (hlob : Factory.LobattoList lob) (y : ℝ) (hy : (lob 4)[1]? = some y) (hroot : Poly.legDP y 3 = 0)
    (b : AtomicBasis) (p : Int) (hp : p = 100 ∨ p = 101) (hb : Factory.getBasis lob p 4 = .ok b.poly) (hnames : PlainNames env (atomicEntries b))
    (hv : ∀ e ∈ atomicEntries b, Storable env e.2) {s : St ℝ} (hw : s.writemode = true) (hf : s.file.isSome = true) :
    ∃ s' b', writeEntries env (atomicEntries b) s = (.ok (), s') ∧ readAtomic env lob s' = (.ok b', s') ∧ b'.poly.nodes ≠ b.poly.nodes := by
  obtain ⟨s', h1, h2, h3, h4⟩ := writeEntries_spec env hw hf (atomicEntries b) (by simp [atomicEntries]) hnames (atomic_addr b)
  obtain ⟨c, q, hc, hq, hne⟩ := Factory.C08_chebyshev_roundtrip_differs lob hlob y hy hroot p hp
  rw [hb] at hc
  obtain rfl : b.poly = c := by injection hc
  exact ⟨s', { b with poly := q }, h1, readAtomic_stored env lob b q h3 h4 hnames hv hq, hne⟩

/-! ### The hypotheses are met -/

/-- an environment in which names are links and numbers are kept -/
def plainEnv : Env ℝ := ⟨some, fun _ x => x, fun _ => 0, 0⟩

/-- a writable closed empty file -/
def emptyFile : St ℝ := ⟨true, false, some fun _ => none⟩

/-- a history: write "a", fail to read "b" (which leaves the file open), write "b", remove "c"; then "a" reads back -/
example : (read plainEnv "a" .int ⟨true, true, some (put "b" (.bool true) (put "a" (.int 7) fun _ => none))⟩).1 = .ok (.int 7) := by
  have h1 : (Op.write "a" (.int 7) : Op ℝ).run plainEnv emptyFile = (.ok .none, ⟨true, false, some (put "a" (.int 7) fun _ => none)⟩) := by
    simp only [Op.run]
    rw [bind_ok (write_closed plainEnv (s := emptyFile) rfl rfl rfl (k := "a") rfl rfl)]; rfl
  have h2 : (Op.read "b" .int : Op ℝ).run plainEnv ⟨true, false, some (put "a" (.int 7) fun _ => none)⟩ =
      (.throw .runtimeError, ⟨true, true, some (put "a" (.int 7) fun _ => none)⟩) := by
    simp only [Op.run]
    rw [bind_throw (C31_missing_entry_leaves_open plainEnv (s := ⟨true, false, some (put "a" (.int 7) fun _ => none)⟩) rfl rfl (n := "b") (k := "b") rfl (by
      simp [St.store, put]) .int).1]
  have h3 : (Op.write "b" (.bool true) : Op ℝ).run plainEnv ⟨true, true, some (put "a" (.int 7) fun _ => none)⟩ =
      (.ok .none, ⟨true, true, some (put "b" (.bool true) (put "a" (.int 7) fun _ => none))⟩) := by
    simp only [Op.run]
    rw [bind_ok (write_open plainEnv (s := ⟨true, true, some (put "a" (.int 7) fun _ => none)⟩) rfl rfl (k := "b") rfl rfl)]; rfl
  have hist : Hist plainEnv emptyFile ([] ++ .call (.write "a" (.int 7)) true :: [.call (.read "b" .int) false, .call (.write "b" (.bool true)) true])
      ⟨true, true, some (put "b" (.bool true) (put "a" (.int 7) fun _ => none))⟩ :=
    .call h1 (by simp) (.call h2 (by simp) (.call h3 (by simp) (.nil _)))
  refine (C30_read_back_partial plainEnv (n := "a") (n' := "a") (k := "a") (v := .int 7) (fun _ => rfl) rfl hist rfl rfl ?_ ?_).1
  · intro e he
    simp only [List.mem_cons, List.not_mem_nil, or_false] at he
    rcases he with rfl | rfl <;> simp [Touches, plainEnv]
  · simp [Storable, IType.lo, IType.hi]

/-- basis parameters: an atom with three radial elements, Legendre polynomials of order four, s and p functions -/
noncomputable def sampleAtom : AtomicBasis := ⟨10, 0, 0, 0, [0, 1, 3, 40], 0, 0, 25, ⟨3, PolyBasis.mk' .legendre 5, []⟩, false, [0, 1, 1, 1], [0, -1, 0, 1]⟩

example : ∃ s', writeEntries plainEnv (atomicEntries sampleAtom) emptyFile = (.ok (), s') ∧ readAtomic plainEnv Factory.chebNodes s' = (.ok sampleAtom, s') := by
  have hl : Factory.LobattoList Factory.chebNodes := by
    refine ⟨fun n _ => by simp [Factory.chebNodes], fun n _ => Factory.cheb_lt n, fun n hn => ?_, fun n hn => ?_⟩
    · have hn' : (n : ℝ) - 1 ≠ 0 := by
        have : (2 : ℝ) ≤ n := by exact_mod_cast hn
        linarith
      unfold Factory.chebNodes
      rw [List.getElem?_map, List.getElem?_range (by omega)]
      simp only [Option.map_some, Nat.cast_zero, sub_zero]
      rw [mul_div_cancel_right₀ _ hn', Real.cos_pi]
    · unfold Factory.chebNodes
      rw [List.getElem?_map, List.getElem?_range (by omega)]
      simp only [Option.map_some]
      rw [Nat.cast_sub (by omega), Nat.cast_one, sub_self, mul_zero, zero_div, Real.cos_zero]
  obtain ⟨s', h1, _, h3, _⟩ := C33_atomic_partial plainEnv Factory.chebNodes hl sampleAtom 3 5 (by omega) (by simp) rfl (fun e _ => rfl) (by
    intro e he
    simp only [atomicEntries, sampleAtom, List.mem_cons, List.not_mem_nil, or_false, boolInt, PolyBasis.mk', vecOf, colOf] at he
    rcases he with rfl | rfl | rfl | rfl | rfl | rfl | rfl | rfl | rfl | rfl | rfl | rfl | rfl | rfl <;> simp [Storable, IType.lo, IType.hi, plainEnv]
    all_goals decide) (s := emptyFile) rfl rfl
  exact ⟨s', h1, h3⟩

/-- crash points: deleting and creating happen before the new numbers are there -/
example : crashAfter plainEnv "a" (encode (.int 7)) (put "a" (.int 3) (put "b" (.int 4) fun _ => none)) 1 "a" = none ∧
    crashAfter plainEnv "a" (encode (.int 7)) (put "a" (.int 3) (put "b" (.int 4) fun _ => none)) 2 "b" = some (encode (.int 4)) := by
  constructor
  · simp [crashAfter, overwriteCalls]
  · simp [crashAfter, overwriteCalls, putCalls, put]

end Ckpt
end HelFEM
