import Verif.Lemmas.Checkpoint
import Verif.Spec.Checkpoint

/-!
# Storage round trips and the effect of single calls
-/

namespace HelFEM
namespace Ckpt

variable {F : Type} (env : Env F)

/-! ### values survive encoding -/

theorem flatMap_get {α β : Type} (r : Nat) (f : α → List β) (hf : ∀ a, (f a).length = r) : ∀ (l : List α) (j i : Nat), i < r →
    (l.flatMap f)[j * r + i]? = (l[j]?.bind fun a => (f a)[i]?) := by
  intro l
  induction l with
  | nil => intro j i _; simp
  | cons a l ih =>
    intro j i hi
    rw [List.flatMap_cons]
    cases j with
    | zero =>
      rw [List.getElem?_append_left (by rw [hf]; omega)]
      simp
    | succ j =>
      rw [List.getElem?_append_right (by rw [hf, Nat.succ_mul]; omega), hf, Nat.succ_mul, show j * r + r + i - r = j * r + i by omega, ih j i hi]
      simp

theorem colMajor_get {α : Type} (r c : Nat) (m : Fin r → Fin c → α) (z : α) (i : Fin r) (j : Fin c) :
    (colMajor r c m).getD (j.1 * r + i.1) z = m i j := by
  rw [List.getD_eq_getElem?_getD, colMajor, flatMap_get r _ (by simp) _ _ _ i.2]
  simp

theorem colMajor_map {α β : Type} (r c : Nat) (m : Fin r → Fin c → α) (g : α → β) : (colMajor r c m).map g = colMajor r c fun i j => g (m i j) := by
  simp [colMajor, List.map_flatMap, Function.comp_def]

theorem clip_id {t : IType} {z : Int} (h : t.lo ≤ z ∧ z ≤ t.hi) : clip t z = z := by
  unfold clip; omega

theorem map_id_of {α : Type} (l : List α) (g : α → α) (h : ∀ x ∈ l, g x = x) : l.map g = l := by
  conv_rhs => rw [← List.map_id l]
  exact List.map_congr_left h

theorem decode_encode {v : Value F} (h : Storable env v) (hk : ∀ t n w, v ≠ .vec t n w) : decode env v.kind (encode v) = .ok v := by
  cases v with
  | mat t r c m =>
    simp only [Value.kind, encode, decode, readF, Res.ok_bind, Res.pure_eq, colMajor_map]
    congr 2; funext i j
    rw [colMajor_get]; exact h i j
  | vec t n w => exact absurd rfl (hk t n w)
  | imat r c m =>
    simp only [Value.kind, encode, decode, readAny, colMajor_map]
    congr 2; funext i j
    rw [colMajor_get]; exact clip_id (h i j)
  | arr t xs =>
    simp only [Value.kind, encode, decode, readF, Res.ok_bind, Res.pure_eq]
    rw [if_neg (by simpa using h.1), map_id_of xs _ h.2]
  | harr xs =>
    simp only [Value.kind, encode, decode, readI, Res.ok_bind, Res.pure_eq]
    rw [if_neg (by simpa using h.1), map_id_of xs _ (fun x hx => clip_id (h.2 x hx))]
  | scalar t x =>
    simp only [Value.kind, encode, decode, readF, Res.ok_bind, Res.pure_eq, List.map_cons, List.map_nil, List.getD_cons_zero]
    rw [h]
  | int z => simp only [Value.kind, encode, decode, readI, Res.ok_bind, Res.pure_eq, List.map_cons, List.map_nil, List.getD_cons_zero, clip_id h]
  | hsize z => simp only [Value.kind, encode, decode, readI, Res.ok_bind, Res.pure_eq, List.map_cons, List.map_nil, List.getD_cons_zero, clip_id h]
  | bool b => cases b <;> rfl
  | str cs =>
    have h1 : (cs ++ [0]).map (clip .char) = cs ++ [0] := by
      apply map_id_of
      intro x hx
      rcases List.mem_append.1 hx with hx | hx
      · exact clip_id ⟨(h x hx).1, (h x hx).2.1⟩
      · rw [List.mem_singleton.1 hx]; rfl
    simp only [Value.kind, encode, decode, readI, Res.ok_bind, Res.pure_eq, h1]
    rw [if_pos (by simp)]
    congr 2
    rw [List.takeWhile_append_of_pos (by intro x hx; simpa using (h x hx).2.2)]
    simp

theorem decode_vec {t : FType} {n : Nat} {w : Fin n → F} (h : Storable env (.vec t n w)) :
    decode env (.vec t) (encode (.vec t n w)) = .ok (.mat t n 1 fun i _ => w i) := by
  simp only [encode, decode, readF, Res.ok_bind, Res.pure_eq, colMajor_map]
  congr 2; funext i j
  rw [colMajor_get]; exact h i

/-- the outcome of a read on an existing file, in terms of the stored entry -/
theorem read_fst {s : St F} (hf : s.file.isSome = true) (name : String) (k : Kind) :
    (read env name k s).1 = match k with
      | .vec t => found env s.store name (.vec t) >>= asVec
      | k => found env s.store name k := by
  have key : ∀ k, (readRaw env name k s).1 = found env s.store name k := by
    intro k
    cases h : s.opend with
    | true => rw [readRaw_open env h]
    | false => rw [readRaw_closed env h hf]
  unfold read
  cases k with
  | vec t =>
    simp only
    rw [bind_apply, ← key]
    rcases hq : readRaw env name (.vec t) s with ⟨r, s'⟩
    cases r with
    | ok v => simp only [lift, Res.ok_bind]
    | throw e => rfl
    | ub => rfl
  | _ => exact key _

/-- A stored value is read back by the overload of its type. -/
theorem read_stored {s : St F} (hf : s.file.isSome = true) {name key : String} (hr : env.resolve name = some key) {v : Value F}
    (hv : Storable env v) (hs : s.store key = some (encode v)) : (read env name v.kind s).1 = .ok v := by
  rw [read_fst env hf]
  have hl : lookup env s.store name = .ok (encode v) := by simp [lookup, hr, hs]
  cases v with
  | vec t n w =>
    simp only [Value.kind, found, hl, Res.ok_bind]
    rw [decode_vec env hv]
    simp [asVec]
  | _ =>
    simp only [Value.kind, found, hl, Res.ok_bind]
    exact decode_encode env hv (by intro _ _ _ h; cases h)

/-! ### effect of one call -/

theorem read_state {s : St F} (hwf : s.WF) (name : String) (k : Kind) (r : Res (Value F)) (s' : St F) (h : read env name k s = (r, s')) :
    s'.file = s.file ∧ s'.writemode = s.writemode ∧ s'.WF ∧ (s.opend = true → s'.opend = true) ∧ (∀ v, r = .ok v → s'.opend = s.opend) := by
  have raw : ∀ k r s', readRaw env name k s = (r, s') →
      s'.file = s.file ∧ s'.writemode = s.writemode ∧ s'.WF ∧ (s.opend = true → s'.opend = true) ∧ (∀ v, r = .ok v → s'.opend = s.opend) := by
    intro k r s' h
    cases ho : s.opend with
    | true =>
      rw [readRaw_open env ho] at h
      obtain ⟨rfl, rfl⟩ := Prod.mk.inj h
      exact ⟨rfl, rfl, hwf, fun _ => ho, fun _ _ => ho⟩
    | false =>
      rcases hf : s.file with _ | st
      · rw [readRaw_nofile env ho hf] at h
        obtain ⟨rfl, rfl⟩ := Prod.mk.inj h
        exact ⟨hf, rfl, hwf, by simp, fun v hv => by cases hv⟩
      · rw [readRaw_closed env ho (by simp [hf])] at h
        obtain ⟨rfl, rfl⟩ := Prod.mk.inj h
        refine ⟨hf, rfl, fun _ => by simp [hf], by simp, fun v hv => ?_⟩
        simp [hv, Res.isOk]
  unfold read at h
  cases k with
  | vec t =>
    simp only at h
    rw [bind_apply] at h
    rcases hq : readRaw env name (.vec t) s with ⟨q, s1⟩
    rw [hq] at h
    obtain ⟨a, b, c, d, e⟩ := raw _ _ _ hq
    cases q with
    | ok v =>
      obtain ⟨rfl, rfl⟩ := Prod.mk.inj h
      exact ⟨a, b, c, d, fun w _ => e v rfl⟩
    | throw x =>
      obtain ⟨rfl, rfl⟩ := Prod.mk.inj h
      exact ⟨a, b, c, d, fun w hw => by cases hw⟩
    | ub =>
      obtain ⟨rfl, rfl⟩ := Prod.mk.inj h
      exact ⟨a, b, c, d, fun w hw => by cases hw⟩
  | _ => exact raw _ _ _ h

/-- everything about one call: new contents, mode, and whether the file stays open or closed -/
theorem run_spec {s : St F} (hwf : s.WF) (op : Op F) (r : Res (Out F)) (s' : St F) (h : op.run env s = (r, s')) (hr : r ≠ .ub) :
    s'.WF ∧ s'.writemode = s.writemode ∧ (s'.file.isSome = s.file.isSome) ∧ (∀ k, s'.store k = effect env k (s.store k) (.call op r.isOk)) ∧
    ((op ≠ .openFile ∧ op ≠ .closeFile) → (s.opend = true → s'.opend = true) ∧ (r.isOk = true → s'.opend = s.opend)) ∧
    (s.writemode = false → s'.file = s.file) := by
  have same : ∀ s' : St F, s' = s → ∀ op' : Op F, ∀ b, (∀ k, effect env k (s.store k) (.call op' b) = s.store k) → s'.WF ∧ s'.writemode = s.writemode ∧
      (s'.file.isSome = s.file.isSome) ∧ (∀ k, s'.store k = effect env k (s.store k) (.call op' b)) ∧
      ((op ≠ .openFile ∧ op ≠ .closeFile) → (s.opend = true → s'.opend = true) ∧ (r.isOk = true → s'.opend = s.opend)) ∧
      (s.writemode = false → s'.file = s.file) := by
    rintro _ rfl op' b he
    exact ⟨hwf, rfl, rfl, fun k => (he k).symm, fun _ => ⟨id, fun _ => rfl⟩, fun _ => rfl⟩
  cases op with
  | openFile =>
    simp only [Op.run] at h
    rw [bind_apply] at h
    unfold openF at h
    split_ifs at h with h1 h2
    · obtain ⟨rfl, rfl⟩ := Prod.mk.inj h
      exact same _ rfl _ _ (fun _ => rfl)
    · obtain ⟨rfl, rfl⟩ := Prod.mk.inj h
      exact same _ rfl _ _ (fun _ => rfl)
    · obtain ⟨rfl, rfl⟩ := Prod.mk.inj h
      refine ⟨fun _ => ?_, rfl, rfl, fun k => rfl, fun hh => absurd rfl hh.1, fun _ => rfl⟩
      cases hf : s.file with
      | none => simp [hf] at h1
      | some _ => simp
  | closeFile =>
    simp only [Op.run] at h
    rw [bind_apply] at h
    unfold closeF at h
    split_ifs at h with h1
    · obtain ⟨rfl, rfl⟩ := Prod.mk.inj h
      exact ⟨fun hh => Bool.noConfusion hh, rfl, rfl, fun k => rfl, fun hh => absurd rfl hh.2, fun _ => rfl⟩
    · obtain ⟨rfl, rfl⟩ := Prod.mk.inj h
      exact same _ rfl _ _ (fun _ => rfl)
  | flush =>
    obtain ⟨rfl, rfl⟩ := Prod.mk.inj h
    exact same _ rfl _ _ (fun _ => rfl)
  | exist n =>
    simp only [Op.run] at h
    rw [bind_apply] at h
    cases Bool.eq_false_or_eq_true s.opend with
    | inl ho =>
      rw [exist_open env ho] at h
      obtain ⟨rfl, rfl⟩ := Prod.mk.inj h
      exact same _ rfl _ _ (fun _ => rfl)
    | inr ho =>
      rcases Option.eq_none_or_eq_some s.file with hf | ⟨st, hf⟩
      · unfold exist at h
        rw [bind_throw (openIfClosed_nofile ho hf)] at h
        obtain ⟨rfl, rfl⟩ := Prod.mk.inj h
        exact same _ rfl _ _ (fun _ => rfl)
      · rw [exist_closed env ho (by simp [hf])] at h
        obtain ⟨rfl, rfl⟩ := Prod.mk.inj h
        exact same _ rfl _ _ (fun _ => rfl)
  | remove n =>
    simp only [Op.run] at h
    rw [bind_apply] at h
    have good : remove env n s = (.ok (), { s with file := s.file.map (del env n) }) → s.file.isSome = true → s.writemode = true → s'.WF ∧ s'.writemode = s.writemode ∧
        (s'.file.isSome = s.file.isSome) ∧ (∀ k, s'.store k = effect env k (s.store k) (.call (.remove n) r.isOk)) ∧
        (((Op.remove n : Op F) ≠ .openFile ∧ (Op.remove n : Op F) ≠ .closeFile) → (s.opend = true → s'.opend = true) ∧ (r.isOk = true → s'.opend = s.opend)) ∧
        (s.writemode = false → s'.file = s.file) := by
      intro hq hf hw
      rw [hq] at h
      obtain ⟨rfl, rfl⟩ := Prod.mk.inj h
      refine ⟨fun _ => by simpa using hf, rfl, by simp, fun k => ?_, fun _ => ⟨id, fun _ => rfl⟩, fun hh => by rw [hw] at hh; cases hh⟩
      obtain ⟨st, hst⟩ := Option.isSome_iff_exists.1 hf
      simp only [St.store, hst, Option.map_some, Option.getD_some, del, effect, Res.isOk]
      cases hres : env.resolve n with
      | none => simp
      | some k' =>
        by_cases hk : k = k'
        · simp [hk]
        · simp [hk, Ne.symm hk]
    cases Bool.eq_false_or_eq_true s.writemode with
    | inr hw =>
      rw [remove_readonly env hw] at h
      obtain ⟨rfl, rfl⟩ := Prod.mk.inj h
      exact same _ rfl _ _ (fun _ => rfl)
    | inl hw =>
      cases Bool.eq_false_or_eq_true s.opend with
      | inl ho => exact good (remove_open env hw ho n) (hwf ho) hw
      | inr ho =>
        rcases Option.eq_none_or_eq_some s.file with hf | ⟨st, hf⟩
        · rw [remove_nofile env hw ho hf] at h
          obtain ⟨rfl, rfl⟩ := Prod.mk.inj h
          exact same _ rfl _ _ (fun _ => rfl)
        · have hf' : s.file.isSome = true := by simp [hf]
          exact good (remove_closed env hw ho hf' n) hf' hw
  | write n v =>
    simp only [Op.run] at h
    rw [bind_apply] at h
    have good : ∀ k', env.resolve n = some k' → write env n v s = (.ok (), { s with file := s.file.map (put k' v) }) → s.file.isSome = true → s.writemode = true → s'.WF ∧ s'.writemode = s.writemode ∧
        (s'.file.isSome = s.file.isSome) ∧ (∀ k, s'.store k = effect env k (s.store k) (.call (.write n v) r.isOk)) ∧
        (((Op.write n v : Op F) ≠ .openFile ∧ (Op.write n v : Op F) ≠ .closeFile) → (s.opend = true → s'.opend = true) ∧ (r.isOk = true → s'.opend = s.opend)) ∧
        (s.writemode = false → s'.file = s.file) := by
      intro k' hk' hq hf hw
      rw [hq] at h
      obtain ⟨rfl, rfl⟩ := Prod.mk.inj h
      refine ⟨fun _ => by simpa using hf, rfl, by simp, fun k => ?_, fun _ => ⟨id, fun _ => rfl⟩, fun hh => by rw [hw] at hh; cases hh⟩
      obtain ⟨st, hst⟩ := Option.isSome_iff_exists.1 hf
      simp only [St.store, hst, Option.map_some, Option.getD_some, put, effect, Res.isOk, hk']
      by_cases hk : k = k'
      · simp [hk]
      · simp [hk, Ne.symm hk]
    cases Bool.eq_false_or_eq_true s.writemode with
    | inr hw =>
      rw [write_readonly env hw] at h
      obtain ⟨rfl, rfl⟩ := Prod.mk.inj h
      exact same _ rfl _ _ (fun _ => rfl)
    | inl hw =>
      rcases Option.eq_none_or_eq_some s.file with hf | ⟨st, hf⟩
      · have ho : s.opend = false := by
          cases Bool.eq_false_or_eq_true s.opend with
          | inr ho => exact ho
          | inl ho => have := hwf ho; simp [hf] at this
        rw [write_nofile env hw ho hf] at h
        obtain ⟨rfl, rfl⟩ := Prod.mk.inj h
        exact same _ rfl _ _ (fun _ => rfl)
      · have hf' : s.file.isSome = true := by simp [hf]
        cases hres : env.resolve n with
        | none =>
          rw [write_unresolvable env hw hf' hres] at h
          obtain ⟨rfl, rfl⟩ := Prod.mk.inj h
          exact ⟨fun _ => hf', rfl, rfl, fun k => rfl, fun _ => ⟨fun _ => rfl, fun hh => by cases hh⟩, fun _ => rfl⟩
        | some k' =>
          cases hv : v.addressable with
          | false =>
            have := write_ub env hw hf' hres hv
            rcases hq : write env n v s with ⟨q, s1⟩
            rw [hq] at this h
            simp only at this
            subst this
            obtain ⟨rfl, rfl⟩ := Prod.mk.inj h
            exact absurd rfl hr
          | true =>
            cases Bool.eq_false_or_eq_true s.opend with
            | inl ho => exact good k' hres (write_open env hw ho hres hv) hf' hw
            | inr ho => exact good k' hres (write_closed env hw ho hf' hres hv) hf' hw
  | read n k =>
    simp only [Op.run] at h
    rw [bind_apply] at h
    rcases hq : read env n k s with ⟨q, s1⟩
    obtain ⟨a, b, c, d, e⟩ := read_state env hwf n k q s1 hq
    rw [hq] at h
    have fin : s' = s1 → (r.isOk = true → ∃ v, q = .ok v) → s'.WF ∧ s'.writemode = s.writemode ∧
        (s'.file.isSome = s.file.isSome) ∧ (∀ x, s'.store x = effect env x (s.store x) (.call (.read n k) r.isOk)) ∧
        (((Op.read n k : Op F) ≠ .openFile ∧ (Op.read n k : Op F) ≠ .closeFile) → (s.opend = true → s'.opend = true) ∧ (r.isOk = true → s'.opend = s.opend)) ∧
        (s.writemode = false → s'.file = s.file) := by
      rintro rfl hq
      refine ⟨c, b, by rw [a], fun x => by simp only [St.store, a, effect], fun _ => ⟨d, fun hh => ?_⟩, fun _ => a⟩
      obtain ⟨v, hv⟩ := hq hh
      exact e v hv
    cases q with
    | ok v => obtain ⟨rfl, rfl⟩ := Prod.mk.inj h; exact fin rfl (fun _ => ⟨v, rfl⟩)
    | throw x => obtain ⟨rfl, rfl⟩ := Prod.mk.inj h; exact fin rfl (fun hh => by cases hh)
    | ub => obtain ⟨rfl, rfl⟩ := Prod.mk.inj h; exact absurd rfl hr

end Ckpt
end HelFEM
