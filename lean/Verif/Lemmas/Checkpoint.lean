import Verif.Model.Checkpoint

/-!
# Closed forms of the checkpoint operations
-/

namespace HelFEM
namespace Ckpt

variable {F : Type} (env : Env F)

/-- An open file exists. -/
def St.WF (s : St F) : Prop := s.opend = true → s.file.isSome = true

@[simp] theorem pure_apply {α : Type} (a : α) (s : St F) : (pure a : M F α) s = (.ok a, s) := rfl

theorem bind_apply {α β : Type} (x : M F α) (f : α → M F β) (s : St F) : (x >>= f) s = match x s with
    | (.ok a, s') => f a s'
    | (.throw e, s') => (.throw e, s')
    | (.ub, s') => (.ub, s') := rfl

theorem bind_ok {α β : Type} {x : M F α} {f : α → M F β} {s s' : St F} {a : α} (h : x s = (.ok a, s')) : (x >>= f) s = f a s' := by
  rw [bind_apply, h]
theorem bind_throw {α β : Type} {x : M F α} {f : α → M F β} {s s' : St F} {e : Exn} (h : x s = (.throw e, s')) : (x >>= f) s = (.throw e, s') := by
  rw [bind_apply, h]
theorem bind_ub {α β : Type} {x : M F α} {f : α → M F β} {s s' : St F} (h : x s = (.ub, s')) : (x >>= f) s = (.ub, s') := by
  rw [bind_apply, h]

theorem openIfClosed_open {s : St F} (h : s.opend = true) : openIfClosed s = (.ok false, s) := by simp [openIfClosed, h]
theorem openIfClosed_closed {s : St F} (h : s.opend = false) (hf : s.file.isSome = true) : openIfClosed s = (.ok true, { s with opend := true }) := by
  simp [openIfClosed, h, bind_apply, openF, Option.isNone_eq_false_iff.2 hf]
theorem openIfClosed_nofile {s : St F} (h : s.opend = false) (hf : s.file = none) : openIfClosed s = (.throw .runtimeError, s) := by
  simp [openIfClosed, h, bind_apply, openF, hf]

theorem closeIf_true {s : St F} (h : s.opend = true) : closeIf true s = (.ok (), { s with opend := false }) := by simp [closeIf, closeF, h]
@[simp] theorem closeIf_false (s : St F) : closeIf false s = (.ok (), s) := by simp [closeIf]

/-- The answer of `exist`. -/
def existsIn (st : Store F) (name : String) : Bool :=
  match env.resolve name with
  | none => true
  | some k => (st k).isSome

theorem exist_open {s : St F} (h : s.opend = true) (name : String) : exist env name s = (.ok (existsIn env s.store name), s) := by
  unfold exist
  rw [bind_ok (openIfClosed_open h)]
  have : h5Exists env name s = (.ok (existsIn env s.store name), s) := by
    unfold h5Exists existsIn; cases env.resolve name <;> rfl
  rw [bind_ok this, bind_ok (closeIf_false s)]; rfl

theorem exist_closed {s : St F} (h : s.opend = false) (hf : s.file.isSome = true) (name : String) :
    exist env name s = (.ok (existsIn env s.store name), s) := by
  unfold exist
  rw [bind_ok (openIfClosed_closed h hf)]
  have : h5Exists env name { s with opend := true } = (.ok (existsIn env s.store name), { s with opend := true }) := by
    unfold h5Exists existsIn; cases env.resolve name <;> rfl
  rw [bind_ok this, bind_ok (closeIf_true rfl)]
  obtain ⟨a, b, c⟩ := s
  simp only at h
  subst h; rfl

/-- The contents with the link `name` deleted. -/
def del (name : String) (st : Store F) : Store F :=
  match env.resolve name with
  | none => st
  | some k => fun x => if x = k then none else st x

theorem deleteIf_spec (name : String) (s : St F) :
    deleteIf env name (existsIn env s.store name) s = (.ok (), { s with file := s.file.map (del env name) }) := by
  unfold deleteIf existsIn h5Delete del
  cases hr : env.resolve name with
  | none =>
    simp only [if_true, pure_apply]
    obtain ⟨a, b, c⟩ := s
    cases c <;> rfl
  | some k =>
    simp only
    split
    · rfl
    · rename_i hno
      obtain ⟨a, b, c⟩ := s
      cases c with
      | none => rfl
      | some st =>
        simp only [pure_apply, Option.map_some]
        have hno : st k = none := by simpa [St.store] using hno
        congr 3
        funext x
        split
        · rename_i hx; rw [hx, hno]
        · rfl

theorem remove_readonly {s : St F} (h : s.writemode = false) (name : String) : remove env name s = (.throw .runtimeError, s) := by
  unfold remove
  rw [bind_throw (s' := s) (e := .runtimeError)]
  simp [checkWrite, h]

theorem checkWrite_ok {s : St F} (h : s.writemode = true) : checkWrite s = (.ok (), s) := by simp [checkWrite, h]

theorem remove_open {s : St F} (hw : s.writemode = true) (h : s.opend = true) (name : String) :
    remove env name s = (.ok (), { s with file := s.file.map (del env name) }) := by
  unfold remove
  rw [bind_ok (checkWrite_ok hw), bind_ok (openIfClosed_open h), bind_ok (exist_open env h name), bind_ok (deleteIf_spec env name s), closeIf_false]

theorem remove_closed {s : St F} (hw : s.writemode = true) (h : s.opend = false) (hf : s.file.isSome = true) (name : String) :
    remove env name s = (.ok (), { s with file := s.file.map (del env name) }) := by
  unfold remove
  rw [bind_ok (checkWrite_ok hw), bind_ok (openIfClosed_closed h hf), bind_ok (exist_open env (s := { s with opend := true }) rfl name),
    bind_ok (deleteIf_spec env name { s with opend := true }), closeIf_true rfl]
  simp only [h]

theorem remove_nofile {s : St F} (hw : s.writemode = true) (h : s.opend = false) (hf : s.file = none) (name : String) :
    remove env name s = (.throw .runtimeError, s) := by
  unfold remove
  rw [bind_ok (checkWrite_ok hw), bind_throw (openIfClosed_nofile h hf)]

/-- The contents with `v` stored under the link `k`. -/
def put (k : String) (v : Value F) (st : Store F) : Store F := fun x => if x = k then some (encode v) else st x

theorem h5Put_ok {name k : String} (hr : env.resolve name = some k) {v : Value F} (hv : v.addressable = true) (s : St F) :
    h5Put env name v s = (.ok (), { s with file := s.file.map (put k v) }) := by
  unfold h5Put
  rw [hr]
  simp only [hv, if_true, modifyStore]
  congr 3
  funext st x
  simp only [putCalls, List.foldl_cons, List.foldl_nil, put]
  split <;> rfl

theorem put_del {name k : String} (hr : env.resolve name = some k) (v : Value F) (st : Store F) : put k v (del env name st) = put k v st := by
  funext x
  simp only [put, del, hr]
  split <;> simp_all

theorem write_readonly {s : St F} (h : s.writemode = false) (name : String) (v : Value F) : write env name v s = (.throw .runtimeError, s) := by
  unfold write
  rw [bind_throw (s' := s) (e := .runtimeError)]
  simp [checkWrite, h]

theorem write_open {s : St F} (hw : s.writemode = true) (h : s.opend = true) {name k : String} (hr : env.resolve name = some k) {v : Value F}
    (hv : v.addressable = true) : write env name v s = (.ok (), { s with file := s.file.map (put k v) }) := by
  unfold write
  rw [bind_ok (checkWrite_ok hw), bind_ok (openIfClosed_open h), bind_ok (remove_open env hw h name), bind_ok (h5Put_ok env hr hv _), closeIf_false]
  simp only [Option.map_map]
  congr 3
  funext st
  exact put_del env hr v st

theorem write_closed {s : St F} (hw : s.writemode = true) (h : s.opend = false) (hf : s.file.isSome = true) {name k : String} (hr : env.resolve name = some k)
    {v : Value F} (hv : v.addressable = true) : write env name v s = (.ok (), { s with file := s.file.map (put k v) }) := by
  unfold write
  rw [bind_ok (checkWrite_ok hw), bind_ok (openIfClosed_closed h hf), bind_ok (remove_open env (s := { s with opend := true }) hw rfl name),
    bind_ok (h5Put_ok env hr hv _), closeIf_true rfl]
  simp only [Option.map_map, h]
  congr 3
  funext st
  exact put_del env hr v st

theorem write_nofile {s : St F} (hw : s.writemode = true) (h : s.opend = false) (hf : s.file = none) (name : String) (v : Value F) :
    write env name v s = (.throw .runtimeError, s) := by
  unfold write
  rw [bind_ok (checkWrite_ok hw), bind_throw (openIfClosed_nofile h hf)]

theorem map_id_of_none {name : String} (hr : env.resolve name = none) (s : St F) : { s with file := s.file.map (del env name) } = s := by
  have : del env name = (id : Store F → Store F) := by funext st; simp [del, hr]
  rw [this]; obtain ⟨a, b, c⟩ := s; cases c <;> rfl

/-- a path HDF5 cannot resolve: the exception leaves the file open -/
theorem write_unresolvable {s : St F} (hw : s.writemode = true) (hf : s.file.isSome = true) {name : String} (hr : env.resolve name = none) (v : Value F) :
    write env name v s = (.throw .runtimeError, { s with opend := true }) := by
  unfold write
  rw [bind_ok (checkWrite_ok hw)]
  cases h : s.opend with
  | true =>
    rw [bind_ok (openIfClosed_open h), bind_ok (remove_open env hw h name), map_id_of_none env hr]
    rw [bind_throw (s' := s) (e := .runtimeError) (by simp [h5Put, hr, fail])]
    obtain ⟨a, b, c⟩ := s; simp only at h; subst h; rfl
  | false =>
    rw [bind_ok (openIfClosed_closed h hf), bind_ok (remove_open env (s := { s with opend := true }) hw rfl name),
      map_id_of_none env hr { s with opend := true }]
    rw [bind_throw (s' := { s with opend := true }) (e := .runtimeError) (by simp [h5Put, hr, fail])]

theorem write_ub {s : St F} (hw : s.writemode = true) (hf : s.file.isSome = true) {name k : String} (hr : env.resolve name = some k) {v : Value F}
    (hv : v.addressable = false) : (write env name v s).1 = .ub := by
  unfold write
  rw [bind_ok (checkWrite_ok hw)]
  have hp : ∀ s : St F, h5Put env name v s = (.ub, s) := by intro s; simp [h5Put, hr, hv, lift]
  cases h : s.opend with
  | true => rw [bind_ok (openIfClosed_open h), bind_ok (remove_open env hw h name), bind_ub (hp _)]
  | false => rw [bind_ok (openIfClosed_closed h hf), bind_ok (remove_open env (s := { s with opend := true }) hw rfl name), bind_ub (hp _)]

/-- what a read finds -/
def lookup (st : Store F) (name : String) : Res (Dataset F) :=
  match env.resolve name with
  | none => .throw .runtimeError
  | some k => match st k with
    | none => .throw .runtimeError
    | some ds => .ok ds

/-- the outcome of looking an entry up and converting it -/
def found (st : Store F) (name : String) (k : Kind) : Res (Value F) := lookup env st name >>= decode env k

theorem find_open {s : St F} (h : s.opend = true) (name : String) (k : Kind) {β : Type} (g : Value F → M F β) :
    (do checkExist env name; let ds ← h5Open env name; let v ← lift (decode env k ds); g v : M F β) s =
      match found env s.store name k with
      | .ok v => g v s
      | .throw e => (.throw e, s)
      | .ub => (.ub, s) := by
  unfold found lookup checkExist
  rw [bind_apply, bind_ok (exist_open env h name)]
  unfold existsIn
  cases hr : env.resolve name with
  | none =>
    simp only [if_true, pure_apply]
    rw [bind_throw (s' := s) (e := .runtimeError) (by simp [h5Open, hr])]
    rfl
  | some k' =>
    simp only
    obtain ⟨o, hs⟩ : ∃ o, s.store k' = o := ⟨_, rfl⟩
    rcases o with _ | ds
    · simp only [hs, Option.isSome_none, Bool.false_eq_true, if_false, fail]
      rfl
    · simp only [hs, Option.isSome_some, if_true, pure_apply, Res.ok_bind]
      rw [bind_ok (s' := s) (a := ds) (by simp [h5Open, hr, hs]), bind_apply]
      simp only [lift]
      cases decode env k ds <;> rfl

/-- Reading an open file. -/
theorem readRaw_open {s : St F} (h : s.opend = true) (name : String) (k : Kind) : readRaw env name k s = (found env s.store name k, s) := by
  unfold readRaw
  rw [bind_ok (openIfClosed_open h), find_open env h name k (fun v => do closeIf false; pure v)]
  cases found env s.store name k <;> rfl

/-- Reading a closed file: it is closed again exactly on success. -/
theorem readRaw_closed {s : St F} (h : s.opend = false) (hf : s.file.isSome = true) (name : String) (k : Kind) :
    readRaw env name k s = (found env s.store name k, { s with opend := !(found env s.store name k).isOk }) := by
  unfold readRaw
  rw [bind_ok (openIfClosed_closed h hf), find_open env (s := { s with opend := true }) rfl name k (fun v => do closeIf true; pure v)]
  show (match found env s.store name k with | .ok v => _ | .throw e => _ | .ub => _) = _
  cases found env s.store name k with
  | ok v =>
    simp only [Res.isOk, Bool.not_true]
    rw [bind_ok (closeIf_true rfl)]; rfl
  | throw e => rfl
  | ub => rfl

theorem readRaw_nofile {s : St F} (h : s.opend = false) (hf : s.file = none) (name : String) (k : Kind) :
    readRaw env name k s = (.throw .runtimeError, s) := by
  unfold readRaw
  rw [bind_throw (openIfClosed_nofile h hf)]

end Ckpt
end HelFEM
