import Verif.Model.Checkpoint

/-!
# Histories of a checkpoint file and what they leave behind
-/

namespace HelFEM
namespace Ckpt

variable {F : Type} (env : Env F)

/-- The calls a user can make on a checkpoint object. -/
inductive Op (F : Type) where
  | openFile
  | closeFile
  | flush
  | exist (name : String)
  | remove (name : String)
  | write (name : String) (v : Value F)
  | read (name : String) (k : Kind)

/-- What a call returns. -/
inductive Out (F : Type) where
  | none
  | bool (b : Bool)
  | value (v : Value F)

/-- Running one call. -/
def Op.run : Op F → M F (Out F)
  | .openFile => do openF; pure .none
  | .closeFile => do closeF; pure .none
  | .flush => do Ckpt.flush; pure .none
  | .exist n => do pure (.bool (← Ckpt.exist env n))
  | .remove n => do Ckpt.remove env n; pure .none
  | .write n v => do Ckpt.write env n v; pure .none
  | .read n k => do pure (.value (← Ckpt.read env n k))

/-- An event of a history: a call with its success, or the file being closed for good and reopened by a new object. -/
inductive Event (F : Type) where
  | call (op : Op F) (ok : Bool)
  | session (writem trunc : Bool)

/-- Histories in which exceptions are caught and the program goes on. -/
inductive Hist : St F → List (Event F) → St F → Prop where
  | nil (s) : Hist s [] s
  | call {s s1 s2 op r tr} : op.run env s = (r, s1) → r ≠ .ub → Hist s1 tr s2 → Hist s (.call op r.isOk :: tr) s2
  | session {s s1 s2 w t tr} : construct (destroy s).file w t = (.ok (), s1) → Hist s1 tr s2 → Hist s (.session w t :: tr) s2

/-- Specification: what one event does to the entry with link name `k`. Only a successful write or removal of that entry, or truncation, changes it. -/
def effect (k : String) (old : Option (Dataset F)) : Event F → Option (Dataset F)
  | .call (.write n v) true => if env.resolve n = some k then some (encode v) else old
  | .call (.remove n) true => if env.resolve n = some k then none else old
  | .session true true => none
  | _ => old

/-- The event writes or removes the entry with link name `k`. -/
def Touches (k : String) : Event F → Prop
  | .call (.write n _) true => env.resolve n = some k
  | .call (.remove n) true => env.resolve n = some k
  | .session true true => True
  | _ => False

/-- No new object with write permission is made. -/
def ReadOnly : Event F → Prop
  | .session w _ => w = false
  | _ => True

/-- Values that survive storage: floating point numbers of the type they are stored in, integers in range, nonempty arrays, strings without zero bytes. -/
def Storable : Value F → Prop
  | .mat t _ _ m => ∀ i j, env.fconv t (m i j) = m i j
  | .vec t _ v => ∀ i, env.fconv t (v i) = v i
  | .imat _ _ m => ∀ i j, IType.int.lo ≤ m i j ∧ m i j ≤ IType.int.hi
  | .arr t xs => xs ≠ [] ∧ ∀ x ∈ xs, env.fconv t x = x
  | .harr xs => xs ≠ [] ∧ ∀ x ∈ xs, IType.hsize.lo ≤ x ∧ x ≤ IType.hsize.hi
  | .scalar t x => env.fconv t x = x
  | .int z => IType.int.lo ≤ z ∧ z ≤ IType.int.hi
  | .hsize z => IType.hsize.lo ≤ z ∧ z ≤ IType.hsize.hi
  | .bool _ => True
  | .str cs => ∀ c ∈ cs, IType.char.lo ≤ c ∧ c ≤ IType.char.hi ∧ c ≠ 0

end Ckpt
end HelFEM
