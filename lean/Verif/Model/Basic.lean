/-!
# Outcomes of modelled C++ functions

A modelled C++ function either returns a value, throws a C++ exception or runs into undefined
behaviour.  Undefined behaviour is a distinct outcome: out-of-range Eigen / `std::vector` accesses,
`segment` calls outside the vector, and index arithmetic that wraps before it is used as an index.
-/

namespace HelFEM

/-- The C++ exception classes thrown by the modelled code. -/
inductive Exn where
  | logicError
  | runtimeError
  | invalidArgument
  | domainError
  | badCast
  | cmdlineError
  deriving DecidableEq, Repr

/-- Outcome of a modelled C++ call. -/
inductive Res (α : Type u) where
  | ok (a : α)
  | throw (e : Exn)
  | ub
  deriving DecidableEq, Repr

namespace Res

@[simp] def bind {α β : Type _} (x : Res α) (f : α → Res β) : Res β :=
  match x with
  | ok a => f a
  | throw e => throw e
  | ub => ub

instance : Monad Res where
  pure := ok
  bind := bind

@[simp] theorem pure_eq {α : Type _} (a : α) : (pure a : Res α) = ok a := rfl
@[simp] theorem ok_bind {α β : Type _} (a : α) (f : α → Res β) : (ok a >>= f) = f a := rfl
@[simp] theorem throw_bind {α β : Type _} (e : Exn) (f : α → Res β) :
    ((throw e : Res α) >>= f) = throw e := rfl
@[simp] theorem ub_bind {α β : Type _} (f : α → Res β) : ((ub : Res α) >>= f) = ub := rfl
@[simp] theorem map_ok {α β : Type _} (g : α → β) (a : α) : (g <$> (ok a) : Res β) = ok (g a) := rfl
@[simp] theorem map_throw {α β : Type _} (g : α → β) (e : Exn) :
    (g <$> (throw e : Res α) : Res β) = throw e := rfl
@[simp] theorem map_ub {α β : Type _} (g : α → β) : (g <$> (ub : Res α) : Res β) = ub := rfl

instance : LawfulMonad Res := LawfulMonad.mk'
  (id_map := by intro α x; cases x <;> rfl)
  (pure_bind := by intros; rfl)
  (bind_assoc := by intro α β γ x f g; cases x <;> rfl)

theorem mapM_ok {α β : Type _} (f : α → Res β) (g : α → β) (l : List α) (h : ∀ a ∈ l, f a = .ok (g a)) :
    l.mapM f = .ok (l.map g) := by
  induction l with
  | nil => rfl
  | cons a l ih =>
    rw [List.mapM_cons, h a (by simp), ih (fun b hb => h b (by simp [hb]))]
    rfl

/-- The call returned normally. -/
def isOk {α : Type _} : Res α → Bool
  | ok _ => true
  | _ => false

end Res

/-- Reading `v(i)` / `v[i]`: outside the container it is undefined behaviour. -/
def readAt {α : Type _} (v : List α) (i : Nat) : Res α :=
  match v[i]? with
  | some a => .ok a
  | none => .ub

/-- Eigen's `v.segment(start, len)`: undefined behaviour (assertion in debug builds) unless
`0 ≤ start`, `0 ≤ len` and `start + len ≤ v.size()`. -/
def segment {α : Type _} (v : List α) (start len : Int) : Res (List α) :=
  if 0 ≤ start ∧ 0 ≤ len ∧ start + len ≤ v.length then
    .ok ((v.drop start.toNat).take len.toNat)
  else .ub

end HelFEM
