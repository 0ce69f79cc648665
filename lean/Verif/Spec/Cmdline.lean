import Verif.Model.Cmdline
import Mathlib.Data.Nat.Digits.Defs

/-!
# What a command line means
-/

namespace HelFEM
namespace Cmd
namespace Spec

/-- `--name=value` -/
def assign (n v : Str) : Str := '-' :: '-' :: (n ++ '=' :: v)

/-- `--name` -/
def word (n : Str) : Str := '-' :: '-' :: n

/-- `--name=value` for each pair -/
def assigns (l : List (Str × Str)) : List Str := l.map fun x => assign x.1 x.2

/-- the last value given for a name -/
def lastFor (n : Str) (l : List (Str × Str)) : Option Str := ((l.filter fun x => x.1 = n).getLast?).map Prod.snd

/-- an option with a value, and the value can be read -/
def Accepts (o : Opt) (v : Str) : Prop := ∃ ty need read, o.kind = .value ty need read ∧ (read v).isSome

/-- what the text `v` sets the option to, if it can be read -/
def reads (o : Opt) (v : Str) : Option Val :=
  match o.kind with
  | .flag => none
  | .value _ _ read => read v

/-- an option that has to be given -/
def Needed (o : Opt) : Prop := ∃ ty read, o.kind = .value ty true read

/-- No two options have the same name. -/
def Named (p : Parser) : Prop := p.options.Pairwise fun a b => a.name ≠ b.name

/-- No two options have the same short name. -/
def Unambiguous (p : Parser) : Prop := p.options.Pairwise fun a b => a.name ≠ [] → b.name ≠ [] → a.short = none ∨ a.short ≠ b.short

/-- The value has the type of the option, and so have the values its reader returns. -/
def Typed (o : Opt) : Prop := ∀ ty need read, o.kind = .value ty need read → o.actual.ty = ty ∧ ∀ s v, read s = some v → v.ty = ty

/-- The parsers a program can have: made empty, given options whose readers and defaults have the type of the option, used any number of times. -/
inductive Reach : Parser → Prop
  | empty : Reach Parser.empty
  | add {p q name short kind dflt} : Reach p → Typed ⟨name, short, kind, false, dflt⟩ → p.add name short kind dflt = .ok q → Reach q
  | parse {p} (args) : Reach p → Reach (p.parse args).1
  | parseLine {p r} (line) : Reach p → p.parseLine line = .ok r → Reach r.1

/-- every character after a backslash -/
def escape (s : Str) : Str := s.flatMap fun c => ['\\', c]

/-- arguments with a space between -/
def join : List Str → Str
  | [] => []
  | [a] => escape a
  | a :: b :: l => escape a ++ ' ' :: join (b :: l)

/-- the number a sequence of decimal digits stands for -/
def decimal (ds : Str) : Nat := Nat.ofDigits 10 (ds.reverse.map fun c => c.toNat - 48)

/-- white space, a sign and digits -/
def Denotes (s : Str) (n : Int) : Prop :=
  ∃ ws sign ds : Str, s = ws ++ sign ++ ds ∧ (∀ c ∈ ws, isSpace c = true) ∧ ds ≠ [] ∧ (∀ c ∈ ds, c.isDigit = true) ∧
    ((sign = [] ∨ sign = ['+']) ∧ n = decimal ds ∨ sign = ['-'] ∧ n = -(decimal ds : Int))

end Spec
end Cmd
end HelFEM
