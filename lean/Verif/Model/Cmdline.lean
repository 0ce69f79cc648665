import Verif.Model.Basic
import Mathlib.Data.Rat.Defs

/-!
# The command line parser

Models `src/general/cmdline.h`: `parser::add`, `exist`, `get`, `rest`, the three `parse` overloads, `parse_check`, and the readers of integers, booleans and strings. A string is a list of
characters. Left out: `usage`, the descriptions of the options, allocation. A reader is a function that may fail; which exception it throws makes no difference (`:719-728`).
-/

namespace HelFEM
namespace Cmd

/-- a text -/
abbrev Str := List Char

/-- the types of options in use -/
inductive Ty where
  | int | num | str | bool
  deriving DecidableEq, Repr

/-- a value; the finite doubles are rational numbers -/
inductive Val where
  | int (n : Int) | num (x : Rat) | str (s : Str) | bool (b : Bool)
  deriving DecidableEq

/-- the type of a value -/
def Val.ty : Val → Ty
  | .int _ => .int
  | .num _ => .num
  | .str _ => .str
  | .bool _ => .bool

/-- `option_without_value` (`:640`) or `option_with_value_with_reader<T, F>` with `need` and the reader -/
inductive Kind where
  | flag
  | value (ty : Ty) (need : Bool) (read : Str → Option Val)

/-- an option: what it is, and whether and to what it has been set, `:642-646, 689-692, 698-706, 769-776`; `short = none` is the character 0 -/
structure Opt where
  name : Str
  short : Option Char
  kind : Kind
  has : Bool
  actual : Val

/-- `has_value`, `:649, 713` -/
def Opt.hasValue (o : Opt) : Bool :=
  match o.kind with
  | .flag => false
  | .value .. => true

/-- `set()`, `:651-654, 715-717`: `none` for `false` -/
def Opt.set0 (o : Opt) : Option Opt :=
  match o.kind with
  | .flag => some { o with has := true }
  | .value .. => none

/-- `set(value)`, `:656-658, 719-728` -/
def Opt.set1 (o : Opt) (v : Str) : Option Opt :=
  match o.kind with
  | .flag => none
  | .value _ _ read => (read v).map fun x => { o with has := true, actual := x }

/-- `valid`, `:664-666, 734-737` -/
def Opt.valid (o : Opt) : Bool :=
  match o.kind with
  | .flag => true
  | .value _ need _ => !(need && !o.has)

/-- the messages pushed to `errors`, `:394-618` -/
inductive Err where
  | noArgs
  | ambiguous (c : Char)
  | undefined (name : Str)
  | needsValue (name : Str)
  | invalid (name value : Str)
  | undefinedShort (c : Char)
  | ambiguousShort (c : Char)
  | need (name : Str)
  | backslash
  | quote
  deriving DecidableEq

/-- the parser, `:799-806`: `options` in the order of the map, `ordered` the names in the order they were added -/
structure Parser where
  options : List Opt
  ordered : List Str
  prog : Str
  others : List Str
  errors : List Err

/-- the constructor, `:312` -/
def Parser.empty : Parser := ⟨[], [], [], [], []⟩

/-- `options.count(name)` and `options.find(name)`, `:358-359` -/
def Parser.find (p : Parser) (name : Str) : Option Opt := p.options.find? fun o => o.name = name

/-- the option under its own name is replaced: `options[name]->set`, `:606, 617` -/
def Parser.put (p : Parser) (o : Opt) : Parser := { p with options := p.options.map fun x => if x.name = o.name then o else x }

/-- `errors.push_back` -/
def Parser.err (p : Parser) (e : Err) : Parser := { p with errors := p.errors ++ [e] }

/-- insertion into the map, sorted by name, `options[name]=`, `:324, 345` -/
def insertOpt (o : Opt) : List Opt → List Opt
  | [] => [o]
  | x :: l => if o.name < x.name then o :: x :: l else x :: insertOpt o l

/-- `add`, `:320-347`; a flag has no value to speak of -/
def Parser.add (p : Parser) (name : Str) (short : Option Char) (kind : Kind) (dflt : Val) : Res Parser :=
  if (p.find name).isSome then .throw .cmdlineError
  else .ok { p with options := insertOpt ⟨name, short, kind, false, dflt⟩ p.options, ordered := p.ordered ++ [name] }

/-- `exist`, `:357-360` -/
def Parser.exist (p : Parser) (name : Str) : Res Bool :=
  match p.find name with
  | none => .throw .cmdlineError
  | some o => .ok o.has

/-- `get<T>`, `:362-368` -/
def Parser.get (p : Parser) (T : Ty) (name : Str) : Res Val :=
  match p.find name with
  | none => .throw .cmdlineError
  | some o =>
    match o.kind with
    | .flag => .throw .cmdlineError
    | .value ty _ _ => if ty = T then .ok o.actual else .throw .cmdlineError

/-- `set_option(name)`, `:601-610` -/
def Parser.setFlag (p : Parser) (name : Str) : Parser :=
  match p.find name with
  | none => p.err (.undefined name)
  | some o =>
    match o.set0 with
    | none => p.err (.needsValue name)
    | some o' => p.put o'

/-- `set_option(name, value)`, `:612-621` -/
def Parser.setValue (p : Parser) (name value : Str) : Parser :=
  match p.find name with
  | none => p.err (.undefined name)
  | some o =>
    match o.set1 value with
    | none => p.err (.invalid name value)
    | some o' => p.put o'

/-- the table of short names, `:437-450`, or the first character that stands for two options -/
def lookupTable : List Opt → List (Char × Str) → Except Char (List (Char × Str))
  | [], t => .ok t
  | o :: l, t =>
    if o.name = [] then lookupTable l t
    else
      match o.short with
      | none => lookupTable l t
      | some c => if (t.lookup c).isSome then .error c else lookupTable l (t ++ [(c, o.name)])

/-- `strchr(.., '=')`, `:454-458`: the text before the first equals sign and the text after it -/
def splitEq : Str → Option (Str × Str)
  | [] => none
  | c :: s => if c = '=' then some ([], s) else (splitEq s).map fun x => (c :: x.1, x.2)

/-- a character of a cluster of short options other than the last, `:484-495` -/
def clusterStep (lk : List (Char × Str)) (p : Parser) (c : Char) : Parser :=
  match lk.lookup c with
  | none => p.err (.undefinedShort c)
  | some n => if n = [] then p.err (.ambiguousShort c) else p.setFlag n

/-- the loop over the arguments after the program name, `:452-517`. The option of a short name is always found (`C87_lookup`); `false` otherwise stands for a null pointer. -/
def run (lk : List (Char × Str)) (p : Parser) : List Str → Parser
  | [] => p
  | a :: rest =>
    if a.take 2 = ['-', '-'] then
      match splitEq (a.drop 2) with
      | some (n, v) => run lk (p.setValue n v) rest
      | none =>
        match p.find (a.drop 2) with
        | none => run lk (p.err (.undefined (a.drop 2))) rest
        | some o =>
          if o.hasValue then
            match rest with
            | [] => p.err (.needsValue (a.drop 2))
            | v :: rest' => run lk (p.setValue (a.drop 2) v) rest'
          else run lk (p.setFlag (a.drop 2)) rest
    else if a.take 1 = ['-'] then
      match a.drop 1 with
      | [] => run lk p rest
      | c :: cs =>
        let p' := (c :: cs).dropLast.foldl (clusterStep lk) p
        let last := (c :: cs).getLast (List.cons_ne_nil c cs)
        match lk.lookup last with
        | none => run lk (p'.err (.undefinedShort last)) rest
        | some n =>
          if n = [] then run lk (p'.err (.ambiguousShort last)) rest
          else
            match rest with
            | [] => p'.setFlag n
            | v :: rest' => if (p'.find n).any Opt.hasValue then run lk (p'.setValue n v) rest' else run lk (p'.setFlag n) (v :: rest')
    else run lk { p with others := p.others ++ [a] } rest
  termination_by l => l.length

/-- `parse(argc, argv)`, `:426-525` -/
def Parser.parse (p : Parser) (args : List Str) : Parser × Bool :=
  let p := { p with errors := [], others := [] }
  match args with
  | [] => (p.err .noArgs, false)
  | a :: rest =>
    let p := if p.prog = [] then { p with prog := a } else p
    match lookupTable p.options [] with
    | .error c => (p.err (.ambiguous c), false)
    | .ok lk =>
      let p := run lk p rest
      let p := { p with errors := p.errors ++ (p.options.filter fun o => !o.valid).map fun o => .need o.name }
      (p, p.errors.isEmpty)

/-- `parse(vector<string>)`, `:416-424`: the address of the first element of a vector without elements; the C strings end at a zero character -/
def Parser.parseVec (p : Parser) (args : List Str) : Res (Parser × Bool) :=
  if args = [] then .ub else .ok (p.parse (args.map fun s => s.takeWhile (· ≠ Char.ofNat 0)))

/-- the loop over the characters of a command line, `:377-408` -/
def tokens : Str → (buf : Str) → (quoted : Bool) → (args : List Str) → Except Err (List Str)
  | [], buf, quoted, args => if quoted then .error .quote else .ok (if buf = [] then args else args ++ [buf])
  | c :: s, buf, quoted, args =>
    if c = '"' then tokens s buf (!quoted) args
    else if c = ' ' ∧ quoted = false then tokens s [] quoted (args ++ [buf])
    else if c = '\\' then
      match s with
      | [] => .error .backslash
      | d :: s' => tokens s' (buf ++ [d]) quoted args
    else tokens s (buf ++ [c]) quoted args

/-- `parse(string)`, `:374-414` -/
def Parser.parseLine (p : Parser) (line : Str) : Res (Parser × Bool) :=
  match tokens line [] false [] with
  | .error e => .ok (p.err e, false)
  | .ok args => p.parseVec args

/-- after `check` (`:589-599`) the program goes on, or ends with an exit code -/
inductive Outcome where
  | go (p : Parser)
  | exit (code : Nat)

/-- `parse_check(argc, argv)` with `check`, `:539-543, 589-599` -/
def Parser.parseCheck (p : Parser) (args : List Str) : Res Outcome :=
  (if (p.find "help".toList).isSome then .ok p else p.add "help".toList (some '?') .flag (.bool false)) >>= fun p =>
    let r := p.parse args
    r.1.exist "help".toList >>= fun help =>
      if (args.length = 1 ∧ r.2 = false) ∨ help = true then .ok (.exit 0) else if r.2 = false then .ok (.exit 1) else .ok (.go r.1)

/-! ### Readers -/

/-- `isspace` in the C locale, skipped by `ss >> ret`, `:83` -/
def isSpace (c : Char) : Bool := c = ' ' ∨ c = '\t' ∨ c = '\n' ∨ c = '\r' ∨ c = Char.ofNat 11 ∨ c = Char.ofNat 12

/-- the digits of a decimal number that fills the text, `:83` -/
def readNat (s : Str) : Option Nat := if s ≠ [] ∧ s.all Char.isDigit then some (s.foldl (fun a c => 10 * a + (c.toNat - '0'.toNat)) 0) else none

/-- `ss >> ret && ss.eof()` for a signed integer in `[low, high]`, `:77-87`: white space, a sign, digits up to the end -/
def readInteger (low high : Int) (s : Str) : Option Int :=
  (match s.dropWhile isSpace with
    | '-' :: t => (readNat t).map fun n : Nat => -(n : Int)
    | '+' :: t => (readNat t).map fun n : Nat => (n : Int)
    | t => (readNat t).map fun n : Nat => (n : Int)).bind fun n => if low ≤ n ∧ n ≤ high then some n else none

/-- `default_reader<int>`, `:145-150` -/
def readInt (s : Str) : Option Val := (readInteger (-2147483648) 2147483647 s).map .int

/-- `default_reader<bool>`, `:145-150`: a `long` that has to be 0 or 1 -/
def readBool (s : Str) : Option Val := (readInteger (-9223372036854775808) 9223372036854775807 s).bind fun n => if n = 0 then some (.bool false) else if n = 1 then some (.bool true) else none

/-- `default_reader<string>`, `:59-65` -/
def readStr (s : Str) : Option Val := some (.str s)

end Cmd
end HelFEM
