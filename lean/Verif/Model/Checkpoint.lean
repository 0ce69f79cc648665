import Verif.Model.Factory

/-!
# Checkpoint files

Models `src/general/checkpoint.cpp`: the HDF5 file is a map from link names to datasets, the `Checkpoint` object is the pair of flags `writemode`, `opend`.
A call returns an outcome and the new state, so that what an exception leaves behind is visible.  The parts of HDF5 used are modelled by
their documentation: a path is resolved to a link name or resolution fails (`H5Lexists`, `H5Ldelete`, `H5Dopen`, `H5Dcreate` then return a negative number), datasets
have a class, a shape and numbers, and reading converts to the memory type.
-/

namespace HelFEM
namespace Ckpt

/-- The floating point types the I/O is instantiated for, `checkpoint.cpp:1082-1086`. -/
inductive FType where
  | double | longDouble | quad
  deriving DecidableEq, Repr

/-- The integer types stored: `H5T_NATIVE_INT`, `H5T_NATIVE_HSIZE`, `H5T_NATIVE_HBOOL`, `H5T_NATIVE_CHAR`. -/
inductive IType where
  | int | hsize | hbool | char
  deriving DecidableEq, Repr

/-- Smallest and largest value of an integer type. -/
def IType.lo : IType → Int
  | .int => -2147483648
  | .hsize => 0
  | .hbool => 0
  | .char => -128
@[inherit_doc IType.lo] def IType.hi : IType → Int
  | .int => 2147483647
  | .hsize => 18446744073709551615
  | .hbool => 255
  | .char => 127

/-- HDF5's integer conversion clips to the range of the destination. -/
def clip (t : IType) (z : Int) : Int := max t.lo (min t.hi z)

/-- Shape of a dataset. -/
inductive Space where
  | scalar
  | simple (dims : List Nat)
  deriving DecidableEq, Repr

/-- The stored numbers with their class and type. -/
inductive Data (F : Type) where
  | float (t : FType) (xs : List F)
  | int (t : IType) (xs : List Int)

/-- A dataset. -/
structure Dataset (F : Type) where
  space : Space
  data : Data F

/-- What HDF5 and the floating point unit contribute: path resolution, conversion of a stored real to a floating point type and to an integer. -/
structure Env (F : Type) where
  resolve : String → Option String
  fconv : FType → F → F
  trunc : F → Int
  zero : F

/-- The root group: link name to dataset. -/
abbrev Store (F : Type) := String → Option (Dataset F)

/-- The `Checkpoint` object and the file it names (`none` if there is no such file). -/
structure St (F : Type) where
  writemode : Bool
  opend : Bool
  file : Option (Store F)

/-- A member function: outcome and state left behind. -/
def M (F α : Type) := St F → Res α × St F

instance {F : Type} : Monad (M F) where
  pure a := fun s => (.ok a, s)
  bind x f := fun s => match x s with
    | (.ok a, s') => f a s'
    | (.throw e, s') => (.throw e, s')
    | (.ub, s') => (.ub, s')

variable {F : Type}

/-- Throw an exception. -/
def fail {α : Type} (e : Exn) : M F α := fun s => (.throw e, s)
/-- A computation without access to the state. -/
def lift {α : Type} (r : Res α) : M F α := fun s => (r, s)

/-! ### Values of the API and their datasets -/

/-- The types with a `write`/`read` overload, `checkpoint.h:99-175`. Matrices carry their entries; `str` is the list of characters. -/
inductive Value (F : Type) where
  | mat (t : FType) (r c : Nat) (m : Fin r → Fin c → F)
  | vec (t : FType) (n : Nat) (v : Fin n → F)
  | imat (r c : Nat) (m : Fin r → Fin c → Int)
  | arr (t : FType) (xs : List F)
  | harr (xs : List Int)
  | scalar (t : FType) (x : F)
  | int (z : Int)
  | hsize (z : Int)
  | bool (b : Bool)
  | str (cs : List Int)

/-- Which overload. -/
inductive Kind where
  | mat (t : FType) | vec (t : FType) | imat | arr (t : FType) | harr | scalar (t : FType) | int | hsize | bool | str
  deriving DecidableEq, Repr

@[inherit_doc Kind] def Value.kind : Value F → Kind
  | .mat t _ _ _ => .mat t
  | .vec t _ _ => .vec t
  | .imat _ _ _ => .imat
  | .arr t _ => .arr t
  | .harr _ => .harr
  | .scalar t _ => .scalar t
  | .int _ => .int
  | .hsize _ => .hsize
  | .bool _ => .bool
  | .str _ => .str

/-- Eigen's buffer `m.data()`: column by column. -/
def colMajor {α : Type} (r c : Nat) (m : Fin r → Fin c → α) : List α :=
  (List.finRange c).flatMap fun j => (List.finRange r).map fun i => m i j

/-- The dataset each overload of `write` creates: float matrices have `dims = {cols, rows}` (`165-203`), vectors are one-column matrices
(`262-265`), integer matrices have `dims = {rows, cols}` (`280-317`), arrays one dimension (`364-398, 452-484`), scalars a scalar space (`688-720, 766-797, 836-867,
918-949`), strings `size()+1` characters including the terminating zero (`984-1019`). -/
def encode : Value F → Dataset F
  | .mat t r c m => ⟨.simple [c, r], .float t (colMajor r c m)⟩
  | .vec t n v => ⟨.simple [1, n], .float t (colMajor n 1 fun i _ => v i)⟩
  | .imat r c m => ⟨.simple [r, c], .int .int (colMajor r c m)⟩
  | .arr t xs => ⟨.simple [xs.length], .float t xs⟩
  | .harr xs => ⟨.simple [xs.length], .int .hsize xs⟩
  | .scalar t x => ⟨.scalar, .float t [x]⟩
  | .int z => ⟨.scalar, .int .int [z]⟩
  | .hsize z => ⟨.scalar, .int .hsize [z]⟩
  | .bool b => ⟨.scalar, .int .hbool [if b then 1 else 0]⟩
  | .str cs => ⟨.simple [cs.length + 1], .int .char (cs ++ [0])⟩

/-- `&(v[0])` of an empty `std::vector` is undefined (`checkpoint.cpp:391, 478` write, `441, 526` read). -/
def Value.addressable : Value F → Bool
  | .arr _ xs => !xs.isEmpty
  | .harr xs => !xs.isEmpty
  | _ => true

variable (env : Env F)

/-- `H5Dread` with a floating point memory type. -/
def readF (t : FType) : Data F → Res (List F)
  | .float _ xs => .ok (xs.map (env.fconv t))
  | .int _ _ => .throw .runtimeError

/-- `H5Dread` with an integer memory type; integer class. -/
def readI (t : IType) : Data F → Res (List Int)
  | .float _ _ => .throw .runtimeError
  | .int _ xs => .ok (xs.map (clip t))

/-- `H5Dread` with an integer memory type without a class check: floats are converted. -/
def readAny (t : IType) : Data F → List Int
  | .float _ xs => xs.map fun x => clip t (env.trunc x)
  | .int _ xs => xs.map (clip t)

/-- The checks and conversions of each `read` between opening the dataset and closing the file: `Mat` 217-248, `MatrixXi` 328-349 (no class check),
arrays 410-443 and 497-528, floats 731-755, `int` 806-825, `hsize_t` 876-895, `bool` 906-910, 960-974 (no class check), strings 1029-1060.
A vector is read as a matrix first. The order of class and shape check is immaterial, both throw `runtime_error`. -/
def decode : Kind → Dataset F → Res (Value F)
  | .mat t, ds => do
    let xs ← readF env t ds.data
    match ds.space with
    | .simple [d0, d1] => pure (.mat t d1 d0 fun i j => xs.getD (j.1 * d1 + i.1) env.zero)
    | _ => .throw .runtimeError
  | .vec t, ds => do
    let xs ← readF env t ds.data
    match ds.space with
    | .simple [d0, d1] => pure (.mat t d1 d0 fun i j => xs.getD (j.1 * d1 + i.1) env.zero)
    | _ => .throw .runtimeError
  | .imat, ds =>
    match ds.space with
    | .simple [d0, d1] => .ok (.imat d0 d1 fun i j => (readAny env .int ds.data).getD (j.1 * d0 + i.1) 0)
    | _ => .throw .runtimeError
  | .arr t, ds => do
    let xs ← readF env t ds.data
    match ds.space with
    | .simple [d0] => if d0 = 0 then .ub else pure (.arr t xs)
    | _ => .throw .runtimeError
  | .harr, ds => do
    let xs ← readI .hsize ds.data
    match ds.space with
    | .simple [d0] => if d0 = 0 then .ub else pure (.harr xs)
    | _ => .throw .runtimeError
  | .scalar t, ds => do
    let xs ← readF env t ds.data
    match ds.space with
    | .scalar => pure (.scalar t (xs.getD 0 env.zero))
    | _ => .throw .runtimeError
  | .int, ds => do
    let xs ← readI .int ds.data
    match ds.space with
    | .scalar => pure (.int (xs.getD 0 0))
    | _ => .throw .runtimeError
  | .hsize, ds => do
    let xs ← readI .hsize ds.data
    match ds.space with
    | .scalar => pure (.hsize (xs.getD 0 0))
    | _ => .throw .runtimeError
  | .bool, ds =>
    match ds.space with
    | .scalar => .ok (.bool ((readAny env .hbool ds.data).getD 0 0 != 0))
    | _ => .throw .runtimeError
  | .str, ds => do
    let xs ← readI .char ds.data
    match ds.space with
    | .simple [_] => if 0 ∈ xs then pure (.str (xs.takeWhile (· ≠ 0))) else .ub
    | _ => .throw .runtimeError

/-! ### The member functions -/

/-- `open`, `checkpoint.cpp:96-114`. -/
def openF : M F Unit := fun s =>
  if s.file.isNone then (.throw .runtimeError, s)
  else if s.opend then (.throw .runtimeError, s)
  else (.ok (), { s with opend := true })

/-- `close`, `checkpoint.cpp:116-122`. -/
def closeF : M F Unit := fun s => if s.opend then (.ok (), { s with opend := false }) else (.throw .runtimeError, s)

/-- `flush`, `checkpoint.cpp:124-127`: no effect on the modelled state. -/
def flush : M F Unit := fun s => (.ok (), s)

/-- `bool cl=false; if(!opend) {open(); cl=true;}`. -/
def openIfClosed : M F Bool := fun s => if s.opend then (.ok false, s) else (openF >>= fun _ => pure true : M F Bool) s

/-- `if(cl) close();`. -/
def closeIf (cl : Bool) : M F Unit := if cl then closeF else pure ()

/-- `CHECK_WRITE()`, line 22. -/
def checkWrite : M F Unit := fun s => if s.writemode then (.ok (), s) else (.throw .runtimeError, s)

/-- The links of the file. -/
def St.store (s : St F) : Store F := s.file.getD fun _ => none

/-- `bool ret = H5Lexists(...)`: a negative error code converts to `true`, `checkpoint.cpp:140`. -/
def h5Exists (name : String) : M F Bool := fun s =>
  match env.resolve name with
  | none => (.ok true, s)
  | some k => (.ok (s.store k).isSome, s)

/-- `exist`, `checkpoint.cpp:133-145`. -/
def exist (name : String) : M F Bool := do
  let cl ← openIfClosed
  let ret ← h5Exists env name
  closeIf cl
  pure ret

/-- Change the contents. -/
def modifyStore (f : Store F → Store F) : M F Unit := fun s => (.ok (), { s with file := s.file.map f })

/-- `H5Ldelete`, result ignored. -/
def h5Delete (name : String) : M F Unit :=
  match env.resolve name with
  | none => pure ()
  | some k => modifyStore fun st x => if x = k then none else st x

/-- The `if(exist(name)) H5Ldelete(...)` of `remove`. -/
def deleteIf (name : String) (ex : Bool) : M F Unit := if ex then h5Delete env name else pure ()

/-- `remove`, `checkpoint.cpp:147-162`. -/
def remove (name : String) : M F Unit := do
  checkWrite
  let cl ← openIfClosed
  let ex ← exist env name
  deleteIf env name ex
  closeIf cl

/-- A dataset as created, before the numbers are written: HDF5 fills with zeros. -/
def blank (ds : Dataset F) : Dataset F :=
  ⟨ds.space, match ds.data with
    | .float t xs => .float t (xs.map fun _ => env.zero)
    | .int t xs => .int t (xs.map fun _ => 0)⟩

/-- `H5Dcreate` then `H5Dwrite`, as the changes of the file they make one after the other. -/
def putCalls (k : String) (ds : Dataset F) : List (Store F → Store F) :=
  [fun st x => if x = k then some (blank env ds) else st x, fun st x => if x = k then some ds else st x]

/-- `H5Dcreate` (checked), `H5Dwrite`. -/
def h5Put (name : String) (v : Value F) : M F Unit :=
  match env.resolve name with
  | none => fail .runtimeError
  | some k => if v.addressable then modifyStore fun st => (putCalls env k (encode v)).foldl (fun st f => f st) st else lift .ub

/-- Every `write(name, value)`: `checkpoint.cpp:165-203, 262-265, 280-317, 364-398, 452-484, 688-720, 766-797, 836-867, 918-949, 984-1019` share this body. -/
def write (name : String) (v : Value F) : M F Unit := do
  checkWrite
  let cl ← openIfClosed
  remove env name
  h5Put env name v
  closeIf cl

/-- The changes of the file made one after the other by a `write` over an existing entry: `H5Ldelete` (`remove`, line 158), `H5Dcreate`, `H5Dwrite`
(e.g. lines 187-193). -/
def overwriteCalls (k : String) (ds : Dataset F) : List (Store F → Store F) :=
  (fun st x => if x = k then none else st x) :: putCalls env k ds

/-- What is in the file if the process dies after the first `j` of these calls, assuming every finished call has reached the disk (the best case). -/
def crashAfter (k : String) (ds : Dataset F) (st : Store F) (j : Nat) : Store F := ((overwriteCalls env k ds).take j).foldl (fun st f => f st) st

/-- `CHECK_EXIST()`, line 23. -/
def checkExist (name : String) : M F Unit := do
  let ex ← exist env name
  if ex then pure () else fail .runtimeError

/-- `H5Dopen` (checked). -/
def h5Open (name : String) : M F (Dataset F) := fun s =>
  match env.resolve name with
  | none => (.throw .runtimeError, s)
  | some k => match s.store k with
    | none => (.throw .runtimeError, s)
    | some ds => (.ok ds, s)

/-- The body shared by all `read(name, …)`: `206-259, 319-360, 401-450, 486-535, 723-763, 800-834, 870-904, 951-982, 1022-1069`. -/
def readRaw (name : String) (k : Kind) : M F (Value F) := do
  let cl ← openIfClosed
  checkExist env name
  let ds ← h5Open env name
  let v ← lift (decode env k ds)
  closeIf cl
  pure v

/-- The test after reading a vector as a matrix, `checkpoint.cpp:271-277`. -/
def asVec : Value F → Res (Value F)
  | .mat t r c m => if h : c = 1 then .ok (.vec t r fun i => m i ⟨0, by omega⟩) else .throw .runtimeError
  | v => .ok v

/-- `read(name, …)`. -/
def read (name : String) (k : Kind) : M F (Value F) :=
  match k with
  | .vec t => do
    let m ← readRaw env name (.vec t)
    lift (asVec m)
  | k => readRaw env name k

/-- The destructor, `checkpoint.cpp:91-94`. -/
def destroy (s : St F) : St F := { s with opend := false }

/-- The constructor `Checkpoint(fname, writem, trunc)`, `checkpoint.cpp:73-89`, on a file in state `file`. -/
def construct (file : Option (Store F)) (writem trunc : Bool) : Res Unit × St F :=
  if writem ∧ (trunc ∨ file.isNone) then (.ok (), ⟨writem, false, some fun _ => none⟩)
  else openF ⟨writem, false, file⟩

/-! ### Saving and loading a basis set -/

/-- The data members of an atomic `TwoDBasis` that determine it, `src/atomic/TwoDBasis.cpp:66-95`; the polynomial basis is the object the factory built. -/
structure AtomicBasis where
  Z : Int
  Zl : Int
  Zr : Int
  Rhalf : ℝ
  bval : List ℝ
  model : Int
  Rrms : ℝ
  nquad : Int
  poly : Factory.Built
  zeroder : Bool
  lval : List Int
  mval : List Int

/-- The data members of a diatomic `TwoDBasis`, `src/diatomic/basis.cpp:525-548`. -/
structure DiatomicBasis where
  Z1 : Int
  Z2 : Int
  Rhalf : ℝ
  bval : List ℝ
  nquad : Int
  poly : Factory.Built
  lval : List Int
  mval : List Int

/-- A `helfem::Vector`. -/
def vecOf (xs : List ℝ) : Value ℝ := .vec .double xs.length fun i => xs[i]
/-- `Eigen::MatrixXi(v)`: an `N x 1` matrix. -/
def colOf (xs : List Int) : Value ℝ := .imat xs.length 1 fun i _ => xs[i]
/-- An `int` (or `bool` returned as `int`). -/
def boolInt (b : Bool) : Int := if b then 1 else 0

/-- The entries written for an atomic basis, in order, `checkpoint.cpp:545-565`. -/
noncomputable def atomicEntries (b : AtomicBasis) : List (String × Value ℝ) :=
  [("HelFEM_ID", .int 1), ("Z", .int b.Z), ("Zl", .int b.Zl), ("Zr", .int b.Zr), ("Rhalf", .scalar .double b.Rhalf), ("bval", vecOf b.bval),
   ("finitenuc", .int b.model), ("Rrms", .scalar .double b.Rrms), ("n_quad", .int b.nquad), ("poly_id", .int b.poly.id),
   ("poly_nnodes", .int b.poly.basis.nnodes), ("zeroder", .int (boolInt b.zeroder)), ("lval", colOf b.lval), ("mval", colOf b.mval)]

/-- The entries written for a diatomic basis, in order, `checkpoint.cpp:627-642`. -/
noncomputable def diatomicEntries (b : DiatomicBasis) : List (String × Value ℝ) :=
  [("HelFEM_ID", .int 2), ("Z1", .int b.Z1), ("Z2", .int b.Z2), ("Rhalf", .scalar .double b.Rhalf), ("bval", vecOf b.bval),
   ("n_quad", .int b.nquad), ("poly_id", .int b.poly.id), ("poly_nnodes", .int b.poly.basis.nnodes), ("lval", colOf b.lval), ("mval", colOf b.mval)]

/-- A sequence of writes. -/
def writeAll : List (String × Value F) → M F Unit
  | [] => pure ()
  | (n, v) :: r => do
    write env n v
    writeAll r

/-- `write(basis)`, `checkpoint.cpp:537-568` and `619-645`. -/
def writeEntries (l : List (String × Value F)) : M F Unit := do
  checkWrite
  let cl ← openIfClosed
  writeAll env l
  closeIf cl

/-- The `int` inside a value read with the `int` overload. -/
def Value.toInt : Value F → Int
  | .int z => z
  | _ => 0
/-- The number inside a value read with the `double` overload. -/
def Value.toScalar (z : F) : Value F → F
  | .scalar _ x => x
  | _ => z
/-- The entries of a vector. -/
def Value.toList : Value F → List F
  | .vec _ _ v => List.ofFn v
  | _ => []
/-- `m.col(0)`: undefined for a matrix without columns. -/
def Value.col0 : Value F → Res (List Int)
  | .imat _ c m => if h : 0 < c then .ok (List.ofFn fun i => m i ⟨0, h⟩) else .ub
  | _ => .ub

/-- `int x; read(name, x)`. -/
def readInt (name : String) : M F Int := do
  let v ← read env name .int
  pure v.toInt
/-- `double x; read(name, x)`. -/
def readDouble (name : String) : M F F := do
  let v ← read env name (.scalar .double)
  pure (v.toScalar env.zero)
/-- `helfem::Vector x; read(name, x)`. -/
def readVec (name : String) : M F (List F) := do
  let v ← read env name (.vec .double)
  pure v.toList

/-- `if(id!=k) throw std::logic_error`. -/
def checkId (id k : Int) : M F Unit := if id ≠ k then fail .logicError else pure ()

/-- `read(atomic basis)`, `checkpoint.cpp:571-617`. The constructor of the basis is deterministic in these parameters. -/
noncomputable def readAtomic (env : Env ℝ) (lob : Nat → List ℝ) : M ℝ AtomicBasis := do
  let cl ← openIfClosed
  let id ← readInt env "HelFEM_ID"
  checkId id 1
  let Z ← readInt env "Z"
  let Zl ← readInt env "Zl"
  let Zr ← readInt env "Zr"
  let fin ← readInt env "finitenuc"
  let Rrms ← readDouble env "Rrms"
  let Rhalf ← readDouble env "Rhalf"
  let bval ← readVec env "bval"
  let nquad ← readInt env "n_quad"
  let pid ← readInt env "poly_id"
  let pn ← readInt env "poly_nnodes"
  let zd ← readInt env "zeroder"
  let lm ← read env "lval" .imat
  let mm ← read env "mval" .imat
  let poly ← lift (Factory.getBasis lob pid pn)
  let lval ← lift lm.col0
  let mval ← lift mm.col0
  closeIf cl
  pure ⟨Z, Zl, Zr, Rhalf, bval, fin, Rrms, nquad, poly, zd != 0, lval, mval⟩

/-- `read(diatomic basis)`, `checkpoint.cpp:648-686`. -/
noncomputable def readDiatomic (env : Env ℝ) (lob : Nat → List ℝ) : M ℝ DiatomicBasis := do
  let cl ← openIfClosed
  let id ← readInt env "HelFEM_ID"
  checkId id 2
  let Z1 ← readInt env "Z1"
  let Z2 ← readInt env "Z2"
  let Rhalf ← readDouble env "Rhalf"
  let bval ← readVec env "bval"
  let nquad ← readInt env "n_quad"
  let pid ← readInt env "poly_id"
  let pn ← readInt env "poly_nnodes"
  let lm ← read env "lval" .imat
  let mm ← read env "mval" .imat
  let poly ← lift (Factory.getBasis lob pid pn)
  let lval ← lift lm.col0
  let mval ← lift mm.col0
  closeIf cl
  pure ⟨Z1, Z2, Rhalf, bval, nquad, poly, lval, mval⟩

end Ckpt
end HelFEM
