import Verif.Model.Basic
import Verif.Model.Elements
import Mathlib.Algebra.Order.Ring.Int

/-!
# Angular functions and symmetry blocks of the atomic and diatomic bases
-/

namespace HelFEM
namespace Sym

/-- `int` range `a..b` inclusive -/
def intRange (a b : Int) : List Int := (List.range (b + 1 - a).toNat).map fun k : Nat => a + (k : Int)

/-- one assignment `lval(iang)=…; mval(iang)=…; iang++` into vectors of `nang` entries: out of range is undefined -/
def push (nang : Nat) (acc : List (Int × Int)) (e : Int × Int) : Res (List (Int × Int)) :=
  if acc.length < nang then .ok (acc ++ [e]) else .ub

/-- The entries written by the loop body for `(mabs, l)`, `atomic/basis.cpp:192-200`, `diatomic/basis.cpp:509-515`. -/
def bodyEntries (mabs l : Int) : List (Int × Int) := if 0 < mabs then [(l, mabs), (l, -mabs)] else [(l, mabs)]

/-- `angular_basis`, `atomic/basis.cpp:179-203`. The vectors are a list of pairs `(l, m)`, filled in order. The count is a `size_t`; a negative sum
wraps to a size no vector can have (`ub`). -/
def angularBasis (lmax mmax : Int) : Res (List (Int × Int)) :=
  let nang := ((intRange 0 lmax).map fun l => 2 * min mmax l + 1).sum
  if nang < 0 then .ub
  else do
    let v ← ((intRange 0 mmax).flatMap fun mabs => (intRange mabs lmax).flatMap (bodyEntries mabs)).foldlM (push nang.toNat) []
    if v.length ≠ nang.toNat then .throw .logicError else .ok v

/-- `lm_to_l_m`, `diatomic/basis.cpp:505-520` -/
def lmToLM (lmax : List Int) : List (Int × Int) :=
  (List.range lmax.length).flatMap fun mabs : Nat => (intRange (mabs : Int) (lmax.getD mabs 0)).flatMap (bodyEntries (mabs : Int))

/-- `collect_shell_indices`, `angular_index_helpers.h:39-60`. The preallocated vector (whose length the first loop counts) is built by appending. -/
def collect (n : Nat) (size : Nat → Nat) (mt : Nat → Bool) : List Nat :=
  ((List.range n).foldl (fun (st : List Nat × Nat) i =>
    (if mt i then st.1 ++ (List.range (size i)).map (st.2 + ·) else st.1, st.2 + size i)) ([], 0)).1

/-- unique `m` values in ascending order, `TwoDBasis.cpp:208-213`, `diatomic/basis.cpp:877-881` -/
def uniqueM (lm : List (Int × Int)) : List Int :=
  Grid.stdSort (lm.foldl (fun acc p => if p.2 ∈ acc then acc else acc ++ [p.2]) [])

/-- Labels of the blocks, as data rather than as text. -/
inductive Label where
  | all
  | m (m : Int)
  | lm (l m : Int)
  | g (m : Int)
  | u (m : Int)
  | absm (m : Int)
  deriving DecidableEq, Repr

/-- number of functions of the atomic basis, `TwoDBasis.cpp:166-173` -/
def atomNbf (lm : List (Int × Int)) (nrad : Nat) : Nat := lm.length * nrad

/-- atomic `m_indices` and `lm_indices`, `TwoDBasis.cpp:186-197` -/
def atomM (lm : List (Int × Int)) (nrad : Nat) (m : Int) : List Nat := collect lm.length (fun _ => nrad) fun i => (lm.getD i (0, 0)).2 == m
def atomLM (lm : List (Int × Int)) (nrad : Nat) (l m : Int) : List Nat :=
  collect lm.length (fun _ => nrad) fun i => (lm.getD i (0, 0)).2 == m && (lm.getD i (0, 0)).1 == l

/-- atomic `get_sym_idx`, `TwoDBasis.cpp:200-227` -/
def atomSymIdx (lm : List (Int × Int)) (nrad : Nat) (symm : Int) : Res (List (List Nat)) :=
  if symm = 0 then .ok [List.range (atomNbf lm nrad)]
  else if symm = 1 then .ok ((uniqueM lm).map (atomM lm nrad))
  else if symm = 2 then .ok (lm.map fun p => atomLM lm nrad p.1 p.2)
  else .throw .logicError

/-- atomic `get_sym_labels`, `TwoDBasis.cpp:230-263` -/
def atomLabels (lm : List (Int × Int)) (symm : Int) : Res (List Label) :=
  if symm = 0 then .ok [.all]
  else if symm = 1 then .ok ((uniqueM lm).map .m)
  else if symm = 2 then .ok (lm.map fun p => .lm p.1 p.2)
  else .throw .logicError

/-- shell size of the diatomic basis (the first radial function is dropped for `m ≠ 0`; `nrad ≥ 1`), `diatomic/basis.cpp:857` -/
def diaSize (lm : List (Int × Int)) (nrad : Nat) (i : Nat) : Nat := if (lm.getD i (0, 0)).2 = 0 then nrad else nrad - 1

/-- `TwoDBasis::Nbf`, `diatomic/basis.cpp:697-708` -/
def diaNbf (lm : List (Int × Int)) (nrad : Nat) : Nat := (List.range lm.length).foldl (fun n i => n + nrad - (if (lm.getD i (0, 0)).2 = 0 then 0 else 1)) 0

/-- `pure_indices`, `diatomic/basis.cpp:718-737`, built by appending -/
def pureIndices (lm : List (Int × Int)) (nrad : Nat) : List Nat :=
  (List.range lm.length).foldl (fun acc i =>
    if (lm.getD i (0, 0)).2 = 0 then acc ++ (List.range nrad).map (fun j => i * nrad + j)
    else acc ++ (List.range (nrad - 1)).map (fun j => i * nrad + 1 + j)) []

/-- diatomic `m_indices`, `diatomic/basis.cpp:855-865`; `lval(i) % 2 == odd` with the C++ remainder -/
def diaM (lm : List (Int × Int)) (nrad : Nat) (m : Int) : List Nat := collect lm.length (diaSize lm nrad) fun i => (lm.getD i (0, 0)).2 == m
def diaMP (lm : List (Int × Int)) (nrad : Nat) (m : Int) (odd : Int) : List Nat :=
  collect lm.length (diaSize lm nrad) fun i => (lm.getD i (0, 0)).2 == m && (lm.getD i (0, 0)).1.tmod 2 == odd

/-- `absm_max`, `diatomic/basis.cpp:921-923`; undefined for an empty vector -/
def absmMax (lm : List (Int × Int)) : Res Int :=
  match lm with
  | [] => .ub
  | p :: r => .ok (max |r.foldl (fun a q => max a q.2) p.2| |r.foldl (fun a q => min a q.2) p.2|)

/-- diatomic `get_sym_idx`, `diatomic/basis.cpp:867-911` -/
def diaSymIdx (lm : List (Int × Int)) (nrad : Nat) (symm : Int) : Res (List (List Nat)) :=
  if symm = 0 then .ok [List.range (diaNbf lm nrad)]
  else if symm = 1 then .ok ((uniqueM lm).map (diaM lm nrad))
  else if symm = 2 then .ok ((uniqueM lm).flatMap fun m => [diaMP lm nrad m 0, diaMP lm nrad m 1])
  else if symm = 3 then do
    let a ← absmMax lm
    pure ((intRange 0 a).map (diaM lm nrad))
  else .throw .logicError

/-- diatomic `get_sym_mirror_idx`, `diatomic/basis.cpp:925-937` -/
def diaMirrorIdx (lm : List (Int × Int)) (nrad : Nat) (symm : Int) : Res (List (List Nat)) :=
  if symm ≠ 3 then do
    let b ← diaSymIdx lm nrad symm
    pure (b.map fun _ => [])
  else do
    let a ← absmMax lm
    pure ((intRange 0 a).map fun m => if m ≠ 0 then diaM lm nrad (-m) else [])

/-- diatomic `get_sym_labels`, `diatomic/basis.cpp:939-983` -/
def diaLabels (lm : List (Int × Int)) (symm : Int) : Res (List Label) :=
  if symm = 0 then .ok [.all]
  else if symm = 1 then .ok ((uniqueM lm).map .m)
  else if symm = 2 then .ok ((uniqueM lm).flatMap fun m => [.g m, .u m])
  else if symm = 3 then do
    let a ← absmMax lm
    pure ((intRange 0 a).map .absm)
  else .throw .logicError

end Sym
end HelFEM
