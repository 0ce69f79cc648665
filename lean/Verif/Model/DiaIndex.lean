import Verif.Model.SymBlocks
import Verif.Model.Mat

/-!
# Padded and physical functions of the diatomic basis

The padded ("dummy") space has `Nrad` radial functions for every angular function; the first radial function of an angular function with `m ≠ 0` is
not in the basis.
-/

namespace HelFEM
namespace Dia
open Sym

/-- `TwoDBasis::Ndummy`, `diatomic/basis.cpp:693-695` -/
def nDummy (lm : List (Int × Int)) (nrad : Nat) : Nat := lm.length * nrad

/-- `remove_boundaries`, `diatomic/basis.cpp:2091-2104`; `pure_idx` is the value of `pure_indices()` cached by the constructor (643). -/
def removeBoundaries {K : Type _} (lm : List (Int × Int)) (nrad : Nat) (F : Mat K) : Res (Mat K) :=
  if F.rows ≠ nDummy lm nrad ∨ F.cols ≠ nDummy lm nrad then .throw .logicError
  else
    let p := pureIndices lm nrad
    .ok ⟨p.length, p.length, fun i j => F.get (p.getD i 0) (p.getD j 0)⟩

/-- `M(a, b) = v`; outside the matrix it is undefined -/
def setEntry {K : Type _} (M : Mat K) (a b : Nat) (v : K) : Res (Mat K) :=
  if a < M.rows ∧ b < M.cols then .ok ⟨M.rows, M.cols, fun x y => if x = a ∧ y = b then v else M.get x y⟩ else .ub

/-- `expand_boundaries`, `diatomic/basis.cpp:2106-2118` -/
def expandBoundaries {K : Type _} [Zero K] (lm : List (Int × Int)) (nrad : Nat) (P : Mat K) : Res (Mat K) :=
  let p := pureIndices lm nrad
  if P.rows ≠ p.length ∨ P.cols ≠ p.length then .throw .logicError
  else (List.range p.length).foldlM (fun M j => (List.range p.length).foldlM (fun M i => setEntry M (p.getD i 0) (p.getD j 0) (P.get i j)) M)
    (Mat.zero (nDummy lm nrad) (nDummy lm nrad))

/-- `mapping[key] = value` on a `std::map` -/
def mapSet (mp : Nat → Option Nat) (key value : Nat) : Nat → Option Nat := fun k => if k = key then some value else mp k

/-- the loop filling the map, `diatomic/basis.cpp:2337-2339` -/
def realMap (lm : List (Int × Int)) (nrad : Nat) : Nat → Option Nat :=
  let p := pureIndices lm nrad
  (List.range p.length).foldl (fun mp i => mapSet mp (p.getD i 0) i) fun _ => none

/-- the body of the second loop, `diatomic/basis.cpp:2343-2351` -/
def pushReal (lm : List (Int × Int)) (nrad : Nat) (acc : List Nat) (k : Int) : List Nat :=
  match realMap lm nrad k.toNat with
  | none => acc
  | some i => acc ++ [i]

/-- `dummy_idx_to_real_idx`, `diatomic/basis.cpp:2325-2354`. An index is an `Eigen::Index`; the range test converts it to `size_t`, so a negative
one is out of range too. -/
def dummyToReal (lm : List (Int × Int)) (nrad : Nat) (idx : List Int) : Res (List Nat) :=
  if idx.any (fun k : Int => decide (k < 0) || decide ((nDummy lm nrad : Int) ≤ k)) then .throw .logicError
  else .ok (idx.foldl (pushReal lm nrad) [])

/-- `bf_list_dummy(iel)`, `diatomic/basis.cpp:2356-2373`; `ifirst`, `ilast` are the element's first and last radial function. The preallocated
vector is built by appending. -/
def bfListDummy (lm : List (Int × Int)) (nrad ifirst ilast : Nat) : List Nat :=
  (List.range lm.length).flatMap fun iam => (List.range (ilast - ifirst + 1)).map fun j => nrad * iam + ifirst + j

/-- `bf_list_dummy(iel, m)`, `diatomic/basis.cpp:2379-2397` -/
def bfListDummyM (lm : List (Int × Int)) (nrad ifirst ilast : Nat) (m : Int) : List Nat :=
  (List.range lm.length).foldl (fun acc iam =>
    if (lm.getD iam (0, 0)).2 = m then acc ++ (List.range (ilast - ifirst + 1)).map (fun j => nrad * iam + ifirst + j) else acc) []

/-- `bf_list(iel)`, `diatomic/basis.cpp:2375-2377` -/
def bfList (lm : List (Int × Int)) (nrad ifirst ilast : Nat) : Res (List Nat) :=
  dummyToReal lm nrad ((bfListDummy lm nrad ifirst ilast).map fun k : Nat => (k : Int))

end Dia
end HelFEM
