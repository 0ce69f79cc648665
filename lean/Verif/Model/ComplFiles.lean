import Mathlib.Data.List.Sort
import Mathlib.Data.Int.Order.Basic

/-!
# Shells and files of the completeness scan

Models `src/diatomic/completeness.cpp:84-90, 95-97, 184-194, 292-316`: which shells and centres are scanned, and the names of the files written.
-/

namespace HelFEM
namespace Compl

/-- `std::unique` with `erase`: of equal neighbours only the first stays, `completeness.cpp:88` -/
def uniq : List Int → List Int
  | [] => []
  | [a] => [a]
  | a :: b :: t => if a = b then uniq (b :: t) else a :: uniq (b :: t)

/-- the `m` values scanned, `completeness.cpp:85-89` -/
def mvals (mval : List Int) : List Int := uniq (mval.mergeSort (· ≤ ·))

/-- the centres in the order of `indices`, `completeness.cpp:185` -/
inductive Cen | lh | mid | rh
  deriving DecidableEq

/-- names of the centres, `completeness.cpp:185` -/
def Cen.name : Cen → List Char
  | .lh => "lh".toList
  | .mid => "mid".toList
  | .rh => "rh".toList

/-- loops over `m`, `l = |m|, …, lmax` and centres, `completeness.cpp:95-96, 184-187` -/
def shells (mval : List Int) (lmax : Int) : List (Int × Nat × Cen) :=
  (mvals mval).flatMap fun m => (List.range' m.natAbs (lmax + 1 - m.natAbs).toNat).flatMap fun l => [.lh, .mid, .rh].map fun c => (m, l, c)

/-- the profiles written, `completeness.cpp:292-316` -/
inductive Prof | importance0 | importance | completeness
  deriving DecidableEq

/-- first word of the names of files -/
def Prof.name : Prof → List Char
  | .importance0 => "importance0".toList
  | .importance => "importance".toList
  | .completeness => "completeness".toList

/-- an integer printed by `operator<<` -/
def showInt (m : Int) : List Char := if m < 0 then '-' :: Nat.toDigits 10 m.natAbs else Nat.toDigits 10 m.natAbs

/-- `oss << "importance0_" << lcao << "_" << indices[icen] << "_" << l << "_" << m << ".dat"`, `completeness.cpp:294-316`; `sto` is the probe -/
def fileName (p : Prof) (sto : Bool) (c : Cen) (l : Nat) (m : Int) : List Char :=
  p.name ++ '_' :: ((if sto then "sto".toList else "gto".toList) ++ '_' :: (c.name ++ '_' :: (Nat.toDigits 10 l ++ '_' :: (showInt m ++ ".dat".toList))))

/-- all files written by a run, in order -/
def files (sto : Bool) (mval : List Int) (lmax : Int) : List (List Char) :=
  (shells mval lmax).flatMap fun s => [.importance0, .importance, .completeness].map fun p => fileName p sto s.2.2 s.2.1 s.1

end Compl
end HelFEM
