import Verif.Model.Basic
import Mathlib.Algebra.Order.Round
import Mathlib.Algebra.Order.Archimedean.Real.Basic

/-!
# Fixed occupations of the spherically averaged atom

Models the option `--occs` of `src/sadatom/main.cpp:364-421`, the occupations and particle numbers handed to the solver, `src/sadatom/scf.cpp:53-55, 99-100, 388-407`, and the atoms of the
completeness tool, `src/diatomic/twodquadrature.cpp:25-145, 507-571`. Numbers are exact reals; the solver itself is not modelled.
-/

namespace HelFEM
namespace SadSCF

/-- `while (iss >> v) vals.push_back(v)`, `sadatom/main.cpp:377-379`, on the words of the argument: `none` is a word which does not start with a number. What follows it is not looked at. -/
def readVals : List (Option ℝ) → List ℝ
  | some v :: r => v :: readVals r
  | _ => []

/-- `std::round` and `std::lround`: to the nearest integer, halves away from zero -/
noncomputable def roundAway (x : ℝ) : Int := if 0 ≤ x then ⌊x + 1 / 2⌋ else ⌈x - 1 / 2⌉

/-- `static_cast<int>`, which is undefined outside the range of `int` -/
def toInt (n : Int) : Res Int := if -2147483648 ≤ n ∧ n ≤ 2147483647 then .ok n else .ub

/-- filling shells of `2(2l+1)` electrons, `sadatom/main.cpp:402-408`: alpha and beta electrons so far -/
noncomputable def hundLoop (l : Nat) (numel : Int) (a b : ℝ) : ℝ × ℝ :=
  if 0 < numel then
    let numsh := min numel (2 * (2 * l + 1))
    let na := min numsh (2 * l + 1)
    hundLoop l (numel - numsh) (a + na) (b + (numsh - na : Int))
  else (a, b)
termination_by numel.toNat
decreasing_by omega

/-- the argument of `--occs` -/
inductive OccsArg where
  | auto
  | words (w : List (Option ℝ))

/-- `fixed_per_l_a`, `fixed_per_l_b` from `--occs`, `sadatom/main.cpp:373-420`; `lmax` is not negative -/
noncomputable def occsOption (restricted : Bool) (lmax : Nat) : OccsArg → Res (List ℝ × List ℝ)
  | .auto => .ok ([], [])
  | .words w =>
    let vals := readVals w
    let nl := lmax + 1
    if restricted then
      if vals.length ≠ nl then .throw .logicError else .ok (vals, [])
    else if vals.length = nl then
      if ∃ v ∈ vals, 1e-10 < |v - roundAway v| then .throw .logicError
      else
        (List.range nl).mapM (fun l => readAt vals l >>= fun v => toInt (roundAway v) >>= fun n => .ok (hundLoop l n 0 0)) >>= fun ab => .ok (ab.map Prod.fst, ab.map Prod.snd)
    else if vals.length = 2 * nl then .ok (vals.take nl, vals.drop nl)
    else .throw .logicError

/-- the electrons handed to the solver, `number_of_particles`, `sadatom/scf.cpp:54, 99-100` -/
def particles (restricted : Bool) (nela nelb : Int) : List Int := if restricted then [nela + nelb] else [nela, nelb]

/-- the vector given to `fixed_number_of_particles_per_block`, if it is called, `sadatom/scf.cpp:392-407` -/
noncomputable def fixedCounts (restricted : Bool) (lmax : Nat) (fa fb : List ℝ) : Option (List ℝ) :=
  let freezeA : Bool := decide (fa.length = lmax + 1)
  let freezeB : Bool := !restricted && decide (fb.length = lmax + 1)
  if freezeA || freezeB then
    let zero := List.replicate (lmax + 1) (0 : ℝ)
    some ((if freezeA then fa else zero) ++ if restricted then [] else if freezeB then fb else zero)
  else none

/-- `pbe_ground_states`, `twodquadrature.cpp:26-145` -/
def pbeGroundStates : List (List Nat) := [
  [1, 0, 0, 0], [2, 0, 0, 0], [3, 0, 0, 0], [4, 0, 0, 0], [4, 1, 0, 0], [4, 2, 0, 0], [4, 3, 0, 0], [4, 4, 0, 0],
  [4, 5, 0, 0], [4, 6, 0, 0], [5, 6, 0, 0], [6, 6, 0, 0], [6, 7, 0, 0], [6, 8, 0, 0], [6, 9, 0, 0], [6, 10, 0, 0],
  [6, 11, 0, 0], [6, 12, 0, 0], [7, 12, 0, 0], [8, 12, 0, 0], [8, 13, 0, 0], [8, 12, 2, 0], [8, 12, 3, 0], [8, 12, 4, 0],
  [6, 12, 7, 0], [6, 12, 8, 0], [6, 12, 9, 0], [6, 12, 10, 0], [7, 12, 10, 0], [8, 12, 10, 0], [8, 13, 10, 0], [8, 14, 10, 0],
  [8, 15, 10, 0], [8, 16, 10, 0], [8, 17, 10, 0], [8, 18, 10, 0], [9, 18, 10, 0], [10, 18, 10, 0], [10, 19, 10, 0], [10, 18, 12, 0],
  [10, 18, 13, 0], [8, 18, 16, 0], [8, 18, 17, 0], [8, 18, 18, 0], [8, 18, 19, 0], [8, 18, 20, 0], [9, 18, 20, 0], [10, 18, 20, 0],
  [10, 19, 20, 0], [10, 20, 20, 0], [10, 21, 20, 0], [10, 22, 20, 0], [10, 23, 20, 0], [10, 24, 20, 0], [11, 24, 20, 0], [12, 24, 20, 0],
  [12, 24, 21, 0], [12, 24, 22, 0], [12, 24, 21, 2], [12, 24, 20, 4], [12, 24, 20, 5], [12, 24, 20, 6], [12, 24, 20, 7], [11, 24, 20, 9],
  [10, 24, 20, 11], [10, 24, 20, 12], [10, 24, 20, 13], [10, 24, 20, 14], [11, 24, 20, 14], [12, 24, 20, 14], [12, 25, 20, 14], [12, 24, 22, 14],
  [12, 24, 23, 14], [10, 24, 26, 14], [10, 24, 27, 14], [10, 24, 28, 14], [10, 24, 29, 14], [10, 24, 30, 14], [11, 24, 30, 14], [12, 24, 30, 14],
  [12, 25, 30, 14], [12, 26, 30, 14], [12, 27, 30, 14], [12, 28, 30, 14], [12, 29, 30, 14], [12, 30, 30, 14], [13, 30, 30, 14], [14, 30, 30, 14],
  [14, 30, 31, 14], [14, 30, 32, 14], [14, 30, 30, 17], [14, 30, 30, 18], [14, 30, 30, 19], [13, 30, 30, 21], [12, 30, 30, 23], [12, 30, 30, 24],
  [12, 30, 30, 25], [12, 30, 30, 26], [12, 30, 30, 27], [12, 30, 30, 28], [13, 30, 30, 28], [14, 30, 30, 28], [14, 30, 31, 28], [14, 30, 32, 28],
  [14, 30, 33, 28], [12, 30, 36, 28], [12, 30, 37, 28], [12, 30, 38, 28], [12, 30, 39, 28], [12, 30, 40, 28], [13, 30, 40, 28], [14, 30, 40, 28],
  [14, 31, 40, 28], [14, 32, 40, 28], [14, 33, 40, 28], [14, 34, 40, 28], [14, 35, 40, 28], [14, 36, 40, 28]]

/-- `lmax_for_Z`, `twodquadrature.cpp:529-533` -/
def lmaxForZ (row : List Nat) : Int := if 0 < row.getD 3 0 then 3 else if 0 < row.getD 2 0 then 2 else if 0 < row.getD 1 0 then 1 else if 0 < row.getD 0 0 then 0 else -1

/-- What `run_side` asks of the atomic solver, `twodquadrature.cpp:541-565`: `lmax`, `nela`, `nelb`, the fixed occupations. All runs are restricted. -/
structure AtomRun where
  lmax : Int
  nela : Int
  nelb : Int
  fixed : List ℝ

/-- `run_side`; a nuclear charge past the table reads behind it -/
noncomputable def runSide (Z : Nat) : Res AtomRun :=
  readAt pbeGroundStates (Z - 1) >>= fun row =>
    let occ := row.take (lmaxForZ row + 1).toNat
    let Ntot := (occ.sum : Int)
    .ok ⟨lmaxForZ row, Ntot.tdiv 2, Ntot.tdiv 2, occ.map fun (n : Nat) => (n : ℝ)⟩

end SadSCF
end HelFEM
