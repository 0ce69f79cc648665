import Verif.Model.Basic
import Mathlib.Data.Real.Basic

/-!
# The search for a basis set of the diatomic program

`num_orbs` (`src/general/elements.cpp:47-78`) and `src/diatomic/corebasis.cpp`: the number of orbitals of each symmetry, the evaluation of a basis with its memory of bases already diagonalised, and the search for the
number of elements and of partial waves.

Simplifications. The eigenvalues of a basis (`corebasis.cpp:92-165`) are any function of the number of elements and the list of largest `l`, which may throw; that they depend on nothing else is what the comment
`:48-51` says. Energies are real numbers and `int` does not overflow. Loops without a bound take an amount of fuel; a run that has not ended when it is used up has no result. Printing is left out except for the
basis sets that are reported.
-/

namespace HelFEM
namespace Core

/-! ### Runs that may not end -/

/-- the result of a run, or none if the fuel was used up -/
abbrev Run (α : Type _) := Option (Res α)

/-- one after the other; an exception ends the program -/
def Run.bind {α β : Type _} (r : Run α) (g : α → Run β) : Run β :=
  match r with
  | none => none
  | some (.ok a) => g a
  | some (.throw e) => some (.throw e)
  | some .ub => some .ub

/-! ### The number of orbitals -/

/-- the first element of each shell and its `l`, `elements.cpp:48-49` -/
def shells : List (Nat × Nat) :=
  [1, 3, 5, 11, 13, 19, 21, 31, 37, 39, 49, 55, 57, 71, 81, 87, 89, 103, 113].zip [0, 0, 1, 0, 1, 0, 2, 1, 0, 2, 1, 0, 3, 2, 1, 0, 3, 2, 1]

/-- `num_orbs` of one atom, `elements.cpp:47-69`, added to the counters of sigma, pi, delta and phi; the cases of the switch fall through -/
def numOrbs1 (Z : Int) (n : Nat × Nat × Nat × Nat) : Res (Nat × Nat × Nat × Nat) :=
  shells.foldl (fun r s => r >>= fun n =>
    if (s.1 : Int) ≤ Z then
      match s.2 with
      | 3 => .ok (n.1 + 1, n.2.1 + 1, n.2.2.1 + 1, n.2.2.2 + 1)
      | 2 => .ok (n.1 + 1, n.2.1 + 1, n.2.2.1 + 1, n.2.2.2)
      | 1 => .ok (n.1 + 1, n.2.1 + 1, n.2.2.1, n.2.2.2)
      | 0 => .ok (n.1 + 1, n.2.1, n.2.2.1, n.2.2.2)
      | _ => .throw .logicError
    else .ok n) (.ok n)

/-- `num_orbs`, `elements.cpp:71-78` -/
def numOrbs (Z1 Z2 : Int) : Res (Nat × Nat × Nat × Nat) := numOrbs1 Z1 (0, 0, 0, 0) >>= numOrbs1 Z2

/-- the counts with the zeros erased from the end to the front, `corebasis.cpp:233-237` -/
def norbs (Z1 Z2 : Int) : Res (List Nat) :=
  numOrbs Z1 Z2 >>= fun n => .ok ((List.range 4).reverse.foldl (fun v m => if v.getD m 0 = 0 then v.eraseIdx m else v) [n.1, n.2.1, n.2.2.1, n.2.2.2])

/-! ### The evaluation of a basis -/

/-- `EvalKey`, `:53-60` -/
abbrev Key := Int × List Int

/-- `EvalValue`, `:61-64` -/
structure Value where
  ev : List ℝ
  nang : Nat
  nrad : Nat

/-- what `eval` gives back -/
structure Out where
  E : ℝ
  eval : List ℝ
  nang : Nat
  nrad : Nat

/-- `eval_cache`, `eval_hits`, `eval_misses`, `:65-66`; the newest entry is first -/
structure Memo where
  entries : List (Key × Value)
  hits : Nat
  misses : Nat

/-- the memory at the start -/
def Memo.empty : Memo := ⟨[], 0, 0⟩

/-- the energy of the lowest orbitals, `:82-87` and `:167-169` -/
noncomputable def outOf (v : Value) (norb : Nat) : Out :=
  ⟨(v.ev.take (min v.ev.length norb)).sum, v.ev.take (min v.ev.length norb), v.nang, v.nrad⟩

/-- `eval`, `:69-170`; `build` makes the basis and gives its eigenvalues -/
noncomputable def eval (build : Key → Res Value) (c : Memo) (k : Key) (norb : Nat) : Res (Out × Memo) :=
  match c.entries.lookup k with
  | some v => .ok (outOf v norb, { c with hits := c.hits + 1 })
  | none => build k >>= fun v => .ok (outOf v norb, ⟨(k, v) :: c.entries, c.hits, c.misses + 1⟩)

/-- the evaluation without a memory -/
noncomputable def evalPure (build : Key → Res Value) (_ : Unit) (k : Key) (norb : Nat) : Res (Out × Unit) := build k >>= fun v => .ok (outOf v norb, ())

/-! ### The search -/

/-- a way to evaluate a basis, with the state it keeps -/
abbrev Ev (σ : Type) := σ → Key → Nat → Res (Out × σ)

/-- the list with -1 for the other symmetries, `:271-290` -/
def lmOf (m : Nat) (l : Int) : List Int := List.replicate m (-1) ++ [l]

/-- the variables of the loop for one symmetry -/
structure Loop (σ : Type) where
  st : σ
  N : Int
  l : Int
  E : ℝ
  cvd : Bool

open Classical in
/-- the inner loop over partial waves, `:317-343` -/
noncomputable def angular {σ : Type} (ev : Ev σ) (m norb : Nat) (nadd : Int) (thr : ℝ) : Nat → Loop σ → Run (Loop σ)
  | 0, _ => none
  | f + 1, s => Run.bind (some (ev s.st (s.N, lmOf m (s.l + nadd)) norb)) fun r =>
      if r.1.E - s.E > -thr then some (.ok { s with st := r.2 })
      else angular ev m norb nadd thr f ⟨r.2, s.N, s.l + nadd, r.1.E, false⟩

open Classical in
/-- the loop for one symmetry, `:315-364` -/
noncomputable def channel {σ : Type} (ev : Ev σ) (m norb : Nat) (nadd : Int) (thr : ℝ) : Nat → Loop σ → Run (Loop σ)
  | 0, _ => none
  | f + 1, s => Run.bind (angular ev m norb nadd thr f s) fun s =>
      Run.bind (some (ev s.st (s.N + nadd, lmOf m s.l) norb)) fun r =>
        if r.1.E - s.E > -thr then some (.ok { s with st := r.2 })
        else channel ev m norb nadd thr f ⟨r.2, s.N + nadd, s.l, r.1.E, false⟩

/-- the variables of the loop over thresholds; `lmgrid` is not initialised, `:251-260` -/
structure Prog (σ : Type) where
  st : σ
  N : Int
  lmgrid : Nat → Option Int
  init : Nat → Bool
  cvd : Bool

/-- where the search starts for one symmetry, `:273-290` -/
def start {σ : Type} (n m : Nat) (p : Prog σ) : Res Int :=
  match (if p.init m then (if m + 1 < n then p.lmgrid (m + 1) else some (m : Int)) else p.lmgrid m) with
  | none => .ub
  | some l => .ok l

/-- one symmetry, `:269-367` -/
noncomputable def symmetry {σ : Type} (ev : Ev σ) (norbs : List Nat) (nadd : Int) (thr : ℝ) (f : Nat) (m : Nat) (p : Prog σ) : Run (Prog σ) :=
  Run.bind (some (start norbs.length m p)) fun l =>
    Run.bind (some (ev p.st (p.N, lmOf m l) (norbs.getD m 0))) fun r =>
      Run.bind (channel ev m (norbs.getD m 0) nadd thr f ⟨r.2, p.N, l, r.1.E, p.cvd⟩) fun s =>
        some (.ok ⟨s.st, s.N, fun k => if k = m then some s.l else p.lmgrid k, fun k => if k = m then false else p.init k, s.cvd⟩)

/-- the loop over the symmetries, from the last to the first, `:268` -/
noncomputable def pass {σ : Type} (ev : Ev σ) (norbs : List Nat) (nadd : Int) (thr : ℝ) (f : Nat) : Nat → Prog σ → Run (Prog σ)
  | 0, p => some (.ok p)
  | m + 1, p => Run.bind (symmetry ev norbs nadd thr f m p) (pass ev norbs nadd thr f m)

/-- a basis set that is reported: the threshold, the elements and the partial waves, `:370-380` -/
structure Report where
  thr : Nat
  N : Int
  lmgrid : List (Option Int)

/-- the loop over thresholds, `:262-384`, with the reports so far -/
noncomputable def search {σ : Type} (ev : Ev σ) (norbs : List Nat) (nadd thresh : Int) : Nat → Nat → Prog σ → List Report → Run (List Report × σ)
  | 0, _, _, _ => none
  | f + 1, ithr, p, out =>
      if (ithr : Int) ≤ thresh then
        Run.bind (pass ev norbs nadd (1 / 10 ^ ithr) f norbs.length { p with cvd := true }) fun p =>
          if p.cvd then search ev norbs nadd thresh f (ithr + 1) p (out ++ [⟨ithr, p.N, (List.range norbs.length).map p.lmgrid⟩])
          else search ev norbs nadd thresh f ithr p out
      else some (.ok (out, p.st))

/-- the program from `:247` on -/
noncomputable def program {σ : Type} (ev : Ev σ) (st : σ) (norbs : List Nat) (nadd thresh : Int) (f : Nat) : Run (List Report × σ) :=
  search ev norbs nadd thresh f 0 ⟨st, 1, fun _ => none, fun _ => true, true⟩ []

end Core
end HelFEM
