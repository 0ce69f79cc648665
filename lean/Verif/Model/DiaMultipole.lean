import Verif.Model.SymBlocks
import Verif.Model.Gaunt

/-!
# Multipole tables of the diatomic basis
-/

namespace HelFEM
namespace Dia
open Sym

/-- `lm_less`, `diatomic/basis.cpp:1310-1314`: `|M|` first, then `L` -/
def lmLess (a b : Int × Int) : Bool := if a.2 ≠ b.2 then decide (a.2 < b.2) else decide (a.1 < b.1)

/-- `operator<` on `(L, M)`, `diatomic/basis.cpp:1316-1328` (the same order as that of `std::pair`, which `std::lower_bound` may pick instead) -/
def LMLess (a b : Int × Int) : Bool :=
  if a.1 < b.1 then true else if b.1 < a.1 then false else if a.2 < b.2 then true else if b.2 < a.2 then false else false

/-- The loop of `std::lower_bound`: `len` elements remain after position `first`. `fuel` bounds the number of halvings. -/
def lowerBoundLoop {α : Type _} (lt : α → α → Bool) (l : List α) (p : α) : Nat → Nat → Nat → Res Nat
  | 0, first, _ => .ok first
  | fuel + 1, first, len =>
    if len = 0 then .ok first
    else
      match l[first + len / 2]? with
      | none => .ub
      | some x => if lt x p then lowerBoundLoop lt l p fuel (first + len / 2 + 1) (len - len / 2 - 1) else lowerBoundLoop lt l p fuel first (len / 2)

/-- `std::lower_bound(l.begin(), l.end(), p, lt)` as an offset -/
def lowerBound {α : Type _} (lt : α → α → Bool) (l : List α) (p : α) : Res Nat := lowerBoundLoop lt l p l.length 0 l.length

/-- `lmind`/`LMind`, `diatomic/basis.cpp:1562-1612`, after the sign of `M` has been dealt with -/
def lookup (lt : (Int × Int) → (Int × Int) → Bool) (tab : List (Int × Int)) (p : Int × Int) (check : Bool) : Res Nat := do
  let idx ← lowerBound lt tab p
  if check && idx == tab.length then .throw .logicError
  else if idx == tab.length then .ok idx
  else do
    let q ← readAt tab idx
    if check && q != p then .throw .logicError else .ok idx

/-- `lmind(L, M, check)`, `diatomic/basis.cpp:1562-1589`; `tab` is `lm_map` -/
def lmind (tab : List (Int × Int)) (L M : Int) (check : Bool) : Res Nat := lookup lmLess tab (L, |M|) check

/-- `LMind(L, M, check)`, `diatomic/basis.cpp:1591-1612`; `tab` is `LM_map` -/
def LMind (tab : List (Int × Int)) (L M : Int) (check : Bool) : Res Nat := lookup LMLess tab (L, M) check

/-- one insertion of the constructor, `diatomic/basis.cpp:582-602`: `idx` comes from the lookup without check -/
def insertAt (tab : List (Int × Int)) (p : Int × Int) (idx : Nat) : Res (List (Int × Int)) :=
  if idx = tab.length then .ok (tab ++ [p])
  else do
    let q ← readAt tab idx
    if q = p then .ok tab else .ok (tab.take idx ++ p :: tab.drop idx)

/-- The two tables and the largest `L` and `|M|`. -/
structure Multipoles where
  lm : List (Int × Int)
  LM : List (Int × Int)
  Lmax : Int
  Mmax : Int
  deriving DecidableEq, Repr

/-- table update, `diatomic/basis.cpp:581-591` and `593-603` -/
def addEntry (find : List (Int × Int) → Res Nat) (tab : List (Int × Int)) (p : Int × Int) : Res (List (Int × Int)) :=
  if tab.length = 0 then .ok (tab ++ [p])
  else do
    let idx ← find tab
    insertAt tab p idx

/-- body of the constructor's loop over `L`, `diatomic/basis.cpp:564-604` -/
def addMultipole (M : Int) (t : Multipoles) (L : Int) : Res Multipoles := do
  let lm ← addEntry (fun tab => lmind tab L M false) t.lm (L, |M|)
  let LM ← addEntry (fun tab => LMind tab L M false) t.LM (L, M)
  pure ⟨lm, LM, max t.Lmax L, max t.Mmax |M|⟩

/-- The `L` visited for two angular functions, `diatomic/basis.cpp:561-563`, `1657-1659`, `1796-1798`. -/
def coupledL (a b : Int × Int) (M : Int) : List Int := intRange (max (|b.1 - a.1| - 2) |M|) (b.1 + a.1 + 2)

/-- The table part of the constructor, `diatomic/basis.cpp:546-605`. -/
def multipoles (lm : List (Int × Int)) : Res Multipoles :=
  lm.foldlM (fun t a => lm.foldlM (fun t b => (coupledL a b (b.2 - a.2)).foldlM (addMultipole (b.2 - a.2)) t) t) ⟨[], [], 0, 0⟩

/-- The Gaunt table of the constructor, `diatomic/basis.cpp:543, 607-631`: sizes for the one- and the two-electron matrices. The maximum over an empty
list of angular functions is undefined. -/
def ctorGaunt {K : Type _} [Ring K] (G : Nat → Int → Nat → Int → Nat → Int → K) (lm : List (Int × Int)) (Lmax : Int) (sched : List Nat) : Res (Gaunt.Table K) :=
  match lm with
  | [] => .ub
  | p :: r => do
    let gmax := r.foldl (fun a q => max a q.1) p.1 + 2
    let mabs ← absmMax lm
    Gaunt.build G (max (Lmax + 2) gmax).toNat (max Lmax 5).toNat (max (Lmax + 2) gmax).toNat (2 * mabs) sched

/-- The `(L, M)` looked up by the first and the last loop of `coulomb`, `diatomic/basis.cpp:1647-1661`, `1785-1799`: `sgn = 1` for `M = mk - ml` in the
loop over the density (first index `k`), `M = mj - mi` (second index minus first) in the loop over the result. -/
def coulombRequests (lm : List (Int × Int)) : List (Int × Int) :=
  (lm.flatMap fun k => lm.flatMap fun l => (coupledL l k (k.2 - l.2)).map fun L => (L, k.2 - l.2)) ++
    lm.flatMap fun i => lm.flatMap fun j => (coupledL i j (j.2 - i.2)).map fun L => (L, j.2 - i.2)

/-- The `L` visited by `exchange` for four angular functions, `diatomic/basis.cpp:1924-1927` -/
def exchangeL (i j k l : Int × Int) : List Int :=
  intRange (max (max |i.1 - j.1| |k.1 - l.1| - 2) |j.2 - i.2|) (min (i.1 + j.1) (k.1 + l.1) + 2)

/-- The runs of equal `|M|`, `diatomic/basis.cpp:1399-1405`: the inner loop advances `j` while the entry has the `|M|` of the run's first. -/
def runEnd (tab : List (Int × Int)) (m : Int) : Nat → Nat → Nat
  | 0, j => j
  | fuel + 1, j => if j < tab.length ∧ (tab.getD j (0, 0)).2 = m then runEnd tab m fuel (j + 1) else j

def mruns (tab : List (Int × Int)) : Nat → Nat → List (Nat × Nat)
  | 0, _ => []
  | fuel + 1, i =>
    if i < tab.length then
      let j := runEnd tab (tab.getD i (0, 0)).2 (tab.length - i) i
      (i, j) :: mruns tab fuel j
    else []

/-- One computed integral: table entry, element, `L`, `|M|` and the largest `L` of the Legendre cache it uses. -/
structure Task where
  ilm : Nat
  iel : Nat
  L : Int
  Mabs : Int
  Lhi : Int
  deriving DecidableEq, Repr

/-- The integrals computed by the tasks of `compute_tei`, `diatomic/basis.cpp:1406-1431` -/
def disjointTasks (tab : List (Int × Int)) (nel : Nat) : List Task :=
  (mruns tab tab.length 0).flatMap fun g => (List.range nel).flatMap fun iel =>
    let Mabs := (tab.getD g.1 (0, 0)).2
    let Lhi := (List.range' g.1 (g.2 - g.1)).foldl (fun a ilm => max a (tab.getD ilm (0, 0)).1) 0
    (List.range' g.1 (g.2 - g.1)).map fun ilm => ⟨ilm, iel, (tab.getD ilm (0, 0)).1, Mabs, Lhi⟩

end Dia
end HelFEM
