import Verif.Model.Elements
import Mathlib.Analysis.SpecialFunctions.Pow.Real

/-!
# Element boundary grids

Models `libhelfem/include/grid.h:38-101` (`get_grid`) and `src/atomic/basis.cpp:35-177`
(`concatenate_grid`, `finite_nuclear_grid`, `offcenter_nuclear_grid`, `form_grid`) over `ℝ`.
-/

namespace HelFEM
namespace RadialGrid

noncomputable section

/-- Eigen's `LinSpaced(n+1, lo, hi)` for `n ≥ 1`. (For `n = 0` Eigen returns `[hi]`; the only caller overwrites
that entry.) -/
def linSpaced (n : Nat) (lo hi : ℝ) : List ℝ :=
  (List.range (n + 1)).map fun i : Nat => lo + (i : ℝ) * ((hi - lo) / n)

/-- The loop filling `hk` from the last entry downwards, `grid.h:86-88`. -/
def geomSteps (s : ℝ) : Nat → ℝ → List ℝ → List ℝ
  | 0, _, acc => acc
  | k + 1, h, acc => geomSteps s k (s * h) (h :: acc)

/-- `bval(iel+1) = bval(iel) + hk(iel)`, `grid.h:89-91`. -/
def cumul : ℝ → List ℝ → List ℝ
  | b, [] => [b]
  | b, h :: hs => b :: cumul (b + h) hs

/-- The `switch` of `get_grid`, `grid.h:42-95`, for `n = num_el ≥ 0`. -/
def rawGrid (rmax : ℝ) (n : Nat) (igrid : Int) (zexp : ℝ) : Res (List ℝ) :=
  if igrid = 1 then .ok (linSpaced n 0 rmax)
  else if igrid = 2 then
    .ok ((List.range (n + 1)).map fun i : Nat => (i : ℝ) * i * rmax * (1 / ((n : ℝ) * n)))
  else if igrid = 3 then
    .ok ((List.range (n + 1)).map fun i : Nat => rmax * (((i : ℝ) * (1 / n)) ^ zexp))
  else if igrid = 4 then
    let upper := (Real.log (rmax + 1)) ^ (1 / zexp)
    .ok ((linSpaced n 0 upper).map fun t => Real.exp (t ^ zexp) - 1)
  else if igrid = 5 then
    if zexp ≤ 0 ∨ zexp ≥ 1 then .throw .logicError
    else if n = 0 then .ub  -- `hk(num_el-1)` with `num_el = 0`
    else .ok (cumul 0 (geomSteps zexp n ((1 - zexp) / (1 - zexp ^ n) * rmax) []))
  else .throw .logicError

/-- `get_grid`, `grid.h:38-101`.  A negative number of elements asks for a vector of nonpositive size and is
undefined (sizes -1 and below) or reads `bval(0)` of an empty vector. -/
def getGrid (rmax : ℝ) (numEl : Int) (igrid : Int) (zexp : ℝ) : Res (List ℝ) :=
  if numEl < 0 then
    if igrid = 5 ∧ (zexp ≤ 0 ∨ zexp ≥ 1) then .throw .logicError
    else if igrid < 1 ∨ igrid > 5 then .throw .logicError
    else .ub
  else do
    let b ← rawGrid rmax numEl.toNat igrid zexp
    -- endpoints made exact, `grid.h:98-99`
    pure ((b.set 0 0).set (b.length - 1) rmax)

/-- `concatenate_grid`, `src/atomic/basis.cpp:35-51`. -/
def concatenateGrid (left right : List ℝ) : Res (List ℝ) :=
  match left, right with
  | [], r => .ok r
  | l, [] => .ok l
  | l0 :: l, r0 :: r =>
    if l0 ≠ 0 then .throw .logicError
    else if r0 ≠ 0 then .throw .logicError
    else .ok ((l0 :: l) ++ r.map (· + (l0 :: l).getLast (by simp)))

/-- `finite_nuclear_grid`, `src/atomic/basis.cpp:57-69`. -/
def finiteNuclearGrid (numEl : Int) (rmax : ℝ) (igrid : Int) (zexp : ℝ) (numElNuc : Int) (rnuc : ℝ)
    (igridNuc : Int) (zexpNuc : ℝ) : Res (List ℝ) :=
  if numElNuc ≠ 0 then do
    let bnuc ← getGrid rnuc numElNuc igridNuc zexpNuc
    let belec ← getGrid (rmax - rnuc) numEl igrid zexp
    let bnucel ← concatenateGrid bnuc bnuc
    concatenateGrid bnucel belec
  else getGrid rmax numEl igrid zexp

/-- The reversed grid of `offcenter_nuclear_grid`, `src/atomic/basis.cpp:95-101`. -/
def reversedGrid (len : ℝ) (g : List ℝ) : List ℝ :=
  let r := g.reverse.map (fun x => -x + len)
  (r.set 0 0).set (r.length - 1) len

/-- `offcenter_nuclear_grid`, `src/atomic/basis.cpp:71-119`. (A zero denominator `Zm+Zlr` can only
occur with both flags off or with charges of opposite sign; division by zero is then a floating point
special value, not modelled: the theorems assume nonnegative charges.) -/
def offcenterNuclearGrid (numEl0 : Int) (Zm Zlr : Int) (Rhalf : ℝ) (numEl : Int) (rmax : ℝ) (igrid : Int)
    (zexp : ℝ) : Res (List ℝ) := do
  let b0used := Zm ≠ 0
  let b0 : ℝ := Zm * Rhalf / (Zm + Zlr : Int)
  let b1used := Zlr ≠ 0
  let b1 := Rhalf
  let b2 := rmax
  let bval0 ← if b0used then getGrid b0 numEl0 igrid zexp else .ok []
  let bval1 ← if b1used then do
      let g ← getGrid (b1 - b0) numEl0 igrid zexp
      pure (reversedGrid (b1 - b0) g)
    else .ok []
  let bval2 ← getGrid (b2 - b1) numEl igrid zexp
  let bval ← if b0used ∧ b1used then concatenateGrid bval0 bval1
    else if b0used then .ok bval0
    else .ok bval1
  if b0used ∨ b1used then concatenateGrid bval bval2 else .ok bval2

/-- `nuclear_model_t`, `src/general/model_potential.h:15-23`. -/
inductive NuclearModel where
  | point | gaussian | spherical | hollow | regularized | nosuch
  deriving DecidableEq

/-- The nuclear radius used for the grid, `src/atomic/basis.cpp:134-142`. -/
def nuclearRadius (m : NuclearModel) (Rrms : ℝ) : Res ℝ :=
  match m with
  | .hollow => .ok Rrms
  | .spherical => .ok (Real.sqrt (5 / 3) * Rrms)
  | .gaussian => .ok (3 * Rrms)
  | _ => .throw .logicError

/-- `form_grid` before the optional extra boundary, `src/atomic/basis.cpp:126-153`. -/
def formGridBase (m : NuclearModel) (Rrms : ℝ) (Nelem : Int) (Rmax : ℝ) (igrid : Int) (zexp : ℝ) (Nelem0 : Int)
    (igrid0 : Int) (zexp0 : ℝ) (Z Zl Zr : Int) (Rhalf : ℝ) : Res (List ℝ) :=
  if m ≠ .point ∧ m ≠ .regularized then
    if Zl ≠ 0 ∨ Zr ≠ 0 then .throw .logicError
    else do
      let rnuc ← nuclearRadius m Rrms
      finiteNuclearGrid Nelem Rmax igrid zexp Nelem0 rnuc igrid0 zexp0
  else if Zl ≠ 0 ∨ Zr ≠ 0 then
    offcenterNuclearGrid Nelem0 Z (max Zl Zr) Rhalf Nelem Rmax igrid zexp
  else getGrid Rmax Nelem igrid zexp

/-- `form_grid`, `src/atomic/basis.cpp:125-177`: the base grid and, if requested, the confinement shift as an
additional boundary unless it already is one (155-171).  Printing is not modelled. -/
def formGrid (m : NuclearModel) (Rrms : ℝ) (Nelem : Int) (Rmax : ℝ) (igrid : Int) (zexp : ℝ) (Nelem0 : Int)
    (igrid0 : Int) (zexp0 : ℝ) (Z Zl Zr : Int) (Rhalf : ℝ) (addEl : Bool) (shiftConf : ℝ) : Res (List ℝ) := do
  let bval ← formGridBase m Rrms Nelem Rmax igrid zexp Nelem0 igrid0 zexp0 Z Zl Zr Rhalf
  if addEl then
    if shiftConf ∈ bval then .ok bval
    else .ok (Grid.stdSort (bval ++ [shiftConf]))
  else .ok bval

end
end RadialGrid
end HelFEM
