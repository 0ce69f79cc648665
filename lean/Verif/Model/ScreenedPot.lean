import Mathlib.Analysis.SpecialFunctions.Pow.Real
import Mathlib.Analysis.SpecialFunctions.Sqrt
import Verif.Model.Screening

/-!
# Screened nuclear charges of the initial guesses

`general/gsz.cpp` (Green-Sellin-Zachor and Thomas-Fermi charges), the table lookup of `general/sap.cpp`, and the potentials
`TFAtom`, `GSZAtom`, `SAPAtom`, `SAPFEAtom` of `general/model_potential.cpp`.

A `double` that may be NaN is an `Option ℝ` with `none` for NaN; infinities and rounding are left out.  The 119 × 701 numbers of
the SAP table are a parameter.
-/

namespace HelFEM.Guess

/-- `d_Z_GSZ`, `gsz.cpp:19`, in thousandths -/
def gszTable : List Nat :=
  [1000, 215, 563, 858, 979, 880, 776, 708, 575, 500, 561, 621, 729, 817, 868, 885, 881, 862, 1006, 1154, 1116,
  1060, 996, 837, 866, 807, 751, 700, 606, 612, 631, 649, 663, 675, 684, 689, 744, 798, 855, 866, 831, 825,
  855, 803, 788, 737, 754, 775, 810, 841, 870, 896, 919, 940, 1022, 1108, 1150, 1081, 970, 938, 905, 873, 842,
  862, 830, 754, 728, 702, 677, 654, 665, 672, 676, 679, 680, 680, 679, 661, 657, 671, 690, 708, 726, 744, 761,
  777, 818, 859, 899, 927, 887, 880, 872, 832, 822, 842, 830, 790, 778, 766, 754, 742, 755]

/-- `std::pow(b, 0.4)`: NaN for a negative base, the exponent not being an integer -/
noncomputable def powNaN (b e : ℝ) : Option ℝ := if b < 0 then none else some (b ^ e)

/-- `GSZ_parameters`, `gsz.cpp:23-32`.  `(size_t) Z > N` also holds for every negative `Z`. -/
noncomputable def gszParameters (Z : Int) : Res (ℝ × Option ℝ) := do
  if Z < 0 ∨ Z > (gszTable.length : Int) then .throw .logicError
  else do
    let n ← readAt gszTable Z.toNat
    let d : ℝ := (n : ℝ) / 1000
    .ok (d, (powNaN ((Z - 1 : Int) : ℝ) (2 / 5)).map fun p => d * p)

/-- `Z_GSZ`, `gsz.cpp:34-36` -/
noncomputable def gszCharge (r Z d : ℝ) (H : Option ℝ) : Option ℝ :=
  H.map fun H => 1 + (Z - 1) * 1 / (1 + (Real.exp (r / d) - 1) * H)

/-- `Z_GSZ(r, Z)`, `gsz.cpp:45-49`, for one radius -/
noncomputable def gszChargeZ (r : ℝ) (Z : Int) : Res (Option ℝ) := do
  let p ← gszParameters Z
  .ok (gszCharge r Z p.1 p.2)

/-- `Z_thomasfermi`, `gsz.cpp:51-58`, for `r ≥ 0` and `Z ≥ 0` (`sqrt` of a negative number is NaN in the code); `cbrt` is the
real cube root, written as a power. -/
noncomputable def tfCharge (pi : ℝ) (r : ℝ) (Z : Int) : ℝ :=
  let alpha : ℝ := 7280642371 / 10000000000
  let beta : ℝ := -5430794693 / 10000000000
  let gamma : ℝ := 3612163121 / 10000000000
  let x := r * (128 * (Z : ℝ) / (9 * pi * pi)) ^ ((1 : ℝ) / 3)
  Z * (1 + alpha * Real.sqrt x + beta * x * Real.exp (-gamma * Real.sqrt x)) ^ 2 * Real.exp (-2 * alpha * Real.sqrt x)

/-- How the search of `sap.cpp:27918-27931` ended: at a tabulated radius, or between two neighbours. -/
inductive Hit where
  | exact (i : Nat)
  | between (l : Nat)
  deriving DecidableEq, Repr

/-- The `while (1)` loop of `sap.cpp:27920-27931`, at most `fuel` rounds; `none` when it is still running then. -/
noncomputable def search (xs : List ℝ) (x : Option ℝ) : Nat → Nat → Nat → Res (Option Hit)
  | 0, _, _ => .ok none
  | fuel + 1, l, r => do
    let m := (l + r) / 2
    let t ← readAt xs m
    let next := fun (l r : Nat) => (if l + 1 = r then .ok (some (.between l)) else search xs x fuel l r : Res (Option Hit))
    match x with
    | none => next l r
    | some x => if t < x then next m r else if t > x then next l m else .ok (some (.exact m))

/-- The Lagrange interpolation of `sap.cpp:27945-27963` through `k` points -/
noncomputable def lagrange (xi yi : List ℝ) (k : Nat) (x : ℝ) : Res ℝ :=
  (List.range k).foldlM (fun y i => do
    let a ← readAt xi i
    let li ← (List.range k).foldlM (fun li j =>
      (if i = j then .ok li else do
        let b ← readAt xi j
        .ok (li * ((x - b) / (a - b))) : Res ℝ)) 1
    let yv ← readAt yi i
    .ok (y + yv * li)) 0

/-- `sap_effective_charge`, `sap.cpp:46, 27894-27966`: `tab` is the table with the radii in row 0, `nelem = SAP_NELEM`,
`nrad = SAP_NRAD`, two points of interpolation (`LIP_ORDER`).  `none` inside `ok`: the search loop is still running after
`fuel` rounds. -/
noncomputable def sapCharge (tab : List (List ℝ)) (nelem nrad fuel : Nat) (Z : Int) (x : Option ℝ) : Res (Option ℝ) :=
  if Z < 1 then .ok (some 0)
  else if Z ≥ nelem then .ok (some 0)
  else do
    let xs ← readAt tab 0
    let ys ← readAt tab Z.toNat
    let last ← readAt xs (nrad - 1)
    match x with
    | none => do
      let _ ← search xs none fuel 0 (nrad - 1)
      .ok none
    | some x =>
      if x ≤ 0 then do let y ← readAt ys 0; .ok (some y)
      else if x ≥ last then do let y ← readAt ys (nrad - 1); .ok (some y)
      else do
        let h ← search xs (some x) fuel 0 (nrad - 1)
        match h with
        | none => .ok none
        | some (.exact i) => do let y ← readAt ys i; .ok (some y)
        | some (.between l) => do
          let l := if l + 2 - 1 ≥ nrad then l - (l + 2 - nrad) else l
          let xi ← (List.range 2).mapM fun i => readAt xs (l + i)
          let yi ← (List.range 2).mapM fun i => readAt ys (l + i)
          let y ← lagrange xi yi 2 x
          .ok (some y)

/-- `TFAtom::V`, `model_potential.cpp:53-55` -/
noncomputable def tfPotential (pi : ℝ) (Z : Int) (r : ℝ) : ℝ := -tfCharge pi r Z / r

/-- `GSZAtom(Z)` and `GSZAtom::V`, `model_potential.cpp:57-59, 67-69` -/
noncomputable def gszPotential (Z : Int) (r : ℝ) : Res (Option ℝ) := do
  let p ← gszParameters Z
  .ok ((gszCharge r Z p.1 p.2).map fun q => -q / r)

/-- `SAPAtom::V`, `model_potential.cpp:77-79` -/
noncomputable def sapPotential (tab : List (List ℝ)) (nelem nrad fuel : Nat) (Z : Int) (r : ℝ) : Res (Option ℝ) := do
  let q ← sapCharge tab nelem nrad fuel Z (some r)
  .ok (q.map fun q => -q / r)

/-- `SAPFEAtom(Z, x_func, c_func)`, `model_potential.cpp:84-90`: no record for a centre without charge -/
noncomputable def sapfe (maxZ : Int) (db : AtomDB.Db) (table : Int → List AtomDB.Shell) (Z : Int) : Res (Option AtomDB.Atom) :=
  if Z ≠ 0 then do
    let a ← AtomDB.Atom.make maxZ db table Z
    .ok (some a)
  else .ok none

/-- `SAPFEAtom::V`, `model_potential.cpp:95-98` -/
noncomputable def sapfePotential (L : Screening.Lib) (pi : ℝ) (Z : Int) (x c : Int) (a : Option AtomDB.Atom) (r : ℝ) : Res ℝ :=
  match a with
  | none => .ok 0
  | some a => do
    let q ← Screening.effectiveCharge L pi Z a x c r
    .ok (-q / r)

/-- `SAPFEAtom::breakpoints`, `model_potential.cpp:100-112`; the boundaries are `Atom::element_boundaries` -/
noncomputable def sapfeBreakpoints (a : Option AtomDB.Atom) (lo hi : ℝ) : List ℝ :=
  match a with
  | none => []
  | some a => a.db.o.bval.filter fun b => decide (b > lo) && decide (b < hi)

end HelFEM.Guess
