import Verif.Model.RadialGrid
import Verif.Model.Nucleus
import Mathlib.Algebra.Order.Floor.Ring
import Mathlib.Analysis.Real.Pi.Bounds

/-!
# An atom in jellium: the background and the grid

Models `src/sadatom/aij.cpp:36-47, 161-314`: the positive background of constant density in which the atom sits and the element boundaries. Left out: option parsing, log lines. Numbers are exact
reals; conversions to `int` do not overflow.
-/

namespace HelFEM
namespace Aij

open RadialGrid

/-- the table of `consistent_lmax`, `aij.cpp:38` -/
def magic : List Int :=
  [2, 8, 19, 36, 59, 89, 118, 163, 215, 269, 341, 425, 516, 612, 731, 859, 994, 1131, 1300, 1424, 1625, 1820, 2043, 2295, 2543, 2821, 3080, 3337, 3665, 3987, 4373, 4741, 5155, 5611, 5961, 6407,
    6909, 7406, 7964, 8512, 9058, 9591, 10147, 10792, 11440, 12116, 12825, 13611, 14431, 15158, 15988, 16805, 17706, 18621, 19645, 20657, 21501, 22408, 23489, 24637, 25833, 26930, 28248, 29434,
    30645, 31904, 33212, 34657, 36113, 37655, 39105, 40511, 41843, 43494, 45069, 46840, 48404, 50040, 51814, 53644, 55608, 57488, 59540, 61712, 63658, 65554, 67735, 69649, 71971, 74347, 76766,
    78827, 81288, 83721, 86369, 89041, 91671, 94286, 96899, 99284]

/-- the loop over the table, from entry `i` on -/
def scanMagic (n : Int) : List Int → Nat → Res Nat
  | [], _ => .throw .logicError
  | m :: ms, i => if m > n then .ok i else scanMagic n ms (i + 1)

/-- `consistent_lmax`, `aij.cpp:36-47` -/
def consistentLmax (n : Int) : Res Nat := scanMagic n magic 0

/-- `std::cbrt`: the real cube root, of negative numbers too -/
noncomputable def cbrt (x : ℝ) : ℝ := if 0 ≤ x then x ^ (1 / 3 : ℝ) else -(-x) ^ (1 / 3 : ℝ)

/-- The radii `R`, `r_inner`, `r_outer`. -/
structure Radii where
  R : ℝ
  inner : ℝ
  outer : ℝ

/-- the radii, `aij.cpp:161-178`: `Z`, `Q`, `njellium` are integers -/
noncomputable def radii (vacancy : Bool) (Z Q n : Int) (rs : ℝ) : Radii :=
  if vacancy then ⟨cbrt (Z - Q + n) * rs, cbrt (Z - Q) * rs, cbrt (Z - Q + n) * rs⟩ else ⟨cbrt n * rs, 0, cbrt n * rs⟩

/-- `lmax = std::max(lmax, consistent_lmax(njellium))`, `aij.cpp:180`; `lmax` is the option -/
def jelliumLmax (lmax n : Int) : Res Int := consistentLmax n >>= fun l => .ok (max lmax l)

/-- the check of the background charge, `aij.cpp:196-202` -/
noncomputable def checkCharge (g : Radii) (n : Int) (rs : ℝ) : Res Unit :=
  if 0 < rs then (if |(g.outer / rs) ^ 3 - (g.inner / rs) ^ 3 - n| > 1e-8 * (max 1 n : Int) then .throw .logicError else .ok ()) else .ok ()

/-- `Erep`, `aij.cpp:213-215` -/
noncomputable def selfRepulsion (g : Radii) (rs : ℝ) : ℝ :=
  if 0 < rs then (3 * g.outer ^ 5 + 4.5 * g.inner ^ 5 - 7.5 * g.inner ^ 3 * g.outer ^ 2) / (5 * rs ^ 6) else 0

/-- `sphere_pot`, `aij.cpp:286-293` -/
noncomputable def spherePot (rs r R : ℝ) : ℝ := if r < R then (R / rs) ^ 3 * (3 - (r / R) ^ 2) / (2 * R) else (R / rs) ^ 3 / r

/-- `potfunc`, `aij.cpp:295-306` -/
noncomputable def potfunc (g : Radii) (rs r : ℝ) : ℝ :=
  if g.inner > 0 then -spherePot rs r g.outer + spherePot rs r g.inner else if g.outer > 0 then -spherePot rs r g.outer else 0

/-- `potential_breakpoints`, `aij.cpp:309-311` -/
noncomputable def breakpoints (g : Radii) : List ℝ := (if g.inner > 0 then [g.inner] else []) ++ if g.outer > 0 then [g.outer] else []

/-- `Enucfield`, `aij.cpp:314` -/
noncomputable def nucleusInField (g : Radii) (Z : Int) (rs : ℝ) : ℝ := -Z * potfunc g rs 0

/-! ### Element boundaries -/

/-- `friedel_period`, `aij.cpp:183` -/
noncomputable def period (rs : ℝ) : ℝ := cbrt (4 * Real.pi * Real.pi / 9) * rs

/-- `Nuelem`, `aij.cpp:185` -/
noncomputable def uniformCount (R rs nufreq : ℝ) : Int := if 0 < rs then ⌈R / period rs * nufreq⌉ else 0

/-- a uniform grid, `aij.cpp:220, 260` -/
noncomputable def uniformGrid (n : Int) (R : ℝ) (Z : Int) : Res (List ℝ) := formGrid .point 0 n R 1 0 0 0 0 Z 0 0 0 false 0

/-- the last entry of a vector -/
def lastOf (b : List ℝ) : Res ℝ := match b.getLast? with | some x => .ok x | none => .ub

/-- the glued grid, `aij.cpp:217-246`. An empty uniform grid stands for `Nuelem = 0`. -/
noncomputable def gluedGrid (igrid : Int) (zexp : ℝ) (Nelem Nu : Int) (R Rmax : ℝ) (Z : Int) : Res (List ℝ) :=
  (if Nu ≠ 0 then uniformGrid Nu R Z else .ok []) >>= fun unif =>
    if 0 < Nelem then
      (if 0 < Nu then readAt unif 1 else .ok Rmax) >>= fun rinf => formGrid .point 0 Nelem rinf igrid zexp 0 0 0 Z 0 0 0 false 0 >>= fun atom =>
        if unif ≠ [] then (lastOf atom >>= fun a => readAt unif 1 >>= fun u => if a ≠ u then .throw .logicError else .ok (atom ++ unif.drop 2)) else .ok atom
    else .ok unif

/-- the boundary at the edge of the vacancy, `aij.cpp:249-255` -/
noncomputable def withVacancy (vacancy : Bool) (rin : ℝ) (b : List ℝ) : List ℝ := if vacancy then Grid.stdSort (b ++ [rin]) else b

/-- the vacuum region, `aij.cpp:258-277` -/
noncomputable def withVacuum (Nu : Int) (Rmax rs nufreq : ℝ) (Z : Int) (b : List ℝ) : Res (List ℝ) :=
  if 0 < Nu ∧ 0 < Rmax then
    uniformGrid ⌈Rmax / period rs * nufreq⌉ Rmax Z >>= fun v => lastOf b >>= fun e => readAt (v.map (· + e)) 0 >>= fun v0 => if e ≠ v0 then .throw .logicError else .ok (b ++ (v.map (· + e)).drop 1)
  else .ok b

/-- `bval`, `aij.cpp:217-277` -/
noncomputable def boundaries (g : Radii) (vacancy : Bool) (igrid : Int) (zexp : ℝ) (Nelem : Int) (rs nufreq Rmax : ℝ) (Z : Int) : Res (List ℝ) :=
  gluedGrid igrid zexp Nelem (uniformCount g.R rs nufreq) g.R Rmax Z >>= fun b => withVacuum (uniformCount g.R rs nufreq) Rmax rs nufreq Z (withVacancy vacancy g.inner b)

end Aij
end HelFEM
