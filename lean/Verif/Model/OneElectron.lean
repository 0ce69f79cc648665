import Verif.Model.Mat
import Verif.Model.Couplings
import Mathlib.Algebra.Order.Group.MinMax

/-!
# One-electron matrices of the atomic basis

Models `src/atomic/TwoDBasis.cpp:308-583` (overlap, kinetic, nuclear, model potential, dipole, quadrupole, magnetic field), the per-element kernels of
`libhelfem/src/RadialBasis.cpp:246-257, 480-497, 605-641` and `libhelfem/include/radial_block_helper.h:40-55`, over the real numbers. The per-element quadrature
`matrix_element(iel, bra, ket, weight)` is a parameter; breakpoints and degree hints are left out, they only steer its accuracy.
-/

namespace HelFEM
namespace OneE

/-- `BasisKind`, `RadialBasis.h`: the function `B`, its derivative, and `B/r` (the kinds used here) -/
inductive Kind | B0 | B1 | R0
  deriving DecidableEq

/-- what is used of `FEMRadialBasisT`: number of elements and functions, `get_idx`, element boundaries and per-element quadrature -/
structure Radial where
  nel : Nat
  nbf : Nat
  first : Nat → Nat
  last : Nat → Nat
  bnd : Nat → ℝ
  elem : Kind → Kind → (ℝ → ℝ) → Nat → Mat ℝ

/-- `assemble_radial_diagonal`, `radial_block_helper.h:40-55` -/
noncomputable def Radial.assemble (R : Radial) (kernel : Nat → Res (Mat ℝ)) : Res (Mat ℝ) :=
  (List.range R.nel).foldlM (fun M e => kernel e >>= fun K => M.addBlock (R.first e) (R.first e) (R.last e + 1 - R.first e) (R.last e + 1 - R.first e) K) (Mat.zero R.nbf R.nbf)

/-- `radial_integral`, `RadialBasis.cpp:246-257` -/
noncomputable def Radial.radialIntegral (R : Radial) (k : Int) (e : Nat) : Mat ℝ := R.elem .R0 .R0 (fun r => r ^ (k + 2)) e

/-- `kinetic(iel)`, `RadialBasis.cpp:487` -/
noncomputable def Radial.kinetic (R : Radial) (e : Nat) : Mat ℝ := (R.elem .B1 .B1 (fun _ => 1) e).smul (1 / 2)

/-- `kinetic_l(iel)`, `RadialBasis.cpp:492` -/
noncomputable def Radial.kineticL (R : Radial) (e : Nat) : Mat ℝ := (R.elem .R0 .R0 (fun _ => 1) e).smul (1 / 2)

/-- `model_potential`, `RadialBasis.cpp:604-619` -/
noncomputable def Radial.modelPotential (R : Radial) (V : ℝ → ℝ) (e : Nat) : Mat ℝ := R.elem .B0 .B0 V e

/-- `nuclear_offcenter`, `RadialBasis.cpp:622-641` -/
noncomputable def Radial.nuclearOffcenter (R : Radial) (Rhalf : ℝ) (L : Nat) (e : Nat) : Res (Mat ℝ) :=
  if Rhalf ≤ R.bnd e then .ok ((R.radialIntegral (-(L : Int) - 1) e).smul (-√(4 * Real.pi / (2 * L + 1)) * Rhalf ^ L))
  else if R.bnd (e + 1) ≤ Rhalf then .ok ((R.radialIntegral L e).smul (-√(4 * Real.pi / (2 * L + 1)) * Rhalf ^ (-(L : Int) - 1)))
  else .throw .logicError

/-- what is used of `TwoDBasisT`: the radial basis, the list of `(l, m)`, charges, the position of the outer charges and, for a finite nucleus, its
potential (`none` is `POINT_NUCLEUS`) -/
structure Atom where
  rad : Radial
  lm : List (Nat × Int)
  Z : Int
  Zl : Int
  Zr : Int
  Rhalf : ℝ
  finite : Option (ℝ → ℝ)

/-- `lval.size()` -/
def Atom.nang (A : Atom) : Nat := A.lm.length

/-- `Ndummy()`, `TwoDBasis.cpp:166-168` -/
def Atom.ndummy (A : Atom) : Nat := A.nang * A.rad.nbf

/-- `lval(i)`, `mval(i)` -/
def Atom.l (A : Atom) (i : Nat) : Nat := (A.lm.getD i (0, 0)).1
def Atom.m (A : Atom) (i : Nat) : Int := (A.lm.getD i (0, 0)).2

/-- `lval.maxCoeff()`; of an empty vector it is undefined -/
def Atom.lmax (A : Atom) : Res Nat := match A.lm with
  | [] => .ub
  | p :: r => .ok (r.foldl (fun a q => max a q.1) p.1)

/-- `std::max(lval.maxCoeff(), mval.maxCoeff())` -/
def Atom.gmax (A : Atom) : Res Nat := match A.lm with
  | [] => .ub
  | p :: r => .ok (max ((r.foldl (fun a q => max a q.1) p.1 : Nat) : Int) (r.foldl (fun a q => max a q.2) p.2)).toNat

/-- `set_sub`, `TwoDBasis.cpp:308-312` -/
def Atom.setSub (A : Atom) (V : Mat ℝ) (i j : Nat) (M : Mat ℝ) : Res (Mat ℝ) := V.setBlock (i * A.rad.nbf) (j * A.rad.nbf) A.rad.nbf A.rad.nbf M

/-- `add_sub`, `TwoDBasis.cpp:314-318` -/
def Atom.addSub (A : Atom) (V : Mat ℝ) (i j : Nat) (M : Mat ℝ) : Res (Mat ℝ) := V.addBlock (i * A.rad.nbf) (j * A.rad.nbf) A.rad.nbf A.rad.nbf M

/-- the loops that set one block on each angular diagonal -/
def Atom.diagonal (A : Atom) (M : Mat ℝ) : Res (Mat ℝ) := (List.range A.nang).foldlM (fun V i => A.setSub V i i M) (Mat.zero A.ndummy A.ndummy)

/-- the iterations `(iang, jang)` of two nested loops -/
def Atom.pairs (A : Atom) : List (Nat × Nat) := (List.range A.nang).flatMap fun i => (List.range A.nang).map fun j => (i, j)

/-- `overlap()`, `TwoDBasis.cpp:321-334` -/
noncomputable def Atom.overlap (A : Atom) : Res (Mat ℝ) := do
  let O ← A.rad.assemble fun e => .ok (A.rad.radialIntegral 0 e)
  A.diagonal O

/-- `overlap(rh)`, `TwoDBasis.cpp:337-353`; `Srad` is `radial.overlap(rh.radial)` -/
def Atom.crossStep (A B : Atom) (Srad : Mat ℝ) (S : Mat ℝ) (p : Nat × Nat) : Res (Mat ℝ) :=
  if A.l p.1 = B.l p.2 ∧ A.m p.1 = B.m p.2 then S.setBlock (p.1 * A.rad.nbf) (p.2 * B.rad.nbf) A.rad.nbf B.rad.nbf Srad else .ok S

def Atom.crossOverlap (A B : Atom) (Srad : Mat ℝ) : Res (Mat ℝ) :=
  ((List.range A.nang).flatMap fun i => (List.range B.nang).map fun j => (i, j)).foldlM (A.crossStep B Srad) (Mat.zero A.ndummy B.ndummy)

/-- one iteration of `kinetic()`, `TwoDBasis.cpp:367-373` -/
noncomputable def Atom.kinStep (A : Atom) (T Tl : Mat ℝ) (V : Mat ℝ) (i : Nat) : Res (Mat ℝ) :=
  A.setSub V i i T >>= fun V1 => if 0 < A.l i then A.addSub V1 i i (Tl.smul ((A.l i : ℝ) * (A.l i + 1))) else .ok V1

/-- `kinetic()`, `TwoDBasis.cpp:356-375` -/
noncomputable def Atom.kinetic (A : Atom) : Res (Mat ℝ) := do
  let T ← A.rad.assemble fun e => .ok (A.rad.kinetic e)
  let Tl ← A.rad.assemble fun e => .ok (A.rad.kineticL e)
  (List.range A.nang).foldlM (A.kinStep T Tl) (Mat.zero A.ndummy A.ndummy)

/-- `model_potential`, `TwoDBasis.cpp:443-456` -/
noncomputable def Atom.modelPotential (A : Atom) (V : ℝ → ℝ) : Res (Mat ℝ) := do
  let O ← A.rad.assemble fun e => .ok (A.rad.modelPotential V e)
  A.diagonal O

/-- attraction by the charge at the origin, `TwoDBasis.cpp:388-396` -/
noncomputable def Atom.centre (A : Atom) : Res (Mat ℝ) :=
  if A.Z ≠ 0 then (A.rad.assemble fun e => .ok (A.rad.radialIntegral (-1) e)) >>= fun V => A.diagonal (V.smul (-(A.Z : ℝ)))
  else .ok (Mat.zero A.ndummy A.ndummy)

/-- one multipole of one block, `TwoDBasis.cpp:428-434` -/
noncomputable def Atom.offTerm (A : Atom) (T : Gaunt.Table ℝ) (aux : List (Mat ℝ)) (i j : Nat) (V : Mat ℝ) (L : Nat) : Res (Mat ℝ) :=
  T.coeff (A.l i) (A.m i) L 0 (A.l j) >>= fun cpl =>
    if cpl = 0 then .ok V
    else match aux[L]? with
      | none => .ub
      | some W => A.addSub V i j (W.smul (cpl * ((if L % 2 = 1 then -1 else 1) * (A.Zl : ℝ) + A.Zr)))

/-- the multipoles `|li - lj| … li + lj`, `TwoDBasis.cpp:428` -/
def multipoles (li lj : Nat) : List Nat := List.range' ((li - lj) + (lj - li)) (li + lj + 1 - ((li - lj) + (lj - li)))

/-- one block, `TwoDBasis.cpp:416-436` -/
noncomputable def Atom.offBlock (A : Atom) (T : Gaunt.Table ℝ) (aux : List (Mat ℝ)) (V : Mat ℝ) (p : Nat × Nat) : Res (Mat ℝ) :=
  if A.m p.1 ≠ A.m p.2 then .ok V
  else (multipoles (A.l p.1) (A.l p.2)).foldlM (A.offTerm T aux p.1 p.2) V

/-- the outer charges, `TwoDBasis.cpp:398-437`; `fill` is the order in which the table is filled, `sched` that of the blocks -/
noncomputable def Atom.offcentre (A : Atom) (G : Nat → Int → Nat → Int → Nat → Int → ℝ) (fill : List Nat) (sched : List (Nat × Nat)) (V : Mat ℝ) : Res (Mat ℝ) :=
  if A.Zl ≠ 0 ∨ A.Zr ≠ 0 then do
    let lmax ← A.lmax
    let aux ← (List.range (2 * lmax + 1)).mapM fun L => A.rad.assemble (A.rad.nuclearOffcenter A.Rhalf L)
    let g ← A.gmax
    let T ← Gaunt.build G g (2 * g) g (-1) fill
    sched.foldlM (A.offBlock T aux) V
  else .ok V

/-- `nuclear()`, `TwoDBasis.cpp:378-441` -/
noncomputable def Atom.nuclear (A : Atom) (G : Nat → Int → Nat → Int → Nat → Int → ℝ) (fill : List Nat) (sched : List (Nat × Nat)) : Res (Mat ℝ) :=
  match A.finite with
  | some V => A.modelPotential V
  | none => A.centre >>= fun V => A.offcentre G fill sched V

/-- one block of `dipole_z()`, `TwoDBasis.cpp:495-502` -/
noncomputable def Atom.dipStep (A : Atom) (T : Gaunt.Table ℝ) (O : Mat ℝ) (V : Mat ℝ) (p : Nat × Nat) : Res (Mat ℝ) :=
  T.cosine (A.l p.2) (A.m p.2) (A.l p.1) (A.m p.1) >>= fun cpl => if cpl ≠ 0 then A.setSub V p.1 p.2 (O.smul cpl) else .ok V

/-- `dipole_z()`, `TwoDBasis.cpp:478-506` -/
noncomputable def Atom.dipole (A : Atom) (G : Nat → Int → Nat → Int → Nat → Int → ℝ) (fill : List Nat) : Res (Mat ℝ) := do
  let O ← A.rad.assemble fun e => .ok (A.rad.radialIntegral 1 e)
  let g ← A.gmax
  let T ← Gaunt.build G g 1 g (-1) fill
  A.pairs.foldlM (A.dipStep T O) (Mat.zero A.ndummy A.ndummy)

/-- one block of `quadrupole_zz()`, `TwoDBasis.cpp:526-539` -/
noncomputable def Atom.quadStep (A : Atom) (T : Gaunt.Table ℝ) (O : Mat ℝ) (V : Mat ℝ) (p : Nat × Nat) : Res (Mat ℝ) :=
  if A.m p.2 ≠ A.m p.1 then .ok V
  else T.coeff (A.l p.2) (A.m p.2) 2 0 (A.l p.1) >>= fun cpl =>
    if cpl ≠ 0 then A.setSub V p.1 p.2 (O.smul (cpl * (2 / 5 * √(5 * Real.pi)))) else .ok V

/-- `quadrupole_zz()`, `TwoDBasis.cpp:509-543` -/
noncomputable def Atom.quadrupole (A : Atom) (G : Nat → Int → Nat → Int → Nat → Int → ℝ) (fill : List Nat) : Res (Mat ℝ) := do
  let O ← A.rad.assemble fun e => .ok (A.rad.radialIntegral 2 e)
  let g ← A.gmax
  let T ← Gaunt.build G g 2 g (-1) fill
  A.pairs.foldlM (A.quadStep T O) (Mat.zero A.ndummy A.ndummy)

/-- one block of `Bz_field()`, `TwoDBasis.cpp:565-577` -/
noncomputable def Atom.magStep (A : Atom) (B : ℝ) (T : Gaunt.Table ℝ) (O0 O2 : Mat ℝ) (V : Mat ℝ) (p : Nat × Nat) : Res (Mat ℝ) :=
  T.sine2 (A.l p.2) (A.m p.2) (A.l p.1) (A.m p.1) >>= fun cpl =>
    (if cpl ≠ 0 then A.setSub V p.1 p.2 (O2.smul (B * B / 8 * cpl)) else .ok V) >>= fun V1 =>
      if A.l p.1 = A.l p.2 ∧ A.m p.1 = A.m p.2 then A.addSub V1 p.1 p.2 (O0.smul (-(1 / 2) * B * A.m p.2)) else .ok V1

/-- `Bz_field(B)`, `TwoDBasis.cpp:546-583` -/
noncomputable def Atom.magnetic (A : Atom) (B : ℝ) (G : Nat → Int → Nat → Int → Nat → Int → ℝ) (fill : List Nat) : Res (Mat ℝ) := do
  let O0 ← A.rad.assemble fun e => .ok (A.rad.radialIntegral 0 e)
  let O2 ← A.rad.assemble fun e => .ok (A.rad.radialIntegral 2 e)
  let g ← A.gmax
  let T ← Gaunt.build G g 4 g (-1) fill
  A.pairs.foldlM (A.magStep B T O0 O2) (Mat.zero A.ndummy A.ndummy)

end OneE
end HelFEM
