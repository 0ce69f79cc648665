import Verif.Model.DiaIndex
import Verif.Model.DiaMultipole
import Verif.Model.Couplings

/-!
# One-electron matrices of the diatomic basis

Models `src/diatomic/basis.cpp:1022-1299` (overlap, overlap with another basis, kinetic, nuclear, dipole, quadrupole, magnetic field) and the sizes of the
Gaunt table, `basis.cpp:543, 605-639`, over the real numbers. The radial matrices `radial_integral(m, n)`, `kinetic()` and `overlap(rh, n)`
(`basis.cpp:258-350, 396-407`) are parameters. A difference of matrices is modelled as the sum with the negative.
-/

namespace HelFEM
namespace DiaOne

open Sym

/-- what is used of the diatomic `RadialBasis`: elements, number of functions, `radial_integral(m, n)` and `kinetic()` -/
structure Radial where
  nel : Nat
  nbf : Nat
  bnd : Nat → ℝ
  integral : Int → Nat → Mat ℝ
  kin : Mat ℝ

/-- what is used of the diatomic `TwoDBasis`: radial basis, list of `(l, m)`, charges, half the bond length, Gaunt table -/
structure Diatom where
  rad : Radial
  lm : List (Int × Int)
  Z1 : Int
  Z2 : Int
  Rhalf : ℝ
  gaunt : Gaunt.Table ℝ

/-- `lrval` and `midval` of the constructor, `basis.cpp:543, 546-609, 632-635` -/
def gauntSizes (legendre : Bool) (lm : List (Int × Int)) : Res (Int × Int) :=
  match lm with
  | [] => .ub
  | p :: r =>
    let gmax := r.foldl (fun a q => max a q.1) p.1 + 2
    if legendre then Dia.multipoles lm >>= fun t => .ok (max (t.Lmax + 2) gmax, max t.Lmax 5) else .ok (gmax, 5)

/-- the constructor, `basis.cpp:531-646`; the fill loop of the Gaunt table runs in the order `sched` -/
noncomputable def Diatom.make (legendre : Bool) (rad : Radial) (lm : List (Int × Int)) (Z1 Z2 : Int) (Rhalf : ℝ) (G : Nat → Int → Nat → Int → Nat → Int → ℝ) (sched : List Nat) : Res Diatom :=
  gauntSizes legendre lm >>= fun s => absmMax lm >>= fun mabs => Gaunt.build G s.1.toNat s.2.toNat s.1.toNat (2 * mabs) sched >>= fun T => .ok ⟨rad, lm, Z1, Z2, Rhalf, T⟩

/-- `lval.size()`, `lval(i)`, `mval(i)` -/
def Diatom.nang (D : Diatom) : Nat := D.lm.length
def Diatom.l (D : Diatom) (i : Nat) : Int := (D.lm.getD i (0, 0)).1
def Diatom.m (D : Diatom) (i : Nat) : Int := (D.lm.getD i (0, 0)).2

/-- `Ndummy()` -/
def Diatom.ndummy (D : Diatom) : Nat := Dia.nDummy D.lm D.rad.nbf

/-- `set_sub`, `basis.cpp:1022-1025` -/
def Diatom.setSub (D : Diatom) (V : Mat ℝ) (i j : Nat) (M : Mat ℝ) : Res (Mat ℝ) := V.setBlock (i * D.rad.nbf) (j * D.rad.nbf) D.rad.nbf D.rad.nbf M

/-- `add_sub`, `basis.cpp:1027-1030` -/
def Diatom.addSub (D : Diatom) (V : Mat ℝ) (i j : Nat) (M : Mat ℝ) : Res (Mat ℝ) := V.addBlock (i * D.rad.nbf) (j * D.rad.nbf) D.rad.nbf D.rad.nbf M

/-- `if(c != 0.0) add_sub(V, i, j, M)` -/
noncomputable def Diatom.addIf (D : Diatom) (c : ℝ) (i j : Nat) (M V : Mat ℝ) : Res (Mat ℝ) := if c ≠ 0 then D.addSub V i j M else .ok V

/-- `if(li == lj) set_sub(V, i, j, M)` -/
def Diatom.setDiag (D : Diatom) (i j : Nat) (M V : Mat ℝ) : Res (Mat ℝ) := if D.l i = D.l j then D.setSub V i j M else .ok V

/-- `if(li == lj) add_sub(V, i, j, M)` -/
def Diatom.addDiag (D : Diatom) (i j : Nat) (M V : Mat ℝ) : Res (Mat ℝ) := if D.l i = D.l j then D.addSub V i j M else .ok V

/-- the iterations `(iang, jang)` -/
def pairs (n n' : Nat) : List (Nat × Nat) := (List.range n).flatMap fun i => (List.range n').map fun j => (i, j)

/-- the loops over the blocks, the factor and `remove_boundaries` -/
noncomputable def Diatom.finish (D : Diatom) (step : Mat ℝ → Nat × Nat → Res (Mat ℝ)) (s : ℝ) : Res (Mat ℝ) :=
  (pairs D.nang D.nang).foldlM step (Mat.zero D.ndummy D.ndummy) >>= fun V => Dia.removeBoundaries D.lm D.rad.nbf (V.smul s)

/-- one block of `overlap()`, `basis.cpp:1048-1057` -/
noncomputable def Diatom.overlapStep (D : Diatom) (V : Mat ℝ) (p : Nat × Nat) : Res (Mat ℝ) :=
  if D.m p.1 = D.m p.2 then
    D.setDiag p.1 p.2 (D.rad.integral 1 2) V >>= fun V1 =>
      D.gaunt.cosine2 (D.l p.2) (D.m p.2) (D.l p.1) (D.m p.1) >>= fun cpl => D.addIf cpl p.1 p.2 ((D.rad.integral 1 0).smul (-cpl)) V1
  else .ok V

/-- `overlap()`, `basis.cpp:1032-1065` -/
noncomputable def Diatom.overlap (D : Diatom) : Res (Mat ℝ) := D.finish D.overlapStep (D.Rhalf ^ 3)

/-- one block of `overlap(rh)`, `basis.cpp:1083-1089`; `cross n` is `radial.overlap(rh.radial, n)` -/
noncomputable def Diatom.crossStep (D E : Diatom) (cross : Nat → Mat ℝ) (S : Mat ℝ) (p : Nat × Nat) : Res (Mat ℝ) :=
  if D.m p.1 = E.m p.2 then
    (if D.l p.1 = E.l p.2 then S.setBlock (p.1 * D.rad.nbf) (p.2 * E.rad.nbf) D.rad.nbf E.rad.nbf (cross 2) else .ok S) >>= fun S1 =>
      D.gaunt.cosine2 (E.l p.2) (E.m p.2) (D.l p.1) (D.m p.1) >>= fun cpl =>
        if cpl ≠ 0 then S1.addBlock (p.1 * D.rad.nbf) (p.2 * E.rad.nbf) D.rad.nbf E.rad.nbf ((cross 0).smul (-cpl)) else .ok S1
  else .ok S

/-- the gather loop of `overlap(rh)`, `basis.cpp:1095-1100` -/
def gather (S : Mat ℝ) (ridx cidx : List Nat) : Res (Mat ℝ) :=
  if (∀ r ∈ ridx, r < S.rows) ∧ (∀ c ∈ cidx, c < S.cols) then .ok ⟨ridx.length, cidx.length, fun a b => S.get (ridx.getD a 0) (cidx.getD b 0)⟩ else .ub

/-- `overlap(rh)`, `basis.cpp:1067-1101` -/
noncomputable def Diatom.crossOverlap (D E : Diatom) (cross : Nat → Mat ℝ) : Res (Mat ℝ) :=
  (pairs D.nang E.nang).foldlM (D.crossStep E cross) (Mat.zero D.ndummy E.ndummy) >>= fun S =>
    gather (S.smul (D.Rhalf ^ 3)) (pureIndices D.lm D.rad.nbf) (pureIndices E.lm E.rad.nbf)

/-- one iteration of `kinetic()`, `basis.cpp:1112-1121` -/
noncomputable def Diatom.kinStep (D : Diatom) (V : Mat ℝ) (i : Nat) : Res (Mat ℝ) :=
  D.setSub V i i D.rad.kin >>= fun V1 =>
    (if D.l i ≠ 0 then D.addSub V1 i i ((D.rad.integral 1 0).smul ((D.l i * (D.l i + 1) : Int) : ℝ)) else .ok V1) >>= fun V2 =>
      if D.m i ≠ 0 then D.addSub V2 i i ((D.rad.integral (-1) 0).smul ((D.m i * D.m i : Int) : ℝ)) else .ok V2

/-- `kinetic()`, `basis.cpp:1103-1128` -/
noncomputable def Diatom.kinetic (D : Diatom) : Res (Mat ℝ) :=
  (List.range D.nang).foldlM D.kinStep (Mat.zero D.ndummy D.ndummy) >>= fun V => Dia.removeBoundaries D.lm D.rad.nbf (V.smul (D.Rhalf / 2))

/-- one block of `nuclear()`, `basis.cpp:1148-1159` -/
noncomputable def Diatom.nuclearStep (D : Diatom) (V : Mat ℝ) (p : Nat × Nat) : Res (Mat ℝ) :=
  if D.m p.1 = D.m p.2 then
    D.setDiag p.1 p.2 ((D.rad.integral 1 1).smul ((D.Z1 + D.Z2 : Int) : ℝ)) V >>= fun V1 =>
      if D.Z1 ≠ D.Z2 then
        D.gaunt.cosine (D.l p.2) (D.m p.2) (D.l p.1) (D.m p.1) >>= fun cpl => D.addIf cpl p.1 p.2 ((D.rad.integral 1 0).smul (((D.Z2 - D.Z1 : Int) : ℝ) * cpl)) V1
      else .ok V1
  else .ok V

/-- `nuclear()`, `basis.cpp:1130-1166` -/
noncomputable def Diatom.nuclear (D : Diatom) : Res (Mat ℝ) := D.finish D.nuclearStep (-D.Rhalf ^ 2)

/-- one block of `dipole_z()`, `basis.cpp:1185-1196` -/
noncomputable def Diatom.dipoleStep (D : Diatom) (V : Mat ℝ) (p : Nat × Nat) : Res (Mat ℝ) :=
  if D.m p.1 = D.m p.2 then
    D.gaunt.cosine (D.l p.2) (D.m p.2) (D.l p.1) (D.m p.1) >>= fun cpl1 => D.addIf cpl1 p.1 p.2 ((D.rad.integral 1 3).smul cpl1) V >>= fun V1 =>
      D.gaunt.cosine3 (D.l p.2) (D.m p.2) (D.l p.1) (D.m p.1) >>= fun cpl3 => D.addIf cpl3 p.1 p.2 ((D.rad.integral 1 1).smul (-cpl3)) V1
  else .ok V

/-- `dipole_z()`, `basis.cpp:1168-1204` -/
noncomputable def Diatom.dipole (D : Diatom) : Res (Mat ℝ) := D.finish D.dipoleStep (D.Rhalf ^ 4)

/-- one block of `quadrupole_zz()`, `basis.cpp:1224-1239`, with the three combinations of radial matrices -/
noncomputable def Diatom.quadStep (D : Diatom) (A B C : Mat ℝ) (V : Mat ℝ) (p : Nat × Nat) : Res (Mat ℝ) :=
  if D.m p.1 = D.m p.2 then
    D.gaunt.cosine4 (D.l p.2) (D.m p.2) (D.l p.1) (D.m p.1) >>= fun cpl4 => D.addIf cpl4 p.1 p.2 (A.smul cpl4) V >>= fun V1 =>
      D.gaunt.cosine2 (D.l p.2) (D.m p.2) (D.l p.1) (D.m p.1) >>= fun cpl2 => D.addIf cpl2 p.1 p.2 (B.smul cpl2) V1 >>= fun V2 =>
        D.addDiag p.1 p.2 C V2
  else .ok V

/-- `quadrupole_zz()`, `basis.cpp:1206-1247` -/
noncomputable def Diatom.quadrupole (D : Diatom) : Res (Mat ℝ) :=
  (D.rad.integral 1 0).add ((D.rad.integral 1 2).smul (-3)) >>= fun A =>
    ((D.rad.integral 1 4).smul 3).add ((D.rad.integral 1 0).smul (-1)) >>= fun B =>
      (D.rad.integral 1 2).add ((D.rad.integral 1 4).smul (-1)) >>= fun C => D.finish (D.quadStep A B C) (D.Rhalf ^ 5 / 2)

/-- the term of the angular momentum, `basis.cpp:1284-1293` -/
noncomputable def Diatom.magOrb (D : Diatom) (ds : ℝ) (p : Nat × Nat) (V : Mat ℝ) : Res (Mat ℝ) :=
  if ds ≠ 0 then
    D.addDiag p.1 p.2 (((D.rad.integral 1 2).smul (D.Rhalf ^ 3)).smul ds) V >>= fun V1 =>
      D.gaunt.cosine2 (D.l p.2) (D.m p.2) (D.l p.1) (D.m p.1) >>= fun cpl => D.addIf cpl p.1 p.2 (((D.rad.integral 1 0).smul (D.Rhalf ^ 3)).smul (-ds * cpl)) V1
  else .ok V

/-- one block of `Bz_field(B)`, `basis.cpp:1269-1294` -/
noncomputable def Diatom.magStep (D : Diatom) (B : ℝ) (V : Mat ℝ) (p : Nat × Nat) : Res (Mat ℝ) :=
  if D.m p.1 = D.m p.2 then
    D.gaunt.sine2 (D.l p.2) (D.m p.2) (D.l p.1) (D.m p.1) >>= fun cpl2 =>
      D.addIf cpl2 p.1 p.2 (((D.rad.integral 3 2).smul (D.Rhalf ^ 5)).smul (B * B / 8 * cpl2)) V >>= fun V1 =>
        D.gaunt.cosine2sine2 (D.l p.2) (D.m p.2) (D.l p.1) (D.m p.1) >>= fun cpl22 =>
          D.addIf cpl22 p.1 p.2 (((D.rad.integral 3 0).smul (D.Rhalf ^ 5)).smul (-(B * B / 8) * cpl22)) V1 >>= fun V2 =>
            D.magOrb (-(1 / 2) * D.m p.2 * B) p V2
  else .ok V

/-- `Bz_field(B)`, `basis.cpp:1249-1299` -/
noncomputable def Diatom.magnetic (D : Diatom) (B : ℝ) : Res (Mat ℝ) :=
  (pairs D.nang D.nang).foldlM (D.magStep B) (Mat.zero D.ndummy D.ndummy) >>= fun V => Dia.removeBoundaries D.lm D.rad.nbf V

end DiaOne
end HelFEM
