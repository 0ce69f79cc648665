import Verif.Model.Harmonics
import Verif.Model.DiaIndex
import Verif.Model.Lcao
import Verif.Model.XC

/-!
# Model potentials and probe orbitals on the diatomic quadrature grid

`TwoDGridWorker` and `TwoDGrid` of `src/diatomic/twodquadrature.cpp:146-506`, used for the guess of `diatomic`, the nuclear attraction of
finite nuclei and the completeness profiles.  A worker holds one radial point at a time, so a matrix with one column per grid point has one column per
angle.  Angular momenta are natural numbers; exact real arithmetic.
-/

namespace HelFEM.TGrid

open Harm Dia

/-- One radial point of an element: first and last radial function of the element, `get_r(iel)(irad)`, `get_wrad(iel)(irad)` and row `irad` of `get_rad_bf(iel)` -/
structure Pt where
  first : Nat
  last : Nat
  mu : ℝ
  w : ℝ
  f : Nat → ℝ

/-- What the grid reads off the basis: `get_Rhalf`, the angular functions, `Nrad`, the radial points element by element, and the rule `chebyshev(lang)`: pairs of `cth` and `wang` (its quality is C07) -/
structure Grid where
  Rhalf : ℝ
  lm : List (Int × Int)
  nrad : Nat
  pts : List Pt
  ang : List (ℝ × ℝ)

/-- `probe_t`, `diatomic/twodquadrature.h:27-34` -/
inductive Probe where
  | left
  | middle
  | right
  deriving DecidableEq

/-- The members a worker holds after `compute_bf`; `itg` has one row per integrand -/
structure Worker where
  idx : List Nat
  wtot : Nat → ℝ
  bf : Mat ℝ
  itg : Mat ℝ

variable (g : Grid)

/-- `cth(ia)` -/
noncomputable def Grid.cth (ia : Nat) : ℝ := (g.ang.getD ia (0, 0)).1

/-- `wang(ia)` -/
noncomputable def Grid.wang (ia : Nat) : ℝ := (g.ang.getD ia (0, 0)).2

/-- `wtot`, `twodquadrature.cpp:176-190` -/
noncomputable def wtot (p : Pt) (ia : Nat) : ℝ :=
  2 * Real.pi * g.wang ia * p.w * g.Rhalf ^ 3 * Real.sinh p.mu * (Real.sinh p.mu ^ 2 + √(1 - g.cth ia * g.cth ia) ^ 2)

/-- `abf`, `twodquadrature.cpp:209` -/
noncomputable def abf (p : Pt) (m : Int) (ia : Nat) : Mat ℝ := evalBfM g.lm ⟨1, p.last - p.first + 1, fun _ j => p.f j⟩ (g.cth ia) m

/-- `compute_bf`, `twodquadrature.cpp:161-218`. The exception leaves a loop that may be parallel; it is reported as thrown (C90 shows it never is). -/
noncomputable def computeBf (p : Pt) (m : Int) : Res Worker :=
  let idx := bfListDummyM g.lm g.nrad p.first p.last m
  if ∃ ia < g.ang.length, (abf g p m ia).cols ≠ idx.length then .throw .logicError
  else .ok ⟨idx, wtot g p, ⟨idx.length, g.ang.length, fun a ia => (abf g p m ia).get 0 a⟩, ⟨0, 0, fun _ _ => 0⟩⟩

/-- `itg(0,idx)+=V` for a normal value, `twodquadrature.cpp:234-237`; `none` is a value that is not normal. A zero or subnormal value is not normal either; skipping it is
adding zero. -/
noncomputable def addNormal (x : ℝ) : Option ℝ → ℝ
  | none => x
  | some v => x + v

/-- `model_potential` of the worker, `twodquadrature.cpp:220-239`; `V1`, `V2` are the potentials as functions of the distance -/
noncomputable def modelPotential (V1 V2 : ℝ → Option ℝ) (p : Pt) (wk : Worker) : Worker :=
  { wk with itg := ⟨1, g.ang.length, fun _ ia =>
      addNormal (addNormal 0 (V1 (g.Rhalf * (Real.cosh p.mu + g.cth ia)))) (V2 (g.Rhalf * (Real.cosh p.mu - g.cth ia)))⟩ }

/-- `eval_Plm`, `twodquadrature.cpp:248-252` -/
noncomputable def evalPlm (l : Nat) (m : Int) (c : ℝ) : ℝ := sphLegendre l m.natAbs (Real.arccos (max (-1) (min c 1)))

/-- `cthval`, `twodquadrature.cpp:258, 268, 278` -/
noncomputable def cthval (p : Pt) (ia : Nat) : Probe → ℝ
  | .left => (1 + Real.cosh p.mu * g.cth ia) / (Real.cosh p.mu + g.cth ia)
  | .right => (1 - Real.cosh p.mu * g.cth ia) / (Real.cosh p.mu - g.cth ia)
  | .middle => g.cth ia

/-- `multiply_Plm`, `twodquadrature.cpp:241-284` -/
noncomputable def multiplyPlm (l : Nat) (m : Int) (pr : Probe) (p : Pt) (wk : Worker) : Worker :=
  { wk with itg := ⟨wk.itg.rows, wk.itg.cols, fun ix ia => wk.itg.get ix ia * evalPlm l m (cthval g p ia pr)⟩ }

/-- `ra`, `rb`, `rc`, `twodquadrature.cpp:296, 305, 317` -/
noncomputable def radius (p : Pt) (ia : Nat) : Probe → ℝ
  | .left => g.Rhalf * (Real.cosh p.mu + g.cth ia)
  | .right => g.Rhalf * (Real.cosh p.mu - g.cth ia)
  | .middle => g.Rhalf * √(max (Real.cosh p.mu * Real.cosh p.mu + g.cth ia * g.cth ia - 1) 0)

/-- `ao_projection`, `twodquadrature.cpp:286-321`; `ao r` has `n` entries for every `r` -/
noncomputable def aoProjection (n : Nat) (ao : ℝ → Nat → ℝ) (pr : Probe) (p : Pt) (wk : Worker) : Worker :=
  { wk with itg := ⟨n, g.ang.length, fun ix ia => ao (radius g p ia pr) ix⟩ }

/-- `compute_gto`, `twodquadrature.cpp:324-329` -/
noncomputable def computeGto (l : Nat) (expn : List ℝ) (r : ℝ) (ix : Nat) : ℝ := Lcao.radialGTO Real.pi r l (expn.getD ix 0)

/-- `compute_sto`, `twodquadrature.cpp:334-339` -/
noncomputable def computeSto (l : Nat) (expn : List ℝ) (r : ℝ) (ix : Nat) : ℝ := Lcao.radialSTO r l (expn.getD ix 0)

/-- `eval_pot`, `twodquadrature.cpp:343-350`; the indices are distinct, so the assignment to the indexed view adds coefficient by coefficient -/
noncomputable def evalPot (wk : Worker) (Vo : Mat ℝ) : Res (Mat ℝ) :=
  if wk.itg.rows ≠ 1 then .throw .logicError
  else XC.scatterMat Vo wk.idx (Matrix.of fun a b => ∑ ia ∈ Finset.range wk.bf.cols, wk.bf.get a ia * (wk.itg.get 0 ia * wk.wtot ia) * wk.bf.get b ia)

/-- `Vo(all,idx)+=B`, coefficient by coefficient -/
noncomputable def scatterCols (Vo : Mat ℝ) (idx : List Nat) (B : Nat → Fin idx.length → ℝ) : Res (Mat ℝ) :=
  if ∀ j ∈ idx, j < Vo.cols then
    .ok ⟨Vo.rows, Vo.cols, (List.finRange idx.length).foldl (fun (M : Nat → Nat → ℝ) (b : Fin idx.length) => fun i j => if j = idx[b] then M i j + B i b else M i j) Vo.get⟩
  else .ub

/-- `eval_proj`, `twodquadrature.cpp:352-354` -/
noncomputable def evalProj (wk : Worker) (Vo : Mat ℝ) : Res (Mat ℝ) :=
  if Vo.rows ≠ wk.itg.rows then .ub
  else scatterCols Vo wk.idx fun i b => ∑ ia ∈ Finset.range wk.bf.cols, wk.itg.get i ia * wk.wtot ia * wk.bf.get b ia

/-- `eval_proj_overlap`, `twodquadrature.cpp:356-358` -/
noncomputable def evalProjOverlap (wk : Worker) (Vo : Mat ℝ) : Res (Mat ℝ) :=
  Mat.add Vo ⟨wk.itg.rows, wk.itg.rows, fun i j => ∑ ia ∈ Finset.range wk.itg.cols, wk.itg.get i ia * wk.wtot ia * wk.itg.get j ia⟩

/-- `TwoDGrid::model_potential`, `twodquadrature.cpp:369-397`; `uniqueM` is the sorted list of distinct `m` (374-379) -/
noncomputable def modelPotentialMatrix (V1 V2 : ℝ → Option ℝ) : Res (Mat ℝ) :=
  (Sym.uniqueM g.lm).foldlM (fun H m => g.pts.foldlM (fun H p => computeBf g p m >>= fun wk => evalPot (modelPotential g V1 V2 p wk) H) H)
    (Mat.zero (nDummy g.lm g.nrad) (nDummy g.lm g.nrad)) >>= removeBoundaries g.lm g.nrad

/-- `S(all,pure_indices())`, `twodquadrature.cpp:412, 444, 504` -/
def pureCols (S : Mat ℝ) : Res (Mat ℝ) :=
  let p := Sym.pureIndices g.lm g.nrad
  if ∀ j ∈ p, j < S.cols then .ok ⟨S.rows, p.length, fun i j => S.get i (p.getD j 0)⟩ else .ub

/-- The loop of `gto_projection`, `sto_projection` and `atomic_projection`, `twodquadrature.cpp:399-413, 431-445, 492-505` -/
noncomputable def projectionOf (n : Nat) (ao : ℝ → Nat → ℝ) (l : Nat) (m : Int) (pr : Probe) : Res (Mat ℝ) :=
  g.pts.foldlM (fun S p => computeBf g p m >>= fun wk => evalProj (multiplyPlm g l m pr p (aoProjection g n ao pr p wk)) S)
    (Mat.zero n (nDummy g.lm g.nrad)) >>= pureCols g

/-- The loop of `gto_overlap` and `sto_overlap`, `twodquadrature.cpp:415-429, 447-461` -/
noncomputable def overlapOf (n : Nat) (ao : ℝ → Nat → ℝ) (l : Nat) (m : Int) (pr : Probe) : Res (Mat ℝ) :=
  g.pts.foldlM (fun S p => computeBf g p m >>= fun wk => evalProjOverlap (multiplyPlm g l m pr p (aoProjection g n ao pr p wk)) S) (Mat.zero n n)

/-- `TwoDGrid::gto_projection`, `twodquadrature.cpp:399-413` -/
noncomputable def gtoProjection (l : Nat) (m : Int) (expn : List ℝ) (pr : Probe) : Res (Mat ℝ) := projectionOf g expn.length (computeGto l expn) l m pr

/-- `TwoDGrid::gto_overlap`, `twodquadrature.cpp:415-429` -/
noncomputable def gtoOverlap (l : Nat) (m : Int) (expn : List ℝ) (pr : Probe) : Res (Mat ℝ) := overlapOf g expn.length (computeGto l expn) l m pr

/-- `TwoDGrid::sto_projection`, `twodquadrature.cpp:431-445` -/
noncomputable def stoProjection (l : Nat) (m : Int) (expn : List ℝ) (pr : Probe) : Res (Mat ℝ) := projectionOf g expn.length (computeSto l expn) l m pr

/-- `TwoDGrid::sto_overlap`, `twodquadrature.cpp:447-461` -/
noncomputable def stoOverlap (l : Nat) (m : Int) (expn : List ℝ) (pr : Probe) : Res (Mat ℝ) := overlapOf g expn.length (computeSto l expn) l m pr

/-- One atom of the guess: the occupations by `l`, the number of columns of `orbs[l]`, and `eval_orbs`: shell, radius, column. The orbitals of a shell are evaluated
column by column, so taking the first columns first changes nothing. -/
structure Atom where
  occs : List Int
  ncols : Nat → Nat
  orb : Nat → ℝ → Nat → ℝ

/-- `nocc`, `twodquadrature.cpp:469, 478` -/
noncomputable def nocc (occ : Int) (l : Nat) : Int := ⌈(occ : ℝ) / (2 * (2 * l + 1))⌉

/-- `TwoDGrid::atomic_projection`, `twodquadrature.cpp:463-505`; `none` is the empty matrix -/
noncomputable def atomicProjection (lh rh : Atom) (l : Nat) (m : Int) (pr : Probe) : Res (Option (Mat ℝ)) :=
  let side (a : Atom) : Res (Option (Mat ℝ)) :=
    if a.occs.length ≤ l then .ok none
    else
      let n := nocc (a.occs.getD l 0) l
      if n = 0 then .ok none
      else if n < 0 ∨ (a.ncols l : Int) < n then .ub
      else projectionOf g n.toNat (a.orb l) l m pr >>= fun S => .ok (some S)
  match pr with
  | .left => side lh
  | .right => side rh
  | .middle => .throw .logicError

end HelFEM.TGrid
