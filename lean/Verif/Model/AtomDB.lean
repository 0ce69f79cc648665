import Verif.Model.FEMatrix

/-!
# Free atoms from the database

Models `src/general/atomdb.cpp:36-270` and the radial evaluators `libhelfem/src/RadialBasis.cpp:869-925`. The tables themselves are parameters. Exact real arithmetic.
-/

namespace HelFEM
namespace AtomDB

open Grid Poly

/-- The shared basis (`shared_basis`, `atomdb.cpp:75-86`) and the in-element rule (`in_element_rule`, `atomdb.cpp:208-215`). -/
structure Db where
  o : FEObj ℝ
  x0 : Nat → ℝ
  rule : List (ℝ × ℝ)

/-- `get_bf(x, iel)`, `RadialBasis.cpp:869-879`, one point: `B(r)/r`. -/
noncomputable def getBf (db : Db) (x : ℝ) (iel : Nat) : Res (List ℝ) :=
  if iel = 0 then feOverR db.o.shape db.o.bval db.x0 x 0 iel
  else do
    let val ← feEvalDnf db.o.shape db.o.bval db.x0 x 0 iel
    let r ← evalCoord db.o.bval [x] iel
    let r ← readAt r 0
    pure (val.map (· / r))

/-- `get_df(x, iel)`, `RadialBasis.cpp:888-903`, one point. -/
noncomputable def getDf (db : Db) (x : ℝ) (iel : Nat) : Res (List ℝ) :=
  if iel = 0 then feOverR db.o.shape db.o.bval db.x0 x 1 iel
  else do
    let fval ← feEvalDnf db.o.shape db.o.bval db.x0 x 0 iel
    let dval ← feEvalDnf db.o.shape db.o.bval db.x0 x 1 iel
    let r ← evalCoord db.o.bval [x] iel
    let r ← readAt r 0
    pure (List.zipWith (fun f d => (-f * (1 / r) + d) * (1 / r)) fval dval)

/-- `get_lf(x, iel)`, `RadialBasis.cpp:912-929`, one point. -/
noncomputable def getLf (db : Db) (x : ℝ) (iel : Nat) : Res (List ℝ) :=
  if iel = 0 then feOverR db.o.shape db.o.bval db.x0 x 2 iel
  else do
    let fval ← feEvalDnf db.o.shape db.o.bval db.x0 x 0 iel
    let dval ← feEvalDnf db.o.shape db.o.bval db.x0 x 1 iel
    let lval ← feEvalDnf db.o.shape db.o.bval db.x0 x 2 iel
    let r ← evalCoord db.o.bval [x] iel
    let r ← readAt r 0
    pure (List.zipWith (fun (fd : ℝ × ℝ) l => ((2 * fd.1 * (1 / r) - 2 * fd.2) * (1 / r) + l) * (1 / r)) (fval.zip dval) lval)

/-- `(u * P * v.transpose())(0,0)` for rows `u`, `v`; a size mismatch is an assertion failure in Eigen. -/
noncomputable def contract (u : List ℝ) (P : Mat ℝ) (v : List ℝ) : Res ℝ :=
  if u.length = P.rows ∧ v.length = P.cols then .ok (∑ i ∈ Finset.range P.rows, ∑ j ∈ Finset.range P.cols, u.getD i 0 * P.get i j * v.getD j 0) else .ub

/-- The integrand of `partial_integral` at one point, `atomdb.cpp:227-243`. -/
noncomputable def integrandAt (db : Db) (P : Mat ℝ) (iel : Nat) (xi : ℝ) (overR : Bool) : Res ℝ := do
  let r ← evalCoord db.o.bval [xi] iel
  let r ← readAt r 0
  let bf ← getBf db xi iel
  let quad ← contract bf P bf
  pure (if overR then quad * r else quad * r * r)

/-- `partial_integral`, `atomdb.cpp:217-247`. -/
noncomputable def partialIntegral (db : Db) (P : Mat ℝ) (iel : Nat) (xa xb : ℝ) (overR : Bool) : Res ℝ :=
  let half := 1 / 2 * (xb - xa)
  if half ≤ 0 then .ok 0
  else do
    let vals ← db.rule.mapM fun q => integrandAt db P iel (1 / 2 * (xa + xb) + half * q.1) overR
    let len ← elementLength db.o.bval iel
    pure (1 / 2 * len * half * (List.zipWith (fun (q : ℝ × ℝ) v => q.2 * v) db.rule vals).sum)

/-- Orbitals of one `l`: coefficients (`Nbf` rows, one column each) and occupations. -/
structure Shell where
  C : Mat ℝ
  occ : Nat → ℝ

/-- `C * occ.asDiagonal() * C.transpose()`. -/
noncomputable def shellDensity (s : Shell) : Mat ℝ := ⟨s.C.rows, s.C.rows, fun i j => ∑ k ∈ Finset.range s.C.cols, s.C.get i k * s.occ k * s.C.get j k⟩

/-- The contraction loop, `atomdb.cpp:92-98`. -/
noncomputable def contractShells : Mat ℝ → List Shell → Res (Mat ℝ)
  | P, [] => .ok P
  | P, s :: r =>
    if s.C.cols = 0 then contractShells P r
    else do
      let P' ← P.add (shellDensity s)
      contractShells P' r

/-- An `Atom`, `atomdb.h:79-97`. -/
structure Atom where
  db : Db
  Psub : List (Mat ℝ)
  Qbelow : List ℝ
  Mabove : List ℝ
  Ntot : ℝ
  Rmax : ℝ

/-- `Qbelow_(iel)`, the loop `atomdb.cpp:116-117`. -/
noncomputable def below (q : List ℝ) : Nat → ℝ
  | 0 => 0
  | i + 1 => below q i + q.getD i 0

/-- `Mabove_`, the loop `atomdb.cpp:118-119`: `above m k` is the value `k` elements before the last one of `nel`. -/
noncomputable def above (m : List ℝ) (nel : Nat) : Nat → ℝ
  | 0 => 0
  | k + 1 => above m nel k + m.getD (nel - 1 - k) 0

/-- `P.block(ifirst, ifirst, n, n)` of element `iel`, `atomdb.cpp:107-109`. -/
noncomputable def elementBlock (o : FEObj ℝ) (P : Mat ℝ) (iel : Nat) : Res (Mat ℝ) := do
  let (ifirst, ilast) ← FEShape.getIdx o.tab iel
  P.block ifirst ifirst (ilast + 1 - ifirst) (ilast + 1 - ifirst)

/-- The constructor `Atom::Atom`, `atomdb.cpp:88-124`, after the range check of `Z` (`make`); an empty grid would wrap `Nel - 1`. -/
noncomputable def Atom.build (db : Db) (shells : List Shell) : Res Atom := do
  let nbf ← FEShape.getNbf db.o.tab
  let P ← contractShells (Mat.zero nbf nbf) shells
  let nel := nelem db.o.bval
  let Psub ← (List.range nel).mapM fun iel => elementBlock db.o P iel
  let qel ← (List.range nel).mapM fun iel => do partialIntegral db (← readAt Psub iel) iel (-1) 1 false
  let mel ← (List.range nel).mapM fun iel => do partialIntegral db (← readAt Psub iel) iel (-1) 1 true
  let rmax ← elementEnd db.o.bval (nel - 1)
  pure ⟨db, Psub, (List.range nel).map (below qel), (List.range nel).map (fun iel => above mel nel (nel - 1 - iel)), qel.sum, rmax⟩

/-- `check` with `l = 0` and the constructor, `atomdb.cpp:36-49, 88-89`; `table Z` is the record. -/
noncomputable def Atom.make (maxZ : Int) (db : Db) (table : Int → List Shell) (Z : Int) : Res Atom :=
  if Z < 1 ∨ maxZ < Z then .throw .logicError else Atom.build db (table Z)

/-- `locate`, `atomdb.cpp:138-146`. `find_element` always returns for real arguments (C03); its non-termination on NaN does not arise here. -/
noncomputable def locate (db : Db) (r : ℝ) : Res (Nat × ℝ) := do
  let iel ← findElement (Cmp.ofLinear ℝ) db.o.bval db.o.bval.length r
  match iel with
  | none => .ub
  | some iel => do
    let m ← elementMidpoint db.o.bval iel
    let l ← elementLength db.o.bval iel
    pure (iel, min (max ((r - m) / (1 / 2 * l)) (-1)) 1)

/-- `radial_density`, `atomdb.cpp:148-158`. -/
noncomputable def Atom.radialDensity (a : Atom) (r : ℝ) : Res ℝ :=
  if r ≤ 0 ∨ a.Rmax < r then .ok 0
  else do
    let (iel, xprim) ← locate a.db r
    let bf ← getBf a.db xprim iel
    let v ← contract bf (← readAt a.Psub iel) bf
    pure (r * r * v)

/-- `density`, `atomdb.cpp:160-163`; `pi` stands for `M_PI`. -/
noncomputable def Atom.density (pi : ℝ) (a : Atom) (r : ℝ) : Res ℝ := do
  let rr ← a.radialDensity r
  pure (if 0 < r then rr / (4 * pi * r * r) else 0)

/-- `density_gradient`, `atomdb.cpp:165-176`. -/
noncomputable def Atom.densityGradient (pi : ℝ) (a : Atom) (r : ℝ) : Res ℝ :=
  if r ≤ 0 ∨ a.Rmax < r then .ok 0
  else do
    let (iel, xprim) ← locate a.db r
    let bf ← getBf a.db xprim iel
    let df ← getDf a.db xprim iel
    let v ← contract bf (← readAt a.Psub iel) df
    pure (2 * v / (4 * pi))

/-- `density_laplacian`, `atomdb.cpp:178-193`. -/
noncomputable def Atom.densityLaplacian (pi : ℝ) (a : Atom) (r : ℝ) : Res ℝ :=
  if r ≤ 0 ∨ a.Rmax < r then .ok 0
  else do
    let (iel, xprim) ← locate a.db r
    let bf ← getBf a.db xprim iel
    let df ← getDf a.db xprim iel
    let lf ← getLf a.db xprim iel
    let P ← readAt a.Psub iel
    let dd ← contract df P df
    let bl ← contract bf P lf
    let bd ← contract bf P df
    pure ((2 * (dd + bl) + 2 * (2 * bd) / r) / (4 * pi))

/-- `enclosed_charge`, `atomdb.cpp:249-257`. -/
noncomputable def Atom.enclosedCharge (a : Atom) (r : ℝ) : Res ℝ :=
  if r ≤ 0 then .ok 0
  else if a.Rmax ≤ r then .ok a.Ntot
  else do
    let (iel, xprim) ← locate a.db r
    let q ← readAt a.Qbelow iel
    let p ← partialIntegral a.db (← readAt a.Psub iel) iel (-1) xprim false
    pure (q + p)

/-- `hartree_screening`, `atomdb.cpp:259-270`. -/
noncomputable def Atom.hartreeScreening (a : Atom) (r : ℝ) : Res ℝ :=
  if r ≤ 0 then .ok 0
  else if a.Rmax ≤ r then .ok a.Ntot
  else do
    let (iel, xprim) ← locate a.db r
    let P ← readAt a.Psub iel
    let q ← readAt a.Qbelow iel
    let p ← partialIntegral a.db P iel (-1) xprim false
    let m ← readAt a.Mabove iel
    let t ← partialIntegral a.db P iel xprim 1 true
    pure (q + p + r * (m + t))

end AtomDB
end HelFEM
