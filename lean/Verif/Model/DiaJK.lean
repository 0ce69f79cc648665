import Verif.Model.AtomicJK
import Verif.Model.DiaIndex
import Verif.Model.DiaMultipole
import Verif.Model.Couplings

/-!
# Coulomb and exchange matrices of the diatomic basis

Models `src/diatomic/basis.cpp:1382-1560, 1627-2089` over the real numbers. The radial integrals (`Plm_integral`, `Qlm_integral`, `twoe_integral`) are
parameters; they get the parameters of the Legendre cache they are computed with, since the cache covers only one `|M|` and the `L` up to a bound. Loops
that run in parallel visit their items in an arbitrary order given as a parameter; each item writes its own entries.
-/

namespace HelFEM
namespace DiaJK

open TwoE Sym Dia

/-- The radial integrals: `Plm_integral(k, iel, L, M, leg)`, `Qlm_integral(k, iel, L, M, leg)` and `twoe_integral(k, l, eldata, L, M, leg)` with the data of
element `iel` at its converged order (`basis.cpp:1459-1460`). `leg` is a `MLegendreCache(Mabs, Lmax)`. -/
structure Prims where
  P : (k iel : Nat) → (L M : Int) → (leg : Int × Int) → Res (Mat ℝ)
  Q : (k iel : Nat) → (L M : Int) → (leg : Int × Int) → Res (Mat ℝ)
  twoe : (k l iel : Nat) → (L M : Int) → (leg : Int × Int) → Res (Mat ℝ)

/-- The members filled by `compute_tei`: `disjoint_P0`, `disjoint_P2`, `disjoint_Q0`, `disjoint_Q2`, `cd_B`, `cd_sigma`; all with layout `ilm*Nel + iel`. -/
structure Ints where
  P0 : List (Mat ℝ)
  P2 : List (Mat ℝ)
  Q0 : List (Mat ℝ)
  Q2 : List (Mat ℝ)
  B : List (Mat ℝ)
  sigma : List (Vect ℝ)

/-- before `compute_tei` -/
def Ints.none : Ints := ⟨[], [], [], [], [], []⟩

/-- `l[i] = v` on a `std::vector` -/
def writeAt {α : Type _} (l : List α) (i : Nat) (v : α) : Res (List α) := if i < l.length then .ok (l.set i v) else .ub

/-- one integral of the disjoint families, `basis.cpp:1422-1428` -/
def disjointStep (pr : Prims) (nel : Nat) (c : Ints) (t : Task) : Res Ints :=
  pr.P 0 t.iel t.L t.Mabs (t.Mabs, t.Lhi) >>= fun p0 => writeAt c.P0 (t.ilm * nel + t.iel) p0 >>= fun P0 =>
  pr.P 2 t.iel t.L t.Mabs (t.Mabs, t.Lhi) >>= fun p2 => writeAt c.P2 (t.ilm * nel + t.iel) p2 >>= fun P2 =>
  pr.Q 0 t.iel t.L t.Mabs (t.Mabs, t.Lhi) >>= fun q0 => writeAt c.Q0 (t.ilm * nel + t.iel) q0 >>= fun Q0 =>
  pr.Q 2 t.iel t.L t.Mabs (t.Mabs, t.Lhi) >>= fun q2 => writeAt c.Q2 (t.ilm * nel + t.iel) q2 >>= fun Q2 =>
  .ok { c with P0 := P0, P2 := P2, Q0 := Q0, Q2 := Q2 }

/-- The two-channel matrix, `basis.cpp:1483-1490`. The matrix is created without initial values; all of them are assigned. -/
noncomputable def kernel (T00 T02 T22 : Mat ℝ) : Res (Mat ℝ) :=
  let n := T00.rows
  (Mat.zero (2 * n) (2 * n) : Mat ℝ).setBlock 0 0 n n T00 >>= fun W =>
  W.setBlock 0 n n n (Mat.smul (-1) T02) >>= fun W =>
  W.setBlock n 0 n n (Mat.smul (-1) T02.transpose) >>= fun W =>
  W.setBlock n n n n T22 >>= fun W =>
  W.add W.transpose >>= fun S => .ok (Mat.smul (1 / 2) S)

/-- The factorisation `W = B diag(sigma) B'`, `basis.cpp:1498-1534`; the largest entry of an empty diagonal is undefined. -/
noncomputable def factorise (thresh : ℝ) (W : Mat ℝ) : Res (Mat ℝ × Vect ℝ) :=
  if W.rows = 0 then .ub
  else
    let cols := Chol.signedCholesky W.rows W.get thresh
    .ok (⟨W.rows, cols.length, fun i p => (cols.getD p (fun _ => 0, 0)).1 i⟩, ⟨cols.length, fun p => (cols.getD p (fun _ => 0, 0)).2⟩)

/-- `Lhi` of the run of `|M| = M` that starts at `ilm`, `basis.cpp:1473-1475` -/
def runTop (tab : List (Int × Int)) (M : Int) (ilm : Nat) : Int := ((tab.drop ilm).takeWhile fun q => q.2 = M).foldl (fun a q => max a q.1) 0

/-- `curM` and the Legendre cache; `none` is the initial `INT_MIN`. `basis.cpp:1465-1477` -/
def repoint (tab : List (Int × Int)) (M : Int) (ilm : Nat) (s : Option Int × (Int × Int)) : Option Int × (Int × Int) :=
  if s.1 ≠ some M then (some M, (M, runTop tab M ilm)) else s

/-- state of the loop over `ilm` for one element -/
structure ElState where
  leg : Option Int × (Int × Int)
  B : List (Mat ℝ)
  sigma : List (Vect ℝ)

/-- one entry of the loop over `ilm`, `basis.cpp:1468-1538` -/
noncomputable def elStep (pr : Prims) (thresh : ℝ) (tab : List (Int × Int)) (nel iel : Nat) (s : ElState) (ilm : Nat) : Res ElState :=
  readAt tab ilm >>= fun p =>
  let leg := repoint tab p.2 ilm s.leg
  pr.twoe 0 0 iel p.1 p.2 leg.2 >>= fun T00 => pr.twoe 0 2 iel p.1 p.2 leg.2 >>= fun T02 => pr.twoe 2 2 iel p.1 p.2 leg.2 >>= fun T22 =>
  kernel T00 T02 T22 >>= fun W => factorise thresh W >>= fun f =>
  writeAt s.B (ilm * nel + iel) f.1 >>= fun B => writeAt s.sigma (ilm * nel + iel) f.2 >>= fun sigma => .ok ⟨leg, B, sigma⟩

/-- one element, `basis.cpp:1459-1539` -/
noncomputable def elFactor (pr : Prims) (thresh : ℝ) (tab : List (Int × Int)) (nel : Nat) (c : Ints) (iel : Nat) : Res Ints :=
  (List.range tab.length).foldlM (elStep pr thresh tab nel iel) ⟨(Option.none, (0, 0)), c.B, c.sigma⟩ >>= fun s => .ok { c with B := s.B, sigma := s.sigma }

/-- `TwoDBasis::compute_tei`, `basis.cpp:1382-1547`. `tasks` and `els` are the orders of the two parallel loops; `thresh` is `cd_thresh`. Entries left over
from an earlier call are not modelled: all are overwritten. -/
noncomputable def computeTei (pr : Prims) (thresh : ℝ) (tab : List (Int × Int)) (nel : Nat) (tasks : List Task) (els : List Nat) : Res Ints :=
  let e := List.replicate (nel * tab.length) (⟨0, 0, fun _ _ => 0⟩ : Mat ℝ)
  tasks.foldlM (disjointStep pr nel) ⟨e, e, e, e, e, List.replicate (nel * tab.length) ⟨0, fun _ => 0⟩⟩ >>= fun c =>
  els.foldlM (elFactor pr thresh tab nel) c

/-- entry of `build_LMfac_abs`, `basis.cpp:1550-1557`; `Ma` is `|M|` -/
noncomputable def prefactor (Rhalf : ℝ) (L Ma : Int) : ℝ :=
  4 * Real.pi * Rhalf ^ 5 / (List.range (2 * Ma).toNat).foldl (fun fr (i : Nat) => fr * ((L + Ma - (i : Int) : Int) : ℝ)) 1

/-- `build_LMfac_abs`, `basis.cpp:1549-1560` -/
noncomputable def lmFacs (Rhalf : ℝ) (tab : List (Int × Int)) : List ℝ := tab.map fun p => prefactor Rhalf p.1 p.2

/-- `(M & 1) ? -1.0 : 1.0` -/
def signM (M : Int) : ℝ := if M % 2 = 0 then 1 else -1

/-- what `coulomb` and `exchange` use of the diatomic `TwoDBasis` -/
structure Basis where
  lm : List (Int × Int)
  rad : Radial
  Rhalf : ℝ
  mp : Multipoles
  gaunt : Gaunt.Table ℝ
  absmSym : Bool

/-- the constructor, `basis.cpp:531-646`; `sched` is the order in which the Gaunt table is filled -/
noncomputable def Basis.make (G : Nat → Int → Nat → Int → Nat → Int → ℝ) (sched : List Nat) (lm : List (Int × Int)) (rad : Radial) (Rhalf : ℝ) (absmSym : Bool) : Res Basis :=
  multipoles lm >>= fun t => ctorGaunt G lm t.Lmax sched >>= fun T => .ok ⟨lm, rad, Rhalf, t, T, absmSym⟩

/-- `gaunt.mod_coeff(a, L, M, b)` -/
noncomputable def Basis.cpl0 (b : Basis) (x : Int × Int) (L M : Int) (y : Int × Int) : Res ℝ := b.gaunt.modCoeff Gaunt.modC0 Gaunt.modC2 x.1 x.2 L M y.1 y.2

/-- `gaunt.coeff(a, L, M, b)` -/
noncomputable def Basis.cpl2 (b : Basis) (x : Int × Int) (L M : Int) (y : Int × Int) : Res ℝ := b.gaunt.coeff x.1 x.2 L M y.1

/-! ### Coulomb -/

/-- `if(c != 0.0) A[i] += c*B` -/
noncomputable def addAt (A : List (Mat ℝ)) (i : Nat) (c : ℝ) (B : Mat ℝ) : Res (List (Mat ℝ)) :=
  if c ≠ 0 then readAt A i >>= fun X => X.add (Mat.smul c B) >>= fun Y => writeAt A i Y else .ok A

/-- one step of the ket contraction, `basis.cpp:1660-1671` -/
noncomputable def ketStep (b : Basis) (P : Mat ℝ) (k l : Nat) (x y : Int × Int) (A : List (Mat ℝ) × List (Mat ℝ)) (L : Int) : Res (List (Mat ℝ) × List (Mat ℝ)) :=
  LMind b.mp.LM L (x.2 - y.2) true >>= fun iLM => b.cpl0 x L (x.2 - y.2) y >>= fun c0 => b.cpl2 x L (x.2 - y.2) y >>= fun c2 =>
  P.block (k * b.rad.nbf) (l * b.rad.nbf) b.rad.nbf b.rad.nbf >>= fun B =>
  addAt A.1 iLM c0 B >>= fun A0 => addAt A.2 iLM c2 B >>= fun A2 => .ok (A0, A2)

/-- the helpers before the contraction, `basis.cpp:1640-1645, 1676-1681` -/
def auxZero (b : Basis) : List (Mat ℝ) := List.replicate b.mp.LM.length (Mat.zero b.rad.nbf b.rad.nbf)

/-- `Paux0`, `Paux2`: contraction of the ket, `basis.cpp:1647-1673` -/
noncomputable def contractKet (b : Basis) (P : Mat ℝ) : Res (List (Mat ℝ) × List (Mat ℝ)) :=
  (List.range b.lm.length).foldlM (fun A k => readAt b.lm k >>= fun x => (List.range b.lm.length).foldlM (fun A l => readAt b.lm l >>= fun y =>
    (coupledL y x (x.2 - y.2)).foldlM (ketStep b P k l x y) A) A) (auxZero b, auxZero b)

/-- the integrals of one `(L, |M|)`: `disjoint_P0[ilm*Nel+iel]` and so on -/
structure Slice where
  P0 : Nat → Res (Mat ℝ)
  P2 : Nat → Res (Mat ℝ)
  Q0 : Nat → Res (Mat ℝ)
  Q2 : Nat → Res (Mat ℝ)
  B : Nat → Res (Mat ℝ)
  sigma : Nat → Res (Vect ℝ)

def Ints.slice (c : Ints) (nel ilm : Nat) : Slice :=
  ⟨fun iel => readAt c.P0 (ilm * nel + iel), fun iel => readAt c.P2 (ilm * nel + iel), fun iel => readAt c.Q0 (ilm * nel + iel), fun iel => readAt c.Q2 (ilm * nel + iel),
    fun iel => readAt c.B (ilm * nel + iel), fun iel => readAt c.sigma (ilm * nel + iel)⟩

/-- `LMfac*(A*Psub).trace()`, `basis.cpp:1708-1711` -/
noncomputable def momentOf (fac : ℝ) (A : Res (Mat ℝ)) (Psub : Mat ℝ) : Res ℝ := A >>= fun a => a.mul Psub >>= fun m => .ok (fac * trace m)

/-- `[v; w]` -/
def stack (v w : Vect ℝ) : Vect ℝ := ⟨v.size + w.size, fun i => if i < v.size then v.get i else w.get (i - v.size)⟩

/-- `c.array() *= sigma.array()` -/
def hadamard (v w : Vect ℝ) : Res (Vect ℝ) := if v.size = w.size then .ok ⟨v.size, fun i => v.get i * w.get i⟩ else .ub

/-- `v.head(n)`, `v.tail(n)` -/
def head (v : Vect ℝ) (n : Nat) : Res (Vect ℝ) := if n ≤ v.size then .ok ⟨n, v.get⟩ else .ub
def tail (v : Vect ℝ) (n : Nat) : Res (Vect ℝ) := if n ≤ v.size then .ok ⟨n, fun i => v.get (v.size - n + i)⟩ else .ub

/-- In-element contribution, `basis.cpp:1741-1775`: `Jsub0` and `Jsub2`. `p2ch` has room for `2*Ni*Ni` numbers, which the two halves fill. -/
noncomputable def inElement (s : Slice) (fac : ℝ) (iel ni : Nat) (Psub0 Psub2 : Mat ℝ) : Res (Mat ℝ × Mat ℝ) :=
  s.B iel >>= fun B => s.sigma iel >>= fun sigma =>
  mulVec B.transpose (stack (vec Psub0) (vec Psub2)) >>= fun c => hadamard c sigma >>= fun c => mulVec B c >>= fun v =>
  let jv : Vect ℝ := ⟨v.size, fun i => fac * v.get i⟩
  head jv (ni * ni) >>= fun jv0 => tail jv (ni * ni) >>= fun jv2 => unvec jv0 ni ni >>= fun J0 => unvec jv2 ni ni >>= fun J2 => .ok (J0, J2)

/-- one input element, `basis.cpp:1698-1781`. The loops over output elements update `Jaux0` and `Jaux2` together; here one after the other. -/
noncomputable def jelStep (R : Radial) (s : Slice) (fac : ℝ) (X0 X2 : Mat ℝ) (J : Mat ℝ × Mat ℝ) (jel : Nat) : Res (Mat ℝ × Mat ℝ) :=
  R.range jel >>= fun r => X0.block r.1 r.1 r.2 r.2 >>= fun Psub0 => X2.block r.1 r.1 r.2 r.2 >>= fun Psub2 =>
  momentOf fac (s.P0 jel) Psub0 >>= fun jsmall0 => momentOf fac (s.Q0 jel) Psub0 >>= fun jbig0 =>
  momentOf fac (s.P2 jel) Psub2 >>= fun jsmall2 => momentOf fac (s.Q2 jel) Psub2 >>= fun jbig2 =>
  addScaled R (jbig0 - jbig2) s.P0 (List.range jel) J.1 >>= fun J0 =>
  addScaled R (-jbig0 + jbig2) s.P2 (List.range jel) J.2 >>= fun J2 =>
  addScaled R (jsmall0 - jsmall2) s.Q0 (List.range' (jel + 1) (R.nel - (jel + 1))) J0 >>= fun J0 =>
  addScaled R (-jsmall0 + jsmall2) s.Q2 (List.range' (jel + 1) (R.nel - (jel + 1))) J2 >>= fun J2 =>
  inElement s fac jel r.2 Psub0 Psub2 >>= fun S =>
  J0.addBlock r.1 r.1 r.2 r.2 S.1 >>= fun J0 => J2.addBlock r.1 r.1 r.2 r.2 S.2 >>= fun J2 => .ok (J0, J2)

/-- one `(L, M)` of the contraction of the integrals, `basis.cpp:1687-1782` -/
noncomputable def intStep (b : Basis) (c : Ints) (Paux A : List (Mat ℝ) × List (Mat ℝ)) (iLM : Nat) : Res (List (Mat ℝ) × List (Mat ℝ)) :=
  readAt b.mp.LM iLM >>= fun LM => lmind b.mp.lm LM.1 LM.2 true >>= fun ilm => readAt (lmFacs b.Rhalf b.mp.lm) ilm >>= fun fac =>
  readAt Paux.1 iLM >>= fun X0 => readAt Paux.2 iLM >>= fun X2 => readAt A.1 iLM >>= fun J0 => readAt A.2 iLM >>= fun J2 =>
  (List.range b.rad.nel).foldlM (jelStep b.rad (c.slice b.rad.nel ilm) (signM LM.2 * fac) X0 X2) (J0, J2) >>= fun J =>
  writeAt A.1 iLM J.1 >>= fun A0 => writeAt A.2 iLM J.2 >>= fun A2 => .ok (A0, A2)

/-- `if(c != 0.0) J.block(...) += c*A[i]` -/
noncomputable def braAdd (nrad i j : Nat) (A : List (Mat ℝ)) (iLM : Nat) (c : ℝ) (J : Mat ℝ) : Res (Mat ℝ) :=
  if c ≠ 0 then readAt A iLM >>= fun X => J.addBlock (i * nrad) (j * nrad) nrad nrad (Mat.smul c X) else .ok J

/-- one step of the bra loop, `basis.cpp:1798-1811` -/
noncomputable def braStep (b : Basis) (A : List (Mat ℝ) × List (Mat ℝ)) (i j : Nat) (x y : Int × Int) (J : Mat ℝ) (L : Int) : Res (Mat ℝ) :=
  LMind b.mp.LM L (y.2 - x.2) true >>= fun iLM => b.cpl0 y L (y.2 - x.2) x >>= fun c0 => braAdd b.rad.nbf i j A.1 iLM c0 J >>= fun J =>
  b.cpl2 y L (y.2 - x.2) x >>= fun c2 => braAdd b.rad.nbf i j A.2 iLM c2 J

/-- `basis.cpp:1784-1813` -/
noncomputable def expandBra (b : Basis) (A : List (Mat ℝ) × List (Mat ℝ)) : Res (Mat ℝ) :=
  (List.range b.lm.length).foldlM (fun J i => readAt b.lm i >>= fun x => (List.range b.lm.length).foldlM (fun J j => readAt b.lm j >>= fun y =>
    (coupledL x y (y.2 - x.2)).foldlM (braStep b A i j x y) J) J) (Mat.zero (nDummy b.lm b.rad.nbf) (nDummy b.lm b.rad.nbf))

/-- `TwoDBasis::coulomb`, `basis.cpp:1627-1816` -/
noncomputable def coulomb (b : Basis) (c : Ints) (Pin : Mat ℝ) : Res (Mat ℝ) :=
  if c.B.length = 0 then .throw .logicError
  else expandBoundaries b.lm b.rad.nbf Pin >>= fun P => contractKet b P >>= fun Paux =>
    (List.range b.mp.LM.length).foldlM (intStep b c Paux) (auxZero b, auxZero b) >>= fun A => expandBra b A >>= fun J => removeBoundaries b.lm b.rad.nbf J

/-! ### Exchange -/

/-- `pairs_by_dm[i].emplace_back(iang, lang)` -/
def push (A : List (List (Nat × Nat))) (i : Int) (p : Nat × Nat) : Res (List (List (Nat × Nat))) :=
  if i < 0 then .ub else readAt A i.toNat >>= fun l => writeAt A i.toNat (l ++ [p])

/-- the body of the bucket loop, `basis.cpp:1858-1863`; `thr` is `10*DBL_EPSILON` -/
noncomputable def bucketStep (b : Basis) (mabs : Int) (thr : ℝ) (P : Mat ℝ) (A : List (List (Nat × Nat))) (p : Nat × Nat) : Res (List (List (Nat × Nat))) :=
  P.block (p.1 * b.rad.nbf) (p.2 * b.rad.nbf) b.rad.nbf b.rad.nbf >>= fun B =>
  if AtomJK.frob B < thr then .ok A
  else readAt b.lm p.1 >>= fun x => readAt b.lm p.2 >>= fun y => if 2 * mabs < |x.2 - y.2| then .ok A else push A (x.2 - y.2 + 2 * mabs) p

/-- the pairs of a loop nest over two angular functions -/
def pairs (n : Nat) : List (Nat × Nat) := (List.range n).flatMap fun j => (List.range n).map fun k => (j, k)

/-- `pairs_by_dm`, `basis.cpp:1853-1864` -/
noncomputable def buckets (b : Basis) (mabs : Int) (thr : ℝ) (P : Mat ℝ) : Res (List (List (Nat × Nat))) :=
  (pairs b.lm.length).foldlM (bucketStep b mabs thr P) (List.replicate (4 * mabs + 1).toNat [])

/-- `Rmat00`, `Rmat02`, `Rmat20`, `Rmat22` of one table entry -/
structure Quad where
  r00 : Mat ℝ
  r02 : Mat ℝ
  r20 : Mat ℝ
  r22 : Mat ℝ

/-- the entry to add to: a coupled one, or zero matrices, `basis.cpp:1947-1954` -/
def Quad.start (nrad : Nat) : Option Quad → Quad
  | some q => q
  | none => ⟨Mat.zero nrad nrad, Mat.zero nrad nrad, Mat.zero nrad nrad, Mat.zero nrad nrad⟩

/-- `basis.cpp:1955-1958` -/
def Quad.add (q : Quad) (c00 c02 c20 c22 : ℝ) (B : Mat ℝ) : Res Quad :=
  q.r00.add (Mat.smul c00 B) >>= fun r00 => q.r02.add (Mat.smul c02 B) >>= fun r02 => q.r20.add (Mat.smul c20 B) >>= fun r20 =>
  q.r22.add (Mat.smul c22 B) >>= fun r22 => .ok ⟨r00, r02, r20, r22⟩

/-- `basis.cpp:1936-1958`; `h[ilm]` is `none` while `couple[ilm]` is false -/
noncomputable def exAdd (b : Basis) (P : Mat ℝ) (i l : Nat) (L M : Int) (c00 c02 c20 c22 : ℝ) (h : List (Option Quad)) : Res (List (Option Quad)) :=
  if c00 = 0 ∧ c02 = 0 ∧ c20 = 0 ∧ c22 = 0 then .ok h
  else lmind b.mp.lm L M true >>= fun ilm => readAt (lmFacs b.Rhalf b.mp.lm) ilm >>= fun f =>
    P.block (i * b.rad.nbf) (l * b.rad.nbf) b.rad.nbf b.rad.nbf >>= fun B => readAt h ilm >>= fun q =>
    (Quad.start b.rad.nbf q).add (signM M * f * c00) (signM M * f * c02) (signM M * f * c20) (signM M * f * c22) B >>= fun q => writeAt h ilm (some q)

/-- one multipole of the angular sum, `basis.cpp:1929-1959` -/
noncomputable def exStep (b : Basis) (P : Mat ℝ) (i l : Nat) (xi xj xk xl : Int × Int) (h : List (Option Quad)) (L : Int) : Res (List (Option Quad)) :=
  b.cpl0 xj L (xj.2 - xi.2) xi >>= fun j0 => b.cpl0 xk L (xj.2 - xi.2) xl >>= fun k0 => b.cpl2 xj L (xj.2 - xi.2) xi >>= fun j2 => b.cpl2 xk L (xj.2 - xi.2) xl >>= fun k2 =>
  exAdd b P i l L (xj.2 - xi.2) (j0 * k0) (-j0 * k2) (-j2 * k0) (j2 * k2) h

/-- the angular sums of one output block over the density blocks `cand`, `basis.cpp:1904-1961` -/
noncomputable def exSums (b : Basis) (P : Mat ℝ) (cand : List (Nat × Nat)) (xj xk : Int × Int) : Res (List (Option Quad)) :=
  cand.foldlM (fun h p => readAt b.lm p.1 >>= fun xi => readAt b.lm p.2 >>= fun xl => (exchangeL xi xj xk xl).foldlM (exStep b P p.1 p.2 xi xj xk xl) h)
    (List.replicate b.mp.lm.length none)

/-- one Cholesky vector of the in-element exchange, `basis.cpp:2020-2033` -/
noncomputable def exVector (B : Mat ℝ) (sigma : Vect ℝ) (ni : Nat) (q : Quad) (Ks : Mat ℝ) (p : Nat) : Res (Mat ℝ) :=
  if B.rows < 2 * (ni * ni) then .ub
  else unvec ⟨ni * ni, fun i => B.get i p⟩ ni ni >>= fun M0 => unvec ⟨ni * ni, fun i => B.get (ni * ni + i) p⟩ ni ni >>= fun M2 =>
  let M0t := M0.transpose
  let M2t := M2.transpose
  M0t.mul q.r00 >>= fun a => a.mul M0t >>= fun c00 => M0t.mul q.r02 >>= fun a => a.mul M2t >>= fun c02 =>
  M2t.mul q.r20 >>= fun a => a.mul M0t >>= fun c20 => M2t.mul q.r22 >>= fun a => a.mul M2t >>= fun c22 =>
  c00.add (Mat.smul (-1) c02) >>= fun s => s.add (Mat.smul (-1) c20) >>= fun s => s.add c22 >>= fun contrib =>
  if p < sigma.size then Ks.add (Mat.smul (sigma.get p) contrib) else .ub

/-- the blocks of the helpers between two elements, `basis.cpp:2015-2018` -/
def Quad.block (q : Quad) (fi fj ni nj : Nat) : Res Quad :=
  q.r00.block fi fj ni nj >>= fun r00 => q.r02.block fi fj ni nj >>= fun r02 => q.r20.block fi fj ni nj >>= fun r20 =>
  q.r22.block fi fj ni nj >>= fun r22 => .ok ⟨r00, r02, r20, r22⟩

/-- in-element exchange of one table entry, `basis.cpp:2007-2034` -/
noncomputable def exSame (s : Slice) (iel fi fj ni nj : Nat) (q : Quad) (Ks : Mat ℝ) : Res (Mat ℝ) :=
  s.B iel >>= fun B => s.sigma iel >>= fun sigma => q.block fi fj ni nj >>= fun r => (List.range B.cols).foldlM (exVector B sigma ni r) Ks

/-- exchange of different elements, one table entry, `basis.cpp:2041-2056` -/
noncomputable def exOther (s : Slice) (iel jel fi fj ni nj : Nat) (q : Quad) (Ks : Mat ℝ) : Res (Mat ℝ) :=
  pick (jel < iel) (s.Q0 iel) (s.P0 iel) >>= fun iint0 => pick (jel < iel) (s.Q2 iel) (s.P2 iel) >>= fun iint2 =>
  pick (jel < iel) (s.P0 jel) (s.Q0 jel) >>= fun jint0 => pick (jel < iel) (s.P2 jel) (s.Q2 jel) >>= fun jint2 =>
  q.block fi fj ni nj >>= fun r =>
  r.r00.mul jint0.transpose >>= fun a => r.r02.mul jint2.transpose >>= fun a' => a.add a' >>= fun T => iint0.mul T >>= fun X => Ks.add (Mat.smul (-1) X) >>= fun Ks =>
  r.r20.mul jint0.transpose >>= fun a => r.r22.mul jint2.transpose >>= fun a' => a.add a' >>= fun T => iint2.mul T >>= fun X => Ks.add (Mat.smul (-1) X)

/-- `if(!couple[ilm]) continue;` -/
def coupled (h : List (Option Quad)) (ilm : Nat) (f : Quad → Mat ℝ → Res (Mat ℝ)) (Ks : Mat ℝ) : Res (Mat ℝ) :=
  readAt h ilm >>= fun q => match q with
    | none => .ok Ks
    | some q => f q Ks

/-- two elements of one output block, `basis.cpp:1977-2060` -/
noncomputable def exElements (b : Basis) (c : Ints) (h : List (Option Quad)) (j k : Nat) (iel jel : Nat) (ri rj : Nat × Nat) (K : Mat ℝ) : Res (Mat ℝ) :=
  if iel = jel then
    (List.range b.mp.lm.length).foldlM (fun Ks ilm => coupled h ilm (exSame (c.slice b.rad.nel ilm) iel ri.1 rj.1 ri.2 rj.2) Ks) (Mat.zero ri.2 rj.2) >>= fun Ks =>
    K.addBlock (j * b.rad.nbf + ri.1) (k * b.rad.nbf + rj.1) ri.2 rj.2 (Mat.smul (-1) Ks)
  else
    (List.range b.mp.lm.length).foldlM (fun Ks ilm => coupled h ilm (exOther (c.slice b.rad.nel ilm) iel jel ri.1 rj.1 ri.2 rj.2) Ks) (Mat.zero ri.2 rj.2) >>= fun Ks =>
    K.addBlock (j * b.rad.nbf + ri.1) (k * b.rad.nbf + rj.1) ri.2 rj.2 Ks

/-- the element loops of one output block, `basis.cpp:1963-2062` -/
noncomputable def exRadial (b : Basis) (c : Ints) (h : List (Option Quad)) (j k : Nat) (K : Mat ℝ) : Res (Mat ℝ) :=
  if h.any Option.isSome then
    (List.range b.rad.nel).foldlM (fun K iel => b.rad.range iel >>= fun ri => (List.range b.rad.nel).foldlM (fun K jel => b.rad.range jel >>= fun rj =>
      exElements b c h j k iel jel ri rj K) K) K
  else .ok K

/-- `basis.cpp:1896-1965` for the candidates `cand` -/
noncomputable def exCand (b : Basis) (c : Ints) (P : Mat ℝ) (j k : Nat) (xj xk : Int × Int) (cand : List (Nat × Nat)) (K : Mat ℝ) : Res (Mat ℝ) :=
  if cand.length = 0 then .ok K else exSums b P cand xj xk >>= fun h => exRadial b c h j k K

/-- the body of the parallel loop, `basis.cpp:1874-2064` -/
noncomputable def exBody (b : Basis) (c : Ints) (mabs : Int) (bk : List (List (Nat × Nat))) (P : Mat ℝ) (K : Mat ℝ) (jk : Nat × Nat) : Res (Mat ℝ) :=
  readAt b.lm jk.1 >>= fun xj => readAt b.lm jk.2 >>= fun xk =>
  if b.absmSym = true ∧ (xj.2 < 0 ∨ xk.2 < 0) then .ok K
  else if 2 * mabs < |xj.2 - xk.2| then .ok K
  else if xj.2 - xk.2 + 2 * mabs < 0 then .ub
  else readAt bk (xj.2 - xk.2 + 2 * mabs).toNat >>= fun cand => exCand b c P jk.1 jk.2 xj xk cand K

/-- `mirror_ang[a]`: the first function with the same `l` and opposite `m`, `basis.cpp:2070-2073`; `lm.length` if there is none -/
def mirrorOf (lm : List (Int × Int)) (a : Nat) : Res Nat := readAt lm a >>= fun x => .ok (lm.findIdx fun y => y.1 = x.1 ∧ y.2 = -x.2)

/-- `basis.cpp:2078-2084` -/
def mirrorBlock (b : Basis) (j jm : Nat) (K : Mat ℝ) (k : Nat) : Res (Mat ℝ) :=
  readAt b.lm k >>= fun xk => if 0 ≤ xk.2 then .ok K
  else mirrorOf b.lm k >>= fun km => if km = b.lm.length then .ok K
  else K.block (jm * b.rad.nbf) (km * b.rad.nbf) b.rad.nbf b.rad.nbf >>= fun X => K.setBlock (j * b.rad.nbf) (k * b.rad.nbf) b.rad.nbf b.rad.nbf X

/-- `basis.cpp:2074-2085` -/
def mirrorRow (b : Basis) (K : Mat ℝ) (j : Nat) : Res (Mat ℝ) :=
  readAt b.lm j >>= fun xj => if 0 ≤ xj.2 then .ok K
  else mirrorOf b.lm j >>= fun jm => if jm = b.lm.length then .ok K
  else (List.range b.lm.length).foldlM (mirrorBlock b j jm) K

/-- `basis.cpp:2067-2086` -/
def mirrorK (b : Basis) (K : Mat ℝ) : Res (Mat ℝ) :=
  if b.absmSym then (List.range b.lm.length).foldlM (mirrorRow b) K else .ok K

/-- `TwoDBasis::exchange`, `basis.cpp:1818-2089`; `order` is the order in which the parallel loop visits the output blocks -/
noncomputable def exchange (b : Basis) (c : Ints) (thr : ℝ) (order : List (Nat × Nat)) (Pin : Mat ℝ) : Res (Mat ℝ) :=
  if c.B.length = 0 then .throw .logicError
  else expandBoundaries b.lm b.rad.nbf Pin >>= fun P => absmMax b.lm >>= fun mabs => buckets b mabs thr P >>= fun bk =>
    order.foldlM (exBody b c mabs bk P) (Mat.zero (nDummy b.lm b.rad.nbf) (nDummy b.lm b.rad.nbf)) >>= fun K => mirrorK b K >>= fun K =>
    removeBoundaries b.lm b.rad.nbf K

end DiaJK
end HelFEM
