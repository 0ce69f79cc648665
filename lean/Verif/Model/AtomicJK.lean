import Verif.Model.TwoElectron
import Verif.Model.Gaunt
import Verif.Model.Cholesky
import Verif.Model.SymBlocks
import Mathlib.Analysis.Real.Pi.Bounds
import Mathlib.Analysis.Real.Sqrt

/-!
# Coulomb and exchange matrices of the atomic and the spherically averaged basis

Models `src/atomic/TwoDBasis.cpp:708-1131`, `src/sadatom/basis.cpp:132-429` and the cache builders in
`libhelfemqc/include/CoulombExchangeFE.h:181-217, 275-297`. Numbers are exact reals. The radial integrals are parameters. A cache whose
integrals are computed in parallel is filled in loop order: every slot is written once.
-/

namespace HelFEM
namespace AtomJK
open TwoE Sym

/-- The radial integrals the caches are filled from: `radial_integral(L, iel)`, `radial_integral(-L-1, iel)`, `twoe_integral(L, iel)`,
and for the screened kernels `bessel_il_integral`, `bessel_kl_integral`, `yukawa_integral`, `erfc_integral(L, mu, iel, jel)`. -/
structure Prims where
  small : Nat → Nat → Res (Mat ℝ)
  big : Nat → Nat → Res (Mat ℝ)
  twoe : Nat → Nat → Res (Mat ℝ)
  besselI : ℝ → Nat → Nat → Res (Mat ℝ)
  besselK : ℝ → Nat → Nat → Res (Mat ℝ)
  yukawa : ℝ → Nat → Nat → Res (Mat ℝ)
  erfc : ℝ → Nat → Nat → Nat → Res (Mat ℝ)

/-- `v.maxCoeff()`: undefined for an empty vector -/
def maxOf : List Int → Res Int
  | [] => .ub
  | x :: r => .ok (r.foldl max x)

/-- `v.minCoeff()` -/
def minOf : List Int → Res Int
  | [] => .ub
  | x :: r => .ok (r.foldl min x)

/-- `N_L = 2*lval.maxCoeff()+1` -/
def numL (lm : List (Int × Int)) : Res Nat := do
  let l ← maxOf (lm.map Prod.fst)
  pure (2 * l + 1).toNat

/-- A cache with layout `L*Nel + iel`, `CoulombExchangeFE.h:192-214`, `TwoDBasis.cpp:726-732` -/
def fillCache (nl nel : Nat) (f : Nat → Nat → Res (Mat ℝ)) : Res (List (Mat ℝ)) :=
  ((List.range nl).flatMap fun L => (List.range nel).map fun iel => (L, iel)).mapM fun p => f p.1 p.2

/-- A cache with layout `Nel*Nel*L + iel*Nel + jel`, `CoulombExchangeFE.h:281-296` -/
def fillPairs (nl nel : Nat) (f : Nat → Nat → Nat → Res (Mat ℝ)) : Res (List (Mat ℝ)) :=
  ((List.range nl).flatMap fun L => (List.range nel).flatMap fun iel => (List.range nel).map fun jel => (L, iel, jel)).mapM
    fun p => f p.1 p.2.1 p.2.2

/-- the outer moments; left default-constructed (empty) on the innermost element, `CoulombExchangeFE.h:210-213` -/
def skipInner (f : Nat → Nat → Res (Mat ℝ)) (L iel : Nat) : Res (Mat ℝ) := if iel = 0 then .ok ⟨0, 0, fun _ _ => 0⟩ else f L iel

/-- `twoe_integral_cholesky`, `yukawa_integral_cholesky`, `RadialBasis.cpp:712-724` -/
noncomputable def factor (f : Nat → Nat → Res (Mat ℝ)) (tol : ℝ) (L iel : Nat) : Res (Mat ℝ) := do
  let t ← f L iel
  Chol.pivotedCholesky t tol

/-- The cached integrals of a basis: members `disjoint_L`, `disjoint_m1L`, `prim_chol`, and for the screened kernels `disjoint_iL`,
`disjoint_kL`, `rs_chol`, `rs_ktei`, `yukawa`, `lambda`. -/
structure Caches where
  small : List (Mat ℝ)
  big : List (Mat ℝ)
  chol : List (Mat ℝ)
  rsSmall : List (Mat ℝ)
  rsBig : List (Mat ℝ)
  rsChol : List (Mat ℝ)
  rsKtei : List (Mat ℝ)
  yukawa : Bool
  lambda : ℝ

/-- A basis on which nothing has been computed; `yukawa` and `lambda` have no initialiser and are not read before `compute_*` has
filled a cache. -/
def Caches.fresh (y : Bool) (lam : ℝ) : Caches := ⟨[], [], [], [], [], [], [], y, lam⟩

/-- `compute_tei`, `atomic/TwoDBasis.cpp:709-735`, `sadatom/basis.cpp:132-152` -/
noncomputable def computeTei (lm : List (Int × Int)) (R : Radial) (pr : Prims) (tol : ℝ) (c : Caches) : Res Caches := do
  let nl ← numL lm
  let small ← fillCache nl R.nel pr.small
  let big ← fillCache nl R.nel (skipInner pr.big)
  let chol ← fillCache nl R.nel (factor pr.twoe tol)
  pure { c with small := small, big := big, chol := chol }

/-- `compute_yukawa`, `atomic/TwoDBasis.cpp:738-759`, `sadatom/basis.cpp:154-173` -/
noncomputable def computeYukawa (lm : List (Int × Int)) (R : Radial) (pr : Prims) (tol lam : ℝ) (c : Caches) : Res Caches := do
  let nl ← numL lm
  let small ← fillCache nl R.nel (pr.besselI lam)
  let big ← fillCache nl R.nel (skipInner (pr.besselK lam))
  let chol ← fillCache nl R.nel (factor (pr.yukawa lam) tol)
  pure { c with rsSmall := small, rsBig := big, rsChol := chol, yukawa := true, lambda := lam }

/-- `compute_erfc`, `atomic/TwoDBasis.cpp:762-771`, `sadatom/basis.cpp:175-184` -/
noncomputable def computeErfc (lm : List (Int × Int)) (R : Radial) (pr : Prims) (mu : ℝ) (c : Caches) : Res Caches := do
  let nl ← numL lm
  let k ← fillPairs nl R.nel fun L => erfcKteiOf R (pr.erfc mu L)
  pure { c with rsSmall := [], rsBig := [], rsKtei := k, yukawa := false, lambda := mu }

/-- `assemble_J_FE_one_multipole_cached_chol` on the cached integrals of one multipole, `TwoDBasis.cpp:836-849` -/
noncomputable def radialJ (R : Radial) (c : Caches) (L : Nat) (P : Mat ℝ) : Res (Mat ℝ) :=
  assembleJ R (fun iel => readAt c.small (L * R.nel + iel)) (fun iel => readAt c.big (L * R.nel + iel))
    (cholJ fun iel => readAt c.chol (L * R.nel + iel)) P

/-- `assemble_K_FE_one_multipole_cached_chol` on the cached integrals of one multipole, `TwoDBasis.cpp:976-991` -/
noncomputable def radialK (R : Radial) (c : Caches) (L : Nat) (P : Mat ℝ) : Res (Mat ℝ) :=
  assembleK R (cachedBlk (fun iel => readAt c.small (L * R.nel + iel)) (fun iel => readAt c.big (L * R.nel + iel))
    (cholK fun iel => readAt c.chol (L * R.nel + iel))) P

/-- the exchange assembly of a screened kernel, `TwoDBasis.cpp:1085-1123` -/
noncomputable def radialRs (R : Radial) (c : Caches) (L : Nat) (P : Mat ℝ) : Res (Mat ℝ) :=
  if c.yukawa then
    assembleK R (cachedBlk (fun iel => readAt c.rsSmall (L * R.nel + iel)) (fun iel => readAt c.rsBig (L * R.nel + iel))
      (cholK fun iel => readAt c.rsChol (L * R.nel + iel))) P
  else assembleK R (pairBlk fun iel jel => readAt c.rsKtei (R.nel * R.nel * L + iel * R.nel + jel)) P

/-- `4π/(2L+1)` -/
noncomputable def bareFac (L : Nat) : ℝ := 4 * Real.pi / (2 * L + 1)

/-- `TwoDBasis.cpp:1073-1074` -/
noncomputable def rsFac (c : Caches) (L : Nat) : ℝ := if c.yukawa then 4 * Real.pi * c.lambda else 4 * Real.pi * c.lambda / (2 * L + 1)

/-- the table of Gaunt coefficients of a call, `TwoDBasis.cpp:787-788`; the table is filled in parallel in the order `sched` -/
noncomputable def gauntTable (G : Nat → Int → Nat → Int → Nat → Int → ℝ) (lm : List (Int × Int)) (sched : List Nat) : Res (Gaunt.Table ℝ) := do
  let l ← maxOf (lm.map Prod.fst)
  let m ← maxOf (lm.map Prod.snd)
  Gaunt.build G (max l m).toNat (2 * (max l m)).toNat (max l m).toNat (-1) sched

/-! ### Coulomb -/

/-- `Paux`, `Jaux`: matrices per `(L, M)`; `none` is a matrix left empty. The column index `M+Mmax` is within the row for `|M| ≤ Mmax`. -/
abbrev Aux := Nat → Int → Option (Mat ℝ)

/-- `TwoDBasis.cpp:794-801, 824-830` -/
def auxZero (nl : Nat) (Mmax : Int) (nrad : Nat) : Aux := fun L M =>
  if L < nl ∧ |M| ≤ min (L : Int) Mmax then some (Mat.zero nrad nrad) else none

/-- `A[L][M+Mmax]` as a value; reading outside is undefined -/
def auxGet (A : Aux) (L : Nat) (M : Int) : Res (Mat ℝ) :=
  match A L M with
  | some X => .ok X
  | none => .ub

/-- `A[L][M+Mmax] += B` -/
def auxAdd (A : Aux) (L : Nat) (M : Int) (B : Mat ℝ) : Res Aux := do
  let X ← auxGet A L M
  let Y ← X.add B
  pure fun L' M' => if L' = L ∧ M' = M then some Y else A L' M'

/-- the multipoles that couple two angular functions, `TwoDBasis.cpp:813-815, 864-866` -/
def couples (a b : Int × Int) : List Int := intRange (max |a.1 - b.1| |a.2 - b.2|) (a.1 + b.1)

/-- one step of the ket contraction, `TwoDBasis.cpp:815-820`, for angular functions numbered `k`, `l` -/
noncomputable def ketStep (T : Gaunt.Table ℝ) (nrad : Nat) (P : Mat ℝ) (k l : Nat) (a b : Int × Int) (A : Aux) (L : Int) : Res Aux := do
  let cpl ← T.coeff a.1 a.2 L (a.2 - b.2) b.1
  let B ← P.block (k * nrad) (l * nrad) nrad nrad
  auxAdd A L.toNat (a.2 - b.2) (Mat.smul cpl B)

/-- contraction of the ket, `TwoDBasis.cpp:804-822` -/
noncomputable def contractKet (T : Gaunt.Table ℝ) (lm : List (Int × Int)) (nrad : Nat) (P : Mat ℝ) (A : Aux) : Res Aux :=
  (List.range lm.length).foldlM (fun A k => do
    let a ← readAt lm k
    (List.range lm.length).foldlM (fun A l => do
      let b ← readAt lm l
      (couples a b).foldlM (ketStep T nrad P k l a b) A) A) A

/-- one `(L, M)` of the contraction of the integrals, `TwoDBasis.cpp:846-850` -/
noncomputable def intStep (radJ : Nat → Mat ℝ → Res (Mat ℝ)) (Paux : Aux) (A : Aux) (LM : Nat × Int) : Res Aux := do
  let X ← auxGet Paux LM.1 LM.2
  let J ← radJ LM.1 X
  auxAdd A LM.1 LM.2 (Mat.smul (bareFac LM.1) J)

/-- contraction of the integrals, `TwoDBasis.cpp:833-851` -/
noncomputable def contractInts (radJ : Nat → Mat ℝ → Res (Mat ℝ)) (nl : Nat) (Mmax : Int) (Paux : Aux) (Jaux : Aux) : Res Aux :=
  ((List.range nl).flatMap fun (L : Nat) => (intRange (-(min (L : Int) Mmax)) (min (L : Int) Mmax)).map fun M => (L, M)).foldlM (intStep radJ Paux) Jaux

/-- `TwoDBasis.cpp:869-871` -/
noncomputable def braAdd (nrad : Nat) (Jaux : Aux) (i j L : Nat) (M : Int) (J : Mat ℝ) (cpl : ℝ) : Res (Mat ℝ) :=
  if cpl ≠ 0 then do
    let X ← auxGet Jaux L M
    J.addBlock (i * nrad) (j * nrad) nrad nrad (Mat.smul cpl X)
  else .ok J

/-- one step of the bra loop, `TwoDBasis.cpp:866-872` -/
noncomputable def braStep (T : Gaunt.Table ℝ) (nrad : Nat) (Jaux : Aux) (i j : Nat) (a b : Int × Int) (J : Mat ℝ) (L : Int) : Res (Mat ℝ) := do
  let cpl ← T.coeff b.1 b.2 L (b.2 - a.2) a.1
  braAdd nrad Jaux i j L.toNat (b.2 - a.2) J cpl

/-- `TwoDBasis.cpp:854-875` -/
noncomputable def expandBra (T : Gaunt.Table ℝ) (lm : List (Int × Int)) (nrad : Nat) (Jaux : Aux) : Res (Mat ℝ) :=
  (List.range lm.length).foldlM (fun J i => do
    let a ← readAt lm i
    (List.range lm.length).foldlM (fun J j => do
      let b ← readAt lm j
      (couples b a).foldlM (braStep T nrad Jaux i j a b) J) J) (Mat.zero (lm.length * nrad) (lm.length * nrad))

/-- `TwoDBasisT::coulomb`, `TwoDBasis.cpp:774-877`, with the table of Gaunt coefficients given -/
noncomputable def coulombWith (T : Gaunt.Table ℝ) (lm : List (Int × Int)) (nrad : Nat) (radJ : Nat → Mat ℝ → Res (Mat ℝ)) (P : Mat ℝ) : Res (Mat ℝ) := do
  let mx ← maxOf (lm.map Prod.snd)
  let mn ← minOf (lm.map Prod.snd)
  let nl ← numL lm
  let Paux ← contractKet T lm nrad P (auxZero nl (mx - mn) nrad)
  let Jaux ← contractInts radJ nl (mx - mn) Paux (auxZero nl (mx - mn) nrad)
  expandBra T lm nrad Jaux

/-- `TwoDBasisT::coulomb`, `TwoDBasis.cpp:774-877` -/
noncomputable def coulomb (G : Nat → Int → Nat → Int → Nat → Int → ℝ) (sched : List Nat) (lm : List (Int × Int)) (R : Radial) (c : Caches) (P : Mat ℝ) :
    Res (Mat ℝ) :=
  if c.chol.length = 0 then .throw .logicError
  else do
    let T ← gauntTable G lm sched
    coulombWith T lm R.nbf (radialJ R c) P

/-! ### exchange -/

/-- `M.norm()` -/
noncomputable def frob (M : Mat ℝ) : ℝ := Real.sqrt (∑ i ∈ Finset.range M.rows, ∑ j ∈ Finset.range M.cols, M.get i j * M.get i j)

/-- `Rmat` and `couple`, `TwoDBasis.cpp:926-932`: vectors with `nl` entries -/
structure Helpers where
  mat : Nat → Mat ℝ
  couple : Nat → Bool

/-- `Rmat[L] += B; couple[L] = true;` -/
def Helpers.add (nl : Nat) (h : Helpers) (L : Nat) (B : Mat ℝ) : Res Helpers :=
  if L < nl then do
    let X ← (h.mat L).add B
    pure ⟨fun L' => if L' = L then X else h.mat L', fun L' => if L' = L then true else h.couple L'⟩
  else .ub

/-- `TwoDBasis.cpp:960-966` -/
noncomputable def exAdd (nl : Nat) (fac : Nat → ℝ) (B : Mat ℝ) (h : Helpers) (L : Nat) (cpl : ℝ) : Res Helpers :=
  if cpl = 0 then .ok h else h.add nl L (Mat.smul (fac L * cpl) B)

/-- one multipole of the angular sum, `TwoDBasis.cpp:957-967` -/
noncomputable def exStep (T : Gaunt.Table ℝ) (nl : Nat) (fac : Nat → ℝ) (B : Mat ℝ) (ai aj ak al : Int × Int) (h : Helpers) (L : Int) : Res Helpers := do
  let c1 ← T.coeff aj.1 aj.2 L (aj.2 - ai.2) ai.1
  let c2 ← T.coeff ak.1 ak.2 L (aj.2 - ai.2) al.1
  exAdd nl fac B h L.toNat (c1 * c2)

/-- `TwoDBasis.cpp:948-968` for the density block `B` -/
noncomputable def exDense (T : Gaunt.Table ℝ) (nl : Nat) (fac : Nat → ℝ) (thr : ℝ) (B : Mat ℝ) (ai aj ak al : Int × Int) (h : Helpers) : Res Helpers :=
  if frob B < thr then .ok h
  else (intRange (max (max |ai.1 - aj.1| |ak.1 - al.1|) |aj.2 - ai.2|) (min (ai.1 + aj.1) (ak.1 + al.1))).foldlM
    (exStep T nl fac B ai aj ak al) h

/-- one density block of the angular sum, `TwoDBasis.cpp:940-968` -/
noncomputable def exBlock (T : Gaunt.Table ℝ) (nl nrad : Nat) (fac : Nat → ℝ) (thr : ℝ) (P : Mat ℝ) (i l : Nat) (ai aj ak al : Int × Int) (h : Helpers) :
    Res Helpers :=
  if aj.2 - ai.2 ≠ ak.2 - al.2 then .ok h
  else do
    let B ← P.block (i * nrad) (l * nrad) nrad nrad
    exDense T nl fac thr B ai aj ak al h

/-- the angular sums for one output block, `TwoDBasis.cpp:935-970` -/
noncomputable def exSums (T : Gaunt.Table ℝ) (lm : List (Int × Int)) (nl nrad : Nat) (fac : Nat → ℝ) (thr : ℝ) (P : Mat ℝ) (aj ak : Int × Int) : Res Helpers :=
  (List.range lm.length).foldlM (fun h i => do
    let ai ← readAt lm i
    (List.range lm.length).foldlM (fun h l => do
      let al ← readAt lm l
      exBlock T nl nrad fac thr P i l ai aj ak al h) h) ⟨fun _ => Mat.zero nrad nrad, fun _ => false⟩

/-- `TwoDBasis.cpp:974-992` -/
noncomputable def exRadial (radK : Nat → Mat ℝ → Res (Mat ℝ)) (h : Helpers) (Kb : Mat ℝ) (L : Nat) : Res (Mat ℝ) :=
  if h.couple L then do
    let X ← radK L (h.mat L)
    Kb.add X
  else .ok Kb

/-- the body of the parallel loop, `TwoDBasis.cpp:917-994` -/
noncomputable def exBody (T : Gaunt.Table ℝ) (lm : List (Int × Int)) (nl nrad : Nat) (fac : Nat → ℝ) (radK : Nat → Mat ℝ → Res (Mat ℝ)) (thr : ℝ) (P : Mat ℝ)
    (K : Mat ℝ) (jk : Nat × Nat) : Res (Mat ℝ) := do
  let aj ← readAt lm jk.1
  let ak ← readAt lm jk.2
  let h ← exSums T lm nl nrad fac thr P aj ak
  let Kb ← (List.range nl).foldlM (exRadial radK h) (Mat.zero nrad nrad)
  K.addBlock (jk.1 * nrad) (jk.2 * nrad) nrad nrad (Mat.smul (-1) Kb)

/-- `TwoDBasisT::exchange` and `rs_exchange`, `TwoDBasis.cpp:880-1131`: they differ in the prefactor `fac` and the radial assembly
`radK`. The parallel loop visits the pairs in the order `order`; every iteration touches its own block. -/
noncomputable def exchangeWith (T : Gaunt.Table ℝ) (lm : List (Int × Int)) (nrad : Nat) (fac : Nat → ℝ) (radK : Nat → Mat ℝ → Res (Mat ℝ)) (thr : ℝ)
    (order : List (Nat × Nat)) (P : Mat ℝ) : Res (Mat ℝ) := do
  let nl ← numL lm
  order.foldlM (exBody T lm nl nrad fac radK thr P) (Mat.zero (lm.length * nrad) (lm.length * nrad))

/-- `TwoDBasisT::exchange`, `TwoDBasis.cpp:880-999` -/
noncomputable def exchange (G : Nat → Int → Nat → Int → Nat → Int → ℝ) (sched : List Nat) (order : List (Nat × Nat)) (lm : List (Int × Int)) (R : Radial)
    (c : Caches) (thr : ℝ) (P : Mat ℝ) : Res (Mat ℝ) :=
  if c.chol.length = 0 then .throw .logicError
  else do
    let T ← gauntTable G lm sched
    exchangeWith T lm R.nbf bareFac (radialK R c) thr order P

/-- `TwoDBasisT::rs_exchange`, `TwoDBasis.cpp:1002-1131` -/
noncomputable def rsExchange (G : Nat → Int → Nat → Int → Nat → Int → ℝ) (sched : List Nat) (order : List (Nat × Nat)) (lm : List (Int × Int)) (R : Radial)
    (c : Caches) (thr : ℝ) (P : Mat ℝ) : Res (Mat ℝ) :=
  if c.rsKtei.length = 0 ∧ c.rsChol.length = 0 then .throw .logicError
  else do
    let T ← gauntTable G lm sched
    exchangeWith T lm R.nbf (rsFac c) (radialRs R c) thr order P

/-! ### spherically averaged atom -/

/-- `sadatom::basis::TwoDBasis::coulomb`, `sadatom/basis.cpp:186-207` -/
noncomputable def sadCoulomb (R : Radial) (c : Caches) (P : Mat ℝ) : Res (Mat ℝ) :=
  if c.chol.length = 0 then .throw .logicError
  else do
    let J ← radialJ R c 0 P
    pure (Mat.smul (bareFac 0) J)

/-- `lval = LinSpaced(lmax+1, 0, lmax)`, `sadatom/basis.cpp:50`; there are no `m` values -/
def sadL (lmax : Nat) : List (Int × Int) := (List.range (lmax + 1)).map fun (l : Nat) => ((l : Int), 0)

/-- accumulation of `totcoup(L)` for one `(mout, min)`, `sadatom/basis.cpp:262-266` -/
noncomputable def coupStep (T : Gaunt.Table ℝ) (lout lin mout min : Int) (t : Int → ℝ) (L : Int) : Res (Int → ℝ) := do
  let a ← T.coeff lout mout L (mout - min) lin
  let b ← T.coeff lout mout L (mout - min) lin
  pure fun L' => if L' = L then t L' + a * b else t L'

/-- `totcoup`, `sadatom/basis.cpp:254-270` -/
noncomputable def totCoup (T : Gaunt.Table ℝ) (lout lin : Int) : Res (Int → ℝ) := do
  let t ← (intRange (-lout) lout).foldlM (fun t mout => (intRange (-lin) lin).foldlM (fun t min =>
    (intRange |lin - lout| (lin + lout)).foldlM (coupStep T lout lin mout min) t) t) (fun _ => 0)
  pure fun L => t L / (2 * lout + 1)

/-- `sadatom/basis.cpp:246-283` for the density `B` -/
noncomputable def sadDense (T : Gaunt.Table ℝ) (nl : Nat) (fac : Nat → ℝ) (lout lin : Nat) (B : Mat ℝ) (h : Helpers) : Res Helpers :=
  if frob B = 0 then .ok h
  else do
    let t ← totCoup T lout lin
    (intRange |(lin : Int) - lout| (lin + lout)).foldlM (fun h L => exAdd nl fac B h L.toNat (t L)) h

/-- one input angular momentum, `sadatom/basis.cpp:244-283` -/
noncomputable def sadIn (T : Gaunt.Table ℝ) (nl : Nat) (fac : Nat → ℝ) (P : List (Mat ℝ)) (lout : Nat) (h : Helpers) (lin : Nat) : Res Helpers := do
  let B ← readAt P lin
  sadDense T nl fac lout lin B h

/-- `sadatom/basis.cpp:285-305` -/
noncomputable def sadRadial (radK : Nat → Mat ℝ → Res (Mat ℝ)) (h : Helpers) (Kb : Mat ℝ) (L : Nat) : Res (Mat ℝ) :=
  if h.couple L then do
    let X ← radK L (h.mat L)
    Kb.add (Mat.smul (-1) X)
  else .ok Kb

/-- the body of the parallel loop: `K[lout]`, `sadatom/basis.cpp:237-306` -/
noncomputable def sadBody (T : Gaunt.Table ℝ) (gmax nrad : Nat) (fac : Nat → ℝ) (radK : Nat → Mat ℝ → Res (Mat ℝ)) (P : List (Mat ℝ))
    (K : List (Mat ℝ)) (lout : Nat) : Res (List (Mat ℝ)) := do
  let h ← (List.range (gmax + 1)).foldlM (sadIn T (2 * gmax + 1) fac P lout) ⟨fun _ => Mat.zero nrad nrad, fun _ => false⟩
  let K0 ← readAt K lout
  let X ← (List.range (2 * gmax + 1)).foldlM (sadRadial radK h) K0
  pure (K.set lout X)

/-- `exchange`, `rs_exchange` of `sadatom::basis::TwoDBasis`, `sadatom/basis.cpp:209-429`; `order` is the order of the parallel loop -/
noncomputable def sadExchangeWith (T : Gaunt.Table ℝ) (gmax nrad : Nat) (fac : Nat → ℝ) (radK : Nat → Mat ℝ → Res (Mat ℝ)) (order : List Nat)
    (P : List (Mat ℝ)) : Res (List (Mat ℝ)) :=
  if P.length ≠ gmax + 1 then .throw .logicError
  else do
    let P0 ← readAt P 0
    if P0.rows ≠ nrad ∨ P0.cols ≠ nrad then .throw .logicError
    else order.foldlM (sadBody T gmax nrad fac radK P) (List.replicate (gmax + 1) (Mat.zero nrad nrad))

/-- `sadatom::basis::TwoDBasis::exchange`, `sadatom/basis.cpp:209-312` -/
noncomputable def sadExchange (G : Nat → Int → Nat → Int → Nat → Int → ℝ) (sched order : List Nat) (lmax : Nat) (R : Radial) (c : Caches)
    (P : List (Mat ℝ)) : Res (List (Mat ℝ)) :=
  if c.chol.length = 0 then .throw .logicError
  else do
    let T ← Gaunt.build G lmax (2 * lmax) lmax (-1) sched
    sadExchangeWith T lmax R.nbf bareFac (radialK R c) order P

/-- `sadatom::basis::TwoDBasis::rs_exchange`, `sadatom/basis.cpp:314-429` -/
noncomputable def sadRsExchange (G : Nat → Int → Nat → Int → Nat → Int → ℝ) (sched order : List Nat) (lmax : Nat) (R : Radial) (c : Caches)
    (P : List (Mat ℝ)) : Res (List (Mat ℝ)) :=
  if c.rsKtei.length = 0 ∧ c.rsChol.length = 0 then .throw .logicError
  else do
    let T ← Gaunt.build G lmax (2 * lmax) lmax (-1) sched
    sadExchangeWith T lmax R.nbf (rsFac c) (radialRs R c) order P

end AtomJK
end HelFEM
