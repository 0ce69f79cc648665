import Verif.Model.Mat
import Verif.Model.FEIndex

/-!
# Two-electron integrals: exchange ordering and assembly of Coulomb and exchange matrices

Models `libhelfem/src/utils.cpp:54-80` and `libhelfemqc/include/CoulombExchangeFE.h`.
-/

namespace HelFEM
namespace TwoE
variable {K : Type _}

/-- Reading `M(i, j)`. -/
def readM (M : Mat K) (i j : Nat) : Res K := if i < M.rows ∧ j < M.cols then .ok (M.get i j) else .ub

/-- `M(i, j) = v`. -/
def writeM (M : Mat K) (i j : Nat) (v : K) : Res (Mat K) :=
  if i < M.rows ∧ j < M.cols then .ok ⟨M.rows, M.cols, fun a b => if a = i ∧ b = j then v else M.get a b⟩ else .ub

/-- The quadruples visited by the loop nest `for ii, for jj, for kk, for ll` of `utils.cpp:72-75`, in order. -/
def quads (Ni Nj Nk Nl : Nat) : List (Nat × Nat × Nat × Nat) :=
  (List.range Ni).flatMap fun ii => (List.range Nj).flatMap fun jj => (List.range Nk).flatMap fun kk =>
    (List.range Nl).map fun ll => (ii, jj, kk, ll)

/-- `exchange_tei`, `utils.cpp:54-80`. -/
def exchangeTei [Zero K] (tei : Mat K) (Ni Nj Nk Nl : Nat) : Res (Mat K) :=
  if tei.rows ≠ Ni * Nj then .throw .logicError
  else if tei.cols ≠ Nk * Nl then .throw .logicError
  else (quads Ni Nj Nk Nl).foldlM (fun ktei t => do
    let v ← readM tei (t.2.1 * Ni + t.1) (t.2.2.2 * Nk + t.2.2.1)
    writeM ktei (t.2.2.1 * Nj + t.2.1) (t.2.2.2 * Ni + t.1) v) (Mat.zero (Nj * Nk) (Ni * Nl))

/-- `M.trace()` -/
def trace [AddCommMonoid K] (M : Mat K) : K := ∑ i ∈ Finset.range M.rows, M.get i i

/-- `Eigen::Map<const Vec>(M.data(), M.size())`: column-major. -/
def vec (M : Mat K) : Vect K := ⟨M.rows * M.cols, fun k => M.get (k % M.rows) (k / M.rows)⟩

/-- `Eigen::Map<const Mat>(v.data(), r, c)`: reads `r*c` numbers. -/
def unvec (v : Vect K) (r c : Nat) : Res (Mat K) :=
  if r * c ≤ v.size then .ok ⟨r, c, fun i j => v.get (j * r + i)⟩ else .ub

/-- `M * v` -/
def mulVec [AddCommMonoid K] [Mul K] (M : Mat K) (v : Vect K) : Res (Vect K) :=
  if M.cols = v.size then .ok ⟨M.rows, fun i => ∑ k ∈ Finset.range M.cols, M.get i k * v.get k⟩ else .ub

/-- What the assembly routines use of `FEMRadialBasisT`: `Nel()`, `Nbf()` and `get_idx`. -/
structure Radial where
  nel : Nat
  nbf : Nat
  idx : Nat → Res (Nat × Nat)

/-- Index range of an element: first function and number of functions. -/
def Radial.range (R : Radial) (iel : Nat) : Res (Nat × Nat) := do
  let (f, l) ← R.idx iel
  pure (f, l + 1 - f)

section assemble
variable [CommRing K]

/-- Inner loops over the other elements `iels` of the Coulomb assembly, `CoulombExchangeFE.h:329-342`: adds `s * A(iel)`. -/
def addScaled (R : Radial) (s : K) (A : Nat → Res (Mat K)) (iels : List Nat) (J : Mat K) : Res (Mat K) :=
  iels.foldlM (fun J iel => do
    let (f, n) ← R.range iel
    let a ← A iel
    J.addBlock f f n n (Mat.smul s a)) J

/-- In-element contraction with the dense tensor, `CoulombExchangeFE.h:343-348`. -/
def denseJ (twoe : Nat → Res (Mat K)) (jel n : Nat) (Psub : Mat K) : Res (Mat K) := do
  let t ← twoe jel
  let v ← mulVec t (vec Psub)
  unvec v n n

/-- In-element contraction with the factor, `CoulombExchangeFE.h:471-480`. -/
def cholJ (fac : Nat → Res (Mat K)) (jel n : Nat) (Psub : Mat K) : Res (Mat K) := do
  let L ← fac jel
  let s ← mulVec L.transpose (vec Psub)
  let v ← mulVec L s
  unvec v n n

/-- The outer moment of the density block; not computed for the innermost element, `CoulombExchangeFE.h:327, 455`. -/
def outerMoment (rBig : Nat → Res (Mat K)) (jel : Nat) (Psub : Mat K) : Res K :=
  if 0 < jel then do
    let bg ← rBig jel
    let m ← bg.mul Psub
    pure (trace m)
  else pure 0

/-- `assemble_J_FE_one_multipole_cached` and `…_cached_chol`, `CoulombExchangeFE.h:305-350, 433-482`: the two differ in the
in-element contraction `inel` only. `rSmall`, `rBig` are the accessors; an accessor call on an element without integrals may be
undefined (`ub`). -/
def assembleJ (R : Radial) (rSmall rBig : Nat → Res (Mat K)) (inel : (jel n : Nat) → Mat K → Res (Mat K)) (P : Mat K) : Res (Mat K) :=
  (List.range R.nel).foldlM (fun J jel => do
    let (jf, nj) ← R.range jel
    let Psub ← P.block jf jf nj nj
    let sm ← rSmall jel
    let jsm ← sm.mul Psub
    let jbig ← outerMoment rBig jel Psub
    let J ← addScaled R jbig rSmall (List.range jel) J
    let J ← addScaled R (trace jsm) rBig (List.range' (jel + 1) (R.nel - (jel + 1))) J
    let B ← inel jel nj Psub
    J.addBlock jf jf nj nj B) (Mat.zero R.nbf R.nbf)

/-- In-element exchange with the permuted tensor, `CoulombExchangeFE.h:372-378`. -/
def denseK (ktei : Nat → Res (Mat K)) (iel ni nj : Nat) (Psub : Mat K) : Res (Mat K) := do
  let t ← ktei iel
  let v ← mulVec t (vec Psub)
  unvec v ni nj

/-- In-element exchange with the factor, `CoulombExchangeFE.h:505-520`. -/
def cholK (fac : Nat → Res (Mat K)) (iel ni nj : Nat) (Psub : Mat K) : Res (Mat K) := do
  let L ← fac iel
  (List.range L.cols).foldlM (fun Ks p => do
    let Mp ← unvec ⟨L.rows, fun i => L.get i p⟩ ni ni
    let t ← Psub.mul Mp.transpose
    let u ← Mp.mul t
    Ks.add u) (Mat.zero ni nj)

/-- `c ? a : b` -/
def pick {α : Type _} (c : Prop) [Decidable c] (a b : α) : α := if c then a else b

/-- Factorised exchange of different elements, `CoulombExchangeFE.h:379-386`. -/
def disjointK (rSmall rBig : Nat → Res (Mat K)) (iel jel : Nat) (Psub : Mat K) : Res (Mat K) := do
  let iint ← pick (jel < iel) (rBig iel) (rSmall iel)
  let jint ← pick (jel < iel) (rSmall jel) (rBig jel)
  let t ← Psub.mul jint.transpose
  iint.mul t

/-- `assemble_K_FE_one_multipole_cached` and `…_cached_chol`, `CoulombExchangeFE.h:353-389, 485-530`, and the pairwise variant
`397-422`: they differ in the block `blk iel jel ni nj Psub` only. -/
def assembleK (R : Radial) (blk : (iel jel ni nj : Nat) → Mat K → Res (Mat K)) (P : Mat K) : Res (Mat K) :=
  (List.range R.nel).foldlM (fun Km iel => do
    let (fi, ni) ← R.range iel
    (List.range R.nel).foldlM (fun Km jel => do
      let (fj, nj) ← R.range jel
      let Psub ← P.block fi fj ni nj
      let B ← blk iel jel ni nj Psub
      Km.addBlock fi fj ni nj B) Km) (Mat.zero R.nbf R.nbf)

/-- Block of the cached K assembly. -/
def cachedBlk (rSmall rBig : Nat → Res (Mat K)) (inel : (iel ni nj : Nat) → Mat K → Res (Mat K)) (iel jel ni nj : Nat) (Psub : Mat K) :
    Res (Mat K) :=
  if iel = jel then inel iel ni nj Psub else disjointK rSmall rBig iel jel Psub

/-- Block of the pairwise K assembly, `CoulombExchangeFE.h:412-418`. -/
def pairBlk (ktei : Nat → Nat → Res (Mat K)) (iel jel ni nj : Nat) (Psub : Mat K) : Res (Mat K) := do
  let t ← ktei iel jel
  let v ← mulVec t (vec Psub)
  unvec v ni nj

/-- The cache of permuted in-element tensors, `CoulombExchangeFE.h:248-267` (entry of one multipole), also the accessor `kt` of the
uncached entry points `565-576`. -/
def kteiOf (R : Radial) (tei : Nat → Res (Mat K)) (iel : Nat) : Res (Mat K) := do
  let (_, n) ← R.range iel
  let t ← tei iel
  exchangeTei t n n n n

/-- The cache of permuted erfc tensors, `CoulombExchangeFE.h:275-297` (entries of one multipole). -/
def erfcKteiOf (R : Radial) (erfc : Nat → Nat → Res (Mat K)) (iel jel : Nat) : Res (Mat K) := do
  let (_, ni) ← R.range iel
  let (_, nj) ← R.range jel
  let t ← erfc iel jel
  exchangeTei t ni ni nj nj

end assemble
end TwoE
end HelFEM
