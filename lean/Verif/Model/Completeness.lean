import Verif.Model.Basic
import Mathlib.Analysis.SpecialFunctions.Log.Base
import Mathlib.LinearAlgebra.Matrix.Trace

/-!
# The completeness scan of the diatomic program

Models `src/diatomic/completeness.cpp:92-318` over the real numbers: the exponents, the batches, and for each exponent the completeness and importance profiles. The
quadrature projections `gto_projection`, `sto_projection` (a row per exponent) and `atomic_projection` are parameters, and so is the symmetric eigensolver. Printing and
the writing of files are not modelled.
-/

namespace HelFEM
namespace Compl

/-- Eigenvalues and eigenvectors (columns) as returned by `Eigen::SelfAdjointEigenSolver` -/
structure Eig (n : Nat) where
  val : Fin n → ℝ
  vec : Matrix (Fin n) (Fin n) ℝ

/-- `LinSpaced(nexp, log10(minexp), log10(maxexp))` entry `i`; Eigen replaces the lower end by the upper one for a single point. `completeness.cpp:92` -/
noncomputable def logExp (nexp : Nat) (minexp maxexp : ℝ) (i : Nat) : ℝ :=
  let hi := Real.logb 10 maxexp
  let lo := if nexp = 1 then hi else Real.logb 10 minexp
  if i + 1 = nexp then hi else lo + i * ((hi - lo) / ((nexp : ℝ) - 1))

/-- the exponents, `completeness.cpp:92-93`; a negative number of points is undefined behaviour -/
noncomputable def exponents (nexp : Int) (minexp maxexp : ℝ) : Res (List ℝ) :=
  if nexp < 0 then .ub
  else .ok ((List.range nexp.toNat).map fun i => Real.exp (logExp nexp.toNat minexp maxexp i * Real.log 10))

/-- `form_Sinv`, `completeness.cpp:137-148` -/
noncomputable def formSinv {n : Nat} (es : Eig n) : Matrix (Fin n) (Fin n) ℝ :=
  (List.finRange n).foldl
    (fun result i => if es.val i ≥ 1 / 1000000 then result + (1 / es.val i) • Matrix.of (fun a b => es.vec a i * es.vec b i) else result) 0

/-- `C.leftCols(nel)` (asserted in range) -/
def leftCols {n mo : Nat} (C : Matrix (Fin n) (Fin mo) ℝ) (nel : Nat) : Res (Matrix (Fin n) (Fin nel) ℝ) :=
  if h : nel ≤ mo then .ok (C.submatrix id (Fin.castLE h)) else .ub

/-- the padded overlap matrix, `completeness.cpp:245-253` -/
def padS {q : Nat} (Smin : Matrix (Fin q) (Fin q) ℝ) (ov : Fin q → ℝ) (s : ℝ) : Matrix (Fin (q + 1)) (Fin (q + 1)) ℝ :=
  Matrix.of fun i j => Fin.lastCases (Fin.lastCases s (fun b => ov b) j) (fun a => Fin.lastCases (ov a) (fun b => Smin a b) j) i

/-- the padded overlaps of the orbitals, `completeness.cpp:258-260, 276-278` -/
def padA {q na : Nat} (A : Matrix (Fin na) (Fin q) ℝ) (p : Fin na → ℝ) : Matrix (Fin na) (Fin (q + 1)) ℝ :=
  Matrix.of fun a j => Fin.lastCases (p a) (fun b => A a b) j

/-- `(A * Sinv * A.transpose()).trace()` -/
def projTrace {na q : Nat} (A : Matrix (Fin na) (Fin q) ℝ) (Sinv : Matrix (Fin q) (Fin q) ℝ) : ℝ := (A * Sinv * A.transpose).trace

/-- One column of the three profiles. -/
structure Col where
  expn : ℝ
  imp0a : ℝ
  imp0b : ℝ
  impa : ℝ
  impb : ℝ
  y : ℝ

/-- a zeroed column -/
def Col.zero : Col := ⟨0, 0, 0, 0, 0, 0⟩

/-- What is read or formed before the loop over probes: overlaps `Q` of the minimal basis with the elements' functions, the checkpoint's `Sinvh`, occupied orbitals. -/
structure Ctx (n k q na nb : Nat) where
  Sinvh : Matrix (Fin n) (Fin k) ℝ
  Ca : Matrix (Fin n) (Fin na) ℝ
  Cb : Matrix (Fin n) (Fin nb) ℝ
  Q : Matrix (Fin q) (Fin n) ℝ

open Matrix

variable {n k q na nb : Nat}

/-- `Sinvh*Sinvh.transpose()`, `completeness.cpp:64` -/
def Ctx.Sinv (c : Ctx n k q na nb) : Matrix (Fin n) (Fin n) ℝ := c.Sinvh * c.Sinvh.transpose

/-- `Smin`, `completeness.cpp:153` -/
def Ctx.Smin (c : Ctx n k q na nb) : Matrix (Fin q) (Fin q) ℝ := c.Q * c.Sinv * c.Q.transpose

/-- `alpha_minbas`, `beta_minbas`, `completeness.cpp:168, 175` -/
def minbas {no : Nat} (Q : Matrix (Fin q) (Fin n) ℝ) (C : Matrix (Fin n) (Fin no) ℝ) : Matrix (Fin no) (Fin q) ℝ := (Q * C).transpose

/-- Row of `Ysub`, `completeness.cpp:217` -/
def Ctx.ysub (c : Ctx n k q na nb) (p : Fin n → ℝ) : ℝ := (p ᵥ* c.Sinv) ⬝ᵥ p

/-- Column of `Pa`, `Pb`, `completeness.cpp:222-225` -/
def occProj {no : Nat} (C : Matrix (Fin n) (Fin no) ℝ) (p : Fin n → ℝ) : Fin no → ℝ := C.transpose *ᵥ p

/-- Padded overlap matrix for a scanning function with overlaps `p`, `completeness.cpp:230, 245-253` -/
def Ctx.Spad (c : Ctx n k q na nb) (p : Fin n → ℝ) : Matrix (Fin (q + 1)) (Fin (q + 1)) ℝ :=
  padS c.Smin ((c.Q * c.Sinv) *ᵥ p) (p ⬝ᵥ (c.Sinv *ᵥ p))

/-- One pass of the loop over exponents, `completeness.cpp:234-289`; the eigensolver is `eig` -/
noncomputable def Ctx.column (c : Ctx n k q na nb) (eig : ∀ d, Matrix (Fin d) (Fin d) ℝ → Eig d) (x : ℝ) (p : Fin n → ℝ) : Col :=
  let i0a := occProj c.Ca p ⬝ᵥ occProj c.Ca p
  let i0b := if nb ≠ 0 then occProj c.Cb p ⬝ᵥ occProj c.Cb p else 0
  let SminInv := formSinv (eig q c.Smin)
  let SpadInv := formSinv (eig (q + 1) (c.Spad p))
  let ia := if q > 0 then projTrace (padA (minbas c.Q c.Ca) (occProj c.Ca p)) SpadInv - projTrace (minbas c.Q c.Ca) SminInv else i0a
  let ib := if q > 0 then
      (if nb > 0 then projTrace (padA (minbas c.Q c.Cb) (occProj c.Cb p)) SpadInv - projTrace (minbas c.Q c.Cb) SminInv else 0)
    else i0b
  ⟨x, i0a, i0b, ia, ib, c.ysub p⟩

/-- `exponent_batch_size`, `completeness.cpp:197` -/
def batchSize : Nat := 200

/-- Loop over batches, `completeness.cpp:197-290`; `ends` is `iend+1`, and `sched b len` the order in which the threads go through a batch. -/
def batches (N : Nat) (sched : Nat → Nat → List Nat) : List Nat → List (List Nat)
  | [] => []
  | b :: bs =>
    let istart := batchSize * b
    let ends := min (batchSize * (b + 1)) N
    if istart ≥ ends then [] else (sched b (ends - istart)).map (istart + ·) :: batches N sched bs

/-- Columns filled in by the scan, starting from zero; `P x` is the row of overlaps of the function with exponent `x`, `completeness.cpp:180-290` -/
noncomputable def Ctx.scan (c : Ctx n k q na nb) (eig : ∀ d, Matrix (Fin d) (Fin d) ℝ → Eig d) (sched : Nat → Nat → List Nat) (P : ℝ → Fin n → ℝ) (expn : List ℝ) :
    List Col :=
  ((batches expn.length sched (List.range (expn.length / batchSize + 1))).flatten).foldl
    (fun out i => out.set i (c.column eig (expn.getD i 0) (P (expn.getD i 0)))) (List.replicate expn.length Col.zero)

/-- The scan for one shell and centre from the data of the checkpoint, `completeness.cpp:63-76, 92-93, 180-290`; probes other than 0 and 1 throw (`195`). If the
probe is unknown and there are too few orbitals as well, the program may throw before it reads the orbitals; the model then has undefined behaviour. -/
noncomputable def run {n k mo q : Nat} (eig : ∀ d, Matrix (Fin d) (Fin d) ℝ → Eig d) (sched : Nat → Nat → List Nat) (gto sto : ℝ → Fin n → ℝ) (iprobe nexp : Int)
    (minexp maxexp : ℝ) (Sinvh : Matrix (Fin n) (Fin k) ℝ) (Ca Cb : Matrix (Fin n) (Fin mo) ℝ) (Q : Matrix (Fin q) (Fin n) ℝ) (nela nelb : Nat) : Res (List Col) := do
  let expn ← exponents nexp minexp maxexp
  let A ← leftCols Ca nela
  let B ← leftCols Cb nelb
  if iprobe = 0 then pure (Ctx.scan ⟨Sinvh, A, B, Q⟩ eig sched gto expn)
  else if iprobe = 1 then pure (Ctx.scan ⟨Sinvh, A, B, Q⟩ eig sched sto expn)
  else .throw .logicError

end Compl
end HelFEM
