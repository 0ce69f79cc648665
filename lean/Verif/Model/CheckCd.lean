import Verif.Model.DiaJK
import Mathlib.Analysis.SpecialFunctions.Trigonometric.Basic
import Mathlib.Analysis.SpecialFunctions.Sqrt

/-!
# Self-check of the factorised two-electron integrals

Models `src/diatomic/basis.cpp:739-853` over the real numbers. The integrals `T00`, `T02`, `T20`, `T22` (computed at the order `compute_tei` uses) are parameters;
`in_element_kernel` is `kernel`, and the exchange contraction with the factorised integrals is `exVector`, both of `Verif.Model.DiaJK`.
-/

namespace HelFEM
namespace DiaJK
open TwoE Dia

/-- `in_element_kernel`, `basis.cpp:739-756` -/
noncomputable def inElementKernel (T00 T02 T22 : Mat ℝ) : Res (Mat ℝ) := kernel T00 T02 T22

/-- `Kcat` of `in_element_kernel_exchange`, `basis.cpp:758-780` -/
noncomputable def kcat (T00 T02 T20 T22 : Mat ℝ) (ni : Nat) : Res (Mat ℝ) :=
  exchangeTei T00 ni ni ni ni >>= fun K00 => exchangeTei T02 ni ni ni ni >>= fun K02 => exchangeTei T20 ni ni ni ni >>= fun K20 => exchangeTei T22 ni ni ni ni >>= fun K22 =>
  let n := K00.rows
  (Mat.zero n (4 * n) : Mat ℝ).setBlock 0 (0 * n) n n K00 >>= fun M => M.setBlock 0 (1 * n) n n K02 >>= fun M =>
  M.setBlock 0 (2 * n) n n K20 >>= fun M => M.setBlock 0 (3 * n) n n K22

/-- `v += w` -/
def vadd (v w : Vect ℝ) : Res (Vect ℝ) := if v.size = w.size then .ok ⟨v.size, fun i => v.get i + w.get i⟩ else .ub

/-- `kex += K*Map(R)`, `basis.cpp:826-833` -/
noncomputable def kexStep (ni : Nat) (kex : Vect ℝ) (t : Mat ℝ × Mat ℝ) : Res (Vect ℝ) :=
  exchangeTei t.1 ni ni ni ni >>= fun K => mulVec K (vec t.2) >>= fun v => vadd kex v

/-- `Kexact`, `basis.cpp:825-834` -/
noncomputable def kExact (T00 T02 T20 T22 : Mat ℝ) (ni : Nat) (r : Quad) : Res (Mat ℝ) :=
  [(T00, r.r00), (T02, r.r02), (T20, r.r20), (T22, r.r22)].foldlM (kexStep ni) (Vect.zero (ni * ni)) >>= fun kex => unvec kex ni ni

/-- `Kri`, `basis.cpp:836-848` -/
noncomputable def kRi (B : Mat ℝ) (sigma : Vect ℝ) (ni : Nat) (r : Quad) : Res (Mat ℝ) :=
  (List.range B.cols).foldlM (exVector B sigma ni r) (Mat.zero ni ni)

/-- `Wrec`, `basis.cpp:806-809` -/
noncomputable def reconW (m : Nat) (B : Mat ℝ) (sigma : Vect ℝ) : Res (Mat ℝ) :=
  (List.range B.cols).foldlM (fun M p => if p < sigma.size then M.add ⟨B.rows, B.rows, fun i j => sigma.get p * (B.get i p * B.get j p)⟩ else .ub) (Mat.zero m m)

/-- `M.norm()` -/
noncomputable def frob (M : Mat ℝ) : ℝ := Real.sqrt (∑ i ∈ Finset.range M.rows, ∑ j ∈ Finset.range M.cols, M.get i j ^ 2)

/-- a quotient of norms; `none` if it is not finite -/
noncomputable def quot (a b : ℝ) : Option ℝ := if b = 0 then none else some (a / b)

/-- `R00`, `R02`, `R20`, `R22`, `basis.cpp:812-822` -/
noncomputable def testR (ni : Nat) : Quad :=
  let t := fun i j : Nat => ((i * ni + j + 1 : Nat) : ℝ)
  ⟨⟨ni, ni, fun i j => Real.sin (7 / 10 * t i j)⟩, ⟨ni, ni, fun i j => Real.cos (13 / 10 * t i j)⟩, ⟨ni, ni, fun i j => Real.sin (21 / 10 * t i j + 4 / 10)⟩,
    ⟨ni, ni, fun i j => Real.cos (9 / 10 * t i j + 11 / 10)⟩⟩

/-- `check_cd` with any blocks `r`: the norms `‖W - Wrec‖`, `‖W‖`, `‖Kexact - Kri‖`, `‖Kexact‖`, `basis.cpp:782-852` -/
noncomputable def norms (T00 T02 T20 T22 B : Mat ℝ) (sigma : Vect ℝ) (ni : Nat) (r : Quad) : Res (ℝ × ℝ × ℝ × ℝ) :=
  inElementKernel T00 T02 T22 >>= fun W => reconW (2 * T00.rows) B sigma >>= fun Wr => W.add (Mat.smul (-1) Wr) >>= fun D =>
  kExact T00 T02 T20 T22 ni r >>= fun Ke => kRi B sigma ni r >>= fun Kr => Ke.add (Mat.smul (-1) Kr) >>= fun E => .ok (frob D, frob W, frob E, frob Ke)

/-- `check_cd`, `basis.cpp:782-853` -/
noncomputable def checkCd (T00 T02 T20 T22 B : Mat ℝ) (sigma : Vect ℝ) (ni : Nat) : Res (Option ℝ × Option ℝ) :=
  norms T00 T02 T20 T22 B sigma ni (testR ni) >>= fun x => .ok (quot x.1 x.2.1, quot x.2.2.1 x.2.2.2)

/-- `check_cd` as it is called: the entry of the table and the stored factors of the element are looked up, `basis.cpp:782-785, 804-805`. The integrals are computed after the
entry has been found; they are given here for the `(L, M)` and `iel` of the call. -/
noncomputable def checkCdAt (tab : List (Int × Int)) (nel : Nat) (cdB : List (Mat ℝ)) (cdSigma : List (Vect ℝ)) (T00 T02 T20 T22 : Mat ℝ) (ni iel : Nat) (L M : Int) :
    Res (Option ℝ × Option ℝ) :=
  lmind tab L M true >>= fun ilm => readAt cdB (ilm * nel + iel) >>= fun B => readAt cdSigma (ilm * nel + iel) >>= fun sigma => checkCd T00 T02 T20 T22 B sigma ni

end DiaJK
end HelFEM
