import Verif.Model.LIP
import Verif.Model.HIPGen

/-!
# Hermite interpolating polynomials of order one, two and three

Models the evaluators of `HIPBasis.h`, `HIP2Basis.h`, `HIP3Basis.h` on top of the transcribed expressions in
`Verif.Model.HIPGen`.
-/

namespace HelFEM
namespace Poly

variable {K : Type _} [Field K]

/-- The three Hermite classes; `m` is the number of functions per node. -/
inductive HermiteFam where
  | hip | hip2 | hip3
  deriving DecidableEq, Repr

def HermiteFam.m : HermiteFam → Nat
  | .hip => 2 | .hip2 => 3 | .hip3 => 4

/-- Highest derivative order with a `case` in `HIPBasis_eval.h`, `HIP2Basis_eval.h`, `HIP3Basis_eval.h`. -/
def HermiteFam.maxOrder : HermiteFam → Nat
  | .hip => 20 | .hip2 => 5 | .hip3 => 5

/-- The `switch(n)` of `eval_hip_prim_dnf` / `eval_hip2_prim_dnf` / `eval_hip3_prim_dnf`. -/
def HermiteFam.case (f : HermiteFam) : (n j : Nat) → (Nat → K) → K → K → K → K → K → Option K :=
  match f with
  | .hip => Gen.hip | .hip2 => Gen.hip2 | .hip3 => Gen.hip3

def HermiteFam.caseR0 (f : HermiteFam) : (n j : Nat) → (Nat → K) → K → K → K → K → K → Option K :=
  match f with
  | .hip => Gen.hipR0 | .hip2 => Gen.hip2R0 | .hip3 => Gen.hip3R0

def HermiteFam.caseR1 (f : HermiteFam) : (n j : Nat) → (Nat → K) → K → K → K → K → K → Option K :=
  match f with
  | .hip => Gen.hipR1 | .hip2 => Gen.hip2R1 | .hip3 => Gen.hip3R1

/-- `lipxi`, `lipxi2`, `lipxi3`: the k-th derivative of the Lagrange polynomial of a node at that node, computed in
the constructors (`HIPBasis.h:43-46`, `HIP2Basis.h:54-58`, `HIP3Basis.h:53-59`). -/
def lipxi (N : Nat) (x0 : Nat → K) (k fi : Nat) : K := lipVal N x0 (x0 fi) k fi

/-- `eval_prim_dnf` of the Hermite classes, entry for primitive `idx = m*node + kind`
(`HIPBasis.h:83-86`, `HIPBasis_eval.h:45-1162` etc.); kind `j` is multiplied by `element_length^j`. -/
def hermitePrimDnf (f : HermiteFam) (N : Nat) (x0 : Nat → K) (x len : K) (n : Int) (idx : Nat) : Res K :=
  if n < 0 then .throw .logicError
  else
    let fi := idx / f.m
    let j := idx % f.m
    match f.case n.toNat j (fun k => lipVal N x0 x k fi) x (x0 fi) (lipxi N x0 1 fi) (lipxi N x0 2 fi)
        (lipxi N x0 3 fi) with
    | some v => .ok (v * len ^ j)
    | none => .throw .logicError

/-- `eval_over_r` of the Hermite classes (`HIPBasis_over_r.h:47-171` and the files for orders two and three), entry for
the surviving primitive `idx`; `first` is `enabled(0)` or `none` if nothing survives.  `R` stays
zero where the `switch` has no case (the value function of the node at the origin). -/
def hermiteOverR (f : HermiteFam) (N : Nat) (x0 : Nat → K) (first : Option Nat) (x : K) (n : Int) (len : K)
    (idx : Nat) : Res K :=
  if n < 0 ∨ n > 2 then .throw .logicError
  else match first with
  | none => .throw .logicError
  | some 0 => .throw .logicError
  | some (_ + 1) =>
    let node := idx / f.m
    let kind := idx % f.m
    let o := n.toNat
    let R : Option K :=
      if node = 0 then
        f.caseR0 o kind (fun k => if k ≤ o then lipVal N x0 x k 0 else 0) x (x0 node)
          (lipxi N x0 1 node) (lipxi N x0 2 node) (lipxi N x0 3 node)
      else
        f.caseR1 o kind (fun k => if k ≤ o then lipVal (N - 1) (fun i => x0 (i + 1)) x k (node - 1) else 0) x (x0 node)
          (lipxi N x0 1 node) (lipxi N x0 2 node) (lipxi N x0 3 node)
    .ok (R.getD 0 * len ^ ((kind : Int) - 1 - n))

end Poly
end HelFEM
