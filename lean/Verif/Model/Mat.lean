import Verif.Model.Basic
import Mathlib.Algebra.BigOperators.Intervals

/-!
# Dense matrices and vectors

Models the parts of Eigen's `Matrix` the code uses.  Entries outside the declared size carry no meaning; theorems speak about entries inside.
-/

namespace HelFEM

/-- `helfem::Mat<T>`: size and entries. -/
structure Mat (K : Type _) where
  rows : Nat
  cols : Nat
  get : Nat → Nat → K

/-- `helfem::Vec<T>`: size and entries. -/
structure Vect (K : Type _) where
  size : Nat
  get : Nat → K

namespace Mat
variable {K : Type _}

/-- Same size and same entries. -/
def Same (A B : Mat K) : Prop :=
  A.rows = B.rows ∧ A.cols = B.cols ∧ ∀ i < A.rows, ∀ j < A.cols, A.get i j = B.get i j

/-- `Mat::Zero(r, c)` -/
def zero [Zero K] (r c : Nat) : Mat K := ⟨r, c, fun _ _ => 0⟩

/-- `M.transpose()` -/
def transpose (A : Mat K) : Mat K := ⟨A.cols, A.rows, fun i j => A.get j i⟩

/-- `A * B`; a dimension mismatch is an assertion failure in Eigen. -/
def mul [AddCommMonoid K] [Mul K] (A B : Mat K) : Res (Mat K) :=
  if A.cols = B.rows then .ok ⟨A.rows, B.cols, fun i j => ∑ k ∈ Finset.range A.cols, A.get i k * B.get k j⟩ else .ub

/-- `A + B` -/
def add [Add K] (A B : Mat K) : Res (Mat K) :=
  if A.rows = B.rows ∧ A.cols = B.cols then .ok ⟨A.rows, A.cols, fun i j => A.get i j + B.get i j⟩ else .ub

/-- `s * A` -/
def smul [Mul K] (s : K) (A : Mat K) : Mat K := ⟨A.rows, A.cols, fun i j => s * A.get i j⟩

/-- `M.block(i0, j0, nr, nc)` as a value -/
def block (M : Mat K) (i0 j0 nr nc : Nat) : Res (Mat K) :=
  if i0 + nr ≤ M.rows ∧ j0 + nc ≤ M.cols then .ok ⟨nr, nc, fun i j => M.get (i0 + i) (j0 + j)⟩ else .ub

/-- `M.block(i0, j0, nr, nc) += B` -/
def addBlock [Add K] (M : Mat K) (i0 j0 nr nc : Nat) (B : Mat K) : Res (Mat K) :=
  if i0 + nr ≤ M.rows ∧ j0 + nc ≤ M.cols ∧ B.rows = nr ∧ B.cols = nc then
    .ok ⟨M.rows, M.cols, fun i j =>
      if i0 ≤ i ∧ i < i0 + nr ∧ j0 ≤ j ∧ j < j0 + nc then M.get i j + B.get (i - i0) (j - j0) else M.get i j⟩
  else .ub

/-- `M.block(i0, j0, nr, nc) = B` -/
def setBlock (M : Mat K) (i0 j0 nr nc : Nat) (B : Mat K) : Res (Mat K) :=
  if i0 + nr ≤ M.rows ∧ j0 + nc ≤ M.cols ∧ B.rows = nr ∧ B.cols = nc then
    .ok ⟨M.rows, M.cols, fun i j =>
      if i0 ≤ i ∧ i < i0 + nr ∧ j0 ≤ j ∧ j < j0 + nc then B.get (i - i0) (j - j0) else M.get i j⟩
  else .ub

end Mat

namespace Vect
variable {K : Type _}

def zero [Zero K] (n : Nat) : Vect K := ⟨n, fun _ => 0⟩

/-- `V.segment(i0, n) += B` -/
def addSegment [Add K] (V : Vect K) (i0 n : Nat) (B : Vect K) : Res (Vect K) :=
  if i0 + n ≤ V.size ∧ B.size = n then
    .ok ⟨V.size, fun i => if i0 ≤ i ∧ i < i0 + n then V.get i + B.get (i - i0) else V.get i⟩
  else .ub

end Vect
end HelFEM
