import Mathlib.MeasureTheory.Integral.IntervalIntegral.FundThmCalculus
import Mathlib.MeasureTheory.Integral.IntervalIntegral.Basic

/-!
# Independent description of matrix elements between two finite element bases

Nothing here refers to the model of the code.
-/

namespace HelFEM
namespace Cross
namespace Spec
open Finset MeasureTheory

/-- A finite element basis on the line: `ne` elements `[b e, b (e+1)]`, `N` functions, of which `first e, …, last e` live on element `e`, where derivative `d` of
function number `first e + a` is `phi d e a` of the reference coordinate in `[-1, 1]`. -/
structure FE where
  ne : Nat
  b : Nat → ℝ
  N : Nat
  first : Nat → Nat
  last : Nat → Nat
  phi : Nat → Nat → Nat → ℝ → ℝ

/-- reference coordinate of `r` in element `e` -/
noncomputable def FE.ref (R : FE) (e : Nat) (r : ℝ) : ℝ := (r - (R.b e + R.b (e + 1)) / 2) / ((R.b (e + 1) - R.b e) / 2)

/-- derivative `d` of basis function `i` at `r`: given by the element `r` lies in, zero outside all elements; boundaries, a finite set, are left out -/
noncomputable def FE.fn (R : FE) (d i : Nat) (r : ℝ) : ℝ :=
  ∑ e ∈ range R.ne, if R.b e < r ∧ r < R.b (e + 1) then (if R.first e ≤ i ∧ i ≤ R.last e then R.phi d e (i - R.first e) (R.ref e r) else 0) else 0

/-- shared range of element `e` of one basis and element `f` of another -/
noncomputable def lo (R Q : FE) (e f : Nat) : ℝ := max (R.b e) (Q.b f)
noncomputable def hi (R Q : FE) (e f : Nat) : ℝ := min (R.b (e + 1)) (Q.b (f + 1))

/-- the product of local functions and weight at `r` -/
noncomputable def prod (R Q : FE) (d d' : Nat) (w : ℝ → ℝ) (e f a b : Nat) (r : ℝ) : ℝ := R.phi d e a (R.ref e r) * Q.phi d' f b (Q.ref f r) * w r

/-- the point of `[lo, hi]` at reference coordinate `x` -/
noncomputable def at_ (R Q : FE) (e f : Nat) (x : ℝ) : ℝ := (lo R Q e f + hi R Q e f) / 2 + (hi R Q e f - lo R Q e f) / 2 * x

/-- quadrature on `[-1, 1]` -/
def quad (rule : List (ℝ × ℝ)) (g : ℝ → ℝ) : ℝ := (rule.map fun p => p.2 * g p.1).sum

/-- the rule integrates all products over all shared ranges exactly -/
def Exact (rule : List (ℝ × ℝ)) (R Q : FE) (d d' : Nat) (w : ℝ → ℝ) : Prop :=
  ∀ e < R.ne, ∀ f < Q.ne, lo R Q e f < hi R Q e f → ∀ a, R.first e + a ≤ R.last e → ∀ b, Q.first f + b ≤ Q.last f →
    quad rule (fun x => prod R Q d d' w e f a b (at_ R Q e f x)) = ∫ x in (-1 : ℝ)..1, prod R Q d d' w e f a b (at_ R Q e f x)

/-- elements in increasing order -/
def FE.Sorted (R : FE) : Prop := ∀ e < R.ne, R.b e < R.b (e + 1)

/-- smooth local functions -/
def FE.Cont (R : FE) (d : Nat) : Prop := ∀ e < R.ne, ∀ a, R.first e + a ≤ R.last e → ContinuousOn (R.phi d e a) (Set.Icc (-1) 1)

/-- the matrix element: an integral over the whole line -/
noncomputable def element (R Q : FE) (d d' : Nat) (w : ℝ → ℝ) (i j : Nat) : ℝ := ∫ r, R.fn d i r * Q.fn d' j r * w r

/-- what the rule gives for the pair `(e, f)` -/
noncomputable def pairSum (rule : List (ℝ × ℝ)) (R Q : FE) (d d' : Nat) (w : ℝ → ℝ) (i j e f : Nat) : ℝ :=
  if lo R Q e f < hi R Q e f ∧ (R.first e ≤ i ∧ i ≤ R.last e) ∧ (Q.first f ≤ j ∧ j ≤ Q.last f) then
    (hi R Q e f - lo R Q e f) / 2 * quad rule (fun x => prod R Q d d' w e f (i - R.first e) (j - Q.first f) (at_ R Q e f x))
  else 0

end Spec
end Cross
end HelFEM
