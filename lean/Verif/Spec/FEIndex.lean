/-!
# Specification: which shape functions survive the boundary conditions

Independent of the model.  An element has `n` nodes carrying `nov` shape functions each; shape function
`i` sits on node `i / nov`, and is the value interpolant of that node if `i % nov = 0` and one of the
derivative interpolants otherwise.  (For one function per node there are no derivative interpolants; the
first and the last Legendre functions play the role of the two end nodes.)
-/

namespace HelFEM.Spec

/-- Shape function `i` is removed by asking for zero value (`func`) / zero derivatives (`deriv`) at
node `node`. -/
def removedAt (nov node : Nat) (func deriv : Bool) (i : Nat) : Bool :=
  i / nov == node && ((i % nov == 0 && func) || (i % nov != 0 && deriv))

/-- The functions kept in an element: `left`/`right` are the flags of an outer edge of the grid, `none`
if that side of the element is not an outer edge. -/
def kept (nov n : Nat) (left right : Option (Bool × Bool)) : List Nat :=
  (List.range (nov * n)).filter fun i =>
    (match left with | some (fu, de) => !removedAt nov 0 fu de i | none => true) &&
    (match right with | some (fu, de) => !removedAt nov (n - 1) fu de i | none => true)

end HelFEM.Spec
