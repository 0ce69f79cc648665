import Verif.Model.TwoElectron
import Mathlib.Algebra.Field.Basic

/-!
# In-element two-electron integrals

Models `libhelfem/src/quadrature.cpp:37-161`.  A number that would be infinite or NaN in C++ is `none` and propagates.  Rounding, overflow and
underflow are left out.  The polynomial basis enters through its number of functions `nbf` and its values `bf i x`; the evaluation itself is
modelled in `LIP`, `Hermite` and `Legendre`.
-/

namespace HelFEM
namespace TwoE

variable {K : Type _} [Field K] [DecidableEq K]

/-- `pow(r/R, L) / R`, `quadrature.cpp:118` -/
def fsmallbig (L : Nat) (r R : K) : Option K := if R = 0 then none else some ((r / R) ^ L / R)

/-- `pow(r, -L - 1)`, `quadrature.cpp:119` -/
def fbig (L : Nat) (r : K) : Option K := if r = 0 then none else some ((r ^ (L + 1))⁻¹)

/-- product and sum of possibly undefined numbers -/
def mulN (a b : Option K) : Option K := match a, b with | some x, some y => some (x * y) | _, _ => none
def addN (a b : Option K) : Option K := match a, b with | some x, some y => some (x + y) | _, _ => none
def divN (a b : Option K) : Option K := match a, b with | some x, some y => if y = 0 then none else some (x / y) | _, _ => none
def sumN (l : List (Option K)) : Option K := l.foldr addN (some 0)

/-- `twoe_inner_integral_wrk`, entry `c` of the flattened matrix (column-major: function `c % nbf` times function `c / nbf`),
`quadrature.cpp:37-74`. -/
def innerWrk (nbf : Nat) (bf : Nat → K → K) (rmin rmax rmin0 rmax0 : K) (rule : List (K × K)) (L : Nat) (c : Nat) : Option K :=
  let rmid := 1 / 2 * (rmax + rmin)
  let rlen := 1 / 2 * (rmax - rmin)
  let rmid0 := 1 / 2 * (rmax0 + rmin0)
  let rlen0 := 1 / 2 * (rmax0 - rmin0)
  sumN (rule.map fun q =>
    let r := rmid + rlen * q.1
    let wp := mulN (mulN (some q.2) (fsmallbig L r rmax)) (some rlen)
    let xpoly := (r - rmid0) / rlen0
    mulN (mulN (some (bf (c % nbf) xpoly)) wp) (some (bf (c / nbf) xpoly)))

/-- Coordinates of the quadrature points, `quadrature.cpp:83-85`. -/
def innerR (rmin rmax : K) (rule : List (K × K)) (ip : Nat) : K :=
  1 / 2 * (rmax + rmin) + 1 / 2 * (rmax - rmin) * (rule.getD ip (0, 0)).1

/-- The separate segments, `quadrature.cpp:93-99`. -/
def segment (nbf : Nat) (bf : Nat → K → K) (rmin rmax : K) (rule : List (K × K)) (L : Nat) : Nat → Nat → Option K
  | 0 => fun c => if innerR rmin rmax rule 0 = rmin then some 0
      else innerWrk nbf bf rmin (innerR rmin rmax rule 0) rmin rmax rule L c
  | ip + 1 => fun c => innerWrk nbf bf (innerR rmin rmax rule ip) (innerR rmin rmax rule (ip + 1)) rmin rmax rule L c

/-- `twoe_inner_integral`, row `ip` after the running update, `quadrature.cpp:77-112`. -/
def inner (nbf : Nat) (bf : Nat → K → K) (rmin rmax : K) (rule : List (K × K)) (L : Nat) : Nat → Nat → Option K
  | 0 => segment nbf bf rmin rmax rule L 0
  | ip + 1 => fun c =>
    if ip = 0 ∧ innerR rmin rmax rule 0 = rmin then segment nbf bf rmin rmax rule L 1 c
    else addN (segment nbf bf rmin rmax rule L (ip + 1) c)
      (mulN (inner nbf bf rmin rmax rule L ip c)
        (divN (fbig L (innerR rmin rmax rule (ip + 1))) (fbig L (innerR rmin rmax rule ip))))

/-- `ints(row, col)` before symmetrisation, `quadrature.cpp:126-133, 148-157`: column `fi*N+fj` of the product matrix is `bf_fi bf_fj`. -/
def twoeHalf (nbf : Nat) (bf : Nat → K → K) (rmin rmax : K) (rule : List (K × K)) (L : Nat) (row col : Nat) : Option K :=
  let rlen := 1 / 2 * (rmax - rmin)
  sumN ((List.range rule.length).map fun ip =>
    let q := rule.getD ip (0, 0)
    mulN (some (bf (row / nbf) q.1 * bf (row % nbf) q.1 * (q.2 * rlen))) (inner nbf bf rmin rmax rule L ip col))

/-- `twoe_integral`, `quadrature.cpp:137-161`. An empty rule makes `r(0)` an out-of-range access. -/
def twoeIntegral (nbf : Nat) (bf : Nat → K → K) (rmin rmax : K) (x w : List K) (L : Nat) : Res (Mat (Option K)) :=
  if x.length = w.length then
    if x.length = 0 then .ub
    else .ok ⟨nbf * nbf, nbf * nbf, fun i j =>
      addN (twoeHalf nbf bf rmin rmax (x.zip w) L i j) (twoeHalf nbf bf rmin rmax (x.zip w) L j i)⟩
  else .throw .logicError

end TwoE
end HelFEM
