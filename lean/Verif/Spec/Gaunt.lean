import Mathlib.Algebra.Ring.Defs
import Mathlib.Algebra.Order.Ring.Int

/-!
# What is used about Gaunt coefficients

`G l1 m1 l2 m2 l3 m3` stands for the integral of three spherical harmonics `Y_{l1}^{m1} Y_{l2}^{m2} Y_{l3}^{m3}`. It does not
change when the columns are permuted or all `m` change sign (for `m1 + m2 + m3 = 0`), and it is zero when the triangle inequality or
the parity rule fails.
-/

namespace HelFEM
namespace Gaunt

structure Symmetric {K : Type _} [Ring K] (G : Nat → Int → Nat → Int → Nat → Int → K) : Prop where
  swap12 : ∀ l1 m1 l2 m2 l3 m3, m1 + m2 + m3 = 0 → G l1 m1 l2 m2 l3 m3 = G l2 m2 l1 m1 l3 m3
  swap23 : ∀ l1 m1 l2 m2 l3 m3, m1 + m2 + m3 = 0 → G l1 m1 l2 m2 l3 m3 = G l1 m1 l3 m3 l2 m2
  neg : ∀ l1 m1 l2 m2 l3 m3, m1 + m2 + m3 = 0 → G l1 m1 l2 m2 l3 m3 = G l1 (-m1) l2 (-m2) l3 (-m3)
  triangle : ∀ l1 m1 l2 m2 l3 m3, l2 + l3 < l1 → G l1 m1 l2 m2 l3 m3 = 0
  parity : ∀ l1 m1 l2 m2 l3 m3, (l1 + l2 + l3) % 2 = 1 → G l1 m1 l2 m2 l3 m3 = 0
  range : ∀ (l1 : Nat) m1 (l2 : Nat) m2 (l3 : Nat) m3, ((l1 : Int) < |m1| ∨ (l2 : Int) < |m2| ∨ (l3 : Int) < |m3|) → G l1 m1 l2 m2 l3 m3 = 0

end Gaunt
end HelFEM
