import Verif.Model.Basic
import Mathlib.Algebra.Ring.Defs
import Mathlib.Algebra.Order.Ring.Int

/-!
# The Gaunt coefficient table

Models `src/general/gaunt.cpp:77-271` and `gaunt.h:85-92`. The external routine `wignernj::gaunt` is a parameter
`G l1 m1 l2 m2 l3 m3` (the integral of three spherical harmonics without conjugation; the C++ passes doubled arguments). The three maximal
angular momenta are nonnegative.
-/

namespace HelFEM
namespace Gaunt

variable {K : Type _} [Ring K]

/-- `gaunt_coefficient`, `gaunt.cpp:77-84` -/
def direct (G : Nat → Int → Nat → Int → Nat → Int → K) (L : Nat) (M : Int) (l : Nat) (m : Int) (lp : Nat) (mp : Int) : K :=
  (if M % 2 = 0 then 1 else -1) * G L (-M) l m lp mp

/-- lowest and highest stored `m2`, `gaunt.cpp:180-181` -/
def m2lo (ms l2 : Nat) : Int := max (-(l2 : Int)) (-(ms : Int))
def m2hi (ms l1 l2 : Nat) (m3 : Int) : Int := min (min ((l1 : Int) - m3) l2) ms

/-- `m2_count`, `gaunt.cpp:179-183` -/
def m2Count (ms l1 l2 : Nat) (m3 : Nat) : Nat :=
  if m2lo ms l2 ≤ m2hi ms l1 l2 m3 then (m2hi ms l1 l2 m3 - m2lo ms l2 + 1).toNat else 0

/-- `triple_index`, `gaunt.h:85-87` -/
def tripleIndex (lall l1 l2 l3 : Nat) : Nat := (l1 * (lall + 1) + l2) * (lall + 1) + l3

/-- The triples with given `l1`, in loop order and after the parity test, `gaunt.cpp:137-140`. -/
def triplesAt (lall l1 : Nat) : List (Nat × Nat × Nat) :=
  (List.range' ((l1 + 1) / 2) (min l1 lall + 1 - (l1 + 1) / 2)).flatMap fun l2 =>
    ((List.range' (l1 - l2) (min l2 lall + 1 - (l1 - l2))).filter fun l3 => (l1 + l2 + l3) % 2 = 0).map fun l3 => (l1, l2, l3)

/-- Number of coefficients stored for a triple, `gaunt.cpp:142-143`. -/
def runSize (ms : Nat) (t : Nat × Nat × Nat) : Nat := ((List.range (min t.2.2 ms + 1)).map fun m3 => m2Count ms t.1 t.2.1 m3).sum

/-- Layout loop, `gaunt.cpp:134-144`: base offsets by triple index, and the running total. `none` is `NPOS`. -/
def layoutStep (ms lall : Nat) (st : (Nat → Option Nat) × Nat) (t : Nat × Nat × Nat) : (Nat → Option Nat) × Nat :=
  (fun i => if i = tripleIndex lall t.1 t.2.1 t.2.2 then some st.2 else st.1 i, st.2 + runSize ms t)

def layout (ms lall : Nat) : (Nat → Option Nat) × Nat :=
  ((List.range (lall + 1)).flatMap (triplesAt lall)).foldl (layoutStep ms lall) (fun _ => none, 0)

/-- `slot`, `gaunt.cpp:186-199` -/
def slot (ms lall : Nat) (base : Nat → Option Nat) (l1 l2 l3 : Nat) (m3 m2 : Int) : Option Nat :=
  if lall < l1 then none
  else if (lall + 1) * (lall + 1) * (lall + 1) ≤ tripleIndex lall l1 l2 l3 then none
  else match base (tripleIndex lall l1 l2 l3) with
    | none => none
    | some b =>
      if m3 < 0 ∨ (min l3 ms : Nat) < m3 then none
      else if m2 < m2lo ms l2 ∨ m2hi ms l1 l2 m3 < m2 then none
      else some (b + ((List.range m3.toNat).map fun mm => m2Count ms l1 l2 mm).sum + (m2 - m2lo ms l2).toNat)

/-- One entry of the fill loop: `(l1, l2, l3, m3, m2)`. -/
abbrev Entry := (Nat × Nat × Nat) × Nat × Int

/-- Entries visited for a triple, `gaunt.cpp:164-167`. -/
def entriesOf (ms : Nat) (t : Nat × Nat × Nat) : List Entry :=
  (List.range (min t.2.2 ms + 1)).flatMap fun m3 =>
    (List.range (m2Count ms t.1 t.2.1 m3)).map fun k : Nat => (t, m3, m2lo ms t.2.1 + k)

/-- One fill step, `gaunt.cpp:168-174`. Writing outside the table is undefined. -/
def fillStep (G : Nat → Int → Nat → Int → Nat → Int → K) (ms lall : Nat) (base : Nat → Option Nat) (total : Nat)
    (c : Nat → K) (e : Entry) : Res (Nat → K) :=
  if (e.1.1 : Int) < |(-e.2.2 - e.2.1 : Int)| then .ok c
  else match slot ms lall base e.1.1 e.1.2.1 e.1.2.2 e.2.1 e.2.2 with
    | none => .ok c
    | some a => if a < total then .ok fun i => if i = a then G e.1.1 (-e.2.2 - e.2.1) e.1.2.1 e.2.2 e.1.2.2 e.2.1 else c i else .ub

/-- The table object. -/
structure Table (K : Type _) where
  Lmax : Nat
  lmax : Nat
  lpmax : Nat
  lall : Nat
  mcap : Nat
  mstore : Nat
  base : Nat → Option Nat
  total : Nat
  coeffs : Nat → K

/-- `GauntT` constructor, `gaunt.cpp:127-176`. The fill loop is parallel over `l1`; `sched` is the order in which the iterations run. -/
def build (G : Nat → Int → Nat → Int → Nat → Int → K) (Lmax lmax lpmax : Nat) (mcap_ : Int) (sched : List Nat) : Res (Table K) :=
  let lall := max (max Lmax lmax) lpmax
  let mcap := if mcap_ < 0 then lall else min mcap_.toNat lall
  let ms := min (2 * mcap) lall
  let lay := layout ms lall
  match ((sched.flatMap (triplesAt lall)).flatMap (entriesOf ms)).foldlM (fillStep G ms lall lay.1 lay.2) (fun _ => 0) with
  | .ok c => .ok ⟨Lmax, lmax, lpmax, lall, mcap, ms, lay.1, lay.2, c⟩
  | .throw e => .throw e
  | .ub => .ub

/-- `swap_if`, `gaunt.cpp:240-242` -/
def swapIf (p : (Nat × Int) × (Nat × Int)) : (Nat × Int) × (Nat × Int) := if p.1.1 < p.2.1 then (p.2, p.1) else p

/-- The sorting network, `gaunt.cpp:243` -/
def sort3 (a b c : Nat × Int) : (Nat × Int) × (Nat × Int) × (Nat × Int) :=
  let p := swapIf (a, b)
  let q := swapIf (p.2, c)
  let r := swapIf (p.1, q.1)
  (r.1, r.2, q.2)

/-- Negation of all `m` when the last is negative, `gaunt.cpp:244` -/
def flip3 (t : (Nat × Int) × (Nat × Int) × (Nat × Int)) : (Nat × Int) × (Nat × Int) × (Nat × Int) :=
  if t.2.2.2 < 0 then ((t.1.1, -t.1.2), (t.2.1.1, -t.2.1.2), (t.2.2.1, -t.2.2.2)) else t

/-- `coeff`, `gaunt.cpp:202-251`. Reading outside the table is undefined. -/
def Table.coeff (T : Table K) (L M l m lp : Int) : Res K :=
  if L < 0 ∨ (T.Lmax : Int) < L then .ok 0
  else if l < 0 ∨ (T.lmax : Int) < l then .ok 0
  else if lp < 0 ∨ (T.lpmax : Int) < lp then .ok 0
  else if L < |M| then .ok 0
  else if l < |m| then .ok 0
  else if (T.mcap : Int) < |M| ∨ (T.mcap : Int) < |m| then .throw .logicError
  else if lp < |M - m| then .ok 0
  else
    let t := flip3 (sort3 (L.toNat, -M) (l.toNat, m) (lp.toNat, M - m))
    match slot T.mstore T.lall T.base t.1.1 t.2.1.1 t.2.2.1 t.2.2.2 t.2.1.2 with
    | none => .ok 0
    | some a => if a < T.total then .ok ((if M % 2 = 0 then 1 else -1) * T.coeffs a) else .ub

/-- The loop bounds of the coupling through `Y_2^0`, `gaunt.cpp:92, 267` -/
def lpRange (L M : Int) : List Int :=
  (List.range (L + 2 - max (max (L - 2) 0) |M| + 1).toNat).map fun k : Nat => max (max (L - 2) 0) |M| + (k : Int)

/-- `modified_gaunt_coefficient`, `gaunt.cpp:86-98`; `c0`, `c2` are the two angular prefactors. -/
def modDirect (G : Nat → Int → Nat → Int → Nat → Int → K) (c0 c2 : K) (lj : Nat) (mj : Int) (L : Nat) (M : Int) (li : Nat) (mi : Int) : K :=
  c0 * (direct G L M 0 0 L M * direct G lj mj li mi L M) +
    c2 * (lpRange L M).foldl (fun s Lp => s + direct G Lp.toNat M 2 0 L M * direct G lj mj li mi Lp.toNat M) 0

/-- the accumulation loop of `mod_coeff` -/
def Table.modLoop (T : Table K) (lj mj L M li mi : Int) : List Int → K → Res K
  | [], s => .ok s
  | Lp :: r, s => do
    let a ← T.coeff Lp M 2 0 L
    let b ← T.coeff lj mj li mi Lp
    T.modLoop lj mj L M li mi r (s + a * b)

/-- `mod_coeff`, `gaunt.cpp:254-271` -/
def Table.modCoeff (T : Table K) (c0 c2 : K) (lj mj L M li mi : Int) : Res K :=
  if mj ≠ M + mi then .ok 0
  else do
    let a ← T.coeff L M 0 0 L
    let b ← T.coeff lj mj li mi L
    let s ← T.modLoop lj mj L M li mi (lpRange L M) 0
    pure (c0 * (a * b) + c2 * s)

end Gaunt
end HelFEM
