import Mathlib.Algebra.Field.Basic

/-!
# Hermite evaluators: literal expressions

Generated by transcribing, expression by expression, the C++ sources
`libhelfem/include/HIPBasis_eval.h`, `HIP2Basis_eval.h`, `HIP3Basis_eval.h` and `HIP*Basis_over_r.h`
(which are themselves generated).  Naming: `hip_n_j` is the statement assigning `dnf(ix, m*fi + j)` in `case (n)`, before the
multiplication by `element_length^j`; `hipR0_n_j` / `hipR1_n_j` are the values `R` for the node at the origin / the other nodes
in `eval_hip_prim_over_r`, order `n`, kind `j`.

`L k` stands for `Lx, dLx, ddLx, d3Lx, …` (the k-th derivative of the Lagrange polynomial of the node at `xv`; in the
`R1` functions `pr, dpr, ddpr` of the reduced node set), `p1 p2 p3` for `dLxi_v, ddLxi_v, d3Lxi_v`.
-/

set_option linter.unusedVariables false
set_option linter.style.longLine false

namespace HelFEM
namespace Poly
namespace Gen

variable {K : Type _} [Field K]

/-- `HIPBasis_eval.h:60` -/
def hip_0_0 (L : Nat → K) (xv xi p1 p2 p3 : K) : K :=
  let cse0 : K := 2*p1;
  ((L 0))*((L 0))*(cse0*xi - cse0*xv + 1)

/-- `HIPBasis_eval.h:63` -/
def hip_0_1 (L : Nat → K) (xv xi p1 p2 p3 : K) : K :=
  ((L 0))*((L 0))*(-xi + xv)

/-- `HIPBasis_eval.h:84` -/
def hip_1_0 (L : Nat → K) (xv xi p1 p2 p3 : K) : K :=
  let cse0 : K := 2*p1;
  -((L 0))*((L 0))*cse0 + 2*(L 0)*(L 1)*(cse0*xi - cse0*xv + 1)

/-- `HIPBasis_eval.h:87` -/
def hip_1_1 (L : Nat → K) (xv xi p1 p2 p3 : K) : K :=
  ((L 0))*((L 0)) + 2*(L 0)*(L 1)*(-xi + xv)

/-- `HIPBasis_eval.h:111` -/
def hip_2_0 (L : Nat → K) (xv xi p1 p2 p3 : K) : K :=
  let cse0 : K := 2*p1;
  -8*(L 0)*(L 1)*p1 + (2*(L 0)*(L 2) + 2*((L 1))*((L 1)))*(cse0*xi - cse0*xv + 1)

/-- `HIPBasis_eval.h:114` -/
def hip_2_1 (L : Nat → K) (xv xi p1 p2 p3 : K) : K :=
  4*(L 0)*(L 1) + (-xi + xv)*(2*(L 0)*(L 2) + 2*((L 1))*((L 1)))

/-- `HIPBasis_eval.h:142` -/
def hip_3_0 (L : Nat → K) (xv xi p1 p2 p3 : K) : K :=
  let cse0 : K := 6*(L 2);
  let cse1 : K := 2*p1;
  -cse1*((L 0)*cse0 + 6*((L 1))*((L 1))) + (2*(L 0)*(L 3) + cse0*(L 1))*(cse1*xi - cse1*xv + 1)

/-- `HIPBasis_eval.h:146` -/
def hip_3_1 (L : Nat → K) (xv xi p1 p2 p3 : K) : K :=
  let cse0 : K := 6*(L 2);
  (L 0)*cse0 + 6*((L 1))*((L 1)) + (-xi + xv)*(2*(L 0)*(L 3) + cse0*(L 1))

/-- `HIPBasis_eval.h:177` -/
def hip_4_0 (L : Nat → K) (xv xi p1 p2 p3 : K) : K :=
  let cse0 : K := 8*(L 3);
  let cse1 : K := 2*p1;
  -cse1*((L 0)*cse0 + 24*(L 1)*(L 2)) + (2*(L 0)*(L 4) + cse0*(L 1) + 6*((L 2))*((L 2)))*(cse1*xi - cse1*xv + 1)

/-- `HIPBasis_eval.h:181` -/
def hip_4_1 (L : Nat → K) (xv xi p1 p2 p3 : K) : K :=
  let cse0 : K := 8*(L 3);
  (L 0)*cse0 + 24*(L 1)*(L 2) + (-xi + xv)*(2*(L 0)*(L 4) + cse0*(L 1) + 6*((L 2))*((L 2)))

/-- `HIPBasis_eval.h:215` -/
def hip_5_0 (L : Nat → K) (xv xi p1 p2 p3 : K) : K :=
  let cse0 : K := 10*(L 4);
  let cse1 : K := 2*p1;
  -cse1*((L 0)*cse0 + 40*(L 3)*(L 1) + 30*((L 2))*((L 2))) + (2*(L 0)*(L 5) + cse0*(L 1) + 20*(L 3)*(L 2))*(cse1*xi - cse1*xv + 1)

/-- `HIPBasis_eval.h:219` -/
def hip_5_1 (L : Nat → K) (xv xi p1 p2 p3 : K) : K :=
  let cse0 : K := 10*(L 4);
  (L 0)*cse0 + 40*(L 3)*(L 1) + 30*((L 2))*((L 2)) + (-xi + xv)*(2*(L 0)*(L 5) + cse0*(L 1) + 20*(L 3)*(L 2))

/-- `HIPBasis_eval.h:256` -/
def hip_6_0 (L : Nat → K) (xv xi p1 p2 p3 : K) : K :=
  let cse0 : K := 12*(L 5);
  let cse1 : K := 2*p1;
  -cse1*((L 0)*cse0 + 120*(L 3)*(L 2) + 60*(L 4)*(L 1)) + (cse1*xi - cse1*xv + 1)*(2*(L 0)*(L 6) + cse0*(L 1) + 20*((L 3))*((L 3)) + 30*(L 4)*(L 2))

/-- `HIPBasis_eval.h:260` -/
def hip_6_1 (L : Nat → K) (xv xi p1 p2 p3 : K) : K :=
  let cse0 : K := 12*(L 5);
  (L 0)*cse0 + 120*(L 3)*(L 2) + 60*(L 4)*(L 1) + (-xi + xv)*(2*(L 0)*(L 6) + cse0*(L 1) + 20*((L 3))*((L 3)) + 30*(L 4)*(L 2))

/-- `HIPBasis_eval.h:300` -/
def hip_7_0 (L : Nat → K) (xv xi p1 p2 p3 : K) : K :=
  let cse0 : K := 14*(L 6);
  let cse1 : K := 2*p1;
  -cse1*((L 0)*cse0 + 140*((L 3))*((L 3)) + 210*(L 4)*(L 2) + 84*(L 5)*(L 1)) + (cse1*xi - cse1*xv + 1)*(2*(L 0)*(L 7) + cse0*(L 1) + 70*(L 3)*(L 4) + 42*(L 5)*(L 2))

/-- `HIPBasis_eval.h:304` -/
def hip_7_1 (L : Nat → K) (xv xi p1 p2 p3 : K) : K :=
  let cse0 : K := 14*(L 6);
  (L 0)*cse0 + 140*((L 3))*((L 3)) + 210*(L 4)*(L 2) + 84*(L 5)*(L 1) + (-xi + xv)*(2*(L 0)*(L 7) + cse0*(L 1) + 70*(L 3)*(L 4) + 42*(L 5)*(L 2))

/-- `HIPBasis_eval.h:347` -/
def hip_8_0 (L : Nat → K) (xv xi p1 p2 p3 : K) : K :=
  let cse0 : K := 16*(L 7);
  let cse1 : K := 2*p1;
  -cse1*((L 0)*cse0 + 560*(L 3)*(L 4) + 336*(L 5)*(L 2) + 112*(L 6)*(L 1)) + (cse1*xi - cse1*xv + 1)*(2*(L 0)*(L 8) + cse0*(L 1) + 112*(L 3)*(L 5) + 70*((L 4))*((L 4)) + 56*(L 6)*(L 2))

/-- `HIPBasis_eval.h:351` -/
def hip_8_1 (L : Nat → K) (xv xi p1 p2 p3 : K) : K :=
  let cse0 : K := 16*(L 7);
  (L 0)*cse0 + 560*(L 3)*(L 4) + 336*(L 5)*(L 2) + 112*(L 6)*(L 1) + (-xi + xv)*(2*(L 0)*(L 8) + cse0*(L 1) + 112*(L 3)*(L 5) + 70*((L 4))*((L 4)) + 56*(L 6)*(L 2))

/-- `HIPBasis_eval.h:397` -/
def hip_9_0 (L : Nat → K) (xv xi p1 p2 p3 : K) : K :=
  let cse0 : K := 18*(L 8);
  let cse1 : K := 2*p1;
  -cse1*((L 0)*cse0 + 1008*(L 3)*(L 5) + 630*((L 4))*((L 4)) + 504*(L 6)*(L 2) + 144*(L 7)*(L 1)) + (cse1*xi - cse1*xv + 1)*(2*(L 0)*(L 9) + cse0*(L 1) + 168*(L 3)*(L 6) + 252*(L 4)*(L 5) + 72*(L 7)*(L 2))

/-- `HIPBasis_eval.h:401` -/
def hip_9_1 (L : Nat → K) (xv xi p1 p2 p3 : K) : K :=
  let cse0 : K := 18*(L 8);
  (L 0)*cse0 + 1008*(L 3)*(L 5) + 630*((L 4))*((L 4)) + 504*(L 6)*(L 2) + 144*(L 7)*(L 1) + (-xi + xv)*(2*(L 0)*(L 9) + cse0*(L 1) + 168*(L 3)*(L 6) + 252*(L 4)*(L 5) + 72*(L 7)*(L 2))

/-- `HIPBasis_eval.h:450` -/
def hip_10_0 (L : Nat → K) (xv xi p1 p2 p3 : K) : K :=
  let cse0 : K := 20*(L 9);
  let cse1 : K := 2*p1;
  -cse1*((L 0)*cse0 + 1680*(L 3)*(L 6) + 2520*(L 4)*(L 5) + 720*(L 7)*(L 2) + 180*(L 8)*(L 1)) + (cse1*xi - cse1*xv + 1)*(2*(L 0)*(L 10) + cse0*(L 1) + 240*(L 3)*(L 7) + 420*(L 4)*(L 6) + 252*((L 5))*((L 5)) + 90*(L 8)*(L 2))

/-- `HIPBasis_eval.h:454` -/
def hip_10_1 (L : Nat → K) (xv xi p1 p2 p3 : K) : K :=
  let cse0 : K := 20*(L 9);
  (L 0)*cse0 + 1680*(L 3)*(L 6) + 2520*(L 4)*(L 5) + 720*(L 7)*(L 2) + 180*(L 8)*(L 1) + (-xi + xv)*(2*(L 0)*(L 10) + cse0*(L 1) + 240*(L 3)*(L 7) + 420*(L 4)*(L 6) + 252*((L 5))*((L 5)) + 90*(L 8)*(L 2))

/-- `HIPBasis_eval.h:506` -/
def hip_11_0 (L : Nat → K) (xv xi p1 p2 p3 : K) : K :=
  let cse0 : K := 22*(L 10);
  let cse1 : K := 2*p1;
  -cse1*((L 0)*cse0 + 2640*(L 3)*(L 7) + 4620*(L 4)*(L 6) + 2772*((L 5))*((L 5)) + 990*(L 8)*(L 2) + 220*(L 9)*(L 1)) + (cse1*xi - cse1*xv + 1)*(2*(L 0)*(L 11) + cse0*(L 1) + 330*(L 3)*(L 8) + 660*(L 4)*(L 7) + 924*(L 5)*(L 6) + 110*(L 9)*(L 2))

/-- `HIPBasis_eval.h:510` -/
def hip_11_1 (L : Nat → K) (xv xi p1 p2 p3 : K) : K :=
  let cse0 : K := 22*(L 10);
  (L 0)*cse0 + 2640*(L 3)*(L 7) + 4620*(L 4)*(L 6) + 2772*((L 5))*((L 5)) + 990*(L 8)*(L 2) + 220*(L 9)*(L 1) + (-xi + xv)*(2*(L 0)*(L 11) + cse0*(L 1) + 330*(L 3)*(L 8) + 660*(L 4)*(L 7) + 924*(L 5)*(L 6) + 110*(L 9)*(L 2))

/-- `HIPBasis_eval.h:565` -/
def hip_12_0 (L : Nat → K) (xv xi p1 p2 p3 : K) : K :=
  let cse0 : K := 24*(L 11);
  let cse1 : K := 2*p1;
  -cse1*((L 0)*cse0 + 264*(L 10)*(L 1) + 3960*(L 3)*(L 8) + 7920*(L 4)*(L 7) + 11088*(L 5)*(L 6) + 1320*(L 9)*(L 2)) + (cse1*xi - cse1*xv + 1)*(2*(L 0)*(L 12) + cse0*(L 1) + 132*(L 10)*(L 2) + 440*(L 3)*(L 9) + 990*(L 4)*(L 8) + 1584*(L 5)*(L 7) + 924*((L 6))*((L 6)))

/-- `HIPBasis_eval.h:569` -/
def hip_12_1 (L : Nat → K) (xv xi p1 p2 p3 : K) : K :=
  let cse0 : K := 24*(L 11);
  (L 0)*cse0 + 264*(L 10)*(L 1) + 3960*(L 3)*(L 8) + 7920*(L 4)*(L 7) + 11088*(L 5)*(L 6) + 1320*(L 9)*(L 2) + (-xi + xv)*(2*(L 0)*(L 12) + cse0*(L 1) + 132*(L 10)*(L 2) + 440*(L 3)*(L 9) + 990*(L 4)*(L 8) + 1584*(L 5)*(L 7) + 924*((L 6))*((L 6)))

/-- `HIPBasis_eval.h:627` -/
def hip_13_0 (L : Nat → K) (xv xi p1 p2 p3 : K) : K :=
  let cse0 : K := 26*(L 12);
  let cse1 : K := 2*p1;
  -cse1*((L 0)*cse0 + 1716*(L 10)*(L 2) + 312*(L 11)*(L 1) + 5720*(L 3)*(L 9) + 12870*(L 4)*(L 8) + 20592*(L 5)*(L 7) + 12012*((L 6))*((L 6))) + (cse1*xi - cse1*xv + 1)*(2*(L 0)*(L 13) + cse0*(L 1) + 572*(L 10)*(L 3) + 156*(L 11)*(L 2) + 1430*(L 4)*(L 9) + 2574*(L 5)*(L 8) + 3432*(L 6)*(L 7))

/-- `HIPBasis_eval.h:631` -/
def hip_13_1 (L : Nat → K) (xv xi p1 p2 p3 : K) : K :=
  let cse0 : K := 26*(L 12);
  (L 0)*cse0 + 1716*(L 10)*(L 2) + 312*(L 11)*(L 1) + 5720*(L 3)*(L 9) + 12870*(L 4)*(L 8) + 20592*(L 5)*(L 7) + 12012*((L 6))*((L 6)) + (-xi + xv)*(2*(L 0)*(L 13) + cse0*(L 1) + 572*(L 10)*(L 3) + 156*(L 11)*(L 2) + 1430*(L 4)*(L 9) + 2574*(L 5)*(L 8) + 3432*(L 6)*(L 7))

/-- `HIPBasis_eval.h:692` -/
def hip_14_0 (L : Nat → K) (xv xi p1 p2 p3 : K) : K :=
  let cse0 : K := 28*(L 13);
  let cse1 : K := 2*p1;
  -cse1*((L 0)*cse0 + 8008*(L 10)*(L 3) + 2184*(L 11)*(L 2) + 364*(L 12)*(L 1) + 20020*(L 4)*(L 9) + 36036*(L 5)*(L 8) + 48048*(L 6)*(L 7)) + (cse1*xi - cse1*xv + 1)*(2*(L 0)*(L 14) + cse0*(L 1) + 2002*(L 10)*(L 4) + 728*(L 11)*(L 3) + 182*(L 12)*(L 2) + 4004*(L 5)*(L 9) + 6006*(L 6)*(L 8) + 3432*((L 7))*((L 7)))

/-- `HIPBasis_eval.h:696` -/
def hip_14_1 (L : Nat → K) (xv xi p1 p2 p3 : K) : K :=
  let cse0 : K := 28*(L 13);
  (L 0)*cse0 + 8008*(L 10)*(L 3) + 2184*(L 11)*(L 2) + 364*(L 12)*(L 1) + 20020*(L 4)*(L 9) + 36036*(L 5)*(L 8) + 48048*(L 6)*(L 7) + (-xi + xv)*(2*(L 0)*(L 14) + cse0*(L 1) + 2002*(L 10)*(L 4) + 728*(L 11)*(L 3) + 182*(L 12)*(L 2) + 4004*(L 5)*(L 9) + 6006*(L 6)*(L 8) + 3432*((L 7))*((L 7)))

/-- `HIPBasis_eval.h:760` -/
def hip_15_0 (L : Nat → K) (xv xi p1 p2 p3 : K) : K :=
  let cse0 : K := 30*(L 14);
  let cse1 : K := 2*p1;
  -cse1*((L 0)*cse0 + 30030*(L 10)*(L 4) + 10920*(L 11)*(L 3) + 2730*(L 12)*(L 2) + 420*(L 13)*(L 1) + 60060*(L 5)*(L 9) + 90090*(L 6)*(L 8) + 51480*((L 7))*((L 7))) + (cse1*xi - cse1*xv + 1)*(2*(L 0)*(L 15) + cse0*(L 1) + 6006*(L 10)*(L 5) + 2730*(L 11)*(L 4) + 910*(L 12)*(L 3) + 210*(L 13)*(L 2) + 10010*(L 6)*(L 9) + 12870*(L 7)*(L 8))

/-- `HIPBasis_eval.h:764` -/
def hip_15_1 (L : Nat → K) (xv xi p1 p2 p3 : K) : K :=
  let cse0 : K := 30*(L 14);
  (L 0)*cse0 + 30030*(L 10)*(L 4) + 10920*(L 11)*(L 3) + 2730*(L 12)*(L 2) + 420*(L 13)*(L 1) + 60060*(L 5)*(L 9) + 90090*(L 6)*(L 8) + 51480*((L 7))*((L 7)) + (-xi + xv)*(2*(L 0)*(L 15) + cse0*(L 1) + 6006*(L 10)*(L 5) + 2730*(L 11)*(L 4) + 910*(L 12)*(L 3) + 210*(L 13)*(L 2) + 10010*(L 6)*(L 9) + 12870*(L 7)*(L 8))

/-- `HIPBasis_eval.h:831` -/
def hip_16_0 (L : Nat → K) (xv xi p1 p2 p3 : K) : K :=
  let cse0 : K := 32*(L 15);
  let cse1 : K := 2*p1;
  -cse1*((L 0)*cse0 + 96096*(L 10)*(L 5) + 43680*(L 11)*(L 4) + 14560*(L 12)*(L 3) + 3360*(L 13)*(L 2) + 480*(L 14)*(L 1) + 160160*(L 6)*(L 9) + 205920*(L 7)*(L 8)) + (cse1*xi - cse1*xv + 1)*(2*(L 0)*(L 16) + cse0*(L 1) + 16016*(L 10)*(L 6) + 8736*(L 11)*(L 5) + 3640*(L 12)*(L 4) + 1120*(L 13)*(L 3) + 240*(L 14)*(L 2) + 22880*(L 7)*(L 9) + 12870*((L 8))*((L 8)))

/-- `HIPBasis_eval.h:835` -/
def hip_16_1 (L : Nat → K) (xv xi p1 p2 p3 : K) : K :=
  let cse0 : K := 32*(L 15);
  (L 0)*cse0 + 96096*(L 10)*(L 5) + 43680*(L 11)*(L 4) + 14560*(L 12)*(L 3) + 3360*(L 13)*(L 2) + 480*(L 14)*(L 1) + 160160*(L 6)*(L 9) + 205920*(L 7)*(L 8) + (-xi + xv)*(2*(L 0)*(L 16) + cse0*(L 1) + 16016*(L 10)*(L 6) + 8736*(L 11)*(L 5) + 3640*(L 12)*(L 4) + 1120*(L 13)*(L 3) + 240*(L 14)*(L 2) + 22880*(L 7)*(L 9) + 12870*((L 8))*((L 8)))

/-- `HIPBasis_eval.h:905` -/
def hip_17_0 (L : Nat → K) (xv xi p1 p2 p3 : K) : K :=
  let cse0 : K := 34*(L 16);
  let cse1 : K := 2*p1;
  -cse1*((L 0)*cse0 + 272272*(L 10)*(L 6) + 148512*(L 11)*(L 5) + 61880*(L 12)*(L 4) + 19040*(L 13)*(L 3) + 4080*(L 14)*(L 2) + 544*(L 15)*(L 1) + 388960*(L 7)*(L 9) + 218790*((L 8))*((L 8))) + (cse1*xi - cse1*xv + 1)*(2*(L 0)*(L 17) + cse0*(L 1) + 38896*(L 10)*(L 7) + 24752*(L 11)*(L 6) + 12376*(L 12)*(L 5) + 4760*(L 13)*(L 4) + 1360*(L 14)*(L 3) + 272*(L 15)*(L 2) + 48620*(L 8)*(L 9))

/-- `HIPBasis_eval.h:909` -/
def hip_17_1 (L : Nat → K) (xv xi p1 p2 p3 : K) : K :=
  let cse0 : K := 34*(L 16);
  (L 0)*cse0 + 272272*(L 10)*(L 6) + 148512*(L 11)*(L 5) + 61880*(L 12)*(L 4) + 19040*(L 13)*(L 3) + 4080*(L 14)*(L 2) + 544*(L 15)*(L 1) + 388960*(L 7)*(L 9) + 218790*((L 8))*((L 8)) + (-xi + xv)*(2*(L 0)*(L 17) + cse0*(L 1) + 38896*(L 10)*(L 7) + 24752*(L 11)*(L 6) + 12376*(L 12)*(L 5) + 4760*(L 13)*(L 4) + 1360*(L 14)*(L 3) + 272*(L 15)*(L 2) + 48620*(L 8)*(L 9))

/-- `HIPBasis_eval.h:982` -/
def hip_18_0 (L : Nat → K) (xv xi p1 p2 p3 : K) : K :=
  let cse0 : K := 36*(L 17);
  let cse1 : K := 2*p1;
  -cse1*((L 0)*cse0 + 700128*(L 10)*(L 7) + 445536*(L 11)*(L 6) + 222768*(L 12)*(L 5) + 85680*(L 13)*(L 4) + 24480*(L 14)*(L 3) + 4896*(L 15)*(L 2) + 612*(L 16)*(L 1) + 875160*(L 8)*(L 9)) + (cse1*xi - cse1*xv + 1)*(2*(L 0)*(L 18) + cse0*(L 1) + 87516*(L 10)*(L 8) + 63648*(L 11)*(L 7) + 37128*(L 12)*(L 6) + 17136*(L 13)*(L 5) + 6120*(L 14)*(L 4) + 1632*(L 15)*(L 3) + 306*(L 16)*(L 2) + 48620*((L 9))*((L 9)))

/-- `HIPBasis_eval.h:986` -/
def hip_18_1 (L : Nat → K) (xv xi p1 p2 p3 : K) : K :=
  let cse0 : K := 36*(L 17);
  (L 0)*cse0 + 700128*(L 10)*(L 7) + 445536*(L 11)*(L 6) + 222768*(L 12)*(L 5) + 85680*(L 13)*(L 4) + 24480*(L 14)*(L 3) + 4896*(L 15)*(L 2) + 612*(L 16)*(L 1) + 875160*(L 8)*(L 9) + (-xi + xv)*(2*(L 0)*(L 18) + cse0*(L 1) + 87516*(L 10)*(L 8) + 63648*(L 11)*(L 7) + 37128*(L 12)*(L 6) + 17136*(L 13)*(L 5) + 6120*(L 14)*(L 4) + 1632*(L 15)*(L 3) + 306*(L 16)*(L 2) + 48620*((L 9))*((L 9)))

/-- `HIPBasis_eval.h:1062` -/
def hip_19_0 (L : Nat → K) (xv xi p1 p2 p3 : K) : K :=
  let cse0 : K := 38*(L 18);
  let cse1 : K := 2*p1;
  -cse1*((L 0)*cse0 + 1662804*(L 10)*(L 8) + 1209312*(L 11)*(L 7) + 705432*(L 12)*(L 6) + 325584*(L 13)*(L 5) + 116280*(L 14)*(L 4) + 31008*(L 15)*(L 3) + 5814*(L 16)*(L 2) + 684*(L 17)*(L 1) + 923780*((L 9))*((L 9))) + (cse1*xi - cse1*xv + 1)*(2*(L 0)*(L 19) + cse0*(L 1) + 184756*(L 10)*(L 9) + 151164*(L 11)*(L 8) + 100776*(L 12)*(L 7) + 54264*(L 13)*(L 6) + 23256*(L 14)*(L 5) + 7752*(L 15)*(L 4) + 1938*(L 16)*(L 3) + 342*(L 17)*(L 2))

/-- `HIPBasis_eval.h:1066` -/
def hip_19_1 (L : Nat → K) (xv xi p1 p2 p3 : K) : K :=
  let cse0 : K := 38*(L 18);
  (L 0)*cse0 + 1662804*(L 10)*(L 8) + 1209312*(L 11)*(L 7) + 705432*(L 12)*(L 6) + 325584*(L 13)*(L 5) + 116280*(L 14)*(L 4) + 31008*(L 15)*(L 3) + 5814*(L 16)*(L 2) + 684*(L 17)*(L 1) + 923780*((L 9))*((L 9)) + (-xi + xv)*(2*(L 0)*(L 19) + cse0*(L 1) + 184756*(L 10)*(L 9) + 151164*(L 11)*(L 8) + 100776*(L 12)*(L 7) + 54264*(L 13)*(L 6) + 23256*(L 14)*(L 5) + 7752*(L 15)*(L 4) + 1938*(L 16)*(L 3) + 342*(L 17)*(L 2))

/-- `HIPBasis_eval.h:1145` -/
def hip_20_0 (L : Nat → K) (xv xi p1 p2 p3 : K) : K :=
  let cse0 : K := 40*(L 19);
  let cse1 : K := 2*p1;
  -cse1*((L 0)*cse0 + 3695120*(L 10)*(L 9) + 3023280*(L 11)*(L 8) + 2015520*(L 12)*(L 7) + 1085280*(L 13)*(L 6) + 465120*(L 14)*(L 5) + 155040*(L 15)*(L 4) + 38760*(L 16)*(L 3) + 6840*(L 17)*(L 2) + 760*(L 18)*(L 1)) + (cse1*xi - cse1*xv + 1)*(2*(L 0)*(L 20) + cse0*(L 1) + 184756*((L 10))*((L 10)) + 335920*(L 11)*(L 9) + 251940*(L 12)*(L 8) + 155040*(L 13)*(L 7) + 77520*(L 14)*(L 6) + 31008*(L 15)*(L 5) + 9690*(L 16)*(L 4) + 2280*(L 17)*(L 3) + 380*(L 18)*(L 2))

/-- `HIPBasis_eval.h:1149` -/
def hip_20_1 (L : Nat → K) (xv xi p1 p2 p3 : K) : K :=
  let cse0 : K := 40*(L 19);
  (L 0)*cse0 + 3695120*(L 10)*(L 9) + 3023280*(L 11)*(L 8) + 2015520*(L 12)*(L 7) + 1085280*(L 13)*(L 6) + 465120*(L 14)*(L 5) + 155040*(L 15)*(L 4) + 38760*(L 16)*(L 3) + 6840*(L 17)*(L 2) + 760*(L 18)*(L 1) + (-xi + xv)*(2*(L 0)*(L 20) + cse0*(L 1) + 184756*((L 10))*((L 10)) + 335920*(L 11)*(L 9) + 251940*(L 12)*(L 8) + 155040*(L 13)*(L 7) + 77520*(L 14)*(L 6) + 31008*(L 15)*(L 5) + 9690*(L 16)*(L 4) + 2280*(L 17)*(L 3) + 380*(L 18)*(L 2))

/-- `HIPBasis_over_r.h:94` -/
def hipR0_0_1 (L : Nat → K) (xv xi p1 p2 p3 : K) : K :=
  ((L 0))*((L 0))

/-- `HIPBasis_over_r.h:101` -/
def hipR0_1_1 (L : Nat → K) (xv xi p1 p2 p3 : K) : K :=
  2*(L 0)*(L 1)

/-- `HIPBasis_over_r.h:108` -/
def hipR0_2_1 (L : Nat → K) (xv xi p1 p2 p3 : K) : K :=
  2*(L 0)*(L 2) + 2*((L 1))*((L 1))

/-- `HIPBasis_over_r.h:123` -/
def hipR1_0_0 (L : Nat → K) (xv xi p1 p2 p3 : K) : K :=
  let cse0 : K := 2*p1;
  ((L 0))*((L 0))*(xv + 1)*(cse0*xi - cse0*xv + 1)/(xi + 1)^2

/-- `HIPBasis_over_r.h:126` -/
def hipR1_0_1 (L : Nat → K) (xv xi p1 p2 p3 : K) : K :=
  ((L 0))*((L 0))*(-xi + xv)*(xv + 1)/(xi + 1)^2

/-- `HIPBasis_over_r.h:137` -/
def hipR1_1_0 (L : Nat → K) (xv xi p1 p2 p3 : K) : K :=
  let cse0 : K := ((L 0))*((L 0));
  let cse1 : K := xv + 1;
  let cse2 : K := 2*p1;
  let cse3 : K := cse2*xi - cse2*xv + 1;
  (-cse0*cse1*cse2 + cse0*cse3 + 2*cse1*cse3*(L 1)*(L 0))/(xi + 1)^2

/-- `HIPBasis_over_r.h:143` -/
def hipR1_1_1 (L : Nat → K) (xv xi p1 p2 p3 : K) : K :=
  let cse0 : K := ((L 0))*((L 0));
  let cse1 : K := xv + 1;
  let cse2 : K := -xi + xv;
  (cse0*cse1 + cse0*cse2 + 2*cse1*cse2*(L 1)*(L 0))/(xi + 1)^2

/-- `HIPBasis_over_r.h:153` -/
def hipR1_2_0 (L : Nat → K) (xv xi p1 p2 p3 : K) : K :=
  let cse0 : K := 4*p1;
  let cse1 : K := 2*xv;
  let cse2 : K := -cse1*p1 + 2*p1*xi + 1;
  (-cse0*(L 1)*(L 0)*(cse1 + 2) - cse0*((L 0))*((L 0)) + 4*cse2*(L 1)*(L 0) + cse2*(xv + 1)*(2*(L 2)*(L 0) + 2*((L 1))*((L 1))))/(xi + 1)^2

/-- `HIPBasis_over_r.h:158` -/
def hipR1_2_1 (L : Nat → K) (xv xi p1 p2 p3 : K) : K :=
  let cse0 : K := -xi + xv;
  let cse1 : K := 2*(L 0);
  (4*cse0*(L 1)*(L 0) + cse0*(xv + 1)*(cse1*(L 2) + 2*((L 1))*((L 1))) + cse1*(L 1)*(2*xv + 2) + 2*((L 0))*((L 0)))/(xi + 1)^2

/-- `HIP2Basis_eval.h:69` -/
def hip2_0_0 (L : Nat → K) (xv xi p1 p2 p3 : K) : K :=
  let cse0 : K := 3*p1;
  let cse1 : K := xi*xv;
  let cse2 : K := (xi)*(xi);
  let cse3 : K := (3/2)*p2;
  let cse4 : K := (xv)*(xv);
  let cse5 : K := (p1)*(p1);
  let cse6 : K := 6*cse5;
  ((L 0))*((L 0))*((L 0))*(cse0*xi - cse0*xv - 12*cse1*cse5 + 3*cse1*p2 - cse2*cse3 + cse2*cse6 - cse3*cse4 + cse4*cse6 + 1)

/-- `HIP2Basis_eval.h:73` -/
def hip2_0_1 (L : Nat → K) (xv xi p1 p2 p3 : K) : K :=
  let cse0 : K := 3*p1;
  ((L 0))*((L 0))*((L 0))*(-cse0*(xi)*(xi) - cse0*(xv)*(xv) + 6*p1*xi*xv - xi + xv)

/-- `HIP2Basis_eval.h:76` -/
def hip2_0_2 (L : Nat → K) (xv xi p1 p2 p3 : K) : K :=
  ((L 0))*((L 0))*((L 0))*((1/2)*(xi)*(xi) - xi*xv + (1/2)*(xv)*(xv))

/-- `HIP2Basis_eval.h:106` -/
def hip2_1_0 (L : Nat → K) (xv xi p1 p2 p3 : K) : K :=
  let cse0 : K := 3*p1;
  let cse1 : K := 3*p2*xv;
  let cse2 : K := (p1)*(p1);
  let cse3 : K := 12*cse2*xi;
  let cse4 : K := (xi)*(xi);
  let cse5 : K := (3/2)*p2;
  let cse6 : K := (xv)*(xv);
  let cse7 : K := 6*cse2;
  ((L 0))*((L 0))*((L 0))*(-cse0 - cse1 + 12*cse2*xv - cse3 + 3*p2*xi) + 3*((L 0))*((L 0))*(L 1)*(cse0*xi - cse0*xv + cse1*xi - cse3*xv - cse4*cse5 + cse4*cse7 - cse5*cse6 + cse6*cse7 + 1)

/-- `HIP2Basis_eval.h:111` -/
def hip2_1_1 (L : Nat → K) (xv xi p1 p2 p3 : K) : K :=
  let cse0 : K := 6*p1;
  let cse1 : K := 3*p1;
  ((L 0))*((L 0))*((L 0))*(cse0*xi - cse0*xv + 1) + 3*((L 0))*((L 0))*(L 1)*(-cse1*(xi)*(xi) - cse1*(xv)*(xv) + 6*p1*xi*xv - xi + xv)

/-- `HIP2Basis_eval.h:114` -/
def hip2_1_2 (L : Nat → K) (xv xi p1 p2 p3 : K) : K :=
  ((L 0))*((L 0))*((L 0))*(-xi + xv) + 3*((L 0))*((L 0))*(L 1)*((1/2)*(xi)*(xi) - xi*xv + (1/2)*(xv)*(xv))

/-- `HIP2Basis_eval.h:147` -/
def hip2_2_0 (L : Nat → K) (xv xi p1 p2 p3 : K) : K :=
  let cse0 : K := (p1)*(p1);
  let cse1 : K := 3*p1;
  let cse2 : K := 3*p2*xv;
  let cse3 : K := 12*cse0*xi;
  let cse4 : K := (xi)*(xi);
  let cse5 : K := (3/2)*p2;
  let cse6 : K := (xv)*(xv);
  let cse7 : K := 6*cse0;
  3*((L 0))*((L 0))*((L 0))*(4*cse0 - p2) + 6*((L 0))*((L 0))*(L 1)*(12*cse0*xv - cse1 - cse2 - cse3 + 3*p2*xi) + 3*(L 0)*((L 0)*(L 2) + 2*((L 1))*((L 1)))*(cse1*xi - cse1*xv + cse2*xi - cse3*xv - cse4*cse5 + cse4*cse7 - cse5*cse6 + cse6*cse7 + 1)

/-- `HIP2Basis_eval.h:152` -/
def hip2_2_1 (L : Nat → K) (xv xi p1 p2 p3 : K) : K :=
  let cse0 : K := 6*p1;
  let cse1 : K := 3*p1;
  -((L 0))*((L 0))*((L 0))*cse0 + 6*((L 0))*((L 0))*(L 1)*(cse0*xi - cse0*xv + 1) + 3*(L 0)*((L 0)*(L 2) + 2*((L 1))*((L 1)))*(-cse1*(xi)*(xi) - cse1*(xv)*(xv) + 6*p1*xi*xv - xi + xv)

/-- `HIP2Basis_eval.h:155` -/
def hip2_2_2 (L : Nat → K) (xv xi p1 p2 p3 : K) : K :=
  ((L 0))*((L 0))*((L 0)) + 6*((L 0))*((L 0))*(L 1)*(-xi + xv) + 3*(L 0)*((L 0)*(L 2) + 2*((L 1))*((L 1)))*((1/2)*(xi)*(xi) - xi*xv + (1/2)*(xv)*(xv))

/-- `HIP2Basis_eval.h:193` -/
def hip2_3_0 (L : Nat → K) (xv xi p1 p2 p3 : K) : K :=
  let cse0 : K := ((L 0))*((L 0));
  let cse1 : K := (p1)*(p1);
  let cse2 : K := (L 0)*(L 2);
  let cse3 : K := 3*p1;
  let cse4 : K := 3*p2*xv;
  let cse5 : K := 12*cse1*xi;
  let cse6 : K := (xi)*(xi);
  let cse7 : K := (3/2)*p2;
  let cse8 : K := (xv)*(xv);
  let cse9 : K := 6*cse1;
  9*(L 0)*(cse2 + 2*((L 1))*((L 1)))*(12*cse1*xv - cse3 - cse4 - cse5 + 3*p2*xi) + 27*cse0*(L 1)*(4*cse1 - p2) + (3*cse0*(L 3) + 18*cse2*(L 1) + 6*((L 1))*((L 1))*((L 1)))*(cse3*xi - cse3*xv + cse4*xi - cse5*xv - cse6*cse7 + cse6*cse9 - cse7*cse8 + cse8*cse9 + 1)

/-- `HIP2Basis_eval.h:200` -/
def hip2_3_1 (L : Nat → K) (xv xi p1 p2 p3 : K) : K :=
  let cse0 : K := ((L 0))*((L 0));
  let cse1 : K := (L 0)*(L 2);
  let cse2 : K := 6*p1;
  let cse3 : K := 3*p1;
  9*(L 0)*(cse1 + 2*((L 1))*((L 1)))*(cse2*xi - cse2*xv + 1) - 54*cse0*(L 1)*p1 + (3*cse0*(L 3) + 18*cse1*(L 1) + 6*((L 1))*((L 1))*((L 1)))*(-cse3*(xi)*(xi) - cse3*(xv)*(xv) + 6*p1*xi*xv - xi + xv)

/-- `HIP2Basis_eval.h:205` -/
def hip2_3_2 (L : Nat → K) (xv xi p1 p2 p3 : K) : K :=
  let cse0 : K := ((L 0))*((L 0));
  let cse1 : K := (L 0)*(L 2);
  9*(L 0)*(cse1 + 2*((L 1))*((L 1)))*(-xi + xv) + 9*cse0*(L 1) + ((1/2)*(xi)*(xi) - xi*xv + (1/2)*(xv)*(xv))*(3*cse0*(L 3) + 18*cse1*(L 1) + 6*((L 1))*((L 1))*((L 1)))

/-- `HIP2Basis_eval.h:247` -/
def hip2_4_0 (L : Nat → K) (xv xi p1 p2 p3 : K) : K :=
  let cse0 : K := (p1)*(p1);
  let cse1 : K := (L 0)*(L 2);
  let cse2 : K := ((L 1))*((L 1));
  let cse3 : K := ((L 0))*((L 0));
  let cse4 : K := 3*p1;
  let cse5 : K := 3*p2*xv;
  let cse6 : K := 12*cse0*xi;
  let cse7 : K := (xi)*(xi);
  let cse8 : K := (3/2)*p2;
  let cse9 : K := (xv)*(xv);
  let cse10 : K := 6*cse0;
  54*(L 0)*(4*cse0 - p2)*(cse1 + 2*cse2) + (72*cse1*(L 1) + 12*cse3*(L 3) + 24*((L 1))*((L 1))*((L 1)))*(12*cse0*xv - cse4 - cse5 - cse6 + 3*p2*xi) + (24*(L 0)*(L 3)*(L 1) + 18*(L 0)*((L 2))*((L 2)) + 36*cse2*(L 2) + 3*cse3*(L 4))*(cse10*cse7 + cse10*cse9 + cse4*xi - cse4*xv + cse5*xi - cse6*xv - cse7*cse8 - cse8*cse9 + 1)

/-- `HIP2Basis_eval.h:255` -/
def hip2_4_1 (L : Nat → K) (xv xi p1 p2 p3 : K) : K :=
  let cse0 : K := (L 0)*(L 2);
  let cse1 : K := ((L 1))*((L 1));
  let cse2 : K := 6*p1;
  let cse3 : K := ((L 0))*((L 0));
  let cse4 : K := 3*p1;
  -108*(L 0)*p1*(cse0 + 2*cse1) + (72*cse0*(L 1) + 12*cse3*(L 3) + 24*((L 1))*((L 1))*((L 1)))*(cse2*xi - cse2*xv + 1) + (24*(L 0)*(L 3)*(L 1) + 18*(L 0)*((L 2))*((L 2)) + 36*cse1*(L 2) + 3*cse3*(L 4))*(-cse4*(xi)*(xi) - cse4*(xv)*(xv) + 6*p1*xi*xv - xi + xv)

/-- `HIP2Basis_eval.h:262` -/
def hip2_4_2 (L : Nat → K) (xv xi p1 p2 p3 : K) : K :=
  let cse0 : K := (L 0)*(L 2);
  let cse1 : K := ((L 1))*((L 1));
  let cse2 : K := 18*(L 0);
  let cse3 : K := ((L 0))*((L 0));
  cse2*(cse0 + 2*cse1) + (-xi + xv)*(72*cse0*(L 1) + 12*cse3*(L 3) + 24*((L 1))*((L 1))*((L 1))) + ((1/2)*(xi)*(xi) - xi*xv + (1/2)*(xv)*(xv))*(24*(L 0)*(L 3)*(L 1) + 36*cse1*(L 2) + cse2*((L 2))*((L 2)) + 3*cse3*(L 4))

/-- `HIP2Basis_eval.h:310` -/
def hip2_5_0 (L : Nat → K) (xv xi p1 p2 p3 : K) : K :=
  let cse0 : K := (p1)*(p1);
  let cse1 : K := 180*(L 2);
  let cse2 : K := (L 0)*(L 1);
  let cse3 : K := ((L 0))*((L 0));
  let cse4 : K := 90*((L 2))*((L 2));
  let cse5 : K := ((L 1))*((L 1));
  let cse6 : K := 3*p1;
  let cse7 : K := 3*p2*xv;
  let cse8 : K := 12*cse0*xi;
  let cse9 : K := 60*(L 3);
  let cse10 : K := (xi)*(xi);
  let cse11 : K := (3/2)*p2;
  let cse12 : K := (xv)*(xv);
  let cse13 : K := 6*cse0;
  3*(4*cse0 - p2)*(cse1*cse2 + 30*cse3*(L 3) + 60*((L 1))*((L 1))*((L 1))) + ((L 0)*cse4 + cse1*cse5 + 120*cse2*(L 3) + 15*cse3*(L 4))*(12*cse0*xv - cse6 - cse7 - cse8 + 3*p2*xi) + ((L 0)*cse9*(L 2) + 30*cse2*(L 4) + 3*cse3*(L 5) + cse4*(L 1) + cse5*cse9)*(-cse10*cse11 + cse10*cse13 - cse11*cse12 + cse12*cse13 + cse6*xi - cse6*xv + cse7*xi - cse8*xv + 1)

/-- `HIP2Basis_eval.h:321` -/
def hip2_5_1 (L : Nat → K) (xv xi p1 p2 p3 : K) : K :=
  let cse0 : K := 180*(L 2);
  let cse1 : K := (L 0)*(L 1);
  let cse2 : K := ((L 0))*((L 0));
  let cse3 : K := 6*p1;
  let cse4 : K := 90*((L 2))*((L 2));
  let cse5 : K := ((L 1))*((L 1));
  let cse6 : K := 3*p1;
  let cse7 : K := 60*(L 3);
  -cse3*(cse0*cse1 + 30*cse2*(L 3) + 60*((L 1))*((L 1))*((L 1))) + (cse3*xi - cse3*xv + 1)*((L 0)*cse4 + cse0*cse5 + 120*cse1*(L 3) + 15*cse2*(L 4)) + (-cse6*(xi)*(xi) - cse6*(xv)*(xv) + 6*p1*xi*xv - xi + xv)*((L 0)*cse7*(L 2) + 30*cse1*(L 4) + 3*cse2*(L 5) + cse4*(L 1) + cse5*cse7)

/-- `HIP2Basis_eval.h:330` -/
def hip2_5_2 (L : Nat → K) (xv xi p1 p2 p3 : K) : K :=
  let cse0 : K := 180*(L 2);
  let cse1 : K := (L 0)*(L 1);
  let cse2 : K := ((L 0))*((L 0));
  let cse3 : K := 90*((L 2))*((L 2));
  let cse4 : K := ((L 1))*((L 1));
  let cse5 : K := 60*(L 3);
  cse0*cse1 + 30*cse2*(L 3) + 60*((L 1))*((L 1))*((L 1)) + (-xi + xv)*((L 0)*cse3 + cse0*cse4 + 120*cse1*(L 3) + 15*cse2*(L 4)) + ((1/2)*(xi)*(xi) - xi*xv + (1/2)*(xv)*(xv))*((L 0)*cse5*(L 2) + 30*cse1*(L 4) + 3*cse2*(L 5) + cse3*(L 1) + cse4*cse5)

/-- `HIP2Basis_over_r.h:96` -/
def hip2R0_0_1 (L : Nat → K) (xv xi p1 p2 p3 : K) : K :=
  let cse0 : K := 3*p1;
  ((L 0))*((L 0))*((L 0))*(cse0*xi - cse0*xv + 1)

/-- `HIP2Basis_over_r.h:99` -/
def hip2R0_0_2 (L : Nat → K) (xv xi p1 p2 p3 : K) : K :=
  ((L 0))*((L 0))*((L 0))*(-1/2*xi + (1/2)*xv)

/-- `HIP2Basis_over_r.h:107` -/
def hip2R0_1_1 (L : Nat → K) (xv xi p1 p2 p3 : K) : K :=
  let cse0 : K := 3*p1;
  -((L 0))*((L 0))*((L 0))*cse0 + 3*((L 0))*((L 0))*(L 1)*(cse0*xi - cse0*xv + 1)

/-- `HIP2Basis_over_r.h:110` -/
def hip2R0_1_2 (L : Nat → K) (xv xi p1 p2 p3 : K) : K :=
  (1/2)*((L 0))*((L 0))*((L 0)) + 3*((L 0))*((L 0))*(L 1)*(-1/2*xi + (1/2)*xv)

/-- `HIP2Basis_over_r.h:118` -/
def hip2R0_2_1 (L : Nat → K) (xv xi p1 p2 p3 : K) : K :=
  let cse0 : K := 3*p1;
  -18*((L 0))*((L 0))*(L 1)*p1 + 3*(L 0)*((L 0)*(L 2) + 2*((L 1))*((L 1)))*(cse0*xi - cse0*xv + 1)

/-- `HIP2Basis_over_r.h:121` -/
def hip2R0_2_2 (L : Nat → K) (xv xi p1 p2 p3 : K) : K :=
  3*((L 0))*((L 0))*(L 1) + 3*(L 0)*(-1/2*xi + (1/2)*xv)*((L 0)*(L 2) + 2*((L 1))*((L 1)))

/-- `HIP2Basis_over_r.h:143` -/
def hip2R1_0_0 (L : Nat → K) (xv xi p1 p2 p3 : K) : K :=
  let cse0 : K := 3*p1;
  let cse1 : K := xi*xv;
  let cse2 : K := (xi)*(xi);
  let cse3 : K := (3/2)*p2;
  let cse4 : K := (xv)*(xv);
  let cse5 : K := (p1)*(p1);
  let cse6 : K := 6*cse5;
  ((L 0))*((L 0))*((L 0))*(xv + 1)^2*(cse0*xi - cse0*xv - 12*cse1*cse5 + 3*cse1*p2 - cse2*cse3 + cse2*cse6 - cse3*cse4 + cse4*cse6 + 1)/(xi + 1)^3

/-- `HIP2Basis_over_r.h:147` -/
def hip2R1_0_1 (L : Nat → K) (xv xi p1 p2 p3 : K) : K :=
  let cse0 : K := 3*p1;
  ((L 0))*((L 0))*((L 0))*(xv + 1)^2*(-cse0*(xi)*(xi) - cse0*(xv)*(xv) + 6*p1*xi*xv - xi + xv)/(xi + 1)^3

/-- `HIP2Basis_over_r.h:150` -/
def hip2R1_0_2 (L : Nat → K) (xv xi p1 p2 p3 : K) : K :=
  ((L 0))*((L 0))*((L 0))*(xv + 1)^2*((1/2)*(xi)*(xi) - xi*xv + (1/2)*(xv)*(xv))/(xi + 1)^3

/-- `HIP2Basis_over_r.h:168` -/
def hip2R1_1_0 (L : Nat → K) (xv xi p1 p2 p3 : K) : K :=
  let cse0 : K := ((L 0))*((L 0))*((L 0));
  let cse1 : K := (xv + 1)^2;
  let cse2 : K := 3*p1;
  let cse3 : K := 3*p2*xv;
  let cse4 : K := (p1)*(p1);
  let cse5 : K := 12*cse4*xi;
  let cse6 : K := (xi)*(xi);
  let cse7 : K := (3/2)*p2;
  let cse8 : K := (xv)*(xv);
  let cse9 : K := 6*cse4;
  let cse10 : K := cse2*xi - cse2*xv + cse3*xi - cse5*xv - cse6*cse7 + cse6*cse9 - cse7*cse8 + cse8*cse9 + 1;
  (cse0*cse1*(-cse2 - cse3 + 12*cse4*xv - cse5 + 3*p2*xi) + cse0*cse10*(2*xv + 2) + 3*cse1*cse10*(L 1)*((L 0))*((L 0)))/(xi + 1)^3

/-- `HIP2Basis_over_r.h:176` -/
def hip2R1_1_1 (L : Nat → K) (xv xi p1 p2 p3 : K) : K :=
  let cse0 : K := ((L 0))*((L 0))*((L 0));
  let cse1 : K := (xv + 1)^2;
  let cse2 : K := 6*p1;
  let cse3 : K := 3*p1;
  let cse4 : K := -cse3*(xi)*(xi) - cse3*(xv)*(xv) + 6*p1*xi*xv - xi + xv;
  (cse0*cse1*(cse2*xi - cse2*xv + 1) + cse0*cse4*(2*xv + 2) + 3*cse1*cse4*(L 1)*((L 0))*((L 0)))/(xi + 1)^3

/-- `HIP2Basis_over_r.h:182` -/
def hip2R1_1_2 (L : Nat → K) (xv xi p1 p2 p3 : K) : K :=
  let cse0 : K := ((L 0))*((L 0))*((L 0));
  let cse1 : K := (xv + 1)^2;
  let cse2 : K := (1/2)*(xi)*(xi) - xi*xv + (1/2)*(xv)*(xv);
  (cse0*cse1*(-xi + xv) + cse0*cse2*(2*xv + 2) + 3*cse1*cse2*(L 1)*((L 0))*((L 0)))/(xi + 1)^3

/-- `HIP2Basis_over_r.h:204` -/
def hip2R1_2_0 (L : Nat → K) (xv xi p1 p2 p3 : K) : K :=
  let cse0 : K := ((L 0))*((L 0))*((L 0));
  let cse1 : K := (p1)*(p1);
  let cse2 : K := (xv + 1)^2;
  let cse3 : K := 3*cse2;
  let cse4 : K := 4*xv + 4;
  let cse5 : K := 3*p1;
  let cse6 : K := 3*p2*xv;
  let cse7 : K := 12*cse1*xi;
  let cse8 : K := 12*cse1*xv - cse5 - cse6 - cse7 + 3*p2*xi;
  let cse9 : K := (L 1)*((L 0))*((L 0));
  let cse10 : K := (xi)*(xi);
  let cse11 : K := (3/2)*p2;
  let cse12 : K := (xv)*(xv);
  let cse13 : K := 6*cse1;
  let cse14 : K := -cse10*cse11 + cse10*cse13 - cse11*cse12 + cse12*cse13 + cse5*xi - cse5*xv + cse6*xi - cse7*xv + 1;
  (2*cse0*cse14 + cse0*cse3*(4*cse1 - p2) + cse0*cse4*cse8 + cse14*cse3*(L 0)*((L 2)*(L 0) + 2*((L 1))*((L 1))) + 3*cse14*cse4*cse9 + 6*cse2*cse8*cse9)/(xi + 1)^3

/-- `HIP2Basis_over_r.h:216` -/
def hip2R1_2_1 (L : Nat → K) (xv xi p1 p2 p3 : K) : K :=
  let cse0 : K := ((L 0))*((L 0))*((L 0));
  let cse1 : K := (xv + 1)^2;
  let cse2 : K := 6*p1;
  let cse3 : K := 4*xv + 4;
  let cse4 : K := cse2*xi - cse2*xv + 1;
  let cse5 : K := (L 1)*((L 0))*((L 0));
  let cse6 : K := 3*p1;
  let cse7 : K := -cse6*(xi)*(xi) - cse6*(xv)*(xv) + 6*p1*xi*xv - xi + xv;
  let cse8 : K := 3*cse7;
  (-cse0*cse1*cse2 + cse0*cse3*cse4 + 2*cse0*cse7 + 6*cse1*cse4*cse5 + cse1*cse8*(L 0)*((L 2)*(L 0) + 2*((L 1))*((L 1))) + cse3*cse5*cse8)/(xi + 1)^3

/-- `HIP2Basis_over_r.h:226` -/
def hip2R1_2_2 (L : Nat → K) (xv xi p1 p2 p3 : K) : K :=
  let cse0 : K := ((L 0))*((L 0))*((L 0));
  let cse1 : K := (xv + 1)^2;
  let cse2 : K := -xi + xv;
  let cse3 : K := 4*xv + 4;
  let cse4 : K := (L 1)*((L 0))*((L 0));
  let cse5 : K := (1/2)*(xi)*(xi) - xi*xv + (1/2)*(xv)*(xv);
  let cse6 : K := 3*cse5;
  (cse0*cse1 + cse0*cse2*cse3 + 2*cse0*cse5 + 6*cse1*cse2*cse4 + cse1*cse6*(L 0)*((L 2)*(L 0) + 2*((L 1))*((L 1))) + cse3*cse4*cse6)/(xi + 1)^3

/-- `HIP3Basis_eval.h:84` -/
def hip3_0_0 (L : Nat → K) (xv xi p1 p2 p3 : K) : K :=
  let cse0 : K := 4*p1;
  let cse1 : K := xi*xv;
  let cse2 : K := (xi)*(xi)*(xi);
  let cse3 : K := (2/3)*p3;
  let cse4 : K := (xv)*(xv)*(xv);
  let cse5 : K := (xi)*(xi);
  let cse6 : K := 2*p2;
  let cse7 : K := (xv)*(xv);
  let cse8 : K := 2*p3;
  let cse9 : K := cse7*xi;
  let cse10 : K := cse5*xv;
  let cse11 : K := p1*p2;
  let cse12 : K := 10*cse11;
  let cse13 : K := (p1)*(p1);
  let cse14 : K := 10*cse13;
  let cse15 : K := (p1)*(p1)*(p1);
  let cse16 : K := 20*cse15;
  let cse17 : K := 30*cse11;
  let cse18 : K := 60*cse15;
  ((L 0))*((L 0))*((L 0))*((L 0))*(cse0*xi - cse0*xv - 20*cse1*cse13 + 4*cse1*p2 + cse10*cse17 - cse10*cse18 - cse10*cse8 - cse12*cse2 + cse12*cse4 + cse14*cse5 + cse14*cse7 + cse16*cse2 - cse16*cse4 - cse17*cse9 + cse18*cse9 + cse2*cse3 - cse3*cse4 - cse5*cse6 - cse6*cse7 + cse8*cse9 + 1)

/-- `HIP3Basis_eval.h:93` -/
def hip3_0_1 (L : Nat → K) (xv xi p1 p2 p3 : K) : K :=
  let cse0 : K := (xi)*(xi);
  let cse1 : K := 4*p1;
  let cse2 : K := (xv)*(xv);
  let cse3 : K := (xi)*(xi)*(xi);
  let cse4 : K := (xv)*(xv)*(xv);
  let cse5 : K := (p1)*(p1);
  ((L 0))*((L 0))*((L 0))*((L 0))*(-cse0*cse1 + 30*cse0*cse5*xv - 6*cse0*p2*xv - cse1*cse2 - 30*cse2*cse5*xi + 6*cse2*p2*xi - 10*cse3*cse5 + 2*cse3*p2 + 10*cse4*cse5 - 2*cse4*p2 + 8*p1*xi*xv - xi + xv)

/-- `HIP3Basis_eval.h:100` -/
def hip3_0_2 (L : Nat → K) (xv xi p1 p2 p3 : K) : K :=
  let cse0 : K := (xi)*(xi);
  let cse1 : K := (xv)*(xv);
  let cse2 : K := 2*p1;
  let cse3 : K := 6*p1;
  ((L 0))*((L 0))*((L 0))*((L 0))*(-cse0*cse3*xv + (1/2)*cse0 + cse1*cse3*xi + (1/2)*cse1 + cse2*(xi)*(xi)*(xi) - cse2*(xv)*(xv)*(xv) - xi*xv)

/-- `HIP3Basis_eval.h:103` -/
def hip3_0_3 (L : Nat → K) (xv xi p1 p2 p3 : K) : K :=
  ((L 0))*((L 0))*((L 0))*((L 0))*(-1/6*(xi)*(xi)*(xi) + (1/2)*(xi)*(xi)*xv - 1/2*xi*(xv)*(xv) + (1/6)*(xv)*(xv)*(xv))

/-- `HIP3Basis_eval.h:149` -/
def hip3_1_0 (L : Nat → K) (xv xi p1 p2 p3 : K) : K :=
  let cse0 : K := 4*p1;
  let cse1 : K := 4*p2*xv;
  let cse2 : K := (xi)*(xi);
  let cse3 : K := 2*p3;
  let cse4 : K := cse2*cse3;
  let cse5 : K := (xv)*(xv);
  let cse6 : K := cse3*cse5;
  let cse7 : K := (p1)*(p1);
  let cse8 : K := 20*cse7*xi;
  let cse9 : K := p1*p2;
  let cse10 : K := (p1)*(p1)*(p1);
  let cse11 : K := 60*cse10;
  let cse12 : K := cse11*cse2;
  let cse13 : K := cse11*cse5;
  let cse14 : K := (xi)*(xi)*(xi);
  let cse15 : K := (2/3)*p3;
  let cse16 : K := (xv)*(xv)*(xv);
  let cse17 : K := 2*p2;
  let cse18 : K := 10*cse9;
  let cse19 : K := 10*cse7;
  let cse20 : K := 20*cse10;
  let cse21 : K := 30*cse9;
  ((L 0))*((L 0))*((L 0))*((L 0))*(-cse0 - cse1 + 120*cse10*xi*xv - cse12 - cse13 + 30*cse2*p1*p2 - cse4 + 30*cse5*p1*p2 - cse6 + 20*cse7*xv - cse8 - 60*cse9*xi*xv + 4*p3*xi*xv + 4*p2*xi) + 4*((L 0))*((L 0))*((L 0))*(L 1)*(cse0*xi - cse0*xv + cse1*xi - cse12*xv + cse13*xi + cse14*cse15 - cse14*cse18 + cse14*cse20 - cse15*cse16 + cse16*cse18 - cse16*cse20 - cse17*cse2 - cse17*cse5 + cse19*cse2 + cse19*cse5 + cse2*cse21*xv - cse21*cse5*xi - cse4*xv + cse6*xi - cse8*xv + 1)

/-- `HIP3Basis_eval.h:164` -/
def hip3_1_1 (L : Nat → K) (xv xi p1 p2 p3 : K) : K :=
  let cse0 : K := 8*p1;
  let cse1 : K := xi*xv;
  let cse2 : K := (xi)*(xi);
  let cse3 : K := 6*p2;
  let cse4 : K := cse2*cse3;
  let cse5 : K := (xv)*(xv);
  let cse6 : K := (p1)*(p1);
  let cse7 : K := 30*cse6;
  let cse8 : K := cse5*cse7;
  let cse9 : K := 4*p1;
  let cse10 : K := (xi)*(xi)*(xi);
  let cse11 : K := (xv)*(xv)*(xv);
  ((L 0))*((L 0))*((L 0))*((L 0))*(cse0*xi - cse0*xv - 60*cse1*cse6 + 12*cse1*p2 + cse2*cse7 - cse3*cse5 - cse4 + cse8 + 1) + 4*((L 0))*((L 0))*((L 0))*(L 1)*(-10*cse10*cse6 + 2*cse10*p2 + 10*cse11*cse6 - 2*cse11*p2 + 30*cse2*cse6*xv - cse2*cse9 - cse4*xv - cse5*cse9 + 6*cse5*p2*xi - cse8*xi + 8*p1*xi*xv - xi + xv)

/-- `HIP3Basis_eval.h:173` -/
def hip3_1_2 (L : Nat → K) (xv xi p1 p2 p3 : K) : K :=
  let cse0 : K := (xi)*(xi);
  let cse1 : K := 6*p1;
  let cse2 : K := cse0*cse1;
  let cse3 : K := (xv)*(xv);
  let cse4 : K := cse1*cse3;
  let cse5 : K := 2*p1;
  ((L 0))*((L 0))*((L 0))*((L 0))*(-cse2 - cse4 + 12*p1*xi*xv - xi + xv) + 4*((L 0))*((L 0))*((L 0))*(L 1)*((1/2)*cse0 - cse2*xv + (1/2)*cse3 + cse4*xi + cse5*(xi)*(xi)*(xi) - cse5*(xv)*(xv)*(xv) - xi*xv)

/-- `HIP3Basis_eval.h:178` -/
def hip3_1_3 (L : Nat → K) (xv xi p1 p2 p3 : K) : K :=
  let cse0 : K := (xi)*(xi);
  let cse1 : K := (1/2)*(xv)*(xv);
  ((L 0))*((L 0))*((L 0))*((L 0))*((1/2)*cse0 + cse1 - xi*xv) + 4*((L 0))*((L 0))*((L 0))*(L 1)*((1/2)*cse0*xv - cse1*xi - 1/6*(xi)*(xi)*(xi) + (1/6)*(xv)*(xv)*(xv))

/-- `HIP3Basis_eval.h:229` -/
def hip3_2_0 (L : Nat → K) (xv xi p1 p2 p3 : K) : K :=
  let cse0 : K := p3*xi;
  let cse1 : K := p3*xv;
  let cse2 : K := (p1)*(p1);
  let cse3 : K := p1*p2;
  let cse4 : K := 15*cse3;
  let cse5 : K := (p1)*(p1)*(p1);
  let cse6 : K := 30*cse5;
  let cse7 : K := 4*p1;
  let cse8 : K := 4*p2*xv;
  let cse9 : K := (xi)*(xi);
  let cse10 : K := 2*p3;
  let cse11 : K := (xv)*(xv);
  let cse12 : K := 20*cse2*xi;
  let cse13 : K := 60*cse5;
  let cse14 : K := cse13*cse9;
  let cse15 : K := cse11*cse13;
  let cse16 : K := (xi)*(xi)*(xi);
  let cse17 : K := (2/3)*p3;
  let cse18 : K := (xv)*(xv)*(xv);
  let cse19 : K := 2*p2;
  let cse20 : K := 10*cse3;
  let cse21 : K := 10*cse2;
  let cse22 : K := 20*cse5;
  let cse23 : K := 30*cse3;
  4*((L 0))*((L 0))*((L 0))*((L 0))*(cse0 - cse1 + 5*cse2 - cse4*xi + cse4*xv + cse6*xi - cse6*xv - p2) + 8*((L 0))*((L 0))*((L 0))*(L 1)*(-cse10*cse11 - cse10*cse9 + 30*cse11*p1*p2 - cse12 - cse14 - cse15 + 20*cse2*xv - 60*cse3*xi*xv + 120*cse5*xi*xv - cse7 - cse8 + 30*cse9*p1*p2 + 4*p3*xi*xv + 4*p2*xi) + 4*((L 0))*((L 0))*((L 0)*(L 2) + 3*((L 1))*((L 1)))*(2*cse0*cse11 - 2*cse1*cse9 - cse11*cse19 + cse11*cse21 - cse11*cse23*xi - cse12*xv - cse14*xv + cse15*xi + cse16*cse17 - cse16*cse20 + cse16*cse22 - cse17*cse18 + cse18*cse20 - cse18*cse22 - cse19*cse9 + cse21*cse9 + cse23*cse9*xv + cse7*xi - cse7*xv + cse8*xi + 1)

/-- `HIP3Basis_eval.h:244` -/
def hip3_2_1 (L : Nat → K) (xv xi p1 p2 p3 : K) : K :=
  let cse0 : K := (p1)*(p1);
  let cse1 : K := 8*p1;
  let cse2 : K := xi*xv;
  let cse3 : K := (xi)*(xi);
  let cse4 : K := 6*p2;
  let cse5 : K := cse3*cse4;
  let cse6 : K := (xv)*(xv);
  let cse7 : K := 30*cse0;
  let cse8 : K := cse6*cse7;
  let cse9 : K := 4*p1;
  let cse10 : K := (xi)*(xi)*(xi);
  let cse11 : K := (xv)*(xv)*(xv);
  4*((L 0))*((L 0))*((L 0))*((L 0))*(-15*cse0*xi + 15*cse0*xv - 2*p1 + 3*p2*xi - 3*p2*xv) + 8*((L 0))*((L 0))*((L 0))*(L 1)*(-60*cse0*cse2 + cse1*xi - cse1*xv + 12*cse2*p2 + cse3*cse7 - cse4*cse6 - cse5 + cse8 + 1) + 4*((L 0))*((L 0))*((L 0)*(L 2) + 3*((L 1))*((L 1)))*(-10*cse0*cse10 + 10*cse0*cse11 + 30*cse0*cse3*xv + 2*cse10*p2 - 2*cse11*p2 - cse3*cse9 - cse5*xv - cse6*cse9 + 6*cse6*p2*xi - cse8*xi + 8*p1*xi*xv - xi + xv)

/-- `HIP3Basis_eval.h:254` -/
def hip3_2_2 (L : Nat → K) (xv xi p1 p2 p3 : K) : K :=
  let cse0 : K := 12*p1;
  let cse1 : K := (xi)*(xi);
  let cse2 : K := 6*p1;
  let cse3 : K := cse1*cse2;
  let cse4 : K := (xv)*(xv);
  let cse5 : K := cse2*cse4;
  let cse6 : K := 2*p1;
  ((L 0))*((L 0))*((L 0))*((L 0))*(cse0*xi - cse0*xv + 1) + 8*((L 0))*((L 0))*((L 0))*(L 1)*(-cse3 - cse5 + 12*p1*xi*xv - xi + xv) + 4*((L 0))*((L 0))*((L 0)*(L 2) + 3*((L 1))*((L 1)))*((1/2)*cse1 - cse3*xv + (1/2)*cse4 + cse5*xi + cse6*(xi)*(xi)*(xi) - cse6*(xv)*(xv)*(xv) - xi*xv)

/-- `HIP3Basis_eval.h:259` -/
def hip3_2_3 (L : Nat → K) (xv xi p1 p2 p3 : K) : K :=
  let cse0 : K := (xi)*(xi);
  let cse1 : K := (1/2)*(xv)*(xv);
  ((L 0))*((L 0))*((L 0))*((L 0))*(-xi + xv) + 8*((L 0))*((L 0))*((L 0))*(L 1)*((1/2)*cse0 + cse1 - xi*xv) + 4*((L 0))*((L 0))*((L 0)*(L 2) + 3*((L 1))*((L 1)))*((1/2)*cse0*xv - cse1*xi - 1/6*(xi)*(xi)*(xi) + (1/6)*(xv)*(xv)*(xv))

/-- `HIP3Basis_eval.h:315` -/
def hip3_3_0 (L : Nat → K) (xv xi p1 p2 p3 : K) : K :=
  let cse0 : K := (p1)*(p1)*(p1);
  let cse1 : K := 30*cse0;
  let cse2 : K := p3*xi;
  let cse3 : K := p3*xv;
  let cse4 : K := (p1)*(p1);
  let cse5 : K := p1*p2;
  let cse6 : K := 15*cse5;
  let cse7 : K := ((L 0))*((L 0));
  let cse8 : K := (L 0)*(L 2);
  let cse9 : K := 4*p1;
  let cse10 : K := 4*p2*xv;
  let cse11 : K := (xi)*(xi);
  let cse12 : K := 2*p3;
  let cse13 : K := (xv)*(xv);
  let cse14 : K := 20*cse4*xi;
  let cse15 : K := 60*cse0;
  let cse16 : K := cse11*cse15;
  let cse17 : K := cse13*cse15;
  let cse18 : K := (xi)*(xi)*(xi);
  let cse19 : K := (2/3)*p3;
  let cse20 : K := (xv)*(xv)*(xv);
  let cse21 : K := 2*p2;
  let cse22 : K := 10*cse5;
  let cse23 : K := 10*cse4;
  let cse24 : K := 20*cse0;
  let cse25 : K := 30*cse5;
  4*((L 0))*((L 0))*((L 0))*((L 0))*(-cse1 - p3 + 15*p1*p2) + 48*((L 0))*((L 0))*((L 0))*(L 1)*(cse1*xi - cse1*xv + cse2 - cse3 + 5*cse4 - cse6*xi + cse6*xv - p2) + 4*(L 0)*(cse7*(L 3) + 9*cse8*(L 1) + 6*((L 1))*((L 1))*((L 1)))*(cse10*xi - cse11*cse21 + cse11*cse23 + cse11*cse25*xv - 2*cse11*cse3 + 2*cse13*cse2 - cse13*cse21 + cse13*cse23 - cse13*cse25*xi - cse14*xv - cse16*xv + cse17*xi + cse18*cse19 - cse18*cse22 + cse18*cse24 - cse19*cse20 + cse20*cse22 - cse20*cse24 + cse9*xi - cse9*xv + 1) + 12*cse7*(cse8 + 3*((L 1))*((L 1)))*(120*cse0*xi*xv - cse10 - cse11*cse12 + 30*cse11*p1*p2 - cse12*cse13 + 30*cse13*p1*p2 - cse14 - cse16 - cse17 + 20*cse4*xv - 60*cse5*xi*xv - cse9 + 4*p3*xi*xv + 4*p2*xi)

/-- `HIP3Basis_eval.h:332` -/
def hip3_3_1 (L : Nat → K) (xv xi p1 p2 p3 : K) : K :=
  let cse0 : K := (p1)*(p1);
  let cse1 : K := ((L 0))*((L 0));
  let cse2 : K := (L 0)*(L 2);
  let cse3 : K := 8*p1;
  let cse4 : K := xi*xv;
  let cse5 : K := (xi)*(xi);
  let cse6 : K := 6*p2;
  let cse7 : K := cse5*cse6;
  let cse8 : K := (xv)*(xv);
  let cse9 : K := 30*cse0;
  let cse10 : K := cse8*cse9;
  let cse11 : K := 4*p1;
  let cse12 : K := (xi)*(xi)*(xi);
  let cse13 : K := (xv)*(xv)*(xv);
  12*((L 0))*((L 0))*((L 0))*((L 0))*(5*cse0 - p2) + 48*((L 0))*((L 0))*((L 0))*(L 1)*(-15*cse0*xi + 15*cse0*xv - 2*p1 + 3*p2*xi - 3*p2*xv) + 4*(L 0)*(cse1*(L 3) + 9*cse2*(L 1) + 6*((L 1))*((L 1))*((L 1)))*(-10*cse0*cse12 + 10*cse0*cse13 + 30*cse0*cse5*xv - cse10*xi - cse11*cse5 - cse11*cse8 + 2*cse12*p2 - 2*cse13*p2 - cse7*xv + 6*cse8*p2*xi + 8*p1*xi*xv - xi + xv) + 12*cse1*(cse2 + 3*((L 1))*((L 1)))*(-60*cse0*cse4 + cse10 + cse3*xi - cse3*xv + 12*cse4*p2 + cse5*cse9 - cse6*cse8 - cse7 + 1)

/-- `HIP3Basis_eval.h:344` -/
def hip3_3_2 (L : Nat → K) (xv xi p1 p2 p3 : K) : K :=
  let cse0 : K := 12*p1;
  let cse1 : K := ((L 0))*((L 0));
  let cse2 : K := (L 0)*(L 2);
  let cse3 : K := (xi)*(xi);
  let cse4 : K := 6*p1;
  let cse5 : K := cse3*cse4;
  let cse6 : K := (xv)*(xv);
  let cse7 : K := cse4*cse6;
  let cse8 : K := 2*p1;
  -((L 0))*((L 0))*((L 0))*((L 0))*cse0 + 12*((L 0))*((L 0))*((L 0))*(L 1)*(cse0*xi - cse0*xv + 1) + 4*(L 0)*(cse1*(L 3) + 9*cse2*(L 1) + 6*((L 1))*((L 1))*((L 1)))*((1/2)*cse3 - cse5*xv + (1/2)*cse6 + cse7*xi + cse8*(xi)*(xi)*(xi) - cse8*(xv)*(xv)*(xv) - xi*xv) + 12*cse1*(cse2 + 3*((L 1))*((L 1)))*(-cse5 - cse7 + 12*p1*xi*xv - xi + xv)

/-- `HIP3Basis_eval.h:351` -/
def hip3_3_3 (L : Nat → K) (xv xi p1 p2 p3 : K) : K :=
  let cse0 : K := ((L 0))*((L 0));
  let cse1 : K := (L 0)*(L 2);
  let cse2 : K := (xi)*(xi);
  let cse3 : K := (1/2)*(xv)*(xv);
  ((L 0))*((L 0))*((L 0))*((L 0)) + 12*((L 0))*((L 0))*((L 0))*(L 1)*(-xi + xv) + 4*(L 0)*(cse0*(L 3) + 9*cse1*(L 1) + 6*((L 1))*((L 1))*((L 1)))*((1/2)*cse2*xv - cse3*xi - 1/6*(xi)*(xi)*(xi) + (1/6)*(xv)*(xv)*(xv)) + 12*cse0*(cse1 + 3*((L 1))*((L 1)))*((1/2)*cse2 + cse3 - xi*xv)

/-- `HIP3Basis_eval.h:413` -/
def hip3_4_0 (L : Nat → K) (xv xi p1 p2 p3 : K) : K :=
  let cse0 : K := ((L 0))*((L 0))*((L 0));
  let cse1 : K := (p1)*(p1)*(p1);
  let cse2 : K := 30*cse1;
  let cse3 : K := ((L 0))*((L 0));
  let cse4 : K := (L 0)*(L 2);
  let cse5 : K := ((L 1))*((L 1));
  let cse6 : K := p3*xi;
  let cse7 : K := p3*xv;
  let cse8 : K := (p1)*(p1);
  let cse9 : K := p1*p2;
  let cse10 : K := 15*cse9;
  let cse11 : K := cse3*(L 3);
  let cse12 : K := 4*p1;
  let cse13 : K := 4*p2*xv;
  let cse14 : K := (xi)*(xi);
  let cse15 : K := 2*p3;
  let cse16 : K := (xv)*(xv);
  let cse17 : K := 20*cse8*xi;
  let cse18 : K := 60*cse1;
  let cse19 : K := cse14*cse18;
  let cse20 : K := cse16*cse18;
  let cse21 : K := (xi)*(xi)*(xi);
  let cse22 : K := (2/3)*p3;
  let cse23 : K := (xv)*(xv)*(xv);
  let cse24 : K := 2*p2;
  let cse25 : K := 10*cse9;
  let cse26 : K := 10*cse8;
  let cse27 : K := 20*cse1;
  let cse28 : K := 30*cse9;
  16*(L 0)*(cse11 + 9*cse4*(L 1) + 6*((L 1))*((L 1))*((L 1)))*(120*cse1*xi*xv - cse12 - cse13 - cse14*cse15 + 30*cse14*p1*p2 - cse15*cse16 + 30*cse16*p1*p2 - cse17 - cse19 - cse20 + 20*cse8*xv - 60*cse9*xi*xv + 4*p3*xi*xv + 4*p2*xi) + 64*cse0*(L 1)*(-cse2 - p3 + 15*p1*p2) + 96*cse3*(cse4 + 3*cse5)*(-cse10*xi + cse10*xv + cse2*xi - cse2*xv + cse6 - cse7 + 5*cse8 - p2) + (4*cse0*(L 4) + 48*cse11*(L 1) + 36*cse3*((L 2))*((L 2)) + 144*cse4*cse5 + 24*((L 1))*((L 1))*((L 1))*((L 1)))*(cse12*xi - cse12*xv + cse13*xi - cse14*cse24 + cse14*cse26 + cse14*cse28*xv - 2*cse14*cse7 - cse16*cse24 + cse16*cse26 - cse16*cse28*xi + 2*cse16*cse6 - cse17*xv - cse19*xv + cse20*xi + cse21*cse22 - cse21*cse25 + cse21*cse27 - cse22*cse23 + cse23*cse25 - cse23*cse27 + 1)

/-- `HIP3Basis_eval.h:433` -/
def hip3_4_1 (L : Nat → K) (xv xi p1 p2 p3 : K) : K :=
  let cse0 : K := ((L 0))*((L 0))*((L 0));
  let cse1 : K := (p1)*(p1);
  let cse2 : K := ((L 0))*((L 0));
  let cse3 : K := (L 0)*(L 2);
  let cse4 : K := ((L 1))*((L 1));
  let cse5 : K := cse2*(L 3);
  let cse6 : K := 8*p1;
  let cse7 : K := xi*xv;
  let cse8 : K := (xi)*(xi);
  let cse9 : K := 6*p2;
  let cse10 : K := cse8*cse9;
  let cse11 : K := (xv)*(xv);
  let cse12 : K := 30*cse1;
  let cse13 : K := cse11*cse12;
  let cse14 : K := 4*p1;
  let cse15 : K := (xi)*(xi)*(xi);
  let cse16 : K := (xv)*(xv)*(xv);
  16*(L 0)*(9*cse3*(L 1) + cse5 + 6*((L 1))*((L 1))*((L 1)))*(-60*cse1*cse7 - cse10 - cse11*cse9 + cse12*cse8 + cse13 + cse6*xi - cse6*xv + 12*cse7*p2 + 1) + 192*cse0*(L 1)*(5*cse1 - p2) + 96*cse2*(cse3 + 3*cse4)*(-15*cse1*xi + 15*cse1*xv - 2*p1 + 3*p2*xi - 3*p2*xv) + (4*cse0*(L 4) + 36*cse2*((L 2))*((L 2)) + 144*cse3*cse4 + 48*cse5*(L 1) + 24*((L 1))*((L 1))*((L 1))*((L 1)))*(-10*cse1*cse15 + 10*cse1*cse16 + 30*cse1*cse8*xv - cse10*xv - cse11*cse14 + 6*cse11*p2*xi - cse13*xi - cse14*cse8 + 2*cse15*p2 - 2*cse16*p2 + 8*p1*xi*xv - xi + xv)

/-- `HIP3Basis_eval.h:448` -/
def hip3_4_2 (L : Nat → K) (xv xi p1 p2 p3 : K) : K :=
  let cse0 : K := ((L 0))*((L 0))*((L 0));
  let cse1 : K := ((L 0))*((L 0));
  let cse2 : K := (L 0)*(L 2);
  let cse3 : K := ((L 1))*((L 1));
  let cse4 : K := 12*p1;
  let cse5 : K := cse1*(L 3);
  let cse6 : K := (xi)*(xi);
  let cse7 : K := 6*p1;
  let cse8 : K := cse6*cse7;
  let cse9 : K := (xv)*(xv);
  let cse10 : K := cse7*cse9;
  let cse11 : K := 2*p1;
  16*(L 0)*(9*cse2*(L 1) + cse5 + 6*((L 1))*((L 1))*((L 1)))*(-cse10 - cse8 + 12*p1*xi*xv - xi + xv) - 192*cse0*(L 1)*p1 + 24*cse1*(cse2 + 3*cse3)*(cse4*xi - cse4*xv + 1) + (4*cse0*(L 4) + 36*cse1*((L 2))*((L 2)) + 144*cse2*cse3 + 48*cse5*(L 1) + 24*((L 1))*((L 1))*((L 1))*((L 1)))*(cse10*xi + cse11*(xi)*(xi)*(xi) - cse11*(xv)*(xv)*(xv) + (1/2)*cse6 - cse8*xv + (1/2)*cse9 - xi*xv)

/-- `HIP3Basis_eval.h:458` -/
def hip3_4_3 (L : Nat → K) (xv xi p1 p2 p3 : K) : K :=
  let cse0 : K := ((L 0))*((L 0))*((L 0));
  let cse1 : K := ((L 0))*((L 0));
  let cse2 : K := (L 0)*(L 2);
  let cse3 : K := ((L 1))*((L 1));
  let cse4 : K := (xi)*(xi);
  let cse5 : K := (1/2)*(xv)*(xv);
  let cse6 : K := cse1*(L 3);
  16*(L 0)*((1/2)*cse4 + cse5 - xi*xv)*(9*cse2*(L 1) + cse6 + 6*((L 1))*((L 1))*((L 1))) + 16*cse0*(L 1) + 24*cse1*(cse2 + 3*cse3)*(-xi + xv) + ((1/2)*cse4*xv - cse5*xi - 1/6*(xi)*(xi)*(xi) + (1/6)*(xv)*(xv)*(xv))*(4*cse0*(L 4) + 36*cse1*((L 2))*((L 2)) + 144*cse2*cse3 + 48*cse6*(L 1) + 24*((L 1))*((L 1))*((L 1))*((L 1)))

/-- `HIP3Basis_eval.h:525` -/
def hip3_5_0 (L : Nat → K) (xv xi p1 p2 p3 : K) : K :=
  let cse0 : K := ((L 0))*((L 0));
  let cse1 : K := (L 0)*(L 2);
  let cse2 : K := ((L 1))*((L 1));
  let cse3 : K := (p1)*(p1)*(p1);
  let cse4 : K := 30*cse3;
  let cse5 : K := ((L 1))*((L 1))*((L 1));
  let cse6 : K := cse0*(L 3);
  let cse7 : K := p3*xi;
  let cse8 : K := p3*xv;
  let cse9 : K := (p1)*(p1);
  let cse10 : K := p1*p2;
  let cse11 : K := 15*cse10;
  let cse12 : K := ((L 0))*((L 0))*((L 0));
  let cse13 : K := ((L 2))*((L 2));
  let cse14 : K := 4*p1;
  let cse15 : K := 4*p2*xv;
  let cse16 : K := (xi)*(xi);
  let cse17 : K := 2*p3;
  let cse18 : K := (xv)*(xv);
  let cse19 : K := 20*cse9*xi;
  let cse20 : K := 60*cse3;
  let cse21 : K := cse16*cse20;
  let cse22 : K := cse18*cse20;
  let cse23 : K := (xi)*(xi)*(xi);
  let cse24 : K := (2/3)*p3;
  let cse25 : K := (xv)*(xv)*(xv);
  let cse26 : K := 2*p2;
  let cse27 : K := 10*cse10;
  let cse28 : K := 10*cse9;
  let cse29 : K := 20*cse3;
  let cse30 : K := 30*cse10;
  160*(L 0)*(9*cse1*(L 1) + 6*cse5 + cse6)*(-cse11*xi + cse11*xv + cse4*xi - cse4*xv + cse7 - cse8 + 5*cse9 - p2) + 160*cse0*(cse1 + 3*cse2)*(-cse4 - p3 + 15*p1*p2) + (180*cse0*cse13 + 720*cse1*cse2 + 20*cse12*(L 4) + 240*cse6*(L 1) + 120*((L 1))*((L 1))*((L 1))*((L 1)))*(-60*cse10*xi*xv - cse14 - cse15 - cse16*cse17 + 30*cse16*p1*p2 - cse17*cse18 + 30*cse18*p1*p2 - cse19 - cse21 - cse22 + 120*cse3*xi*xv + 20*cse9*xv + 4*p3*xi*xv + 4*p2*xi) + (360*(L 0)*cse13*(L 1) + 240*(L 0)*cse2*(L 3) + 60*cse0*(L 4)*(L 1) + 4*cse12*(L 5) + 240*cse5*(L 2) + 120*cse6*(L 2))*(cse14*xi - cse14*xv + cse15*xi - cse16*cse26 + cse16*cse28 + cse16*cse30*xv - 2*cse16*cse8 - cse18*cse26 + cse18*cse28 - cse18*cse30*xi + 2*cse18*cse7 - cse19*xv - cse21*xv + cse22*xi + cse23*cse24 - cse23*cse27 + cse23*cse29 - cse24*cse25 + cse25*cse27 - cse25*cse29 + 1)

/-- `HIP3Basis_eval.h:547` -/
def hip3_5_1 (L : Nat → K) (xv xi p1 p2 p3 : K) : K :=
  let cse0 : K := ((L 0))*((L 0));
  let cse1 : K := (p1)*(p1);
  let cse2 : K := (L 0)*(L 2);
  let cse3 : K := ((L 1))*((L 1));
  let cse4 : K := ((L 1))*((L 1))*((L 1));
  let cse5 : K := cse0*(L 3);
  let cse6 : K := ((L 0))*((L 0))*((L 0));
  let cse7 : K := ((L 2))*((L 2));
  let cse8 : K := 8*p1;
  let cse9 : K := xi*xv;
  let cse10 : K := (xi)*(xi);
  let cse11 : K := 6*p2;
  let cse12 : K := cse10*cse11;
  let cse13 : K := (xv)*(xv);
  let cse14 : K := 30*cse1;
  let cse15 : K := cse13*cse14;
  let cse16 : K := 4*p1;
  let cse17 : K := (xi)*(xi)*(xi);
  let cse18 : K := (xv)*(xv)*(xv);
  160*(L 0)*(9*cse2*(L 1) + 6*cse4 + cse5)*(-15*cse1*xi + 15*cse1*xv - 2*p1 + 3*p2*xi - 3*p2*xv) + 480*cse0*(5*cse1 - p2)*(cse2 + 3*cse3) + (180*cse0*cse7 + 720*cse2*cse3 + 240*cse5*(L 1) + 20*cse6*(L 4) + 120*((L 1))*((L 1))*((L 1))*((L 1)))*(-60*cse1*cse9 + cse10*cse14 - cse11*cse13 - cse12 + cse15 + cse8*xi - cse8*xv + 12*cse9*p2 + 1) + (240*(L 0)*cse3*(L 3) + 360*(L 0)*cse7*(L 1) + 60*cse0*(L 4)*(L 1) + 240*cse4*(L 2) + 120*cse5*(L 2) + 4*cse6*(L 5))*(30*cse1*cse10*xv - 10*cse1*cse17 + 10*cse1*cse18 - cse10*cse16 - cse12*xv - cse13*cse16 + 6*cse13*p2*xi - cse15*xi + 2*cse17*p2 - 2*cse18*p2 + 8*p1*xi*xv - xi + xv)

/-- `HIP3Basis_eval.h:564` -/
def hip3_5_2 (L : Nat → K) (xv xi p1 p2 p3 : K) : K :=
  let cse0 : K := ((L 0))*((L 0));
  let cse1 : K := (L 0)*(L 2);
  let cse2 : K := ((L 1))*((L 1));
  let cse3 : K := 12*p1;
  let cse4 : K := ((L 1))*((L 1))*((L 1));
  let cse5 : K := cse0*(L 3);
  let cse6 : K := (xi)*(xi);
  let cse7 : K := 6*p1;
  let cse8 : K := cse6*cse7;
  let cse9 : K := (xv)*(xv);
  let cse10 : K := cse7*cse9;
  let cse11 : K := ((L 0))*((L 0))*((L 0));
  let cse12 : K := ((L 2))*((L 2));
  let cse13 : K := 2*p1;
  40*(L 0)*(9*cse1*(L 1) + 6*cse4 + cse5)*(cse3*xi - cse3*xv + 1) - 480*cse0*p1*(cse1 + 3*cse2) + (-cse10 - cse8 + 12*p1*xi*xv - xi + xv)*(180*cse0*cse12 + 720*cse1*cse2 + 20*cse11*(L 4) + 240*cse5*(L 1) + 120*((L 1))*((L 1))*((L 1))*((L 1))) + (360*(L 0)*cse12*(L 1) + 240*(L 0)*cse2*(L 3) + 60*cse0*(L 4)*(L 1) + 4*cse11*(L 5) + 240*cse4*(L 2) + 120*cse5*(L 2))*(cse10*xi + cse13*(xi)*(xi)*(xi) - cse13*(xv)*(xv)*(xv) + (1/2)*cse6 - cse8*xv + (1/2)*cse9 - xi*xv)

/-- `HIP3Basis_eval.h:576` -/
def hip3_5_3 (L : Nat → K) (xv xi p1 p2 p3 : K) : K :=
  let cse0 : K := ((L 0))*((L 0));
  let cse1 : K := (L 0)*(L 2);
  let cse2 : K := ((L 1))*((L 1));
  let cse3 : K := ((L 1))*((L 1))*((L 1));
  let cse4 : K := cse0*(L 3);
  let cse5 : K := (xi)*(xi);
  let cse6 : K := (1/2)*(xv)*(xv);
  let cse7 : K := ((L 0))*((L 0))*((L 0));
  let cse8 : K := ((L 2))*((L 2));
  40*(L 0)*(-xi + xv)*(9*cse1*(L 1) + 6*cse3 + cse4) + 40*cse0*(cse1 + 3*cse2) + ((1/2)*cse5 + cse6 - xi*xv)*(180*cse0*cse8 + 720*cse1*cse2 + 240*cse4*(L 1) + 20*cse7*(L 4) + 120*((L 1))*((L 1))*((L 1))*((L 1))) + ((1/2)*cse5*xv - cse6*xi - 1/6*(xi)*(xi)*(xi) + (1/6)*(xv)*(xv)*(xv))*(240*(L 0)*cse2*(L 3) + 360*(L 0)*cse8*(L 1) + 60*cse0*(L 4)*(L 1) + 240*cse3*(L 2) + 120*cse4*(L 2) + 4*cse7*(L 5))

/-- `HIP3Basis_over_r.h:103` -/
def hip3R0_0_1 (L : Nat → K) (xv xi p1 p2 p3 : K) : K :=
  let cse0 : K := 4*p1;
  let cse1 : K := xi*xv;
  let cse2 : K := (xi)*(xi);
  let cse3 : K := 2*p2;
  let cse4 : K := (xv)*(xv);
  let cse5 : K := (p1)*(p1);
  let cse6 : K := 10*cse5;
  ((L 0))*((L 0))*((L 0))*((L 0))*(cse0*xi - cse0*xv - 20*cse1*cse5 + 4*cse1*p2 - cse2*cse3 + cse2*cse6 - cse3*cse4 + cse4*cse6 + 1)

/-- `HIP3Basis_over_r.h:107` -/
def hip3R0_0_2 (L : Nat → K) (xv xi p1 p2 p3 : K) : K :=
  let cse0 : K := 2*p1;
  ((L 0))*((L 0))*((L 0))*((L 0))*(-cse0*(xi)*(xi) - cse0*(xv)*(xv) + 4*p1*xi*xv - 1/2*xi + (1/2)*xv)

/-- `HIP3Basis_over_r.h:110` -/
def hip3R0_0_3 (L : Nat → K) (xv xi p1 p2 p3 : K) : K :=
  ((L 0))*((L 0))*((L 0))*((L 0))*((1/6)*(xi)*(xi) - 1/3*xi*xv + (1/6)*(xv)*(xv))

/-- `HIP3Basis_over_r.h:125` -/
def hip3R0_1_1 (L : Nat → K) (xv xi p1 p2 p3 : K) : K :=
  let cse0 : K := 4*p1;
  let cse1 : K := 4*p2*xv;
  let cse2 : K := (p1)*(p1);
  let cse3 : K := 20*cse2*xi;
  let cse4 : K := (xi)*(xi);
  let cse5 : K := 2*p2;
  let cse6 : K := (xv)*(xv);
  let cse7 : K := 10*cse2;
  ((L 0))*((L 0))*((L 0))*((L 0))*(-cse0 - cse1 + 20*cse2*xv - cse3 + 4*p2*xi) + 4*((L 0))*((L 0))*((L 0))*(L 1)*(cse0*xi - cse0*xv + cse1*xi - cse3*xv - cse4*cse5 + cse4*cse7 - cse5*cse6 + cse6*cse7 + 1)

/-- `HIP3Basis_over_r.h:130` -/
def hip3R0_1_2 (L : Nat → K) (xv xi p1 p2 p3 : K) : K :=
  let cse0 : K := 4*p1;
  let cse1 : K := 2*p1;
  ((L 0))*((L 0))*((L 0))*((L 0))*(cse0*xi - cse0*xv + 1/2) + 4*((L 0))*((L 0))*((L 0))*(L 1)*(-cse1*(xi)*(xi) - cse1*(xv)*(xv) + 4*p1*xi*xv - 1/2*xi + (1/2)*xv)

/-- `HIP3Basis_over_r.h:134` -/
def hip3R0_1_3 (L : Nat → K) (xv xi p1 p2 p3 : K) : K :=
  let cse0 : K := (1/3)*xi;
  ((L 0))*((L 0))*((L 0))*((L 0))*(-cse0 + (1/3)*xv) + 4*((L 0))*((L 0))*((L 0))*(L 1)*(-cse0*xv + (1/6)*(xi)*(xi) + (1/6)*(xv)*(xv))

/-- `HIP3Basis_over_r.h:149` -/
def hip3R0_2_1 (L : Nat → K) (xv xi p1 p2 p3 : K) : K :=
  let cse0 : K := (p1)*(p1);
  let cse1 : K := 4*p1;
  let cse2 : K := 4*p2*xv;
  let cse3 : K := 20*cse0*xi;
  let cse4 : K := (xi)*(xi);
  let cse5 : K := 2*p2;
  let cse6 : K := (xv)*(xv);
  let cse7 : K := 10*cse0;
  4*((L 0))*((L 0))*((L 0))*((L 0))*(5*cse0 - p2) + 8*((L 0))*((L 0))*((L 0))*(L 1)*(20*cse0*xv - cse1 - cse2 - cse3 + 4*p2*xi) + 4*((L 0))*((L 0))*((L 0)*(L 2) + 3*((L 1))*((L 1)))*(cse1*xi - cse1*xv + cse2*xi - cse3*xv - cse4*cse5 + cse4*cse7 - cse5*cse6 + cse6*cse7 + 1)

/-- `HIP3Basis_over_r.h:154` -/
def hip3R0_2_2 (L : Nat → K) (xv xi p1 p2 p3 : K) : K :=
  let cse0 : K := 4*p1;
  let cse1 : K := 2*p1;
  -((L 0))*((L 0))*((L 0))*((L 0))*cse0 + 8*((L 0))*((L 0))*((L 0))*(L 1)*(cse0*xi - cse0*xv + 1/2) + 4*((L 0))*((L 0))*((L 0)*(L 2) + 3*((L 1))*((L 1)))*(-cse1*(xi)*(xi) - cse1*(xv)*(xv) + 4*p1*xi*xv - 1/2*xi + (1/2)*xv)

/-- `HIP3Basis_over_r.h:158` -/
def hip3R0_2_3 (L : Nat → K) (xv xi p1 p2 p3 : K) : K :=
  let cse0 : K := (1/3)*xi;
  (1/3)*((L 0))*((L 0))*((L 0))*((L 0)) + 8*((L 0))*((L 0))*((L 0))*(L 1)*(-cse0 + (1/3)*xv) + 4*((L 0))*((L 0))*((L 0)*(L 2) + 3*((L 1))*((L 1)))*(-cse0*xv + (1/6)*(xi)*(xi) + (1/6)*(xv)*(xv))

/-- `HIP3Basis_over_r.h:193` -/
def hip3R1_0_0 (L : Nat → K) (xv xi p1 p2 p3 : K) : K :=
  let cse0 : K := 4*p1;
  let cse1 : K := xi*xv;
  let cse2 : K := (xi)*(xi)*(xi);
  let cse3 : K := (2/3)*p3;
  let cse4 : K := (xv)*(xv)*(xv);
  let cse5 : K := (xi)*(xi);
  let cse6 : K := 2*p2;
  let cse7 : K := (xv)*(xv);
  let cse8 : K := 2*p3;
  let cse9 : K := cse7*xi;
  let cse10 : K := cse5*xv;
  let cse11 : K := p1*p2;
  let cse12 : K := 10*cse11;
  let cse13 : K := (p1)*(p1);
  let cse14 : K := 10*cse13;
  let cse15 : K := (p1)*(p1)*(p1);
  let cse16 : K := 20*cse15;
  let cse17 : K := 30*cse11;
  let cse18 : K := 60*cse15;
  ((L 0))*((L 0))*((L 0))*((L 0))*(xv + 1)^3*(cse0*xi - cse0*xv - 20*cse1*cse13 + 4*cse1*p2 + cse10*cse17 - cse10*cse18 - cse10*cse8 - cse12*cse2 + cse12*cse4 + cse14*cse5 + cse14*cse7 + cse16*cse2 - cse16*cse4 - cse17*cse9 + cse18*cse9 + cse2*cse3 - cse3*cse4 - cse5*cse6 - cse6*cse7 + cse8*cse9 + 1)/(xi + 1)^4

/-- `HIP3Basis_over_r.h:202` -/
def hip3R1_0_1 (L : Nat → K) (xv xi p1 p2 p3 : K) : K :=
  let cse0 : K := (xi)*(xi);
  let cse1 : K := 4*p1;
  let cse2 : K := (xv)*(xv);
  let cse3 : K := (xi)*(xi)*(xi);
  let cse4 : K := (xv)*(xv)*(xv);
  let cse5 : K := (p1)*(p1);
  ((L 0))*((L 0))*((L 0))*((L 0))*(xv + 1)^3*(-cse0*cse1 + 30*cse0*cse5*xv - 6*cse0*p2*xv - cse1*cse2 - 30*cse2*cse5*xi + 6*cse2*p2*xi - 10*cse3*cse5 + 2*cse3*p2 + 10*cse4*cse5 - 2*cse4*p2 + 8*p1*xi*xv - xi + xv)/(xi + 1)^4

/-- `HIP3Basis_over_r.h:209` -/
def hip3R1_0_2 (L : Nat → K) (xv xi p1 p2 p3 : K) : K :=
  let cse0 : K := (xi)*(xi);
  let cse1 : K := (xv)*(xv);
  let cse2 : K := 2*p1;
  let cse3 : K := 6*p1;
  ((L 0))*((L 0))*((L 0))*((L 0))*(xv + 1)^3*(-cse0*cse3*xv + (1/2)*cse0 + cse1*cse3*xi + (1/2)*cse1 + cse2*(xi)*(xi)*(xi) - cse2*(xv)*(xv)*(xv) - xi*xv)/(xi + 1)^4

/-- `HIP3Basis_over_r.h:212` -/
def hip3R1_0_3 (L : Nat → K) (xv xi p1 p2 p3 : K) : K :=
  ((L 0))*((L 0))*((L 0))*((L 0))*(xv + 1)^3*(-1/6*(xi)*(xi)*(xi) + (1/2)*(xi)*(xi)*xv - 1/2*xi*(xv)*(xv) + (1/6)*(xv)*(xv)*(xv))/(xi + 1)^4

/-- `HIP3Basis_over_r.h:245` -/
def hip3R1_1_0 (L : Nat → K) (xv xi p1 p2 p3 : K) : K :=
  let cse0 : K := ((L 0))*((L 0))*((L 0))*((L 0));
  let cse1 : K := xv + 1;
  let cse2 : K := (cse1)*(cse1)*(cse1);
  let cse3 : K := 4*p1;
  let cse4 : K := 4*p2*xv;
  let cse5 : K := (xi)*(xi);
  let cse6 : K := 2*p3;
  let cse7 : K := cse5*cse6;
  let cse8 : K := (xv)*(xv);
  let cse9 : K := cse6*cse8;
  let cse10 : K := (p1)*(p1);
  let cse11 : K := 20*cse10*xi;
  let cse12 : K := p1*p2;
  let cse13 : K := (p1)*(p1)*(p1);
  let cse14 : K := 60*cse13;
  let cse15 : K := cse14*cse5;
  let cse16 : K := cse14*cse8;
  let cse17 : K := (xi)*(xi)*(xi);
  let cse18 : K := (2/3)*p3;
  let cse19 : K := (xv)*(xv)*(xv);
  let cse20 : K := 2*p2;
  let cse21 : K := 10*cse12;
  let cse22 : K := 10*cse10;
  let cse23 : K := 20*cse13;
  let cse24 : K := 30*cse12;
  let cse25 : K := -cse11*xv - cse15*xv + cse16*xi + cse17*cse18 - cse17*cse21 + cse17*cse23 - cse18*cse19 + cse19*cse21 - cse19*cse23 - cse20*cse5 - cse20*cse8 + cse22*cse5 + cse22*cse8 + cse24*cse5*xv - cse24*cse8*xi + cse3*xi - cse3*xv + cse4*xi - cse7*xv + cse9*xi + 1;
  (3*cse0*(cse1)*(cse1)*cse25 + cse0*cse2*(20*cse10*xv - cse11 - 60*cse12*xi*xv + 120*cse13*xi*xv - cse15 - cse16 - cse3 - cse4 + 30*cse5*p1*p2 - cse7 + 30*cse8*p1*p2 - cse9 + 4*p3*xi*xv + 4*p2*xi) + 4*cse2*cse25*(L 1)*((L 0))*((L 0))*((L 0)))/(xi + 1)^4

/-- `HIP3Basis_over_r.h:264` -/
def hip3R1_1_1 (L : Nat → K) (xv xi p1 p2 p3 : K) : K :=
  let cse0 : K := ((L 0))*((L 0))*((L 0))*((L 0));
  let cse1 : K := xv + 1;
  let cse2 : K := (cse1)*(cse1)*(cse1);
  let cse3 : K := 8*p1;
  let cse4 : K := xi*xv;
  let cse5 : K := (xi)*(xi);
  let cse6 : K := 6*p2;
  let cse7 : K := cse5*cse6;
  let cse8 : K := (xv)*(xv);
  let cse9 : K := (p1)*(p1);
  let cse10 : K := 30*cse9;
  let cse11 : K := cse10*cse8;
  let cse12 : K := 4*p1;
  let cse13 : K := (xi)*(xi)*(xi);
  let cse14 : K := (xv)*(xv)*(xv);
  let cse15 : K := -cse11*xi - cse12*cse5 - cse12*cse8 - 10*cse13*cse9 + 2*cse13*p2 + 10*cse14*cse9 - 2*cse14*p2 + 30*cse5*cse9*xv - cse7*xv + 6*cse8*p2*xi + 8*p1*xi*xv - xi + xv;
  (3*cse0*(cse1)*(cse1)*cse15 + cse0*cse2*(cse10*cse5 + cse11 + cse3*xi - cse3*xv - 60*cse4*cse9 + 12*cse4*p2 - cse6*cse8 - cse7 + 1) + 4*cse15*cse2*(L 1)*((L 0))*((L 0))*((L 0)))/(xi + 1)^4

/-- `HIP3Basis_over_r.h:277` -/
def hip3R1_1_2 (L : Nat → K) (xv xi p1 p2 p3 : K) : K :=
  let cse0 : K := ((L 0))*((L 0))*((L 0))*((L 0));
  let cse1 : K := xv + 1;
  let cse2 : K := (cse1)*(cse1)*(cse1);
  let cse3 : K := (xi)*(xi);
  let cse4 : K := 6*p1;
  let cse5 : K := cse3*cse4;
  let cse6 : K := (xv)*(xv);
  let cse7 : K := cse4*cse6;
  let cse8 : K := 2*p1;
  let cse9 : K := (1/2)*cse3 - cse5*xv + (1/2)*cse6 + cse7*xi + cse8*(xi)*(xi)*(xi) - cse8*(xv)*(xv)*(xv) - xi*xv;
  (3*cse0*(cse1)*(cse1)*cse9 + cse0*cse2*(-cse5 - cse7 + 12*p1*xi*xv - xi + xv) + 4*cse2*cse9*(L 1)*((L 0))*((L 0))*((L 0)))/(xi + 1)^4

/-- `HIP3Basis_over_r.h:286` -/
def hip3R1_1_3 (L : Nat → K) (xv xi p1 p2 p3 : K) : K :=
  let cse0 : K := ((L 0))*((L 0))*((L 0))*((L 0));
  let cse1 : K := xv + 1;
  let cse2 : K := (cse1)*(cse1)*(cse1);
  let cse3 : K := (xi)*(xi);
  let cse4 : K := (1/2)*(xv)*(xv);
  let cse5 : K := (1/2)*cse3*xv - cse4*xi - 1/6*(xi)*(xi)*(xi) + (1/6)*(xv)*(xv)*(xv);
  (3*cse0*(cse1)*(cse1)*cse5 + cse0*cse2*((1/2)*cse3 + cse4 - xi*xv) + 4*cse2*cse5*(L 1)*((L 0))*((L 0))*((L 0)))/(xi + 1)^4

/-- `HIP3Basis_over_r.h:326` -/
def hip3R1_2_0 (L : Nat → K) (xv xi p1 p2 p3 : K) : K :=
  let cse0 : K := ((L 0))*((L 0))*((L 0))*((L 0));
  let cse1 : K := p3*xi;
  let cse2 : K := p3*xv;
  let cse3 : K := (p1)*(p1);
  let cse4 : K := p1*p2;
  let cse5 : K := 15*cse4;
  let cse6 : K := (p1)*(p1)*(p1);
  let cse7 : K := 30*cse6;
  let cse8 : K := xv + 1;
  let cse9 : K := (cse8)*(cse8)*(cse8);
  let cse10 : K := 4*cse9;
  let cse11 : K := (cse8)*(cse8);
  let cse12 : K := 4*p1;
  let cse13 : K := 4*p2*xv;
  let cse14 : K := (xi)*(xi);
  let cse15 : K := 2*p3;
  let cse16 : K := (xv)*(xv);
  let cse17 : K := 20*cse3*xi;
  let cse18 : K := 60*cse6;
  let cse19 : K := cse14*cse18;
  let cse20 : K := cse16*cse18;
  let cse21 : K := -cse12 - cse13 - cse14*cse15 + 30*cse14*p1*p2 - cse15*cse16 + 30*cse16*p1*p2 - cse17 - cse19 - cse20 + 20*cse3*xv - 60*cse4*xi*xv + 120*cse6*xi*xv + 4*p3*xi*xv + 4*p2*xi;
  let cse22 : K := 6*cse0;
  let cse23 : K := (L 1)*((L 0))*((L 0))*((L 0));
  let cse24 : K := (xi)*(xi)*(xi);
  let cse25 : K := (2/3)*p3;
  let cse26 : K := (xv)*(xv)*(xv);
  let cse27 : K := 2*p2;
  let cse28 : K := 10*cse4;
  let cse29 : K := 10*cse3;
  let cse30 : K := 20*cse6;
  let cse31 : K := 30*cse4;
  let cse32 : K := 2*cse1*cse16 + cse12*xi - cse12*xv + cse13*xi - 2*cse14*cse2 - cse14*cse27 + cse14*cse29 + cse14*cse31*xv - cse16*cse27 + cse16*cse29 - cse16*cse31*xi - cse17*xv - cse19*xv + cse20*xi + cse24*cse25 - cse24*cse28 + cse24*cse30 - cse25*cse26 + cse26*cse28 - cse26*cse30 + 1;
  (cse0*cse10*(cse1 - cse2 + 5*cse3 - cse5*xi + cse5*xv + cse7*xi - cse7*xv - p2) + cse10*cse32*((L 0))*((L 0))*((L 2)*(L 0) + 3*((L 1))*((L 1))) + cse11*cse21*cse22 + 24*cse11*cse23*cse32 + 8*cse21*cse23*cse9 + cse22*cse32*cse8)/(xi + 1)^4

/-- `HIP3Basis_over_r.h:350` -/
def hip3R1_2_1 (L : Nat → K) (xv xi p1 p2 p3 : K) : K :=
  let cse0 : K := ((L 0))*((L 0))*((L 0))*((L 0));
  let cse1 : K := (p1)*(p1);
  let cse2 : K := xv + 1;
  let cse3 : K := (cse2)*(cse2)*(cse2);
  let cse4 : K := 4*cse3;
  let cse5 : K := (cse2)*(cse2);
  let cse6 : K := 8*p1;
  let cse7 : K := xi*xv;
  let cse8 : K := (xi)*(xi);
  let cse9 : K := 6*p2;
  let cse10 : K := cse8*cse9;
  let cse11 : K := (xv)*(xv);
  let cse12 : K := 30*cse1;
  let cse13 : K := cse11*cse12;
  let cse14 : K := -60*cse1*cse7 - cse10 - cse11*cse9 + cse12*cse8 + cse13 + cse6*xi - cse6*xv + 12*cse7*p2 + 1;
  let cse15 : K := 6*cse0;
  let cse16 : K := (L 1)*((L 0))*((L 0))*((L 0));
  let cse17 : K := 4*p1;
  let cse18 : K := (xi)*(xi)*(xi);
  let cse19 : K := (xv)*(xv)*(xv);
  let cse20 : K := -10*cse1*cse18 + 10*cse1*cse19 + 30*cse1*cse8*xv - cse10*xv - cse11*cse17 + 6*cse11*p2*xi - cse13*xi - cse17*cse8 + 2*cse18*p2 - 2*cse19*p2 + 8*p1*xi*xv - xi + xv;
  (cse0*cse4*(-15*cse1*xi + 15*cse1*xv - 2*p1 + 3*p2*xi - 3*p2*xv) + cse14*cse15*cse5 + 8*cse14*cse16*cse3 + cse15*cse2*cse20 + 24*cse16*cse20*cse5 + cse20*cse4*((L 0))*((L 0))*((L 2)*(L 0) + 3*((L 1))*((L 1))))/(xi + 1)^4

/-- `HIP3Basis_over_r.h:368` -/
def hip3R1_2_2 (L : Nat → K) (xv xi p1 p2 p3 : K) : K :=
  let cse0 : K := ((L 0))*((L 0))*((L 0))*((L 0));
  let cse1 : K := xv + 1;
  let cse2 : K := (cse1)*(cse1)*(cse1);
  let cse3 : K := 12*p1;
  let cse4 : K := (cse1)*(cse1);
  let cse5 : K := (xi)*(xi);
  let cse6 : K := 6*p1;
  let cse7 : K := cse5*cse6;
  let cse8 : K := (xv)*(xv);
  let cse9 : K := cse6*cse8;
  let cse10 : K := -cse7 - cse9 + 12*p1*xi*xv - xi + xv;
  let cse11 : K := 6*cse0;
  let cse12 : K := (L 1)*((L 0))*((L 0))*((L 0));
  let cse13 : K := 2*p1;
  let cse14 : K := cse13*(xi)*(xi)*(xi) - cse13*(xv)*(xv)*(xv) + (1/2)*cse5 - cse7*xv + (1/2)*cse8 + cse9*xi - xi*xv;
  (cse0*cse2*(cse3*xi - cse3*xv + 1) + cse1*cse11*cse14 + cse10*cse11*cse4 + 8*cse10*cse12*cse2 + 24*cse12*cse14*cse4 + 4*cse14*cse2*((L 0))*((L 0))*((L 2)*(L 0) + 3*((L 1))*((L 1))))/(xi + 1)^4

/-- `HIP3Basis_over_r.h:381` -/
def hip3R1_2_3 (L : Nat → K) (xv xi p1 p2 p3 : K) : K :=
  let cse0 : K := ((L 0))*((L 0))*((L 0))*((L 0));
  let cse1 : K := xv + 1;
  let cse2 : K := (cse1)*(cse1)*(cse1);
  let cse3 : K := (cse1)*(cse1);
  let cse4 : K := (xi)*(xi);
  let cse5 : K := (1/2)*(xv)*(xv);
  let cse6 : K := (1/2)*cse4 + cse5 - xi*xv;
  let cse7 : K := 6*cse0;
  let cse8 : K := (L 1)*((L 0))*((L 0))*((L 0));
  let cse9 : K := (1/2)*cse4*xv - cse5*xi - 1/6*(xi)*(xi)*(xi) + (1/6)*(xv)*(xv)*(xv);
  (cse0*cse2*(-xi + xv) + cse1*cse7*cse9 + 8*cse2*cse6*cse8 + 4*cse2*cse9*((L 0))*((L 0))*((L 2)*(L 0) + 3*((L 1))*((L 1))) + cse3*cse6*cse7 + 24*cse3*cse8*cse9)/(xi + 1)^4

/-- The `switch` over the order (and kind) in the source of `hip_n_j`; `none` where there is no case. -/
def hip (n j : Nat) (L : Nat → K) (xv xi p1 p2 p3 : K) : Option K :=
  match n, j with
  | 0, 0 => some (hip_0_0 L xv xi p1 p2 p3)
  | 0, 1 => some (hip_0_1 L xv xi p1 p2 p3)
  | 1, 0 => some (hip_1_0 L xv xi p1 p2 p3)
  | 1, 1 => some (hip_1_1 L xv xi p1 p2 p3)
  | 2, 0 => some (hip_2_0 L xv xi p1 p2 p3)
  | 2, 1 => some (hip_2_1 L xv xi p1 p2 p3)
  | 3, 0 => some (hip_3_0 L xv xi p1 p2 p3)
  | 3, 1 => some (hip_3_1 L xv xi p1 p2 p3)
  | 4, 0 => some (hip_4_0 L xv xi p1 p2 p3)
  | 4, 1 => some (hip_4_1 L xv xi p1 p2 p3)
  | 5, 0 => some (hip_5_0 L xv xi p1 p2 p3)
  | 5, 1 => some (hip_5_1 L xv xi p1 p2 p3)
  | 6, 0 => some (hip_6_0 L xv xi p1 p2 p3)
  | 6, 1 => some (hip_6_1 L xv xi p1 p2 p3)
  | 7, 0 => some (hip_7_0 L xv xi p1 p2 p3)
  | 7, 1 => some (hip_7_1 L xv xi p1 p2 p3)
  | 8, 0 => some (hip_8_0 L xv xi p1 p2 p3)
  | 8, 1 => some (hip_8_1 L xv xi p1 p2 p3)
  | 9, 0 => some (hip_9_0 L xv xi p1 p2 p3)
  | 9, 1 => some (hip_9_1 L xv xi p1 p2 p3)
  | 10, 0 => some (hip_10_0 L xv xi p1 p2 p3)
  | 10, 1 => some (hip_10_1 L xv xi p1 p2 p3)
  | 11, 0 => some (hip_11_0 L xv xi p1 p2 p3)
  | 11, 1 => some (hip_11_1 L xv xi p1 p2 p3)
  | 12, 0 => some (hip_12_0 L xv xi p1 p2 p3)
  | 12, 1 => some (hip_12_1 L xv xi p1 p2 p3)
  | 13, 0 => some (hip_13_0 L xv xi p1 p2 p3)
  | 13, 1 => some (hip_13_1 L xv xi p1 p2 p3)
  | 14, 0 => some (hip_14_0 L xv xi p1 p2 p3)
  | 14, 1 => some (hip_14_1 L xv xi p1 p2 p3)
  | 15, 0 => some (hip_15_0 L xv xi p1 p2 p3)
  | 15, 1 => some (hip_15_1 L xv xi p1 p2 p3)
  | 16, 0 => some (hip_16_0 L xv xi p1 p2 p3)
  | 16, 1 => some (hip_16_1 L xv xi p1 p2 p3)
  | 17, 0 => some (hip_17_0 L xv xi p1 p2 p3)
  | 17, 1 => some (hip_17_1 L xv xi p1 p2 p3)
  | 18, 0 => some (hip_18_0 L xv xi p1 p2 p3)
  | 18, 1 => some (hip_18_1 L xv xi p1 p2 p3)
  | 19, 0 => some (hip_19_0 L xv xi p1 p2 p3)
  | 19, 1 => some (hip_19_1 L xv xi p1 p2 p3)
  | 20, 0 => some (hip_20_0 L xv xi p1 p2 p3)
  | 20, 1 => some (hip_20_1 L xv xi p1 p2 p3)
  | _, _ => none

/-- The `switch` over the order (and kind) in the source of `hipR0_n_j`; `none` where there is no case. -/
def hipR0 (n j : Nat) (L : Nat → K) (xv xi p1 p2 p3 : K) : Option K :=
  match n, j with
  | 0, 1 => some (hipR0_0_1 L xv xi p1 p2 p3)
  | 1, 1 => some (hipR0_1_1 L xv xi p1 p2 p3)
  | 2, 1 => some (hipR0_2_1 L xv xi p1 p2 p3)
  | _, _ => none

/-- The `switch` over the order (and kind) in the source of `hipR1_n_j`; `none` where there is no case. -/
def hipR1 (n j : Nat) (L : Nat → K) (xv xi p1 p2 p3 : K) : Option K :=
  match n, j with
  | 0, 0 => some (hipR1_0_0 L xv xi p1 p2 p3)
  | 0, 1 => some (hipR1_0_1 L xv xi p1 p2 p3)
  | 1, 0 => some (hipR1_1_0 L xv xi p1 p2 p3)
  | 1, 1 => some (hipR1_1_1 L xv xi p1 p2 p3)
  | 2, 0 => some (hipR1_2_0 L xv xi p1 p2 p3)
  | 2, 1 => some (hipR1_2_1 L xv xi p1 p2 p3)
  | _, _ => none

/-- The `switch` over the order (and kind) in the source of `hip2_n_j`; `none` where there is no case. -/
def hip2 (n j : Nat) (L : Nat → K) (xv xi p1 p2 p3 : K) : Option K :=
  match n, j with
  | 0, 0 => some (hip2_0_0 L xv xi p1 p2 p3)
  | 0, 1 => some (hip2_0_1 L xv xi p1 p2 p3)
  | 0, 2 => some (hip2_0_2 L xv xi p1 p2 p3)
  | 1, 0 => some (hip2_1_0 L xv xi p1 p2 p3)
  | 1, 1 => some (hip2_1_1 L xv xi p1 p2 p3)
  | 1, 2 => some (hip2_1_2 L xv xi p1 p2 p3)
  | 2, 0 => some (hip2_2_0 L xv xi p1 p2 p3)
  | 2, 1 => some (hip2_2_1 L xv xi p1 p2 p3)
  | 2, 2 => some (hip2_2_2 L xv xi p1 p2 p3)
  | 3, 0 => some (hip2_3_0 L xv xi p1 p2 p3)
  | 3, 1 => some (hip2_3_1 L xv xi p1 p2 p3)
  | 3, 2 => some (hip2_3_2 L xv xi p1 p2 p3)
  | 4, 0 => some (hip2_4_0 L xv xi p1 p2 p3)
  | 4, 1 => some (hip2_4_1 L xv xi p1 p2 p3)
  | 4, 2 => some (hip2_4_2 L xv xi p1 p2 p3)
  | 5, 0 => some (hip2_5_0 L xv xi p1 p2 p3)
  | 5, 1 => some (hip2_5_1 L xv xi p1 p2 p3)
  | 5, 2 => some (hip2_5_2 L xv xi p1 p2 p3)
  | _, _ => none

/-- The `switch` over the order (and kind) in the source of `hip2R0_n_j`; `none` where there is no case. -/
def hip2R0 (n j : Nat) (L : Nat → K) (xv xi p1 p2 p3 : K) : Option K :=
  match n, j with
  | 0, 1 => some (hip2R0_0_1 L xv xi p1 p2 p3)
  | 0, 2 => some (hip2R0_0_2 L xv xi p1 p2 p3)
  | 1, 1 => some (hip2R0_1_1 L xv xi p1 p2 p3)
  | 1, 2 => some (hip2R0_1_2 L xv xi p1 p2 p3)
  | 2, 1 => some (hip2R0_2_1 L xv xi p1 p2 p3)
  | 2, 2 => some (hip2R0_2_2 L xv xi p1 p2 p3)
  | _, _ => none

/-- The `switch` over the order (and kind) in the source of `hip2R1_n_j`; `none` where there is no case. -/
def hip2R1 (n j : Nat) (L : Nat → K) (xv xi p1 p2 p3 : K) : Option K :=
  match n, j with
  | 0, 0 => some (hip2R1_0_0 L xv xi p1 p2 p3)
  | 0, 1 => some (hip2R1_0_1 L xv xi p1 p2 p3)
  | 0, 2 => some (hip2R1_0_2 L xv xi p1 p2 p3)
  | 1, 0 => some (hip2R1_1_0 L xv xi p1 p2 p3)
  | 1, 1 => some (hip2R1_1_1 L xv xi p1 p2 p3)
  | 1, 2 => some (hip2R1_1_2 L xv xi p1 p2 p3)
  | 2, 0 => some (hip2R1_2_0 L xv xi p1 p2 p3)
  | 2, 1 => some (hip2R1_2_1 L xv xi p1 p2 p3)
  | 2, 2 => some (hip2R1_2_2 L xv xi p1 p2 p3)
  | _, _ => none

/-- The `switch` over the order (and kind) in the source of `hip3_n_j`; `none` where there is no case. -/
def hip3 (n j : Nat) (L : Nat → K) (xv xi p1 p2 p3 : K) : Option K :=
  match n, j with
  | 0, 0 => some (hip3_0_0 L xv xi p1 p2 p3)
  | 0, 1 => some (hip3_0_1 L xv xi p1 p2 p3)
  | 0, 2 => some (hip3_0_2 L xv xi p1 p2 p3)
  | 0, 3 => some (hip3_0_3 L xv xi p1 p2 p3)
  | 1, 0 => some (hip3_1_0 L xv xi p1 p2 p3)
  | 1, 1 => some (hip3_1_1 L xv xi p1 p2 p3)
  | 1, 2 => some (hip3_1_2 L xv xi p1 p2 p3)
  | 1, 3 => some (hip3_1_3 L xv xi p1 p2 p3)
  | 2, 0 => some (hip3_2_0 L xv xi p1 p2 p3)
  | 2, 1 => some (hip3_2_1 L xv xi p1 p2 p3)
  | 2, 2 => some (hip3_2_2 L xv xi p1 p2 p3)
  | 2, 3 => some (hip3_2_3 L xv xi p1 p2 p3)
  | 3, 0 => some (hip3_3_0 L xv xi p1 p2 p3)
  | 3, 1 => some (hip3_3_1 L xv xi p1 p2 p3)
  | 3, 2 => some (hip3_3_2 L xv xi p1 p2 p3)
  | 3, 3 => some (hip3_3_3 L xv xi p1 p2 p3)
  | 4, 0 => some (hip3_4_0 L xv xi p1 p2 p3)
  | 4, 1 => some (hip3_4_1 L xv xi p1 p2 p3)
  | 4, 2 => some (hip3_4_2 L xv xi p1 p2 p3)
  | 4, 3 => some (hip3_4_3 L xv xi p1 p2 p3)
  | 5, 0 => some (hip3_5_0 L xv xi p1 p2 p3)
  | 5, 1 => some (hip3_5_1 L xv xi p1 p2 p3)
  | 5, 2 => some (hip3_5_2 L xv xi p1 p2 p3)
  | 5, 3 => some (hip3_5_3 L xv xi p1 p2 p3)
  | _, _ => none

/-- The `switch` over the order (and kind) in the source of `hip3R0_n_j`; `none` where there is no case. -/
def hip3R0 (n j : Nat) (L : Nat → K) (xv xi p1 p2 p3 : K) : Option K :=
  match n, j with
  | 0, 1 => some (hip3R0_0_1 L xv xi p1 p2 p3)
  | 0, 2 => some (hip3R0_0_2 L xv xi p1 p2 p3)
  | 0, 3 => some (hip3R0_0_3 L xv xi p1 p2 p3)
  | 1, 1 => some (hip3R0_1_1 L xv xi p1 p2 p3)
  | 1, 2 => some (hip3R0_1_2 L xv xi p1 p2 p3)
  | 1, 3 => some (hip3R0_1_3 L xv xi p1 p2 p3)
  | 2, 1 => some (hip3R0_2_1 L xv xi p1 p2 p3)
  | 2, 2 => some (hip3R0_2_2 L xv xi p1 p2 p3)
  | 2, 3 => some (hip3R0_2_3 L xv xi p1 p2 p3)
  | _, _ => none

/-- The `switch` over the order (and kind) in the source of `hip3R1_n_j`; `none` where there is no case. -/
def hip3R1 (n j : Nat) (L : Nat → K) (xv xi p1 p2 p3 : K) : Option K :=
  match n, j with
  | 0, 0 => some (hip3R1_0_0 L xv xi p1 p2 p3)
  | 0, 1 => some (hip3R1_0_1 L xv xi p1 p2 p3)
  | 0, 2 => some (hip3R1_0_2 L xv xi p1 p2 p3)
  | 0, 3 => some (hip3R1_0_3 L xv xi p1 p2 p3)
  | 1, 0 => some (hip3R1_1_0 L xv xi p1 p2 p3)
  | 1, 1 => some (hip3R1_1_1 L xv xi p1 p2 p3)
  | 1, 2 => some (hip3R1_1_2 L xv xi p1 p2 p3)
  | 1, 3 => some (hip3R1_1_3 L xv xi p1 p2 p3)
  | 2, 0 => some (hip3R1_2_0 L xv xi p1 p2 p3)
  | 2, 1 => some (hip3R1_2_1 L xv xi p1 p2 p3)
  | 2, 2 => some (hip3R1_2_2 L xv xi p1 p2 p3)
  | 2, 3 => some (hip3R1_2_3 L xv xi p1 p2 p3)
  | _, _ => none

end Gen
end Poly
end HelFEM
