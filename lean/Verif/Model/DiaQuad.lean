import Verif.Model.Quadrature
import Verif.Model.AssocLegendre
import Verif.Model.Assembly
import Verif.Model.DiaJK

/-!
# Radial two-electron quadrature of the diatomic program

Models `src/diatomic/quadrature.h:31-80`, `src/diatomic/quadrature.cpp:23-256` and `src/diatomic/basis.cpp:97-200, 352-394, 410-440, 1334-1380` over the real
numbers. Basis functions enter through their values. `twoe_integral` gets the values of the Legendre cache as functions `P`, `Q`; that a cache returns the
same number whatever it was asked before is a theorem about `Cache`.
-/

namespace HelFEM
namespace DiaQuad
open Finset Quad

/-! ### the Legendre cache -/

/-- constants of the continued fraction in `qlm` -/
structure Consts where
  tiny : ℝ
  tol : ℝ
  maxIter : Nat

/-- `MLegendreCache`, `quadrature.h:48-50`; the hash maps are lists of key and value -/
structure Cache where
  Mabs : Int
  Lmax : Int
  Ptab : List (ℝ × List ℝ)
  Qtab : List (ℝ × List ℝ)

/-- the constructor and `reset`, `quadrature.h:74, 79-81` -/
def Cache.new (Mabs Lmax : Int) : Cache := ⟨Mabs, Lmax, [], []⟩

/-- one recurrence pass and the column of `|M|`, `quadrature.h:57-69`. Numbers that are not normal do not occur in exact arithmetic. -/
noncomputable def column (kc : Consts) (Mabs Lmax : Int) (wantP : Bool) (x : ℝ) : Res (List ℝ) :=
  let full : Vect ℝ := ⟨((Lmax + 1) * (Mabs + 1)).toNat, fun _ => 0⟩
  (if wantP then ALeg.plm Lmax Mabs x full else ALeg.qlm kc.tiny kc.tol kc.maxIter Lmax Mabs x full) >>= fun t =>
  (List.range (Lmax + 1).toNat).mapM fun L => ALeg.rd t (L + Mabs.toNat * (Lmax + 1).toNat)

open Classical in
/-- `fetch`, `quadrature.h:52-71` -/
noncomputable def Cache.fetch (kc : Consts) (c : Cache) (wantP : Bool) (x : ℝ) : Res (List ℝ × Cache) :=
  match (if wantP then c.Ptab else c.Qtab).find? (fun e => e.1 = x) with
  | some e => .ok (e.2, c)
  | none => column kc c.Mabs c.Lmax wantP x >>= fun col =>
      .ok (col, if wantP then { c with Ptab := (x, col) :: c.Ptab } else { c with Qtab := (x, col) :: c.Qtab })

/-- `col[L]` -/
def pickL (col : List ℝ) (L : Int) : Res ℝ := if L < 0 then .ub else readAt col L.toNat

/-- `P(L, chmu)`, `quadrature.h:83` -/
noncomputable def Cache.P (kc : Consts) (c : Cache) (L : Int) (x : ℝ) : Res (ℝ × Cache) :=
  c.fetch kc true x >>= fun r => pickL r.1 L >>= fun v => .ok (v, r.2)

open Classical in
/-- `Q(L, chmu)`, `quadrature.h:84` -/
noncomputable def Cache.Q (kc : Consts) (c : Cache) (L : Int) (x : ℝ) : Res (ℝ × Cache) :=
  if x = 1 then .ok (0, c) else c.fetch kc false x >>= fun r => pickL r.1 L >>= fun v => .ok (v, r.2)

/-! ### in-element integrals -/

/-- One element: its ends in `μ`, the number of its functions and their values `bf h i x` at the reference coordinate `x`, for half-length `h` of the
element (`eval_dnf(x, 0, h)`). -/
structure Elem where
  mumin : ℝ
  mumax : ℝ
  nbf : Nat
  bf : ℝ → Nat → ℝ → ℝ

/-- midpoint and half-length of an interval -/
noncomputable def midOf (lo hi : ℝ) : ℝ := 1 / 2 * (hi + lo)
noncomputable def lenOf (lo hi : ℝ) : ℝ := 1 / 2 * (hi - lo)

/-- `sinh μ cosh^k μ`, with the power only for `k != 0` -/
noncomputable def hyper (k : Nat) (mu : ℝ) : ℝ := if k ≠ 0 then Real.sinh mu * Real.cosh mu ^ k else Real.sinh mu

/-- entry `i` of a vector -/
def at' (v : List ℝ) (i : Nat) : ℝ := v.getD i 0

/-- `twoe_inner_integral_wrk`, `quadrature.cpp:34-69`: entry `c` of the product matrix flattened by columns. The half-length of the element is not zero. -/
noncomputable def innerWrk (E : Elem) (P : ℝ → ℝ) (lo hi : ℝ) (l : Nat) (x w : List ℝ) (c : Nat) : ℝ :=
  ∑ q ∈ range x.length,
    let mu := midOf lo hi + lenOf lo hi * at' x q
    let wp := lenOf lo hi * at' w q * hyper l mu * P (Real.cosh mu)
    let xpoly := (mu - midOf E.mumin E.mumax) / lenOf E.mumin E.mumax
    E.bf (lenOf E.mumin E.mumax) (c % E.nbf) xpoly * wp * E.bf (lenOf E.mumin E.mumax) (c / E.nbf) xpoly

/-- `mu(ip)`, `quadrature.cpp:77, 98-101` -/
noncomputable def muAt (E : Elem) (x : List ℝ) (ip : Nat) : ℝ := midOf E.mumin E.mumax + lenOf E.mumin E.mumax * at' x ip

/-- `twoe_inner_integral`, row `ip`, `quadrature.cpp:71-87` -/
noncomputable def inner (E : Elem) (P : ℝ → ℝ) (l : Nat) (x w : List ℝ) : Nat → Nat → ℝ
  | 0 => innerWrk E P E.mumin (muAt E x 0) l x w
  | ip + 1 => fun c => inner E P l x w ip c + innerWrk E P (muAt E x ip) (muAt E x (ip + 1)) l x w c

/-- `twoe_integral_wrk`, `quadrature.cpp:89-128`. An empty rule makes `mu(0)` an access out of range. -/
noncomputable def halfDirect (E : Elem) (P Q : ℝ → ℝ) (k l : Nat) (x w : List ℝ) : Res (Mat ℝ) :=
  if x.length ≠ w.length then .throw .logicError
  else if x.length = 0 then .ub
  else .ok ⟨E.nbf * E.nbf, E.nbf * E.nbf, fun r c => ∑ ip ∈ range x.length,
    let h := lenOf E.mumin E.mumax
    let wp := h * at' w ip * hyper k (muAt E x ip) * Q (Real.cosh (muAt E x ip))
    (E.bf h (r / E.nbf) (at' x ip) * E.bf h (r % E.nbf) (at' x ip)) * wp * inner E P l x w ip c⟩

/-- `twoe_integral(mumin, mumax, k, l, ...)`, `quadrature.cpp:130-132` -/
noncomputable def twoeDirect (E : Elem) (P Q : ℝ → ℝ) (k l : Nat) (x w : List ℝ) : Res (Mat ℝ) :=
  halfDirect E P Q k l x w >>= fun A => halfDirect E P Q l k x w >>= fun B => A.add B.transpose

/-- `TwoElectronElement::Subinterval`, `quadrature.h:125-132` -/
structure Sub where
  mulen : ℝ
  chmu : Nat → ℝ
  shmu : Nat → ℝ
  bf : Nat → Nat → ℝ

/-- `TwoElectronElement`, `quadrature.h:112-134` -/
structure TwoElectron where
  nq : Nat
  nbf : Nat
  wx : Nat → ℝ
  mulen : ℝ
  chmu : Nat → ℝ
  shmu : Nat → ℝ
  bfprod : Nat → Nat → ℝ
  sub : Nat → Sub

/-- one subinterval, `quadrature.cpp:165-184` -/
noncomputable def subInterval (E : Elem) (x : List ℝ) (ip : Nat) : Sub :=
  let submin := if ip = 0 then E.mumin else muAt E x (ip - 1)
  let submax := muAt E x ip
  let submu := fun i => midOf submin submax + lenOf submin submax * at' x i
  ⟨lenOf submin submax, fun i => Real.cosh (submu i), fun i => Real.sinh (submu i),
    fun i f => E.bf (lenOf E.mumin E.mumax) f ((submu i - midOf E.mumin E.mumax) / lenOf E.mumin E.mumax)⟩

/-- `twoe_element`, `quadrature.cpp:134-187` -/
noncomputable def twoeElement (E : Elem) (x w : List ℝ) : Res TwoElectron :=
  if x.length ≠ w.length then .throw .logicError
  else .ok ⟨x.length, E.nbf, at' w, lenOf E.mumin E.mumax, fun i => Real.cosh (muAt E x i), fun i => Real.sinh (muAt E x i),
    fun i p => E.bf (lenOf E.mumin E.mumax) (p / E.nbf) (at' x i) * E.bf (lenOf E.mumin E.mumax) (p % E.nbf) (at' x i), subInterval E x⟩

/-- weight with `sinh` and a power of `cosh`, `quadrature.cpp:213-216, 240-243` -/
noncomputable def weight (k : Nat) (h w sh ch : ℝ) : ℝ := if k ≠ 0 then h * w * sh * ch ^ k else h * w * sh

/-- `acc` after subinterval `ip` starting from zero, `quadrature.cpp:208-233` -/
noncomputable def innerAcc (el : TwoElectron) (P : ℝ → ℝ) (l : Nat) : Nat → Nat → ℝ
  | 0 => fun _ => 0
  | ip + 1 => fun c =>
    let si := el.sub ip
    innerAcc el P l ip c + ∑ q ∈ range el.nq, si.bf q (c % el.nbf) * (weight l si.mulen (el.wx q) (si.shmu q) (si.chmu q) * P (si.chmu q)) * si.bf q (c / el.nbf)

/-- `outer(k, l, out)`, `quadrature.cpp:236-252` -/
noncomputable def outer (el : TwoElectron) (P Q : ℝ → ℝ) (k l : Nat) : Mat ℝ :=
  ⟨el.nbf * el.nbf, el.nbf * el.nbf, fun r c => ∑ ip ∈ range el.nq,
    el.bfprod ip r * (weight k el.mulen (el.wx ip) (el.shmu ip) (el.chmu ip) * Q (el.chmu ip)) * innerAcc el P l (ip + 1) c⟩

/-- `twoe_integral(el, k, l, ...)`, `quadrature.cpp:189-257` -/
noncomputable def twoeCached (el : TwoElectron) (P Q : ℝ → ℝ) (k l : Nat) : Res (Mat ℝ) := (outer el P Q k l).add (outer el P Q l k).transpose

/-- the integrals at order `n`: `RadialBasis::twoe_element(iel, n)` and `twoe_integral`, `basis.cpp:426-440` -/
noncomputable def twoeAt (E : Elem) (P Q : ℝ → ℝ) (k l n : Nat) : Res (Mat ℝ) :=
  twoeElement E ((chebyshev n).map Prod.fst) ((chebyshev n).map Prod.snd) >>= fun el => twoeCached el P Q k l

/-! ### integrals over one element -/

/-- `fem.matrix_element(iel, false, false, x, w, f)` for a finite weight function `f`, `FiniteElementBasis.cpp:441-479` with the whole element -/
noncomputable def single (E : Elem) (f : ℝ → ℝ) (rule : List (ℝ × ℝ)) : Mat ℝ :=
  ⟨E.nbf, E.nbf, fun a b => (rule.map fun p =>
    E.bf (lenOf E.mumin E.mumax) a p.1 * (p.2 * lenOf E.mumin E.mumax * f (midOf E.mumin E.mumax + lenOf E.mumin E.mumax * p.1)) * E.bf (lenOf E.mumin E.mumax) b p.1).sum⟩

/-- the weight functions of `Plm_integral` and `Qlm_integral`, `basis.cpp:353-358, 378-383` -/
noncomputable def legWeight (k : Nat) (F : ℝ → ℝ) (mu : ℝ) : ℝ := hyper k mu * F (Real.cosh mu)

/-! ### adaptive order -/

section
variable {K : Type _} [Field K] [LinearOrder K]

/-- stopping tests of `converge_block`, `basis.cpp:151-179`; a difference that is not a number (`none`) fails every test -/
def blockStop (eps sqrteps : K) (diff : Option K) (scale : K) (prevdiff : Option K) : Bool :=
  let tol := 8 * eps
  Assembly.leN diff (tol * (scale + tol)) ||
  (Assembly.leN diff (sqrteps * (scale + tol)) &&
    (Assembly.leN diff (256 * eps * (scale + tol)) || (Assembly.geN prevdiff 0 && Assembly.gtN diff (prevdiff.map (1 / 2 * ·)))))

/-- what `converge_block` delivers: the block, `*nconv`, and the orders probed -/
structure Conv (A : Type _) where
  block : A
  nconv : Nat
  orders : List Nat

/-- the loop of `converge_block`, `basis.cpp:145-199`. `seed` is the block at the first order, `n0` that order. `none` when the fuel does not suffice. -/
def blockLoop {A : Type _} (eps sqrteps : K) (diff : A → A → Option K) (scale : A → K) (probe : Nat → Res A) (nmax n0 : Nat) (fallback : Bool) :
    (fuel : Nat) → (prev : Option (A × A)) → (prevdiff : Option K) → (n : Nat) → (orders : List Nat) → Res (Option (Conv A))
  | 0, _, _, _, _ => .ok none
  | fuel + 1, prev, pd, n, orders =>
    probe n >>= fun cur => match prev with
    | some (seed, p) =>
      if blockStop eps sqrteps (diff cur p) (scale cur) pd then .ok (some ⟨cur, n, orders ++ [n]⟩)
      else if nmax ≤ n then .ok (some (if fallback then ⟨seed, n0, orders ++ [n]⟩ else ⟨cur, n, orders ++ [n]⟩))
      else blockLoop eps sqrteps diff scale probe nmax n0 fallback fuel (some (seed, cur)) (diff cur p) (min (2 * n) nmax) (orders ++ [n])
    | none =>
      if nmax ≤ n then .ok (some (if fallback then ⟨cur, n0, orders ++ [n]⟩ else ⟨cur, n, orders ++ [n]⟩))
      else blockLoop eps sqrteps diff scale probe nmax n0 fallback fuel (some (cur, cur)) pd (min (2 * n) nmax) (orders ++ [n])

/-- `converge_block`, `basis.cpp:126-201`, with `twoe_nmax = 512` as a parameter. The warning at the cap is not modelled. -/
def convergeBlock {A : Type _} (eps sqrteps : K) (diff : A → A → Option K) (scale : A → K) (probe : Nat → Res A) (nmax nstart : Nat) (fallback : Bool) : Res (Option (Conv A)) :=
  blockLoop eps sqrteps diff scale probe nmax (max nstart 2) fallback (nmax + 1) none (some (-1)) (max nstart 2) []

end

/-- `converge_block` for a matrix; the loop always ends (theorem), so `none` does not occur -/
noncomputable def convergeMat (eps sqrteps : ℝ) (probe : Nat → Res (Mat ℝ)) (nstart : Nat) (fallback : Bool) : Res (Conv (Mat ℝ)) :=
  convergeBlock eps sqrteps Assembly.maxDiff Assembly.maxAbs probe 512 nstart fallback >>= fun r => match r with
    | some c => .ok c
    | none => .ub

/-- `Plm_integral` and `Qlm_integral`, `basis.cpp:352-394`; `nquad` is the number of points requested -/
noncomputable def disjoint (eps sqrteps : ℝ) (E : Elem) (nquad k : Nat) (F : ℝ → ℝ) : Res (Mat ℝ) :=
  convergeMat eps sqrteps (fun n => .ok (single E (legWeight k F) (chebyshev n))) (max nquad 5) true >>= fun c => .ok c.block

/-- the hardest multipole, `basis.cpp:1353-1358` -/
def hardest : List (Int × Int) → Res (Int × Int)
  | [] => .ub
  | p :: t => .ok ((p :: t).foldl (fun b e => if b.1 < e.1 ∨ (e.1 = b.1 ∧ b.2 < e.2) then e else b) p)

/-- `converged_twoe_order`, `basis.cpp:1334-1380`; `P L M`, `Q L M` are the values of a fresh cache for `|M|` and `L` -/
noncomputable def twoeOrder (eps sqrteps : ℝ) (E : Elem) (nquad : Nat) (tab : List (Int × Int)) (P Q : Int → Int → ℝ → ℝ) : Res Nat :=
  let nstart := if nquad < 5 then 5 else nquad
  let nstart := if 512 < nstart then 512 else nstart
  if tab = [] then .ok nstart
  else hardest tab >>= fun h => convergeMat eps sqrteps (fun n =>
    twoeAt E (P h.1 h.2) (Q h.1 h.2) 0 0 n >>= fun T00 => twoeAt E (P h.1 h.2) (Q h.1 h.2) 0 2 n >>= fun T02 => twoeAt E (P h.1 h.2) (Q h.1 h.2) 2 2 n >>= fun T22 =>
    DiaJK.kernel T00 T02 T22) nstart false >>= fun c => .ok c.nconv

/-- The radial integrals that `compute_tei` asks for. A cache holds the multipoles up to its bound; a higher one is an access out of range. -/
noncomputable def prims (eps sqrteps : ℝ) (els : List Elem) (nquad : Nat) (tab : List (Int × Int)) (P Q : Int → Int → ℝ → ℝ) : DiaJK.Prims where
  P := fun k iel L _ leg => readAt els iel >>= fun E => if L < 0 ∨ leg.2 < L then .ub else disjoint eps sqrteps E nquad k (P L leg.1)
  Q := fun k iel L _ leg => readAt els iel >>= fun E => if L < 0 ∨ leg.2 < L then .ub else disjoint eps sqrteps E nquad k (Q L leg.1)
  twoe := fun k l iel L _ leg => readAt els iel >>= fun E => if L < 0 ∨ leg.2 < L then .ub else
    twoeOrder eps sqrteps E nquad tab P Q >>= fun n => twoeAt E (P L leg.1) (Q L leg.1) k l n

end DiaQuad
end HelFEM
