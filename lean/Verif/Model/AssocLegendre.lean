import Verif.Model.Mat
import Mathlib.Analysis.SpecialFunctions.Log.Basic
import Mathlib.Analysis.SpecialFunctions.Trigonometric.Basic
import Mathlib.Analysis.SpecialFunctions.Sqrt

/-!
# Associated Legendre tables

Models `src/legendre/Legendre.h:58-378` with exact real arithmetic. The output buffer is a `Vect ℝ`; a read or write outside it is `ub`.
-/

namespace HelFEM
namespace ALeg

/-- a `for` loop counting up from `lo`, `k` iterations -/
def forUp {σ : Type _} (f : Nat → σ → Res σ) : Nat → Nat → σ → Res σ
  | _, 0, s => .ok s
  | lo, k + 1, s => do
    let s' ← f lo s
    forUp f (lo + 1) k s'

/-- a `for` loop counting down from `hi` to 1 -/
def forDown {σ : Type _} (f : Nat → σ → Res σ) : Nat → σ → Res σ
  | 0, s => .ok s
  | l + 1, s => do
    let s' ← f (l + 1) s
    forDown f l s'

/-- `if(c) a;` for a statement `a` that changes the table `Q` -/
def whenDo (c : Prop) [Decidable c] (a : Res (Vect ℝ)) (Q : Vect ℝ) : Res (Vect ℝ) := if c then a else .ok Q

/-- `P[i]` -/
def rd (P : Vect ℝ) (i : Nat) : Res ℝ := if i < P.size then .ok (P.get i) else .ub

/-- `P[i] = v` -/
def wr (P : Vect ℝ) (i : Nat) (v : ℝ) : Res (Vect ℝ) := if i < P.size then .ok ⟨P.size, fun j => if j = i then v else P.get j⟩ else .ub

/-- `idx`, `Legendre.h:58-61` -/
def idx (l m lmax : Nat) : Nat := m * (lmax + 1) + l

/-- `sign_factor`, `Legendre.h:75-78` -/
noncomputable def signFactor (x : ℝ) : ℝ := if |x| ≤ 1 then 1 else -1

/-- `sqrt_clamped`, `Legendre.h:81-85` -/
noncomputable def sqrtClamped (y : ℝ) : ℝ := Real.sqrt (max y 0)

/-- `q00`, `Legendre.h:89-91` -/
noncomputable def q00 (x : ℝ) : ℝ := 1 / 2 * (Real.log |x + 1| - Real.log |x - 1|)

/-- `seed_plm`, `Legendre.h:98-110` -/
noncomputable def seedPlm (lmax mmax : Nat) (x : ℝ) (P : Vect ℝ) : Res (Vect ℝ) := do
  let s := signFactor x
  let w := sqrtClamped (s * (1 - x * x))
  let P ← wr P (idx 0 0 lmax) 1
  let P ← forUp (fun m P => do wr P (idx m m lmax) (-s * (2 * m - 1 : Int) * w * (← rd P (idx (m - 1) (m - 1) lmax)))) 1 (min mmax lmax) P
  -- `sub_max = min(mmax, lmax - 1)` is -1 when lmax is 0
  forUp (fun m P => do wr P (idx (m + 1) m lmax) ((2 * m + 1 : Int) * x * (← rd P (idx m m lmax)))) 0 (min (mmax + 1) lmax) P

/-- `recur_plm_in_l`, `Legendre.h:114-122` -/
noncomputable def recurPlmInL (lmax m : Nat) (x : ℝ) (P : Vect ℝ) : Res (Vect ℝ) :=
  forUp (fun l P => do
    let a : ℝ := (2 * l + 1 : Int) * x
    let b : ℝ := (l + m : Int)
    let c : ℝ := (l + 1 - m : Int)
    wr P (idx (l + 1) m lmax) ((a * (← rd P (idx l m lmax)) - b * (← rd P (idx (l - 1) m lmax))) / c)) (m + 1) (lmax - (m + 1)) P

/-- `compute_plm`, `Legendre.h:125-132`, into a buffer of the given size -/
noncomputable def computePlm (lmax mmax : Nat) (x : ℝ) (out : Vect ℝ) : Res (Vect ℝ) := do
  let P ← if (lmax + 1) * (mmax + 1) ≤ out.size then .ok (⟨out.size, fun i => if i < (lmax + 1) * (mmax + 1) then 0 else out.get i⟩ : Vect ℝ) else .ub
  let P ← seedPlm lmax mmax x P
  forUp (fun m P => recurPlmInL lmax m x P) 0 (min mmax lmax + 1) P

/-- `seed_qlm`, `Legendre.h:136-157`. The infinite entries of the branch `w == 0` have no real value; the branch is not reached from `qlm`. -/
noncomputable def seedQlm (lmax mmax : Nat) (x : ℝ) (Q : Vect ℝ) : Res (Vect ℝ) := do
  let s := signFactor x
  let w := sqrtClamped (s * (1 - x * x))
  let Q00 := q00 x
  let Q ← wr Q (idx 0 0 lmax) Q00
  let Q ← whenDo (1 ≤ lmax) (wr Q (idx 1 0 lmax) (x * Q00 - 1)) Q
  if 1 ≤ mmax then
    if w = 0 then .ub
    else do
      let Q ← wr Q (idx 0 1 lmax) (-1 / w)
      whenDo (1 ≤ lmax) (wr Q (idx 1 1 lmax) (-s * w * (Q00 + x / (1 - x * x)))) Q
  else .ok Q

/-- state of the loop in `cf_legendre_ratio` -/
structure CF where
  f : ℝ
  C : ℝ
  D : ℝ
  a : ℝ
  n : Nat

/-- one iteration, `Legendre.h:174-186`: the value if converged, else the next state -/
noncomputable def cfStep (tiny tol x : ℝ) (m : Nat) (s : CF) : ℝ ⊕ CF :=
  let b := (2 * s.n + 1 : Int) * x / (s.n + m : Int)
  let D := b + s.a * s.D
  let D := if D = 0 then tiny else D
  let C := b + s.a / s.C
  let C := if C = 0 then tiny else C
  let D := 1 / D
  let delta := C * D
  let f := s.f * delta
  if |delta - 1| < tol then .inl f
  else .inr ⟨f, C, D, -((s.n - m + 1 : Int) : ℝ) / (s.n + m : Int), s.n + 1⟩

/-- the loop, at most `k` more iterations -/
noncomputable def cfLoop (tiny tol x : ℝ) (m : Nat) : Nat → CF → Res ℝ
  | 0, _ => .throw .runtimeError
  | k + 1, s =>
    match cfStep tiny tol x m s with
    | .inl f => .ok f
    | .inr s' => cfLoop tiny tol x m k s'

/-- `cf_legendre_ratio`, `Legendre.h:162-193` -/
noncomputable def cfLegendreRatio (tiny tol : ℝ) (maxIter : Nat) (x : ℝ) (lmax m : Nat) : Res ℝ :=
  cfLoop tiny tol x m maxIter ⟨tiny, tiny, 0, 1, lmax⟩

/-- `recur_qlm_in_l_up`, `Legendre.h:197-205` -/
noncomputable def recurQlmInLUp (lmax m : Nat) (x : ℝ) (Q : Vect ℝ) : Res (Vect ℝ) :=
  forUp (fun l Q => do
    let a : ℝ := (2 * l + 1 : Int) * x
    let b : ℝ := (l + m : Int)
    let c : ℝ := (l + 1 - m : Int)
    wr Q (idx (l + 1) m lmax) ((a * (← rd Q (idx l m lmax)) - b * (← rd Q (idx (l - 1) m lmax))) / c)) 1 (lmax - 1) Q

/-- `recur_qlm_in_l_down`, `Legendre.h:210-218` -/
noncomputable def recurQlmInLDown (lmax m : Nat) (x : ℝ) (Q : Vect ℝ) : Res (Vect ℝ) :=
  forDown (fun l Q => do
    let a : ℝ := (2 * l + 1 : Int) * x
    let b : ℝ := (l + 1 - m : Int)
    let c : ℝ := (l + m : Int)
    wr Q (idx (l - 1) m lmax) ((a * (← rd Q (idx l m lmax)) - b * (← rd Q (idx (l + 1) m lmax))) / c)) (lmax - 1) Q

/-- `recur_qlm_in_m_up`, `Legendre.h:222-239` -/
noncomputable def recurQlmInMUp (lmax mmax : Nat) (x : ℝ) (Q : Vect ℝ) : Res (Vect ℝ) :=
  if mmax < 2 then .ok Q
  else
    let s := signFactor x
    let w := sqrtClamped (s * (1 - x * x))
    if w = 0 then .throw .domainError
    else forUp (fun l Q => forUp (fun m Q => do
        wr Q (idx l (m + 1) lmax) (-((2 * m : Int) : ℝ) * x / w * (← rd Q (idx l m lmax)) - s * (l + m : Int) * (l - m + 1 : Int) * (← rd Q (idx l (m - 1) lmax))))
      1 (mmax - 1) Q) 0 (lmax + 1) Q

/-- `compute_qlm_upward`, `Legendre.h:244-248` -/
noncomputable def computeQlmUpward (lmax mmax : Nat) (x : ℝ) (Q : Vect ℝ) : Res (Vect ℝ) := do
  let Q ← whenDo (2 ≤ lmax) (recurQlmInLUp lmax 0 x Q) Q
  let Q ← whenDo (1 ≤ mmax ∧ 2 ≤ lmax) (recurQlmInLUp lmax 1 x Q) Q
  recurQlmInMUp lmax mmax x Q

/-- the arrays `P, W, Pp, Wp` of `compute_qlm_christoffel`, `Legendre.h:263-283`, entry by entry -/
noncomputable def chrP (x : ℝ) : Nat → ℝ
  | 0 => 1
  | 1 => x
  | n + 2 => ((2 * (n + 1) + 1 : Int) * x * chrP x (n + 1) - (n + 1 : Int) * chrP x n) * (1 / (n + 1 + 1 : Int))

/-- `W` -/
noncomputable def chrW (x : ℝ) : Nat → ℝ
  | 0 => 0
  | 1 => 1
  | n + 2 => ((2 * (n + 1) + 1 : Int) * x * chrW x (n + 1) - (n + 1 : Int) * chrW x n) * (1 / (n + 1 + 1 : Int))

/-- `Pp` -/
noncomputable def chrPp (x : ℝ) : Nat → ℝ
  | 0 => 0
  | 1 => 1
  | n + 2 => ((2 * (n + 1) + 1 : Int) * (chrP x (n + 1) + x * chrPp x (n + 1)) - (n + 1 : Int) * chrPp x n) * (1 / (n + 1 + 1 : Int))

/-- `Wp` -/
noncomputable def chrWp (x : ℝ) : Nat → ℝ
  | 0 => 0
  | 1 => 0
  | n + 2 => ((2 * (n + 1) + 1 : Int) * (chrW x (n + 1) + x * chrWp x (n + 1)) - (n + 1 : Int) * chrWp x n) * (1 / (n + 1 + 1 : Int))

/-- the column `m = 1` of `compute_qlm_christoffel`, `Legendre.h:293-297` -/
noncomputable def chrColumn1 (lmax : Nat) (x : ℝ) (Q : Vect ℝ) : Res (Vect ℝ) := do
  let w := Real.sqrt (max (x * x - 1) 0)
  let Q ← wr Q (idx 0 1 lmax) (-1 / w)
  forUp (fun l Q => wr Q (idx l 1 lmax) (w * chrPp x l * q00 x - chrP x l / w - w * chrWp x l)) 1 lmax Q

/-- `compute_qlm_christoffel`, `Legendre.h:262-302` -/
noncomputable def computeQlmChristoffel (lmax mmax : Nat) (x : ℝ) (Q : Vect ℝ) : Res (Vect ℝ) := do
  let Q00 := q00 x
  let Q ← forUp (fun l Q => wr Q (idx l 0 lmax) (chrP x l * Q00 - chrW x l)) 0 (lmax + 1) Q
  let Q ← whenDo (1 ≤ mmax) (chrColumn1 lmax x Q) Q
  recurQlmInMUp lmax mmax x Q

/-- one scaled column of `compute_qlm_miller`, `Legendre.h:310-317` and `318-326`; `top` is the wanted value at `l = 0` -/
noncomputable def millerColumn (tiny tol : ℝ) (maxIter lmax m : Nat) (x top : ℝ) (Q : Vect ℝ) : Res (Vect ℝ) := do
  let ratio ← cfLegendreRatio tiny tol maxIter x lmax m
  let Q ← wr Q (idx (lmax - 1) m lmax) tiny
  let Q ← wr Q (idx lmax m lmax) (tiny * ratio)
  let Q ← recurQlmInLDown lmax m x Q
  let scale := top / (← rd Q (idx 0 m lmax))
  forUp (fun l Q => do wr Q (idx l m lmax) ((← rd Q (idx l m lmax)) * scale)) 0 (lmax + 1) Q

/-- `compute_qlm_miller`, `Legendre.h:307-328` -/
noncomputable def computeQlmMiller (tiny tol : ℝ) (maxIter lmax mmax : Nat) (x : ℝ) (Q : Vect ℝ) : Res (Vect ℝ) := do
  let Q ← whenDo (1 ≤ lmax) (millerColumn tiny tol maxIter lmax 0 x (q00 x) Q) Q
  let Q ← whenDo (1 ≤ mmax ∧ 1 ≤ lmax) (millerColumn tiny tol maxIter lmax 1 x (-1 / sqrtClamped (signFactor x * (1 - x * x))) Q) Q
  recurQlmInMUp lmax mmax x Q

/-- `plm`, `Legendre.h:335-340` -/
noncomputable def plm (lmax mmax : Int) (x : ℝ) (out : Vect ℝ) : Res (Vect ℝ) :=
  if lmax < 0 ∨ mmax < 0 then .throw .invalidArgument else computePlm lmax.toNat mmax.toNat x out

/-- the comparison `|x| < christoffel_xmax`, `Legendre.h:370-374`; `christoffel_xmax` is infinite for `lmax = 0` -/
noncomputable def nearCut (lmax : Nat) (x : ℝ) : Prop := lmax = 0 ∨ |x| < Real.cosh (Real.log 1000 / (2 * lmax : Int))

open Classical in
/-- `qlm`, `Legendre.h:343-378`; `tiny`, `tol` and `maxIter` are the constants of the continued fraction -/
noncomputable def qlm (tiny tol : ℝ) (maxIter : Nat) (lmax mmax : Int) (x : ℝ) (out : Vect ℝ) : Res (Vect ℝ) :=
  if lmax < 0 ∨ mmax < 0 then .throw .invalidArgument
  else if |x| = 1 then .throw .domainError
  else
    let lmax := lmax.toNat
    let mmax := mmax.toNat
    if (lmax + 1) * (mmax + 1) ≤ out.size then do
      let Q ← seedQlm lmax mmax x ⟨out.size, fun i => if i < (lmax + 1) * (mmax + 1) then 0 else out.get i⟩
      if |x| ≤ 1 then computeQlmUpward lmax mmax x Q
      else if nearCut lmax x then computeQlmChristoffel lmax mmax x Q
      else computeQlmMiller tiny tol maxIter lmax mmax x Q
    else .ub

end ALeg
end HelFEM
