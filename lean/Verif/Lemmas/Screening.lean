import Verif.Model.Screening
import Verif.Spec.Screening
import Verif.Props.Radii
import Mathlib.Analysis.Calculus.FDeriv.Add
import Mathlib.Analysis.Calculus.Deriv.Comp
import Mathlib.Analysis.Calculus.Deriv.Pi
import Mathlib.Analysis.Calculus.FDeriv.Pi
import Mathlib.Analysis.Normed.Operator.Basic

/-! Lemmas for the exchange-correlation screening. -/

namespace HelFEM
namespace Screening
open Grid Poly Finset Polynomial Spec Assembly AtomDB Radii Filter Topology

/-- the kind of a functional; none at all counts as not gradient-dependent -/
def flag (L : Lib) (id : Int) : Res Bool := if id ≤ 0 then .ok false else kind L id

/-- libxc's input at densities `q 0`, `q 1` and products of gradients `q 2`, `q 3`, `q 4` -/
def in5 (q : Fin 5 → ℝ) : XC.In2 := ⟨q 0, q 1, q 2, q 3, q 4, 0, 0, 0, 0⟩

/-- input of a functional of the densities alone -/
def in2 (q : Fin 5 → ℝ) : XC.In2 := ⟨q 0, q 1, 0, 0, 0, 0, 0, 0, 0⟩

/-- the first derivatives libxc returns -/
def outputs (v : XC.Out2) : Fin 5 → ℝ := ![v.va, v.vb, v.vsaa, v.vsab, v.vsbb]

/-- derivatives of functional `id` by the densities and by the products of the gradients -/
noncomputable def first (L : Lib) (id : Int) (q : Fin 5 → ℝ) : Fin 5 → ℝ :=
  if id ≤ 0 then 0
  else if flag L id = .ok true then outputs (L.xc.pol id [] L.thr (in5 q))
  else ![(L.xc.pol id [] L.thr (in2 q)).va, (L.xc.pol id [] L.thr (in2 q)).vb, 0, 0, 0]

/-- its second derivatives -/
noncomputable def second (L : Lib) (id : Int) (q : Fin 5 → ℝ) : Second :=
  if flag L id = .ok true then L.fxc id (in5 q) else ⟨0, 0⟩

/-- the derivatives of the derivative by `σaa`, `σab`, `σbb` (`k = 0, 1, 2`), in libxc's storage -/
def hess (w : Second) (k : Fin 3) : Fin 5 → ℝ :=
  ![![w.rs 0, w.rs 3, w.ss 0, w.ss 1, w.ss 2], ![w.rs 1, w.rs 4, w.ss 1, w.ss 3, w.ss 4], ![w.rs 2, w.rs 5, w.ss 2, w.ss 4, w.ss 5]] k

/-- `Σ c_i dq_i` -/
noncomputable def lin (c : Fin 5 → ℝ) : (Fin 5 → ℝ) →L[ℝ] ℝ := ∑ i, c i • ContinuousLinearMap.proj (R := ℝ) (φ := fun _ : Fin 5 => ℝ) i

theorem lin_apply (c v : Fin 5 → ℝ) : lin c v = ∑ i, c i * v i := by simp [lin]

theorem lin_zero : lin 0 = 0 := by ext; simp [lin_apply]

theorem lin_add (c d : Fin 5 → ℝ) : lin (c + d) = lin c + lin d := by
  ext v
  simp [lin_apply, add_mul, Finset.sum_add_distrib]

/-- libxc's contract at the point `q`: what `xc_gga_fxc` returns are the derivatives of what `xc_gga_vxc` returns -/
def Consistent (L : Lib) (id : Int) (q : Fin 5 → ℝ) : Prop :=
  ∀ k : Fin 3, HasFDerivAt (fun q => outputs (L.xc.pol id [] L.thr (in5 q)) (k.natAdd 2)) (lin (hess (L.fxc id (in5 q)) k)) q

theorem first_hasFDerivAt (L : Lib) (id : Int) (q : Fin 5 → ℝ) (h : flag L id = .ok true → Consistent L id q) (k : Fin 3) :
    HasFDerivAt (fun q => first L id q (k.natAdd 2)) (lin (hess (second L id q) k)) q := by
  by_cases h0 : id ≤ 0
  · have e1 : ∀ q, first L id q = 0 := fun q => by unfold first; rw [if_pos h0]
    have e2 : flag L id ≠ .ok true := by unfold flag; rw [if_pos h0]; simp
    have e3 : hess (second L id q) k = 0 := by
      unfold second; rw [if_neg e2]; funext i; fin_cases k <;> fin_cases i <;> rfl
    simp only [e1, e3, lin_zero]
    exact hasFDerivAt_const _ _
  · by_cases h1 : flag L id = .ok true
    · have e1 : ∀ q, first L id q = outputs (L.xc.pol id [] L.thr (in5 q)) := fun q => by unfold first; rw [if_neg h0, if_pos h1]
      have e2 : second L id q = L.fxc id (in5 q) := by unfold second; rw [if_pos h1]
      simp only [e1, e2]
      exact h h1 k
    · have e1 : ∀ q, first L id q (k.natAdd 2) = 0 := fun q => by
        unfold first; rw [if_neg h0, if_neg h1]; fin_cases k <;> rfl
      have e3 : hess (second L id q) k = 0 := by
        unfold second; rw [if_neg h1]; funext i; fin_cases k <;> fin_cases i <;> rfl
      simp only [e1, e3, lin_zero]
      exact hasFDerivAt_const _ _

/-! ### What is computed at a point -/

/-- the point as libxc sees it -/
def Point.q (p : Point) : Fin 5 → ℝ := ![p.ra, p.rb, p.ga * p.ga, p.ga * p.gb, p.gb * p.gb]

/-- everything one functional contributes -/
noncomputable def part (L : Lib) (p : Point) (id : Int) : Acc :=
  ⟨first L id p.q 0, first L id p.q 1, first L id p.q 2, first L id p.q 3, first L id p.q 4, (second L id p.q).rs, (second L id p.q).ss, decide (flag L id = .ok true)⟩

def Acc.add (a b : Acc) : Acc :=
  ⟨a.va + b.va, a.vb + b.vb, a.saa + b.saa, a.sab + b.sab, a.sbb + b.sbb, fun i => a.rs i + b.rs i, fun i => a.ss i + b.ss i, a.gga || b.gga⟩

theorem ggaIn_q (p : Point) : ggaIn p = in5 p.q := rfl
theorem ldaIn_q (p : Point) : ldaIn p = in2 p.q := rfl

theorem addFunctional_eq (L : Lib) (p : Point) (a : Acc) (id : Int) (b : Bool) (hb : flag L id = .ok b) :
    addFunctional L p a id = .ok (a.add (part L p id)) := by
  unfold addFunctional part first second
  by_cases h0 : id ≤ 0
  · have e2 : flag L id ≠ .ok true := by unfold flag; rw [if_pos h0]; simp
    rw [if_pos h0, if_pos h0, if_neg e2]
    simp [Acc.add, e2]
  · have hk : kind L id = .ok b := by unfold flag at hb; rwa [if_neg h0] at hb
    rw [if_neg h0, if_neg h0, hk, hb, Res.ok_bind, ggaIn_q, ldaIn_q]
    cases b
    · simp [Acc.add]
    · simp [Acc.add, outputs]

/-- without a gradient-dependent functional there is no correction -/
theorem correction_zero (L : Lib) (p : Point) (r : ℝ) (x c : Int) (hx : flag L x ≠ .ok true) (hc : flag L c ≠ .ok true) :
    correction r p ((part L p x).add (part L p c)) = (0, 0) := by
  have z : ∀ id, flag L id ≠ .ok true → first L id p.q 2 = 0 ∧ first L id p.q 3 = 0 ∧ first L id p.q 4 = 0 := by
    intro id h
    unfold first
    by_cases h0 : id ≤ 0
    · rw [if_pos h0]; exact ⟨rfl, rfl, rfl⟩
    · rw [if_neg h0, if_neg h]; exact ⟨rfl, rfl, rfl⟩
  obtain ⟨x1, x2, x3⟩ := z x hx
  obtain ⟨c1, c2, c3⟩ := z c hc
  simp [correction, part, Acc.add, second, hx, hc, x1, x2, x3, c1, c2, c3]

theorem potentials_eq (L : Lib) (x c : Int) (r : ℝ) (p : Point) (bx bc : Bool) (hx : flag L x = .ok bx) (hc : flag L c = .ok bc) :
    potentials L x c r p false = .ok (first L x p.q 0 + first L c p.q 0 - (correction r p ((part L p x).add (part L p c))).1,
      first L x p.q 1 + first L c p.q 1 - (correction r p ((part L p x).add (part L p c))).2) := by
  unfold potentials
  rw [addFunctional_eq L p _ x bx hx, Res.ok_bind, addFunctional_eq L p _ c bc hc, Res.ok_bind]
  have e0 : (Acc.zero.add (part L p x)).add (part L p c) = (part L p x).add (part L p c) := by
    simp [Acc.add, Acc.zero]
  rw [e0]
  by_cases hg : flag L x = .ok true ∨ flag L c = .ok true
  · have : ((part L p x).add (part L p c)).gga = true := by
      simp only [Acc.add, part, Bool.or_eq_true, decide_eq_true_eq]; exact hg
    simp only [this, Bool.not_false, Bool.and_true, if_true]
    rfl
  · rw [not_or] at hg
    have : ((part L p x).add (part L p c)).gga = false := by
      simp only [Acc.add, part, Bool.or_eq_false_iff, decide_eq_false_iff_not]; exact hg
    rw [correction_zero L p r x c hg.1 hg.2]
    simp only [this, Bool.false_and, Bool.false_eq_true, if_false, sub_zero]
    rfl

/-! ### The functional derivative along the radius -/

/-- densities and products of their derivatives at radius `s` -/
noncomputable def along (ρa ρb : ℝ → ℝ) (s : ℝ) : Fin 5 → ℝ :=
  ![ρa s, ρb s, deriv ρa s * deriv ρa s, deriv ρa s * deriv ρb s, deriv ρb s * deriv ρb s]

theorem along_hasDerivAt (ρa ρb : ℝ → ℝ) (r ha hb : ℝ) (da : DifferentiableAt ℝ ρa r) (db : DifferentiableAt ℝ ρb r)
    (ea : HasDerivAt (deriv ρa) ha r) (eb : HasDerivAt (deriv ρb) hb r) :
    HasDerivAt (along ρa ρb) ![deriv ρa r, deriv ρb r, 2 * deriv ρa r * ha, ha * deriv ρb r + deriv ρa r * hb, 2 * deriv ρb r * hb] r := by
  rw [hasDerivAt_pi]
  intro i
  fin_cases i
  · exact da.hasDerivAt
  · exact db.hasDerivAt
  · exact (ea.mul ea).congr_deriv (by simp; ring)
  · exact (ea.mul eb).congr_deriv (by simp)
  · exact (eb.mul eb).congr_deriv (by simp; ring)

/-- sum of both functionals -/
noncomputable def total (L : Lib) (x c : Int) (q : Fin 5 → ℝ) (k : Fin 5) : ℝ := first L x q k + first L c q k

theorem total_hasDerivAt (L : Lib) (x c : Int) (ρa ρb : ℝ → ℝ) (r ha hb : ℝ) (da : DifferentiableAt ℝ ρa r) (db : DifferentiableAt ℝ ρb r)
    (ea : HasDerivAt (deriv ρa) ha r) (eb : HasDerivAt (deriv ρb) hb r)
    (hx : flag L x = .ok true → Consistent L x (along ρa ρb r)) (hc : flag L c = .ok true → Consistent L c (along ρa ρb r)) (k : Fin 3) :
    HasDerivAt (fun s => total L x c (along ρa ρb s) (k.natAdd 2))
      (lin (hess (second L x (along ρa ρb r)) k + hess (second L c (along ρa ρb r)) k)
        ![deriv ρa r, deriv ρb r, 2 * deriv ρa r * ha, ha * deriv ρb r + deriv ρa r * hb, 2 * deriv ρb r * hb]) r := by
  have h := (first_hasFDerivAt L x _ hx k).add (first_hasFDerivAt L c _ hc k)
  rw [← lin_add] at h
  exact h.comp_hasDerivAt r (along_hasDerivAt ρa ρb r ha hb da db ea eb)

theorem divergence (A : ℝ → ℝ) (A' r : ℝ) (hr : r ≠ 0) (h : HasDerivAt A A' r) : deriv (fun s => s ^ 2 * A s) r / r ^ 2 = A' + 2 / r * A r := by
  have := ((hasDerivAt_pow 2 r).mul h).deriv
  have e : (fun s => s ^ 2 * A s) = (fun s => s ^ 2) * A := rfl
  rw [e, this]
  field_simp
  norm_num
  ring

/-- the code's formula against the functional derivative; the code has `k = 2 / r` -/
theorem potentials_spec (L : Lib) (x c : Int) (r : ℝ) (hr : 0 < r) (p : Point) (bx bc : Bool) (hx : flag L x = .ok bx) (hc : flag L c = .ok bc)
    (ρa ρb : ℝ → ℝ) (ha hb : ℝ) (da : DifferentiableAt ℝ ρa r) (db : DifferentiableAt ℝ ρb r)
    (ea : HasDerivAt (deriv ρa) ha r) (eb : HasDerivAt (deriv ρb) hb r)
    (kx : flag L x = .ok true → Consistent L x (along ρa ρb r)) (kc : flag L c = .ok true → Consistent L c (along ρa ρb r))
    (k : ℝ) (hp : p = ⟨ρa r, ρb r, deriv ρa r, deriv ρb r, ha + k * deriv ρa r, hb + k * deriv ρb r⟩) :
    let F := fun k s => total L x c (along ρa ρb s) k
    let S := fun i => (second L x (along ρa ρb r)).ss i + (second L c (along ρa ρb r)).ss i
    potentials L x c r p false = .ok
      (xcPotential (F 0) (F 2) (F 3) ρa ρb r - xcExcess k (deriv ρa r) (deriv ρb r) ha hb (F 2 r) (F 3 r) (S 0) (S 1) (S 2) (S 3) (S 4),
       xcPotential (F 1) (F 4) (F 3) ρb ρa r - xcExcess k (deriv ρb r) (deriv ρa r) hb ha (F 4 r) (F 3 r) (S 5) (S 4) (S 2) (S 3) (S 1)) := by
  intro F S
  have hq : p.q = along ρa ρb r := by rw [hp]; rfl
  rw [potentials_eq L x c r p bx bc hx hc]
  have T := total_hasDerivAt L x c ρa ρb r ha hb da db ea eb kx kc
  have T0 := T 0
  have T1 := T 1
  have T2 := T 2
  have hr' := hr.ne'
  have Da := ((T0.const_mul 2).mul ea).add (T1.mul eb)
  have Db := ((T2.const_mul 2).mul eb).add (T1.mul ea)
  have da' := divergence _ _ r hr' Da
  have db' := divergence _ _ r hr' Db
  have xa : xcPotential (F 0) (F 2) (F 3) ρa ρb r = _ := congrArg (fun v => F 0 r - v) da'
  have xb : xcPotential (F 1) (F 4) (F 3) ρb ρa r = _ := congrArg (fun v => F 1 r - v) db'
  rw [xa, xb]
  congr 1
  refine Prod.ext ?_ ?_
  · simp only [correction, part, Acc.add, hq, F, S, total, lin_apply, Fin.sum_univ_five, hess, xcExcess]
    rw [hp]
    simp
    field_simp
    ring
  · simp only [correction, part, Acc.add, hq, F, S, total, lin_apply, Fin.sum_univ_five, hess, xcExcess]
    rw [hp]
    simp
    field_simp
    ring

end Screening
end HelFEM
