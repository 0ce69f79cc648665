import Verif.Model.XC
import Mathlib.Analysis.Calculus.FDeriv.Basic
import Mathlib.Analysis.Calculus.FDeriv.Mul
import Mathlib.Analysis.Normed.Module.FiniteDimension

/-!
# The density and the exchange-correlation energy at a point of space

Independent of the way the code computes them: functions, gradients in an orthonormal frame and Laplacians at a point, the density of a density matrix by the product rule, and what
it means for the derivatives returned by libxc to belong to its energy.
-/

namespace HelFEM
namespace XC
namespace Spec

open Matrix

/-- The basis functions `idx` near one quadrature point: weight, values, components of the gradient, Laplacians. -/
structure Point (d : Nat) where
  idx : List Nat
  w : ℝ
  f : Fin idx.length → ℂ
  g : Fin d → Fin idx.length → ℂ
  l : Fin idx.length → ℂ

variable {d : Nat}

/-- `∑ D_ij Re(u_i v_j*)` -/
noncomputable def form (D : Nat → Nat → ℝ) (idx : List Nat) (u v : Fin idx.length → ℂ) : ℝ :=
  ∑ a, ∑ b, D idx[a] idx[b] * (u a * (starRingEnd ℂ) (v b)).re

/-- the density `∑ D_ij Re(f_i f_j*)` -/
noncomputable def rho (D : Nat → Nat → ℝ) (x : Point d) : ℝ := form D x.idx x.f x.f

/-- its gradient, by the product rule -/
noncomputable def grad (D : Nat → Nat → ℝ) (x : Point d) (c : Fin d) : ℝ := form D x.idx (x.g c) x.f + form D x.idx x.f (x.g c)

/-- the kinetic energy density `1/2 ∑ D_ij ∇f_i·∇f_j*` -/
noncomputable def tau (D : Nat → Nat → ℝ) (x : Point d) : ℝ := 1 / 2 * ∑ c, form D x.idx (x.g c) (x.g c)

/-- the Laplacian of the density, by the product rule -/
noncomputable def lapl (D : Nat → Nat → ℝ) (x : Point d) : ℝ := form D x.idx x.l x.f + 2 * ∑ c, form D x.idx (x.g c) (x.g c) + form D x.idx x.f x.l

/-- density, squared gradient, Laplacian, kinetic energy density -/
noncomputable def input (D : Nat → Nat → ℝ) (x : Point d) : In1 := ⟨rho D x, ∑ c, grad D x c * grad D x c, lapl D x, tau D x⟩

/-- the same for two spin densities -/
noncomputable def inputs (A B : Nat → Nat → ℝ) (x : Point d) : In2 :=
  ⟨rho A x, rho B x, ∑ c, grad A x c * grad A x c, ∑ c, grad A x c * grad B x c, ∑ c, grad B x c * grad B x c, lapl A x, lapl B x, tau A x, tau B x⟩

/-- Which quantities a functional depends on. -/
structure Uses where
  grad : Bool
  tau : Bool
  lapl : Bool

/-- by its description -/
def uses (i : Info) : Uses :=
  match i.family with
  | .lda => ⟨false, false, false⟩
  | .gga => ⟨true, false, false⟩
  | .mgga => ⟨i.needsTau || i.needsLapl, i.needsTau, i.needsLapl⟩
  | .other => ⟨false, false, false⟩

/-- what the functional sees of the density -/
def seen (u : Uses) (x : In1) : In1 := ⟨x.rho, if u.grad then x.sigma else 0, if u.lapl then x.lapl else 0, if u.tau then x.tau else 0⟩

/-- what a polarized functional sees of the density -/
def seen2 (u : Uses) (x : In2) : In2 :=
  ⟨x.rhoa, x.rhob, if u.grad then x.saa else 0, if u.grad then x.sab else 0, if u.grad then x.sbb else 0, if u.lapl then x.la else 0, if u.lapl then x.lb else 0,
    if u.tau then x.ta else 0, if u.tau then x.tb else 0⟩

variable (env : Libxc)

/-- libxc knows the functional, its family is supported, and it gets the right number of parameters. An identifier that is not positive stands for no functional. -/
def Usable (id : Int) (pars : List ℝ) : Prop := 0 < id → ∃ i, env.info id = some i ∧ i.family ≠ .other ∧ (pars = [] ∨ pars.length = i.nPar)

/-- energy per particle -/
noncomputable def exc (id : Int) (pars : List ℝ) (thr : ℝ) (x : In1) : ℝ :=
  if 0 < id then
    match env.info id with
    | none => 0
    | some i => if i.hasExc then (env.unpol id pars thr (seen (uses i) x)).exc else 0
  else 0

/-- energy per particle, polarized -/
noncomputable def exc2 (id : Int) (pars : List ℝ) (thr : ℝ) (x : In2) : ℝ :=
  if 0 < id then
    match env.info id with
    | none => 0
    | some i => if i.hasExc then (env.pol id pars thr (seen2 (uses i) x)).exc else 0
  else 0

/-- The functional has an energy, and at `x` the derivatives it returns are those of the energy density `ρ ε`, in the quantities it depends on. -/
def Consistent (id : Int) (pars : List ℝ) (thr : ℝ) (x : In1) : Prop :=
  0 < id → ∀ i, env.info id = some i → i.hasExc = true ∧
    HasFDerivAt (fun y : Fin 4 → ℝ => y 0 * (env.unpol id pars thr (seen (uses i) ⟨y 0, y 1, y 2, y 3⟩)).exc)
      (let o := env.unpol id pars thr (seen (uses i) x)
       o.vrho • ContinuousLinearMap.proj (R := ℝ) (φ := fun _ : Fin 4 => ℝ) 0 + (if (uses i).grad then o.vsigma else 0) • ContinuousLinearMap.proj (R := ℝ) (φ := fun _ : Fin 4 => ℝ) 1 +
        (if (uses i).lapl then o.vlapl else 0) • ContinuousLinearMap.proj (R := ℝ) (φ := fun _ : Fin 4 => ℝ) 2 +
        (if (uses i).tau then o.vtau else 0) • ContinuousLinearMap.proj (R := ℝ) (φ := fun _ : Fin 4 => ℝ) 3)
      ![x.rho, x.sigma, x.lapl, x.tau]

/-- The same for a polarized functional: the energy density is `(ρ_α + ρ_β) ε`. -/
def Consistent2 (id : Int) (pars : List ℝ) (thr : ℝ) (x : In2) : Prop :=
  0 < id → ∀ i, env.info id = some i → i.hasExc = true ∧
    HasFDerivAt (fun y : Fin 9 → ℝ => (y 0 + y 1) * (env.pol id pars thr (seen2 (uses i) ⟨y 0, y 1, y 2, y 3, y 4, y 5, y 6, y 7, y 8⟩)).exc)
      (let o := env.pol id pars thr (seen2 (uses i) x)
       let g : ℝ := if (uses i).grad then 1 else 0
       let l : ℝ := if (uses i).lapl then 1 else 0
       let t : ℝ := if (uses i).tau then 1 else 0
       ∑ k : Fin 9, (![o.va, o.vb, g * o.vsaa, g * o.vsab, g * o.vsbb, l * o.vla, l * o.vlb, t * o.vta, t * o.vtb] k) •
        ContinuousLinearMap.proj (R := ℝ) (φ := fun _ : Fin 9 => ℝ) k)
      ![x.rhoa, x.rhob, x.saa, x.sab, x.sbb, x.la, x.lb, x.ta, x.tb]

/-- the exchange-correlation energy of the density matrix `D`, by quadrature over the points -/
noncomputable def energy (x c : Int) (xp cp : List ℝ) (thr : ℝ) (pts : List (Point d)) (D : Nat → Nat → ℝ) : ℝ :=
  (pts.map fun p => p.w * (rho D p * (exc env x xp thr (input D p) + exc env c cp thr (input D p)))).sum

/-- the exchange-correlation energy of two spin densities -/
noncomputable def energy2 (x c : Int) (xp cp : List ℝ) (thr : ℝ) (pts : List (Point d)) (A B : Nat → Nat → ℝ) : ℝ :=
  (pts.map fun p => p.w * ((rho A p + rho B p) * (exc2 env x xp thr (inputs A B p) + exc2 env c cp thr (inputs A B p)))).sum

/-- the number of electrons by quadrature -/
noncomputable def electrons (pts : List (Point d)) (D : Nat → Nat → ℝ) : ℝ := (pts.map fun p => p.w * rho D p).sum

/-- the kinetic energy by quadrature -/
noncomputable def kinetic (pts : List (Point d)) (D : Nat → Nat → ℝ) : ℝ := (pts.map fun p => p.w * tau D p).sum

/-- a symmetric `n × n` matrix -/
def Symm (n : Nat) (P : Mat ℝ) : Prop := P.rows = n ∧ P.cols = n ∧ ∀ i < n, ∀ j < n, P.get i j = P.get j i

/-- `P + t D` -/
noncomputable def line (P D : Mat ℝ) (t : ℝ) : Mat ℝ := ⟨P.rows, P.cols, fun i j => P.get i j + t * D.get i j⟩

/-- `∑ H_ij D_ij` over the `n × n` entries -/
noncomputable def pairing (n : Nat) (H D : Mat ℝ) : ℝ := ∑ i ∈ Finset.range n, ∑ j ∈ Finset.range n, H.get i j * D.get i j

end Spec
end XC
end HelFEM
