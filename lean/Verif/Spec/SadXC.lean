import Verif.Spec.XC
import Verif.Model.SadXC

/-!
# The spherically averaged atom at a radius

Shell `l` has the functions `f_i(r) Y_lm`, occupied evenly over `m`. The density is spherical, so its gradient is radial and its Laplacian is `ρ'' + 2ρ'/r`; the averaged kinetic energy density
of the shell has the radial part `f_i' f_j'` and the centrifugal part `l(l+1) f_i f_j / r²`.
-/

namespace HelFEM
namespace XC
namespace Spec

/-- The radial functions `idx` at a quadrature point: radius, weight, values, first and second derivatives. -/
structure SPoint where
  idx : List Nat
  r : ℝ
  w : ℝ
  f : Fin idx.length → ℝ
  g : Fin idx.length → ℝ
  h : Fin idx.length → ℝ

/-- `∑ D_ij u_i v_j` -/
def sform (D : Nat → Nat → ℝ) (idx : List Nat) (u v : Fin idx.length → ℝ) : ℝ := ∑ a, ∑ b, D idx[a] idx[b] * (u a * v b)

/-- Density matrices of the shells `l = 0, …, L-1`. -/
structure Shells where
  L : Nat
  D : Nat → Nat → Nat → ℝ

/-- the density -/
def Shells.rho (S : Shells) (x : SPoint) : ℝ := ∑ l ∈ Finset.range S.L, sform (S.D l) x.idx x.f x.f

/-- its first derivative, by the product rule -/
def Shells.drho (S : Shells) (x : SPoint) : ℝ := ∑ l ∈ Finset.range S.L, (sform (S.D l) x.idx x.g x.f + sform (S.D l) x.idx x.f x.g)

/-- its second derivative, by the product rule -/
def Shells.ddrho (S : Shells) (x : SPoint) : ℝ := ∑ l ∈ Finset.range S.L, (sform (S.D l) x.idx x.h x.f + 2 * sform (S.D l) x.idx x.g x.g + sform (S.D l) x.idx x.f x.h)

/-- its Laplacian -/
noncomputable def Shells.lapl (S : Shells) (x : SPoint) : ℝ := S.ddrho x + 2 / x.r * S.drho x

/-- the kinetic energy density -/
noncomputable def Shells.tau (S : Shells) (x : SPoint) : ℝ :=
  1 / 2 * ∑ l ∈ Finset.range S.L, (sform (S.D l) x.idx x.g x.g + (l : ℝ) * (l + 1) / x.r ^ 2 * sform (S.D l) x.idx x.f x.f)

/-- what the functionals see -/
noncomputable def Shells.input (S : Shells) (x : SPoint) : In1 := ⟨S.rho x, S.drho x ^ 2, S.lapl x, S.tau x⟩

/-- the same for two spin densities -/
noncomputable def sinputs (A B : Shells) (x : SPoint) : In2 :=
  ⟨A.rho x, B.rho x, A.drho x ^ 2, A.drho x * B.drho x, B.drho x ^ 2, A.lapl x, B.lapl x, A.tau x, B.tau x⟩

/-- the points of an element: the volume element of a sphere is `4π r² dr` -/
noncomputable def sadPoint (e : SadElem) (p : Fin e.npt) : SPoint := ⟨e.idx, e.r p, 4 * Real.pi * e.r p ^ 2 * e.wrad p, e.bf p, e.df p, e.lf p⟩

/-- all of them -/
noncomputable def sadPoints (e : SadElem) : List SPoint := (List.finRange e.npt).map (sadPoint e)

variable (env : Libxc)

/-- the exchange-correlation energy by quadrature -/
noncomputable def senergy (x c : Int) (xp cp : List ℝ) (thr : ℝ) (pts : List SPoint) (S : Shells) : ℝ :=
  (pts.map fun p => p.w * (S.rho p * (exc env x xp thr (S.input p) + exc env c cp thr (S.input p)))).sum

/-- the exchange-correlation energy of two spin densities -/
noncomputable def senergy2 (x c : Int) (xp cp : List ℝ) (thr : ℝ) (pts : List SPoint) (A B : Shells) : ℝ :=
  (pts.map fun p => p.w * ((A.rho p + B.rho p) * (exc2 env x xp thr (sinputs A B p) + exc2 env c cp thr (sinputs A B p)))).sum

/-- the number of electrons by quadrature -/
noncomputable def selectrons (pts : List SPoint) (S : Shells) : ℝ := (pts.map fun p => p.w * S.rho p).sum

/-- the shells of a cube -/
def shells (P : Cube) : Shells := ⟨P.size, fun l => (P.slice l).get⟩

/-- symmetric `m × m` matrices, at least one -/
def CubeSymm (m : Nat) (P : Cube) : Prop := 0 < P.size ∧ ∀ l < P.size, Symm m (P.slice l)

/-- the matrices are positive semidefinite -/
def CubePSD (m : Nat) (P : Cube) : Prop := ∀ l < P.size, ∀ v : Nat → ℝ, 0 ≤ ∑ i ∈ Finset.range m, ∑ j ∈ Finset.range m, (P.slice l).get i j * (v i * v j)

/-- `P + t D`, shell by shell -/
noncomputable def cubeLine (P D : Cube) (t : ℝ) : Cube := ⟨P.size, fun l => line (P.slice l) (D.slice l) t⟩

/-- `∑_l ∑ H^l_ij D^l_ij` -/
noncomputable def cubePairing (m : Nat) (H D : Cube) : ℝ := ∑ l ∈ Finset.range H.size, pairing m (H.slice l) (D.slice l)

end Spec
end XC
end HelFEM
