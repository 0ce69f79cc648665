import Verif.Model.DrvSCF
import Verif.Spec.Density
import Verif.Spec.PadXC
import Mathlib.Analysis.Calculus.Deriv.Basic

/-!
# The energy of an atom or a diatomic molecule

The energy of given spin density matrices in static fields, written down without reference to Fock matrices: kinetic energy, attraction by the nuclei, external potentials, the electrostatic
energy of the electrons, exact exchange, the exchange-correlation functional by quadrature, and the energy of the nuclei. `(ij|kl)` stands for `∫∫ i*(1) j(1) k*(2) l(2) v(r₁₂)`.
-/

namespace HelFEM
namespace Drv
namespace Spec

open Matrix Finset

/-- the density matrix of a block's orbitals, in the orthonormal functions of the block -/
noncomputable def orthDensity {n : Nat} (o : Dens.Orbs n) : Matrix (Fin n) (Fin n) ℝ := o.C * diagonal o.occ * o.Cᵀ

/-- a block's density matrix `D` at the entries `i, j` of the basis functions `idx` -/
noncomputable def place (idx : List Nat) (B : Matrix (Fin idx.length) (Fin idx.length) ℝ) (i j : Nat) : ℝ := ∑ a, ∑ b, if i = idx[a] ∧ j = idx[b] then B a b else 0

/-- A block's density over the whole basis. A block that stands also for its mirror image has half of its electrons in each. -/
noncomputable def spreadBlock (b : Dens.Block) (mirror : List Nat) (D : Matrix (Fin b.idx.length) (Fin b.idx.length) ℝ) (i j : Nat) : ℝ :=
  if mirror = [] then place b.idx (b.X * D * b.Xᵀ) i j
  else 1 / 2 * place b.idx (b.X * D * b.Xᵀ) i j + 1 / 2 * (if h : mirror.length = b.idx.length then place mirror ((b.X * D * b.Xᵀ).submatrix (Fin.cast h) (Fin.cast h)) i j else 0)

/-- density matrices of all blocks -/
abbrev Blocks (s : Setup) := (k : Fin s.nsym) → Matrix (Fin (s.block k).idx.length) (Fin (s.block k).idx.length) ℝ
/-- orbitals of all blocks -/
abbrev Orbitals (s : Setup) := (k : Fin s.nsym) → Dens.Orbs (s.block k).idx.length

/-- the density matrix over the whole basis -/
noncomputable def spread (s : Setup) (D : Blocks s) (i j : Nat) : ℝ := ∑ k, spreadBlock (s.block k) (s.mirror k) (D k) i j

/-- of orbitals and occupations -/
noncomputable def densityOf (s : Setup) (o : Orbitals s) : Nat → Nat → ℝ := spread s fun k => orthDensity (o k)

/-- `∑ A_ij P_ij`, the expectation value of a one-electron operator -/
noncomputable def mean (N : Nat) (A P : Nat → Nat → ℝ) : ℝ := ∑ i ∈ range N, ∑ j ∈ range N, A i j * P i j

/-- kinetic energy, attraction by the nuclei, electric field and its gradient, magnetic field (orbital part), confinement -/
noncomputable def oneBody (s : Setup) (P : Nat → Nat → ℝ) : ℝ :=
  mean s.N s.T P + mean s.N s.Vnuc P + (s.Ez * mean s.N s.dip P + s.Qzz / 3 * mean s.N s.quad P) + mean s.N s.Vmag P + if s.iconf = 0 then 0 else mean s.N s.Vconf P

/-- `½ ∑ (ij|kl) P_ij P_kl` -/
noncomputable def coulombEnergy (N : Nat) (q : Nat → Nat → Nat → Nat → ℝ) (P : Nat → Nat → ℝ) : ℝ :=
  1 / 2 * ∑ i ∈ range N, ∑ j ∈ range N, ∑ k ∈ range N, ∑ l ∈ range N, q i j k l * P i j * P k l

/-- `-½ ∑ (ij|kl) P_il P_jk`, the exchange energy of one spin -/
noncomputable def exchangeEnergy (N : Nat) (x : Nat → Nat → Nat → Nat → ℝ) (P : Nat → Nat → ℝ) : ℝ :=
  -(1 / 2 * ∑ i ∈ range N, ∑ j ∈ range N, ∑ k ∈ range N, ∑ l ∈ range N, x i j k l * P i l * P j k)

/-- The theory a run computes with: the two-electron integrals `q`, those of full and of short range exchange, the functional's implementation, the points of the quadrature, and where the
grid's functions are in the basis (`none` for functions the basis lacks). -/
structure Theory where
  q : Nat → Nat → Nat → Nat → ℝ
  full : Nat → Nat → Nat → Nat → ℝ
  short : Nat → Nat → Nat → Nat → ℝ
  env : XC.Libxc
  pts : List (XC.Spec.Point 3)
  pos : Nat → Option Nat

/-- a density matrix over the grid's functions -/
def onGrid (θ : Theory) (P : Nat → Nat → ℝ) (a b : Nat) : ℝ :=
  match θ.pos a, θ.pos b with
  | some i, some j => P i j
  | _, _ => 0

/-- integrals of the exchange the functional asks for -/
noncomputable def hybrid (s : Setup) (θ : Theory) (i j k l : Nat) : ℝ := s.kfrac * θ.full i j k l + s.kshort * θ.short i j k l

/-- The energy of the nuclei: among themselves and in the electric field. -/
noncomputable def nuclei (s : Setup) : ℝ := s.Enucr + if s.Ez = 0 ∧ s.Qzz = 0 then 0 else s.Enucfield

/-- the energy of a point charge `Z` at height `z` on the axis in the field; an electron has `Ez z + Qzz/3 (3z² - r²)/2` -/
noncomputable def fieldEnergy (Ez Qzz : ℝ) (q : ℝ × ℝ) : ℝ := -q.1 * (Ez * q.2 + Qzz / 3 * q.2 ^ 2)

/-- the electrostatic energy of two point charges on the axis -/
noncomputable def repulsion (p q : ℝ × ℝ) : ℝ := p.1 * q.1 / |p.2 - q.2|

/-- The energy of a spin-compensated state: half of the density in each spin. -/
noncomputable def energyR (s : Setup) (θ : Theory) (P : Nat → Nat → ℝ) : ℝ :=
  oneBody s P + coulombEnergy s.N θ.q P + 2 * exchangeEnergy s.N (hybrid s θ) (fun i j => P i j / 2) +
    XC.Spec.energy θ.env s.fn.x s.fn.c s.fn.xp s.fn.cp s.fn.thr θ.pts (onGrid θ P) + nuclei s

/-- The energy of two spin densities; the field `Bz` lowers alpha and raises beta spins by `Bz/2`. -/
noncomputable def energyU (s : Setup) (θ : Theory) (A B : Nat → Nat → ℝ) : ℝ :=
  oneBody s (fun i j => A i j + B i j) - s.Bz / 2 * (mean s.N s.S A - mean s.N s.S B) + coulombEnergy s.N θ.q (fun i j => A i j + B i j) +
    (exchangeEnergy s.N (hybrid s θ) A + exchangeEnergy s.N (hybrid s θ) B) +
    XC.Spec.energy2 θ.env s.fn.x s.fn.c s.fn.xp s.fn.cp s.fn.thr θ.pts (onGrid θ A) (onGrid θ B) + nuclei s

/-- The functional's derivatives are those of its energy, at every point of the grid, for the density `P`. -/
def SmoothR (s : Setup) (θ : Theory) (P : Nat → Nat → ℝ) : Prop :=
  ∀ x ∈ θ.pts, XC.Spec.Consistent θ.env s.fn.x s.fn.xp s.fn.thr (XC.Spec.input (onGrid θ P) x) ∧ XC.Spec.Consistent θ.env s.fn.c s.fn.cp s.fn.thr (XC.Spec.input (onGrid θ P) x)

/-- The same for two spin densities. -/
def SmoothU (s : Setup) (θ : Theory) (A B : Nat → Nat → ℝ) : Prop :=
  ∀ x ∈ θ.pts, XC.Spec.Consistent2 θ.env s.fn.x s.fn.xp s.fn.thr (XC.Spec.inputs (onGrid θ A) (onGrid θ B) x) ∧
    XC.Spec.Consistent2 θ.env s.fn.c s.fn.cp s.fn.thr (XC.Spec.inputs (onGrid θ A) (onGrid θ B) x)

/-- a matrix of the basis -/
def Square (N : Nat) (M : Mat ℝ) : Prop := M.rows = N ∧ M.cols = N

/-- The routine returns, for the admissible densities, the exchange matrix of these integrals. `Kept` densities are those of which the screening drops nothing. -/
def ExchangeIs (N : Nat) (run : Mat ℝ → Res (Mat ℝ)) (Adm Kept : (Nat → Nat → ℝ) → Prop) (x : Nat → Nat → Nat → Nat → ℝ) : Prop :=
  (∀ P, Adm P → Kept P → ∃ K, run (mat N P) = .ok K ∧ Square N K ∧ ∀ j < N, ∀ k < N, K.get j k = -∑ i ∈ range N, ∑ l ∈ range N, x i j k l * P i l) ∧
  ∀ i < N, ∀ j < N, ∀ k < N, ∀ l < N, x i j k l = x j i l k

/-- The routines of basis and grid compute with this theory for the admissible densities `Adm`; those that are not used need not. -/
structure Represents (s : Setup) (e : Engine) (θ : Theory) (Adm Kept : (Nat → Nat → ℝ) → Prop) : Prop where
  coulomb : ∀ P, Adm P → ∃ J, e.coulomb (mat s.N P) = .ok J ∧ Square s.N J ∧ ∀ i < s.N, ∀ j < s.N, J.get i j = ∑ k ∈ range s.N, ∑ l ∈ range s.N, θ.q i j k l * P k l
  coulomb_swap : ∀ i < s.N, ∀ j < s.N, ∀ k < s.N, ∀ l < s.N, θ.q i j k l = θ.q k l i j
  full : s.kfrac ≠ 0 → ExchangeIs s.N e.exchange Adm Kept θ.full
  short : s.kshort ≠ 0 → ExchangeIs s.N e.rsExchange Adm Kept θ.short
  xc1 : s.restricted = true → ∀ P, Adm P → ∃ H, e.xc1 s.fn (mat s.N P) = .ok (H, XC.Spec.energy θ.env s.fn.x s.fn.c s.fn.xp s.fn.cp s.fn.thr θ.pts (onGrid θ P)) ∧ Square s.N H ∧
    ∀ t0 (Q : ℝ → Nat → Nat → ℝ) (Q' : Nat → Nat → ℝ), (∀ i j, HasDerivAt (fun t => Q t i j) (Q' i j) t0) → Q t0 = P → Adm Q' →
      SmoothR s θ P →
      HasDerivAt (fun t => XC.Spec.energy θ.env s.fn.x s.fn.c s.fn.xp s.fn.cp s.fn.thr θ.pts (onGrid θ (Q t))) (mean s.N H.get Q') t0
  xc2 : s.restricted = false → ∀ A B, Adm A → Adm B →
    ∃ Ha Hb, e.xc2 s.fn (mat s.N A) (mat s.N B) (0 < s.nelb) = .ok (Ha, Hb, XC.Spec.energy2 θ.env s.fn.x s.fn.c s.fn.xp s.fn.cp s.fn.thr θ.pts (onGrid θ A) (onGrid θ B)) ∧
    Square s.N Ha ∧ Square s.N Hb ∧
    ∀ t0 (Q R : ℝ → Nat → Nat → ℝ) (Q' R' : Nat → Nat → ℝ), (∀ i j, HasDerivAt (fun t => Q t i j) (Q' i j) t0) → (∀ i j, HasDerivAt (fun t => R t i j) (R' i j) t0) → Q t0 = A → R t0 = B →
      Adm Q' → Adm R' → (s.nelb ≤ 0 → ∀ i j, R' i j = 0) → SmoothU s θ A B →
      HasDerivAt (fun t => XC.Spec.energy2 θ.env s.fn.x s.fn.c s.fn.xp s.fn.cp s.fn.thr θ.pts (onGrid θ (Q t)) (onGrid θ (R t))) (mean s.N Ha.get Q' + mean s.N Hb.get R') t0

/-- The matrix has the same entries in a block and in the mirror image the block stands for. -/
def MirrorInv (s : Setup) (F : Nat → Nat → ℝ) : Prop :=
  ∀ k, s.mirror k ≠ [] → ∀ a b, ∀ (_ : a < (s.mirror k).length) (_ : b < (s.mirror k).length) (_ : a < (s.block k).idx.length) (_ : b < (s.block k).idx.length),
    F (s.mirror k)[a] (s.mirror k)[b] = F (s.block k).idx[a] (s.block k).idx[b]

/-- The matrices the routines return for admissible densities have the symmetry `V`; those that are not used need not. -/
structure Keeps (s : Setup) (e : Engine) (Adm V : (Nat → Nat → ℝ) → Prop) : Prop where
  coulomb : ∀ P J, Adm P → e.coulomb (mat s.N P) = .ok J → V J.get
  full : s.kfrac ≠ 0 → ∀ P K, Adm P → e.exchange (mat s.N P) = .ok K → V K.get
  short : s.kshort ≠ 0 → ∀ P K, Adm P → e.rsExchange (mat s.N P) = .ok K → V K.get
  xc1 : s.restricted = true → ∀ P r, Adm P → e.xc1 s.fn (mat s.N P) = .ok r → V r.1.get
  xc2 : s.restricted = false → ∀ A B r, Adm A → Adm B → e.xc2 s.fn (mat s.N A) (mat s.N B) (0 < s.nelb) = .ok r → V r.1.get ∧ V r.2.1.get

/-- The symmetry `V` is one of all matrices the Hamiltonian is made of, those of one electron included. -/
structure Inherits (s : Setup) (e : Engine) (Adm V : (Nat → Nat → ℝ) → Prop) : Prop extends Keeps s e Adm V where
  S : V s.S
  T : V s.T
  Vnuc : V s.Vnuc
  dip : V s.dip
  quad : V s.quad
  Vmag : V s.Vmag
  Vconf : V s.Vconf

/-- No matrix of the Hamiltonian tells a block from its mirror image. -/
def Mirrored (s : Setup) (e : Engine) (Adm : (Nat → Nat → ℝ) → Prop) : Prop := Inherits s e Adm (MirrorInv s)

/-- a symmetric matrix of the basis -/
def SymmOn (N : Nat) (F : Nat → Nat → ℝ) : Prop := ∀ i < N, ∀ j < N, F i j = F j i

/-- All matrices of the Hamiltonian are symmetric. -/
def SymmetricRun (s : Setup) (e : Engine) (Adm : (Nat → Nat → ℝ) → Prop) : Prop := Inherits s e Adm (SymmOn s.N)

/-- The blocks are sets of basis functions, the mirror images too, and a mirror image has as many functions as its block. -/
structure Layout (s : Setup) : Prop where
  within : ∀ k, (s.block k).Within s.N
  mirror : ∀ k, ∀ i ∈ s.mirror k, i < s.N
  length : ∀ k, s.mirror k ≠ [] → (s.mirror k).length = (s.block k).idx.length

/-- The densities of the run: all that have the symmetry of the blocks. -/
structure Admissible (s : Setup) (Adm : (Nat → Nat → ℝ) → Prop) : Prop where
  spread : ∀ D : Blocks s, (∀ k, (D k)ᵀ = D k) → Adm (spread s D)
  add : ∀ A B, Adm A → Adm B → Adm fun i j => A i j + B i j
  half : ∀ A, Adm A → Adm fun i j => A i j / 2

/-- There is no magnetic Hamiltonian without a magnetic field. -/
def NoField (s : Setup) : Prop := s.Bz = 0 → ∀ i < s.N, ∀ j < s.N, s.Vmag i j = 0

/-- The orthonormal functions of every block are orthonormal. -/
def Orthonormal (s : Setup) : Prop := ∀ k, (s.block k).Xᵀ * (Matrix.of fun a b => s.S (s.block k).idx[a] (s.block k).idx[b]) * (s.block k).X = 1

/-- The orbitals are normalised. -/
def Normalised {s : Setup} (o : Orbitals s) : Prop := ∀ k i, ∑ a, (o k).C a i ^ 2 = 1

/-- the number of electrons in the orbitals -/
noncomputable def electrons {s : Setup} (o : Orbitals s) : ℝ := ∑ k, ∑ i, (o k).occ i

/-- the orbitals with the occupation of one of them replaced -/
def withOcc {s : Setup} (o : Orbitals s) (k : Fin s.nsym) (i : Fin (o k).p) (n : ℝ) : Orbitals s :=
  Function.update o k ⟨(o k).p, (o k).C, Function.update (o k).occ i n⟩

end Spec
end Drv
end HelFEM
