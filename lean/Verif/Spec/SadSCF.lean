import Verif.Model.SadSCF
import Verif.Spec.SadXC
import Verif.Spec.AtomicJK

/-!
# The energy of the spherically averaged atom

A state gives each shell `l` a density matrix over the radial functions; its electrons are spread evenly over the `2l+1` functions of the shell, and in restricted mode over both spins. The
energy is a function of these matrices, written down here without reference to Fock matrices.
-/

namespace HelFEM
namespace SadSCF
namespace Spec

open Matrix Finset HelFEM.Spec

/-- the density matrix of a block's orbitals, in the orthonormal basis -/
noncomputable def orthDensity {M : Nat} (o : Dens.Orbs M) : Matrix (Fin M) (Fin M) ℝ := o.C * diagonal o.occ * o.Cᵀ

/-- the same in the radial basis; `X` holds the orthonormal functions -/
noncomputable def density {N M : Nat} (X : Matrix (Fin N) (Fin M) ℝ) (o : Dens.Orbs M) : Matrix (Fin N) (Fin N) ℝ := X * orthDensity o * Xᵀ

/-- kinetic energy with the centrifugal term, nuclear attraction and confinement -/
noncomputable def oneBody (s : Setup) (P : Nat → Matrix (Fin s.N) (Fin s.N) ℝ) : ℝ :=
  ∑ l ∈ range (s.lmax + 1), ((P l * s.T).trace + (l * (l + 1) : ℝ) * (P l * s.Tl).trace + (P l * s.Vnuc).trace + if s.haveConf then (P l * s.Vconf).trace else 0)

/-- the energy of a charge distribution in its own field: `½ ∑ (ab|cd) P_ab P_cd` with the monopole integrals -/
noncomputable def coulombEnergy {N : Nat} (q : Nat → Nat → Nat → Nat → ℝ) (P : Matrix (Fin N) (Fin N) ℝ) : ℝ := 1 / 2 * ∑ a : Fin N, ∑ b : Fin N, ∑ c : Fin N, ∑ d : Fin N, q a b c d * P a b * P c d

/-- the exchange integral of two shells, averaged over their functions -/
noncomputable def shellKernel (G : Nat → Int → Nat → Int → Nat → Int → ℝ) (fac : Nat → ℝ) (lmax : Nat) (radial : Nat → Nat → Nat → Nat → Nat → ℝ) (l l' a b c d : Nat) : ℝ :=
  1 / ((2 * l + 1) * (2 * l' + 1)) * ∑ m ∈ Icc (-(l : Int)) l, ∑ m' ∈ Icc (-(l' : Int)) l', eri G fac (2 * lmax + 1) radial ((l', m'), c) ((l, m), a) ((l, m), b) ((l', m'), d)

/-- `∑ (l'c la|lb l'd) P^l_ab P^l'_cd` over all functions of all shells -/
noncomputable def exchangeForm {N : Nat} (lmax : Nat) (κ : Nat → Nat → Nat → Nat → Nat → Nat → ℝ) (P : Nat → Matrix (Fin N) (Fin N) ℝ) : ℝ :=
  ∑ l ∈ range (lmax + 1), ∑ l' ∈ range (lmax + 1), ∑ a : Fin N, ∑ b : Fin N, ∑ c : Fin N, ∑ d : Fin N, κ l l' a b c d * P l a b * P l' c d

/-- what the two-electron routines compute: the monopole integrals `q`, and the exchange integrals of the full kernel and of the screened one -/
structure Kernels where
  q : Nat → Nat → Nat → Nat → ℝ
  full : Nat → Nat → Nat → Nat → Nat → Nat → ℝ
  short : Nat → Nat → Nat → Nat → Nat → Nat → ℝ

/-- shell density matrices over the radial functions, divided by `4π`: the density per unit of solid angle -/
noncomputable def perSolidAngle (s : Setup) (P : Nat → Matrix (Fin s.N) (Fin s.N) ℝ) : XC.Spec.Shells :=
  ⟨s.lmax + 1, fun l i j => if h : i < s.N ∧ j < s.N then (if l ≤ s.lmax then P l ⟨i, h.1⟩ ⟨j, h.2⟩ / (4 * Real.pi) else 0) else 0⟩

/-- the points of the grid -/
noncomputable def points (s : Setup) : List XC.Spec.SPoint := s.elems.flatMap XC.Spec.sadPoints

/-- The energy of the restricted atom: half of each shell's electrons in each spin. -/
noncomputable def energyR (s : Setup) (k : Kernels) (P : Nat → Matrix (Fin s.N) (Fin s.N) ℝ) : ℝ :=
  oneBody s P + coulombEnergy k.q (∑ l ∈ range (s.lmax + 1), P l) -
    (1 / 2 * (exchangeForm s.lmax (fun l l' a b c d => s.kfrac * k.full l l' a b c d + s.kshort * k.short l l' a b c d) fun l => (1 / 2 : ℝ) • P l) * 2) +
    XC.Spec.senergy s.env s.fn.x s.fn.c s.fn.xp s.fn.cp s.fn.thr (points s) (perSolidAngle s P)

/-- The energy of the unrestricted atom. -/
noncomputable def energyU (s : Setup) (k : Kernels) (A B : Nat → Matrix (Fin s.N) (Fin s.N) ℝ) : ℝ :=
  oneBody s (fun l => A l + B l) + coulombEnergy k.q (∑ l ∈ range (s.lmax + 1), (A l + B l)) -
    (1 / 2 * (exchangeForm s.lmax (fun l l' a b c d => s.kfrac * k.full l l' a b c d + s.kshort * k.short l l' a b c d) A +
      exchangeForm s.lmax (fun l l' a b c d => s.kfrac * k.full l l' a b c d + s.kshort * k.short l l' a b c d) B)) +
    XC.Spec.senergy2 s.env s.fn.x s.fn.c s.fn.xp s.fn.cp s.fn.thr (points s) (perSolidAngle s A) (perSolidAngle s B)

/-- `exchange` or `rs_exchange` returns, for shell densities spread over the functions of their shells, the exchange matrix of every shell. -/
def ExchangeIs (s : Setup) (run : List Nat → List Nat → List (Mat ℝ) → Res (List (Mat ℝ))) (κ : Nat → Nat → Nat → Nat → Nat → Nat → ℝ) : Prop :=
  ∀ (sched : List Nat), sched.Perm (List.range (2 * s.lmax + 1)) → ∀ (order : List Nat), order.Perm (List.range (s.lmax + 1)) → ∀ P : List (Mat ℝ),
    P.length = s.lmax + 1 → (∀ M ∈ P, M.rows = s.N ∧ M.cols = s.N) →
    ∃ K, run sched order P = .ok K ∧ K.length = s.lmax + 1 ∧ ∀ l ≤ s.lmax, ∃ X, K[l]? = some X ∧ X.rows = s.N ∧ X.cols = s.N ∧
      ∀ a < s.N, ∀ b < s.N, X.get a b = -∑ l' ∈ range (s.lmax + 1), ∑ c ∈ range s.N, ∑ d ∈ range s.N, κ l l' a b c d * ((2 * l' + 1) * (P.getD l' (Mat.zero 0 0)).get c d)

/-- The integrals do not change when the two electrons, or bra and ket, are exchanged. -/
structure ExchangeSymm (κ : Nat → Nat → Nat → Nat → Nat → Nat → ℝ) : Prop where
  shells : ∀ l l' a b c d, κ l l' a b c d = κ l' l c d a b
  transpose : ∀ l l' a b c d, κ l l' a b c d = κ l l' b a d c

/-- The two-electron routines of the basis compute with these kernels. The screened one matters only if it is used. -/
structure Represents (s : Setup) (c : AtomJK.Caches) (k : Kernels) : Prop where
  coulomb : ∀ P : Mat ℝ, P.rows = s.N → P.cols = s.N → ∃ J, AtomJK.sadCoulomb s.R c P = .ok J ∧ J.rows = s.N ∧ J.cols = s.N ∧ ∀ a < s.N, ∀ b < s.N,
    J.get a b = 4 * Real.pi * ∑ c ∈ range s.N, ∑ d ∈ range s.N, k.q a b c d * P.get c d
  coulomb_pair : ∀ a b c d, k.q a b c d = k.q b a c d
  coulomb_swap : ∀ a b c d, k.q a b c d = k.q c d a b
  full : ExchangeIs s (fun sched order P => AtomJK.sadExchange s.G sched order s.lmax s.R c P) k.full
  full_symm : ExchangeSymm k.full
  short : s.kshort ≠ 0 → ExchangeIs s (fun sched order P => AtomJK.sadRsExchange s.G sched order s.lmax s.R c P) k.short
  short_symm : s.kshort ≠ 0 → ExchangeSymm k.short

/-- A schedule runs every iteration once. -/
structure Complete (s : Setup) (sch : Sched) : Prop where
  gaunt : sch.gaunt.Perm (List.range (2 * s.lmax + 1))
  lout : sch.lout.Perm (List.range (s.lmax + 1))
  gaunt' : sch.gaunt'.Perm (List.range (2 * s.lmax + 1))
  lout' : sch.lout'.Perm (List.range (s.lmax + 1))
  elems : sch.elems.Perm s.elems

/-- The functionals are usable, the grid's functions exist and no point is at the nucleus. -/
structure GridOk (s : Setup) : Prop where
  x : XC.Spec.Usable s.env s.fn.x s.fn.xp
  c : XC.Spec.Usable s.env s.fn.c s.fn.cp
  idx : ∀ e ∈ s.elems, ∀ i ∈ e.idx, i < s.N
  r : ∀ e ∈ s.elems, ∀ p, e.r p ≠ 0

/-- Orbitals a solver hands over: at least one per block, no negative occupation. -/
def Physical {M : Nat} (o : Dens.Orbs M) : Prop := o.p ≠ 0 ∧ ∀ i, 0 ≤ o.occ i

/-- the blocks of a restricted state, or of one spin -/
def blocks (s : Setup) (o : Nat → Dens.Orbs s.M) : List (Dens.Orbs s.M) := (List.range (s.lmax + 1)).map o

/-- The functionals return the derivatives of their energy densities at every point of the grid. -/
def SmoothR (s : Setup) (P : Nat → Matrix (Fin s.N) (Fin s.N) ℝ) : Prop :=
  ∀ x ∈ points s, XC.Spec.Consistent s.env s.fn.x s.fn.xp s.fn.thr ((perSolidAngle s P).input x) ∧ XC.Spec.Consistent s.env s.fn.c s.fn.cp s.fn.thr ((perSolidAngle s P).input x)

/-- The same with two spins. -/
def SmoothU (s : Setup) (A B : Nat → Matrix (Fin s.N) (Fin s.N) ℝ) : Prop :=
  ∀ x ∈ points s, XC.Spec.Consistent2 s.env s.fn.x s.fn.xp s.fn.thr (XC.Spec.sinputs (perSolidAngle s A) (perSolidAngle s B) x) ∧
    XC.Spec.Consistent2 s.env s.fn.c s.fn.cp s.fn.thr (XC.Spec.sinputs (perSolidAngle s A) (perSolidAngle s B) x)

/-- The one-electron matrices are symmetric. -/
structure OneSymm (s : Setup) : Prop where
  T : s.Tᵀ = s.T
  Tl : s.Tlᵀ = s.Tl
  Vnuc : s.Vnucᵀ = s.Vnuc
  Vconf : s.Vconfᵀ = s.Vconf

/-- The integrals of a kernel given for pairs of elements do not change when the electrons are exchanged. -/
def Swaps (nl ne : Nat) (first last : Nat → Nat) (T : Nat → Nat → Nat → Mat ℝ) : Prop :=
  ∀ L < nl, ∀ e1 < ne, ∀ e2 < ne, ∀ r < (last e1 + 1 - first e1) * (last e1 + 1 - first e1), ∀ c < (last e2 + 1 - first e2) * (last e2 + 1 - first e2), (T L e1 e2).get r c = (T L e2 e1).get c r

/-- the orbitals of a shell with the occupation of one of them replaced -/
def withOcc {M : Nat} (o : Nat → Dens.Orbs M) (l : Nat) (i : Fin (o l).p) (n : ℝ) : Nat → Dens.Orbs M :=
  Function.update o l ⟨(o l).p, (o l).C, Function.update (o l).occ i n⟩

end Spec
end SadSCF
end HelFEM
