import Verif.Model.Density
import Verif.Model.AtomicJK
import Verif.Model.DiaJK
import Verif.Model.GridXC
import Verif.Model.PureMXC

/-!
# The Fock builders of the atomic and the diatomic driver

Models the callbacks handed to the self-consistent field solver in `src/atomic/main.cpp:370-470` and `src/diatomic/main.cpp:369-475`, with the set-up they capture
(`src/atomic/main.cpp:196-352`, `src/diatomic/main.cpp:211-347`) and `assemble_hf_exchange` (`src/general/scf_driver_common.h:460-474`). Numbers are exact reals. The two callbacks are the same
code but for three terms: the atomic one adds the confinement potential and short-range exchange, the diatomic one the energy of the nuclei in the field. One definition has all three; the
set-ups of the two drivers leave out the ones they lack. Printing and timing are left out. Matrices over the whole basis are functions of two indices as in `Model/Density.lean`; a matrix of
another size than the basis is an Eigen assertion failure (`ub`).
-/

namespace HelFEM
namespace Drv

open Finset

/-- The routines of the basis and of the integration grid that the callbacks call, with everything but the functional and the density already given. -/
structure Engine where
  coulomb : Mat ℝ → Res (Mat ℝ)
  exchange : Mat ℝ → Res (Mat ℝ)
  rsExchange : Mat ℝ → Res (Mat ℝ)
  /-- `eval_Fxc`, one density: the matrix and the energy -/
  xc1 : XC.Funcs → Mat ℝ → Res (Mat ℝ × ℝ)
  /-- `eval_Fxc`, two spin densities, and whether there are beta electrons: the two matrices and the energy -/
  xc2 : XC.Funcs → Mat ℝ → Mat ℝ → Bool → Res (Mat ℝ × Mat ℝ × ℝ)

/-- What the callback captures: the symmetry blocks with their mirror images (`dsym`, `Sinvh`, `dmirror`), spin, the one-electron matrices, the fields, the functional, and the two constants of
the nuclei. -/
structure Setup where
  N : Nat
  nsym : Nat
  block : Fin nsym → Dens.Block
  mirror : Fin nsym → List Nat
  restricted : Bool
  nela : Int
  nelb : Int
  S : Nat → Nat → ℝ
  T : Nat → Nat → ℝ
  Vnuc : Nat → Nat → ℝ
  dip : Nat → Nat → ℝ
  quad : Nat → Nat → ℝ
  Vmag : Nat → Nat → ℝ
  Vconf : Nat → Nat → ℝ
  Ez : ℝ
  Qzz : ℝ
  Bz : ℝ
  iconf : Int
  kfrac : ℝ
  kshort : ℝ
  fn : XC.Funcs
  Enucr : ℝ
  Enucfield : ℝ

/-- The orbitals and occupations of every block; those of beta spin are not there in restricted mode, where they are not read. -/
structure State (s : Setup) where
  A : (k : Fin s.nsym) → Dens.Orbs (s.block k).idx.length
  B : (k : Fin s.nsym) → Dens.Orbs (s.block k).idx.length

/-- `have_xc`, `atomic/main.cpp:236`, `diatomic/main.cpp:188` -/
def haveXC (s : Setup) : Bool := s.fn.x ≠ 0 ∨ s.fn.c ≠ 0
open Classical in
/-- `have_exx`, `atomic/main.cpp:235`, `diatomic/main.cpp:187` -/
noncomputable def haveExx (s : Setup) : Bool := s.kfrac ≠ 0 ∨ s.kshort ≠ 0
open Classical in
/-- `have_efield`, `atomic/main.cpp:308`, `diatomic/main.cpp:282` -/
noncomputable def haveE (s : Setup) : Bool := s.Ez ≠ 0 ∨ s.Qzz ≠ 0
open Classical in
/-- `have_bfield`, `atomic/main.cpp:309`, `diatomic/main.cpp:283` -/
noncomputable def haveB (s : Setup) : Bool := s.Bz ≠ 0
/-- `have_conf`, `atomic/main.cpp:310` -/
def haveConf (s : Setup) : Bool := s.iconf ≠ 0

/-- `Vel = Ez*dip + Qzz*quad/3.0`, `atomic/main.cpp:306`, `diatomic/main.cpp:277` -/
noncomputable def vel (s : Setup) (i j : Nat) : ℝ := s.Ez * s.dip i j + s.Qzz * s.quad i j / 3.0

/-- `Vconf`, a zero matrix without confinement, `atomic/main.cpp:298-303` -/
def vconf (s : Setup) (i j : Nat) : ℝ := if haveConf s then s.Vconf i j else 0

/-- a matrix over the whole basis, as handed to a routine -/
def mat (N : Nat) (P : Nat → Nat → ℝ) : Mat ℝ := ⟨N, N, P⟩

/-- a matrix that is added to one over the whole basis -/
def sized (N : Nat) (M : Mat ℝ) : Res (Nat → Nat → ℝ) := if M.rows = N ∧ M.cols = N then .ok M.get else .ub

/-- `(A*B).trace()` -/
noncomputable def tr (N : Nat) (A B : Nat → Nat → ℝ) : ℝ := ∑ i ∈ range N, ∑ j ∈ range N, A i j * B j i

/-- `accumulate_density` over the blocks, starting from zero, `atomic/main.cpp:388-391, 396-400`, `diatomic/main.cpp:394-396, 412-416` -/
noncomputable def density (s : Setup) (o : (k : Fin s.nsym) → Dens.Orbs (s.block k).idx.length) : Res (Nat → Nat → ℝ) :=
  Dens.accumulateAll ((List.finRange s.nsym).map fun k => ⟨s.block k, o k, s.mirror k⟩) fun _ _ => 0

/-- the densities `P`, `Pa`, `Pb`, `atomic/main.cpp:388-402`, `diatomic/main.cpp:394-417`. In restricted mode `Pb` is an empty matrix that is not read (zero here), and so is `Pa` without exact
exchange. -/
noncomputable def densities (s : Setup) (st : State s) : Res ((Nat → Nat → ℝ) × (Nat → Nat → ℝ) × (Nat → Nat → ℝ)) :=
  if s.restricted then density s st.A >>= fun P => .ok (P, (if haveExx s then fun i j => 0.5 * P i j else fun _ _ => 0), fun _ _ => 0)
  else density s st.A >>= fun Pa => density s st.B >>= fun Pb => .ok (fun i j => Pa i j + Pb i j, Pa, Pb)

/-- `XCa`, `XCb`, `Exc`, `atomic/main.cpp:391-394, 403-406`, `diatomic/main.cpp:398-407, 419-428`. Matrices left empty are not read (zero here). -/
noncomputable def xcPart (s : Setup) (e : Engine) (P Pa Pb : Nat → Nat → ℝ) : Res ((Nat → Nat → ℝ) × (Nat → Nat → ℝ) × ℝ) :=
  if haveXC s then
    if s.restricted then e.xc1 s.fn (mat s.N P) >>= fun r => sized s.N r.1 >>= fun H => .ok (H, fun _ _ => 0, r.2)
    else e.xc2 s.fn (mat s.N Pa) (mat s.N Pb) (0 < s.nelb) >>= fun r => sized s.N r.1 >>= fun Ha => sized s.N r.2.1 >>= fun Hb => .ok (Ha, Hb, r.2.2)
  else .ok (fun _ _ => 0, fun _ _ => 0, 0)

open Classical in
/-- a multiple of an exchange matrix, not computed if the factor is zero, `atomic/main.cpp:436-437` -/
noncomputable def part (N : Nat) (f : ℝ) (run : Mat ℝ → Res (Mat ℝ)) (P : Nat → Nat → ℝ) : Res (Nat → Nat → ℝ) :=
  if f ≠ 0 then run (mat N P) >>= fun K => sized N K >>= fun K => .ok fun i j => f * K i j else .ok fun _ _ => 0

/-- `exchange_fn`, `atomic/main.cpp:434-439`; the diatomic `exchange_fn` (`diatomic/main.cpp:443-445`), called only if `kfrac` is not zero, is the same with `kshort = 0`. -/
noncomputable def exchangeFn (s : Setup) (e : Engine) (P : Nat → Nat → ℝ) : Res (Nat → Nat → ℝ) :=
  part s.N s.kfrac e.exchange P >>= fun K => part s.N s.kshort e.rsExchange P >>= fun L => .ok fun i j => K i j + L i j

/-- `assemble_hf_exchange`, `scf_driver_common.h:460-474`: `Ka`, `Kb`, `Exx` -/
noncomputable def exchangePart (s : Setup) (e : Engine) (Pa Pb : Nat → Nat → ℝ) : Res ((Nat → Nat → ℝ) × (Nat → Nat → ℝ) × ℝ) :=
  if haveExx s then
    exchangeFn s e Pa >>= fun Ka =>
      if s.restricted then .ok (Ka, fun _ _ => 0, 0.5 * tr s.N Pa Ka * 2.0)
      else exchangeFn s e Pb >>= fun Kb => .ok (Ka, Kb, 0.5 * tr s.N Pa Ka + 0.5 * tr s.N Pb Kb)
  else .ok (fun _ _ => 0, fun _ _ => 0, 0)

/-- `Eefield`, `atomic/main.cpp:416`, `diatomic/main.cpp:435` -/
noncomputable def efield (s : Setup) (P : Nat → Nat → ℝ) : ℝ := if haveE s then tr s.N P (vel s) + s.Enucfield else 0
/-- `Emfield`, `atomic/main.cpp:417-418`, `diatomic/main.cpp:436-437` -/
noncomputable def mfield (s : Setup) (P : Nat → Nat → ℝ) : ℝ := if haveB s then tr s.N P s.Vmag - 0.5 * s.Bz * ((s.nela - s.nelb : Int) : ℝ) else 0
/-- `Econf`, `atomic/main.cpp:419` -/
noncomputable def conf (s : Setup) (P : Nat → Nat → ℝ) : ℝ := if haveConf s then tr s.N P (vconf s) else 0

/-- `H1`, `atomic/main.cpp:465`, `diatomic/main.cpp:471` -/
noncomputable def core (s : Setup) (i j : Nat) : ℝ := s.T i j + s.Vnuc i j + vel s i j + s.Vmag i j + vconf s i j

/-- `Etot`, `atomic/main.cpp:445-446`, `diatomic/main.cpp:453-454` -/
noncomputable def total (s : Setup) (P J : Nat → Nat → ℝ) (Exc Exx : ℝ) : ℝ :=
  tr s.N P s.T + tr s.N P s.Vnuc + efield s P + mfield s P + conf s P + 0.5 * tr s.N P J + Exc + Exx + s.Enucr

/-- the matrices handed to `assemble_fock_blocks`, `atomic/main.cpp:466-469`, `diatomic/main.cpp:472-475` -/
noncomputable def ingredients (s : Setup) (J : Nat → Nat → ℝ) (X K : (Nat → Nat → ℝ) × (Nat → Nat → ℝ) × ℝ) : Dens.Ingredients :=
  ⟨core s, J, X.1, X.2.1, K.1, K.2.1, s.S, haveXC s, haveExx s, haveB s, s.Bz⟩

/-- The callback: the total energy, and the alpha and (if unrestricted) beta Fock matrix of every block. -/
noncomputable def build (s : Setup) (e : Engine) (st : State s) :
    Res (ℝ × ((k : Fin s.nsym) → Matrix (Fin (s.block k).idx.length) (Fin (s.block k).idx.length) ℝ × Option (Matrix (Fin (s.block k).idx.length) (Fin (s.block k).idx.length) ℝ))) :=
  densities s st >>= fun D => xcPart s e D.1 D.2.1 D.2.2 >>= fun X => e.coulomb (mat s.N D.1) >>= fun M => sized s.N M >>= fun J => exchangePart s e D.2.1 D.2.2 >>= fun K =>
    .ok (total s D.1 J X.2.2 K.2.2, fun k => Dens.fockBlock s.restricted (ingredients s J X K) (s.block k))

/-! ### what the two drivers capture -/

/-- `Enucr`, `atomic/main.cpp:253-255` -/
noncomputable def atomEnucr (Z Zl Zr : Int) (Rhalf : ℝ) : ℝ := if 0 < Rhalf then ((Z * (Zl + Zr) : Int) : ℝ) / Rhalf + ((Zl * Zr : Int) : ℝ) / (2.0 * Rhalf) else 0
/-- `Enucr`, `diatomic/main.cpp:327` -/
noncomputable def diaEnucr (Z1 Z2 : Int) (Rbond : ℝ) : ℝ := ((Z1 * Z2 : Int) : ℝ) / Rbond
/-- `Enucfield`, `diatomic/main.cpp:279-281`, with `Rhalf = 0.5 * Rbond` -/
noncomputable def diaEnucfield (Z1 Z2 : Int) (Rbond Ez Qzz : ℝ) : ℝ :=
  let Rhalf := 0.5 * Rbond
  let nucdip := ((Z2 - Z1 : Int) : ℝ) * Rhalf
  let nucquad := ((Z1 + Z2 : Int) : ℝ) * Rhalf * Rhalf;
  -Ez * nucdip - Qzz * nucquad / 3.0

/-- the same in the atomic driver, which adds nothing for the nuclei, `atomic/main.cpp:416` -/
def atomEnucfield (_Zl _Zr : Int) (_Rhalf _Ez _Qzz : ℝ) : ℝ := 0

open Classical in
/-- the symmetry the atomic driver uses, `atomic/main.cpp:200-216` -/
noncomputable def atomSymm (symm : Int) (Zl Zr : Int) (Ez Qzz Bz : ℝ) : Int :=
  let symm := if symm = 2 ∧ (Ez ≠ 0 ∨ Qzz ≠ 0) then 1 else symm
  let symm := if symm = 2 ∧ Bz ≠ 0 then 1 else symm
  if symm = 2 ∧ (Zl ≠ 0 ∨ Zr ≠ 0) then 1 else symm

open Classical in
/-- the symmetry the diatomic driver uses, `diatomic/main.cpp:223-238` -/
noncomputable def diaSymm (symm : Int) (Z1 Z2 : Int) (Ez Qzz Bz : ℝ) : Int :=
  let symm := if symm = 2 ∧ Z1 ≠ Z2 then 1 else symm
  let symm := if symm = 2 ∧ (Ez ≠ 0 ∨ Qzz ≠ 0) then 1 else symm
  if symm = 2 ∧ Bz ≠ 0 then 1 else symm

/-- The routines of the atomic driver. `sched` and `order` are the schedules of the parallel loops in the Gaunt tables and in the exchange matrix; `thr` the latter's screening threshold. The
order of the elements in the grid's loop is that of the list. -/
noncomputable def atomEngine (G : Nat → Int → Nat → Int → Nat → Int → ℝ) (sched : List Nat) (order : List (Nat × Nat)) (lm : List (Int × Int)) (R : TwoE.Radial) (c : AtomJK.Caches) (thr : ℝ)
    (env : XC.Libxc) (elems : List XC.AtomElem) : Engine where
  coulomb := AtomJK.coulomb G sched lm R c
  exchange := AtomJK.exchange G sched order lm R c thr
  rsExchange := AtomJK.rsExchange G sched order lm R c thr
  xc1 := fun fn P => XC.atomGrid1 env fn P elems >>= fun t => .ok (t.H, t.exc)
  xc2 := fun fn Pa Pb beta => XC.atomGrid2 env fn Pa Pb beta elems >>= fun t => .ok (t.Ha, t.Hb, t.exc)

open Classical in
/-- The integrals the atomic driver computes before the solver starts, `atomic/main.cpp:332-337`; the kernel of the functional (`yukawa`, `erfc`) is asked for only if it has short-range
exchange, `atomic/main.cpp:241-243`. -/
noncomputable def atomPrepare (lm : List (Int × Int)) (R : TwoE.Radial) (pr : AtomJK.Prims) (tol kshort omega : ℝ) (yukawa erfc : Bool) (c0 : AtomJK.Caches) : Res AtomJK.Caches :=
  AtomJK.computeTei lm R pr tol c0 >>= fun c =>
    if kshort ≠ 0 ∧ yukawa then AtomJK.computeYukawa lm R pr tol omega c
    else if kshort ≠ 0 ∧ erfc then AtomJK.computeErfc lm R pr omega c
    else .ok c

/-- The routines of the diatomic driver, `diatomic/main.cpp:398-428`: the grid over the plane (`purem_xc`) or the one over space. There is no `rs_exchange`; a functional that needs it is
rejected at set-up (`diatomic/main.cpp:189-190`). -/
noncomputable def diaEngine (b : DiaJK.Basis) (c : DiaJK.Ints) (thr : ℝ) (order : List (Nat × Nat)) (env : XC.Libxc) (purem : Bool) (pm : List XC.PmPoint) (pts : List XC.DiaPoint) :
    Engine where
  coulomb := DiaJK.coulomb b c
  exchange := DiaJK.exchange b c thr order
  rsExchange := fun _ => .throw .logicError
  xc1 := fun fn P => (if purem then XC.pmGrid1 env b.lm b.rad.nbf b.absmSym fn P pm else XC.diaGrid1 env b.lm b.rad.nbf fn P pts) >>= fun t => .ok (t.H, t.exc)
  xc2 := fun fn Pa Pb beta => (if purem then XC.pmGrid2 env b.lm b.rad.nbf fn Pa Pb beta pm else XC.diaGrid2 env b.lm b.rad.nbf fn Pa Pb beta pts) >>= fun t => .ok (t.Ha, t.Hb, t.exc)

end Drv
end HelFEM
