import Verif.Model.AtomicJK
import Verif.Model.Density
import Verif.Model.SadXC

/-!
# The Fock builder of the spherically averaged atom

Models `src/sadatom/scf.cpp:50-344`: the caches filled before the solver starts, the Fock builder handed to it and the batched one. Left out: timers, log lines, the initial guess, the solver
itself, the libxc queries behind `kfrac`, `kshort`, `omega`, `rs_erfc`, `rs_yukawa`, which are data of the setup, and the one-electron matrices, which are data too (C71). Numbers are exact
reals. A matrix of a size Eigen refuses to add or multiply is undefined behaviour.
-/

namespace HelFEM
namespace SadSCF

open Matrix XC AtomJK TwoE

/-- A matrix as the basis and the grid receive it. -/
def toMat {n m : Nat} (A : Matrix (Fin n) (Fin m) ℝ) : Mat ℝ := ⟨n, m, fun i j => if h : i < n ∧ j < m then A ⟨i, h.1⟩ ⟨j, h.2⟩ else 0⟩

/-- A matrix they return, used where an `n × m` one is needed. -/
def fromMat (n m : Nat) (A : Mat ℝ) : Res (Matrix (Fin n) (Fin m) ℝ) := if A.rows = n ∧ A.cols = m then .ok fun i j => A.get i j else .ub

/-- What `run_atomic_scf` works with, `sadatom/scf.cpp:53-88`: `N` radial functions, `M` orthonormal ones, the matrices `T`, `Tl`, `Vnuc`, `Vconf`, `Sinvh`, the exchange fractions and kernel,
the functionals, the radial basis with its integrals and the elements of the grid. -/
structure Setup where
  N : Nat
  M : Nat
  lmax : Nat
  restricted : Bool
  nelb : Int
  haveConf : Bool
  T : Matrix (Fin N) (Fin N) ℝ
  Tl : Matrix (Fin N) (Fin N) ℝ
  Vnuc : Matrix (Fin N) (Fin N) ℝ
  Vconf : Matrix (Fin N) (Fin N) ℝ
  X : Matrix (Fin N) (Fin M) ℝ
  kfrac : ℝ
  kshort : ℝ
  omega : ℝ
  erfc : Bool
  yukawa : Bool
  env : Libxc
  fn : Funcs
  G : Nat → Int → Nat → Int → Nat → Int → ℝ
  R : Radial
  pr : Prims
  tol : ℝ
  elems : List SadElem

/-- The order in which parallel loops happen to run: the Gaunt table, the output angular momenta of the two exchange routines, the elements of the grid. -/
structure Sched where
  gaunt : List Nat
  lout : List Nat
  gaunt' : List Nat
  lout' : List Nat
  elems : List SadElem

/-- `nblock`, `sadatom/scf.cpp:90` -/
def Setup.nblock (s : Setup) : Nat := s.lmax + 1

/-- `have_exx`, `sadatom/scf.cpp:64` -/
def Setup.haveExx (s : Setup) : Prop := s.kfrac ≠ 0 ∨ s.kshort ≠ 0

/-- `have_xc`, `sadatom/scf.cpp:65` -/
def Setup.haveXC (s : Setup) : Prop := s.fn.x ≠ 0 ∨ s.fn.c ≠ 0

/-- `angfac`, `sadatom/scf.cpp:113` -/
noncomputable def angfac : ℝ := 4.0 * Real.pi

/-- the integrals computed before the solver starts, `sadatom/scf.cpp:66-68, 86-88` -/
noncomputable def prepare (s : Setup) (c0 : Caches) : Res Caches :=
  computeTei (sadL s.lmax) s.R s.pr s.tol c0 >>= fun c =>
    if s.kshort ≠ 0 ∧ s.yukawa then computeYukawa (sadL s.lmax) s.R s.pr s.tol s.omega c
    else if s.kshort ≠ 0 ∧ s.erfc then computeErfc (sadL s.lmax) s.R s.pr s.omega c
    else .ok c

variable (s : Setup)

/-- The total and the shell densities of a spin channel: `Prad`, `Pl_cube`. -/
structure Chan (N : Nat) where
  P : Matrix (Fin N) (Fin N) ℝ
  Pl : Nat → Matrix (Fin N) (Fin N) ℝ

/-- nothing accumulated yet -/
def Chan.empty (N : Nat) : Chan N := ⟨0, fun _ => 0⟩

/-- `P_l`, `sadatom/scf.cpp:129-130` -/
noncomputable def shellDensity (o : Dens.Orbs s.M) : Matrix (Fin s.N) (Fin s.N) ℝ := (s.X * o.C) * diagonal o.occ * (s.X * o.C)ᵀ

/-- `accumulate_density`, `sadatom/scf.cpp:125-136`; the largest coefficient of an empty vector is undefined -/
noncomputable def accDensity (a : Chan s.N) (Ekin : ℝ) (l : Nat) (o : Dens.Orbs s.M) : Res (Chan s.N × ℝ) :=
  if o.p = 0 then .ub
  else if ∀ i, |o.occ i| = 0 then .ok (a, Ekin)
  else
    let P := shellDensity s o
    let E := Ekin + (P * s.T).trace
    .ok (⟨a.P + P, Function.update a.Pl l P⟩, if 0 < l then E + (l * (l + 1) : ℝ) * (P * s.Tl).trace else E)

/-- restricted: `sadatom/scf.cpp:165-167` -/
noncomputable def gatherR (dm : List (Dens.Orbs s.M)) : Res (Chan s.N × ℝ) :=
  (List.range s.nblock).foldlM (fun (st : Chan s.N × ℝ) l => readAt dm l >>= accDensity s st.1 st.2 l) (Chan.empty s.N, 0)

/-- one angular momentum of the unrestricted loop: alpha, then beta -/
noncomputable def stepU (dm : List (Dens.Orbs s.M)) (st : (Chan s.N × Chan s.N) × ℝ) (l : Nat) : Res ((Chan s.N × Chan s.N) × ℝ) :=
  readAt dm l >>= fun oa => accDensity s st.1.1 st.2 l oa >>= fun a => readAt dm (s.nblock + l) >>= fun ob => accDensity s st.1.2 a.2 l ob >>= fun b => .ok ((a.1, b.1), b.2)

/-- unrestricted: `sadatom/scf.cpp:177-184` -/
noncomputable def gatherU (dm : List (Dens.Orbs s.M)) : Res ((Chan s.N × Chan s.N) × ℝ) :=
  (List.range s.nblock).foldlM (stepU s dm) ((Chan.empty s.N, Chan.empty s.N), 0)

/-- `divided_cube(Pl, angfac)`, `sadatom/scf.cpp:119-123` -/
noncomputable def dividedCube (Pl : Nat → Matrix (Fin s.N) (Fin s.N) ℝ) : Cube := ⟨s.nblock, fun l => toMat ((1 / angfac) • Pl l)⟩

/-- `XC[l] /= angfac` and the use of `XC[l]` in the Fock matrix -/
noncomputable def xcAt (C : Cube) (l : Nat) : Res (Matrix (Fin s.N) (Fin s.N) ℝ) :=
  if l < C.size then (fromMat s.N s.N (C.slice l) >>= fun H => .ok ((1 / angfac) • H)) else .ub

open Classical in
/-- `XCa`, `Exc`, restricted: `sadatom/scf.cpp:169-175`. Without functionals the cube stays empty. -/
noncomputable def xcR (sch : Sched) (a : Chan s.N) : Res (Cube × ℝ) :=
  if s.haveXC then (sadGrid1 s.env s.fn (dividedCube s a.Pl) sch.elems >>= fun t => .ok (t.H, t.exc)) else .ok (⟨0, fun _ => Mat.zero 0 0⟩, 0)

open Classical in
/-- `XCa`, `XCb`, `Exc`, unrestricted: `sadatom/scf.cpp:186-194` -/
noncomputable def xcU (sch : Sched) (a b : Chan s.N) : Res ((Cube × Cube) × ℝ) :=
  if s.haveXC then (sadGrid2 s.env s.fn (dividedCube s a.Pl) (dividedCube s b.Pl) (decide (0 < s.nelb)) sch.elems >>= fun t => .ok ((t.Ha, t.Hb), t.exc))
  else .ok ((⟨0, fun _ => Mat.zero 0 0⟩, ⟨0, fun _ => Mat.zero 0 0⟩), 0)

/-- `J`, `sadatom/scf.cpp:201` -/
noncomputable def coulombJ (c : Caches) (P : Matrix (Fin s.N) (Fin s.N) ℝ) : Res (Matrix (Fin s.N) (Fin s.N) ℝ) :=
  sadCoulomb s.R c (toMat ((1 / angfac) • P)) >>= fromMat s.N s.N

/-- `K[l] += k * Kx[l]` for all `l`, if `k` is not zero -/
noncomputable def addK (k : ℝ) (run : Res (List (Mat ℝ))) (K : List (Matrix (Fin s.N) (Fin s.N) ℝ)) : Res (List (Matrix (Fin s.N) (Fin s.N) ℝ)) :=
  if k ≠ 0 then (run >>= fun Kx => (List.range s.nblock).mapM fun l => readAt K l >>= fun A => readAt Kx l >>= fun B => fromMat s.N s.N B >>= fun B => .ok (A + k • B)) else .ok K

/-- exchange matrices of a channel, `sadatom/scf.cpp:209-220`: `w` is 2 in restricted mode and 1 otherwise -/
noncomputable def exchangeK (c : Caches) (sch : Sched) (w : ℝ) (Pl : Nat → Matrix (Fin s.N) (Fin s.N) ℝ) : Res (List (Matrix (Fin s.N) (Fin s.N) ℝ)) :=
  let ang := (List.range s.nblock).map fun (l : Nat) => toMat ((1 / (w * (2 * l + 1)) : ℝ) • Pl l)
  addK s s.kfrac (sadExchange s.G sch.gaunt sch.lout s.lmax s.R c ang) (List.replicate s.nblock 0) >>= addK s s.kshort (sadRsExchange s.G sch.gaunt' sch.lout' s.lmax s.R c ang)

/-- `Exx += 0.5 tr(K[l] P[l])` over the shells -/
noncomputable def exchangeE (K : List (Matrix (Fin s.N) (Fin s.N) ℝ)) (Pl : Nat → Matrix (Fin s.N) (Fin s.N) ℝ) (E : ℝ) : Res ℝ :=
  (List.range s.nblock).foldlM (fun (E : ℝ) l => readAt K l >>= fun A => .ok (E + 0.5 * (A * Pl l).trace)) E

open Classical in
/-- `Ka`, `Exx`, restricted -/
noncomputable def exxR (c : Caches) (sch : Sched) (a : Chan s.N) : Res (List (Matrix (Fin s.N) (Fin s.N) ℝ) × ℝ) :=
  if s.haveExx then (exchangeK s c sch 2 a.Pl >>= fun K => exchangeE s K a.Pl 0 >>= fun E => .ok (K, E)) else .ok ([], 0)

open Classical in
/-- `Ka`, `Kb`, `Exx`, unrestricted, `sadatom/scf.cpp:223-239` -/
noncomputable def exxU (c : Caches) (sch : Sched) (a b : Chan s.N) : Res ((List (Matrix (Fin s.N) (Fin s.N) ℝ) × List (Matrix (Fin s.N) (Fin s.N) ℝ)) × ℝ) :=
  if s.haveExx then (exchangeK s c sch 1 a.Pl >>= fun Ka => exchangeE s Ka a.Pl 0 >>= fun E => exchangeK s c sch 1 b.Pl >>= fun Kb => exchangeE s Kb b.Pl E >>= fun E => .ok ((Ka, Kb), E))
  else .ok (([], []), 0)

/-- `build_fock_block`, `sadatom/scf.cpp:262-274` -/
noncomputable def fockBlock (J : Matrix (Fin s.N) (Fin s.N) ℝ) (l : Nat) (xc : Cube) (addXC : Prop) [Decidable addXC] (K : List (Matrix (Fin s.N) (Fin s.N) ℝ)) (addEx : Prop) [Decidable addEx] :
    Res (Matrix (Fin s.M) (Fin s.M) ℝ) :=
  let F := s.T + s.Vnuc + J
  let F := if s.haveConf then F + s.Vconf else F
  let F := if 0 < l then F + (l * (l + 1) : ℝ) • s.Tl else F
  (if addXC then (xcAt s xc l >>= fun H => .ok (F + H)) else .ok F) >>= fun F => (if addEx then (readAt K l >>= fun A => .ok (F + A)) else .ok F) >>= fun F => .ok (s.Xᵀ * F * s.X)

/-- `Enuc + Econf` -/
noncomputable def potential (P : Matrix (Fin s.N) (Fin s.N) ℝ) : ℝ := (P * s.Vnuc).trace + if s.haveConf then (P * s.Vconf).trace else 0

open Classical in
/-- `build_fock`, restricted -/
noncomputable def buildR (c : Caches) (sch : Sched) (dm : List (Dens.Orbs s.M)) : Res (ℝ × List (Matrix (Fin s.M) (Fin s.M) ℝ)) :=
  gatherR s dm >>= fun a => xcR s sch a.1 >>= fun xc => coulombJ s c a.1.P >>= fun J => exxR s c sch a.1 >>= fun K =>
    (List.range s.nblock).mapM (fun l => fockBlock s J l xc.1 s.haveXC K.1 s.haveExx) >>= fun F =>
      .ok (a.2 + potential s a.1.P + 0.5 * (a.1.P * J).trace + xc.2 + K.2, F)

open Classical in
/-- `build_fock`, unrestricted: the alpha blocks, then the beta blocks -/
noncomputable def buildU (c : Caches) (sch : Sched) (dm : List (Dens.Orbs s.M)) : Res (ℝ × List (Matrix (Fin s.M) (Fin s.M) ℝ)) :=
  gatherU s dm >>= fun g => xcU s sch g.1.1 g.1.2 >>= fun xc => coulombJ s c (g.1.1.P + g.1.2.P) >>= fun J => exxU s c sch g.1.1 g.1.2 >>= fun K =>
    (List.range s.nblock).mapM (fun l => fockBlock s J l xc.1.1 s.haveXC K.1.1 s.haveExx) >>= fun Fa =>
      (List.range s.nblock).mapM (fun l => fockBlock s J l xc.1.2 (s.haveXC ∧ 0 < s.nelb) K.1.2 (s.haveExx ∧ 0 < s.nelb)) >>= fun Fb =>
        .ok (g.2 + potential s (g.1.1.P + g.1.2.P) + 0.5 * ((g.1.1.P + g.1.2.P) * J).trace + xc.2 + K.2, Fa ++ Fb)

/-- `build_fock`, `sadatom/scf.cpp:145-287`: the energy and the Fock matrix of every block -/
noncomputable def buildFock (c : Caches) (sch : Sched) (dm : List (Dens.Orbs s.M)) : Res (ℝ × List (Matrix (Fin s.M) (Fin s.M) ℝ)) :=
  if s.restricted then buildR s c sch dm else buildU s c sch dm

/-- `batched_fock_builder`, `sadatom/scf.cpp:318-359`: `out[i]` is written by iteration `i` of a parallel loop run in the order `order`, each iteration with its own schedule -/
noncomputable def buildBatch (c : Caches) (sch : Nat → Sched) (order : List Nat) (dms : List (List (Dens.Orbs s.M))) : Res (List (Option (ℝ × List (Matrix (Fin s.M) (Fin s.M) ℝ)))) :=
  order.foldlM (fun (out : List (Option (ℝ × List (Matrix (Fin s.M) (Fin s.M) ℝ)))) i => readAt dms i >>= fun dm => buildFock s c (sch i) dm >>= fun r => .ok (out.set i (some r)))
    (List.replicate dms.length none)

end SadSCF
end HelFEM
