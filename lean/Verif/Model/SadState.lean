import Verif.Model.SadSCF
import Verif.Model.SadOccs

/-!
# Start, result, saving and loading of the spherically averaged atom

Models the rest of `run_atomic_scf`, `src/sadatom/scf.cpp:30-48, 354-381, 408-670`. The solver is left out: its start is what it is initialised with, its answer is given. A checkpoint is the
record of what was written to it; the parameters of the old basis appear only through its overlap with the current one. Numbers are exact reals.
-/

namespace HelFEM
namespace SadSCF

open Matrix

variable (s : Setup)

/-- the potential of the first Fock matrix, `sadatom/scf.cpp:358-370`: `model k` is the matrix of the model potential number `k` -/
noncomputable def guessPotential (iguess : Int) (model : Int → Matrix (Fin s.N) (Fin s.N) ℝ) : Res (Matrix (Fin s.N) (Fin s.N) ℝ) :=
  if iguess ≠ 0 then (if iguess = 1 ∨ iguess = 2 ∨ iguess = 3 ∨ iguess = 4 then .ok (model iguess) else .throw .logicError) else .ok s.Vnuc

/-- one block of `CoreH`, `sadatom/scf.cpp:375-378` -/
noncomputable def coreBlock (V : Matrix (Fin s.N) (Fin s.N) ℝ) (l : Nat) : Matrix (Fin s.M) (Fin s.M) ℝ :=
  let H := s.T + V
  let H := if s.haveConf then H + s.Vconf else H
  let H := if 0 < l then H + (l * (l + 1) : ℝ) • s.Tl else H
  s.Xᵀ * H * s.X

/-- `CoreH`, `sadatom/scf.cpp:372-380` -/
noncomputable def coreStart (iguess : Int) (model : Int → Matrix (Fin s.N) (Fin s.N) ℝ) : Res (List (Matrix (Fin s.M) (Fin s.M) ℝ)) :=
  guessPotential s iguess model >>= fun V => .ok ((List.range (if s.restricted then 1 else 2)).flatMap fun _ => (List.range s.nblock).map (coreBlock s V))

/-- `extract_channel`, `sadatom/scf.cpp:547-564`: orbitals with their occupations, rounded counts -/
noncomputable def extractChannel (sol : List (Dens.Orbs s.M)) (t : Nat) : Res (List (Dens.Orbs s.N) × List Int) :=
  (List.range s.nblock).mapM (fun l => readAt sol (t * s.nblock + l) >>= fun o => toInt (roundAway (∑ i, o.occ i)) >>= fun n => .ok ((⟨o.p, s.X * o.C, o.occ⟩ : Dens.Orbs s.N), n)) >>= fun r =>
    .ok (r.map Prod.fst, r.map Prod.snd)

open Classical in
/-- `build_cube`, `sadatom/scf.cpp:574-588` -/
noncomputable def buildCube {N : Nat} (orbs : List (Dens.Orbs N)) : List (Matrix (Fin N) (Fin N) ℝ) :=
  orbs.map fun o => if o.p = 0 ∨ ∀ i, |o.occ i| = 0 then 0 else o.C * diagonal o.occ * o.Cᵀ

/-- `AtomicSCFResult`, `sadatom/scf.h:100-138`, without the basis -/
structure Result (N : Nat) where
  orbsA : List (Dens.Orbs N)
  occsA : List Int
  PlA : List (Matrix (Fin N) (Fin N) ℝ)
  orbsB : List (Dens.Orbs N)
  occsB : List Int
  PlB : List (Matrix (Fin N) (Fin N) ℝ)
  Prad : Matrix (Fin N) (Fin N) ℝ

/-- what is returned for the orbitals of the solver, `sadatom/scf.cpp:539-600` -/
noncomputable def result (sol : List (Dens.Orbs s.M)) : Res (Result s.N) :=
  extractChannel s sol 0 >>= fun a => (if s.restricted then .ok ([], []) else extractChannel s sol 1) >>= fun b =>
    let Pa := buildCube a.1
    let Pb := buildCube b.1
    .ok ⟨a.1, a.2, Pa, b.1, b.2, Pb, Pb.foldl (· + ·) (Pa.foldl (· + ·) 0)⟩

/-- `occ_save_threshold`, `sadatom/scf.cpp:48` -/
noncomputable def occSaveThreshold : ℝ := 0.0

/-- `write_orbitals` for one angular momentum, `sadatom/scf.cpp:632-643` -/
noncomputable def keptOrbs {N : Nat} (o : Dens.Orbs N) : Dens.Orbs N :=
  let keep := (List.finRange o.p).filter fun i => decide (occSaveThreshold < |o.occ i|)
  ⟨keep.length, o.C.submatrix id keep.get, fun k => o.occ (keep.get k)⟩

/-- A checkpoint over `n` radial functions: keys which are absent are `none`. -/
structure Saved (n : Nat) where
  lmax : Nat
  Pal : Nat → Option (Matrix (Fin n) (Fin n) ℝ)
  Pbl : Nat → Option (Matrix (Fin n) (Fin n) ℝ)
  orbsA : List (Dens.Orbs n)
  orbsB : List (Dens.Orbs n)
  occsA : Option (List Int)
  occsB : Option (List Int)

/-- what is written, `sadatom/scf.cpp:614-667` -/
noncomputable def save (r : Result s.N) : Saved s.N where
  lmax := s.lmax
  Pal := fun l => r.PlA[l]?
  Pbl := fun l => if s.restricted then none else r.PlB[l]?
  orbsA := r.orbsA.map keptOrbs
  orbsB := if s.restricted then [] else r.orbsB.map keptOrbs
  occsA := some r.occsA
  occsB := if s.restricted then none else some r.occsB

/-- the slices read back, `sadatom/scf.cpp:443-472` -/
noncomputable def readCube {n : Nat} (oldLmax : Nat) (P : Nat → Option (Matrix (Fin n) (Fin n) ℝ)) : List (Matrix (Fin n) (Fin n) ℝ) :=
  match P 0 with
  | none => []
  | some P0 => (List.range (oldLmax + 1)).map fun l => if l = 0 then P0 else (P l).getD 0

/-- `Pl_new`, `sadatom/scf.cpp:434-436, 479-487`: `S12` is the overlap with the old basis -/
noncomputable def projected {n : Nat} (S : Matrix (Fin s.N) (Fin s.N) ℝ) (S12 : Matrix (Fin s.N) (Fin n) ℝ) (oldLmax : Nat) (cube : List (Matrix (Fin n) (Fin n) ℝ)) (l : Nat) (perL : ℝ) :
    Matrix (Fin s.N) (Fin s.N) ℝ :=
  match cube[l]? with
  | some Pl =>
    if l ≤ oldLmax then
      let Pproj := s.X * s.Xᵀ * S12
      let P := Pproj * Pl * Pprojᵀ
      let now := (P * S).trace
      if 0 < now ∧ 0 < perL then (perL / now) • P else P
    else 0
  | none => 0

/-- `fill_l`, `sadatom/scf.cpp:477-506` -/
noncomputable def fillShell (sv : Orth.Solvers) (P : Matrix (Fin s.N) (Fin s.N) ℝ) (maxOcc : ℝ) : Res (Dens.Orbs s.M) :=
  match sv.eig s.M (s.Xᵀ * P * s.X) with
  | none => .throw .logicError
  | some (v, V) => .ok ⟨s.M, V.submatrix id Fin.rev, fun i => min (max (v (Fin.rev i)) 0.0) maxOcc⟩

/-- `per_l`, `sadatom/scf.cpp:522-523` -/
noncomputable def perShell (occs : Option (List Int)) (l : Nat) : ℝ :=
  match occs with
  | none => 0.0
  | some v => match v[l]? with
    | none => 0.0
    | some n => (n : ℝ)

/-- the start from a checkpoint, `sadatom/scf.cpp:443-534`: alpha blocks, then beta blocks -/
noncomputable def loadStart {n : Nat} (sv : Orth.Solvers) (S : Matrix (Fin s.N) (Fin s.N) ℝ) (S12 : Matrix (Fin s.N) (Fin n) ℝ) (chk : Saved n) : Res (List (Dens.Orbs s.M)) :=
  let A := readCube chk.lmax chk.Pal
  let B := if s.restricted then [] else readCube chk.lmax chk.Pbl
  (List.range s.nblock).mapM (fun (l : Nat) => fillShell s sv (projected s S S12 chk.lmax A l (perShell chk.occsA l)) (if s.restricted then 2.0 * (2 * l + 1) else 2.0 * l + 1)) >>= fun a =>
    (if s.restricted then .ok [] else
      (List.range s.nblock).mapM fun (l : Nat) => fillShell s sv (projected s S S12 chk.lmax B l (perShell chk.occsB l)) (2.0 * l + 1)) >>= fun b => .ok (a ++ b)

end SadSCF
end HelFEM
