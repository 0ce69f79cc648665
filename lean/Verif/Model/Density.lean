import Verif.Model.Orth

/-!
# Block densities, saving, loading and Fock assembly

Models `src/general/scf_driver_common.h:176-520` and the load path of `src/atomic/main.cpp:591-648` and `src/diatomic/main.cpp:603-645`.
Matrices over the whole basis are functions of two indices, blocks are matrices over the positions of an index list. The entries `[k]` and `[nsym+k]` of the solver's
arrays are the `A` and `B` fields of block `k`.
-/

namespace HelFEM
namespace Dens

open Matrix Orth

/-- A symmetry block: its basis functions and its half-inverse overlap `Sinvh[k]`. -/
structure Block where
  idx : List Nat
  X : Matrix (Fin idx.length) (Fin idx.length) ℝ

/-- Orbitals and occupations of one block and spin. -/
structure Orbs (n : Nat) where
  p : Nat
  C : Matrix (Fin n) (Fin p) ℝ
  occ : Fin p → ℝ

/-- `P(idx, idx) += B`: coefficient by coefficient. -/
noncomputable def scatterAdd (P : Nat → Nat → ℝ) (idx : List Nat) (B : Matrix (Fin idx.length) (Fin idx.length) ℝ) : Nat → Nat → ℝ :=
  (List.finRange idx.length).foldl (fun (P : Nat → Nat → ℝ) (b : Fin idx.length) => (List.finRange idx.length).foldl (fun (P : Nat → Nat → ℝ) (a : Fin idx.length) =>
    fun i j => if i = idx[a] ∧ j = idx[b] then P i j + B a b else P i j) P) P

/-- `C diag(occ) Cᵀ` with `C = Sinvh_k orb`. -/
noncomputable def blockDensity (b : Block) (o : Orbs b.idx.length) (scale : ℝ) : Matrix (Fin b.idx.length) (Fin b.idx.length) ℝ :=
  (b.X * o.C) * diagonal (fun i => scale * o.occ i) * (b.X * o.C)ᵀ

/-- `accumulate_density_block`, `scf_driver_common.h:407-425`. A mirror list of another length is an Eigen assertion failure. -/
noncomputable def accumulate (P : Nat → Nat → ℝ) (b : Block) (o : Orbs b.idx.length) (mirror : List Nat) : Res (Nat → Nat → ℝ) :=
  if b.idx = [] then .ok P
  else if mirror = [] then .ok (scatterAdd P b.idx (blockDensity b o 1))
  else if h : mirror.length = b.idx.length then
    .ok (scatterAdd (scatterAdd P b.idx (blockDensity b o (1 / 2))) mirror ((blockDensity b o (1 / 2)).submatrix (Fin.cast h) (Fin.cast h)))
  else .ub

/-- The Fock builders' density of one spin: all blocks accumulated in order, `src/diatomic/main.cpp:353-357`, `src/atomic/main.cpp` likewise with no mirrors. -/
noncomputable def accumulateAll : List ((b : Block) × Orbs b.idx.length × List Nat) → (Nat → Nat → ℝ) → Res (Nat → Nat → ℝ)
  | [], P => .ok P
  | ⟨b, o, mirror⟩ :: r, P =>
    match accumulate P b o mirror with
    | .ok P' => accumulateAll r P'
    | .throw e => .throw e
    | .ub => .ub

/-- One step of `assemble_final_density`, `scf_driver_common.h:275-288`; in restricted mode the weight one half is applied to the matrix. -/
noncomputable def finalStep (restricted : Bool) (P : (Nat → Nat → ℝ) × (Nat → Nat → ℝ)) (e : (b : Block) × Orbs b.idx.length × Orbs b.idx.length) :
    (Nat → Nat → ℝ) × (Nat → Nat → ℝ) :=
  if e.1.idx = [] then P
  else if restricted then
    let B := (1 / 2 : ℝ) • blockDensity e.1 e.2.1 1
    (scatterAdd P.1 e.1.idx B, scatterAdd P.2 e.1.idx B)
  else (scatterAdd P.1 e.1.idx (blockDensity e.1 e.2.1 1), scatterAdd P.2 e.1.idx (blockDensity e.1 e.2.2 1))

/-- `assemble_final_density`, `scf_driver_common.h:264-291`. -/
noncomputable def assembleFinal (restricted : Bool) (blocks : List ((b : Block) × Orbs b.idx.length × Orbs b.idx.length)) : (Nat → Nat → ℝ) × (Nat → Nat → ℝ) :=
  blocks.foldl (finalStep restricted) (fun _ _ => 0, fun _ _ => 0)

/-- `fill_block_from_density`, `scf_driver_common.h:228-256`. -/
noncomputable def fillBlock (s : Solvers) (P : Nat → Nat → ℝ) (b : Block) (maxOcc : ℝ) : Res (Orbs b.idx.length) :=
  match s.eig b.idx.length (b.Xᵀ * gather P b.idx * b.X) with
  | none => .throw .logicError
  | some (v, V) => .ok ⟨b.idx.length, V.submatrix id Fin.rev, fun i => min (max (v (Fin.rev i)) 0) maxOcc⟩

/-- The projection of a stored density to the current basis and its rescaling, `src/atomic/main.cpp:604-621`, `src/diatomic/main.cpp:617-626`. -/
noncomputable def projectDensity {n n' : Nat} (Xfull S : Matrix (Fin n) (Fin n) ℝ) (S12 : Matrix (Fin n) (Fin n') ℝ) (Pold : Matrix (Fin n') (Fin n') ℝ) (nel : ℝ) :
    Matrix (Fin n) (Fin n) ℝ :=
  let Pproj := Xfull * Xfullᵀ * S12
  let P := Pproj * Pold * Pprojᵀ
  let na := (P * S).trace
  if 0 < na ∧ 0 < nel then (nel / na) • P else P

/-- `orthonormalize_fock_block`, `scf_driver_common.h:433-445`. -/
noncomputable def orthFock (b : Block) (F : Nat → Nat → ℝ) : Matrix (Fin b.idx.length) (Fin b.idx.length) ℝ := b.Xᵀ * gather F b.idx * b.X

/-- The ingredients of a Fock matrix over the whole basis. -/
structure Ingredients where
  H1 : Nat → Nat → ℝ
  J : Nat → Nat → ℝ
  XCa : Nat → Nat → ℝ
  XCb : Nat → Nat → ℝ
  Ka : Nat → Nat → ℝ
  Kb : Nat → Nat → ℝ
  S : Nat → Nat → ℝ
  haveXC : Bool
  haveExx : Bool
  haveB : Bool
  Bz : ℝ

/-- The restricted Fock matrix, `scf_driver_common.h:500-503`. -/
noncomputable def fockR (g : Ingredients) : Nat → Nat → ℝ :=
  let F := fun i j => g.H1 i j + g.J i j
  let F := if g.haveXC then fun i j => F i j + g.XCa i j else F
  if g.haveExx then fun i j => F i j + g.Ka i j else F

/-- The two spin Fock matrices, `scf_driver_common.h:506-514`. -/
noncomputable def fockU (g : Ingredients) : (Nat → Nat → ℝ) × (Nat → Nat → ℝ) :=
  let F := fun i j => g.H1 i j + g.J i j
  let Fa := if g.haveXC then fun i j => F i j + g.XCa i j else F
  let Fb := if g.haveXC then fun i j => F i j + g.XCb i j else F
  let Fa := if g.haveExx then fun i j => Fa i j + g.Ka i j else Fa
  let Fb := if g.haveExx then fun i j => Fb i j + g.Kb i j else Fb
  if g.haveB then (fun i j => Fa i j - 0.5 * g.Bz * g.S i j, fun i j => Fb i j + 0.5 * g.Bz * g.S i j) else (Fa, Fb)

/-- `assemble_fock_blocks`, `scf_driver_common.h:490-520`: the alpha and (if unrestricted) beta matrix of one block. -/
noncomputable def fockBlock (restricted : Bool) (g : Ingredients) (b : Block) :
    Matrix (Fin b.idx.length) (Fin b.idx.length) ℝ × Option (Matrix (Fin b.idx.length) (Fin b.idx.length) ℝ) :=
  if restricted then (orthFock b (fockR g), none) else (orthFock b (fockU g).1, some (orthFock b (fockU g).2))

/-- `build_coreH_from_H0`, `scf_driver_common.h:195-216`: particle type `t` of `nparttype`. -/
noncomputable def coreH (H0 S : Nat → Nat → ℝ) (b : Block) (nparttype t : Nat) (haveB : Bool) (Bz : ℝ) : Matrix (Fin b.idx.length) (Fin b.idx.length) ℝ :=
  let H := gather H0 b.idx
  let H := if haveB ∧ nparttype = 2 then H + ((if t = 0 then -0.5 else 0.5) * Bz) • gather S b.idx else H
  b.Xᵀ * H * b.X

/-- `assemble_hf_exchange`, `scf_driver_common.h:460-474`: the matrices (`Kb` unchanged in restricted mode) and the energy. -/
noncomputable def hfExchange {n : Nat} (Ka0 Kb0 Pa Pb : Matrix (Fin n) (Fin n) ℝ) (restricted haveExx : Bool) (fn : Matrix (Fin n) (Fin n) ℝ → Matrix (Fin n) (Fin n) ℝ) :
    Matrix (Fin n) (Fin n) ℝ × Matrix (Fin n) (Fin n) ℝ × ℝ :=
  if !haveExx then (Ka0, Kb0, 0)
  else
    let Ka := fn Pa
    let E := 0.5 * (Pa * Ka).trace
    if !restricted then
      let Kb := fn Pb
      (Ka, Kb, E + 0.5 * (Pb * Kb).trace)
    else (Ka, Kb0, E * 2.0)

end Dens
end HelFEM
