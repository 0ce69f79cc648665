import Verif.Model.SadSCF

/-!
# The Fock builders of an atom in jellium

Models `src/sadatom/aij.cpp:364-618, 787-910`: the two Fock builders, the saved density, the saved Fock matrix, the start of the solver. Left out: option parsing, log lines, timers, the solver,
the orbital files. Numbers are exact reals and are written to files exactly (17 digits after the point are enough for a double).
-/

namespace HelFEM
namespace Aij

open Matrix XC AtomJK TwoE SadSCF

/-- What the builders work with, `aij.cpp:141-337`: the data of the atom, with the potential of the background in `Vconf`, and the two constant energies. The builders use nothing else of `s`:
no exchange fractions, no spin data. -/
structure Job where
  s : Setup
  Enucfield : ℝ
  Erep : ℝ

variable (j : Job)

/-- one angular momentum of the restricted density, `aij.cpp:392-406` -/
noncomputable def accR (a : Chan j.s.N) (Ekin : ℝ) (l : Nat) (o : Dens.Orbs j.s.M) : Res (Chan j.s.N × ℝ) :=
  if o.p = 0 then .ub
  else if ∀ i, |o.occ i| = 0 then .ok (a, Ekin)
  else
    let P := shellDensity j.s o
    .ok (⟨a.P + P, Function.update a.Pl l P⟩, Ekin + ((P * j.s.T).trace + (l * (l + 1) : ℝ) * (P * j.s.Tl).trace))

/-- `Prad`, `Pl`, `Ekin`, restricted -/
noncomputable def densR (dm : List (Dens.Orbs j.s.M)) : Res (Chan j.s.N × ℝ) :=
  (List.range (j.s.lmax + 1)).foldlM (fun (st : Chan j.s.N × ℝ) l => readAt dm l >>= accR j st.1 st.2 l) (Chan.empty j.s.N, 0)

/-- one angular momentum of the unrestricted densities, `aij.cpp:475-491`: the test looks at the alpha occupations -/
noncomputable def stepDens (dm : List (Dens.Orbs j.s.M)) (st : (Chan j.s.N × Chan j.s.N) × ℝ) (l : Nat) : Res ((Chan j.s.N × Chan j.s.N) × ℝ) :=
  readAt dm l >>= fun oa =>
    if oa.p = 0 then .ub
    else if ∀ i, |oa.occ i| = 0 then .ok st
    else readAt dm (l + j.s.lmax + 1) >>= fun ob =>
      let Pa := shellDensity j.s oa
      let Pb := shellDensity j.s ob
      .ok ((⟨st.1.1.P + Pa, Function.update st.1.1.Pl l Pa⟩, ⟨st.1.2.P + Pb, Function.update st.1.2.Pl l Pb⟩),
        st.2 + (((Pa + Pb) * j.s.T).trace + (l * (l + 1) : ℝ) * ((Pa + Pb) * j.s.Tl).trace))

/-- `Pal`, `Pbl`, `Ekin`, unrestricted; `Prad` is the sum of both totals -/
noncomputable def densU (dm : List (Dens.Orbs j.s.M)) : Res ((Chan j.s.N × Chan j.s.N) × ℝ) :=
  (List.range (j.s.lmax + 1)).foldlM (stepDens j dm) ((Chan.empty j.s.N, Chan.empty j.s.N), 0)

/-- the test for a functional, `aij.cpp:421, 509` -/
def Job.hasXC : Prop := 0 < j.s.fn.x ∨ 0 < j.s.fn.c

instance : Decidable j.hasXC := inferInstanceAs (Decidable (_ ∨ _))

/-- `XC`, `Exc`, restricted, `aij.cpp:418-431` -/
noncomputable def xcOne (sch : Sched) (a : Chan j.s.N) : Res (Cube × ℝ) :=
  if j.hasXC then (sadGrid1 j.s.env j.s.fn (dividedCube j.s a.Pl) sch.elems >>= fun t => .ok (t.H, t.exc)) else .ok (⟨0, fun _ => Mat.zero 0 0⟩, 0)

/-- `XCa`, `XCb`, `Exc`, unrestricted, `aij.cpp:506-520`: beta is always asked for -/
noncomputable def xcTwo (sch : Sched) (a b : Chan j.s.N) : Res ((Cube × Cube) × ℝ) :=
  if j.hasXC then (sadGrid2 j.s.env j.s.fn (dividedCube j.s a.Pl) (dividedCube j.s b.Pl) true sch.elems >>= fun t => .ok ((t.Ha, t.Hb), t.exc))
  else .ok ((⟨0, fun _ => Mat.zero 0 0⟩, ⟨0, fun _ => Mat.zero 0 0⟩), 0)

/-- a block of the Fock matrix, `aij.cpp:447-452, 536-545` -/
noncomputable def block (J : Matrix (Fin j.s.N) (Fin j.s.N) ℝ) (xc : Cube) (l : Nat) : Res (Matrix (Fin j.s.M) (Fin j.s.M) ℝ) :=
  let F := j.s.T + (l * (l + 1) : ℝ) • j.s.Tl + j.s.Vnuc + j.s.Vconf + J
  (if j.hasXC then (xcAt j.s xc l >>= fun H => .ok (F + H)) else .ok F) >>= fun F => .ok (j.s.Xᵀ * F * j.s.X)

/-- `restricted_builder`, `aij.cpp:378-459` -/
noncomputable def builderR (c : Caches) (sch : Sched) (dm : List (Dens.Orbs j.s.M)) : Res (ℝ × List (Matrix (Fin j.s.M) (Fin j.s.M) ℝ)) :=
  densR j dm >>= fun a => coulombJ j.s c a.1.P >>= fun J => xcOne j sch a.1 >>= fun xc =>
    (List.range (j.s.lmax + 1)).mapM (block j J xc.1) >>= fun F =>
      .ok (a.2 + (a.1.P * j.s.Vnuc).trace + j.Enucfield + (a.1.P * j.s.Vconf).trace + j.Erep + 0.5 * (a.1.P * J).trace + xc.2, F)

/-- `unrestricted_builder`, `aij.cpp:462-553`: the alpha blocks, then the beta blocks -/
noncomputable def builderU (c : Caches) (sch : Sched) (dm : List (Dens.Orbs j.s.M)) : Res (ℝ × List (Matrix (Fin j.s.M) (Fin j.s.M) ℝ)) :=
  densU j dm >>= fun g => coulombJ j.s c (g.1.1.P + g.1.2.P) >>= fun J => xcTwo j sch g.1.1 g.1.2 >>= fun xc =>
    (List.range (j.s.lmax + 1)).mapM (block j J xc.1.1) >>= fun Fa => (List.range (j.s.lmax + 1)).mapM (block j J xc.1.2) >>= fun Fb =>
      .ok (g.2 + ((g.1.1.P + g.1.2.P) * j.s.Vnuc).trace + j.Enucfield + ((g.1.1.P + g.1.2.P) * j.s.Vconf).trace + j.Erep + 0.5 * ((g.1.1.P + g.1.2.P) * J).trace + xc.2, Fa ++ Fb)

/-- the density matrix that is evaluated and written out, `aij.cpp:555-578`: `radial_density_matrix` and the division by the angular factor -/
noncomputable def savedDensity (dm : List (Dens.Orbs j.s.M)) : Res (Matrix (Fin j.s.N) (Fin j.s.N) ℝ) :=
  (List.range (j.s.lmax + 1)).foldlM (fun (P : Matrix (Fin j.s.N) (Fin j.s.N) ℝ) l => readAt dm l >>= fun o =>
    if o.p = 0 then .ub else if ∀ i, |o.occ i| = 0 then .ok P else .ok (P + shellDensity j.s o)) 0 >>= fun P => .ok ((1 / angfac) • P)

/-- a block of the core guess, `aij.cpp:812, 884` -/
noncomputable def coreBlock (l : Nat) : Matrix (Fin j.s.M) (Fin j.s.M) ℝ := j.s.Xᵀ * (j.s.T + (l * (l + 1) : ℝ) • j.s.Tl + j.s.Vnuc + j.s.Vconf) * j.s.X

/-! ### The file of Fock matrices -/

/-- A file: the words of the first line, which are whole numbers or no numbers (`none`), and the words after it. Fewer than three words in the first line mean that the file ends there. -/
structure FockFile where
  header : List (Option Nat)
  body : List (Option ℝ)

/-- `save_fock`, `aij.cpp:584-597` -/
noncomputable def saveFock : List (Mat ℝ) → Res FockFile
  | [] => .ub
  | F0 :: Fs => .ok ⟨[some (F0 :: Fs).length, some F0.rows, some F0.cols],
      (F0 :: Fs).flatMap fun F => (List.range F.rows).flatMap fun r => (List.range F.cols).map fun c => some (F.get r c)⟩

/-- `load_fock`, `aij.cpp:599-614`. A number that cannot be read leaves the ones after it without a value; a third one that is no number is zero, and the failure is noticed. -/
noncomputable def loadFock (f : FockFile) : Res (List (Mat ℝ)) :=
  match f.header with
  | some nb :: some nr :: some nc :: _ =>
    if nb * nr * nc ≤ f.body.length ∧ ∀ w ∈ f.body.take (nb * nr * nc), w.isSome then
      .ok ((List.range nb).map fun i => ⟨nr, nc, fun r c => (f.body[i * (nr * nc) + (r * nc + c)]?.join).getD 0⟩)
    else .throw .runtimeError
  | some _ :: some _ :: none :: _ => .throw .runtimeError
  | _ => .ub

/-- the first Fock matrix, restricted, `aij.cpp:809-823` -/
noncomputable def startR (f : Option FockFile) : Res (List (Mat ℝ)) :=
  match f with
  | none => .ok ((List.range (j.s.lmax + 1)).map fun l => toMat (coreBlock j l))
  | some f => loadFock f >>= fun F => if F.length = j.s.lmax + 1 ∨ F.length = 2 * j.s.lmax + 2 then (List.range (j.s.lmax + 1)).mapM (readAt F) else .throw .logicError

/-- one angular momentum of the unrestricted start: both spins -/
noncomputable def startStep (F : List (Mat ℝ)) (l : Nat) : Res (Mat ℝ × Mat ℝ) :=
  readAt F l >>= fun a => if F.length = j.s.lmax + 1 then .ok (a, a) else if F.length = 2 * j.s.lmax + 2 then (readAt F (l + j.s.lmax + 1) >>= fun b => .ok (a, b)) else .throw .logicError

/-- the first Fock matrix, unrestricted, `aij.cpp:881-900`: the alpha blocks, then the beta blocks -/
noncomputable def startU (f : Option FockFile) : Res (List (Mat ℝ)) :=
  match f with
  | none => .ok (((List.range (j.s.lmax + 1)).map fun l => toMat (coreBlock j l)) ++ (List.range (j.s.lmax + 1)).map fun l => toMat (coreBlock j l))
  | some f => loadFock f >>= fun F => (List.range (j.s.lmax + 1)).mapM (startStep j F) >>= fun p => .ok (p.map Prod.fst ++ p.map Prod.snd)

end Aij
end HelFEM
