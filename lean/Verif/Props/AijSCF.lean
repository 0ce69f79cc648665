import Verif.Lemmas.AijSCF
import Verif.Props.SadSCF

/-!
# C86: the Fock builders of an atom in jellium

In both spin modes the energy handed to the solver is the energy functional of the densities plus the constants of the background, and the Fock blocks are its derivative, as long as no shell
holds beta electrons without alpha electrons. The beta electrons of such a shell are dropped.
-/

namespace HelFEM
namespace Aij

open Matrix Finset XC AtomJK TwoE SadSCF
open SadSCF.Spec (Kernels Represents GridOk Complete Physical density orthDensity)

/-! ### A job for the examples -/

/-- the atom of the examples of the spherically averaged atom, with or without functionals -/
noncomputable def exJob (fn : Funcs) : Job := ⟨{ exSetup true 0 (1 / 2) true with fn := fn }, 3, 5⟩

/-- a functional of a density and a gradient part, as given by the user: a negative number stands for none -/
def exFn : Funcs := ⟨2, [], -1, [], 0⟩

/-- none -/
def noFn : Funcs := ⟨0, [], 0, [], 0⟩

theorem exRep (fn : Funcs) : ∃ c k, ∀ r, Represents (Spec.atom (exJob fn) r) c k := by
  obtain ⟨c, k, -, h⟩ := exPlain true 0 true
  exact ⟨c, k, fun r => ⟨h.coulomb, h.coulomb_pair, h.coulomb_swap, h.full, h.full_symm, fun h => absurd rfl h, fun h => absurd rfl h⟩⟩

theorem exGridJ (r : Bool) {fn : Funcs} (hx : fn.x ≤ 4) (hc : fn.c ≤ 4) (hxp : fn.xp = []) (hcp : fn.cp = []) : GridOk (Spec.atom (exJob fn) r) :=
  ⟨toy_usable (show max fn.x 0 ≤ 4 by omega) _ hxp, toy_usable (show max fn.c 0 ≤ 4 by omega) _ hcp, (exGrid r 0 0 true).idx, (exGrid r 0 0 true).r⟩

theorem exCompleteJ (fn : Funcs) (r : Bool) : Complete (Spec.atom (exJob fn) r) exSched :=
  ⟨(exComplete r 0 0 true).gaunt, (exComplete r 0 0 true).lout, (exComplete r 0 0 true).gaunt', (exComplete r 0 0 true).lout', (exComplete r 0 0 true).elems⟩

theorem exOneJ (fn : Funcs) (r : Bool) : SadSCF.Spec.OneSymm (Spec.atom (exJob fn) r) := ⟨(exOne r 0 0 true).T, (exOne r 0 0 true).Tl, (exOne r 0 0 true).Vnuc, (exOne r 0 0 true).Vconf⟩

variable {j : Job} {c : Caches} {k : Kernels}

theorem shift_ok {α : Type} {x : Res (ℝ × α)} {E : ℝ} {F : α} (h : x = .ok (E, F)) : (x >>= fun x => Res.ok (shift j x)) = .ok (E + j.Enucfield + j.Erep, F) := by
  rw [h]
  rfl

/-- **C86, energy.** The restricted builder returns the energy of the density in the field of the nucleus and the background, with the constants, and one Fock matrix per shell, the same ones in
whatever order the parallel loops run. -/
theorem C86_energy (hk : Represents (Spec.atom j true) c k) (hg : GridOk (Spec.atom j true)) (o : Nat → Dens.Orbs j.s.M) (ho : ∀ l ≤ j.s.lmax, Physical (o l)) :
    ∃ F, F.length = j.s.lmax + 1 ∧ ∀ sch, Complete (Spec.atom j true) sch → builderR j c sch ((List.range (j.s.lmax + 1)).map o) = .ok (Spec.energyR j k fun l => density j.s.X (o l), F) := by
  obtain ⟨F, h1, h2⟩ := C75_energy hk hg rfl o ho
  exact ⟨F, h1, fun sch hs => (builderR_eq hk sch _).trans (shift_ok (h2 sch hs))⟩

example : ∃ (c : Caches) (k : Kernels) (F : List (Matrix (Fin 2) (Fin 2) ℝ)), F.length = 2 ∧
    builderR (exJob exFn) c exSched ((List.range 2).map (exOrbs 2)) = .ok (Spec.energyR (exJob exFn) k fun l => density (exJob exFn).s.X (exOrbs 2 l), F) := by
  obtain ⟨c, k, h⟩ := exRep exFn
  obtain ⟨F, h1, h2⟩ := C86_energy (h true) (exGridJ true (by decide) (by decide) rfl rfl) (exOrbs 2) fun l _ => exPhysical (by norm_num) l
  exact ⟨c, k, F, h1, h2 _ (exCompleteJ _ _)⟩

/-- **C86, gradient.** Along any motion of the orbitals or occupations the energy changes by the traces of the Fock blocks with the change of the density. -/
theorem C86_gradient (hk : Represents (Spec.atom j true) c k) (hg : GridOk (Spec.atom j true)) {sch : Sched} (hsch : Complete (Spec.atom j true) sch) (o : ℝ → Nat → Dens.Orbs j.s.M) (t0 : ℝ)
    (Δ : Nat → Matrix (Fin j.s.M) (Fin j.s.M) ℝ) (hΔ : ∀ l ≤ j.s.lmax, ∀ a b, HasDerivAt (fun t => orthDensity (o t l) a b) (Δ l a b) t0) (ho : ∀ l ≤ j.s.lmax, Physical (o t0 l))
    (hx : SadSCF.Spec.SmoothR (Spec.atom j true) fun l => density j.s.X (o t0 l)) :
    ∃ (E : ℝ → ℝ) (F : List (Matrix (Fin j.s.M) (Fin j.s.M) ℝ)), builderR j c sch ((List.range (j.s.lmax + 1)).map (o t0)) = .ok (E t0, F) ∧
      (∀ t, (∀ l ≤ j.s.lmax, Physical (o t l)) → ∃ F', builderR j c sch ((List.range (j.s.lmax + 1)).map (o t)) = .ok (E t, F')) ∧
      HasDerivAt E (∑ l ∈ range (j.s.lmax + 1), (F.getD l 0 * Δ l).trace) t0 := by
  obtain ⟨E, F, h1, h2, h3⟩ := C75_gradient hk hg rfl hsch o t0 Δ hΔ ho hx
  refine ⟨fun t => E t + j.Enucfield + j.Erep, F, (builderR_eq hk sch _).trans (shift_ok h1), fun t ht => ?_, (h3.add_const _).add_const _⟩
  obtain ⟨F', h⟩ := h2 t ht
  exact ⟨F', (builderR_eq hk sch _).trans (shift_ok h)⟩

example : ∃ (c : Caches) (E : ℝ → ℝ) (F : List (Matrix (Fin 2) (Fin 2) ℝ)), builderR (exJob exFn) c exSched ((List.range 2).map (exOrbs 2)) = .ok (E 2, F) ∧
    (∀ t, 0 ≤ t → ∃ F', builderR (exJob exFn) c exSched ((List.range 2).map (exOrbs t)) = .ok (E t, F')) ∧ HasDerivAt E (∑ l ∈ range 2, (F.getD l 0 * diagonal ![1, 0]).trace) 2 := by
  obtain ⟨c, k, h⟩ := exRep exFn
  obtain ⟨E, F, h1, h2, h3⟩ := C86_gradient (h true) (exGridJ true (by decide) (by decide) rfl rfl) (exCompleteJ _ _) exOrbs 2 (fun _ => diagonal ![1, 0]) (fun l _ => exOrbs_moves l)
    (fun l _ => exPhysical (by norm_num) l) fun x _ => ⟨toy_consistent (show max (2 : Int) 0 ≤ 4 by decide) _ _ _, toy_consistent (show max (-1 : Int) 0 ≤ 4 by decide) _ _ _⟩
  exact ⟨c, E, F, h1, fun t ht => h2 t fun l _ => exPhysical ht l, h3⟩

theorem seen_self {oa ob : Nat → Dens.Orbs j.s.M} {l : Nat} (h : Spec.Empty (oa l) → Spec.Empty (ob l)) : density j.s.X (seen oa ob l) = density j.s.X (ob l) := by
  by_cases he : Spec.Empty (oa l)
  · have : seen oa ob l = oa l := by
      unfold seen
      rw [if_pos he]
    rw [this, density_empty _ _ he, density_empty _ _ (h he)]
  · have : seen oa ob l = ob l := by
      unfold seen
      rw [if_neg he]
    rw [this]

open Classical in
/-- If no shell holds beta electrons only, what the unrestricted builder returns is what the spherically averaged atom returns, with the constants. -/
theorem builderU_full (hk : Represents (Spec.atom j false) c k) (hg : GridOk (Spec.atom j false)) {oa ob : Nat → Dens.Orbs j.s.M} (ha : ∀ l ≤ j.s.lmax, Physical (oa l))
    (hb : ∀ l ≤ j.s.lmax, Physical (ob l)) (he : ∀ l ≤ j.s.lmax, Spec.Empty (oa l) → Spec.Empty (ob l)) {sch : Sched} (hsch : Complete (Spec.atom j false) sch) :
    builderU j c sch ((List.range (j.s.lmax + 1)).map oa ++ (List.range (j.s.lmax + 1)).map ob) =
      buildFock (Spec.atom j false) c sch (SadSCF.Spec.blocks (Spec.atom j false) oa ++ SadSCF.Spec.blocks (Spec.atom j false) ob) >>= fun x => .ok (shift j x) := by
  have hw : both j oa (seen oa ob) = both j oa fun l => if l ≤ j.s.lmax then seen oa ob l else ob l := by
    unfold both
    congr 1
    exact List.map_congr_left fun l hl => (if_pos (Nat.lt_succ_iff.1 (List.mem_range.1 hl))).symm
  have hd : (fun l => density j.s.X (if l ≤ j.s.lmax then seen oa ob l else ob l)) = fun l => density j.s.X (ob l) := by
    funext l
    split
    · exact seen_self (he l ‹_›)
    · rfl
  refine (builderU_eq hk sch oa ob (fun l hl => (ha l hl).1) fun l hl => (hb l hl).1).trans ?_
  rw [hw]
  have h1 := unrestricted_ok hk hg (show (Spec.atom j false).restricted = false from rfl) (oa := oa) (ob := fun l => if l ≤ j.s.lmax then seen oa ob l else ob l) ha (fun l hl => by
    rw [if_pos hl]
    exact seen_ind Physical (ha l hl) (hb l hl)) hsch
  have h2 := unrestricted_ok hk hg (show (Spec.atom j false).restricted = false from rfl) (oa := oa) (ob := ob) ha hb hsch
  rw [hd] at h1
  have h3 := h1.trans h2.symm
  exact congrArg (· >>= fun x => Res.ok (shift j x)) h3

/-- **C86, energy, two spins.** As long as no shell holds beta electrons without alpha electrons, the unrestricted builder returns the energy of the two densities. -/
theorem C86_energy_unrestricted (hk : Represents (Spec.atom j false) c k) (hg : GridOk (Spec.atom j false)) (oa ob : Nat → Dens.Orbs j.s.M) (ha : ∀ l ≤ j.s.lmax, Physical (oa l))
    (hb : ∀ l ≤ j.s.lmax, Physical (ob l)) (he : ∀ l ≤ j.s.lmax, Spec.Empty (oa l) → Spec.Empty (ob l)) :
    ∃ Fa Fb, Fa.length = j.s.lmax + 1 ∧ Fb.length = j.s.lmax + 1 ∧ ∀ sch, Complete (Spec.atom j false) sch →
      builderU j c sch ((List.range (j.s.lmax + 1)).map oa ++ (List.range (j.s.lmax + 1)).map ob) = .ok (Spec.energyU j k (fun l => density j.s.X (oa l)) fun l => density j.s.X (ob l), Fa ++ Fb) := by
  obtain ⟨Fa, Fb, h1, h2, h3⟩ := C75_energy_unrestricted hk hg rfl oa ob ha hb
  exact ⟨Fa, Fb, h1, h2, fun sch hs => (builderU_full hk hg ha hb he hs).trans (shift_ok (h3 sch hs))⟩

example : ∃ (c : Caches) (k : Kernels) (Fa Fb : List (Matrix (Fin 2) (Fin 2) ℝ)), Fa.length = 2 ∧ Fb.length = 2 ∧ builderU (exJob exFn) c exSched ((List.range 2).map (exOrbs 2) ++ (List.range 2).map (exOrbs 1)) =
    .ok (Spec.energyU (exJob exFn) k (fun l => density (exJob exFn).s.X (exOrbs 2 l)) fun l => density (exJob exFn).s.X (exOrbs 1 l), Fa ++ Fb) := by
  obtain ⟨c, k, h⟩ := exRep exFn
  obtain ⟨Fa, Fb, h1, h2, h3⟩ := C86_energy_unrestricted (h false) (exGridJ false (by decide) (by decide) rfl rfl) (exOrbs 2) (exOrbs 1) (fun l _ => exPhysical (by norm_num) l)
    (fun l _ => exPhysical (by norm_num) l) fun l _ he => absurd (show (2 : ℝ) = 0 from he (0 : Fin 2)) (by norm_num)
  exact ⟨c, k, Fa, Fb, h1, h2, h3 _ (exCompleteJ _ _)⟩

/-- **C86, gradient, two spins.** -/
theorem C86_gradient_unrestricted (hk : Represents (Spec.atom j false) c k) (hg : GridOk (Spec.atom j false)) {sch : Sched} (hsch : Complete (Spec.atom j false) sch) (oa ob : ℝ → Nat → Dens.Orbs j.s.M)
    (t0 : ℝ) (Δa Δb : Nat → Matrix (Fin j.s.M) (Fin j.s.M) ℝ) (hΔa : ∀ l ≤ j.s.lmax, ∀ a b, HasDerivAt (fun t => orthDensity (oa t l) a b) (Δa l a b) t0)
    (hΔb : ∀ l ≤ j.s.lmax, ∀ a b, HasDerivAt (fun t => orthDensity (ob t l) a b) (Δb l a b) t0) (ha : ∀ l ≤ j.s.lmax, Physical (oa t0 l)) (hb : ∀ l ≤ j.s.lmax, Physical (ob t0 l))
    (he : ∀ l ≤ j.s.lmax, Spec.Empty (oa t0 l) → Spec.Empty (ob t0 l)) (hx : SadSCF.Spec.SmoothU (Spec.atom j false) (fun l => density j.s.X (oa t0 l)) fun l => density j.s.X (ob t0 l)) :
    ∃ (E : ℝ → ℝ) (Fa Fb : List (Matrix (Fin j.s.M) (Fin j.s.M) ℝ)), Fa.length = j.s.lmax + 1 ∧ builderU j c sch ((List.range (j.s.lmax + 1)).map (oa t0) ++ (List.range (j.s.lmax + 1)).map (ob t0)) = .ok (E t0, Fa ++ Fb) ∧
      (∀ t, (∀ l ≤ j.s.lmax, Physical (oa t l)) → (∀ l ≤ j.s.lmax, Physical (ob t l)) → (∀ l ≤ j.s.lmax, Spec.Empty (oa t l) → Spec.Empty (ob t l)) →
        ∃ F', builderU j c sch ((List.range (j.s.lmax + 1)).map (oa t) ++ (List.range (j.s.lmax + 1)).map (ob t)) = .ok (E t, F')) ∧
      HasDerivAt E (∑ l ∈ range (j.s.lmax + 1), ((Fa.getD l 0 * Δa l).trace + (Fb.getD l 0 * Δb l).trace)) t0 := by
  obtain ⟨E, Fa, Fb, h1, h2, h3, h4⟩ := C75_gradient_unrestricted hk hg rfl hsch oa ob t0 Δa Δb hΔa hΔb (Or.inl (show (0 : Int) < 1 by norm_num)) ha hb hx
  refine ⟨fun t => E t + j.Enucfield + j.Erep, Fa, Fb, h1, (builderU_full hk hg ha hb he hsch).trans (shift_ok h2), fun t h5 h6 h7 => ?_, (h4.add_const _).add_const _⟩
  obtain ⟨F', h⟩ := h3 t h5 h6
  exact ⟨F', (builderU_full hk hg h5 h6 h7 hsch).trans (shift_ok h)⟩

example : ∃ (c : Caches) (E : ℝ → ℝ) (Fa Fb : List (Matrix (Fin 2) (Fin 2) ℝ)), builderU (exJob exFn) c exSched ((List.range 2).map (exOrbs 2) ++ (List.range 2).map (exOrbs 2)) = .ok (E 2, Fa ++ Fb) ∧
    HasDerivAt E (∑ l ∈ range 2, ((Fa.getD l 0 * diagonal ![1, 0]).trace + (Fb.getD l 0 * diagonal ![1, 0]).trace)) 2 := by
  obtain ⟨c, k, h⟩ := exRep exFn
  obtain ⟨E, Fa, Fb, -, h1, -, h3⟩ := C86_gradient_unrestricted (h false) (exGridJ false (by decide) (by decide) rfl rfl) (exCompleteJ _ _) exOrbs exOrbs 2 (fun _ => diagonal ![1, 0]) (fun _ => diagonal ![1, 0])
    (fun l _ => exOrbs_moves l) (fun l _ => exOrbs_moves l) (fun l _ => exPhysical (by norm_num) l) (fun l _ => exPhysical (by norm_num) l)
    (fun l _ he => absurd (show (2 : ℝ) = 0 from he (0 : Fin 2)) (by norm_num))
    fun x _ => ⟨toy_consistent2 (show max (2 : Int) 0 ≤ 4 by decide) _ _ _, toy_consistent2 (show max (-1 : Int) 0 ≤ 4 by decide) _ _ _⟩
  exact ⟨c, E, Fa, Fb, h1, h3⟩

/-- **C86, symmetry.** The Fock blocks are symmetric if the one-electron matrices are. -/
theorem C86_symmetric {r : Bool} (hk : ∀ r, Represents (Spec.atom j r) c k) (hg : ∀ r, GridOk (Spec.atom j r)) (h1 : SadSCF.Spec.OneSymm (Spec.atom j r)) {sch : Sched} (hsch : ∀ r, Complete (Spec.atom j r) sch) (E : ℝ)
    (F : List (Matrix (Fin j.s.M) (Fin j.s.M) ℝ)) (oa ob : Nat → Dens.Orbs j.s.M) (ha : ∀ l ≤ j.s.lmax, Physical (oa l)) (hb : ∀ l ≤ j.s.lmax, Physical (ob l)) :
    (builderR j c sch ((List.range (j.s.lmax + 1)).map oa) = .ok (E, F) → ∀ A ∈ F, Aᵀ = A) ∧
      (builderU j c sch ((List.range (j.s.lmax + 1)).map oa ++ (List.range (j.s.lmax + 1)).map ob) = .ok (E, F) → ∀ A ∈ F, Aᵀ = A) := by
  have h1' : ∀ r, SadSCF.Spec.OneSymm (Spec.atom j r) := fun r => ⟨h1.T, h1.Tl, h1.Vnuc, h1.Vconf⟩
  constructor
  · intro h
    obtain ⟨G, -, h2⟩ := C75_energy (hk true) (hg true) rfl oa ha
    have h3 := h2 sch (hsch true)
    have := h.symm.trans ((builderR_eq (hk true) sch _).trans (shift_ok h3))
    rw [Res.ok.injEq, Prod.mk.injEq] at this
    rw [this.2]
    exact (C75_symmetric (hk true) (hg true) (h1' true) (hsch true) _ _).1 rfl oa ha h3
  · intro h
    have hs : ∀ l ≤ j.s.lmax, Physical (seen (j := j) oa ob l) := fun l hl => seen_ind Physical (ha l hl) (hb l hl)
    obtain ⟨Ga, Gb, -, -, h2⟩ := C75_energy_unrestricted (hk false) (hg false) rfl oa (seen oa ob) ha hs
    have h3 := h2 sch (hsch false)
    have := h.symm.trans ((builderU_eq (hk false) sch oa ob (fun l hl => (ha l hl).1) fun l hl => (hb l hl).1).trans (shift_ok h3))
    rw [Res.ok.injEq, Prod.mk.injEq] at this
    rw [this.2]
    exact (C75_symmetric (hk false) (hg false) (h1' false) (hsch false) _ _).2 rfl oa (seen oa ob) ha hs h3

example : ∃ (c : Caches) (E : ℝ) (F : List (Matrix (Fin 2) (Fin 2) ℝ)), builderR (exJob exFn) c exSched ((List.range 2).map (exOrbs 2)) = .ok (E, F) ∧ ∀ A ∈ F, Aᵀ = A := by
  obtain ⟨c, k, h⟩ := exRep exFn
  have hg : ∀ r, GridOk (Spec.atom (exJob exFn) r) := fun r => exGridJ r (by decide) (by decide) rfl rfl
  have hp : ∀ l ≤ (exJob exFn).s.lmax, Physical (exOrbs 2 l) := fun l _ => exPhysical (by norm_num) l
  obtain ⟨F, -, h2⟩ := C86_energy (h true) (hg true) (exOrbs 2) hp
  exact ⟨c, _, F, h2 exSched (exCompleteJ _ _), (C86_symmetric h hg (exOneJ exFn true) (exCompleteJ exFn) _ F (exOrbs 2) (exOrbs 2) hp hp).1 (h2 exSched (exCompleteJ _ _))⟩

/-- **C86, dropped electrons.** Where there are no alpha electrons, the beta orbitals make no difference to what the unrestricted builder returns: -/
theorem C86_beta_dropped (hk : Represents (Spec.atom j false) c k) (sch : Sched) (oa ob ob' : Nat → Dens.Orbs j.s.M) (ha : ∀ l ≤ j.s.lmax, (oa l).p ≠ 0) (hb : ∀ l ≤ j.s.lmax, (ob l).p ≠ 0)
    (hb' : ∀ l ≤ j.s.lmax, (ob' l).p ≠ 0) (h : ∀ l ≤ j.s.lmax, Spec.Empty (oa l) ∨ ob l = ob' l) :
    builderU j c sch ((List.range (j.s.lmax + 1)).map oa ++ (List.range (j.s.lmax + 1)).map ob) = builderU j c sch ((List.range (j.s.lmax + 1)).map oa ++ (List.range (j.s.lmax + 1)).map ob') := by
  refine (builderU_eq hk sch oa ob ha hb).trans ((builderU_eq hk sch oa ob' ha hb').trans ?_).symm
  have : both j oa (seen oa ob') = both j oa (seen oa ob) := by
    unfold both
    congr 1
    refine List.map_congr_left fun l hl => ?_
    unfold seen
    rcases h l (Nat.lt_succ_iff.1 (List.mem_range.1 hl)) with h | h
    · rw [if_pos h, if_pos h]
    · rw [h]
  rw [this]

/-- an s shell with `t` electrons in its first orbital -/
noncomputable def lone (t : ℝ) (l : Nat) : Dens.Orbs 2 := ⟨2, 1, ![if l = 0 then t else 0, 0]⟩

theorem lone_occ {t : ℝ} {l : Nat} {Q : ℝ → Prop} (h0 : Q 0) (ht : Q t) (i : Fin (lone t l).p) : Q ((lone t l).occ i) := by
  have : ∀ i : Fin 2, Q ((![if l = 0 then t else 0, 0] : Fin 2 → ℝ) i) := by
    rw [Fin.forall_fin_two]
    refine ⟨?_, h0⟩
    show Q (if l = 0 then t else 0)
    split
    · exact ht
    · exact h0
  exact this i

theorem lone_physical {t : ℝ} (ht : 0 ≤ t) (l : Nat) : Physical (lone t l) := ⟨two_ne_zero, lone_occ le_rfl ht⟩

theorem lone_empty (l : Nat) : Spec.Empty (lone 0 l) := lone_occ (Q := fun x => x = 0) rfl rfl

/-- their density matrix -/
noncomputable def loneD (t : ℝ) : Matrix (Fin 3) (Fin 3) ℝ := !![t, 0, t / 2; 0, 0, 0; t / 2, 0, t / 4]

theorem lone_density (t : ℝ) (l : Nat) : density (exJob noFn).s.X (lone t l) = if l = 0 then loneD t else 0 := by
  have e1 : (exJob noFn).s.X = (!![1, 0; 0, 1; 1 / 2, 1 / 2] : Matrix (Fin 3) (Fin 2) ℝ) := by
    ext (a : Fin 3) (b : Fin 2)
    fin_cases a <;> fin_cases b <;> simp [exJob, exSetup]
  have e2 : orthDensity (lone t l) = (!![if l = 0 then t else 0, 0; 0, 0] : Matrix (Fin 2) (Fin 2) ℝ) := by
    show (1 : Matrix (Fin 2) (Fin 2) ℝ) * diagonal (![if l = 0 then t else 0, 0] : Fin 2 → ℝ) * (1 : Matrix (Fin 2) (Fin 2) ℝ)ᵀ = _
    rw [transpose_one, Matrix.one_mul, Matrix.mul_one]
    ext a b
    fin_cases a <;> fin_cases b <;> rfl
  have e3 : density (exJob noFn).s.X (lone t l) = (!![1, 0; 0, 1; 1 / 2, 1 / 2] : Matrix (Fin 3) (Fin 2) ℝ) * !![if l = 0 then t else 0, 0; 0, 0] * (!![1, 0; 0, 1; 1 / 2, 1 / 2] : Matrix (Fin 3) (Fin 2) ℝ)ᵀ := by
    rw [← e1, ← e2]
    rfl
  rw [e3]
  by_cases h : l = 0
  · rw [if_pos h, if_pos h]
    ext (a : Fin 3) (b : Fin 3)
    fin_cases a <;> fin_cases b <;> simp [Matrix.mul_apply, Fin.sum_univ_succ, loneD] <;> ring
  · rw [if_neg h, if_neg h]
    ext (a : Fin 3) (b : Fin 3)
    fin_cases a <;> fin_cases b <;> simp [Matrix.mul_apply, Fin.sum_univ_succ]

theorem loneD_smul (t : ℝ) (a b : Fin 3) : loneD t a b = t * loneD 1 a b := by
  fin_cases a <;> fin_cases b <;> simp [loneD] <;> ring

theorem loneD_trace (t : ℝ) (B : Matrix (Fin 3) (Fin 3) ℝ) : (loneD t * B).trace = t * B 0 0 + t / 2 * B 2 0 + t / 2 * B 0 2 + t / 4 * B 2 2 := by
  simp only [Matrix.trace, diag_apply, Matrix.mul_apply, Fin.sum_univ_three]
  simp [loneD]
  ring

theorem exchange_zero {N lmax : Nat} (κ κ' : Nat → Nat → Nat → Nat → Nat → Nat → ℝ) (P : Nat → Matrix (Fin N) (Fin N) ℝ) :
    SadSCF.Spec.exchangeForm lmax (fun l l' a b c d => 0 * κ l l' a b c d + 0 * κ' l l' a b c d) P = 0 := by
  unfold SadSCF.Spec.exchangeForm
  simp

theorem xc_zero (env : Libxc) (xp cp : List ℝ) (thr : ℝ) (pts : List XC.Spec.SPoint) (A B : XC.Spec.Shells) : XC.Spec.senergy2 env 0 0 xp cp thr pts A B = 0 := by
  unfold XC.Spec.senergy2 XC.Spec.exc2
  simp

/-- the energy of the lone electrons: a multiple of their number and one of its square -/
theorem lone_energy (k : Kernels) (t : ℝ) : Spec.energyU (exJob noFn) k (fun l => density (exJob noFn).s.X (lone 0 l)) (fun l => density (exJob noFn).s.X (lone t l)) =
    41 / 30 * t + SadSCF.Spec.coulombEnergy k.q (loneD 1) * t ^ 2 + 8 := by
  have h0 : ∀ l, density (exJob noFn).s.X (lone 0 l) = 0 := fun l => density_empty _ _ (lone_empty l)
  have hc : SadSCF.Spec.coulombEnergy k.q (loneD t) = SadSCF.Spec.coulombEnergy k.q (loneD 1) * t ^ 2 := by
    unfold SadSCF.Spec.coulombEnergy
    rw [mul_assoc, sum_mul]
    congr 1
    refine sum_congr rfl fun a _ => ?_
    rw [sum_mul]
    refine sum_congr rfl fun b _ => ?_
    rw [sum_mul]
    refine sum_congr rfl fun c _ => ?_
    rw [sum_mul]
    refine sum_congr rfl fun d _ => ?_
    rw [loneD_smul t a b, loneD_smul t c d]
    ring
  have hs : ∑ l ∈ range 2, (density (exJob noFn).s.X (lone 0 l) + density (exJob noFn).s.X (lone t l)) = loneD t := by
    rw [sum_range_succ, sum_range_one, h0, h0, lone_density, lone_density, if_pos rfl, if_neg one_ne_zero]
    show (0 : Matrix (Fin 3) (Fin 3) ℝ) + loneD t + (0 + 0) = loneD t
    rw [zero_add, zero_add, add_zero]
  have ho : SadSCF.Spec.oneBody (Spec.atom (exJob noFn) false) (fun l => density (exJob noFn).s.X (lone 0 l) + density (exJob noFn).s.X (lone t l)) = 41 / 30 * t := by
    have e : (fun l => density (exJob noFn).s.X (lone 0 l) + density (exJob noFn).s.X (lone t l)) = fun l => if l = 0 then loneD t else 0 := funext fun l => by
      rw [h0, lone_density]
      exact zero_add _
    rw [e]
    show ∑ l ∈ range 2, (((if l = 0 then loneD t else 0) * (diagonal fun i : Fin 3 => (i : ℝ) + 1)).trace + (l * (l + 1) : ℝ) * ((if l = 0 then loneD t else 0) * diagonal fun i : Fin 3 => 1 / ((i : ℝ) + 1)).trace +
      ((if l = 0 then loneD t else 0) * Matrix.of fun i j : Fin 3 => -1 / ((i : ℝ) + j + 1)).trace + if true = true then ((if l = 0 then loneD t else 0) * diagonal fun i : Fin 3 => (i : ℝ) ^ 2).trace else 0) = _
    rw [sum_range_succ, sum_range_one]
    simp only [if_true, if_neg (one_ne_zero (α := Nat)), Matrix.zero_mul, Matrix.trace_zero, loneD_trace]
    simp [diagonal]
    ring
  have hq := (congrArg (SadSCF.Spec.coulombEnergy k.q) hs).trans hc
  unfold Spec.energyU SadSCF.Spec.energyU
  rw [ho]
  show 41 / 30 * t + SadSCF.Spec.coulombEnergy k.q (∑ l ∈ range 2, (density (exJob noFn).s.X (lone 0 l) + density (exJob noFn).s.X (lone t l))) -
    (1 / 2 * (SadSCF.Spec.exchangeForm 1 (fun l l' a b c d => 0 * k.full l l' a b c d + 0 * k.short l l' a b c d) _ + SadSCF.Spec.exchangeForm 1 (fun l l' a b c d => 0 * k.full l l' a b c d + 0 * k.short l l' a b c d) _)) +
    XC.Spec.senergy2 _ 0 0 _ _ _ _ _ _ + 3 + 5 = _
  rw [hq, exchange_zero, exchange_zero, xc_zero]
  ring

/-- so the energy it returns is wrong. -/
theorem C86_beta_dropped_energy : ∃ (j : Job) (c : Caches) (k : Kernels) (sch : Sched) (oa ob : Nat → Dens.Orbs j.s.M) (E : ℝ) (F : List (Matrix (Fin j.s.M) (Fin j.s.M) ℝ)),
    Represents (Spec.atom j false) c k ∧ GridOk (Spec.atom j false) ∧ Complete (Spec.atom j false) sch ∧ (∀ l ≤ j.s.lmax, Physical (oa l)) ∧ (∀ l ≤ j.s.lmax, Physical (ob l)) ∧
    builderU j c sch ((List.range (j.s.lmax + 1)).map oa ++ (List.range (j.s.lmax + 1)).map ob) = .ok (E, F) ∧ E ≠ Spec.energyU j k (fun l => density j.s.X (oa l)) fun l => density j.s.X (ob l) := by
  obtain ⟨c, k, h⟩ := exRep noFn
  have hg : GridOk (Spec.atom (exJob noFn) false) := exGridJ false (by decide) (by decide) rfl rfl
  obtain ⟨Fa, Fb, -, -, h1⟩ := C86_energy_unrestricted (h false) hg (lone 0) (lone 0) (fun l _ => lone_physical le_rfl l) (fun l _ => lone_physical le_rfl l) fun l _ h => h
  have h2 : ∀ t : ℝ, builderU (exJob noFn) c exSched ((List.range 2).map (lone 0) ++ (List.range 2).map (lone t)) = .ok (8, Fa ++ Fb) := by
    intro t
    refine (C86_beta_dropped (h false) exSched (lone 0) (lone t) (lone 0) (fun l _ => two_ne_zero) (fun l _ => two_ne_zero) (fun l _ => two_ne_zero) fun l _ => Or.inl (lone_empty l)).trans ((h1 exSched (exCompleteJ _ _)).trans ?_)
    rw [lone_energy]
    norm_num
  have h3 : ∃ t : ℝ, 0 ≤ t ∧ (8 : ℝ) ≠ Spec.energyU (exJob noFn) k (fun l => density (exJob noFn).s.X (lone 0 l)) fun l => density (exJob noFn).s.X (lone t l) := by
    by_contra hn
    push Not at hn
    have e1 := hn 1 (by norm_num)
    have e2 := hn 2 (by norm_num)
    rw [lone_energy] at e1 e2
    linarith
  obtain ⟨t, ht, h3⟩ := h3
  exact ⟨exJob noFn, c, k, exSched, lone 0, lone t, 8, Fa ++ Fb, h false, hg, exCompleteJ _ _, fun l _ => lone_physical le_rfl l, fun l _ => lone_physical ht l, h2 t, h3⟩

/-! ### The first Fock matrix and the saved density -/

/-- **C86, core guess.** Without electrons and functionals the builders return the constants and the blocks the solver starts from. -/
theorem C86_core (hk : ∀ r, Represents (Spec.atom j r) c k) (hx : ¬ j.hasXC) (sch : Sched) (oa ob : Nat → Dens.Orbs j.s.M) (ha : ∀ l ≤ j.s.lmax, (oa l).p ≠ 0 ∧ Spec.Empty (oa l)) :
    ∃ F, builderR j c sch ((List.range (j.s.lmax + 1)).map oa) = .ok (j.Enucfield + j.Erep, F) ∧ startR j none = .ok (F.map toMat) ∧
      builderU j c sch ((List.range (j.s.lmax + 1)).map oa ++ (List.range (j.s.lmax + 1)).map ob) = .ok (j.Enucfield + j.Erep, F ++ F) ∧ startU j none = .ok ((F ++ F).map toMat) := by
  have hJ : coulombJ j.s c 0 = .ok 0 := by
    have : coulombJ j.s c 0 = .ok (jMat k.q 0) := coulombJ_ok (hk true) 0
    rw [this]
    congr 1
    ext a b
    unfold jMat
    simp
  have hblk : ∀ xc, (List.range (j.s.lmax + 1)).mapM (block j 0 xc) = .ok ((List.range (j.s.lmax + 1)).map (coreBlock j)) := fun xc => Res.mapM_ok _ _ _ fun l _ => by
    unfold block
    simp only [if_neg hx, Res.ok_bind, add_zero]
    rfl
  have hR : densR j ((List.range (j.s.lmax + 1)).map oa) = .ok (Chan.empty j.s.N, 0) := by
    obtain ⟨b, e, rfl⟩ := fold_range (fun (st : Chan j.s.N × ℝ) l => readAt ((List.range (j.s.lmax + 1)).map oa) l >>= accR j st.1 st.2 l) (fun _ st => st = (Chan.empty j.s.N, 0)) (j.s.lmax + 1) (by
      rintro n hn st rfl
      refine ⟨_, ?_, rfl⟩
      rw [show readAt ((List.range (j.s.lmax + 1)).map oa) n = .ok (oa n) from read_blocks (s := j.s) oa n hn, Res.ok_bind]
      unfold accR
      rw [if_neg (ha n (by omega)).1, if_pos ((empty_abs _).2 (ha n (by omega)).2)]) (Chan.empty j.s.N, 0) rfl
    exact e
  have hU : densU j ((List.range (j.s.lmax + 1)).map oa ++ (List.range (j.s.lmax + 1)).map ob) = .ok ((Chan.empty j.s.N, Chan.empty j.s.N), 0) := by
    obtain ⟨b, e, rfl⟩ := fold_range (stepDens j ((List.range (j.s.lmax + 1)).map oa ++ (List.range (j.s.lmax + 1)).map ob)) (fun _ st => st = ((Chan.empty j.s.N, Chan.empty j.s.N), 0)) (j.s.lmax + 1) (by
      rintro n hn st rfl
      refine ⟨_, ?_, rfl⟩
      unfold stepDens
      rw [read_first oa ob hn, Res.ok_bind, if_neg (ha n (by omega)).1, if_pos ((empty_abs _).2 (ha n (by omega)).2)]) ((Chan.empty j.s.N, Chan.empty j.s.N), 0) rfl
    exact e
  refine ⟨(List.range (j.s.lmax + 1)).map (coreBlock j), ?_, ?_, ?_, ?_⟩
  · unfold builderR xcOne
    rw [hR, Res.ok_bind, show (Chan.empty j.s.N).P = 0 from rfl, hJ, Res.ok_bind, if_neg hx, Res.ok_bind, hblk, Res.ok_bind]
    simp
  · unfold startR
    rw [List.map_map]
    rfl
  · unfold builderU xcTwo
    rw [hU, Res.ok_bind, show (Chan.empty j.s.N).P = 0 from rfl, add_zero, hJ, Res.ok_bind, if_neg hx, Res.ok_bind, hblk, Res.ok_bind, Res.ok_bind]
    simp
  · unfold startU
    rw [List.map_append, List.map_map]
    rfl

example : ∃ (c : Caches) (F : List (Matrix (Fin 2) (Fin 2) ℝ)), builderR (exJob noFn) c exSched ((List.range 2).map (lone 0)) = .ok (3 + 5, F) ∧ startR (exJob noFn) none = .ok (F.map toMat) := by
  obtain ⟨c, k, h⟩ := exRep noFn
  obtain ⟨F, h1, h2, -⟩ := C86_core h (by decide) exSched (lone 0) (lone 0) fun l _ => ⟨two_ne_zero, lone_empty l⟩
  exact ⟨c, F, h1, h2⟩

/-- **C86, saved density.** What is written out is the density of the first `lmax + 1` blocks, per unit of solid angle: the whole density in a restricted run, -/
theorem C86_saved (oa : Nat → Dens.Orbs j.s.M) (ha : ∀ l ≤ j.s.lmax, (oa l).p ≠ 0) (rest : List (Dens.Orbs j.s.M)) :
    savedDensity j ((List.range (j.s.lmax + 1)).map oa ++ rest) = .ok ((1 / (4 * Real.pi)) • ∑ l ∈ range (j.s.lmax + 1), density j.s.X (oa l)) := by
  obtain ⟨b, e, rfl⟩ := fold_range (fun (P : Matrix (Fin j.s.N) (Fin j.s.N) ℝ) l => readAt ((List.range (j.s.lmax + 1)).map oa ++ rest) l >>= fun o =>
      if o.p = 0 then .ub else if ∀ i, |o.occ i| = 0 then .ok P else .ok (P + shellDensity j.s o)) (fun n P => P = ∑ l ∈ range n, density j.s.X (oa l)) (j.s.lmax + 1) (by
    rintro n hn P rfl
    rw [read_left _ _ (by simpa using hn), show readAt ((List.range (j.s.lmax + 1)).map oa) n = .ok (oa n) from read_blocks (s := j.s) oa n hn, Res.ok_bind, if_neg (ha n (by omega))]
    split
    · rename_i hz
      exact ⟨_, rfl, by rw [sum_range_succ, density_zero _ _ hz, add_zero]⟩
    · exact ⟨_, rfl, by rw [sum_range_succ, shellDensity_eq]⟩) 0 (by simp)
  unfold savedDensity
  rw [e, Res.ok_bind]
  unfold angfac
  norm_num

/-- and only that of the alpha electrons in an unrestricted one. -/
theorem C86_saved_alpha : ∃ (j : Job) (oa ob : Nat → Dens.Orbs j.s.M), (∀ l ≤ j.s.lmax, Physical (oa l)) ∧ (∀ l ≤ j.s.lmax, Physical (ob l)) ∧
    savedDensity j ((List.range (j.s.lmax + 1)).map oa ++ (List.range (j.s.lmax + 1)).map ob) ≠ .ok ((1 / (4 * Real.pi)) • ∑ l ∈ range (j.s.lmax + 1), (density j.s.X (oa l) + density j.s.X (ob l))) := by
  refine ⟨exJob noFn, lone 1, lone 1, fun l _ => lone_physical zero_le_one l, fun l _ => lone_physical zero_le_one l, fun h => ?_⟩
  have h1 := (C86_saved (j := exJob noFn) (lone 1) (fun l _ => two_ne_zero) ((List.range 2).map (lone 1))).symm.trans h
  rw [Res.ok.injEq, sum_add_distrib] at h1
  have hs : ∑ l ∈ range ((exJob noFn).s.lmax + 1), density (exJob noFn).s.X (lone 1 l) = loneD 1 := by
    show ∑ l ∈ range 2, density (exJob noFn).s.X (lone 1 l) = loneD 1
    rw [sum_range_succ, sum_range_one, lone_density, lone_density, if_pos rfl, if_neg one_ne_zero]
    exact add_zero _
  rw [hs] at h1
  have h2 : 1 / (4 * Real.pi) * (1 : ℝ) = 1 / (4 * Real.pi) * (1 + 1) := congrFun (congrFun h1 (0 : Fin 3)) (0 : Fin 3)
  have : (0 : ℝ) < 1 / (4 * Real.pi) := by positivity
  linarith

/-- **C86, restart.** Fock matrices of one size come back from the file as they were, however many there are. -/
theorem C86_fock_roundtrip (L : List (Mat ℝ)) (nr nc : Nat) (h0 : L ≠ []) (hL : ∀ F ∈ L, F.rows = nr ∧ F.cols = nc) : ∃ f L', saveFock L = .ok f ∧ loadFock f = .ok L' ∧ List.Forall₂ Spec.Same L L' := by
  obtain ⟨F0, Fs, rfl⟩ := List.exists_cons_of_ne_nil h0
  obtain ⟨r0, c0⟩ := hL F0 (by simp)
  refine ⟨⟨[some (F0 :: Fs).length, some nr, some nc], (F0 :: Fs).flatMap words⟩,
    (List.range (F0 :: Fs).length).map fun i => ⟨nr, nc, fun r c => ((((F0 :: Fs).flatMap words)[i * (nr * nc) + (r * nc + c)]?).join).getD 0⟩, by rw [← r0, ← c0]; rfl, ?_, ?_⟩
  · unfold loadFock
    refine if_pos ⟨?_, fun w hw => ?_⟩
    · rw [flat_length words (nr * nc) _ fun F hF => by rw [words_length, (hL F hF).1, (hL F hF).2], mul_assoc]
    · obtain ⟨F, -, h⟩ := List.mem_flatMap.1 (List.mem_of_mem_take hw)
      exact words_some F w h
  · rw [List.forall₂_iff_get]
    refine ⟨by simp, fun i h1 h2 => ?_⟩
    have hm : (F0 :: Fs).get ⟨i, h1⟩ ∈ F0 :: Fs := List.get_mem _ _
    obtain ⟨e1, e2⟩ := hL _ hm
    simp only [List.get_eq_getElem, List.getElem_map, List.getElem_range] at *
    refine ⟨e1, e2, fun r hr c hc => ?_⟩
    have := flat_index words (nr * nc) (F0 :: Fs) (fun F hF => by rw [words_length, (hL F hF).1, (hL F hF).2]) i _ (List.getElem?_eq_getElem h1) (r * nc + c) (by
      rw [e1] at hr
      rw [e2] at hc
      nlinarith)
    show _ = ((((F0 :: Fs).flatMap words)[i * (nr * nc) + (r * nc + c)]?).join).getD 0
    rw [this]
    have h3 := words_at ((F0 :: Fs)[i]) hr hc
    rw [e2] at h3
    rw [h3]
    rfl

example : ∃ f L', saveFock [⟨2, 2, fun r c => r + 2 * c⟩, ⟨2, 2, fun r c => 7 * r + c⟩] = .ok f ∧ loadFock f = .ok L' ∧ List.Forall₂ Spec.Same [⟨2, 2, fun r c => r + 2 * c⟩, ⟨2, 2, fun r c => 7 * r + c⟩] L' :=
  C86_fock_roundtrip _ 2 2 (by simp) (by simp)

/-- **C86, broken files.** A file with too few numbers, or with a word that is no number among those that are read, is an error; a file without three numbers at its start is undefined behaviour. -/
theorem C86_broken_file (body : List (Option ℝ)) : (∀ (nb nr nc : Nat) (rest : List (Option Nat)), (body.length < nb * nr * nc ∨ ∃ i < nb * nr * nc, body[i]? = some none) → loadFock ⟨some nb :: some nr :: some nc :: rest, body⟩ = .throw .runtimeError) ∧
    (∀ header : List (Option Nat), header.length < 3 → loadFock ⟨header, body⟩ = .ub) := by
  constructor
  · intro nb nr nc rest h
    refine if_neg fun hn => ?_
    rcases h with h | ⟨i, h1, h2⟩
    · exact absurd hn.1 (not_le.2 h)
    · have : (none : Option ℝ) ∈ body.take (nb * nr * nc) := List.mem_iff_getElem?.2 ⟨i, by rw [List.getElem?_take, if_pos h1, h2]⟩
      simpa using hn.2 _ this
  · intro header h
    match header, h with
    | [], _ => rfl
    | [none], _ => rfl
    | [some _], _ => rfl
    | [none, _], _ => rfl
    | [some _, none], _ => rfl
    | [some _, some _], _ => rfl

theorem getD_get {α : Type} (F : List α) (z : α) {i : Nat} (h : i < F.length) : F.getD i z = F[i] := by
  rw [List.getD_eq_getElem?_getD, List.getElem?_eq_getElem h]
  rfl

theorem map_take {α : Type} (F : List α) (z : α) (n : Nat) (h : n ≤ F.length) : ((List.range n).map fun i => F.getD i z) = F.take n := by
  refine List.ext_getElem (by simpa using h) fun i h1 h2 => ?_
  have : i < n := by simpa using h1
  rw [List.getElem_map, List.getElem_range, List.getElem_take, getD_get _ _ (by omega)]

theorem map_drop {α : Type} (F : List α) (z : α) (n : Nat) (h : F.length = n + n) : ((List.range n).map fun i => F.getD (i + n) z) = F.drop n := by
  refine List.ext_getElem (by simp; omega) fun i h1 h2 => ?_
  have : i < n := by simpa using h1
  rw [List.getElem_map, List.getElem_range, List.getElem_drop, getD_get _ _ (by omega)]
  congr 1
  omega

theorem readAt_getD {α : Type} {F : List α} (z : α) {i : Nat} (h : i < F.length) : readAt F i = .ok (F.getD i z) := by
  unfold readAt
  rw [List.getElem?_eq_getElem h, getD_get _ _ h]

theorem mapM_take {α : Type} (F : List α) (z : α) (n : Nat) (h : n ≤ F.length) : (List.range n).mapM (readAt F) = .ok (F.take n) := by
  rw [Res.mapM_ok _ (fun i => F.getD i z) _ fun i hi => readAt_getD z (by have := List.mem_range.1 hi; omega), map_take F z n h]

/-- **C86, start from a file.** The restricted start takes the first `lmax + 1` of `lmax + 1` or `2 lmax + 2` matrices. The unrestricted one takes `2 lmax + 2` as they are and doubles `lmax + 1`. Other numbers
of matrices are rejected, save that the unrestricted start reads the first matrix of a file that says it has none. The sizes of the matrices are not looked at. -/
theorem C86_start (f : FockFile) (F : List (Mat ℝ)) (hf : loadFock f = .ok F) :
    (F.length = j.s.lmax + 1 → startR j (some f) = .ok F ∧ startU j (some f) = .ok (F ++ F)) ∧
    (F.length = 2 * j.s.lmax + 2 → startR j (some f) = .ok (F.take (j.s.lmax + 1)) ∧ startU j (some f) = .ok F) ∧
    (F.length ≠ j.s.lmax + 1 → F.length ≠ 2 * j.s.lmax + 2 → startR j (some f) = .throw .logicError ∧ startU j (some f) = if F = [] then .ub else .throw .logicError) := by
  have z : Mat ℝ := Mat.zero 0 0
  refine ⟨fun h => ⟨?_, ?_⟩, fun h => ⟨?_, ?_⟩, fun h1 h2 => ⟨?_, ?_⟩⟩
  · simp only [startR, hf, Res.ok_bind]
    rw [if_pos (Or.inl h), mapM_take F z _ (by omega), ← h, List.take_length]
  · simp only [startU, hf, Res.ok_bind]
    rw [Res.mapM_ok _ (fun i => (F.getD i z, F.getD i z)) _ fun i hi => ?_, Res.ok_bind, List.map_map, List.map_map]
    · show Res.ok (((List.range (j.s.lmax + 1)).map fun i => F.getD i z) ++ (List.range (j.s.lmax + 1)).map fun i => F.getD i z) = _
      rw [map_take F z _ (by omega), ← h, List.take_length]
    · unfold startStep
      rw [readAt_getD z (by have := List.mem_range.1 hi; omega), Res.ok_bind, if_pos h]
  · simp only [startR, hf, Res.ok_bind]
    rw [if_pos (Or.inr h), mapM_take F z _ (by omega)]
  · simp only [startU, hf, Res.ok_bind]
    rw [Res.mapM_ok _ (fun i => (F.getD i z, F.getD (i + (j.s.lmax + 1)) z)) _ fun i hi => ?_, Res.ok_bind, List.map_map, List.map_map]
    · show Res.ok (((List.range (j.s.lmax + 1)).map fun i => F.getD i z) ++ (List.range (j.s.lmax + 1)).map fun i => F.getD (i + (j.s.lmax + 1)) z) = _
      rw [map_take F z _ (by omega), map_drop F z _ (by omega), List.take_append_drop]
    · have := List.mem_range.1 hi
      unfold startStep
      rw [readAt_getD z (by omega), Res.ok_bind, if_neg (by omega), if_pos h, readAt_getD z (by omega), Res.ok_bind, add_assoc]
  · simp only [startR, hf, Res.ok_bind]
    rw [if_neg (by tauto)]
  · simp only [startU, hf, Res.ok_bind]
    rw [List.range_succ_eq_map, List.mapM_cons]
    cases F with
    | nil => rfl
    | cons a F =>
      have : startStep j (a :: F) 0 = .throw .logicError := by
        unfold startStep
        rw [show readAt (a :: F) 0 = .ok a from rfl, Res.ok_bind, if_neg h1, if_neg h2]
      rw [this, if_neg (by simp)]
      rfl

example : ∃ f F, loadFock f = .ok F ∧ F.length = (exJob noFn).s.lmax + 1 ∧ (∀ A ∈ F, A.rows ≠ (exJob noFn).s.M) ∧ startR (exJob noFn) (some f) = .ok F ∧ startU (exJob noFn) (some f) = .ok (F ++ F) := by
  have hf : ∃ F, loadFock ⟨[some 2, some 1, some 1], [some 3, some 4]⟩ = .ok F ∧ F.length = 2 ∧ ∀ A ∈ F, A.rows = 1 := by
    refine ⟨(List.range 2).map fun i => ⟨1, 1, fun r c => (([some 3, some 4] : List (Option ℝ))[i * (1 * 1) + (r * 1 + c)]?.join).getD 0⟩, by unfold loadFock; exact if_pos ⟨by simp, by simp⟩, by simp, ?_⟩
    intro A hA
    obtain ⟨i, -, rfl⟩ := List.mem_map.1 hA
    rfl
  obtain ⟨F, h1, h2, h3⟩ := hf
  exact ⟨_, F, h1, h2, fun A hA => by rw [h3 A hA]; decide, (C86_start (j := exJob noFn) _ F h1).1 h2⟩

/-- **C86, start from nothing.** A file that says it has no matrices is rejected by the restricted start and undefined behaviour in the unrestricted one. -/
theorem C86_start_empty (nr nc : Nat) : startR j (some ⟨[some 0, some nr, some nc], []⟩) = .throw .logicError ∧ startU j (some ⟨[some 0, some nr, some nc], []⟩) = .ub := by
  have hf : loadFock ⟨[some 0, some nr, some nc], []⟩ = .ok [] := if_pos ⟨by simp, by simp⟩
  have := (C86_start (j := j) _ [] hf).2.2 (by simp) (by simp)
  rwa [if_pos rfl] at this

end Aij
end HelFEM
