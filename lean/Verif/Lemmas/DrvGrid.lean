import Verif.Lemmas.DrvFock
import Verif.Lemmas.XCCurve
import Verif.Lemmas.PureMTop

/-!
# The exchange-correlation part of the Fock builders
-/

namespace HelFEM
namespace Drv

open Finset Spec XC

variable {θ : Theory} {fn : Funcs} {N : Nat} {Adm : (Nat → Nat → ℝ) → Prop}

theorem pairing_mean (H D : Mat ℝ) : XC.Spec.pairing N H D = mean N H.get D.get := rfl

theorem onGrid_curve {P : ℝ → Nat → Nat → ℝ} {P' : Nat → Nat → ℝ} {t0 : ℝ} (h : ∀ i j, HasDerivAt (fun t => P t i j) (P' i j) t0) (a b : Nat) :
    HasDerivAt (fun t => onGrid θ (P t) a b) (onGrid θ P' a b) t0 := by
  unfold onGrid
  cases θ.pos a with
  | none => exact hasDerivAt_const _ _
  | some i =>
    cases θ.pos b with
    | none => exact hasDerivAt_const _ _
    | some j => exact h i j

theorem onGrid_zero {P : Nat → Nat → ℝ} (h : ∀ i j, P i j = 0) : onGrid θ P = fun _ _ => 0 := by
  funext a b
  unfold onGrid
  cases θ.pos a with
  | none => rfl
  | some i =>
    cases θ.pos b with
    | none => rfl
    | some j => exact h i j

/-- what the routine for one density has to return -/
def Grid1 (θ : Theory) (fn : Funcs) (N : Nat) (Adm : (Nat → Nat → ℝ) → Prop) (run : Mat ℝ → Res (Mat ℝ × ℝ)) : Prop :=
  ∀ P, Adm P → ∃ H, run (mat N P) = .ok (H, XC.Spec.energy θ.env fn.x fn.c fn.xp fn.cp fn.thr θ.pts (onGrid θ P)) ∧ Square N H ∧
    ∀ D, Adm D → mean N H.get D = (θ.pts.map (deriv1 θ.env fn (onGrid θ P) (onGrid θ D))).sum

/-- what the routine for two densities has to return -/
def Grid2 (θ : Theory) (fn : Funcs) (N : Nat) (Adm : (Nat → Nat → ℝ) → Prop) (beta : Bool) (run : Mat ℝ → Mat ℝ → Res (Mat ℝ × Mat ℝ × ℝ)) : Prop :=
  ∀ A B, Adm A → Adm B → ∃ Ha Hb, run (mat N A) (mat N B) = .ok (Ha, Hb, XC.Spec.energy2 θ.env fn.x fn.c fn.xp fn.cp fn.thr θ.pts (onGrid θ A) (onGrid θ B)) ∧ Square N Ha ∧ Square N Hb ∧
    (∀ D, Adm D → mean N Ha.get D = (θ.pts.map (derivA θ.env fn false (onGrid θ A) (onGrid θ B) (onGrid θ D))).sum) ∧
    ∀ D, Adm D → mean N Hb.get D = if beta then (θ.pts.map (derivB θ.env fn false (onGrid θ A) (onGrid θ B) (onGrid θ D))).sum else 0

theorem grid1_curve {s : Setup} {e : Engine} (h : Grid1 θ s.fn s.N Adm (e.xc1 s.fn)) (P : Nat → Nat → ℝ) (hP : Adm P) :
    ∃ H, e.xc1 s.fn (mat s.N P) = .ok (H, XC.Spec.energy θ.env s.fn.x s.fn.c s.fn.xp s.fn.cp s.fn.thr θ.pts (onGrid θ P)) ∧ Square s.N H ∧
    ∀ t0 (Q : ℝ → Nat → Nat → ℝ) (Q' : Nat → Nat → ℝ), (∀ i j, HasDerivAt (fun t => Q t i j) (Q' i j) t0) → Q t0 = P → Adm Q' → SmoothR s θ P →
      HasDerivAt (fun t => XC.Spec.energy θ.env s.fn.x s.fn.c s.fn.xp s.fn.cp s.fn.thr θ.pts (onGrid θ (Q t))) (mean s.N H.get Q') t0 := by
  obtain ⟨H, h1, h2, h3⟩ := h P hP
  refine ⟨H, h1, h2, fun t0 Q Q' hQ h0 hq hs => ?_⟩
  subst h0
  rw [h3 Q' hq]
  exact energy_curve θ.pts (P := fun t => onGrid θ (Q t)) (onGrid_curve hQ) hs

theorem grid2_curve {s : Setup} {e : Engine} (h : Grid2 θ s.fn s.N Adm (0 < s.nelb) fun A B => e.xc2 s.fn A B (0 < s.nelb)) (A B : Nat → Nat → ℝ) (hA : Adm A) (hB : Adm B) :
    ∃ Ha Hb, e.xc2 s.fn (mat s.N A) (mat s.N B) (0 < s.nelb) = .ok (Ha, Hb, XC.Spec.energy2 θ.env s.fn.x s.fn.c s.fn.xp s.fn.cp s.fn.thr θ.pts (onGrid θ A) (onGrid θ B)) ∧
    Square s.N Ha ∧ Square s.N Hb ∧
    ∀ t0 (Q R : ℝ → Nat → Nat → ℝ) (Q' R' : Nat → Nat → ℝ), (∀ i j, HasDerivAt (fun t => Q t i j) (Q' i j) t0) → (∀ i j, HasDerivAt (fun t => R t i j) (R' i j) t0) → Q t0 = A → R t0 = B →
      Adm Q' → Adm R' → (s.nelb ≤ 0 → ∀ i j, R' i j = 0) → SmoothU s θ A B →
      HasDerivAt (fun t => XC.Spec.energy2 θ.env s.fn.x s.fn.c s.fn.xp s.fn.cp s.fn.thr θ.pts (onGrid θ (Q t)) (onGrid θ (R t))) (mean s.N Ha.get Q' + mean s.N Hb.get R') t0 := by
  obtain ⟨Ha, Hb, h1, h2, h2', h3, h4⟩ := h A B hA hB
  refine ⟨Ha, Hb, h1, h2, h2', fun t0 Q R Q' R' hQ hR h0 h0' hq hr hb hs => ?_⟩
  subst h0 h0'
  rw [h3 Q' hq, h4 R' hr]
  have := energy2_curve θ.pts (A := fun t => onGrid θ (Q t)) (B := fun t => onGrid θ (R t)) (onGrid_curve hQ) (onGrid_curve hR) hs
  by_cases hn : 0 < s.nelb
  · rw [if_pos (by simpa using hn)]
    exact this
  · rw [if_neg (by simpa using hn)]
    refine this.congr_deriv ?_
    congr 1
    rw [onGrid_zero (hb (by omega))]
    simp [funext fun x => derivB_zero (env := θ.env) (fn := s.fn) (onGrid θ (Q t0)) (onGrid θ (R t0)) x]

/-! ### the atomic grid -/

/-- the symmetric densities -/
def Symmetric (P : Nat → Nat → ℝ) : Prop := ∀ i j, P i j = P j i

theorem symm_mat {P : Nat → Nat → ℝ} (h : Symmetric P) : XC.Spec.Symm N (mat N P) := ⟨rfl, rfl, fun i _ j _ => h i j⟩

section atom
variable {env : Libxc} (hx : XC.Spec.Usable env fn.x fn.xp) (hc : XC.Spec.Usable env fn.c fn.cp) (hN : 0 < N) {elems : List AtomElem} (hidx : ∀ e ∈ elems, ∀ i ∈ e.idx, i < N)
include hx hc hN hidx

theorem atom_grid1 (hθ : θ.env = env) (hp : θ.pts = elems.flatMap XC.Spec.atomPoints) (hpos : θ.pos = some) :
    Grid1 θ fn N Symmetric fun P => atomGrid1 env fn P elems >>= fun t => .ok (t.H, t.exc) := by
  intro P hP
  obtain ⟨s, h1, ha⟩ := atomGrid1_ok hx hc hN (symm_mat (N := N) hP) elems hidx
  have eg : ∀ D : Nat → Nat → ℝ, onGrid θ D = D := fun D => by funext a b; unfold onGrid; rw [hpos]
  refine ⟨s.H, ?_, ⟨ha.rows, ha.cols⟩, fun D _ => ?_⟩
  · beta_reduce
    rw [h1, Res.ok_bind, ha.exc, eg, hθ, hp, zero_add]; rfl
  · have := ha.pairs (mat N D)
    rw [pairing_zero, zero_add, pairing_mean] at this
    rw [eg, eg, hθ, hp]
    exact this

theorem atom_grid2 (beta : Bool) (hl : useLapl env fn = true → beta = true ∧ useTau env fn = true) (hθ : θ.env = env) (hp : θ.pts = elems.flatMap XC.Spec.atomPoints) (hpos : θ.pos = some) :
    Grid2 θ fn N Symmetric beta fun A B => atomGrid2 env fn A B beta elems >>= fun t => .ok (t.Ha, t.Hb, t.exc) := by
  intro A B hA hB
  obtain ⟨s, h1, ha⟩ := atomGrid2_ok hx hc hN (symm_mat (N := N) hA) (symm_mat (N := N) hB) beta (fun h => (hl h).1) elems hidx
  have hm : (useLapl env fn && !useTau env fn) = false := by
    cases h : useLapl env fn with
    | false => rfl
    | true => rw [(hl h).2]; rfl
  rw [hm] at ha
  have eg : ∀ D : Nat → Nat → ℝ, onGrid θ D = D := fun D => by funext a b; unfold onGrid; rw [hpos]
  refine ⟨s.Ha, s.Hb, ?_, ⟨ha.rowsA, ha.colsA⟩, ⟨ha.rowsB, ha.colsB⟩, fun D _ => ?_, fun D _ => ?_⟩
  · beta_reduce
    rw [h1, Res.ok_bind, ha.exc, eg, eg, hθ, hp, zero_add]; rfl
  · have := ha.pairsA (mat N D)
    rw [pairing_zero, zero_add, pairing_mean] at this
    rw [eg, eg, eg, hθ, hp]
    exact this
  · have := ha.pairsB (mat N D)
    rw [pairing_zero, zero_add, pairing_mean] at this
    rw [eg, eg, eg, hθ, hp]
    exact this

end atom

/-! ### the diatomic grids -/

open Classical in
/-- where the padded function `a` is in the diatomic basis -/
noncomputable def diaPos (lm : List (Int × Int)) (nrad a : Nat) : Option Nat := if a ∈ XC.Spec.functions lm nrad then some ((XC.Spec.functions lm nrad).idxOf a) else none

section dia
variable {lm : List (Int × Int)} {nrad : Nat} (hpos : θ.pos = diaPos lm nrad)
include hpos

theorem onGrid_padded (D : Nat → Nat → ℝ) : onGrid θ D = XC.Spec.padded lm nrad (mat N D) := by
  funext a b
  unfold onGrid XC.Spec.padded
  rw [hpos]
  unfold diaPos
  by_cases ha : a ∈ XC.Spec.functions lm nrad
  · by_cases hb : b ∈ XC.Spec.functions lm nrad
    · rw [if_pos ha, if_pos hb, if_pos ⟨ha, hb⟩]; rfl
    · rw [if_pos ha, if_neg hb, if_neg (fun h => hb h.2)]
  · rw [if_neg ha, if_neg (fun h : a ∈ XC.Spec.functions lm nrad ∧ b ∈ XC.Spec.functions lm nrad => ha h.1)]

variable {env : Libxc} (hx : XC.Spec.Usable env fn.x fn.xp) (hc : XC.Spec.Usable env fn.c fn.cp) (hθ : θ.env = env) (hN : N = (XC.Spec.functions lm nrad).length)
include hx hc hθ hN

section space
variable (hm : 0 < lm.length * nrad) {pts : List DiaPoint} (hidx : ∀ e ∈ pts, ∀ i ∈ e.idx, i < lm.length * nrad) (hp : θ.pts = pts.flatMap XC.Spec.diaPoints) (hl : useLapl env fn = false)
include hm hidx hp hl

theorem dia_grid1 : Grid1 θ fn N Symmetric fun P => diaGrid1 env lm nrad fn P pts >>= fun t => .ok (t.H, t.exc) := by
  intro P hP
  obtain ⟨s, h1, h2, _, _, h3, h4⟩ := diaGrid1_ok hx hc hl hm (P := mat N P) (by rw [← hN]; exact symm_mat hP) pts hidx
  rw [← hN] at h3 h4
  refine ⟨s.H, ?_, ⟨h3.1, h3.2.1⟩, fun D _ => ?_⟩
  · beta_reduce
    rw [h1, Res.ok_bind, h2, onGrid_padded (N := N) hpos, hθ, hp]
  · have := h4 (mat N D)
    rw [pairing_mean] at this
    rw [onGrid_padded (N := N) hpos, onGrid_padded (N := N) hpos, hθ, hp]
    exact this

theorem dia_grid2 (beta : Bool) : Grid2 θ fn N Symmetric beta fun A B => diaGrid2 env lm nrad fn A B beta pts >>= fun t => .ok (t.Ha, t.Hb, t.exc) := by
  intro A B hA hB
  obtain ⟨s, h1, h2, _, _, h3, h3', h4, h5⟩ := diaGrid2_ok hx hc hl hm (A := mat N A) (B := mat N B) (by rw [← hN]; exact symm_mat hA) (by rw [← hN]; exact symm_mat hB) beta pts hidx
  rw [← hN] at h3 h3' h4 h5
  refine ⟨s.Ha, s.Hb, ?_, ⟨h3.1, h3.2.1⟩, ⟨h3'.1, h3'.2.1⟩, fun D _ => ?_, fun D _ => ?_⟩
  · beta_reduce
    rw [h1, Res.ok_bind, h2, onGrid_padded (N := N) hpos, onGrid_padded (N := N) hpos, hθ, hp]
  · have := h4 (mat N D)
    rw [pairing_mean] at this
    rw [onGrid_padded (N := N) hpos, onGrid_padded (N := N) hpos, onGrid_padded (N := N) hpos, hθ, hp]
    exact this
  · have := h5 (mat N D)
    rw [pairing_mean] at this
    rw [onGrid_padded (N := N) hpos, onGrid_padded (N := N) hpos, onGrid_padded (N := N) hpos, hθ, hp]
    exact this

end space

section plane
variable {y : Int → Int → ℝ → ℝ} {R : Nat → ℝ → ℝ} (hy : XC.Spec.Harmonics y) (hang : XC.Spec.Angular lm) (hpair : XC.Spec.Paired lm) (hN0 : 0 < N) {pts : List PmPoint}
  (hs : ∀ e ∈ pts, XC.Spec.Sampled nrad y R e) (hp : θ.pts = pts.flatMap (XC.Spec.pmPoints lm nrad y R))
include hy hang hpair hN0 hs hp

theorem pm_grid1 (share : Bool) (hA : ∀ P, Adm P → Symmetric P ∧ XC.Spec.MDiag lm nrad (mat N P) ∧ (share = true → XC.Spec.FlipSymm lm nrad (mat N P))) :
    Grid1 θ fn N Adm fun P => pmGrid1 env lm nrad share fn P pts >>= fun t => .ok (t.H, t.exc) := by
  intro P hP
  obtain ⟨s, h1, h2, _, _, h3, _, h4⟩ := pmGrid1_ok hx hc hy hang hpair (by rw [← hN]; exact hN0) (P := mat N P) (by rw [← hN]; exact symm_mat (hA P hP).1) (hA P hP).2.1 share (hA P hP).2.2 pts hs
  rw [← hN] at h3 h4
  refine ⟨s.H, ?_, ⟨h3.1, h3.2.1⟩, fun D hD => ?_⟩
  · beta_reduce
    rw [h1, Res.ok_bind, h2, onGrid_padded (N := N) hpos, hθ, hp]
  · have := h4 (mat N D) (hA D hD).2.1
    rw [pairing_mean] at this
    rw [onGrid_padded (N := N) hpos, onGrid_padded (N := N) hpos, hθ, hp]
    exact this

theorem pm_grid2 (beta : Bool) (hA : ∀ P, Adm P → Symmetric P ∧ XC.Spec.MDiag lm nrad (mat N P)) :
    Grid2 θ fn N Adm beta fun A B => pmGrid2 env lm nrad fn A B beta pts >>= fun t => .ok (t.Ha, t.Hb, t.exc) := by
  intro A B a b
  obtain ⟨s, h1, h2, _, _, h3, _, h3', _, h4, h5, _⟩ := pmGrid2_ok hx hc hy hang hpair (by rw [← hN]; exact hN0) (A := mat N A) (B := mat N B) (by rw [← hN]; exact symm_mat (hA A a).1) (hA A a).2
    (by rw [← hN]; exact symm_mat (hA B b).1) (hA B b).2 beta pts hs
  rw [← hN] at h3 h3' h4 h5
  refine ⟨s.Ha, s.Hb, ?_, ⟨h3.1, h3.2.1⟩, ⟨h3'.1, h3'.2.1⟩, fun D hD => ?_, fun D hD => ?_⟩
  · beta_reduce
    rw [h1, Res.ok_bind, h2, onGrid_padded (N := N) hpos, onGrid_padded (N := N) hpos, hθ, hp]
  · have := h4 (mat N D) (hA D hD).2
    rw [pairing_mean] at this
    rw [onGrid_padded (N := N) hpos, onGrid_padded (N := N) hpos, onGrid_padded (N := N) hpos, hθ, hp]
    exact this
  · have := h5 (mat N D) (hA D hD).2
    rw [pairing_mean] at this
    rw [onGrid_padded (N := N) hpos, onGrid_padded (N := N) hpos, onGrid_padded (N := N) hpos, hθ, hp]
    exact this

end plane
end dia

end Drv
end HelFEM
