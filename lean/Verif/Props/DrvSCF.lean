import Verif.Lemmas.DrvAtom
import Verif.Props.SadSCF
import Verif.Props.XC
import Verif.Model.Electrons

/-!
# C76: the Fock builders of the atomic and the diatomic driver

The energy handed to the solver is the energy functional of the density matrices, in both spin modes and with static fields, and the Fock blocks are its derivative. `Represents` says which
integrals and which grid the routines of the basis compute with; it is proved here for the atomic driver and in `Props/DrvDia.lean` for the diatomic one.
-/

namespace HelFEM
namespace Drv

open Finset Spec Matrix

/-! ### the atomic driver -/

section atom
open AtomJK TwoE HelFEM.Spec
variable {s : Setup} {G : Nat → Int → Nat → Int → Nat → Int → ℝ} {lm : List (Int × Int)} {lmax : Nat} {R : Radial} {ne nrad : Nat} {first last : Nat → Nat} {pr : Prims}
  {S B T : Nat → Nat → Mat ℝ} {tol thr omega : ℝ} {env : XC.Libxc} {elems : List XC.AtomElem} {sched : List Nat} {order : List (Nat × Nat)}
  (hG : Gaunt.Symmetric G) (hS : Selection G) (hA : Angular lm lmax) (h : TwoE.Layout R ne nrad first last) (hne : 0 < ne) (hI : Ints pr.small pr.big pr.twoe (2 * lmax + 1) ne first last S B T)
  (ht : 0 ≤ tol) (hs : sched.Perm (List.range (2 * lmax + 1))) (ho : order.Perm (allPairs lm.length)) (hN : s.N = lm.length * nrad) (hN0 : 0 < s.N)
  (hx : XC.Spec.Usable env s.fn.x s.fn.xp) (hc : XC.Spec.Usable env s.fn.c s.fn.cp) (hidx : ∀ e ∈ elems, ∀ i ∈ e.idx, i < s.N)
  (hl : s.restricted = false → XC.useLapl env s.fn = true → 0 < s.nelb ∧ XC.useTau env s.fn = true)
include hG hS hA h hne hI ht hs ho hN hN0 hx hc hidx hl

/-- **C76, integrals of the atomic driver.** Before the solver starts the Coulomb integrals are computed, and the builder works with them for every symmetric density of which the screening drops
nothing: without short-range exchange, -/
theorem C76_prepare (y e : Bool) (hk : s.kshort = 0) (c0 : Caches) : ∃ c, atomPrepare lm R pr tol s.kshort omega y e c0 = .ok c ∧ ∃ T', Approx (2 * lmax + 1) ne first last tol T T' ∧
    ∀ κ, Represents s (atomEngine G sched order lm R c thr env elems)
      ⟨basisEri G bareFac (2 * lmax + 1) (radialOf ne first last S B T') lm nrad, basisEri G bareFac (2 * lmax + 1) (radialOf ne first last S B T') lm nrad, κ, env,
        elems.flatMap XC.Spec.atomPoints, some⟩ Symmetric (Unscreened s.N nrad thr) ∧ Keeps s (atomEngine G sched order lm R c thr env elems) Symmetric (SymmOn s.N) := by
  obtain ⟨c, h1, T', hT, hr⟩ := atom_plain hG hS hA h hne hI ht hs ho hN hN0 hx hc hidx hl c0
  refine ⟨c, ?_, T', hT, fun κ => ?_⟩
  swap
  · obtain ⟨r1, r2⟩ := hr c κ ⟨rfl, rfl, rfl⟩ fun hs => absurd hk hs
    exact ⟨r1, r2 fun hs => absurd hk hs⟩
  unfold atomPrepare
  rw [h1, Res.ok_bind, if_neg fun hc => hc.1 hk, if_neg fun hc => hc.1 hk]

/-- with a Yukawa screened exchange, -/
theorem C76_prepare_yukawa (e : Bool) (hk : s.kshort ≠ 0) {S' B' Y : Nat → Nat → Mat ℝ}
    (hY : Ints (pr.besselI omega) (pr.besselK omega) (pr.yukawa omega) (2 * lmax + 1) ne first last S' B' Y) (c0 : Caches) :
    ∃ c, atomPrepare lm R pr tol s.kshort omega true e c0 = .ok c ∧ ∃ T' Y', Approx (2 * lmax + 1) ne first last tol T T' ∧ Approx (2 * lmax + 1) ne first last tol Y Y' ∧
    Represents s (atomEngine G sched order lm R c thr env elems)
      ⟨basisEri G bareFac (2 * lmax + 1) (radialOf ne first last S B T') lm nrad, basisEri G bareFac (2 * lmax + 1) (radialOf ne first last S B T') lm nrad,
        basisEri G (fun _ => 4 * Real.pi * omega) (2 * lmax + 1) (radialOf ne first last S' B' Y') lm nrad, env, elems.flatMap XC.Spec.atomPoints, some⟩ Symmetric (Unscreened s.N nrad thr) ∧
    Keeps s (atomEngine G sched order lm R c thr env elems) Symmetric (SymmOn s.N) := by
  obtain ⟨c, h1, T', hT, hr⟩ := atom_plain hG hS hA h hne hI ht hs ho hN hN0 hx hc hidx hl c0
  obtain ⟨c', h2, Y', hY', hK⟩ := C62_yukawa hG hS hA h hne pr omega hY tol ht c
  have hX : s.kshort ≠ 0 → ExchangeIs s.N (rsExchange G sched order lm R c' thr) Symmetric (Unscreened s.N nrad thr) (basisEri G (fun _ => 4 * Real.pi * omega) (2 * lmax + 1) (radialOf ne first last S' B' Y') lm nrad) := by
    refine fun _ => ⟨fun P hP hkp => ?_, fun i _ j _ k _ l _ => eri_transpose hG hS (radialOf_pair h hY hY') (fun L hL => radialOf_swap h hY' L hL) i j k l⟩
    obtain ⟨K, j1, j2, j3, j4⟩ := hK sched hs order ho thr (mat s.N P) hN hN
    rw [← hN] at j2 j3 j4
    refine ⟨K, j1, ⟨j2, j3⟩, fun j hj k hk' => ?_⟩
    rw [j4 j hj k hk']
    congr 1
    refine sum_congr rfl fun i hi => sum_congr rfl fun l hl => ?_
    rw [show screened nrad thr (mat s.N P).get i l = P i l from hkp i (Finset.mem_range.1 hi) l (Finset.mem_range.1 hl)]
  obtain ⟨r1, r2⟩ := hr c' _ (SadSCF.screened_keeps pr (.yukawa tol omega) rfl h2) hX
  refine ⟨c', ?_, T', Y', hT, hY', r1, r2 fun _ P K hP hK' => ?_⟩
  · unfold atomPrepare
    rw [h1, Res.ok_bind, if_pos ⟨hk, rfl⟩, h2]
  · obtain ⟨K', j1, _, _, j4⟩ := hK sched hs order ho thr (mat s.N P) hN hN
    rw [← hN] at j4
    rw [j1] at hK'
    injection hK' with hK'
    subst hK'
    exact exchange_symmOn (eri_reverse hG hS (radialOf_pair h hY hY') (fun L hL => radialOf_swap h hY' L hL)) hP hN j4

/-- with an error function screened one. -/
theorem C76_prepare_erfc (hk : s.kshort ≠ 0) {E : Nat → Nat → Nat → Mat ℝ} (hE : PairInts (pr.erfc omega) (2 * lmax + 1) ne first last E)
    (hw : SadSCF.Spec.Swaps (2 * lmax + 1) ne first last E) (c0 : Caches) :
    ∃ c, atomPrepare lm R pr tol s.kshort omega false true c0 = .ok c ∧ ∃ T', Approx (2 * lmax + 1) ne first last tol T T' ∧
    Represents s (atomEngine G sched order lm R c thr env elems)
      ⟨basisEri G bareFac (2 * lmax + 1) (radialOf ne first last S B T') lm nrad, basisEri G bareFac (2 * lmax + 1) (radialOf ne first last S B T') lm nrad,
        basisEri G (fun L => 4 * Real.pi * omega / (2 * L + 1)) (2 * lmax + 1) (fun L => fourIndex ne first last fun e1 e2 a b c d =>
          (E L e1 e2).get (b * (last e1 + 1 - first e1) + a) (d * (last e2 + 1 - first e2) + c)) lm nrad, env, elems.flatMap XC.Spec.atomPoints, some⟩ Symmetric (Unscreened s.N nrad thr) ∧
    Keeps s (atomEngine G sched order lm R c thr env elems) Symmetric (SymmOn s.N) := by
  obtain ⟨c, h1, T', hT, hr⟩ := atom_plain hG hS hA h hne hI ht hs ho hN hN0 hx hc hidx hl c0
  obtain ⟨c', h2, hK⟩ := C62_erfc hG hS hA h hne pr omega hE c
  have hX : s.kshort ≠ 0 → ExchangeIs s.N (rsExchange G sched order lm R c' thr) Symmetric (Unscreened s.N nrad thr) (basisEri G (fun L => 4 * Real.pi * omega / (2 * L + 1)) (2 * lmax + 1) (fun L => fourIndex ne first last fun e1 e2 a b c d =>
      (E L e1 e2).get (b * (last e1 + 1 - first e1) + a) (d * (last e2 + 1 - first e2) + c)) lm nrad) := by
    refine fun _ => ⟨fun P hP hkp => ?_, fun i _ j _ k _ l _ => eri_transpose hG hS (fun L hL => erfc_pair hE L hL) (fun L hL => SadSCF.erfc_swap hw L hL) i j k l⟩
    obtain ⟨K, j1, j2, j3, j4⟩ := hK sched hs order ho thr (mat s.N P) hN hN
    rw [← hN] at j2 j3 j4
    refine ⟨K, j1, ⟨j2, j3⟩, fun j hj k hk' => ?_⟩
    rw [j4 j hj k hk']
    congr 1
    refine sum_congr rfl fun i hi => sum_congr rfl fun l hl => ?_
    rw [show screened nrad thr (mat s.N P).get i l = P i l from hkp i (Finset.mem_range.1 hi) l (Finset.mem_range.1 hl)]
    rfl
  obtain ⟨r1, r2⟩ := hr c' _ (SadSCF.screened_keeps pr (.erfc omega) rfl h2) hX
  refine ⟨c', ?_, T', hT, r1, r2 fun _ P K hP hK' => ?_⟩
  · unfold atomPrepare
    rw [h1, Res.ok_bind, if_neg (by simp), if_pos ⟨hk, rfl⟩, h2]
  · obtain ⟨K', j1, _, _, j4⟩ := hK sched hs order ho thr (mat s.N P) hN hN
    rw [← hN] at j4
    rw [j1] at hK'
    injection hK' with hK'
    subst hK'
    exact exchange_symmOn (eri_reverse hG hS (fun L hL => erfc_pair hE L hL) (fun L hL => SadSCF.erfc_swap hw L hL)) hP hN j4

end atom

/-- all densities of a run are symmetric -/
theorem symmetric_admissible (s : Setup) : Admissible s Symmetric where
  spread D hD := spread_symm D hD
  add A B hA hB i j := by beta_reduce; rw [hA i j, hB i j]
  half A hA i j := by beta_reduce; rw [hA i j]

/-! ### an example: two blocks of two functions in a basis of nine, all fields, a meta-generalised gradient functional with exact and short-range exchange -/

section ex
open AtomJK TwoE HelFEM.Spec

/-- the run -/
noncomputable def exRun (r : Bool) (ks Bz : ℝ) : Setup where
  N := 9
  nsym := 2
  block := fun k => ⟨[3 * k.val, 3 * k.val + 1], 1⟩
  mirror := fun _ => []
  restricted := r
  nela := if r then 2 else 4
  nelb := 2
  S := fun i j => if i = j then 1 else 0
  T := fun i j => if i = j then i + 1 else 0
  Vnuc := fun i j => if i = j then -2 else 0
  dip := fun i j => if j = i + 3 ∨ i = j + 3 then 1 else 0
  quad := fun i j => if j = i + 1 ∨ i = j + 1 then 1 else 0
  Vmag := fun i j => if i = j then Bz * i else 0
  Vconf := fun i j => i * j
  Ez := 1 / 10
  Qzz := 1 / 5
  Bz := Bz
  iconf := 1
  kfrac := 1 / 4
  kshort := ks
  fn := ⟨2, [], 1, [], 0⟩
  Enucr := atomEnucr 2 1 1 3
  Enucfield := 0

/-- `n` electrons in each function -/
noncomputable def exOrbs (r : Bool) (ks Bz n : ℝ) : Orbitals (exRun r ks Bz) := fun _ => ⟨2, (1 : Matrix (Fin 2) (Fin 2) ℝ), fun _ => n⟩

/-- the routines, with the integrals `c` -/
noncomputable def exEngine (c : Caches) : Engine := atomEngine realG [2, 0, 1] (allPairs 3) [(0, 0), (1, -1), (1, 1)] exR c 0 XC.toy [XC.toyElem]

theorem exKept (P : Nat → Nat → ℝ) : Unscreened 9 3 0 P := fun _ _ _ _ => if_neg (not_lt.2 (Real.sqrt_nonneg _))

theorem exBlocks (r : Bool) (ks Bz : ℝ) : Spec.Layout (exRun r ks Bz) where
  within k i hi := by
    have hk : k.val < 2 := k.isLt
    simp only [exRun, List.mem_cons, List.not_mem_nil, or_false] at hi ⊢
    omega
  mirror k i hi := by simp [exRun] at hi
  length k h := absurd rfl h

theorem exNoField (r : Bool) (ks Bz : ℝ) : NoField (exRun r ks Bz) := fun h i _ j _ => by
  have h : Bz = 0 := h
  simp [exRun, h]

theorem exOrthonormal (r : Bool) (ks Bz : ℝ) : Orthonormal (exRun r ks Bz) := fun k => by
  have : ∀ M : Matrix (Fin 2) (Fin 2) ℝ, M = 1 → (1 : Matrix (Fin 2) (Fin 2) ℝ)ᵀ * M * 1 = 1 := fun M h => by rw [h, Matrix.transpose_one, Matrix.one_mul, Matrix.mul_one]
  refine this _ ?_
  have : (Matrix.of fun a b : Fin 2 => if (![3 * k.val, 3 * k.val + 1] a) = (![3 * k.val, 3 * k.val + 1] b) then (1 : ℝ) else 0) = 1 := by
    ext a b
    fin_cases a <;> fin_cases b <;> simp
  rw [← this]
  ext a b
  have : ∀ a : Fin 2, [3 * k.val, 3 * k.val + 1][a] = ![3 * k.val, 3 * k.val + 1] a := fun a => by fin_cases a <;> rfl
  have hab := (show ∀ a b : Fin 2, (if [3 * k.val, 3 * k.val + 1][a] = [3 * k.val, 3 * k.val + 1][b] then (1 : ℝ) else 0) = if (![3 * k.val, 3 * k.val + 1] a) = (![3 * k.val, 3 * k.val + 1] b) then 1 else 0 from fun a b => by rw [this, this])
  exact hab a b

theorem exNormalised (r : Bool) (ks Bz n : ℝ) : Normalised (exOrbs r ks Bz n) := fun k i => by
  have : ∀ i : Fin 2, ∑ a : Fin 2, (1 : Matrix (Fin 2) (Fin 2) ℝ) a i ^ 2 = 1 := fun i => by
    rw [Finset.sum_eq_single i (fun b _ h => by rw [Matrix.one_apply_ne h]; norm_num) fun h => absurd (mem_univ _) h, Matrix.one_apply_eq, one_pow]
  exact this i

theorem exElectrons (r : Bool) (ks Bz n : ℝ) : electrons (exOrbs r ks Bz n) = 4 * n := by
  have : ∑ _k : Fin 2, ∑ _i : Fin 2, n = 4 * n := by simp; ring
  exact this

theorem exNoMirror (r : Bool) (ks Bz : ℝ) (F : Nat → Nat → ℝ) : MirrorInv (exRun r ks Bz) F := fun _ h => absurd rfl h

theorem exMirrored (r : Bool) (ks Bz : ℝ) (e : Engine) (Adm : (Nat → Nat → ℝ) → Prop) : Mirrored (exRun r ks Bz) e Adm where
  S := exNoMirror _ _ _ _
  T := exNoMirror _ _ _ _
  Vnuc := exNoMirror _ _ _ _
  dip := exNoMirror _ _ _ _
  quad := exNoMirror _ _ _ _
  Vmag := exNoMirror _ _ _ _
  Vconf := exNoMirror _ _ _ _
  coulomb _ _ _ _ := exNoMirror _ _ _ _
  full _ _ _ _ _ := exNoMirror _ _ _ _
  short _ _ _ _ _ := exNoMirror _ _ _ _
  xc1 _ _ _ _ _ := exNoMirror _ _ _ _
  xc2 _ _ _ _ _ _ _ := ⟨exNoMirror _ _ _ _, exNoMirror _ _ _ _⟩

theorem exSymmetric (r : Bool) (ks Bz : ℝ) (e : Engine) (h : Keeps (exRun r ks Bz) e Symmetric (SymmOn 9)) : SymmetricRun (exRun r ks Bz) e Symmetric where
  toKeeps := h
  S i _ j _ := by by_cases hij : i = j <;> simp [exRun, hij, Ne.symm]
  T i _ j _ := by
    by_cases hij : i = j
    · rw [hij]
    · simp [exRun, hij, Ne.symm hij]
  Vnuc i _ j _ := by
    by_cases hij : i = j
    · rw [hij]
    · simp [exRun, hij, Ne.symm hij]
  dip i _ j _ := by simp only [exRun, Or.comm]
  quad i _ j _ := by simp only [exRun, Or.comm]
  Vmag i _ j _ := by
    by_cases hij : i = j
    · rw [hij]
    · simp [exRun, hij, Ne.symm hij]
  Vconf i _ j _ := mul_comm _ _

theorem exSmoothR (r : Bool) (ks Bz : ℝ) (θ : Theory) (h : θ.env = XC.toy) (P : Nat → Nat → ℝ) : SmoothR (exRun r ks Bz) θ P := fun x _ => by
  rw [h]
  exact ⟨XC.toy_consistent (by norm_num [exRun]) _ _ _, XC.toy_consistent (by norm_num [exRun]) _ _ _⟩

theorem exSmoothU (r : Bool) (ks Bz : ℝ) (θ : Theory) (h : θ.env = XC.toy) (A B : Nat → Nat → ℝ) : SmoothU (exRun r ks Bz) θ A B := fun x _ => by
  rw [h]
  exact ⟨XC.toy_consistent2 (by norm_num [exRun]) _ _ _, XC.toy_consistent2 (by norm_num [exRun]) _ _ _⟩

theorem exIdx : ∀ e ∈ [XC.toyElem], ∀ i ∈ e.idx, i < 9 := fun e he i hi => (XC.toy_idx e he i hi).trans (by norm_num)

theorem exTau : XC.useTau XC.toy ⟨2, [], 1, [], 0⟩ = true := by simp [XC.useTau, XC.usesOf, XC.toy, XC.Spec.uses]

/-- no short-range exchange, a truncated factorisation -/
theorem exPlain (r : Bool) (Bz : ℝ) : ∃ c, atomPrepare [(0, 0), (1, -1), (1, 1)] exR exPrims (1 / 100) 0 2 true false (Caches.fresh false 0) = .ok c ∧
    ∃ θ : Theory, θ.env = XC.toy ∧ Represents (exRun r 0 Bz) (exEngine c) θ Symmetric (Unscreened 9 3 0) ∧ Keeps (exRun r 0 Bz) (exEngine c) Symmetric (SymmOn 9) := by
  obtain ⟨c, h1, T', _, h2⟩ := C76_prepare (s := exRun r 0 Bz) (omega := 2) (thr := 0) realG_symmetric realG_selection exAngular exLayout (by norm_num) exInts (tol := 1 / 100) (by norm_num)
    (sched := [2, 0, 1]) (by decide) (order := allPairs 3) (List.Perm.refl _) rfl (by norm_num [exRun]) (XC.toy_usable (by norm_num [exRun]) _ rfl) (XC.toy_usable (by norm_num [exRun]) _ rfl)
    (elems := [XC.toyElem]) exIdx (fun _ _ => ⟨by norm_num [exRun], exTau⟩) true false rfl (Caches.fresh false 0)
  exact ⟨c, h1, _, rfl, (h2 fun _ _ _ _ => 0).1, (h2 fun _ _ _ _ => 0).2⟩

/-- Yukawa screened exchange -/
theorem exYuk (r : Bool) (Bz : ℝ) : ∃ c, atomPrepare [(0, 0), (1, -1), (1, 1)] exR exPrims (1 / 100) (1 / 2) 2 true false (Caches.fresh false 0) = .ok c ∧
    ∃ θ : Theory, θ.env = XC.toy ∧ Represents (exRun r (1 / 2) Bz) (exEngine c) θ Symmetric (Unscreened 9 3 0) ∧ Keeps (exRun r (1 / 2) Bz) (exEngine c) Symmetric (SymmOn 9) := by
  obtain ⟨c, h1, T', Y', _, _, h2, h3⟩ := C76_prepare_yukawa (s := exRun r (1 / 2) Bz) (omega := 2) (thr := 0) realG_symmetric realG_selection exAngular exLayout (by norm_num) exInts
    (tol := 1 / 100) (by norm_num) (sched := [2, 0, 1]) (by decide) (order := allPairs 3) (List.Perm.refl _) rfl (by norm_num [exRun]) (XC.toy_usable (by norm_num [exRun]) _ rfl)
    (XC.toy_usable (by norm_num [exRun]) _ rfl) (elems := [XC.toyElem]) exIdx (fun _ _ => ⟨by norm_num [exRun], exTau⟩) false (by norm_num [exRun]) (exYukawa 2)
    (Caches.fresh false 0)
  exact ⟨c, h1, _, rfl, h2, h3⟩

/-- error function screened exchange -/
example (r : Bool) (Bz : ℝ) : ∃ c, atomPrepare [(0, 0), (1, -1), (1, 1)] exR exPrims (1 / 100) (1 / 2) 2 false true (Caches.fresh false 0) = .ok c ∧
    ∃ θ : Theory, θ.env = XC.toy ∧ Represents (exRun r (1 / 2) Bz) (exEngine c) θ Symmetric (Unscreened 9 3 0) ∧ Keeps (exRun r (1 / 2) Bz) (exEngine c) Symmetric (SymmOn 9) := by
  obtain ⟨c, h1, T', _, h2, h3⟩ := C76_prepare_erfc (s := exRun r (1 / 2) Bz) (omega := 2) (thr := 0) realG_symmetric realG_selection exAngular exLayout (by norm_num) exInts
    (tol := 1 / 100) (by norm_num) (sched := [2, 0, 1]) (by decide) (order := allPairs 3) (List.Perm.refl _) rfl (by norm_num [exRun]) (XC.toy_usable (by norm_num [exRun]) _ rfl)
    (XC.toy_usable (by norm_num [exRun]) _ rfl) (elems := [XC.toyElem]) exIdx (fun _ _ => ⟨by norm_num [exRun], exTau⟩) (by norm_num [exRun]) (exErfc 2)
    (fun L _ e1 _ e2 _ r _ c _ => by simp only; ring) (Caches.fresh false 0)
  exact ⟨c, h1, _, rfl, h2, h3⟩

/-- orbitals `U`, rotated -/
noncomputable def exTurn (r : Bool) (ks Bz : ℝ) (U : Fin 2 → Matrix (Fin 2) (Fin 2) ℝ) (n : Fin 2 → ℝ) (t : ℝ) : Orbitals (exRun r ks Bz) := fun k => ⟨2, U k * SadSCF.rot t, n⟩

theorem exTurn_moves (r : Bool) (ks Bz : ℝ) (n : Fin 2 → ℝ) (k : Fin 2) (a b : Fin 2) : HasDerivAt (fun t => orthDensity (exTurn r ks Bz (fun _ => 1) n t k) a b)
    ((1 * !![0, -1; 1, 0] * diagonal n * (1 * SadSCF.rot 0)ᵀ + 1 * SadSCF.rot 0 * diagonal n * (1 * !![0, -1; 1, 0])ᵀ : Matrix (Fin 2) (Fin 2) ℝ) a b) 0 :=
  SadSCF.moves_orb (C := fun t => 1 * SadSCF.rot t) n (SadSCF.rot_moves 1) a b

/-- full shells have the same density however they are rotated -/
theorem exTurn_full (r : Bool) (ks Bz : ℝ) {U : Fin 2 → Matrix (Fin 2) (Fin 2) ℝ} (h : ∀ k, U k * (U k)ᵀ = 1) :
    densityOf (exRun r ks Bz) (exTurn r ks Bz U (fun _ => 1) 0) = densityOf _ (exOrbs r ks Bz 1) := by
  unfold densityOf
  congr 1
  funext k
  exact SadSCF.exFull (h k)

theorem exTurn_build (r : Bool) (ks Bz : ℝ) (e : Engine) {U V : Fin 2 → Matrix (Fin 2) (Fin 2) ℝ} (hU : ∀ k, U k * (U k)ᵀ = 1) (hV : ∀ k, V k * (V k)ᵀ = 1) :
    build (exRun r ks Bz) e ⟨exTurn r ks Bz U (fun _ => 1) 0, exTurn r ks Bz V (fun _ => 1) 0⟩ = build _ e ⟨exOrbs r ks Bz 1, exOrbs r ks Bz 1⟩ := by
  have h : ∀ W : Fin 2 → Matrix (Fin 2) (Fin 2) ℝ, (∀ k, W k * (W k)ᵀ = 1) → density (exRun r ks Bz) (exTurn r ks Bz W (fun _ => 1) 0) = density _ (exOrbs r ks Bz 1) := fun W hW => by
    rw [density_ok (exBlocks _ _ _), density_ok (exBlocks _ _ _), exTurn_full r ks Bz hW]
  unfold build densities
  rw [h U hU, h V hV]

end ex

/-! ### energy and gradient -/

variable {s : Setup} {e : Engine} {θ : Theory} {Adm Kept : (Nat → Nat → ℝ) → Prop}
  (hL : Spec.Layout s) (hA : Admissible s Adm) (hr : Represents s e θ Adm Kept) (hN : NoField s)

theorem orthFock_S (hO : Orthonormal s) (k : Fin s.nsym) : Dens.orthFock (s.block k) s.S = 1 := hO k

theorem trace_norm {n : Nat} (o : Dens.Orbs n) (h : ∀ i, ∑ a, o.C a i ^ 2 = 1) : (orthDensity o).trace = ∑ i, o.occ i := by
  unfold orthDensity
  rw [Matrix.trace_mul_comm, ← Matrix.mul_assoc]
  unfold Matrix.trace
  refine sum_congr rfl fun i _ => ?_
  rw [Matrix.diag_apply, Matrix.mul_diagonal, Matrix.mul_apply]
  have : ∑ j, o.Cᵀ i j * o.C j i = 1 := by
    rw [← h i]
    exact sum_congr rfl fun a _ => by rw [Matrix.transpose_apply, sq]
  rw [this, one_mul]

include hL in
/-- **C76, electrons.** The density matrix the builder makes of normalised orbitals has as many electrons as the orbitals hold. -/
theorem C76_electrons (hO : Orthonormal s) (hM : MirrorInv s s.S) (o : Orbitals s) (hn : Normalised o) :
    density s o = .ok (densityOf s o) ∧ mean s.N s.S (densityOf s o) = electrons o := by
  refine ⟨density_ok hL o, ?_⟩
  show mean s.N s.S (spread s _) = _
  rw [mean_spread hL hM _ fun k => orthDensity_symm _]
  unfold electrons
  refine sum_congr rfl fun k _ => ?_
  rw [orthFock_S hO, Matrix.one_mul, trace_norm _ (hn k)]

example : ∃ P, density (exRun false 0 (1 / 5)) (exOrbs false 0 (1 / 5) (1 / 2)) = .ok P ∧ mean 9 (exRun false 0 (1 / 5)).S P = 2 := by
  obtain ⟨h1, h2⟩ := C76_electrons (exBlocks false 0 (1 / 5)) (exOrthonormal _ _ _) (exNoMirror _ _ _ _) _ (exNormalised false 0 (1 / 5) (1 / 2))
  refine ⟨_, h1, h2.trans ?_⟩
  rw [exElectrons]
  norm_num

/-- Without a magnetic field there is nothing to ask for. In one, the orbitals are normalised and the difference of the electron numbers is the one the driver was given. -/
def Balanced (s : Setup) (a b : Orbitals s) : Prop :=
  s.Bz = 0 ∨ Orthonormal s ∧ MirrorInv s s.S ∧ Normalised a ∧ Normalised b ∧ electrons a - electrons b = ((s.nela - s.nelb : Int) : ℝ)

include hL hA hr hN

/-- **C76, energy.** In a spin-restricted run the builder returns the energy of the density matrix of the orbitals, provided there is no magnetic field or no unpaired electron. -/
theorem C76_energy (hres : s.restricted = true) (st : State s) (hk : s.kfrac ≠ 0 ∨ s.kshort ≠ 0 → Kept fun i j => densityOf s st.A i j / 2) (hB : s.Bz = 0 ∨ s.nela = s.nelb) :
    ∃ F : Blocks s, build s e st = .ok (energyR s θ (densityOf s st.A), fun k => (F k, none)) := by
  obtain ⟨G, h, _, _⟩ := build_R hL hA hr hN hres st hk
  refine ⟨fun k => Dens.orthFock (s.block k) G, ?_⟩
  rw [h]
  congr 2
  rcases hB with h | h <;> simp [h]

omit hL hA hr hN in
/-- a restricted run in a magnetic field, with Yukawa screened exchange -/
example : ∃ (c : AtomJK.Caches) (θ : Theory) (F : Blocks (exRun true (1 / 2) (1 / 5))),
    atomPrepare [(0, 0), (1, -1), (1, 1)] TwoE.exR AtomJK.exPrims (1 / 100) (1 / 2) 2 true false (AtomJK.Caches.fresh false 0) = .ok c ∧
    build (exRun true (1 / 2) (1 / 5)) (exEngine c) ⟨exOrbs _ _ _ (1 / 2), exOrbs _ _ _ 0⟩ = .ok (energyR (exRun true (1 / 2) (1 / 5)) θ (densityOf _ (exOrbs true (1 / 2) (1 / 5) (1 / 2))), fun k => (F k, none)) := by
  obtain ⟨c, h1, θ, _, h2, _⟩ := exYuk true (1 / 5)
  obtain ⟨F, h3⟩ := C76_energy (exBlocks _ _ _) (symmetric_admissible _) h2 (exNoField _ _ _) rfl ⟨exOrbs _ _ _ (1 / 2), exOrbs _ _ _ 0⟩ (fun _ => exKept _) (Or.inr rfl)
  exact ⟨c, θ, F, h1, h3⟩

/-- **C76, energy, two spins.** -/
theorem C76_energy_unrestricted (hres : s.restricted = false) (st : State s) (kA : s.kfrac ≠ 0 ∨ s.kshort ≠ 0 → Kept (densityOf s st.A))
    (kB : s.kfrac ≠ 0 ∨ s.kshort ≠ 0 → Kept (densityOf s st.B)) (hB : Balanced s st.A st.B) :
    ∃ Fa Fb : Blocks s, build s e st = .ok (energyU s θ (densityOf s st.A) (densityOf s st.B), fun k => (Fa k, some (Fb k))) := by
  obtain ⟨Ga, Gb, h, _, _⟩ := build_U hL hA hr hN hres st kA kB
  refine ⟨fun k => Dens.orthFock (s.block k) Ga, fun k => Dens.orthFock (s.block k) Gb, ?_⟩
  rw [h]
  congr 2
  rcases hB with h | ⟨hO, hM, na, nb, he⟩
  · rw [h]; ring
  · rw [(C76_electrons hL hO hM st.A na).2, (C76_electrons hL hO hM st.B nb).2, he]; ring

omit hL hA hr hN in
/-- four alpha and two beta electrons in a magnetic field -/
example : ∃ (c : AtomJK.Caches) (θ : Theory) (Fa Fb : Blocks (exRun false (1 / 2) (1 / 5))),
    atomPrepare [(0, 0), (1, -1), (1, 1)] TwoE.exR AtomJK.exPrims (1 / 100) (1 / 2) 2 true false (AtomJK.Caches.fresh false 0) = .ok c ∧
    build (exRun false (1 / 2) (1 / 5)) (exEngine c) ⟨exOrbs _ _ _ 1, exOrbs _ _ _ (1 / 2)⟩ =
      .ok (energyU (exRun false (1 / 2) (1 / 5)) θ (densityOf _ (exOrbs false (1 / 2) (1 / 5) 1)) (densityOf _ (exOrbs false (1 / 2) (1 / 5) (1 / 2))), fun k => (Fa k, some (Fb k))) := by
  obtain ⟨c, h1, θ, _, h2, _⟩ := exYuk false (1 / 5)
  obtain ⟨Fa, Fb, h3⟩ := C76_energy_unrestricted (exBlocks _ _ _) (symmetric_admissible _) h2 (exNoField _ _ _) rfl ⟨exOrbs _ _ _ 1, exOrbs _ _ _ (1 / 2)⟩ (fun _ => exKept _) (fun _ => exKept _)
    (Or.inr ⟨exOrthonormal _ _ _, exNoMirror _ _ _ _, exNormalised _ _ _ _, exNormalised _ _ _ _, by rw [exElectrons, exElectrons]; norm_num [exRun]⟩)
  exact ⟨c, θ, Fa, Fb, h1, h3⟩

/-- **C76, gradient.** Let the orbitals or the occupations move so that the density matrices of the blocks have a derivative `Δ` at `t0`. The energy changes at the rate given by the traces of
the Fock blocks with `Δ`. -/
theorem C76_gradient (hm : Mirrored s e Adm) (hres : s.restricted = true) (o : ℝ → Orbitals s) (ob : Orbitals s) (t0 : ℝ) (Δ : Blocks s)
    (hΔ : ∀ k i j, HasDerivAt (fun t => orthDensity (o t k) i j) (Δ k i j) t0) (hk : s.kfrac ≠ 0 ∨ s.kshort ≠ 0 → Kept fun i j => densityOf s (o t0) i j / 2)
    (hx : SmoothR s θ (densityOf s (o t0))) :
    ∃ (E : ℝ) (F : Blocks s), build s e ⟨o t0, ob⟩ = .ok (E, fun k => (F k, none)) ∧ HasDerivAt (fun t => energyR s θ (densityOf s (o t))) (∑ k, (F k * Δ k).trace) t0 := by
  obtain ⟨G, h1, h2, h3⟩ := build_R hL hA hr hN hres ⟨o t0, ob⟩ hk
  have hs : ∀ k, (Δ k)ᵀ = Δ k := moves_symm (D := fun t k => orthDensity (o t k)) hΔ fun t k => orthDensity_symm _
  refine ⟨_, fun k => Dens.orthFock (s.block k) G, h1, ?_⟩
  rw [← mean_spread hL (h2 _ (closed_mirror s) hm) Δ hs]
  exact h3 t0 (fun t => densityOf s (o t)) (spread s Δ) (fun i j => spread_deriv (D := fun t k => orthDensity (o t k)) hΔ i j) rfl (hA.spread Δ hs) hx

omit hL hA hr hN in
/-- unequally filled shells, rotated -/
example : ∃ (c : AtomJK.Caches) (θ : Theory) (E : ℝ) (F : Blocks (exRun true (1 / 2) (1 / 5))) (E' : ℝ),
    atomPrepare [(0, 0), (1, -1), (1, 1)] TwoE.exR AtomJK.exPrims (1 / 100) (1 / 2) 2 true false (AtomJK.Caches.fresh false 0) = .ok c ∧
    build (exRun true (1 / 2) (1 / 5)) (exEngine c) ⟨exTurn _ _ _ (fun _ => 1) ![1, 1 / 2] 0, exOrbs _ _ _ 0⟩ = .ok (E, fun k => (F k, none)) ∧
    HasDerivAt (fun t => energyR (exRun true (1 / 2) (1 / 5)) θ (densityOf _ (exTurn true (1 / 2) (1 / 5) (fun _ => 1) ![1, 1 / 2] t))) E' 0 := by
  obtain ⟨c, h1, θ, he, h2, _⟩ := exYuk true (1 / 5)
  obtain ⟨E, F, h3, h4⟩ := C76_gradient (exBlocks _ _ _) (symmetric_admissible _) h2 (exNoField _ _ _) (exMirrored _ _ _ _ _) rfl (exTurn _ _ _ (fun _ => 1) ![1, 1 / 2]) (exOrbs _ _ _ 0) 0 _
    (exTurn_moves true (1 / 2) (1 / 5) ![1, 1 / 2]) (fun _ => exKept _) (exSmoothR _ _ _ θ he _)
  exact ⟨c, θ, E, F, _, h1, h3, h4⟩

omit hL hA hr hN in
theorem spread_zero (i j : Nat) : spread s (fun _ => 0) i j = 0 := by
  unfold spread
  refine sum_eq_zero fun k _ => ?_
  unfold spreadBlock place
  simp only [Matrix.mul_zero, Matrix.zero_mul, Matrix.zero_apply, Matrix.submatrix_zero, Pi.zero_apply, ite_self, sum_const_zero, mul_zero, dite_eq_ite, add_zero]

/-- **C76, gradient, two spins.** Without beta electrons the beta density has to stay put: the beta Fock blocks then lack exchange and correlation. -/
theorem C76_gradient_unrestricted (hm : Mirrored s e Adm) (hres : s.restricted = false) (oa ob : ℝ → Orbitals s) (t0 : ℝ) (Δa Δb : Blocks s)
    (hΔa : ∀ k i j, HasDerivAt (fun t => orthDensity (oa t k) i j) (Δa k i j) t0) (hΔb : ∀ k i j, HasDerivAt (fun t => orthDensity (ob t k) i j) (Δb k i j) t0)
    (hn : 0 < s.nelb ∨ ∀ k, Δb k = 0) (kA : s.kfrac ≠ 0 ∨ s.kshort ≠ 0 → Kept (densityOf s (oa t0))) (kB : s.kfrac ≠ 0 ∨ s.kshort ≠ 0 → Kept (densityOf s (ob t0)))
    (hx : SmoothU s θ (densityOf s (oa t0)) (densityOf s (ob t0))) :
    ∃ (E : ℝ) (Fa Fb : Blocks s), build s e ⟨oa t0, ob t0⟩ = .ok (E, fun k => (Fa k, some (Fb k))) ∧
      HasDerivAt (fun t => energyU s θ (densityOf s (oa t)) (densityOf s (ob t))) (∑ k, (Fa k * Δa k).trace + ∑ k, (Fb k * Δb k).trace) t0 := by
  obtain ⟨Ga, Gb, h1, h2, h3⟩ := build_U hL hA hr hN hres ⟨oa t0, ob t0⟩ kA kB
  have hsa : ∀ k, (Δa k)ᵀ = Δa k := moves_symm (D := fun t k => orthDensity (oa t k)) hΔa fun t k => orthDensity_symm _
  have hsb : ∀ k, (Δb k)ᵀ = Δb k := moves_symm (D := fun t k => orthDensity (ob t k)) hΔb fun t k => orthDensity_symm _
  refine ⟨_, fun k => Dens.orthFock (s.block k) Ga, fun k => Dens.orthFock (s.block k) Gb, h1, ?_⟩
  rw [← mean_spread hL (h2 _ (closed_mirror s) hm).1 Δa hsa, ← mean_spread hL (h2 _ (closed_mirror s) hm).2 Δb hsb]
  refine h3 t0 (fun t => densityOf s (oa t)) (fun t => densityOf s (ob t)) (spread s Δa) (spread s Δb) (fun i j => spread_deriv (D := fun t k => orthDensity (oa t k)) hΔa i j)
    (fun i j => spread_deriv (D := fun t k => orthDensity (ob t k)) hΔb i j) rfl rfl (hA.spread Δa hsa) (hA.spread Δb hsb) (fun hn' => ?_) hx
  rcases hn with h | h
  · omega
  · rw [show Δb = fun _ => 0 from funext h]
    exact spread_zero

omit hL hA hr hN in
/-- both spins rotated -/
example : ∃ (c : AtomJK.Caches) (θ : Theory) (E : ℝ) (Fa Fb : Blocks (exRun false (1 / 2) (1 / 5))) (E' : ℝ),
    atomPrepare [(0, 0), (1, -1), (1, 1)] TwoE.exR AtomJK.exPrims (1 / 100) (1 / 2) 2 true false (AtomJK.Caches.fresh false 0) = .ok c ∧
    build (exRun false (1 / 2) (1 / 5)) (exEngine c) ⟨exTurn _ _ _ (fun _ => 1) ![1, 1 / 2] 0, exTurn _ _ _ (fun _ => 1) ![0, 1] 0⟩ = .ok (E, fun k => (Fa k, some (Fb k))) ∧
    HasDerivAt (fun t => energyU (exRun false (1 / 2) (1 / 5)) θ (densityOf _ (exTurn false (1 / 2) (1 / 5) (fun _ => 1) ![1, 1 / 2] t))
      (densityOf _ (exTurn false (1 / 2) (1 / 5) (fun _ => 1) ![0, 1] t))) E' 0 := by
  obtain ⟨c, h1, θ, he, h2, _⟩ := exYuk false (1 / 5)
  obtain ⟨E, Fa, Fb, h3, h4⟩ := C76_gradient_unrestricted (exBlocks _ _ _) (symmetric_admissible _) h2 (exNoField _ _ _) (exMirrored _ _ _ _ _) rfl (exTurn _ _ _ (fun _ => 1) ![1, 1 / 2])
    (exTurn _ _ _ (fun _ => 1) ![0, 1]) 0 _ _ (exTurn_moves false (1 / 2) (1 / 5) ![1, 1 / 2]) (exTurn_moves false (1 / 2) (1 / 5) ![0, 1]) (Or.inl (by norm_num [exRun])) (fun _ => exKept _)
    (fun _ => exKept _) (exSmoothU _ _ _ θ he _ _)
  exact ⟨c, θ, E, Fa, Fb, _, h1, h3, h4⟩

omit hL hA hr hN in
theorem occ_moves (o : Orbitals s) (k0 : Fin s.nsym) (i : Fin (o k0).p) (k : Fin s.nsym) (a b : Fin (s.block k).idx.length) :
    HasDerivAt (fun t => orthDensity (withOcc o k0 i t k) a b) ((Function.update (fun _ => 0 : Blocks s) k0 (Matrix.of fun a b => (o k0).C a i * (o k0).C b i)) k a b) ((o k0).occ i) := by
  unfold withOcc
  by_cases hl : k = k0
  · subst hl
    simp only [Function.update_self]
    exact SadSCF.moves_occ (o k) i a b
  · simp only [Function.update_of_ne hl]
    exact hasDerivAt_const _ _

omit hL hA hr hN in
theorem occ_self (o : Orbitals s) (k0 : Fin s.nsym) (i : Fin (o k0).p) : withOcc o k0 i ((o k0).occ i) = o := by
  unfold withOcc
  rw [Function.update_eq_self, Function.update_eq_self]

omit hL hA hr hN in
theorem occ_trace (F : Blocks s) (o : Orbitals s) (k0 : Fin s.nsym) (i : Fin (o k0).p) :
    ∑ k, (F k * (Function.update (fun _ => 0 : Blocks s) k0 (Matrix.of fun a b => (o k0).C a i * (o k0).C b i)) k).trace = ((o k0).Cᵀ * F k0 * (o k0).C) i i := by
  rw [sum_eq_single k0 (fun k _ hn => by rw [Function.update_of_ne hn, Matrix.mul_zero, Matrix.trace_zero]) fun hn => absurd (mem_univ _) hn, Function.update_self, SadSCF.trace_occ]

/-- **C76, orbital energies.** The derivative of the energy with respect to an occupation is the expectation value of the Fock matrix in that orbital. -/
theorem C76_occupation (hm : Mirrored s e Adm) (hres : s.restricted = true) (o ob : Orbitals s) (hk : s.kfrac ≠ 0 ∨ s.kshort ≠ 0 → Kept fun i j => densityOf s o i j / 2)
    (hx : SmoothR s θ (densityOf s o)) (k : Fin s.nsym) (i : Fin (o k).p) :
    ∃ (E : ℝ) (F : Blocks s), build s e ⟨o, ob⟩ = .ok (E, fun k => (F k, none)) ∧ HasDerivAt (fun n => energyR s θ (densityOf s (withOcc o k i n))) (((o k).Cᵀ * F k * (o k).C) i i) ((o k).occ i) := by
  have h0 := occ_self o k i
  obtain ⟨E, F, h1, h2⟩ := C76_gradient hL hA hr hN hm hres (fun t => withOcc o k i t) ob ((o k).occ i) _ (occ_moves o k i) (by rw [h0]; exact hk) (by rw [h0]; exact hx)
  rw [h0] at h1
  exact ⟨E, F, h1, h2.congr_deriv (occ_trace F o k i)⟩

omit hL hA hr hN in
example : ∃ (c : AtomJK.Caches) (θ : Theory) (E : ℝ) (F : Blocks (exRun true (1 / 2) (1 / 5))),
    atomPrepare [(0, 0), (1, -1), (1, 1)] TwoE.exR AtomJK.exPrims (1 / 100) (1 / 2) 2 true false (AtomJK.Caches.fresh false 0) = .ok c ∧
    build (exRun true (1 / 2) (1 / 5)) (exEngine c) ⟨exOrbs _ _ _ (1 / 2), exOrbs _ _ _ 0⟩ = .ok (E, fun k => (F k, none)) ∧
    HasDerivAt (fun n => energyR (exRun true (1 / 2) (1 / 5)) θ (densityOf _ (withOcc (exOrbs true (1 / 2) (1 / 5) (1 / 2)) (1 : Fin 2) (0 : Fin 2) n)))
      (((exOrbs true (1 / 2) (1 / 5) (1 / 2) (1 : Fin 2)).Cᵀ * F (1 : Fin 2) * (exOrbs true (1 / 2) (1 / 5) (1 / 2) (1 : Fin 2)).C) (0 : Fin 2) (0 : Fin 2)) (1 / 2) := by
  obtain ⟨c, h1, θ, he, h2, _⟩ := exYuk true (1 / 5)
  obtain ⟨E, F, h3, h4⟩ := C76_occupation (exBlocks _ _ _) (symmetric_admissible _) h2 (exNoField _ _ _) (exMirrored _ _ _ _ _) rfl (exOrbs _ _ _ (1 / 2)) (exOrbs _ _ _ 0) (fun _ => exKept _)
    (exSmoothR _ _ _ θ he _) (1 : Fin 2) (0 : Fin 2)
  exact ⟨c, θ, E, F, h1, h3, h4⟩

/-- **C76, orbital energies, alpha.** -/
theorem C76_occupation_alpha (hm : Mirrored s e Adm) (hres : s.restricted = false) (oa ob : Orbitals s) (kA : s.kfrac ≠ 0 ∨ s.kshort ≠ 0 → Kept (densityOf s oa))
    (kB : s.kfrac ≠ 0 ∨ s.kshort ≠ 0 → Kept (densityOf s ob)) (hx : SmoothU s θ (densityOf s oa) (densityOf s ob)) (k : Fin s.nsym) (i : Fin (oa k).p) :
    ∃ (E : ℝ) (Fa Fb : Blocks s), build s e ⟨oa, ob⟩ = .ok (E, fun k => (Fa k, some (Fb k))) ∧
      HasDerivAt (fun n => energyU s θ (densityOf s (withOcc oa k i n)) (densityOf s ob)) (((oa k).Cᵀ * Fa k * (oa k).C) i i) ((oa k).occ i) := by
  have h0 := occ_self oa k i
  obtain ⟨E, Fa, Fb, h1, h2⟩ := C76_gradient_unrestricted hL hA hr hN hm hres (fun t => withOcc oa k i t) (fun _ => ob) ((oa k).occ i) _ (fun _ => 0) (occ_moves oa k i)
    (fun k a b => hasDerivAt_const _ _) (Or.inr fun _ => rfl) (by rw [h0]; exact kA) kB (by rw [h0]; exact hx)
  rw [h0] at h1
  refine ⟨E, Fa, Fb, h1, h2.congr_deriv ?_⟩
  simp only [Matrix.mul_zero, Matrix.trace_zero, sum_const_zero, add_zero]
  exact occ_trace Fa oa k i

omit hL hA hr hN in
example : ∃ (c : AtomJK.Caches) (θ : Theory) (E : ℝ) (Fa Fb : Blocks (exRun false (1 / 2) (1 / 5))),
    atomPrepare [(0, 0), (1, -1), (1, 1)] TwoE.exR AtomJK.exPrims (1 / 100) (1 / 2) 2 true false (AtomJK.Caches.fresh false 0) = .ok c ∧
    build (exRun false (1 / 2) (1 / 5)) (exEngine c) ⟨exOrbs _ _ _ 1, exOrbs _ _ _ (1 / 2)⟩ = .ok (E, fun k => (Fa k, some (Fb k))) ∧
    HasDerivAt (fun n => energyU (exRun false (1 / 2) (1 / 5)) θ (densityOf _ (withOcc (exOrbs false (1 / 2) (1 / 5) 1) (0 : Fin 2) (1 : Fin 2) n)) (densityOf _ (exOrbs false (1 / 2) (1 / 5) (1 / 2))))
      (((exOrbs false (1 / 2) (1 / 5) 1 (0 : Fin 2)).Cᵀ * Fa (0 : Fin 2) * (exOrbs false (1 / 2) (1 / 5) 1 (0 : Fin 2)).C) (1 : Fin 2) (1 : Fin 2)) 1 := by
  obtain ⟨c, h1, θ, he, h2, _⟩ := exYuk false (1 / 5)
  obtain ⟨E, Fa, Fb, h3, h4⟩ := C76_occupation_alpha (exBlocks _ _ _) (symmetric_admissible _) h2 (exNoField _ _ _) (exMirrored _ _ _ _ _) rfl (exOrbs _ _ _ 1) (exOrbs _ _ _ (1 / 2))
    (fun _ => exKept _) (fun _ => exKept _) (exSmoothU _ _ _ θ he _ _) (0 : Fin 2) (1 : Fin 2)
  exact ⟨c, θ, E, Fa, Fb, h1, h3, h4⟩

/-- **C76, orbital energies, beta.** There are beta electrons. -/
theorem C76_occupation_beta (hm : Mirrored s e Adm) (hres : s.restricted = false) (hn : 0 < s.nelb) (oa ob : Orbitals s) (kA : s.kfrac ≠ 0 ∨ s.kshort ≠ 0 → Kept (densityOf s oa))
    (kB : s.kfrac ≠ 0 ∨ s.kshort ≠ 0 → Kept (densityOf s ob)) (hx : SmoothU s θ (densityOf s oa) (densityOf s ob)) (k : Fin s.nsym) (i : Fin (ob k).p) :
    ∃ (E : ℝ) (Fa Fb : Blocks s), build s e ⟨oa, ob⟩ = .ok (E, fun k => (Fa k, some (Fb k))) ∧
      HasDerivAt (fun n => energyU s θ (densityOf s oa) (densityOf s (withOcc ob k i n))) (((ob k).Cᵀ * Fb k * (ob k).C) i i) ((ob k).occ i) := by
  have h0 := occ_self ob k i
  obtain ⟨E, Fa, Fb, h1, h2⟩ := C76_gradient_unrestricted hL hA hr hN hm hres (fun _ => oa) (fun t => withOcc ob k i t) ((ob k).occ i) (fun _ => 0) _ (fun k a b => hasDerivAt_const _ _)
    (occ_moves ob k i) (Or.inl hn) kA (by rw [h0]; exact kB) (by rw [h0]; exact hx)
  rw [h0] at h1
  refine ⟨E, Fa, Fb, h1, h2.congr_deriv ?_⟩
  simp only [Matrix.mul_zero, Matrix.trace_zero, sum_const_zero, zero_add]
  exact occ_trace Fb ob k i

omit hL hA hr hN in
example : ∃ (c : AtomJK.Caches) (θ : Theory) (E : ℝ) (Fa Fb : Blocks (exRun false (1 / 2) (1 / 5))),
    atomPrepare [(0, 0), (1, -1), (1, 1)] TwoE.exR AtomJK.exPrims (1 / 100) (1 / 2) 2 true false (AtomJK.Caches.fresh false 0) = .ok c ∧
    build (exRun false (1 / 2) (1 / 5)) (exEngine c) ⟨exOrbs _ _ _ 1, exOrbs _ _ _ (1 / 2)⟩ = .ok (E, fun k => (Fa k, some (Fb k))) ∧
    HasDerivAt (fun n => energyU (exRun false (1 / 2) (1 / 5)) θ (densityOf _ (exOrbs false (1 / 2) (1 / 5) 1)) (densityOf _ (withOcc (exOrbs false (1 / 2) (1 / 5) (1 / 2)) (0 : Fin 2) (1 : Fin 2) n)))
      (((exOrbs false (1 / 2) (1 / 5) (1 / 2) (0 : Fin 2)).Cᵀ * Fb (0 : Fin 2) * (exOrbs false (1 / 2) (1 / 5) (1 / 2) (0 : Fin 2)).C) (1 : Fin 2) (1 : Fin 2)) (1 / 2) := by
  obtain ⟨c, h1, θ, he, h2, _⟩ := exYuk false (1 / 5)
  obtain ⟨E, Fa, Fb, h3, h4⟩ := C76_occupation_beta (exBlocks _ _ _) (symmetric_admissible _) h2 (exNoField _ _ _) (exMirrored _ _ _ _ _) rfl (by norm_num [exRun]) (exOrbs _ _ _ 1) (exOrbs _ _ _ (1 / 2))
    (fun _ => exKept _) (fun _ => exKept _) (exSmoothU _ _ _ θ he _ _) (0 : Fin 2) (1 : Fin 2)
  exact ⟨c, θ, E, Fa, Fb, h1, h3, h4⟩

omit hA hr hN in
theorem orthFock_symm {G : Nat → Nat → ℝ} (hG : SymmOn s.N G) (k : Fin s.nsym) : (Dens.orthFock (s.block k) G)ᵀ = Dens.orthFock (s.block k) G := by
  have h : (Orth.gather G (s.block k).idx)ᵀ = Orth.gather G (s.block k).idx := by
    ext a b
    exact hG _ (hL.within k _ (List.getElem_mem _)) _ (hL.within k _ (List.getElem_mem _))
  unfold Dens.orthFock
  rw [Matrix.transpose_mul, Matrix.transpose_mul, h, Matrix.transpose_transpose, Matrix.mul_assoc]

/-- **C76, symmetry.** If the matrices of the Hamiltonian are symmetric, the Fock blocks handed to the solver are. -/
theorem C76_symmetric (hm : SymmetricRun s e Adm) (st : State s) (E : ℝ) (F : (k : Fin s.nsym) → Matrix (Fin (s.block k).idx.length) (Fin (s.block k).idx.length) ℝ ×
      Option (Matrix (Fin (s.block k).idx.length) (Fin (s.block k).idx.length) ℝ))
    (kA : s.kfrac ≠ 0 ∨ s.kshort ≠ 0 → if s.restricted then Kept fun i j => densityOf s st.A i j / 2 else Kept (densityOf s st.A) ∧ Kept (densityOf s st.B))
    (hF : build s e st = .ok (E, F)) (k : Fin s.nsym) : (F k).1ᵀ = (F k).1 ∧ ∀ B ∈ (F k).2, Bᵀ = B := by
  cases hres : s.restricted with
  | true =>
    simp only [hres, if_true] at kA
    obtain ⟨G, h1, h2, _⟩ := build_R hL hA hr hN hres st kA
    rw [h1, Res.ok.injEq, Prod.mk.injEq] at hF
    rw [← hF.2]
    exact ⟨orthFock_symm hL (h2 _ (closed_symm s.N) hm) k, fun B hB => by simp at hB⟩
  | false =>
    simp only [hres, Bool.false_eq_true, if_false] at kA
    obtain ⟨Ga, Gb, h1, h2, _⟩ := build_U hL hA hr hN hres st (fun h => (kA h).1) fun h => (kA h).2
    rw [h1, Res.ok.injEq, Prod.mk.injEq] at hF
    rw [← hF.2]
    refine ⟨orthFock_symm hL (h2 _ (closed_symm s.N) hm).1 k, fun B hB => ?_⟩
    simp only [Option.mem_def, Option.some.injEq] at hB
    rw [← hB]
    exact orthFock_symm hL (h2 _ (closed_symm s.N) hm).2 k

omit hL hA hr hN in
example : ∃ (c : AtomJK.Caches) (E : ℝ) (Fa Fb : Blocks (exRun false 0 0)),
    atomPrepare [(0, 0), (1, -1), (1, 1)] TwoE.exR AtomJK.exPrims (1 / 100) 0 2 true false (AtomJK.Caches.fresh false 0) = .ok c ∧
    build (exRun false 0 0) (exEngine c) ⟨exOrbs _ _ _ 1, exOrbs _ _ _ (1 / 3)⟩ = .ok (E, fun k => (Fa k, some (Fb k))) ∧ ∀ k, (Fa k)ᵀ = Fa k ∧ (Fb k)ᵀ = Fb k := by
  obtain ⟨c, h1, θ, _, h2, h2'⟩ := exPlain false 0
  obtain ⟨Fa, Fb, h3⟩ := C76_energy_unrestricted (exBlocks _ _ _) (symmetric_admissible _) h2 (exNoField _ _ _) rfl ⟨exOrbs _ _ _ 1, exOrbs _ _ _ (1 / 3)⟩ (fun _ => exKept _) (fun _ => exKept _)
    (Or.inl rfl)
  have h4 := C76_symmetric (exBlocks _ _ _) (symmetric_admissible _) h2 (exNoField _ _ _) (exSymmetric _ _ _ _ h2') _ _ _ (fun _ => ⟨exKept _, exKept _⟩) h3
  exact ⟨c, _, Fa, Fb, h1, h3, fun k => ⟨(h4 k).1, (h4 k).2 _ rfl⟩⟩

/-- **C76, stationarity.** If the orbitals are eigenvectors of the Fock blocks the builder returns for them, no change of the orbitals that keeps them normalised changes the energy to first
order. -/
theorem C76_stationary (hm : Mirrored s e Adm) (hy : SymmetricRun s e Adm) (hres : s.restricted = true) (p : Fin s.nsym → Nat) (n : ∀ k, Fin (p k) → ℝ)
    (C : ℝ → ∀ k, Matrix (Fin (s.block k).idx.length) (Fin (p k)) ℝ) (C' : ∀ k, Matrix (Fin (s.block k).idx.length) (Fin (p k)) ℝ) (ob : Orbitals s) (t0 : ℝ)
    (hC : ∀ k a i, HasDerivAt (fun t => C t k a i) (C' k a i) t0) (hn : ∀ t k i, ∑ a, C t k a i ^ 2 = 1)
    (hk : s.kfrac ≠ 0 ∨ s.kshort ≠ 0 → Kept fun i j => densityOf s (fun k => ⟨p k, C t0 k, n k⟩) i j / 2) (hx : SmoothR s θ (densityOf s fun k => ⟨p k, C t0 k, n k⟩)) (E : ℝ) (F : Blocks s)
    (hF : build s e ⟨fun k => ⟨p k, C t0 k, n k⟩, ob⟩ = .ok (E, fun k => (F k, none))) (ε : ∀ k, Fin (p k) → ℝ) (he : ∀ k, F k * C t0 k = C t0 k * diagonal (ε k)) :
    HasDerivAt (fun t => energyR s θ (densityOf s fun k => ⟨p k, C t k, n k⟩)) 0 t0 := by
  obtain ⟨E', F', e1, e2⟩ := C76_gradient hL hA hr hN hm hres (fun t k => ⟨p k, C t k, n k⟩) ob t0 (fun k => C' k * diagonal (n k) * (C t0 k)ᵀ + C t0 k * diagonal (n k) * (C' k)ᵀ)
    (fun k => SadSCF.moves_orb (n k) (hC k)) hk hx
  have hs := C76_symmetric hL hA hr hN hy _ _ _ (fun h => by rw [hres]; exact hk h) hF
  rw [e1, Res.ok.injEq, Prod.mk.injEq] at hF
  obtain rfl : F' = F := funext fun k => congrArg Prod.fst (congrFun hF.2 k)
  exact e2.congr_deriv (sum_eq_zero fun k _ => SadSCF.trace_orb (C := fun t => C t k) (hs k).1 (n k) (ε k) (hC k) (fun t => hn t k) (he k))

omit hL hA hr hN in
/-- full shells of eigenvectors, rotated -/
example : ∃ (c : AtomJK.Caches) (θ : Theory) (U : Fin 2 → Matrix (Fin 2) (Fin 2) ℝ),
    atomPrepare [(0, 0), (1, -1), (1, 1)] TwoE.exR AtomJK.exPrims (1 / 100) (1 / 2) 2 true false (AtomJK.Caches.fresh false 0) = .ok c ∧ (∀ k, U k * (U k)ᵀ = 1) ∧
    HasDerivAt (fun t => energyR (exRun true (1 / 2) (1 / 5)) θ (densityOf _ (exTurn true (1 / 2) (1 / 5) U (fun _ => 1) t))) 0 0 := by
  obtain ⟨c, h1, θ, he, h2, h2'⟩ := exYuk true (1 / 5)
  obtain ⟨F, h3⟩ := C76_energy (exBlocks _ _ _) (symmetric_admissible _) h2 (exNoField _ _ _) rfl ⟨exOrbs _ _ _ 1, exOrbs _ _ _ 1⟩ (fun _ => exKept _) (Or.inr rfl)
  have h4 := C76_symmetric (exBlocks _ _ _) (symmetric_admissible _) h2 (exNoField _ _ _) (exSymmetric _ _ _ _ h2') _ _ _ (fun _ => exKept _) h3
  choose U ε hU hε using fun k : Fin 2 => SadSCF.exEigen (F k) (h4 k).1
  refine ⟨c, θ, U, h1, hU, ?_⟩
  rw [← exTurn_build true _ _ _ hU hU] at h3
  exact C76_stationary (exBlocks _ _ _) (symmetric_admissible _) h2 (exNoField _ _ _) (exMirrored _ _ _ _ _) (exSymmetric _ _ _ _ h2') rfl (fun _ => 2) (fun _ _ => 1)
    (fun t k => U k * SadSCF.rot t) (fun k => U k * !![0, -1; 1, 0]) _ 0 (fun k => SadSCF.rot_moves (U k)) (fun t k => SadSCF.exNorm (hU k) t) (fun _ => exKept _) (exSmoothR _ _ _ θ he _) _ F h3 ε
    fun k => by
      have := hε k
      rw [SadSCF.rot_zero, Matrix.mul_one]
      exact this

/-- **C76, stationarity, two spins.** -/
theorem C76_stationary_unrestricted (hm : Mirrored s e Adm) (hy : SymmetricRun s e Adm) (hres : s.restricted = false) (p q : Fin s.nsym → Nat) (na : ∀ k, Fin (p k) → ℝ) (nb : ∀ k, Fin (q k) → ℝ)
    (hb : 0 < s.nelb ∨ ∀ k i, nb k i = 0)
    (C : ℝ → ∀ k, Matrix (Fin (s.block k).idx.length) (Fin (p k)) ℝ) (D : ℝ → ∀ k, Matrix (Fin (s.block k).idx.length) (Fin (q k)) ℝ)
    (C' : ∀ k, Matrix (Fin (s.block k).idx.length) (Fin (p k)) ℝ) (D' : ∀ k, Matrix (Fin (s.block k).idx.length) (Fin (q k)) ℝ) (t0 : ℝ)
    (hC : ∀ k a i, HasDerivAt (fun t => C t k a i) (C' k a i) t0) (hD : ∀ k a i, HasDerivAt (fun t => D t k a i) (D' k a i) t0)
    (hn : ∀ t k i, ∑ a, C t k a i ^ 2 = 1) (hn' : ∀ t k i, ∑ a, D t k a i ^ 2 = 1)
    (kA : s.kfrac ≠ 0 ∨ s.kshort ≠ 0 → Kept (densityOf s fun k => ⟨p k, C t0 k, na k⟩)) (kB : s.kfrac ≠ 0 ∨ s.kshort ≠ 0 → Kept (densityOf s fun k => ⟨q k, D t0 k, nb k⟩))
    (hx : SmoothU s θ (densityOf s fun k => ⟨p k, C t0 k, na k⟩) (densityOf s fun k => ⟨q k, D t0 k, nb k⟩)) (E : ℝ) (Fa Fb : Blocks s)
    (hF : build s e ⟨fun k => ⟨p k, C t0 k, na k⟩, fun k => ⟨q k, D t0 k, nb k⟩⟩ = .ok (E, fun k => (Fa k, some (Fb k)))) (ε : ∀ k, Fin (p k) → ℝ) (η : ∀ k, Fin (q k) → ℝ)
    (he : ∀ k, Fa k * C t0 k = C t0 k * diagonal (ε k)) (he' : ∀ k, Fb k * D t0 k = D t0 k * diagonal (η k)) :
    HasDerivAt (fun t => energyU s θ (densityOf s fun k => ⟨p k, C t k, na k⟩) (densityOf s fun k => ⟨q k, D t k, nb k⟩)) 0 t0 := by
  obtain ⟨E', Fa', Fb', e1, e2⟩ := C76_gradient_unrestricted hL hA hr hN hm hres (fun t k => ⟨p k, C t k, na k⟩) (fun t k => ⟨q k, D t k, nb k⟩) t0
    (fun k => C' k * diagonal (na k) * (C t0 k)ᵀ + C t0 k * diagonal (na k) * (C' k)ᵀ) (fun k => D' k * diagonal (nb k) * (D t0 k)ᵀ + D t0 k * diagonal (nb k) * (D' k)ᵀ)
    (fun k => SadSCF.moves_orb (na k) (hC k)) (fun k => SadSCF.moves_orb (nb k) (hD k))
    (hb.imp_right fun hz k => by
      have : diagonal (nb k) = 0 := by rw [show nb k = 0 from funext (hz k)]; exact diagonal_zero
      rw [this, Matrix.mul_zero, Matrix.mul_zero, Matrix.zero_mul, Matrix.zero_mul, add_zero]) kA kB hx
  have hs := C76_symmetric hL hA hr hN hy _ _ _ (fun h => by rw [hres]; exact ⟨kA h, kB h⟩) hF
  rw [e1, Res.ok.injEq, Prod.mk.injEq] at hF
  obtain rfl : Fa' = Fa := funext fun k => congrArg Prod.fst (congrFun hF.2 k)
  obtain rfl : Fb' = Fb := funext fun k => Option.some.inj (congrArg Prod.snd (congrFun hF.2 k))
  refine e2.congr_deriv ?_
  rw [sum_eq_zero fun k _ => SadSCF.trace_orb (C := fun t => C t k) (hs k).1 (na k) (ε k) (hC k) (fun t => hn t k) (he k),
    sum_eq_zero fun k _ => SadSCF.trace_orb (C := fun t => D t k) ((hs k).2 _ rfl) (nb k) (η k) (hD k) (fun t => hn' t k) (he' k), add_zero]

omit hL hA hr hN in
/-- full shells of both spins -/
example : ∃ (c : AtomJK.Caches) (θ : Theory) (U V : Fin 2 → Matrix (Fin 2) (Fin 2) ℝ),
    atomPrepare [(0, 0), (1, -1), (1, 1)] TwoE.exR AtomJK.exPrims (1 / 100) (1 / 2) 2 true false (AtomJK.Caches.fresh false 0) = .ok c ∧ (∀ k, U k * (U k)ᵀ = 1 ∧ V k * (V k)ᵀ = 1) ∧
    HasDerivAt (fun t => energyU (exRun false (1 / 2) 0) θ (densityOf _ (exTurn false (1 / 2) 0 U (fun _ => 1) t)) (densityOf _ (exTurn false (1 / 2) 0 V (fun _ => 1) t))) 0 0 := by
  obtain ⟨c, h1, θ, he, h2, h2'⟩ := exYuk false 0
  obtain ⟨Fa, Fb, h3⟩ := C76_energy_unrestricted (exBlocks _ _ _) (symmetric_admissible _) h2 (exNoField _ _ _) rfl ⟨exOrbs _ _ _ 1, exOrbs _ _ _ 1⟩ (fun _ => exKept _) (fun _ => exKept _) (Or.inl rfl)
  have h4 := C76_symmetric (exBlocks _ _ _) (symmetric_admissible _) h2 (exNoField _ _ _) (exSymmetric _ _ _ _ h2') _ _ _ (fun _ => ⟨exKept _, exKept _⟩) h3
  choose U ε hU hε using fun k : Fin 2 => SadSCF.exEigen (Fa k) (h4 k).1
  choose V η hV hη using fun k : Fin 2 => SadSCF.exEigen (Fb k) ((h4 k).2 _ rfl)
  refine ⟨c, θ, U, V, h1, fun k => ⟨hU k, hV k⟩, ?_⟩
  rw [← exTurn_build false _ _ _ hU hV] at h3
  exact C76_stationary_unrestricted (exBlocks _ _ _) (symmetric_admissible _) h2 (exNoField _ _ _) (exMirrored _ _ _ _ _) (exSymmetric _ _ _ _ h2') rfl (fun _ => 2) (fun _ => 2) (fun _ _ => 1)
    (fun _ _ => 1) (Or.inl (by norm_num [exRun])) (fun t k => U k * SadSCF.rot t) (fun t k => V k * SadSCF.rot t) (fun k => U k * !![0, -1; 1, 0]) (fun k => V k * !![0, -1; 1, 0]) 0
    (fun k => SadSCF.rot_moves (U k)) (fun k => SadSCF.rot_moves (V k)) (fun t k => SadSCF.exNorm (hU k) t) (fun t k => SadSCF.exNorm (hV k) t) (fun _ => exKept _) (fun _ => exKept _)
    (exSmoothU _ _ _ θ he _ _) _ Fa Fb h3 ε η
    (fun k => by
      have := hε k
      rw [SadSCF.rot_zero, Matrix.mul_one]
      exact this)
    fun k => by
      have := hη k
      rw [SadSCF.rot_zero, Matrix.mul_one]
      exact this

omit hL hA hr hN

/-! ### a block that stands for its mirror image -/

/-- The functions `m = 1` and `m = -1`, the second the mirror image of the first, in a magnetic field; the electrons repel each other with unit strength. -/
noncomputable def exPair (Bz : ℝ) : Setup where
  N := 2
  nsym := 1
  block := fun _ => ⟨[0], 1⟩
  mirror := fun _ => [1]
  restricted := true
  nela := 1
  nelb := 1
  S := fun i j => if i = j then 1 else 0
  T := fun i j => if i = j then 3 else 0
  Vnuc := fun _ _ => 0
  dip := fun _ _ => 0
  quad := fun _ _ => 0
  Vmag := fun i j => if i = j then (if i = 0 then -(Bz / 2) else Bz / 2) else 0
  Vconf := fun _ _ => 0
  Ez := 0
  Qzz := 0
  Bz := Bz
  iconf := 0
  kfrac := 0
  kshort := 0
  fn := ⟨0, [], 0, [], 0⟩
  Enucr := 0
  Enucfield := 0

noncomputable def exPairEngine : Engine where
  coulomb := fun P => .ok ⟨2, 2, fun i j => if i = j then P.get 0 0 + P.get 1 1 else 0⟩
  exchange := fun _ => .throw .logicError
  rsExchange := fun _ => .throw .logicError
  xc1 := fun _ _ => .ok (Mat.zero 2 2, 0)
  xc2 := fun _ _ _ _ => .ok (Mat.zero 2 2, Mat.zero 2 2, 0)

noncomputable def exPairTheory : Theory := ⟨fun i j k l => if i = j ∧ k = l then 1 else 0, fun _ _ _ _ => 0, fun _ _ _ _ => 0, XC.toy, [], some⟩

theorem exPair_layout (Bz : ℝ) : Spec.Layout (exPair Bz) where
  within k i hi := by simp [exPair] at hi ⊢; omega
  mirror k i hi := by simp [exPair] at hi ⊢; omega
  length k _ := rfl

theorem exPair_nofield (Bz : ℝ) : NoField (exPair Bz) := fun h i _ j _ => by
  have h : Bz = 0 := h
  simp [exPair, h]

theorem exPair_represents (Bz : ℝ) : Represents (exPair Bz) exPairEngine exPairTheory Symmetric fun _ => True where
  coulomb P _ := by
    refine ⟨_, rfl, ⟨rfl, rfl⟩, fun i hi j hj => ?_⟩
    by_cases h : i = j <;> simp [exPair, exPairTheory, mat, h, sum_range_succ]
  coulomb_swap i _ j _ k _ l _ := by simp only [exPairTheory, And.comm]
  full h := absurd rfl h
  short h := absurd rfl h
  xc1 _ P _ := ⟨_, rfl, ⟨rfl, rfl⟩, fun t0 Q Q' _ _ _ _ => (hasDerivAt_const t0 (0 : ℝ)).congr_deriv (by simp [mean, Mat.zero])⟩
  xc2 h := by simp [exPair] at h

theorem exPair_represents_odd (Bz : ℝ) : Represents { exPair Bz with nelb := 0 } exPairEngine exPairTheory Symmetric fun _ => True :=
  ⟨(exPair_represents Bz).coulomb, (exPair_represents Bz).coulomb_swap, (exPair_represents Bz).full, (exPair_represents Bz).short, (exPair_represents Bz).xc1, fun h => by simp [exPair] at h⟩

theorem exPair_mirrored : Mirrored (exPair 0) exPairEngine Symmetric := by
  have h : ∀ F : Nat → Nat → ℝ, F 1 1 = F 0 0 → MirrorInv (exPair 0) F := fun F h k _ a b h1 h2 h3 h4 => by
    have e1 : a = 0 := by simpa [exPair] using h1
    have e2 : b = 0 := by simpa [exPair] using h2
    subst e1 e2
    exact h
  constructor
  · constructor
    · intro P J _ hJ
      refine h _ ?_
      simp only [exPairEngine, Res.ok.injEq] at hJ
      rw [← hJ]
      rfl
    · exact fun h => absurd rfl h
    · exact fun h => absurd rfl h
    · intro _ P r _ hr
      refine h _ ?_
      simp only [exPairEngine, Res.ok.injEq] at hr
      rw [← hr]
      rfl
    · intro h
      simp [exPair] at h
  all_goals exact h _ (by simp [exPair])

/-- `n` electrons in the block, half of them in its mirror image -/
noncomputable def exPairOrbs (Bz n : ℝ) : Orbitals (exPair Bz) := fun _ => ⟨1, (1 : Matrix (Fin 1) (Fin 1) ℝ), fun _ => n⟩

/-- without the field the block and its mirror image are alike: `C76_occupation` applies -/
example : ∃ (E : ℝ) (F : Blocks (exPair 0)), build (exPair 0) exPairEngine ⟨exPairOrbs 0 2, exPairOrbs 0 0⟩ = .ok (E, fun k => (F k, none)) ∧
    HasDerivAt (fun n => energyR (exPair 0) exPairTheory (densityOf _ (withOcc (exPairOrbs 0 2) (0 : Fin 1) (0 : Fin 1) n)))
      (((exPairOrbs 0 2 (0 : Fin 1)).Cᵀ * F (0 : Fin 1) * (exPairOrbs 0 2 (0 : Fin 1)).C) (0 : Fin 1) (0 : Fin 1)) 2 :=
  C76_occupation (exPair_layout 0) (symmetric_admissible _) (exPair_represents 0) (exPair_nofield 0) exPair_mirrored rfl (exPairOrbs 0 2) (exPairOrbs 0 0) (fun _ => trivial)
    (fun x hx => by simp [exPairTheory] at hx) (0 : Fin 1) (0 : Fin 1)

theorem place_one (p i j : Nat) (B : Matrix (Fin 1) (Fin 1) ℝ) : place [p] B i j = if i = p ∧ j = p then B 0 0 else 0 := by
  unfold place
  exact (Fin.sum_univ_one _).trans (Fin.sum_univ_one _)

theorem exPair_density (Bz n : ℝ) (i j : Nat) : densityOf (exPair Bz) (exPairOrbs Bz n) i j = 1 / 2 * (if i = 0 ∧ j = 0 then n else 0) + 1 / 2 * (if i = 1 ∧ j = 1 then n else 0) := by
  have e : ∀ D : Matrix (Fin 1) (Fin 1) ℝ, spreadBlock ⟨[0], (1 : Matrix (Fin 1) (Fin 1) ℝ)⟩ [1] D i j =
      1 / 2 * (if i = 0 ∧ j = 0 then D 0 0 else 0) + 1 / 2 * (if i = 1 ∧ j = 1 then D 0 0 else 0) := fun D => by
    have hD : (1 : Matrix (Fin 1) (Fin 1) ℝ) * D * (1 : Matrix (Fin 1) (Fin 1) ℝ)ᵀ = D := by rw [Matrix.transpose_one, Matrix.one_mul, Matrix.mul_one]
    unfold spreadBlock
    rw [if_neg (by simp), dif_pos (show [1].length = [0].length from rfl)]
    refine congrArg₂ (· + ·) (congrArg _ ((place_one 0 i j _).trans ?_)) (congrArg _ ((place_one 1 i j _).trans ?_))
    · exact congrArg (fun M : Matrix (Fin 1) (Fin 1) ℝ => if i = 0 ∧ j = 0 then M 0 0 else 0) hD
    · exact congrArg (fun M : Matrix (Fin 1) (Fin 1) ℝ => if i = 1 ∧ j = 1 then M 0 0 else 0) hD
  have d : ((1 : Matrix (Fin 1) (Fin 1) ℝ) * diagonal (fun _ => n) * (1 : Matrix (Fin 1) (Fin 1) ℝ)ᵀ) = diagonal fun _ => n := by rw [Matrix.transpose_one, Matrix.mul_one, Matrix.one_mul]
  have h := (Fin.sum_univ_one fun k : Fin 1 => spreadBlock ((exPair Bz).block k) ((exPair Bz).mirror k) (orthDensity (exPairOrbs Bz n k)) i j)
  refine h.trans ((e _).trans ?_)
  have d0 : orthDensity (exPairOrbs Bz n (0 : Fin 1)) (0 : Fin 1) (0 : Fin 1) = n := (congrFun (congrFun d 0) 0).trans (Matrix.diagonal_apply_eq _ _)
  exact congrArg (fun x => 1 / 2 * (if i = 0 ∧ j = 0 then x else 0) + 1 / 2 * (if i = 1 ∧ j = 1 then x else 0)) d0

theorem exPair_energy (Bz n : ℝ) : energyR (exPair Bz) exPairTheory (densityOf (exPair Bz) (exPairOrbs Bz n)) = 3 * n + 1 / 2 * n ^ 2 := by
  have h := exPair_density Bz n
  obtain ⟨P, hP⟩ : ∃ P, P = densityOf (exPair Bz) (exPairOrbs Bz n) := ⟨_, rfl⟩
  rw [← hP] at h ⊢
  unfold energyR oneBody coulombEnergy exchangeEnergy mean nuclei hybrid
  simp only [exPair, exPairTheory, h, sum_range_succ, sum_range_zero, XC.Spec.energy]
  norm_num
  ring

theorem exPair_build (Bz n : ℝ) : ∃ E, build (exPair Bz) exPairEngine ⟨exPairOrbs Bz n, exPairOrbs Bz 0⟩ = .ok (E, fun _ => ((fun _ _ => 3 - Bz / 2 + n : Matrix (Fin 1) (Fin 1) ℝ), none)) := by
  have hx : haveXC (exPair Bz) = false := by simp [haveXC, exPair]
  have he : haveExx (exPair Bz) = false := by simp [haveExx, exPair]
  have hd := exPair_density Bz n
  unfold build densities
  rw [if_pos (show (exPair Bz).restricted = true from rfl), density_ok (exPair_layout Bz), Res.ok_bind, Res.ok_bind]
  obtain ⟨P, hP⟩ : ∃ P, P = densityOf (exPair Bz) (exPairOrbs Bz n) := ⟨_, rfl⟩
  rw [← hP] at hd
  have hP' : P = densityOf (exPair Bz) (State.A ⟨exPairOrbs Bz n, exPairOrbs Bz 0⟩) := hP
  rw [← hP']
  unfold xcPart exchangePart
  rw [hx, he, if_neg (by simp), if_neg (by simp), if_neg (by simp), Res.ok_bind]
  have hc : exPairEngine.coulomb (mat (exPair Bz).N P) = .ok ⟨2, 2, fun i j => if i = j then P 0 0 + P 1 1 else 0⟩ := rfl
  rw [hc, Res.ok_bind]
  unfold sized
  rw [if_pos (show (2 = (exPair Bz).N ∧ 2 = (exPair Bz).N) from ⟨rfl, rfl⟩), Res.ok_bind, Res.ok_bind]
  refine ⟨_, congrArg _ (Prod.ext rfl (funext fun k => ?_))⟩
  have hone : ∀ M : Matrix (Fin 1) (Fin 1) ℝ, (1 : Matrix (Fin 1) (Fin 1) ℝ)ᵀ * M * 1 = M := fun M => by rw [Matrix.transpose_one, Matrix.one_mul, Matrix.mul_one]
  refine Prod.ext ((hone _).trans ?_) rfl
  have hz : ∀ a : Fin 1, [0][a] = 0 := fun a => by fin_cases a; rfl
  refine funext fun a => funext fun b => ?_
  suffices h : ∀ i j, i = 0 → j = 0 → Dens.fockR (ingredients (exPair Bz) (fun i j => if i = j then P 0 0 + P 1 1 else 0) (fun _ _ => 0, fun _ _ => 0, 0) (fun _ _ => 0, fun _ _ => 0, 0)) i j = 3 - Bz / 2 + n from
    h _ _ (hz a) (hz b)
  rintro _ _ rfl rfl
  show Dens.fockR (ingredients (exPair Bz) (fun i j => if i = j then P 0 0 + P 1 1 else 0) (fun _ _ => 0, fun _ _ => 0, 0) (fun _ _ => 0, fun _ _ => 0, 0)) 0 0 = 3 - Bz / 2 + n
  unfold Dens.fockR ingredients core vel vconf
  simp only [hx, he, hd]
  simp only [haveConf, exPair]
  norm_num
  ring

/-- **C76, mirror images in a magnetic field.** At `--symmetry=3` the blocks `m` and `-m` are solved once, also in a magnetic field, where they differ. The matrix handed to the solver is then not the
derivative of the energy. -/
theorem C76_mirror_field_wrong (Bz : ℝ) (h : Bz ≠ 0) : diaSymm 3 1 1 0 0 Bz = 3 ∧ ∃ (E : ℝ) (F : Blocks (exPair Bz)) (d : ℝ),
    build (exPair Bz) exPairEngine ⟨exPairOrbs Bz 2, exPairOrbs Bz 0⟩ = .ok (E, fun k => (F k, none)) ∧
    HasDerivAt (fun n => energyR (exPair Bz) exPairTheory (densityOf _ (exPairOrbs Bz n))) d 2 ∧
    ((exPairOrbs Bz 2 (0 : Fin 1)).Cᵀ * F (0 : Fin 1) * (exPairOrbs Bz 2 (0 : Fin 1)).C) (0 : Fin 1) (0 : Fin 1) = d - Bz / 2 := by
  refine ⟨by simp [diaSymm], ?_⟩
  obtain ⟨E, hE⟩ := exPair_build Bz 2
  refine ⟨E, _, 5, hE, ?_, ?_⟩
  · simp only [exPair_energy]
    have := ((hasDerivAt_id (2 : ℝ)).const_mul 3).add (((hasDerivAt_id (2 : ℝ)).pow 2).const_mul (1 / 2))
    refine this.congr_deriv ?_
    norm_num
  · have : ∀ M : Matrix (Fin 1) (Fin 1) ℝ, ((1 : Matrix (Fin 1) (Fin 1) ℝ)ᵀ * M * (1 : Matrix (Fin 1) (Fin 1) ℝ) : Matrix (Fin 1) (Fin 1) ℝ) 0 0 = M 0 0 := fun M => by rw [Matrix.transpose_one, Matrix.one_mul, Matrix.mul_one]
    refine (this _).trans ?_
    ring

/-! ### the nuclei -/

/-- **C76, nuclei.** The constants of the diatomic driver are the repulsion of its nuclei at `∓Rbond/2` and their energy in the field; that of the atomic driver is the repulsion of the nucleus and the
two charges at `∓Rhalf`. -/
theorem C76_nuclei (Z Z1 Z2 : Int) (R : ℝ) (hR : 0 < R) (Ez Qzz : ℝ) :
    diaEnucr Z1 Z2 R = repulsion (Z1, -(R / 2)) (Z2, R / 2) ∧ diaEnucfield Z1 Z2 R Ez Qzz = fieldEnergy Ez Qzz (Z1, -(R / 2)) + fieldEnergy Ez Qzz (Z2, R / 2) ∧
    atomEnucr Z Z1 Z2 R = repulsion (Z, 0) (Z1, -R) + repulsion (Z, 0) (Z2, R) + repulsion (Z1, -R) (Z2, R) ∧
    (∀ Rhalf ≤ 0, atomEnucr Z Z1 Z2 Rhalf = 0) := by
  have hne := hR.ne'
  refine ⟨?_, ?_, ?_, fun r hr => if_neg (not_lt.2 hr)⟩
  · unfold diaEnucr repulsion
    rw [show |((Z1 : ℝ), -(R / 2)).2 - ((Z2 : ℝ), R / 2).2| = R by rw [show ((Z1 : ℝ), -(R / 2)).2 - ((Z2 : ℝ), R / 2).2 = -R by ring, abs_neg, abs_of_pos hR]]
    push_cast
    rfl
  · unfold diaEnucfield fieldEnergy
    push_cast
    norm_num
    ring
  · unfold atomEnucr repulsion
    have h1 : |(0 : ℝ) - -R| = R := by rw [zero_sub, neg_neg, abs_of_pos hR]
    have h2 : |(0 : ℝ) - R| = R := by rw [zero_sub, abs_neg, abs_of_pos hR]
    have h3 : |-R - R| = 2 * R := by rw [show -R - R = -(2 * R) by ring, abs_neg, abs_of_pos (by linarith)]
    simp only [h1, h2, h3]
    rw [if_pos hR]
    push_cast
    norm_num
    ring

example : diaEnucr 1 3 2 = 3 / 2 ∧ atomEnucr 2 1 1 (1 / 2) = 9 ∧ diaEnucfield 1 3 2 (1 / 10) 0 = -(1 / 5) := by
  refine ⟨?_, ?_, ?_⟩ <;> norm_num [diaEnucr, atomEnucr, diaEnucfield]

/-- **C76, off-centre charges in a field.** The atomic driver leaves out the energy of its off-centre charges in the field. It is right only if that happens to vanish. -/
theorem C76_nuclear_field_wrong (Zl Zr : Int) (Rhalf Ez Qzz : ℝ) :
    atomEnucfield Zl Zr Rhalf Ez Qzz = fieldEnergy Ez Qzz (Zl, -Rhalf) + fieldEnergy Ez Qzz (Zr, Rhalf) ↔ ((Zr - Zl : Int) : ℝ) * Rhalf * Ez + ((Zl + Zr : Int) : ℝ) * Rhalf ^ 2 * (Qzz / 3) = 0 := by
  unfold atomEnucfield fieldEnergy
  push_cast
  constructor <;> intro h <;> linarith

/-- a proton at distance 1 in a field of 1/10 -/
example : atomEnucfield 0 1 1 (1 / 10) 0 ≠ fieldEnergy (1 / 10) 0 ((0 : Int), -1) + fieldEnergy (1 / 10) 0 ((1 : Int), 1) := by
  rw [Ne, C76_nuclear_field_wrong]
  norm_num

/-- **C76, an odd number of electrons in a magnetic field.** Asked for no multiplicity and no electron numbers, the driver runs spin-restricted also with an odd number of electrons, and then counts one
unpaired electron in a magnetic field. The energy is off by `-Bz/2` from that of the spin-compensated state. -/
theorem C76_odd_default_wrong (hL : Spec.Layout s) (hA : Admissible s Adm) (hr : Represents s e θ Adm Kept) (hN : NoField s) (n : Nat) :
    ∃ d, Elec.derive 0 0 (-1) 0 0 (2 * n + 1) = .ok d ∧ d.restricted = true ∧ d.nela - d.nelb = 1 ∧
      ∀ st : State s, s.restricted = d.restricted → s.nela = d.nela → s.nelb = d.nelb → (s.kfrac ≠ 0 ∨ s.kshort ≠ 0 → Kept fun i j => densityOf s st.A i j / 2) →
        ∃ F : Blocks s, build s e st = .ok (energyR s θ (densityOf s st.A) - s.Bz / 2, fun k => (F k, none)) := by
  refine ⟨⟨n + 1, n, 1, true, 2 * n + 1⟩, ?_, rfl, by ring, fun st h1 h2 h3 hk => ?_⟩
  · have e1 : ((2 * (n : Int) + 1 - 0 + 1).tdiv 2) = n + 1 := by rw [Int.tdiv_eq_ediv_of_nonneg (by omega)]; omega
    have e2 : ((2 * (n : Int) + 1 - 0).tdiv 2) = n := by rw [Int.tdiv_eq_ediv_of_nonneg (by omega)]; omega
    unfold Elec.derive
    rw [if_pos ⟨rfl, rfl, rfl⟩, if_neg (by norm_num)]
    simp only
    rw [if_neg (by omega), e1, e2, sub_zero]
  · obtain ⟨G, h, _, _⟩ := build_R hL hA hr hN h1 st hk
    refine ⟨fun k => Dens.orthFock (s.block k) G, ?_⟩
    rw [h, h2, h3]
    congr 2
    push_cast
    ring

/-- one electron in the pair of functions -/
example : ∃ d, Elec.derive 0 0 (-1) 0 0 (2 * (0 : Nat) + 1) = .ok d ∧ ∃ F : Blocks { exPair 1 with nelb := 0 },
    build { exPair 1 with nelb := 0 } exPairEngine ⟨exPairOrbs 1 1, exPairOrbs 1 0⟩ = .ok (energyR { exPair 1 with nelb := 0 } exPairTheory (densityOf _ (exPairOrbs 1 1)) - 1 / 2, fun k => (F k, none)) := by
  obtain ⟨d, h1, h2, h3, h4⟩ := C76_odd_default_wrong (s := { exPair 1 with nelb := 0 }) (Kept := fun _ => True) ⟨(exPair_layout 1).within, (exPair_layout 1).mirror, (exPair_layout 1).length⟩
    (symmetric_admissible _) (exPair_represents_odd 1) (exPair_nofield 1) 0
  have hd : d = ⟨1, 0, 1, true, 1⟩ := by
    have : Elec.derive 0 0 (-1) 0 0 (2 * (0 : Nat) + 1) = .ok ⟨1, 0, 1, true, 1⟩ := by decide
    rw [this] at h1
    exact (Res.ok.inj h1).symm
  subst hd
  exact ⟨_, h1, h4 ⟨exPairOrbs 1 1, exPairOrbs 1 0⟩ rfl rfl rfl fun _ => trivial⟩

end Drv
end HelFEM
