import Verif.Lemmas.SadSCF
import Verif.Lemmas.SadCurve

/-!
# The energy and the Fock matrices a build returns
-/

namespace HelFEM
namespace SadSCF

open Matrix Finset XC AtomJK

variable {s : Setup} {c : Caches} {k : Spec.Kernels}

/-! ### exchange-correlation -/

/-- the derivative of the exchange-correlation energy in one entry of a shell density -/
noncomputable def xcMat (s : Setup) (P : Nat → Matrix (Fin s.N) (Fin s.N) ℝ) (l : Nat) : Matrix (Fin s.N) (Fin s.N) ℝ := fun a b =>
  ((Spec.points s).map (sderiv s.env s.fn (Spec.perSolidAngle s P) (Spec.perSolidAngle s fun k => if k = l then Matrix.single a b 1 else 0))).sum

/-- the same for spin alpha -/
noncomputable def xcMatA (s : Setup) (A B : Nat → Matrix (Fin s.N) (Fin s.N) ℝ) (l : Nat) : Matrix (Fin s.N) (Fin s.N) ℝ := fun a b =>
  ((Spec.points s).map (sderivA s.env s.fn (Spec.perSolidAngle s A) (Spec.perSolidAngle s B) (Spec.perSolidAngle s fun k => if k = l then Matrix.single a b 1 else 0))).sum

/-- the same for spin beta -/
noncomputable def xcMatB (s : Setup) (A B : Nat → Matrix (Fin s.N) (Fin s.N) ℝ) (l : Nat) : Matrix (Fin s.N) (Fin s.N) ℝ := fun a b =>
  ((Spec.points s).map (sderivB s.env s.fn (Spec.perSolidAngle s A) (Spec.perSolidAngle s B) (Spec.perSolidAngle s fun k => if k = l then Matrix.single a b 1 else 0))).sum

/-- what the grid needs to know about shell densities -/
def Good (D : Nat → Matrix (Fin s.N) (Fin s.N) ℝ) : Prop := (∀ l, (D l)ᵀ = D l) ∧ ∀ l < s.nblock, ∀ v : Fin s.N → ℝ, 0 ≤ ∑ i, ∑ j, D l i j * (v i * v j)

theorem shells_eq {D : Nat → Matrix (Fin s.N) (Fin s.N) ℝ} {a : Chan s.N} (h : Holds s D s.nblock a) : XC.Spec.shells (dividedCube s a.Pl) = Spec.perSolidAngle s D := by
  unfold XC.Spec.shells Spec.perSolidAngle dividedCube
  simp only [Setup.nblock]
  congr 1
  funext l i j
  simp only [toMat, h.2 l, Setup.nblock, Nat.lt_succ_iff]
  by_cases hij : i < s.N ∧ j < s.N
  · rw [dif_pos hij, dif_pos hij]
    by_cases hl : l ≤ s.lmax
    · rw [if_pos hl, if_pos hl, Matrix.smul_apply, smul_eq_mul, angfac, four_pi]; ring
    · rw [if_neg hl, if_neg hl]; simp
  · rw [dif_neg hij, dif_neg hij]

theorem cube_good {D : Nat → Matrix (Fin s.N) (Fin s.N) ℝ} {a : Chan s.N} (h : Holds s D s.nblock a) (hD : Good D) :
    XC.Spec.CubeSymm s.N (dividedCube s a.Pl) ∧ XC.Spec.CubePSD s.N (dividedCube s a.Pl) := by
  refine ⟨⟨by simp [dividedCube, Setup.nblock], fun l hl => ⟨rfl, rfl, fun i hi j hj => ?_⟩⟩, fun l hl v => ?_⟩
  · have hl : l < s.nblock := hl
    simp only [dividedCube, toMat, dif_pos (And.intro hi hj), dif_pos (And.intro hj hi), h.2 l, if_pos hl, Matrix.smul_apply]
    congr 1
    conv_lhs => rw [← hD.1 l]
    rfl
  · have hl : l < s.nblock := hl
    rw [Finset.sum_range]
    have e : ∀ i : Fin s.N, ∑ j ∈ range s.N, ((dividedCube s a.Pl).slice l).get i j * (v i * v j) = ∑ j : Fin s.N, 1 / angfac * (D l i j * (v i * v j)) := by
      intro i
      rw [Finset.sum_range]
      apply sum_congr rfl; intro j _
      simp only [dividedCube]
      rw [toMat_get, h.2 l, if_pos hl, Matrix.smul_apply, smul_eq_mul]
      ring
    simp only [e, ← mul_sum]
    refine mul_nonneg ?_ (hD.2 l hl fun i => v i)
    unfold angfac
    have := Real.pi_pos
    positivity

/-- entries and contractions of the matrices the grid returns -/
theorem cube_entries {C : Cube} (hC : Shaped s.N s.nblock C) {F : XC.Spec.Shells → XC.Spec.SPoint → ℝ} (hp : ∀ D : Cube, XC.Spec.cubePairing s.N C D = ((Spec.points s).map (F (shellsOf s.nblock D))).sum)
    {H : Nat → Matrix (Fin s.N) (Fin s.N) ℝ} (hH : ∀ l a b, H l a b = ((Spec.points s).map (F (Spec.perSolidAngle s fun k => if k = l then Matrix.single a b 1 else 0))).sum) :
    (∀ l < s.nblock, xcAt s C l = .ok (H l)) ∧
      ∀ Δ : Nat → Matrix (Fin s.N) (Fin s.N) ℝ, ∑ l ∈ range s.nblock, ∑ a, ∑ b, H l a b * Δ l a b = ((Spec.points s).map (F (Spec.perSolidAngle s Δ))).sum := by
  have hpair : ∀ Δ : Nat → Matrix (Fin s.N) (Fin s.N) ℝ,
      ∑ l ∈ range s.nblock, ∑ a : Fin s.N, ∑ b : Fin s.N, 1 / angfac * (C.slice l).get a b * Δ l a b = ((Spec.points s).map (F (Spec.perSolidAngle s Δ))).sum := by
    intro Δ
    have e : shellsOf s.nblock ⟨s.nblock, fun l => toMat (if l ≤ s.lmax then (1 / angfac) • Δ l else 0)⟩ = Spec.perSolidAngle s Δ := by
      unfold shellsOf Spec.perSolidAngle
      simp only [Setup.nblock]
      congr 1
      funext l i j
      simp only [toMat]
      by_cases hij : i < s.N ∧ j < s.N
      · rw [dif_pos hij, dif_pos hij]
        by_cases hl : l ≤ s.lmax
        · rw [if_pos hl, if_pos hl, Matrix.smul_apply, smul_eq_mul, angfac, four_pi]; ring
        · rw [if_neg hl, if_neg hl]; simp
      · rw [dif_neg hij, dif_neg hij]
    rw [← e, ← hp]
    unfold XC.Spec.cubePairing XC.Spec.pairing
    rw [hC.1]
    apply sum_congr rfl; intro l hl
    have hl : l ≤ s.lmax := by have := Finset.mem_range.1 hl; unfold Setup.nblock at this; omega
    rw [Finset.sum_range]
    apply sum_congr rfl; intro a _
    rw [Finset.sum_range]
    apply sum_congr rfl; intro b _
    simp only [if_pos hl]
    rw [toMat_get, Matrix.smul_apply, smul_eq_mul]
    ring
  have hent : ∀ l < s.nblock, ∀ a b : Fin s.N, H l a b = 1 / angfac * (C.slice l).get a b := by
    intro l hl a b
    rw [hH, ← hpair, sum_eq_single l, sum_eq_single a, sum_eq_single b]
    · simp
    · intro y _ hy; simp [Matrix.single_apply, hy.symm]
    · simp
    · intro x _ hx; simp [Matrix.single_apply, hx.symm]
    · simp
    · intro k _ hk; simp [hk]
    · intro h; exact absurd (Finset.mem_range.2 hl) h
  refine ⟨fun l hl => ?_, fun Δ => ?_⟩
  · unfold xcAt
    rw [if_pos (by rw [hC.1]; exact hl), fromMat_ok (hC.2 l hl).1 (hC.2 l hl).2 (B := Matrix.of fun i j => (C.slice l).get i j) fun _ _ => rfl, Res.ok_bind]
    congr 1
    ext a b
    rw [hent l hl, Matrix.smul_apply, smul_eq_mul, Matrix.of_apply]
  · rw [← hpair]
    exact sum_congr rfl fun l hl => sum_congr rfl fun a _ => sum_congr rfl fun b _ => by rw [hent l (Finset.mem_range.1 hl)]

theorem no_xc (h : ¬ s.haveXC) : s.fn.x = 0 ∧ s.fn.c = 0 := by
  unfold Setup.haveXC at h
  push Not at h
  exact h

theorem sderiv_zero (h : ¬ s.haveXC) (P D : XC.Spec.Shells) : sderiv s.env s.fn P D = fun _ => 0 := by
  funext x
  obtain ⟨h1, h2⟩ := no_xc h
  simp [sderiv, chan, outBoth, outOf, Out1.plus, h1, h2]

theorem sderivA_zero (h : ¬ s.haveXC) (A B D : XC.Spec.Shells) : sderivA s.env s.fn A B D = fun _ => 0 := by
  funext x
  obtain ⟨h1, h2⟩ := no_xc h
  simp [sderivA, chan, outBoth2, outOf2, Out2.plus, h1, h2, Out2.nil]

theorem sderivB_zero (h : ¬ s.haveXC) (A B D : XC.Spec.Shells) : sderivB s.env s.fn A B D = fun _ => 0 := by
  funext x
  obtain ⟨h1, h2⟩ := no_xc h
  simp [sderivB, chan, outBoth2, outOf2, Out2.plus, h1, h2, Out2.nil]

section xc
variable (hg : Spec.GridOk s) {sch : Sched} (hsch : Spec.Complete s sch)
include hg hsch

theorem xcR_ok {D : Nat → Matrix (Fin s.N) (Fin s.N) ℝ} {a : Chan s.N} (h : Holds s D s.nblock a) (hD : Good D) :
    ∃ C, xcR s sch a = .ok (C, XC.Spec.senergy s.env s.fn.x s.fn.c s.fn.xp s.fn.cp s.fn.thr (Spec.points s) (Spec.perSolidAngle s D)) ∧
      (s.haveXC → ∀ l < s.nblock, xcAt s C l = .ok (xcMat s D l)) ∧ (¬ s.haveXC → ∀ l, xcMat s D l = 0) ∧
      ∀ Δ : Nat → Matrix (Fin s.N) (Fin s.N) ℝ, ∑ l ∈ range s.nblock, ∑ a, ∑ b, xcMat s D l a b * Δ l a b =
        ((Spec.points s).map (sderiv s.env s.fn (Spec.perSolidAngle s D) (Spec.perSolidAngle s Δ))).sum := by
  unfold xcR
  by_cases hx : s.haveXC
  · rw [if_pos hx]
    obtain ⟨h1, h2⟩ := cube_good h hD
    obtain ⟨t, e, ad⟩ := sadGrid1_ok hg.x hg.c h1 h2 sch.elems (fun e he => hg.idx e (hsch.elems.mem_iff.1 he)) (fun e he => hg.r e (hsch.elems.mem_iff.1 he))
    have hp := hsch.elems.flatMap_right XC.Spec.sadPoints
    rw [e, Res.ok_bind]
    obtain ⟨c1, c2⟩ := cube_entries (s := s) (C := t.H) ad.shaped (F := sderiv s.env s.fn (Spec.perSolidAngle s D)) (fun D' => by
      rw [ad.pairs, cubePairing_zero, zero_add, shells_eq h, (hp.map _).sum_eq]; rfl) (H := xcMat s D) fun _ _ _ => rfl
    refine ⟨t.H, ?_, fun _ => c1, fun hn => absurd hx hn, c2⟩
    rw [ad.exc, zero_add, shells_eq h, XC.Spec.senergy, XC.Spec.senergy, (hp.map _).sum_eq]
    rfl
  · rw [if_neg hx]
    obtain ⟨h1, h2⟩ := no_xc hx
    refine ⟨⟨0, fun _ => Mat.zero 0 0⟩, ?_, fun hn => absurd hn hx, fun _ l => ?_, fun Δ => ?_⟩
    rotate_left
    · ext a b
      simp [xcMat, sderiv_zero hx]
    · simp [xcMat, sderiv_zero hx]
    · simp [XC.Spec.senergy, XC.Spec.exc, h1, h2]

theorem xcU_ok {A B : Nat → Matrix (Fin s.N) (Fin s.N) ℝ} {a b : Chan s.N} (ha : Holds s A s.nblock a) (hA : Good A) (hb : Holds s B s.nblock b) (hB : Good B) :
    ∃ Ca Cb, xcU s sch a b = .ok ((Ca, Cb), XC.Spec.senergy2 s.env s.fn.x s.fn.c s.fn.xp s.fn.cp s.fn.thr (Spec.points s) (Spec.perSolidAngle s A) (Spec.perSolidAngle s B)) ∧
      (s.haveXC → ∀ l < s.nblock, xcAt s Ca l = .ok (xcMatA s A B l)) ∧ (s.haveXC ∧ 0 < s.nelb → ∀ l < s.nblock, xcAt s Cb l = .ok (xcMatB s A B l)) ∧
      (¬ s.haveXC → ∀ l, xcMatA s A B l = 0 ∧ xcMatB s A B l = 0) ∧
      (∀ Δ : Nat → Matrix (Fin s.N) (Fin s.N) ℝ, ∑ l ∈ range s.nblock, ∑ a, ∑ b, xcMatA s A B l a b * Δ l a b =
        ((Spec.points s).map (sderivA s.env s.fn (Spec.perSolidAngle s A) (Spec.perSolidAngle s B) (Spec.perSolidAngle s Δ))).sum) ∧
      (0 < s.nelb → ∀ Δ : Nat → Matrix (Fin s.N) (Fin s.N) ℝ, ∑ l ∈ range s.nblock, ∑ a, ∑ b, xcMatB s A B l a b * Δ l a b =
        ((Spec.points s).map (sderivB s.env s.fn (Spec.perSolidAngle s A) (Spec.perSolidAngle s B) (Spec.perSolidAngle s Δ))).sum) := by
  unfold xcU
  by_cases hx : s.haveXC
  · rw [if_pos hx]
    obtain ⟨h1, h2⟩ := cube_good ha hA
    obtain ⟨h3, h4⟩ := cube_good hb hB
    obtain ⟨t, e, ad⟩ := sadGrid2_ok hg.x hg.c h1 h2 h3 h4 (decide (0 < s.nelb)) sch.elems (fun e he => hg.idx e (hsch.elems.mem_iff.1 he)) (fun e he => hg.r e (hsch.elems.mem_iff.1 he))
    have hp := hsch.elems.flatMap_right XC.Spec.sadPoints
    rw [e, Res.ok_bind]
    obtain ⟨c1, c2⟩ := cube_entries (s := s) (C := t.Ha) ad.shapedA (F := sderivA s.env s.fn (Spec.perSolidAngle s A) (Spec.perSolidAngle s B)) (fun D' => by
      rw [ad.pairsA, cubePairing_zero, zero_add, shells_eq ha, shells_eq hb, (hp.map _).sum_eq]; rfl) (H := xcMatA s A B) fun _ _ _ => rfl
    have hB' : 0 < s.nelb → _ := fun hn => cube_entries (s := s) (C := t.Hb) ad.shapedB (F := sderivB s.env s.fn (Spec.perSolidAngle s A) (Spec.perSolidAngle s B)) (fun D' => by
      rw [ad.pairsB, cubePairing_zero, zero_add, shells_eq ha, shells_eq hb, if_pos (by simpa using hn), (hp.map _).sum_eq]; rfl) (H := xcMatB s A B) fun _ _ _ => rfl
    refine ⟨t.Ha, t.Hb, ?_, fun _ => c1, fun hn => (hB' hn.2).1, fun hn => absurd hx hn, c2, fun hn => (hB' hn).2⟩
    rw [ad.exc, zero_add, shells_eq ha, shells_eq hb, XC.Spec.senergy2, XC.Spec.senergy2, (hp.map _).sum_eq]
    rfl
  · rw [if_neg hx]
    obtain ⟨h1, h2⟩ := no_xc hx
    refine ⟨⟨0, fun _ => Mat.zero 0 0⟩, ⟨0, fun _ => Mat.zero 0 0⟩, ?_, fun hn => absurd hn hx, fun hn => absurd hn.1 hx, fun _ l => ⟨?_, ?_⟩, fun Δ => ?_, fun _ Δ => ?_⟩
    rotate_left
    · ext a b
      simp [xcMatA, sderivA_zero hx]
    · ext a b
      simp [xcMatB, sderivB_zero hx]
    · simp [xcMatA, sderivA_zero hx]
    · simp [xcMatB, sderivB_zero hx]
    · simp [XC.Spec.senergy2, XC.Spec.exc2, h1, h2]


end xc

/-! ### Fock blocks -/

open Classical in
/-- a block of the Fock matrix before orthogonalisation -/
noncomputable def fockMat (s : Setup) (J : Matrix (Fin s.N) (Fin s.N) ℝ) (l : Nat) (H K : Matrix (Fin s.N) (Fin s.N) ℝ) : Matrix (Fin s.N) (Fin s.N) ℝ :=
  s.T + s.Vnuc + J + (if s.haveConf then s.Vconf else 0) + (l * (l + 1) : ℝ) • s.Tl + H + K

theorem fockBlock_ok (J : Matrix (Fin s.N) (Fin s.N) ℝ) (l : Nat) (xc : Cube) (addXC : Prop) [Decidable addXC] (K : List (Matrix (Fin s.N) (Fin s.N) ℝ)) (addEx : Prop) [Decidable addEx]
    {H A : Matrix (Fin s.N) (Fin s.N) ℝ} (h1 : addXC → xcAt s xc l = .ok H) (h2 : ¬ addXC → H = 0) (h3 : addEx → readAt K l = .ok A) (h4 : ¬ addEx → A = 0) :
    fockBlock s J l xc addXC K addEx = .ok (s.Xᵀ * fockMat s J l H A * s.X) := by
  have e : (if 0 < l then (if s.haveConf then s.T + s.Vnuc + J + s.Vconf else s.T + s.Vnuc + J) + (l * (l + 1) : ℝ) • s.Tl else (if s.haveConf then s.T + s.Vnuc + J + s.Vconf else s.T + s.Vnuc + J)) =
      s.T + s.Vnuc + J + (if s.haveConf then s.Vconf else 0) + (l * (l + 1) : ℝ) • s.Tl := by
    rcases Nat.eq_zero_or_pos l with rfl | hl
    · split_ifs <;> simp
    · rw [if_pos hl]
      split_ifs <;> simp
  unfold fockBlock fockMat
  simp only
  rw [e]
  by_cases hx : addXC
  · rw [if_pos hx, h1 hx, Res.ok_bind, Res.ok_bind]
    by_cases hy : addEx
    · rw [if_pos hy, h3 hy, Res.ok_bind, Res.ok_bind]
    · rw [if_neg hy, Res.ok_bind, h4 hy, add_zero]
  · rw [if_neg hx, Res.ok_bind, h2 hx, add_zero]
    by_cases hy : addEx
    · rw [if_pos hy, h3 hy, Res.ok_bind, Res.ok_bind]
    · rw [if_neg hy, Res.ok_bind, h4 hy, add_zero]

theorem read_map {α : Type _} (f : Nat → α) {n l : Nat} (h : l < n) : readAt ((List.range n).map f) l = .ok (f l) := by
  unfold readAt
  rw [List.getElem?_map, List.getElem?_range h]
  rfl

theorem no_exx (h : ¬ s.haveExx) (k : Spec.Kernels) (D : Nat → Matrix (Fin s.N) (Fin s.N) ℝ) (l : Nat) : kMat s.lmax (mixed s k) D l = 0 := by
  unfold Setup.haveExx at h
  push Not at h
  ext a b
  simp [kMat, mixed, h.1, h.2]

/-! ### energies -/

theorem oneBody_eq (D : Nat → Matrix (Fin s.N) (Fin s.N) ℝ) : ∑ l ∈ range s.nblock, kin s l (D l) + potential s (∑ l ∈ range s.nblock, D l) = Spec.oneBody s D := by
  unfold Spec.oneBody potential kin Setup.nblock
  simp only [Finset.sum_mul, trace_sum]
  by_cases h : s.haveConf = true
  · simp only [if_pos h, sum_add_distrib]; ring
  · simp only [if_neg h, sum_add_distrib, add_zero]

theorem trace_sum_mul {N : Nat} (A B : Matrix (Fin N) (Fin N) ℝ) : (A * B).trace = ∑ a, ∑ b, A a b * B b a := by
  simp [Matrix.trace, Matrix.mul_apply]

theorem trace_symm {N : Nat} (A B : Matrix (Fin N) (Fin N) ℝ) (hB : Bᵀ = B) : (A * B).trace = ∑ a, ∑ b, A a b * B a b := by
  rw [trace_sum_mul]
  refine sum_congr rfl fun a _ => sum_congr rfl fun b _ => ?_
  conv_rhs => rw [← hB]
  rfl

theorem coulomb_eq {N : Nat} {q : Nat → Nat → Nat → Nat → ℝ} (hq : ∀ a b c d, q a b c d = q b a c d) (P : Matrix (Fin N) (Fin N) ℝ) : 0.5 * (P * jMat q P).trace = Spec.coulombEnergy q P := by
  rw [trace_sum_mul]
  unfold Spec.coulombEnergy jMat
  rw [show (0.5 : ℝ) = 1 / 2 by norm_num]
  congr 1
  refine sum_congr rfl fun a _ => sum_congr rfl fun b _ => ?_
  rw [mul_sum]
  refine sum_congr rfl fun c _ => ?_
  rw [mul_sum]
  refine sum_congr rfl fun d _ => ?_
  rw [hq b a]
  ring

theorem exchange_eq (κ : Nat → Nat → Nat → Nat → Nat → Nat → ℝ) {D : Nat → Matrix (Fin s.N) (Fin s.N) ℝ} (hD : ∀ l, (D l)ᵀ = D l) :
    ∑ l ∈ range s.nblock, (kMat s.lmax κ D l * D l).trace = Spec.exchangeForm s.lmax κ D := by
  unfold Spec.exchangeForm Setup.nblock
  refine sum_congr rfl fun l _ => ?_
  rw [trace_symm _ _ (hD l), sum_comm]
  rw [sum_comm]
  rw [sum_comm (s := range (s.lmax + 1))]
  refine sum_congr rfl fun a _ => ?_
  rw [sum_comm (s := range (s.lmax + 1))]
  refine sum_congr rfl fun b _ => ?_
  unfold kMat
  rw [sum_mul]
  refine sum_congr rfl fun l' _ => ?_
  rw [sum_mul]
  refine sum_congr rfl fun c _ => ?_
  rw [sum_mul]
  exact sum_congr rfl fun d _ => by ring

theorem exchange_smul (κ : Nat → Nat → Nat → Nat → Nat → Nat → ℝ) (r : ℝ) (D : Nat → Matrix (Fin s.N) (Fin s.N) ℝ) :
    Spec.exchangeForm s.lmax κ (fun l => r • D l) = r ^ 2 * Spec.exchangeForm s.lmax κ D := by
  unfold Spec.exchangeForm
  simp only [mul_sum]
  refine sum_congr rfl fun l _ => sum_congr rfl fun l' _ => sum_congr rfl fun a _ => sum_congr rfl fun b _ => sum_congr rfl fun c _ => sum_congr rfl fun d _ => ?_
  simp only [Matrix.smul_apply, smul_eq_mul]
  ring

theorem exchange_total (κ : Nat → Nat → Nat → Nat → Nat → Nat → ℝ) (r : ℝ) {D : Nat → Matrix (Fin s.N) (Fin s.N) ℝ} (hD : ∀ l, (D l)ᵀ = D l) :
    ∑ l ∈ range s.nblock, 1 / 2 * ((r • kMat s.lmax κ D l) * D l).trace = r / 2 * Spec.exchangeForm s.lmax κ D := by
  rw [← exchange_eq κ hD, mul_sum]
  refine sum_congr rfl fun l _ => ?_
  rw [smul_mul, trace_smul, smul_eq_mul]
  ring

/-! ### whole builds -/

/-- the blocks of the restricted Fock matrix -/
noncomputable def fockR (s : Setup) (k : Spec.Kernels) (D : Nat → Matrix (Fin s.N) (Fin s.N) ℝ) (l : Nat) : Matrix (Fin s.N) (Fin s.N) ℝ :=
  fockMat s (jMat k.q (∑ l ∈ range s.nblock, D l)) l (xcMat s D l) (-(1 / 2 : ℝ) • kMat s.lmax (mixed s k) D l)

/-- alpha blocks -/
noncomputable def fockA (s : Setup) (k : Spec.Kernels) (A B : Nat → Matrix (Fin s.N) (Fin s.N) ℝ) (l : Nat) : Matrix (Fin s.N) (Fin s.N) ℝ :=
  fockMat s (jMat k.q (∑ l ∈ range s.nblock, (A l + B l))) l (xcMatA s A B l) (-kMat s.lmax (mixed s k) A l)

/-- beta blocks -/
noncomputable def fockB (s : Setup) (k : Spec.Kernels) (A B : Nat → Matrix (Fin s.N) (Fin s.N) ℝ) (l : Nat) : Matrix (Fin s.N) (Fin s.N) ℝ :=
  if 0 < s.nelb then fockMat s (jMat k.q (∑ l ∈ range s.nblock, (A l + B l))) l (xcMatB s A B l) (-kMat s.lmax (mixed s k) B l)
  else fockMat s (jMat k.q (∑ l ∈ range s.nblock, (A l + B l))) l 0 0

theorem good_density {o : Nat → Dens.Orbs s.M} (ho : ∀ l < s.nblock, Spec.Physical (o l)) : Good (s := s) fun l => Spec.density s.X (o l) :=
  ⟨fun l => density_symm _ _, fun l hl v => density_psd _ _ (ho l hl).2 v⟩

section build
variable (hk : Spec.Represents s c k) (hg : Spec.GridOk s) {sch : Sched} (hsch : Spec.Complete s sch)
include hk hg hsch

open Classical in
theorem buildR_ok (dm : List (Dens.Orbs s.M)) (o : Nat → Dens.Orbs s.M) (hdm : ∀ l < s.nblock, readAt dm l = .ok (o l)) (ho : ∀ l < s.nblock, Spec.Physical (o l)) :
    buildR s c sch dm = .ok (Spec.energyR s k fun l => Spec.density s.X (o l), (List.range s.nblock).map fun l => s.Xᵀ * fockR s k (fun l => Spec.density s.X (o l)) l * s.X) := by
  obtain ⟨D, hD⟩ : ∃ D, D = fun l => Spec.density s.X (o l) := ⟨_, rfl⟩
  obtain ⟨a, e1, ha⟩ := gatherR_ok s dm o hdm fun l hl => (ho l hl).1
  have hgood := good_density (s := s) ho
  rw [← hD] at ha hgood ⊢
  replace e1 : gatherR s dm = .ok (a, ∑ l ∈ range s.nblock, kin s l (D l)) := by rw [hD]; exact e1
  obtain ⟨C, e2, x1, x2, _⟩ := xcR_ok hg hsch ha hgood
  unfold buildR
  rw [e1, Res.ok_bind, e2, Res.ok_bind]
  simp only
  rw [coulombJ_ok hk, Res.ok_bind]
  have hP : ∀ l < s.nblock, a.Pl l = D l := fun l hl => by rw [ha.2 l, if_pos hl]
  have e3 : ∃ K, exxR s c sch a = .ok (K, ∑ l ∈ range s.nblock, 1 / 2 * (-(1 / 2 : ℝ) • kMat s.lmax (mixed s k) D l * D l).trace) ∧
      (s.haveExx → ∀ l < s.nblock, readAt K l = .ok (-(1 / 2 : ℝ) • kMat s.lmax (mixed s k) D l)) := by
    unfold exxR
    by_cases hx : s.haveExx
    · rw [if_pos hx, exchangeK_ok hk sch hsch 2 two_ne_zero D a.Pl hP, Res.ok_bind, exchangeE_ok, Res.ok_bind]
      refine ⟨_, ?_, fun _ l hl => read_map _ hl⟩
      rw [zero_add]
      congr 2
      exact sum_congr rfl fun l hl => by rw [hP l (Finset.mem_range.1 hl)]
    · rw [if_neg hx]
      exact ⟨[], by simp [no_exx hx], fun h => absurd h hx⟩
  obtain ⟨K, e3, k1⟩ := e3
  rw [e3, Res.ok_bind, Res.mapM_ok _ (fun l => s.Xᵀ * fockR s k D l * s.X) _ fun l hl => fockBlock_ok _ l C _ K _ (fun h => x1 h l (List.mem_range.1 hl)) (fun h => x2 h l)
    (fun h => k1 h l (List.mem_range.1 hl)) (fun h => by rw [no_exx h, smul_zero]) |>.trans (by rw [ha.1]; rfl), Res.ok_bind]
  congr 2
  rw [ha.1, oneBody_eq, coulomb_eq hk.coulomb_pair]
  simp only
  rw [exchange_total _ _ hgood.1]
  unfold Spec.energyR
  rw [exchange_smul]
  show _ + _ + _ + -(1 / 2) / 2 * Spec.exchangeForm s.lmax (mixed s k) D = _ + _ - (1 / 2 * ((1 / 2) ^ 2 * Spec.exchangeForm s.lmax (mixed s k) D) * 2) + _
  unfold Setup.nblock
  ring

open Classical in
theorem buildU_ok (dm : List (Dens.Orbs s.M)) (oa ob : Nat → Dens.Orbs s.M) (ha : ∀ l < s.nblock, readAt dm l = .ok (oa l)) (hb : ∀ l < s.nblock, readAt dm (s.nblock + l) = .ok (ob l))
    (hpa : ∀ l < s.nblock, Spec.Physical (oa l)) (hpb : ∀ l < s.nblock, Spec.Physical (ob l)) :
    buildU s c sch dm = .ok (Spec.energyU s k (fun l => Spec.density s.X (oa l)) fun l => Spec.density s.X (ob l),
      ((List.range s.nblock).map fun l => s.Xᵀ * fockA s k (fun l => Spec.density s.X (oa l)) (fun l => Spec.density s.X (ob l)) l * s.X) ++
        (List.range s.nblock).map fun l => s.Xᵀ * fockB s k (fun l => Spec.density s.X (oa l)) (fun l => Spec.density s.X (ob l)) l * s.X) := by
  obtain ⟨A, hA⟩ : ∃ A, A = fun l => Spec.density s.X (oa l) := ⟨_, rfl⟩
  obtain ⟨B, hB⟩ : ∃ B, B = fun l => Spec.density s.X (ob l) := ⟨_, rfl⟩
  obtain ⟨a, b, e1, ha, hb⟩ := gatherU_ok s dm oa ob ha hb (fun l hl => (hpa l hl).1) (fun l hl => (hpb l hl).1)
  have hga := good_density (s := s) hpa
  have hgb := good_density (s := s) hpb
  rw [← hA] at ha hga ⊢
  rw [← hB] at hb hgb ⊢
  replace e1 : gatherU s dm = .ok ((a, b), ∑ l ∈ range s.nblock, kin s l (A l + B l)) := by rw [hA, hB]; exact e1
  obtain ⟨Ca, Cb, e2, x1, x2, x3, _⟩ := xcU_ok hg hsch ha hga hb hgb
  have hPa : ∀ l < s.nblock, a.Pl l = A l := fun l hl => by rw [ha.2 l, if_pos hl]
  have hPb : ∀ l < s.nblock, b.Pl l = B l := fun l hl => by rw [hb.2 l, if_pos hl]
  have hPP : a.P + b.P = ∑ l ∈ range s.nblock, (A l + B l) := by rw [ha.1, hb.1, sum_add_distrib]
  have hone : ∀ (D : Nat → Matrix (Fin s.N) (Fin s.N) ℝ) (l : Nat), -(1 / 1 : ℝ) • kMat s.lmax (mixed s k) D l = -kMat s.lmax (mixed s k) D l := fun D l => by simp
  have e3 : ∃ Ka Kb, exxU s c sch a b = .ok ((Ka, Kb), ∑ l ∈ range s.nblock, 1 / 2 * (-(1 / 1 : ℝ) • kMat s.lmax (mixed s k) A l * A l).trace +
      ∑ l ∈ range s.nblock, 1 / 2 * (-(1 / 1 : ℝ) • kMat s.lmax (mixed s k) B l * B l).trace) ∧
      (s.haveExx → ∀ l < s.nblock, readAt Ka l = .ok (-kMat s.lmax (mixed s k) A l) ∧ readAt Kb l = .ok (-kMat s.lmax (mixed s k) B l)) := by
    unfold exxU
    by_cases hx : s.haveExx
    · rw [if_pos hx, exchangeK_ok hk sch hsch 1 one_ne_zero A a.Pl hPa, Res.ok_bind, exchangeE_ok, Res.ok_bind, exchangeK_ok hk sch hsch 1 one_ne_zero B b.Pl hPb, Res.ok_bind, exchangeE_ok, Res.ok_bind]
      refine ⟨(List.range s.nblock).map fun l => -(1 / 1 : ℝ) • kMat s.lmax (mixed s k) A l, (List.range s.nblock).map fun l => -(1 / 1 : ℝ) • kMat s.lmax (mixed s k) B l, ?_,
        fun _ l hl => ⟨(read_map (fun l => -(1 / 1 : ℝ) • kMat s.lmax (mixed s k) A l) hl).trans (by rw [hone]), (read_map (fun l => -(1 / 1 : ℝ) • kMat s.lmax (mixed s k) B l) hl).trans (by rw [hone])⟩⟩
      rw [zero_add]
      congr 3
      · exact sum_congr rfl fun l hl => by rw [hPa l (Finset.mem_range.1 hl)]
      · exact sum_congr rfl fun l hl => by rw [hPb l (Finset.mem_range.1 hl)]
    · rw [if_neg hx]
      exact ⟨[], [], by simp [no_exx hx], fun h => absurd h hx⟩
  obtain ⟨Ka, Kb, e3, k1⟩ := e3
  unfold buildU
  rw [e1, Res.ok_bind, e2, Res.ok_bind]
  simp only
  rw [coulombJ_ok hk, Res.ok_bind, e3, Res.ok_bind, Res.mapM_ok _ (fun l => s.Xᵀ * fockA s k A B l * s.X) _ fun l hl => fockBlock_ok _ l Ca _ Ka _ (fun h => x1 h l (List.mem_range.1 hl))
    (fun h => (x3 h l).1) (fun h => (k1 h l (List.mem_range.1 hl)).1) (fun h => by rw [no_exx h, neg_zero]) |>.trans (by rw [hPP]; rfl), Res.ok_bind]
  rw [Res.mapM_ok _ (fun l => s.Xᵀ * fockB s k A B l * s.X) _ fun l hl => ?_, Res.ok_bind]
  · congr 2
    rw [hPP, oneBody_eq (fun l => A l + B l), coulomb_eq hk.coulomb_pair]
    simp only
    rw [exchange_total _ _ hga.1, exchange_total _ _ hgb.1]
    unfold Spec.energyU
    show _ + _ + _ + (-(1 / 1) / 2 * Spec.exchangeForm s.lmax (mixed s k) A + -(1 / 1) / 2 * Spec.exchangeForm s.lmax (mixed s k) B) =
      _ + _ - (1 / 2 * (Spec.exchangeForm s.lmax (mixed s k) A + Spec.exchangeForm s.lmax (mixed s k) B)) + _
    unfold Setup.nblock
    ring
  · have hl := List.mem_range.1 hl
    by_cases hn : 0 < s.nelb
    · rw [fockB, if_pos hn, ← hPP]
      exact fockBlock_ok _ l Cb _ Kb _ (fun h => x2 h l hl) (fun h => (x3 (fun hh => h ⟨hh, hn⟩) l).2) (fun h => (k1 h.1 l hl).2) (fun h => by rw [no_exx fun hh => h ⟨hh, hn⟩, neg_zero])
    · rw [fockB, if_neg hn, ← hPP]
      exact fockBlock_ok _ l Cb _ Kb _ (fun h => absurd h.2 hn) (fun _ => rfl) (fun h => absurd h.2 hn) (fun _ => rfl)

end build

end SadSCF
end HelFEM
