import Verif.Lemmas.DrvSCF

/-!
# The Fock builders of the atomic and the diatomic driver
-/

namespace HelFEM
namespace Drv

open Matrix Finset Spec

variable {s : Setup} {e : Engine} {θ : Theory} {Adm Kept : (Nat → Nat → ℝ) → Prop}

theorem place_symm {idx : List Nat} {B : Matrix (Fin idx.length) (Fin idx.length) ℝ} (h : Bᵀ = B) (i j : Nat) : place idx B i j = place idx B j i := by
  unfold place
  rw [sum_comm]
  refine sum_congr rfl fun a _ => sum_congr rfl fun b _ => ?_
  have : B b a = B a b := congrFun (congrFun h a) b
  rw [this]
  simp only [and_comm]

theorem spread_symm (D : Blocks s) (hD : ∀ k, (D k)ᵀ = D k) (i j : Nat) : spread s D i j = spread s D j i := by
  unfold spread
  refine sum_congr rfl fun k _ => ?_
  have hB : ((s.block k).X * D k * (s.block k).Xᵀ)ᵀ = (s.block k).X * D k * (s.block k).Xᵀ := by
    simp only [Matrix.transpose_mul, Matrix.transpose_transpose, hD k, Matrix.mul_assoc]
  unfold spreadBlock
  by_cases hm : s.mirror k = []
  · rw [if_pos hm, if_pos hm, place_symm hB]
  · rw [if_neg hm, if_neg hm, place_symm hB]
    by_cases hl : (s.mirror k).length = (s.block k).idx.length
    · have hC : (((s.block k).X * D k * (s.block k).Xᵀ).submatrix (Fin.cast hl) (Fin.cast hl))ᵀ = ((s.block k).X * D k * (s.block k).Xᵀ).submatrix (Fin.cast hl) (Fin.cast hl) := by
        rw [Matrix.transpose_submatrix, hB]
      rw [dif_pos hl, dif_pos hl, place_symm hC]
    · rw [dif_neg hl, dif_neg hl]

theorem densityOf_symm (o : Orbitals s) (i j : Nat) : densityOf s o i j = densityOf s o j i := spread_symm _ (fun k => orthDensity_symm (o k)) i j

theorem tr_mean {N : Nat} {P : Nat → Nat → ℝ} (hP : ∀ i j, P i j = P j i) (A : Nat → Nat → ℝ) : tr N P A = mean N A P := by
  unfold tr mean
  rw [sum_comm]
  refine sum_congr rfl fun i _ => sum_congr rfl fun j _ => ?_
  rw [hP j i]; ring

/-! ### symmetries of the matrices -/

/-- a symmetry shared by the multiples and the sums of the matrices that have it -/
structure Closed (V : (Nat → Nat → ℝ) → Prop) : Prop where
  zero : V fun _ _ => 0
  add : ∀ F G, V F → V G → V fun i j => F i j + G i j
  smul : ∀ F (c : ℝ), V F → V fun i j => c * F i j

theorem closed_mirror (s : Setup) : Closed (MirrorInv s) where
  zero := fun _ _ _ _ _ _ _ _ => rfl
  add := fun _ _ hF hG k h a b h1 h2 h3 h4 => by beta_reduce; rw [hF k h a b h1 h2 h3 h4, hG k h a b h1 h2 h3 h4]
  smul := fun _ _ hF k h a b h1 h2 h3 h4 => by beta_reduce; rw [hF k h a b h1 h2 h3 h4]

theorem closed_symm (N : Nat) : Closed (SymmOn N) where
  zero := fun _ _ _ _ => rfl
  add := fun _ _ hF hG i hi j hj => by beta_reduce; rw [hF i hi j hj, hG i hi j hj]
  smul := fun _ _ hF i hi j hj => by beta_reduce; rw [hF i hi j hj]

theorem core_keeps {V : (Nat → Nat → ℝ) → Prop} (hV : Closed V) (h : Inherits s e Adm V) : V (core s) := by
  have e : core s = fun i j => s.T i j + s.Vnuc i j + (s.Ez * s.dip i j + s.Qzz / 3 * s.quad i j) + s.Vmag i j + vconf s i j := by
    funext i j
    unfold core vel
    norm_num
    ring
  rw [e]
  refine hV.add _ _ (hV.add _ _ (hV.add _ _ (hV.add _ _ h.T h.Vnuc) (hV.add _ _ (hV.smul _ _ h.dip) (hV.smul _ _ h.quad))) h.Vmag) ?_
  unfold vconf
  by_cases hc : haveConf s = true
  · simp only [if_pos hc]; exact h.Vconf
  · simp only [if_neg hc]; exact hV.zero

/-! ### exchange -/

theorem part_ok {N : Nat} {f : ℝ} {run : Mat ℝ → Res (Mat ℝ)} {x : Nat → Nat → Nat → Nat → ℝ} (h : f ≠ 0 → ExchangeIs N run Adm Kept x) {P : Nat → Nat → ℝ} (hP : Adm P) (hk : f ≠ 0 → Kept P) :
    ∃ K, part N f run P = .ok K ∧ (∀ j < N, ∀ k < N, K j k = f * kM N x P j k) ∧ (f ≠ 0 → ∃ M, run (mat N P) = .ok M ∧ K = fun i j => f * M.get i j) ∧ (f = 0 → K = fun _ _ => 0) := by
  unfold part
  by_cases hf : f ≠ 0
  · obtain ⟨M, h1, ⟨h2, h2'⟩, h3⟩ := (h hf).1 P hP (hk hf)
    refine ⟨fun i j => f * M.get i j, ?_, fun j hj k hk => by beta_reduce; rw [h3 j hj k hk]; rfl, fun _ => ⟨M, h1, rfl⟩, fun e => absurd e hf⟩
    rw [if_pos hf, h1, Res.ok_bind, sized, if_pos ⟨h2, h2'⟩, Res.ok_bind]
  · rw [if_neg hf]
    have hf := not_not.1 hf
    exact ⟨_, rfl, fun j _ k _ => by rw [hf, zero_mul], fun e => absurd hf e, fun _ => rfl⟩

theorem kM_hybrid (P : Nat → Nat → ℝ) (j k : Nat) : kM s.N (hybrid s θ) P j k = s.kfrac * kM s.N θ.full P j k + s.kshort * kM s.N θ.short P j k := by
  unfold kM hybrid
  simp only [add_mul, sum_add_distrib, mul_assoc, ← mul_sum]
  ring

theorem exchangeFn_ok (hr : Represents s e θ Adm Kept) {P : Nat → Nat → ℝ} (hP : Adm P) (hk : s.kfrac ≠ 0 ∨ s.kshort ≠ 0 → Kept P) :
    ∃ K, exchangeFn s e P = .ok K ∧ (∀ j < s.N, ∀ k < s.N, K j k = kM s.N (hybrid s θ) P j k) ∧ (∀ V, Closed V → Inherits s e Adm V → V K) := by
  obtain ⟨K, k1, k2, k3, k4⟩ := part_ok hr.full hP fun h => hk (Or.inl h)
  obtain ⟨L, l1, l2, l3, l4⟩ := part_ok hr.short hP fun h => hk (Or.inr h)
  refine ⟨fun i j => K i j + L i j, ?_, fun j hj k hk => ?_, fun V hV hm => hV.add _ _ ?_ ?_⟩
  · unfold exchangeFn
    rw [k1, Res.ok_bind, l1, Res.ok_bind]
  · beta_reduce; rw [k2 j hj k hk, l2 j hj k hk, kM_hybrid]
  · by_cases hf : s.kfrac = 0
    · rw [k4 hf]; exact hV.zero
    · obtain ⟨M, m1, m2⟩ := k3 hf
      rw [m2]
      exact hV.smul _ _ (hm.full hf P M hP m1)
  · by_cases hf : s.kshort = 0
    · rw [l4 hf]; exact hV.zero
    · obtain ⟨M, m1, m2⟩ := l3 hf
      rw [m2]
      exact hV.smul _ _ (hm.short hf P M hP m1)

theorem haveExx_iff : haveExx s = true ↔ s.kfrac ≠ 0 ∨ s.kshort ≠ 0 := by unfold haveExx; exact decide_eq_true_iff

theorem hybrid_zero (h : ¬(haveExx s = true)) (i j k l : Nat) : hybrid s θ i j k l = 0 := by
  rw [haveExx_iff, not_or, not_not, not_not] at h
  unfold hybrid
  rw [h.1, h.2]; ring

theorem hybrid_swap (hr : Represents s e θ Adm Kept) (i : Nat) (hi : i < s.N) (j : Nat) (hj : j < s.N) (k : Nat) (hk : k < s.N) (l : Nat) (hl : l < s.N) :
    hybrid s θ i j k l = hybrid s θ j i l k := by
  unfold hybrid
  congr 1
  · by_cases hf : s.kfrac = 0
    · rw [hf, zero_mul, zero_mul]
    · rw [(hr.full hf).2 i hi j hj k hk l hl]
  · by_cases hf : s.kshort = 0
    · rw [hf, zero_mul, zero_mul]
    · rw [(hr.short hf).2 i hi j hj k hk l hl]

theorem mean_kM {P K : Nat → Nat → ℝ} (h : ∀ j < s.N, ∀ k < s.N, K j k = kM s.N (hybrid s θ) P j k) : 0.5 * mean s.N K P = exchangeEnergy s.N (hybrid s θ) P := by
  rw [exchange_mean, mean_congr h fun _ _ _ _ => rfl]
  norm_num

theorem exchange_none (h : ¬(haveExx s = true)) (P : Nat → Nat → ℝ) : exchangeEnergy s.N (hybrid s θ) P = 0 := by
  unfold exchangeEnergy
  simp only [hybrid_zero h, zero_mul, sum_const_zero, mul_zero, neg_zero]

theorem kM_none (h : ¬(haveExx s = true)) (P : Nat → Nat → ℝ) (j k : Nat) : kM s.N (hybrid s θ) P j k = 0 := by
  unfold kM
  simp only [hybrid_zero h, zero_mul, sum_const_zero, neg_zero]

theorem exchangePart_R (hr : Represents s e θ Adm Kept) (hres : s.restricted = true) {P : Nat → Nat → ℝ} (hP : Adm P) (hs : ∀ i j, P i j = P j i) (hk : s.kfrac ≠ 0 ∨ s.kshort ≠ 0 → Kept P)
    (Q R : Nat → Nat → ℝ) (hQ : haveExx s = true → Q = P) :
    ∃ K, exchangePart s e Q R = .ok (K, fun _ _ => 0, 2 * exchangeEnergy s.N (hybrid s θ) P) ∧ (∀ j < s.N, ∀ k < s.N, K j k = kM s.N (hybrid s θ) P j k) ∧
      (¬(haveExx s = true) → K = fun _ _ => 0) ∧ (∀ V, Closed V → Inherits s e Adm V → V K) := by
  unfold exchangePart
  by_cases h : haveExx s = true
  · rw [hQ h]
    obtain ⟨K, k1, k2, k3⟩ := exchangeFn_ok hr hP hk
    refine ⟨K, ?_, k2, fun h' => absurd h h', k3⟩
    rw [if_pos h, k1, Res.ok_bind, if_pos hres, tr_mean hs, mean_kM k2]
    have : ∀ x : ℝ, x * 2.0 = 2 * x := fun x => by norm_num; ring
    rw [this]
  · rw [if_neg h]
    refine ⟨fun _ _ => 0, by rw [exchange_none h, mul_zero], fun j _ k _ => by rw [kM_none h], fun _ => rfl, fun V hV _ => hV.zero⟩

theorem exchangePart_U (hr : Represents s e θ Adm Kept) (hres : s.restricted = false) {A B : Nat → Nat → ℝ} (hA : Adm A) (hB : Adm B) (sA : ∀ i j, A i j = A j i) (sB : ∀ i j, B i j = B j i)
    (kA : s.kfrac ≠ 0 ∨ s.kshort ≠ 0 → Kept A) (kB : s.kfrac ≠ 0 ∨ s.kshort ≠ 0 → Kept B) :
    ∃ Ka Kb, exchangePart s e A B = .ok (Ka, Kb, exchangeEnergy s.N (hybrid s θ) A + exchangeEnergy s.N (hybrid s θ) B) ∧ (∀ j < s.N, ∀ k < s.N, Ka j k = kM s.N (hybrid s θ) A j k) ∧
      (∀ j < s.N, ∀ k < s.N, Kb j k = kM s.N (hybrid s θ) B j k) ∧ (¬(haveExx s = true) → Ka = (fun _ _ => 0) ∧ Kb = fun _ _ => 0) ∧ (∀ V, Closed V → Inherits s e Adm V → V Ka ∧ V Kb) := by
  unfold exchangePart
  by_cases h : haveExx s = true
  · obtain ⟨K, k1, k2, k3⟩ := exchangeFn_ok hr hA kA
    obtain ⟨L, l1, l2, l3⟩ := exchangeFn_ok hr hB kB
    refine ⟨K, L, ?_, k2, l2, fun h' => absurd h h', fun V hV hm => ⟨k3 V hV hm, l3 V hV hm⟩⟩
    rw [if_pos h, k1, Res.ok_bind, if_neg (by rw [hres]; exact Bool.false_ne_true), l1, Res.ok_bind, tr_mean sA, tr_mean sB, mean_kM k2, mean_kM l2]
  · rw [if_neg h]
    refine ⟨fun _ _ => 0, fun _ _ => 0, by rw [exchange_none h, exchange_none h, add_zero], fun j _ k _ => by rw [kM_none h], fun j _ k _ => by rw [kM_none h], fun _ => ⟨rfl, rfl⟩,
      fun V hV _ => ⟨hV.zero, hV.zero⟩⟩

/-! ### exchange and correlation -/

theorem haveXC_iff : haveXC s = true ↔ s.fn.x ≠ 0 ∨ s.fn.c ≠ 0 := by unfold haveXC; exact decide_eq_true_iff

theorem energy_none (h : ¬(haveXC s = true)) (pts : List (XC.Spec.Point 3)) (D : Nat → Nat → ℝ) : XC.Spec.energy θ.env s.fn.x s.fn.c s.fn.xp s.fn.cp s.fn.thr pts D = 0 := by
  rw [haveXC_iff, not_or, not_not, not_not] at h
  unfold XC.Spec.energy XC.Spec.exc
  simp [h.1, h.2]

theorem energy2_none (h : ¬(haveXC s = true)) (pts : List (XC.Spec.Point 3)) (A B : Nat → Nat → ℝ) : XC.Spec.energy2 θ.env s.fn.x s.fn.c s.fn.xp s.fn.cp s.fn.thr pts A B = 0 := by
  rw [haveXC_iff, not_or, not_not, not_not] at h
  unfold XC.Spec.energy2 XC.Spec.exc2
  simp [h.1, h.2]

theorem xcPart_R (hr : Represents s e θ Adm Kept) (hres : s.restricted = true) {P : Nat → Nat → ℝ} (hP : Adm P) (Q R : Nat → Nat → ℝ) :
    ∃ H, xcPart s e P Q R = .ok (H, fun _ _ => 0, XC.Spec.energy θ.env s.fn.x s.fn.c s.fn.xp s.fn.cp s.fn.thr θ.pts (onGrid θ P)) ∧ (¬(haveXC s = true) → H = fun _ _ => 0) ∧
      (∀ V, Closed V → Inherits s e Adm V → V H) ∧
      ∀ t0 (Q : ℝ → Nat → Nat → ℝ) (Q' : Nat → Nat → ℝ), (∀ i j, HasDerivAt (fun t => Q t i j) (Q' i j) t0) → Q t0 = P → Adm Q' → SmoothR s θ P →
        HasDerivAt (fun t => XC.Spec.energy θ.env s.fn.x s.fn.c s.fn.xp s.fn.cp s.fn.thr θ.pts (onGrid θ (Q t))) (mean s.N H Q') t0 := by
  unfold xcPart
  by_cases h : haveXC s = true
  · obtain ⟨H, h1, ⟨h2, h2'⟩, h3⟩ := hr.xc1 hres P hP
    refine ⟨H.get, ?_, fun h' => absurd h h', fun V hV hm => hm.xc1 hres P _ hP h1, h3⟩
    rw [if_pos h, if_pos hres, h1, Res.ok_bind, sized, if_pos ⟨h2, h2'⟩, Res.ok_bind]
  · rw [if_neg h]
    refine ⟨fun _ _ => 0, by rw [energy_none h], fun _ => rfl, fun V hV _ => hV.zero, fun t0 Q Q' _ _ _ _ => ?_⟩
    simp only [energy_none h, mean_zero_left]
    exact hasDerivAt_const _ _

theorem xcPart_U (hr : Represents s e θ Adm Kept) (hres : s.restricted = false) {A B : Nat → Nat → ℝ} (hA : Adm A) (hB : Adm B) (P : Nat → Nat → ℝ) :
    ∃ Ha Hb, xcPart s e P A B = .ok (Ha, Hb, XC.Spec.energy2 θ.env s.fn.x s.fn.c s.fn.xp s.fn.cp s.fn.thr θ.pts (onGrid θ A) (onGrid θ B)) ∧
      (¬(haveXC s = true) → Ha = (fun _ _ => 0) ∧ Hb = fun _ _ => 0) ∧ (∀ V, Closed V → Inherits s e Adm V → V Ha ∧ V Hb) ∧
      ∀ t0 (Q R : ℝ → Nat → Nat → ℝ) (Q' R' : Nat → Nat → ℝ), (∀ i j, HasDerivAt (fun t => Q t i j) (Q' i j) t0) → (∀ i j, HasDerivAt (fun t => R t i j) (R' i j) t0) → Q t0 = A → R t0 = B →
        Adm Q' → Adm R' → (s.nelb ≤ 0 → ∀ i j, R' i j = 0) → SmoothU s θ A B →
        HasDerivAt (fun t => XC.Spec.energy2 θ.env s.fn.x s.fn.c s.fn.xp s.fn.cp s.fn.thr θ.pts (onGrid θ (Q t)) (onGrid θ (R t))) (mean s.N Ha Q' + mean s.N Hb R') t0 := by
  unfold xcPart
  by_cases h : haveXC s = true
  · obtain ⟨H, L, h1, ⟨h2, h2'⟩, ⟨h3, h3'⟩, h4⟩ := hr.xc2 hres A B hA hB
    refine ⟨H.get, L.get, ?_, fun h' => absurd h h', fun V hV hm => hm.xc2 hres A B _ hA hB h1, h4⟩
    rw [if_pos h, if_neg (by rw [hres]; exact Bool.false_ne_true), h1, Res.ok_bind, sized, if_pos ⟨h2, h2'⟩, Res.ok_bind, sized, if_pos ⟨h3, h3'⟩, Res.ok_bind]
  · rw [if_neg h]
    refine ⟨fun _ _ => 0, fun _ _ => 0, by rw [energy2_none h], fun _ => ⟨rfl, rfl⟩, fun V hV _ => ⟨hV.zero, hV.zero⟩, fun t0 Q R Q' R' _ _ _ _ _ _ _ _ => ?_⟩
    simp only [energy2_none h, mean_zero_left, add_zero]
    exact hasDerivAt_const _ _

/-! ### the one-electron part -/

theorem haveB_iff : haveB s = true ↔ s.Bz ≠ 0 := by unfold haveB; exact decide_eq_true_iff
theorem haveE_iff : haveE s = true ↔ s.Ez ≠ 0 ∨ s.Qzz ≠ 0 := by unfold haveE; exact decide_eq_true_iff
theorem haveConf_iff : haveConf s = true ↔ s.iconf ≠ 0 := by unfold haveConf; exact decide_eq_true_iff

theorem mean_vel (P : Nat → Nat → ℝ) : mean s.N (vel s) P = s.Ez * mean s.N s.dip P + s.Qzz / 3 * mean s.N s.quad P := by
  rw [← mean_smul_left, ← mean_smul_left, ← mean_add_left]
  refine mean_congr (fun i _ j _ => ?_) fun _ _ _ _ => rfl
  unfold vel
  norm_num
  ring

theorem mean_vconf (P : Nat → Nat → ℝ) : mean s.N (vconf s) P = if s.iconf = 0 then 0 else mean s.N s.Vconf P := by
  by_cases h : s.iconf = 0
  · rw [if_pos h, show vconf s = fun _ _ => 0 by funext i j; unfold vconf; rw [if_neg (by rw [haveConf_iff]; exact not_not.2 h)], mean_zero_left]
  · rw [if_neg h, show vconf s = s.Vconf by funext i j; unfold vconf; rw [if_pos (haveConf_iff.2 h)]]

theorem mean_core (P : Nat → Nat → ℝ) : mean s.N (core s) P = oneBody s P := by
  rw [show core s = fun i j => (((s.T i j + s.Vnuc i j) + vel s i j) + s.Vmag i j) + vconf s i j from rfl, mean_add_left, mean_add_left, mean_add_left, mean_add_left, mean_vel, mean_vconf]
  rfl

theorem mean_Vmag (h : NoField s) (hB : s.Bz = 0) (P : Nat → Nat → ℝ) : mean s.N s.Vmag P = 0 := by
  rw [mean_congr (h hB) (fun i _ j _ => rfl : ∀ i < s.N, ∀ j < s.N, P i j = P i j), mean_zero_left]

/-- the energy without the two-electron terms -/
theorem total_eq (hN : NoField s) {P : Nat → Nat → ℝ} (hP : ∀ i j, P i j = P j i) (J : Nat → Nat → ℝ) (Exc Exx : ℝ) :
    total s P J Exc Exx = oneBody s P - s.Bz / 2 * ((s.nela - s.nelb : Int) : ℝ) + 1 / 2 * mean s.N J P + Exx + Exc + nuclei s := by
  unfold total
  have e1 : efield s P = s.Ez * mean s.N s.dip P + s.Qzz / 3 * mean s.N s.quad P + if s.Ez = 0 ∧ s.Qzz = 0 then 0 else s.Enucfield := by
    unfold efield
    by_cases h : s.Ez = 0 ∧ s.Qzz = 0
    · rw [if_neg (by rw [haveE_iff]; tauto), if_pos h, h.1, h.2]; ring
    · rw [if_pos (by rw [haveE_iff]; tauto), if_neg h, tr_mean hP, mean_vel]
  have e2 : mfield s P = mean s.N s.Vmag P - s.Bz / 2 * ((s.nela - s.nelb : Int) : ℝ) := by
    unfold mfield
    by_cases h : s.Bz = 0
    · rw [if_neg (by rw [haveB_iff]; tauto), mean_Vmag hN h, h]; ring
    · rw [if_pos (by rw [haveB_iff]; tauto), tr_mean hP, show (0.5 : ℝ) = 1 / 2 by norm_num]; ring
  have e3 : conf s P = if s.iconf = 0 then 0 else mean s.N s.Vconf P := by
    unfold conf
    by_cases h : s.iconf = 0
    · rw [if_neg (by rw [haveConf_iff]; tauto), if_pos h]
    · rw [if_pos (by rw [haveConf_iff]; tauto), tr_mean hP, mean_vconf]
  rw [e1, e2, e3, tr_mean hP, tr_mean hP, tr_mean hP]
  unfold oneBody nuclei
  norm_num
  ring

/-! ### the builder -/

/-- the restricted builder -/
theorem build_R (hL : Layout s) (hA : Admissible s Adm) (hr : Represents s e θ Adm Kept) (hN : NoField s) (hres : s.restricted = true) (st : State s)
    (hk : s.kfrac ≠ 0 ∨ s.kshort ≠ 0 → Kept fun i j => densityOf s st.A i j / 2) :
    ∃ G : Nat → Nat → ℝ, build s e st = .ok (energyR s θ (densityOf s st.A) - s.Bz / 2 * ((s.nela - s.nelb : Int) : ℝ), fun k => (Dens.orthFock (s.block k) G, none)) ∧
      (∀ V, Closed V → Inherits s e Adm V → V G) ∧
      ∀ t0 (Q : ℝ → Nat → Nat → ℝ) (Q' : Nat → Nat → ℝ), (∀ i j, HasDerivAt (fun t => Q t i j) (Q' i j) t0) → Q t0 = densityOf s st.A → Adm Q' → SmoothR s θ (densityOf s st.A) →
        HasDerivAt (fun t => energyR s θ (Q t)) (mean s.N G Q') t0 := by
  obtain ⟨P, hP⟩ : ∃ P, P = densityOf s st.A := ⟨_, rfl⟩
  have adm : Adm P := by rw [hP]; exact hA.spread _ fun k => orthDensity_symm _
  have sym : ∀ i j, P i j = P j i := by rw [hP]; exact densityOf_symm _
  rw [← hP] at hk ⊢
  obtain ⟨J, j1, ⟨j2, j2'⟩, j3⟩ := hr.coulomb P adm
  obtain ⟨H, x1, x2, x3, x4⟩ := xcPart_R hr hres adm (if haveExx s then fun i j => 0.5 * P i j else fun _ _ => 0) fun _ _ => 0
  obtain ⟨K, k1, k2, k3, k4⟩ := exchangePart_R hr hres (hA.half P adm) (fun i j => by rw [sym i j]) hk (if haveExx s then fun i j => 0.5 * P i j else fun _ _ => 0) (fun _ _ => 0)
    (fun h => by rw [if_pos h]; funext i j; norm_num; ring)
  refine ⟨fun i j => core s i j + J.get i j + H i j + K i j, ?_, fun V hV hm => hV.add _ _ (hV.add _ _ (hV.add _ _ (core_keeps hV hm) (hm.coulomb P J adm j1)) (x3 V hV hm)) (k4 V hV hm), ?_⟩
  · unfold build densities
    rw [if_pos hres, density_ok hL, ← hP, Res.ok_bind, Res.ok_bind]
    simp only
    rw [x1, Res.ok_bind, j1, Res.ok_bind, sized, if_pos ⟨j2, j2'⟩, Res.ok_bind, k1, Res.ok_bind]
    simp only
    congr 2
    · rw [total_eq hN sym, mean_congr j3 (fun _ _ _ _ => rfl : ∀ i < s.N, ∀ j < s.N, P i j = P i j)]
      have := coulomb_mean s.N θ.q P
      unfold energyR
      rw [this]
      unfold jM
      ring
    · funext k
      unfold Dens.fockBlock
      rw [if_pos hres]
      congr 2
      funext i j
      unfold Dens.fockR ingredients
      simp only
      by_cases h1 : haveXC s = true
      · by_cases h2 : haveExx s = true
        · simp only [h1, h2, if_true]
        · simp only [h1, h2, if_true, k3 h2, Bool.false_eq_true, if_false, add_zero]
      · by_cases h2 : haveExx s = true
        · simp only [h1, h2, if_true, x2 h1, Bool.false_eq_true, if_false, add_zero]
        · simp only [h1, h2, x2 h1, k3 h2, Bool.false_eq_true, if_false, add_zero]
  · intro t0 Q Q' hQ h0 hq hsm
    have c1 : HasDerivAt (fun t => oneBody s (Q t)) (mean s.N (core s) Q') t0 := by
      simp only [← mean_core]
      exact mean_deriv _ hQ
    have c2 := coulomb_deriv hr.coulomb_swap hQ
    have c3 := (exchange_deriv (N := s.N) (x := hybrid s θ) (fun i hi j hj k hk l hl => hybrid_swap hr i hi j hj k hk l hl) fun i j => (hQ i j).div_const 2).const_mul 2
    have c4 := x4 t0 Q Q' hQ h0 hq hsm
    unfold energyR
    refine ((((c1.add c2).add c3).add c4).add_const _).congr_deriv ?_
    rw [h0] at *
    rw [mean_add_left, mean_add_left, mean_add_left, mean_congr j3 (fun _ _ _ _ => rfl : ∀ i < s.N, ∀ j < s.N, Q' i j = Q' i j),
      mean_congr k2 (fun _ _ _ _ => rfl : ∀ i < s.N, ∀ j < s.N, Q' i j = Q' i j)]
    have : mean s.N (kM s.N (hybrid s θ) fun i j => P i j / 2) (fun i j => Q' i j / 2) = 1 / 2 * mean s.N (kM s.N (hybrid s θ) fun i j => P i j / 2) Q' := by
      rw [← mean_smul]
      exact mean_congr (fun _ _ _ _ => rfl) fun i _ j _ => by ring
    rw [this]
    unfold jM
    ring

/-- the unrestricted builder -/
theorem build_U (hL : Layout s) (hA : Admissible s Adm) (hr : Represents s e θ Adm Kept) (hN : NoField s) (hres : s.restricted = false) (st : State s)
    (kA : s.kfrac ≠ 0 ∨ s.kshort ≠ 0 → Kept (densityOf s st.A)) (kB : s.kfrac ≠ 0 ∨ s.kshort ≠ 0 → Kept (densityOf s st.B)) :
    ∃ Ga Gb : Nat → Nat → ℝ, build s e st = .ok (energyU s θ (densityOf s st.A) (densityOf s st.B) +
        s.Bz / 2 * (mean s.N s.S (densityOf s st.A) - mean s.N s.S (densityOf s st.B) - ((s.nela - s.nelb : Int) : ℝ)), fun k => (Dens.orthFock (s.block k) Ga, some (Dens.orthFock (s.block k) Gb))) ∧
      (∀ V, Closed V → Inherits s e Adm V → V Ga ∧ V Gb) ∧
      ∀ t0 (Q R : ℝ → Nat → Nat → ℝ) (Q' R' : Nat → Nat → ℝ), (∀ i j, HasDerivAt (fun t => Q t i j) (Q' i j) t0) → (∀ i j, HasDerivAt (fun t => R t i j) (R' i j) t0) →
        Q t0 = densityOf s st.A → R t0 = densityOf s st.B → Adm Q' → Adm R' → (s.nelb ≤ 0 → ∀ i j, R' i j = 0) → SmoothU s θ (densityOf s st.A) (densityOf s st.B) →
        HasDerivAt (fun t => energyU s θ (Q t) (R t)) (mean s.N Ga Q' + mean s.N Gb R') t0 := by
  obtain ⟨A, hPA⟩ : ∃ P, P = densityOf s st.A := ⟨_, rfl⟩
  obtain ⟨B, hPB⟩ : ∃ P, P = densityOf s st.B := ⟨_, rfl⟩
  have admA : Adm A := by rw [hPA]; exact hA.spread _ fun k => orthDensity_symm _
  have admB : Adm B := by rw [hPB]; exact hA.spread _ fun k => orthDensity_symm _
  have symA : ∀ i j, A i j = A j i := by rw [hPA]; exact densityOf_symm _
  have symB : ∀ i j, B i j = B j i := by rw [hPB]; exact densityOf_symm _
  have sym : ∀ i j, A i j + B i j = A j i + B j i := fun i j => by rw [symA i j, symB i j]
  rw [← hPA] at kA ⊢
  rw [← hPB] at kB ⊢
  obtain ⟨J, j1, ⟨j2, j2'⟩, j3⟩ := hr.coulomb _ (hA.add A B admA admB)
  obtain ⟨Ha, Hb, x1, x2, x3, x4⟩ := xcPart_U hr hres admA admB fun i j => A i j + B i j
  obtain ⟨Ka, Kb, k1, k2, k2', k3, k4⟩ := exchangePart_U hr hres admA admB symA symB kA kB
  refine ⟨fun i j => core s i j + J.get i j + Ha i j + Ka i j + (-(s.Bz / 2)) * s.S i j, fun i j => core s i j + J.get i j + Hb i j + Kb i j + s.Bz / 2 * s.S i j, ?_, fun V hV hm => ⟨?_, ?_⟩, ?_⟩
  · unfold build densities
    rw [if_neg (by rw [hres]; exact Bool.false_ne_true), density_ok hL, density_ok hL, ← hPA, ← hPB, Res.ok_bind, Res.ok_bind, Res.ok_bind]
    simp only
    rw [x1, Res.ok_bind, j1, Res.ok_bind, sized, if_pos ⟨j2, j2'⟩, Res.ok_bind, k1, Res.ok_bind]
    simp only
    congr 2
    · rw [total_eq hN sym, mean_congr j3 (fun _ _ _ _ => rfl : ∀ i < s.N, ∀ j < s.N, A i j + B i j = A i j + B i j)]
      have := coulomb_mean s.N θ.q fun i j => A i j + B i j
      unfold energyU
      rw [this]
      unfold jM
      ring
    · have hz : ¬(haveB s = true) → s.Bz = 0 := fun h => by rw [haveB_iff, not_not] at h; exact h
      have eF : Dens.fockU (ingredients s J.get (Ha, Hb, XC.Spec.energy2 θ.env s.fn.x s.fn.c s.fn.xp s.fn.cp s.fn.thr θ.pts (onGrid θ A) (onGrid θ B))
          (Ka, Kb, exchangeEnergy s.N (hybrid s θ) A + exchangeEnergy s.N (hybrid s θ) B)) =
          (fun i j => core s i j + J.get i j + Ha i j + Ka i j + (-(s.Bz / 2)) * s.S i j, fun i j => core s i j + J.get i j + Hb i j + Kb i j + s.Bz / 2 * s.S i j) := by
        unfold Dens.fockU ingredients
        simp only
        have e1 : (if haveXC s = true then fun i j => core s i j + J.get i j + Ha i j else fun i j => core s i j + J.get i j) = fun i j => core s i j + J.get i j + Ha i j := by
          by_cases h1 : haveXC s = true
          · rw [if_pos h1]
          · rw [if_neg h1, (x2 h1).1]; simp
        have e1' : (if haveXC s = true then fun i j => core s i j + J.get i j + Hb i j else fun i j => core s i j + J.get i j) = fun i j => core s i j + J.get i j + Hb i j := by
          by_cases h1 : haveXC s = true
          · rw [if_pos h1]
          · rw [if_neg h1, (x2 h1).2]; simp
        rw [e1, e1']
        have e2 : (if haveExx s = true then fun i j => core s i j + J.get i j + Ha i j + Ka i j else fun i j => core s i j + J.get i j + Ha i j) =
            fun i j => core s i j + J.get i j + Ha i j + Ka i j := by
          by_cases h1 : haveExx s = true
          · rw [if_pos h1]
          · rw [if_neg h1, (k3 h1).1]; simp
        have e2' : (if haveExx s = true then fun i j => core s i j + J.get i j + Hb i j + Kb i j else fun i j => core s i j + J.get i j + Hb i j) =
            fun i j => core s i j + J.get i j + Hb i j + Kb i j := by
          by_cases h1 : haveExx s = true
          · rw [if_pos h1]
          · rw [if_neg h1, (k3 h1).2]; simp
        rw [e2, e2']
        by_cases h1 : haveB s = true
        · rw [if_pos h1]
          rw [show (0.5 : ℝ) = 1 / 2 by norm_num]
          refine Prod.ext ?_ ?_ <;> funext i j <;> ring
        · rw [if_neg h1, hz h1]
          refine Prod.ext ?_ ?_ <;> funext i j <;> norm_num
      funext k
      unfold Dens.fockBlock
      rw [if_neg (by rw [hres]; exact Bool.false_ne_true), eF]
  · exact hV.add _ _ (hV.add _ _ (hV.add _ _ (hV.add _ _ (core_keeps hV hm) (hm.coulomb _ J (hA.add A B admA admB) j1)) (x3 V hV hm).1) (k4 V hV hm).1) (hV.smul _ _ hm.S)
  · exact hV.add _ _ (hV.add _ _ (hV.add _ _ (hV.add _ _ (core_keeps hV hm) (hm.coulomb _ J (hA.add A B admA admB) j1)) (x3 V hV hm).2) (k4 V hV hm).2) (hV.smul _ _ hm.S)
  · intro t0 Q R Q' R' hQ hR h0 h0' hq hr' hb hsm
    have hQR : ∀ i j, HasDerivAt (fun t => Q t i j + R t i j) (Q' i j + R' i j) t0 := fun i j => (hQ i j).add (hR i j)
    have c1 : HasDerivAt (fun t => oneBody s fun i j => Q t i j + R t i j) (mean s.N (core s) fun i j => Q' i j + R' i j) t0 := by
      simp only [← mean_core]
      exact mean_deriv _ hQR
    have cS : HasDerivAt (fun t => s.Bz / 2 * (mean s.N s.S (Q t) - mean s.N s.S (R t))) (s.Bz / 2 * (mean s.N s.S Q' - mean s.N s.S R')) t0 := ((mean_deriv _ hQ).sub (mean_deriv _ hR)).const_mul _
    have c2 := coulomb_deriv (P := fun t i j => Q t i j + R t i j) hr.coulomb_swap hQR
    have c3 := exchange_deriv (N := s.N) (x := hybrid s θ) (fun i hi j hj k hk l hl => hybrid_swap hr i hi j hj k hk l hl) hQ
    have c3' := exchange_deriv (N := s.N) (x := hybrid s θ) (fun i hi j hj k hk l hl => hybrid_swap hr i hi j hj k hk l hl) hR
    have c4 := x4 t0 Q R Q' R' hQ hR h0 h0' hq hr' hb hsm
    unfold energyU
    refine (((((c1.sub cS).add c2).add (c3.add c3')).add c4).add_const _).congr_deriv ?_
    rw [h0, h0']
    have ej : ∀ V : Nat → Nat → ℝ, mean s.N J.get V = mean s.N (jM s.N θ.q fun i j => A i j + B i j) V := fun V => mean_congr j3 fun _ _ _ _ => rfl
    have ek : mean s.N Ka Q' = mean s.N (kM s.N (hybrid s θ) A) Q' := mean_congr k2 fun _ _ _ _ => rfl
    have ek' : mean s.N Kb R' = mean s.N (kM s.N (hybrid s θ) B) R' := mean_congr k2' fun _ _ _ _ => rfl
    simp only [mean_add_left, mean_smul_left, mean_add, ej, ek, ek']
    ring

end Drv
end HelFEM
