import Verif.Lemmas.DiaKAng

/-! The exchange matrix of the diatomic basis: mirrored blocks and the final form. -/

namespace HelFEM
namespace DiaJK
open Finset Spec TwoE Sym Dia AtomJK

variable {b : Basis} {ne : Nat} {first last : Nat → Nat} {c : Ints} {Pm Qm : Int → Int → Nat → Nat → Nat → Nat → ℝ} {W : Int → Int → Nat → Nat → Nat → ℝ}

/-! ### copying the blocks of negative `m` -/

/-- `m` of an angular function -/
def mOf (b : Basis) (x : Nat) : Int := (b.lm.getD x (0, 0)).2

/-- the mirror image of an angular function -/
def mir (lm : List (Int × Int)) (x : Nat) : Nat := lm.findIdx fun y => y.1 = (lm.getD x (0, 0)).1 ∧ y.2 = -(lm.getD x (0, 0)).2

theorem mir_spec {lm : List (Int × Int)} (hcl : ∀ p ∈ lm, (p.1, -p.2) ∈ lm) {x : Nat} (hx : x < lm.length) :
    mir lm x < lm.length ∧ lm.getD (mir lm x) (0, 0) = ((lm.getD x (0, 0)).1, -(lm.getD x (0, 0)).2) := by
  have hmem := hcl _ (readAt_lm hx).2
  have hlt : mir lm x < lm.length := List.findIdx_lt_length_of_exists ⟨_, hmem, by simp⟩
  refine ⟨hlt, ?_⟩
  have := List.findIdx_getElem (w := hlt)
  rw [List.getD_eq_getElem?_getD, List.getElem?_eq_getElem hlt]
  simp only [decide_eq_true_eq] at this
  exact Prod.ext this.1 this.2

theorem mirrorOf_ok {lm : List (Int × Int)} {x : Nat} (hx : x < lm.length) : mirrorOf lm x = .ok (mir lm x) := by
  unfold mirrorOf
  rw [(readAt_lm hx).1, Res.ok_bind]; rfl

/-- nothing is lost by mirroring twice -/
theorem mir_mir {lm : List (Int × Int)} (hnd : lm.Nodup) (hcl : ∀ p ∈ lm, (p.1, -p.2) ∈ lm) {x : Nat} (hx : x < lm.length) : mir lm (mir lm x) = x := by
  obtain ⟨h1, h2⟩ := mir_spec hcl hx
  obtain ⟨h3, h4⟩ := mir_spec hcl h1
  rw [h2] at h4
  simp only [neg_neg] at h4
  rw [getD_lt _ _ h3, getD_lt _ _ hx] at h4
  exact (List.Nodup.getElem_inj_iff hnd).1 (by simpa using h4)

/-- the blocks of the matrix during the copy: those of negative `m` in `D` are copies -/
def MirSt (b : Basis) (B : Nat → Nat → Nat → Nat → ℝ) (K : Mat ℝ) (D : Nat → Nat → Prop) : Prop :=
  K.rows = b.lm.length * b.rad.nbf ∧ K.cols = b.lm.length * b.rad.nbf ∧ ∀ x < b.lm.length, ∀ y < b.lm.length, ∀ a < b.rad.nbf, ∀ d < b.rad.nbf,
    (¬(mOf b x < 0 ∧ mOf b y < 0) → K.get (x * b.rad.nbf + a) (y * b.rad.nbf + d) = B x y a d) ∧
    (mOf b x < 0 ∧ mOf b y < 0 → D x y → K.get (x * b.rad.nbf + a) (y * b.rad.nbf + d) = B (mir b.lm x) (mir b.lm y) a d)

theorem in_block {nrad x j a : Nat} (ha : a < nrad) : (j * nrad ≤ x * nrad + a ∧ x * nrad + a < j * nrad + nrad) ↔ x = j := by
  constructor
  · rintro ⟨h1, h2⟩
    rcases Nat.lt_trichotomy x j with h | h | h
    · have : (x + 1) * nrad ≤ j * nrad := Nat.mul_le_mul_right _ h
      have e : (x + 1) * nrad = x * nrad + nrad := by ring
      omega
    · exact h
    · have : (j + 1) * nrad ≤ x * nrad := Nat.mul_le_mul_right _ h
      have e : (j + 1) * nrad = j * nrad + nrad := by ring
      omega
  · rintro rfl; omega

theorem mirrorBlock_ok (hcl : ∀ p ∈ b.lm, (p.1, -p.2) ∈ b.lm) (B : Nat → Nat → Nat → Nat → ℝ) (j : Nat) (hj : j < b.lm.length) (hjm : mOf b j < 0) (k : Nat) (hk : k < b.lm.length)
    (K : Mat ℝ) (D : Nat → Nat → Prop) (hK : MirSt b B K D) :
    ∃ K', mirrorBlock b j (mir b.lm j) K k = .ok K' ∧ MirSt b B K' (fun x y => D x y ∨ (x = j ∧ y = k)) := by
  obtain ⟨k1, k2, k3⟩ := hK
  unfold mirrorBlock
  rw [(readAt_lm hk).1, Res.ok_bind]
  by_cases hkm : 0 ≤ (b.lm.getD k (0, 0)).2
  · rw [if_pos hkm]
    refine ⟨K, rfl, k1, k2, ?_⟩
    intro x hx y hy a ha d hd
    refine ⟨(k3 x hx y hy a ha d hd).1, ?_⟩
    rintro hneg (hD | ⟨rfl, rfl⟩)
    · exact (k3 x hx y hy a ha d hd).2 hneg hD
    · unfold mOf at hneg; omega
  · rw [if_neg hkm]
    obtain ⟨mj1, mj2⟩ := mir_spec hcl hj
    obtain ⟨mk1, mk2⟩ := mir_spec hcl hk
    rw [mirrorOf_ok hk, Res.ok_bind, if_neg (by omega)]
    have hf1 := block_fits (nrad := b.rad.nbf) mj1
    have hf2 := block_fits (nrad := b.rad.nbf) mk1
    have hf3 := block_fits (nrad := b.rad.nbf) hj
    have hf4 := block_fits (nrad := b.rad.nbf) hk
    rw [show K.block (mir b.lm j * b.rad.nbf) (mir b.lm k * b.rad.nbf) b.rad.nbf b.rad.nbf = .ok ⟨b.rad.nbf, b.rad.nbf, fun a d =>
      K.get (mir b.lm j * b.rad.nbf + a) (mir b.lm k * b.rad.nbf + d)⟩ from if_pos ⟨by omega, by omega⟩, Res.ok_bind]
    refine ⟨_, if_pos ⟨by omega, by omega, rfl, rfl⟩, k1, k2, ?_⟩
    intro x hx y hy a ha d hd
    simp only
    have hcond : (j * b.rad.nbf ≤ x * b.rad.nbf + a ∧ x * b.rad.nbf + a < j * b.rad.nbf + b.rad.nbf ∧ k * b.rad.nbf ≤ y * b.rad.nbf + d ∧ y * b.rad.nbf + d < k * b.rad.nbf + b.rad.nbf) ↔
        x = j ∧ y = k := by
      rw [← in_block ha, ← in_block hd]; tauto
    by_cases hxy : x = j ∧ y = k
    · rw [if_pos (hcond.2 hxy)]
      obtain ⟨rfl, rfl⟩ := hxy
      rw [Nat.add_sub_cancel_left, Nat.add_sub_cancel_left]
      have hpos : ¬(mOf b (mir b.lm x) < 0 ∧ mOf b (mir b.lm y) < 0) := by
        unfold mOf at hjm ⊢
        rw [mj2]; simp only; omega
      have hval := (k3 (mir b.lm x) mj1 (mir b.lm y) mk1 a ha d hd).1 hpos
      exact ⟨fun hn => absurd ⟨hjm, by unfold mOf; omega⟩ hn, fun _ _ => hval⟩
    · rw [if_neg (fun h => hxy (hcond.1 h))]
      refine ⟨(k3 x hx y hy a ha d hd).1, ?_⟩
      rintro hneg (hD | h)
      · exact (k3 x hx y hy a ha d hd).2 hneg hD
      · exact absurd h hxy

theorem mirrorBlocks_ok (hcl : ∀ p ∈ b.lm, (p.1, -p.2) ∈ b.lm) (B : Nat → Nat → Nat → Nat → ℝ) (j : Nat) (hj : j < b.lm.length) (hjm : mOf b j < 0) :
    ∀ (l : List Nat) (K : Mat ℝ) (D : Nat → Nat → Prop), (∀ k ∈ l, k < b.lm.length) → MirSt b B K D →
      ∃ K', l.foldlM (mirrorBlock b j (mir b.lm j)) K = .ok K' ∧ MirSt b B K' (fun x y => D x y ∨ (x = j ∧ y ∈ l)) := by
  intro l
  induction l with
  | nil =>
    intro K D _ h
    refine ⟨K, rfl, h.1, h.2.1, ?_⟩
    intro x hx y hy a ha d hd
    refine ⟨(h.2.2 x hx y hy a ha d hd).1, fun hn hD => (h.2.2 x hx y hy a ha d hd).2 hn ?_⟩
    simpa using hD
  | cons k l ih =>
    intro K D hl h
    obtain ⟨K1, a1, a2⟩ := mirrorBlock_ok hcl B j hj hjm k (hl k (by simp)) K D h
    obtain ⟨K2, b1, b2⟩ := ih K1 _ (fun k' hk' => hl k' (by simp [hk'])) a2
    refine ⟨K2, by rw [List.foldlM_cons, a1]; exact b1, b2.1, b2.2.1, ?_⟩
    intro x hx y hy a ha d hd
    refine ⟨(b2.2.2 x hx y hy a ha d hd).1, fun hn hD => (b2.2.2 x hx y hy a ha d hd).2 hn ?_⟩
    simp only [List.mem_cons] at hD
    tauto

theorem mirrorRow_ok (hcl : ∀ p ∈ b.lm, (p.1, -p.2) ∈ b.lm) (B : Nat → Nat → Nat → Nat → ℝ) (j : Nat) (hj : j < b.lm.length) (K : Mat ℝ) (D : Nat → Nat → Prop) (hK : MirSt b B K D) :
    ∃ K', mirrorRow b K j = .ok K' ∧ MirSt b B K' (fun x y => D x y ∨ (x = j ∧ y < b.lm.length)) := by
  unfold mirrorRow
  rw [(readAt_lm hj).1, Res.ok_bind]
  by_cases hjm : 0 ≤ (b.lm.getD j (0, 0)).2
  · rw [if_pos hjm]
    refine ⟨K, rfl, hK.1, hK.2.1, ?_⟩
    intro x hx y hy a ha d hd
    refine ⟨(hK.2.2 x hx y hy a ha d hd).1, ?_⟩
    rintro hn (hD | ⟨rfl, _⟩)
    · exact (hK.2.2 x hx y hy a ha d hd).2 hn hD
    · unfold mOf at hn; omega
  · rw [if_neg hjm, mirrorOf_ok hj, Res.ok_bind, if_neg (by have := (mir_spec hcl hj).1; omega)]
    obtain ⟨K', a1, a2⟩ := mirrorBlocks_ok hcl B j hj (by unfold mOf; omega) (List.range b.lm.length) K D (fun k hk => List.mem_range.1 hk) hK
    refine ⟨K', a1, a2.1, a2.2.1, ?_⟩
    intro x hx y hy a ha d hd
    refine ⟨(a2.2.2 x hx y hy a ha d hd).1, fun hn hD => (a2.2.2 x hx y hy a ha d hd).2 hn ?_⟩
    simp only [List.mem_range]; exact hD

theorem mirrorRows_ok (hcl : ∀ p ∈ b.lm, (p.1, -p.2) ∈ b.lm) (B : Nat → Nat → Nat → Nat → ℝ) :
    ∀ (l : List Nat) (K : Mat ℝ) (D : Nat → Nat → Prop), (∀ j ∈ l, j < b.lm.length) → MirSt b B K D →
      ∃ K', l.foldlM (mirrorRow b) K = .ok K' ∧ MirSt b B K' (fun x y => D x y ∨ (x ∈ l ∧ y < b.lm.length)) := by
  intro l
  induction l with
  | nil =>
    intro K D _ h
    refine ⟨K, rfl, h.1, h.2.1, ?_⟩
    intro x hx y hy a ha d hd
    refine ⟨(h.2.2 x hx y hy a ha d hd).1, fun hn hD => (h.2.2 x hx y hy a ha d hd).2 hn ?_⟩
    simpa using hD
  | cons j l ih =>
    intro K D hl h
    obtain ⟨K1, a1, a2⟩ := mirrorRow_ok hcl B j (hl j (by simp)) K D h
    obtain ⟨K2, b1, b2⟩ := ih K1 _ (fun k' hk' => hl k' (by simp [hk'])) a2
    refine ⟨K2, by rw [List.foldlM_cons, a1]; exact b1, b2.1, b2.2.1, ?_⟩
    intro x hx y hy a ha d hd
    refine ⟨(b2.2.2 x hx y hy a ha d hd).1, fun hn hD => (b2.2.2 x hx y hy a ha d hd).2 hn ?_⟩
    simp only [List.mem_cons] at hD
    tauto

/-! ### symmetry of the integrals -/

theorem neumann_flip (Rh : ℝ) (nL : Nat) (radial : Nat → Nat → Nat → Nat → Nat → Nat → Nat → Nat → ℝ) (p q r s : (Int × Int) × Nat) :
    neumann Rh nL radial (flipM p) (flipM q) (flipM r) (flipM s) = neumann Rh nL radial p q r s := by
  unfold neumann
  apply sum_congr rfl; intro L _
  apply sum_nbij' (fun M => -M) (fun M => -M)
  · intro M hM; rw [Finset.mem_Icc] at hM ⊢; omega
  · intro M hM; rw [Finset.mem_Icc] at hM ⊢; omega
  · intro M _; simp
  · intro M _; simp
  · intro M _
    have e1 : ((-M) % 2 = 0) = (M % 2 = 0) := by apply propext; omega
    rw [Int.natAbs_neg]
    simp only [e1]
    congr 1
    apply sum_congr rfl; intro α _
    apply sum_congr rfl; intro β _
    have a1 := ang_flip α q.1 p.1 L (-M)
    have a2 := ang_flip β r.1 s.1 L (-M)
    rw [neg_neg] at a1 a2
    unfold flipM
    simp only
    rw [a1, a2]

theorem flip_flip (p : (Int × Int) × Nat) : flipM (flipM p) = p := by unfold flipM; simp

/-- the mirror image of a function -/
def bar (lm : List (Int × Int)) (nrad i : Nat) : Nat := mir lm (i / nrad) * nrad + i % nrad

theorem bar_spec {lm : List (Int × Int)} (hnd : lm.Nodup) (hcl : ∀ p ∈ lm, (p.1, -p.2) ∈ lm) {nrad i : Nat} (hi : i < lm.length * nrad) :
    bar lm nrad i < lm.length * nrad ∧ bar lm nrad (bar lm nrad i) = i ∧ orbital lm nrad (bar lm nrad i) = flipM (orbital lm nrad i) ∧ bar lm nrad i / nrad = mir lm (i / nrad) ∧
      bar lm nrad i % nrad = i % nrad := by
  have hn : 0 < nrad := Nat.pos_of_ne_zero (by rintro rfl; simp at hi)
  have hx : i / nrad < lm.length := (Nat.div_lt_iff_lt_mul hn).2 hi
  have hm := Nat.mod_lt i hn
  obtain ⟨m1, m2⟩ := mir_spec hcl hx
  have e1 : bar lm nrad i / nrad = mir lm (i / nrad) := div_at hm
  have e2 : bar lm nrad i % nrad = i % nrad := by unfold bar; rw [Nat.mul_comm, Nat.mul_add_mod, Nat.mod_mod]
  refine ⟨?_, ?_, ?_, e1, e2⟩
  · have := block_fits (nrad := nrad) m1
    unfold bar; omega
  · rw [show bar lm nrad (bar lm nrad i) = mir lm (bar lm nrad i / nrad) * nrad + bar lm nrad i % nrad from rfl, e1, e2, mir_mir hnd hcl hx]
    have := Nat.div_add_mod i nrad
    rw [Nat.mul_comm] at this; exact this
  · unfold orbital
    rw [e1, e2, m2]; rfl

/-- the density over all functions has the symmetry -/
structure SymE (lm : List (Int × Int)) (nrad : Nat) (E : Nat → Nat → ℝ) : Prop where
  diag : ∀ i < lm.length * nrad, ∀ j < lm.length * nrad, (orbital lm nrad i).1.2 ≠ (orbital lm nrad j).1.2 → E i j = 0
  flip : ∀ i < lm.length * nrad, ∀ j < lm.length * nrad, E (bar lm nrad i) (bar lm nrad j) = E i j

theorem screened_flip {lm : List (Int × Int)} (hnd : lm.Nodup) (hcl : ∀ p ∈ lm, (p.1, -p.2) ∈ lm) {nrad : Nat} {E : Nat → Nat → ℝ} (hE : SymE lm nrad E) (thr : ℝ) (i l : Nat)
    (hi : i < lm.length * nrad) (hl : l < lm.length * nrad) : screened nrad thr E (bar lm nrad i) (bar lm nrad l) = screened nrad thr E i l := by
  have hn : 0 < nrad := Nat.pos_of_ne_zero (by rintro rfl; simp at hi)
  obtain ⟨_, _, _, i1, _⟩ := bar_spec hnd hcl hi
  obtain ⟨_, _, _, l1, _⟩ := bar_spec hnd hcl hl
  have hx : i / nrad < lm.length := (Nat.div_lt_iff_lt_mul hn).2 hi
  have hy : l / nrad < lm.length := (Nat.div_lt_iff_lt_mul hn).2 hl
  unfold screened
  rw [i1, l1, hE.flip i hi l hl]
  have : ∀ a ∈ range nrad, ∀ d ∈ range nrad, E (mir lm (i / nrad) * nrad + a) (mir lm (l / nrad) * nrad + d) = E (i / nrad * nrad + a) (l / nrad * nrad + d) := by
    intro a ha d hd
    have ha := Finset.mem_range.1 ha
    have hd := Finset.mem_range.1 hd
    have f1 := block_fits (nrad := nrad) hx
    have f2 := block_fits (nrad := nrad) hy
    have := hE.flip (i / nrad * nrad + a) (by omega) (l / nrad * nrad + d) (by omega)
    unfold bar at this
    rw [div_at ha, div_at hd, Nat.mul_add_mod', Nat.mul_add_mod', Nat.mod_eq_of_lt ha, Nat.mod_eq_of_lt hd] at this
    exact this
  rw [sum_congr rfl fun a ha => sum_congr rfl fun d hd => by rw [this a ha d hd]]

theorem sum_bar {lm : List (Int × Int)} (hnd : lm.Nodup) (hcl : ∀ p ∈ lm, (p.1, -p.2) ∈ lm) {nrad : Nat} (F : Nat → Nat → ℝ) :
    ∑ i ∈ range (lm.length * nrad), ∑ l ∈ range (lm.length * nrad), F (bar lm nrad i) (bar lm nrad l) = ∑ i ∈ range (lm.length * nrad), ∑ l ∈ range (lm.length * nrad), F i l := by
  have one : ∀ G : Nat → ℝ, ∑ i ∈ range (lm.length * nrad), G (bar lm nrad i) = ∑ i ∈ range (lm.length * nrad), G i := by
    intro G
    apply sum_nbij' (bar lm nrad) (bar lm nrad)
    · intro i hi; exact Finset.mem_range.2 (bar_spec hnd hcl (Finset.mem_range.1 hi)).1
    · intro i hi; exact Finset.mem_range.2 (bar_spec hnd hcl (Finset.mem_range.1 hi)).1
    · intro i hi; exact (bar_spec hnd hcl (Finset.mem_range.1 hi)).2.1
    · intro i hi; exact (bar_spec hnd hcl (Finset.mem_range.1 hi)).2.1
    · intro i hi; rfl
  rw [one (fun i => ∑ l ∈ range (lm.length * nrad), F i (bar lm nrad l))]
  exact sum_congr rfl fun i _ => one (F i)

theorem neu_flip_screened (nL : Nat) (R : Nat → Nat → Nat → Nat → Nat → Nat → Nat → Nat → ℝ) (Rh : ℝ) {lm : List (Int × Int)} {nrad : Nat} (hnd : lm.Nodup) (hcl : ∀ p ∈ lm, (p.1, -p.2) ∈ lm) (thr : ℝ)
    (E : Nat → Nat → ℝ) (hE : SymE lm nrad E) (p q : (Int × Int) × Nat) :
    ∑ i ∈ range (lm.length * nrad), ∑ l ∈ range (lm.length * nrad), neumann Rh nL R (orbital lm nrad i) (flipM p) (flipM q) (orbital lm nrad l) * screened nrad thr E i l =
    ∑ i ∈ range (lm.length * nrad), ∑ l ∈ range (lm.length * nrad), neumann Rh nL R (orbital lm nrad i) p q (orbital lm nrad l) * screened nrad thr E i l := by
  rw [← sum_bar hnd hcl (fun i l => neumann Rh nL R (orbital lm nrad i) (flipM p) (flipM q) (orbital lm nrad l) * screened nrad thr E i l)]
  apply sum_congr rfl; intro i hi
  apply sum_congr rfl; intro l hl
  have hi := Finset.mem_range.1 hi
  have hl := Finset.mem_range.1 hl
  beta_reduce
  rw [screened_flip hnd hcl hE thr i l hi hl, (bar_spec hnd hcl hi).2.2.1, (bar_spec hnd hcl hl).2.2.1, neumann_flip]

theorem blockOut_flip (h : Ready b) (nL : Nat) (hnL : ∀ x ∈ b.lm, ∀ y ∈ b.lm, x.1 + y.1 + 2 < nL) (hnd : b.lm.Nodup) (hcl : ∀ p ∈ b.lm, (p.1, -p.2) ∈ b.lm) (thr : ℝ) (P : Mat ℝ)
    (hE : SymE b.lm b.rad.nbf P.get) (j k : Nat) (hj : j < b.lm.length) (hk : k < b.lm.length) (a d : Nat) :
    blockOut b ne first last Pm Qm W thr P (mir b.lm j) (mir b.lm k) a d = blockOut b ne first last Pm Qm W thr P j k a d := by
  obtain ⟨j1, j2⟩ := mir_spec hcl hj
  obtain ⟨k1, k2⟩ := mir_spec hcl hk
  rw [blockOut_eq h nL hnL thr P _ _ j1 k1, blockOut_eq h nL hnL thr P j k hj hk, j2, k2]
  exact congrArg Neg.neg (neu_flip_screened nL _ _ hnd hcl thr P.get hE (b.lm.getD j (0, 0), a) (b.lm.getD k (0, 0), d))

theorem blockOut_mixed (h : Ready b) (nL : Nat) (hnL : ∀ x ∈ b.lm, ∀ y ∈ b.lm, x.1 + y.1 + 2 < nL) (thr : ℝ) (P : Mat ℝ) (hE : SymE b.lm b.rad.nbf P.get) (j k : Nat)
    (hj : j < b.lm.length) (hk : k < b.lm.length) (hm : mOf b j ≠ mOf b k) (a d : Nat) : blockOut b ne first last Pm Qm W thr P j k a d = 0 := by
  rw [blockOut_eq h nL hnL thr P j k hj hk, neg_eq_zero]
  apply sum_eq_zero; intro i hi
  apply sum_eq_zero; intro l hl
  have hi := Finset.mem_range.1 hi
  have hl := Finset.mem_range.1 hl
  by_cases he : (orbital b.lm b.rad.nbf i).1.2 = (orbital b.lm b.rad.nbf l).1.2
  · have hn : 0 < b.rad.nbf := Nat.pos_of_ne_zero (by intro h0; rw [h0] at hi; simp at hi)
    have hpi := h.pos _ (readAt_lm ((Nat.div_lt_iff_lt_mul hn).2 hi)).2
    have hpj := h.pos _ (readAt_lm hj).2
    rw [neumann_single _ _ _ _ _ _ _ hpi hpj, sum_eq_zero, zero_mul]
    intro L _
    rw [sum_eq_zero, mul_zero]
    intro α _
    apply sum_eq_zero; intro β _
    unfold mOf at hm
    rw [ang_sel β (b.lm.getD k (0, 0)) (orbital b.lm b.rad.nbf l).1 L _ (by simp only; omega)]
    ring
  · unfold screened
    rw [hE.diag i hi l hl he]
    simp

/-! ### the exchange matrix over all functions -/

theorem exchangeFull_ok (h : Ready b) (hR : Layout b.rad ne b.rad.nbf first last) (hs : Holds b c ne first last Pm Qm W) (nL : Nat)
    (hnL : ∀ x ∈ b.lm, ∀ y ∈ b.lm, x.1 + y.1 + 2 < nL) (thr : ℝ) (order : List (Nat × Nat)) (ho : order.Perm (pairs b.lm.length)) (P : Mat ℝ)
    (p1 : P.rows = b.lm.length * b.rad.nbf) (p2 : P.cols = b.lm.length * b.rad.nbf)
    (hsym : b.absmSym = true → b.lm.Nodup ∧ (∀ p ∈ b.lm, (p.1, -p.2) ∈ b.lm) ∧ SymE b.lm b.rad.nbf P.get) :
    ∃ K, (absmMax b.lm >>= fun mabs => buckets b mabs thr P >>= fun bk =>
        order.foldlM (exBody b c mabs bk P) (Mat.zero (nDummy b.lm b.rad.nbf) (nDummy b.lm b.rad.nbf)) >>= fun K => mirrorK b K) = .ok K ∧
      K.rows = b.lm.length * b.rad.nbf ∧ K.cols = b.lm.length * b.rad.nbf ∧ ∀ j < b.lm.length * b.rad.nbf, ∀ k < b.lm.length * b.rad.nbf, K.get j k =
        -∑ i ∈ range (b.lm.length * b.rad.nbf), ∑ l ∈ range (b.lm.length * b.rad.nbf), neumann b.Rhalf nL (radialOf ne first last Pm Qm W)
          (orbital b.lm b.rad.nbf i) (orbital b.lm b.rad.nbf j) (orbital b.lm b.rad.nbf k) (orbital b.lm b.rad.nbf l) * screened b.rad.nbf thr P.get i l := by
  classical
  obtain ⟨mabs, m1, m2, m3⟩ := absmMax_spec b.lm h.ne
  obtain ⟨bk, b1, _, b3⟩ := buckets_ok m3 thr P p1 p2 (pairs b.lm.length) (List.replicate (4 * mabs + 1).toNat []) [] (fun p hp => (mem_pairs _ _).1 hp) (by simp)
    (fun k hk => by rw [List.getElem?_replicate, if_pos hk]; rfl)
  obtain ⟨skip, hskip⟩ : ∃ skip : Nat → Nat → Prop, skip = fun j k => b.absmSym = true ∧ (mOf b j < 0 ∨ mOf b k < 0) := ⟨_, rfl⟩
  obtain ⟨K, k1, k2, k3, k4⟩ := foldlM_acc (b.lm.length * b.rad.nbf) (b.lm.length * b.rad.nbf) (exBody b c mabs bk P)
    (fun jk x y => at_ (jk.1 * b.rad.nbf) b.rad.nbf (jk.2 * b.rad.nbf) b.rad.nbf (fun a d => if skip jk.1 jk.2 then 0 else blockOut b ne first last Pm Qm W thr P jk.1 jk.2 a d) x y) order
    (Mat.zero (nDummy b.lm b.rad.nbf) (nDummy b.lm b.rad.nbf)) rfl rfl (by
      intro jk hjk K k1 k2
      obtain ⟨hj, hk⟩ := (mem_pairs _ _).1 (ho.mem_iff.1 hjk)
      by_cases hab : skip jk.1 jk.2
      · refine ⟨K, ?_, k1, k2, ?_⟩
        · unfold exBody
          rw [(readAt_lm hj).1, Res.ok_bind, (readAt_lm hk).1, Res.ok_bind, if_pos (by rw [hskip] at hab; exact hab)]
        · intro x y
          unfold at_
          simp [if_pos hab]
      · obtain ⟨K', r1, r2, r3, r4⟩ := exBody_ok h hR hs m3 thr P p1 p2 (by simpa using b3) jk.1 jk.2 hj hk (by rw [hskip] at hab; exact hab) K k1 k2
        refine ⟨K', r1, r2, r3, ?_⟩
        intro x y
        rw [r4]
        simp only [if_neg hab])
  have hval : ∀ x < b.lm.length, ∀ y < b.lm.length, ∀ a < b.rad.nbf, ∀ d < b.rad.nbf, K.get (x * b.rad.nbf + a) (y * b.rad.nbf + d) =
      if skip x y then 0 else blockOut b ne first last Pm Qm W thr P x y a d := by
    intro x hx y hy a ha d hd
    have f1 := block_fits (nrad := b.rad.nbf) hx
    have f2 := block_fits (nrad := b.rad.nbf) hy
    rw [k4, (ho.map _).sum_eq]
    unfold pairs
    rw [sum_flatMap_pairs]
    simp only [List.map_map, Function.comp_def, sum_map_range]
    rw [at_grid b.lm.length b.rad.nbf (fun x y a d => if skip x y then 0 else blockOut b ne first last Pm Qm W thr P x y a d) _ _ (by omega) (by omega)]
    rw [div_at ha, div_at hd, Nat.mul_add_mod', Nat.mul_add_mod', Nat.mod_eq_of_lt ha, Nat.mod_eq_of_lt hd]
    exact zero_add _
  -- the matrix after mirroring
  have hfin : ∃ K', mirrorK b K = .ok K' ∧ K'.rows = b.lm.length * b.rad.nbf ∧ K'.cols = b.lm.length * b.rad.nbf ∧
      ∀ x < b.lm.length, ∀ y < b.lm.length, ∀ a < b.rad.nbf, ∀ d < b.rad.nbf, K'.get (x * b.rad.nbf + a) (y * b.rad.nbf + d) = blockOut b ne first last Pm Qm W thr P x y a d := by
    unfold mirrorK
    by_cases hab : b.absmSym = true
    · rw [if_pos hab]
      obtain ⟨hnd, hcl, hE⟩ := hsym hab
      obtain ⟨K', r1, r2, r3, r4⟩ := mirrorRows_ok hcl (fun x y a d => if skip x y then 0 else blockOut b ne first last Pm Qm W thr P x y a d) (List.range b.lm.length) K (fun _ _ => False)
        (fun j hj => List.mem_range.1 hj) ⟨k2, k3, fun x hx y hy a ha d hd => ⟨fun _ => hval x hx y hy a ha d hd, fun _ hF => hF.elim⟩⟩
      refine ⟨K', r1, r2, r3, ?_⟩
      intro x hx y hy a ha d hd
      obtain ⟨v1, v2⟩ := r4 x hx y hy a ha d hd
      by_cases hneg : mOf b x < 0 ∧ mOf b y < 0
      · obtain ⟨mx1, mx2⟩ := mir_spec hcl hx
        obtain ⟨my1, my2⟩ := mir_spec hcl hy
        rw [v2 hneg (Or.inr ⟨List.mem_range.2 hx, hy⟩)]
        beta_reduce
        rw [if_neg, blockOut_flip h nL hnL hnd hcl thr P hE x y hx hy]
        rw [hskip]
        unfold mOf at hneg ⊢
        beta_reduce
        rw [mx2, my2]; simp only; omega
      · rw [v1 hneg]
        beta_reduce
        by_cases hs' : skip x y
        · rw [if_pos hs', blockOut_mixed h nL hnL thr P hE x y hx hy]
          rw [hskip] at hs'
          have := hs'.2
          omega
        · rw [if_neg hs']
    · rw [if_neg hab]
      refine ⟨K, rfl, k2, k3, ?_⟩
      intro x hx y hy a ha d hd
      rw [hval x hx y hy a ha d hd, if_neg]
      rw [hskip]
      exact fun h' => hab h'.1
  obtain ⟨K', r1, r2, r3, r4⟩ := hfin
  refine ⟨K', ?_, r2, r3, ?_⟩
  · rw [m1, Res.ok_bind]
    unfold buckets
    rw [b1, Res.ok_bind, k1, Res.ok_bind, r1]
  · intro j hj k hk
    have hn : 0 < b.rad.nbf := Nat.pos_of_ne_zero (by intro h0; rw [h0] at hj; simp at hj)
    have hj' : j / b.rad.nbf < b.lm.length := (Nat.div_lt_iff_lt_mul hn).2 hj
    have hk' : k / b.rad.nbf < b.lm.length := (Nat.div_lt_iff_lt_mul hn).2 hk
    have ej : j / b.rad.nbf * b.rad.nbf + j % b.rad.nbf = j := by have := Nat.div_add_mod j b.rad.nbf; rw [Nat.mul_comm] at this; exact this
    have ek : k / b.rad.nbf * b.rad.nbf + k % b.rad.nbf = k := by have := Nat.div_add_mod k b.rad.nbf; rw [Nat.mul_comm] at this; exact this
    have := r4 _ hj' _ hk' _ (Nat.mod_lt j hn) _ (Nat.mod_lt k hn)
    rw [ej, ek] at this
    rw [this, blockOut_eq h nL hnL thr P _ _ hj' hk']
    rfl

end DiaJK
end HelFEM
