import Verif.Spec.SadSCF
import Verif.Lemmas.SadGrid
import Verif.Props.SadatomJK

/-!
# Runs of the Fock builder of the spherically averaged atom
-/

namespace HelFEM
namespace SadSCF

open Matrix Finset XC AtomJK

theorem fold_range {β : Type _} (f : β → Nat → Res β) (I : Nat → β → Prop) (n : Nat) (h : ∀ k < n, ∀ b, I k b → ∃ b', f b k = .ok b' ∧ I (k + 1) b') (b0 : β) (h0 : I 0 b0) :
    ∃ b, (List.range n).foldlM f b0 = .ok b ∧ I n b := by
  induction n with
  | zero => exact ⟨b0, rfl, h0⟩
  | succ n ih =>
    obtain ⟨b, e, hb⟩ := ih fun k hk => h k (by omega)
    obtain ⟨b', e', hb'⟩ := h n (by omega) b hb
    refine ⟨b', ?_, hb'⟩
    rw [List.range_succ, List.foldlM_append, e]
    show (Res.ok b >>= fun b => [n].foldlM f b) = _
    rw [Res.ok_bind, List.foldlM_cons, e']
    rfl

theorem toMat_get {n m : Nat} (A : Matrix (Fin n) (Fin m) ℝ) (i : Fin n) (j : Fin m) : (toMat A).get i j = A i j := by
  simp [toMat]

theorem fromMat_ok {n m : Nat} {A : Mat ℝ} (h1 : A.rows = n) (h2 : A.cols = m) {B : Matrix (Fin n) (Fin m) ℝ} (h : ∀ (i : Fin n) (j : Fin m), A.get i j = B i j) :
    fromMat n m A = .ok B := by
  rw [fromMat, if_pos ⟨h1, h2⟩]
  congr 1
  ext i j
  exact h i j

theorem four_pi : (4.0 * Real.pi : ℝ) = 4 * Real.pi := by norm_num

theorem angfac_ne : angfac ≠ 0 := by
  unfold angfac
  have := Real.pi_pos
  positivity

/-! ### densities -/

section dens
variable (s : Setup)

theorem shellDensity_eq (o : Dens.Orbs s.M) : shellDensity s o = Spec.density s.X o := by
  simp only [shellDensity, Spec.density, Spec.orthDensity, transpose_mul, Matrix.mul_assoc]

theorem density_zero {N M : Nat} (X : Matrix (Fin N) (Fin M) ℝ) (o : Dens.Orbs M) (h : ∀ i, |o.occ i| = 0) : Spec.density X o = 0 := by
  have : diagonal o.occ = 0 := by
    rw [show o.occ = 0 from funext fun i => abs_eq_zero.1 (h i)]
    simp
  simp [Spec.density, Spec.orthDensity, this]

theorem orthDensity_symm {M : Nat} (o : Dens.Orbs M) : (Spec.orthDensity o)ᵀ = Spec.orthDensity o := by
  simp [Spec.orthDensity, transpose_mul, Matrix.mul_assoc]

theorem density_symm {N M : Nat} (X : Matrix (Fin N) (Fin M) ℝ) (o : Dens.Orbs M) : (Spec.density X o)ᵀ = Spec.density X o := by
  simp [Spec.density, transpose_mul, Matrix.mul_assoc, orthDensity_symm]

theorem density_psd {N M : Nat} (X : Matrix (Fin N) (Fin M) ℝ) (o : Dens.Orbs M) (h : ∀ i, 0 ≤ o.occ i) (v : Fin N → ℝ) :
    0 ≤ ∑ i, ∑ j, Spec.density X o i j * (v i * v j) := by
  have e : ∀ i j, Spec.density X o i j = ∑ k, o.occ k * ((X * o.C) i k * (X * o.C) j k) := by
    intro i j
    have : Spec.density X o = (X * o.C) * diagonal o.occ * (X * o.C)ᵀ := by
      simp only [Spec.density, Spec.orthDensity, transpose_mul, Matrix.mul_assoc]
    rw [this, mul_apply]
    apply sum_congr rfl; intro k _
    rw [mul_diagonal, transpose_apply]
    ring
  have e2 : ∑ i, ∑ j, Spec.density X o i j * (v i * v j) = ∑ k, o.occ k * (∑ i, (X * o.C) i k * v i) ^ 2 := by
    simp only [e, sum_mul, pow_two, mul_sum]
    rw [show (∑ i : Fin N, ∑ j : Fin N, ∑ k, o.occ k * ((X * o.C) i k * (X * o.C) j k) * (v i * v j)) =
      ∑ i : Fin N, ∑ k, ∑ j : Fin N, o.occ k * ((X * o.C) i k * (X * o.C) j k) * (v i * v j) from sum_congr rfl fun i _ => sum_comm]
    rw [sum_comm]
    apply sum_congr rfl; intro k _
    rw [sum_comm]
    apply sum_congr rfl; intro i _
    apply sum_congr rfl; intro j _
    ring
  rw [e2]
  exact sum_nonneg fun k _ => mul_nonneg (h k) (sq_nonneg _)

/-- what a channel holds when the shells below `n` have been accumulated -/
def Holds (D : Nat → Matrix (Fin s.N) (Fin s.N) ℝ) (n : Nat) (a : Chan s.N) : Prop :=
  a.P = ∑ l ∈ range n, D l ∧ ∀ l, a.Pl l = if l < n then D l else 0

theorem holds_empty (D : Nat → Matrix (Fin s.N) (Fin s.N) ℝ) : Holds s D 0 (Chan.empty s.N) := ⟨by simp [Chan.empty], fun l => by simp [Chan.empty]⟩

/-- the kinetic energy of a shell -/
noncomputable def kin (l : Nat) (D : Matrix (Fin s.N) (Fin s.N) ℝ) : ℝ := (D * s.T).trace + (l * (l + 1) : ℝ) * (D * s.Tl).trace

theorem accDensity_ok {D : Nat → Matrix (Fin s.N) (Fin s.N) ℝ} {n : Nat} {a : Chan s.N} (h : Holds s D n a) (E : ℝ) (o : Dens.Orbs s.M) (hp : o.p ≠ 0) (ho : D n = Spec.density s.X o) :
    ∃ a', accDensity s a E n o = .ok (a', E + kin s n (D n)) ∧ Holds s D (n + 1) a' := by
  unfold accDensity
  rw [if_neg hp]
  by_cases hz : ∀ i, |o.occ i| = 0
  · have h0 : D n = 0 := by rw [ho, density_zero _ _ hz]
    refine ⟨a, by rw [if_pos hz, h0]; simp [kin], ?_, ?_⟩
    · rw [sum_range_succ, h0, add_zero]; exact h.1
    · intro l
      rw [h.2 l]
      rcases lt_trichotomy l n with hl | rfl | hl
      · rw [if_pos hl, if_pos (by omega)]
      · rw [if_neg (by omega), if_pos (by omega), h0]
      · rw [if_neg (by omega), if_neg (by omega)]
  · rw [if_neg hz]
    refine ⟨⟨a.P + D n, Function.update a.Pl n (D n)⟩, ?_, ?_, ?_⟩
    · simp only [shellDensity_eq, ← ho]
      congr 2
      unfold kin
      rcases Nat.eq_zero_or_pos n with rfl | hn
      · simp
      · rw [if_pos hn]; ring
    · simp only
      rw [h.1, sum_range_succ]
    · intro l
      simp only [Function.update_apply, h.2]
      rcases lt_trichotomy l n with hl | rfl | hl
      · rw [if_neg (by omega), if_pos hl, if_pos (by omega)]
      · rw [if_pos rfl, if_pos (by omega)]
      · rw [if_neg (by omega), if_neg (by omega), if_neg (by omega)]

theorem gatherR_ok (dm : List (Dens.Orbs s.M)) (o : Nat → Dens.Orbs s.M) (hdm : ∀ l < s.nblock, readAt dm l = .ok (o l)) (hp : ∀ l < s.nblock, (o l).p ≠ 0) :
    ∃ a, gatherR s dm = .ok (a, ∑ l ∈ range s.nblock, kin s l (Spec.density s.X (o l))) ∧ Holds s (fun l => Spec.density s.X (o l)) s.nblock a := by
  obtain ⟨b, e, h1, h2⟩ := fold_range (fun (st : Chan s.N × ℝ) l => readAt dm l >>= accDensity s st.1 st.2 l)
    (fun n st => Holds s (fun l => Spec.density s.X (o l)) n st.1 ∧ st.2 = ∑ l ∈ range n, kin s l (Spec.density s.X (o l))) s.nblock (by
      rintro k hk b ⟨h1, h2⟩
      obtain ⟨a', e, h⟩ := accDensity_ok s h1 b.2 (o k) (hp k hk) rfl
      exact ⟨_, by rw [hdm k hk, Res.ok_bind, e], h, by rw [sum_range_succ, h2]⟩) (Chan.empty s.N, 0) ⟨holds_empty s _, by simp⟩
  refine ⟨b.1, ?_, h1⟩
  unfold gatherR
  rw [e, ← h2]

theorem gatherU_ok (dm : List (Dens.Orbs s.M)) (oa ob : Nat → Dens.Orbs s.M) (ha : ∀ l < s.nblock, readAt dm l = .ok (oa l)) (hb : ∀ l < s.nblock, readAt dm (s.nblock + l) = .ok (ob l))
    (hpa : ∀ l < s.nblock, (oa l).p ≠ 0) (hpb : ∀ l < s.nblock, (ob l).p ≠ 0) :
    ∃ a b, gatherU s dm = .ok ((a, b), ∑ l ∈ range s.nblock, kin s l (Spec.density s.X (oa l) + Spec.density s.X (ob l))) ∧ Holds s (fun l => Spec.density s.X (oa l)) s.nblock a ∧
      Holds s (fun l => Spec.density s.X (ob l)) s.nblock b := by
  obtain ⟨b, e, h1, h2, h3⟩ := fold_range (stepU s dm)
    (fun n st => Holds s (fun l => Spec.density s.X (oa l)) n st.1.1 ∧ Holds s (fun l => Spec.density s.X (ob l)) n st.1.2 ∧
      st.2 = ∑ l ∈ range n, kin s l (Spec.density s.X (oa l) + Spec.density s.X (ob l))) s.nblock (by
      rintro k hk b ⟨h1, h2, h3⟩
      obtain ⟨a', e, h⟩ := accDensity_ok s h1 b.2 (oa k) (hpa k hk) rfl
      obtain ⟨b', e', h'⟩ := accDensity_ok s h2 (b.2 + kin s k (Spec.density s.X (oa k))) (ob k) (hpb k hk) rfl
      refine ⟨((a', b'), b.2 + kin s k (Spec.density s.X (oa k)) + kin s k (Spec.density s.X (ob k))), ?_, h, h', ?_⟩
      · unfold stepU
        rw [ha k hk, Res.ok_bind, e, Res.ok_bind, hb k hk, Res.ok_bind, e', Res.ok_bind]
      · rw [sum_range_succ, h3]
        simp only [kin, Matrix.add_mul, trace_add]
        ring) ((Chan.empty s.N, Chan.empty s.N), 0) ⟨holds_empty s _, holds_empty s _, by simp⟩
  refine ⟨b.1.1, b.1.2, ?_, h1, h2⟩
  unfold gatherU
  rw [e, ← h3]

end dens

/-! ### Coulomb and exchange -/

section two
variable {s : Setup} {c : Caches} {k : Spec.Kernels} (hk : Spec.Represents s c k)

/-- `∑ (ab|cd) P_cd` -/
def jMat {N : Nat} (q : Nat → Nat → Nat → Nat → ℝ) (P : Matrix (Fin N) (Fin N) ℝ) : Matrix (Fin N) (Fin N) ℝ := fun a b => ∑ c : Fin N, ∑ d : Fin N, q a b c d * P c d

/-- `∑ (l'c la|lb l'd) P^l'_cd` -/
def kMat {N : Nat} (lmax : Nat) (κ : Nat → Nat → Nat → Nat → Nat → Nat → ℝ) (P : Nat → Matrix (Fin N) (Fin N) ℝ) (l : Nat) : Matrix (Fin N) (Fin N) ℝ :=
  fun a b => ∑ l' ∈ range (lmax + 1), ∑ c : Fin N, ∑ d : Fin N, κ l l' a b c d * P l' c d

/-- both kernels with their fractions -/
noncomputable def mixed (s : Setup) (k : Spec.Kernels) : Nat → Nat → Nat → Nat → Nat → Nat → ℝ := fun l l' a b c d => s.kfrac * k.full l l' a b c d + s.kshort * k.short l l' a b c d

include hk in
theorem coulombJ_ok (P : Matrix (Fin s.N) (Fin s.N) ℝ) : coulombJ s c P = .ok (jMat k.q P) := by
  obtain ⟨J, e, h1, h2, h3⟩ := hk.coulomb (toMat ((1 / angfac) • P)) rfl rfl
  unfold coulombJ
  rw [e, Res.ok_bind]
  refine fromMat_ok h1 h2 fun i j => ?_
  rw [h3 i i.2 j j.2, Finset.sum_range, mul_sum]
  unfold jMat
  apply sum_congr rfl; intro a _
  rw [Finset.sum_range, mul_sum]
  apply sum_congr rfl; intro b _
  rw [toMat_get, Matrix.smul_apply, smul_eq_mul]
  have := angfac_ne
  rw [angfac, four_pi] at *
  field_simp

theorem addK_ok (κ : ℝ) (run : Res (List (Mat ℝ))) (A B : Nat → Matrix (Fin s.N) (Fin s.N) ℝ)
    (h : κ ≠ 0 → ∃ K, run = .ok K ∧ ∀ l < s.nblock, ∃ X, K[l]? = some X ∧ X.rows = s.N ∧ X.cols = s.N ∧ ∀ i j : Fin s.N, X.get i j = B l i j) :
    addK s κ run ((List.range s.nblock).map A) = .ok ((List.range s.nblock).map fun l => A l + κ • B l) := by
  unfold addK
  by_cases hz : κ ≠ 0
  · rw [if_pos hz]
    obtain ⟨K, e, h⟩ := h hz
    rw [e, Res.ok_bind]
    refine Res.mapM_ok _ _ _ fun l hl => ?_
    have hl := List.mem_range.1 hl
    obtain ⟨X, x1, x2, x3, x4⟩ := h l hl
    rw [show readAt ((List.range s.nblock).map A) l = .ok (A l) by unfold readAt; rw [List.getElem?_map, List.getElem?_range hl]; rfl, Res.ok_bind,
      show readAt K l = .ok X by unfold readAt; rw [x1], Res.ok_bind, fromMat_ok x2 x3 x4, Res.ok_bind]
  · rw [if_neg hz]
    have hz := not_ne_iff.1 hz
    simp [hz]

theorem exchange_term {run : List Nat → List Nat → List (Mat ℝ) → Res (List (Mat ℝ))} {κ : Nat → Nat → Nat → Nat → Nat → Nat → ℝ} (h : Spec.ExchangeIs s run κ) (sched order : List Nat)
    (hs : sched.Perm (List.range (2 * s.lmax + 1))) (ho : order.Perm (List.range (s.lmax + 1))) (w : ℝ) (hw : w ≠ 0) (D Pl : Nat → Matrix (Fin s.N) (Fin s.N) ℝ)
    (hP : ∀ l < s.nblock, Pl l = D l) :
    ∃ K, run sched order ((List.range s.nblock).map fun (l : Nat) => toMat ((1 / (w * (2 * l + 1)) : ℝ) • Pl l)) = .ok K ∧
      ∀ l < s.nblock, ∃ X, K[l]? = some X ∧ X.rows = s.N ∧ X.cols = s.N ∧ ∀ i j : Fin s.N, X.get i j = (-(1 / w) • kMat s.lmax κ D l) i j := by
  obtain ⟨K, e, _, h⟩ := h sched hs order ho ((List.range s.nblock).map fun (l : Nat) => toMat ((1 / (w * (2 * l + 1)) : ℝ) • Pl l)) (by simp [Setup.nblock]) (by
    intro M hM
    obtain ⟨l, _, rfl⟩ := List.mem_map.1 hM
    exact ⟨rfl, rfl⟩)
  refine ⟨K, e, fun l hl => ?_⟩
  obtain ⟨X, x1, x2, x3, x4⟩ := h l (by unfold Setup.nblock at hl; omega)
  refine ⟨X, x1, x2, x3, fun i j => ?_⟩
  rw [x4 i i.2 j j.2, Matrix.smul_apply, smul_eq_mul, neg_mul]
  congr 1
  unfold kMat
  rw [mul_sum]
  apply sum_congr rfl; intro l' hl'
  have hl' := Finset.mem_range.1 hl'
  rw [Finset.sum_range, mul_sum]
  apply sum_congr rfl; intro a _
  rw [Finset.sum_range, mul_sum]
  apply sum_congr rfl; intro b _
  have hget : ((List.range s.nblock).map fun (l : Nat) => toMat ((1 / (w * (2 * l + 1)) : ℝ) • Pl l)).getD l' (Mat.zero 0 0) = toMat ((1 / (w * (2 * l' + 1)) : ℝ) • Pl l') := by
    rw [List.getD_eq_getElem?_getD, List.getElem?_map, List.getElem?_range (by unfold Setup.nblock; omega)]
    rfl
  rw [hget, toMat_get, Matrix.smul_apply, smul_eq_mul, hP l' (by unfold Setup.nblock; omega)]
  have : (2 * (l' : ℝ) + 1) ≠ 0 := by positivity
  field_simp

include hk in
theorem exchangeK_ok (sch : Sched) (hsch : Spec.Complete s sch) (w : ℝ) (hw : w ≠ 0) (D Pl : Nat → Matrix (Fin s.N) (Fin s.N) ℝ) (hP : ∀ l < s.nblock, Pl l = D l) :
    exchangeK s c sch w Pl = .ok ((List.range s.nblock).map fun l => -(1 / w) • kMat s.lmax (mixed s k) D l) := by
  unfold exchangeK
  have e1 := exchange_term hk.full sch.gaunt sch.lout hsch.gaunt hsch.lout w hw D Pl hP
  have h0 : (List.replicate s.nblock (0 : Matrix (Fin s.N) (Fin s.N) ℝ)) = (List.range s.nblock).map fun _ => 0 := by
    rw [List.map_const', List.length_range]
  simp only
  rw [h0, addK_ok s.kfrac _ (fun _ => 0) (fun l => -(1 / w) • kMat s.lmax k.full D l) (fun _ => e1), Res.ok_bind,
    addK_ok s.kshort _ _ (fun l => -(1 / w) • kMat s.lmax k.short D l) (fun hz => exchange_term (hk.short hz) sch.gaunt' sch.lout' hsch.gaunt' hsch.lout' w hw D Pl hP)]
  congr 1
  apply List.map_congr_left
  intro l _
  ext a b
  simp only [kMat, mixed, zero_add, Matrix.add_apply, Matrix.smul_apply, smul_eq_mul, add_mul, sum_add_distrib, mul_add, mul_sum]
  congr 1 <;> · apply sum_congr rfl; intro l' _; apply sum_congr rfl; intro x _; apply sum_congr rfl; intro y _; ring

theorem exchangeE_ok (K Pl : Nat → Matrix (Fin s.N) (Fin s.N) ℝ) (E : ℝ) :
    exchangeE s ((List.range s.nblock).map K) Pl E = .ok (E + ∑ l ∈ range s.nblock, 1 / 2 * (K l * Pl l).trace) := by
  unfold exchangeE
  obtain ⟨b, e, h⟩ := fold_range (fun (E : ℝ) l => readAt ((List.range s.nblock).map K) l >>= fun A => .ok (E + 0.5 * (A * Pl l).trace))
    (fun n b => b = E + ∑ l ∈ range n, 1 / 2 * (K l * Pl l).trace) s.nblock (by
      intro l hl b hb
      refine ⟨_, by rw [show readAt ((List.range s.nblock).map K) l = .ok (K l) by unfold readAt; rw [List.getElem?_map, List.getElem?_range hl]; rfl, Res.ok_bind], ?_⟩
      rw [hb, sum_range_succ]
      norm_num
      ring) E (by simp)
  rw [e, h]

end two

end SadSCF
end HelFEM
