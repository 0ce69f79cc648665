import Verif.Model.AtomicJK
import Verif.Spec.AtomicJK
import Verif.Spec.Gaunt
import Verif.Props.Gaunt
import Verif.Props.CoulombExchange
import Verif.Props.CholTwin
import Verif.Lemmas.SymBlocks
import Verif.Lemmas.Lists

/-! Lemmas on the atomic Coulomb and exchange matrices. -/

namespace HelFEM
namespace AtomJK
open Finset Spec TwoE Sym

/-! ### maxima -/

theorem foldl_max (l : List Int) : ∀ x : Int, x ≤ l.foldl max x ∧ (∀ y ∈ l, y ≤ l.foldl max x) ∧ (l.foldl max x = x ∨ l.foldl max x ∈ l) := by
  induction l with
  | nil => intro x; simp
  | cons z l ih =>
    intro x
    obtain ⟨h1, h2, h3⟩ := ih (max x z)
    rw [List.foldl_cons]
    refine ⟨by omega, ?_, ?_⟩
    · intro y hy
      rcases List.mem_cons.1 hy with rfl | hy
      · omega
      · exact h2 y hy
    · rcases h3 with h3 | h3
      · rw [h3]
        rcases max_choice x z with h | h
        · left; exact h
        · right; rw [h]; simp
      · right; simp [h3]

theorem foldl_min (l : List Int) : ∀ x : Int, l.foldl min x ≤ x ∧ (∀ y ∈ l, l.foldl min x ≤ y) ∧ (l.foldl min x = x ∨ l.foldl min x ∈ l) := by
  induction l with
  | nil => intro x; simp
  | cons z l ih =>
    intro x
    obtain ⟨h1, h2, h3⟩ := ih (min x z)
    rw [List.foldl_cons]
    refine ⟨by omega, ?_, ?_⟩
    · intro y hy
      rcases List.mem_cons.1 hy with rfl | hy
      · omega
      · exact h2 y hy
    · rcases h3 with h3 | h3
      · rw [h3]
        rcases min_choice x z with h | h
        · left; exact h
        · right; rw [h]; simp
      · right; simp [h3]

theorem maxOf_spec (l : List Int) (h : l ≠ []) : ∃ x, maxOf l = .ok x ∧ x ∈ l ∧ ∀ y ∈ l, y ≤ x := by
  cases l with
  | nil => exact absurd rfl h
  | cons z l =>
    obtain ⟨h1, h2, h3⟩ := foldl_max l z
    refine ⟨_, rfl, ?_, ?_⟩
    · rcases h3 with h3 | h3
      · rw [h3]; simp
      · simp [h3]
    · intro y hy
      rcases List.mem_cons.1 hy with rfl | hy
      · exact h1
      · exact h2 y hy

theorem minOf_spec (l : List Int) (h : l ≠ []) : ∃ x, minOf l = .ok x ∧ x ∈ l ∧ ∀ y ∈ l, x ≤ y := by
  cases l with
  | nil => exact absurd rfl h
  | cons z l =>
    obtain ⟨h1, h2, h3⟩ := foldl_min l z
    refine ⟨_, rfl, ?_, ?_⟩
    · rcases h3 with h3 | h3
      · rw [h3]; simp
      · simp [h3]
    · intro y hy
      rcases List.mem_cons.1 hy with rfl | hy
      · exact h1
      · exact h2 y hy

/-- the angular functions of a basis: at least one, all with `|m| ≤ l ≤ lmax`, and `lmax` occurs -/
structure Angular (lm : List (Int × Int)) (lmax : Nat) : Prop where
  ne : lm ≠ []
  valid : ∀ a ∈ lm, |a.2| ≤ a.1 ∧ a.1 ≤ lmax
  attained : ∃ a ∈ lm, a.1 = lmax

theorem Angular.max_l {lm : List (Int × Int)} {lmax : Nat} (h : Angular lm lmax) : maxOf (lm.map Prod.fst) = .ok (lmax : Int) := by
  obtain ⟨x, h1, h2, h3⟩ := maxOf_spec (lm.map Prod.fst) (by simp [h.ne])
  rw [h1]
  obtain ⟨a, ha, ha'⟩ := h.attained
  obtain ⟨b, hb, hb'⟩ := List.mem_map.1 h2
  have e1 := h3 a.1 (List.mem_map.2 ⟨a, ha, rfl⟩)
  have e2 := (h.valid b hb).2
  congr 1; omega

theorem Angular.num {lm : List (Int × Int)} {lmax : Nat} (h : Angular lm lmax) : numL lm = .ok (2 * lmax + 1) := by
  unfold numL
  rw [h.max_l]
  simp only [Res.ok_bind, Res.pure_eq]
  congr 1

/-- what the table of Gaunt coefficients returns -/
def Looks (T : Gaunt.Table ℝ) (G : Nat → Int → Nat → Int → Nat → Int → ℝ) (lm : List (Int × Int)) (lmax : Nat) : Prop :=
  ∀ a ∈ lm, ∀ b ∈ lm, ∀ L M : Int, 0 ≤ L → L ≤ 2 * lmax →
    T.coeff a.1 a.2 L M b.1 = .ok ((if a.2 % 2 = 0 then 1 else -1) * G a.1.toNat (-a.2) L.toNat M b.1.toNat (a.2 - M))

theorem gauntTable_looks {G : Nat → Int → Nat → Int → Nat → Int → ℝ} (hG : Gaunt.Symmetric G) {lm : List (Int × Int)} {lmax : Nat} (h : Angular lm lmax)
    (sched : List Nat) (hs : sched.Perm (List.range (2 * lmax + 1))) : ∃ T, gauntTable G lm sched = .ok T ∧ Looks T G lm lmax := by
  obtain ⟨m, h1, h2, h3⟩ := maxOf_spec (lm.map Prod.snd) (by simp [h.ne])
  obtain ⟨b, hb, hb'⟩ := List.mem_map.1 h2
  have hm : m ≤ lmax := by
    have := h.valid b hb
    have := abs_le.1 this.1
    omega
  have e1 : (max (lmax : Int) m).toNat = lmax := by omega
  have e2 : (2 * max (lmax : Int) m).toNat = 2 * lmax := by omega
  obtain ⟨T, t1, t2⟩ := Gaunt.C25_lookup hG lmax (2 * lmax) lmax (-1) sched (by rw [show max (max lmax (2 * lmax)) lmax = 2 * lmax by omega]; exact hs)
  refine ⟨T, ?_, ?_⟩
  · unfold gauntTable
    rw [h.max_l, h1]
    simp only [Res.ok_bind]
    rw [e1, e2]; exact t1
  · intro a ha b hb L M hL hL'
    obtain ⟨a1, a2⟩ := h.valid a ha
    obtain ⟨b1, b2⟩ := h.valid b hb
    have := abs_nonneg a.2
    have := abs_nonneg b.2
    rw [t2]
    simp only
    rw [if_pos ⟨⟨by omega, by omega⟩, ⟨by omega, by push_cast; omega⟩, by omega, by omega⟩, if_neg]
    · rfl
    · rw [if_pos (by omega)]
      rintro ⟨_, q2, q3⟩
      push_cast at q3
      omega

/-! ### selection rules -/

/-- the magnetic quantum numbers must add up -/
def Selection (G : Nat → Int → Nat → Int → Nat → Int → ℝ) : Prop := ∀ l1 m1 l2 m2 l3 m3, m1 + m2 + m3 ≠ 0 → G l1 m1 l2 m2 l3 m3 = 0

variable {G : Nat → Int → Nat → Int → Nat → Int → ℝ}

theorem sphere_sel (hS : Selection G) (a b : Int × Int) (L : Nat) (M : Int) (h : M ≠ a.2 - b.2) : sphere G a L M b = 0 := by
  unfold sphere
  rw [hS _ _ _ _ _ _ (by omega), mul_zero]

theorem sphere_zero (hG : Gaunt.Symmetric G) (hS : Selection G) (a b : Int × Int) (ha : 0 ≤ a.1) (hb : 0 ≤ b.1) (L : Nat) (M : Int)
    (h : (L : Int) < |a.1 - b.1| ∨ a.1 + b.1 < L ∨ (L : Int) < |M|) : sphere G a L M b = 0 := by
  by_cases hm : -a.2 + M + b.2 = 0
  · unfold sphere
    have : G a.1.toNat (-a.2) L M b.1.toNat b.2 = 0 := by
      rcases h with h | h | h
      · rcases lt_or_ge b.1 a.1 with h' | h'
        · rw [abs_of_pos (by omega)] at h
          exact hG.triangle _ _ _ _ _ _ (by omega)
        · rw [abs_of_nonpos (by omega)] at h
          rw [hG.swap23 _ _ _ _ _ _ hm, hG.swap12 _ _ _ _ _ _ (by omega)]
          exact hG.triangle _ _ _ _ _ _ (by omega)
      · rw [hG.swap12 _ _ _ _ _ _ hm]
        exact hG.triangle _ _ _ _ _ _ (by omega)
      · exact hG.range _ _ _ _ _ _ (Or.inr (Or.inl h))
    rw [this, mul_zero]
  · exact sphere_sel hS a b L M (by omega)

theorem sum_single_M (L : Nat) (M0 : Int) (f : Int → ℝ) (h : ∀ M, M ≠ M0 → f M = 0) (h0 : (L : Int) < |M0| → f M0 = 0) :
    ∑ M ∈ Icc (-(L : Int)) L, f M = f M0 := by
  by_cases hm : M0 ∈ Icc (-(L : Int)) L
  · rw [sum_eq_single_of_mem M0 hm (fun M _ hM => h M hM)]
  · rw [h0 (by
      rw [Finset.mem_Icc, ← abs_le] at hm; omega)]
    apply sum_eq_zero
    intro M hM
    apply h
    rintro rfl; exact hm hM

/-- a sum over the visited multipoles is the sum over all -/
theorem sum_couples (lo hi : Int) (nl : Nat) (hlo : 0 ≤ lo) (hhi : hi < nl) (f : Nat → ℝ) (h : ∀ L < nl, ((L : Int) < lo ∨ hi < L) → f L = 0) :
    ((intRange lo hi).map fun L => f L.toNat).sum = ∑ L ∈ range nl, f L := by
  have e : ((intRange lo hi).map fun L => f L.toNat).sum = ∑ L ∈ (intRange lo hi).toFinset, f L.toNat := by
    rw [List.sum_toFinset _ (nodup_intRange lo hi)]
  rw [e]
  symm
  refine (sum_subset_zero_on_sdiff (s₁ := (intRange lo hi).toFinset.image Int.toNat) ?_ ?_ (fun _ _ => rfl)).symm.trans ?_
  · intro L hL
    obtain ⟨x, hx, rfl⟩ := Finset.mem_image.1 hL
    have := (mem_intRange lo hi x).1 (List.mem_toFinset.1 hx)
    rw [Finset.mem_range]; omega
  · intro L hL
    obtain ⟨h1, h2⟩ := mem_sdiff.1 hL
    apply h L (Finset.mem_range.1 h1)
    by_contra hc
    apply h2
    exact Finset.mem_image.2 ⟨L, List.mem_toFinset.2 ((mem_intRange lo hi L).2 (by omega)), by simp⟩
  · rw [sum_image]
    intro x hx y hy hxy
    have := (mem_intRange lo hi x).1 (List.mem_toFinset.1 hx)
    have := (mem_intRange lo hi y).1 (List.mem_toFinset.1 hy)
    omega

/-! ### matrices per `(L, M)` -/

/-- `A` holds `nrad × nrad` matrices with entries `F L M a b` in the slots with `L < nl`, `|M| ≤ min L Mmax` -/
def Is (nl : Nat) (Mmax : Int) (nrad : Nat) (A : Aux) (F : Nat → Int → Nat → Nat → ℝ) : Prop :=
  ∀ L < nl, ∀ M : Int, |M| ≤ min (L : Int) Mmax → ∃ X, A L M = some X ∧ X.rows = nrad ∧ X.cols = nrad ∧ ∀ a < nrad, ∀ b < nrad, X.get a b = F L M a b

theorem auxZero_is (nl : Nat) (Mmax : Int) (nrad : Nat) : Is nl Mmax nrad (auxZero nl Mmax nrad) (fun _ _ _ _ => 0) := by
  intro L hL M hM
  exact ⟨Mat.zero nrad nrad, if_pos ⟨hL, hM⟩, rfl, rfl, fun _ _ _ _ => rfl⟩

theorem auxAdd_is {nl : Nat} {Mmax : Int} {nrad : Nat} {A : Aux} {F : Nat → Int → Nat → Nat → ℝ} (h : Is nl Mmax nrad A F) (L : Nat) (hL : L < nl) (M : Int)
    (hM : |M| ≤ min (L : Int) Mmax) (B : Mat ℝ) (b1 : B.rows = nrad) (b2 : B.cols = nrad) :
    ∃ A', auxAdd A L M B = .ok A' ∧ Is nl Mmax nrad A' (fun L' M' a b => F L' M' a b + if L' = L ∧ M' = M then B.get a b else 0) := by
  obtain ⟨X, x1, x2, x3, x4⟩ := h L hL M hM
  have e1 : auxGet A L M = .ok X := by unfold auxGet; rw [x1]
  have e2 : X.add B = .ok ⟨X.rows, X.cols, fun i j => X.get i j + B.get i j⟩ := if_pos ⟨by omega, by omega⟩
  refine ⟨_, by unfold auxAdd; rw [e1, Res.ok_bind, e2, Res.ok_bind]; rfl, ?_⟩
  intro L' hL' M' hM'
  by_cases hc : L' = L ∧ M' = M
  · refine ⟨_, if_pos hc, x2, x3, ?_⟩
    intro a ha b hb
    obtain ⟨rfl, rfl⟩ := hc
    simp only [x4 a ha b hb, and_self, if_true]
  · obtain ⟨Y, y1, y2, y3, y4⟩ := h L' hL' M' hM'
    refine ⟨Y, by simp only [if_neg hc]; exact y1, y2, y3, ?_⟩
    intro a ha b hb
    beta_reduce
    rw [if_neg hc, y4 a ha b hb, add_zero]

theorem foldlM_is {nl : Nat} {Mmax : Int} {nrad : Nat} {ι : Type _} (body : Aux → ι → Res Aux) (c : ι → Nat → Int → Nat → Nat → ℝ) :
    ∀ (l : List ι) (A : Aux) (F : Nat → Int → Nat → Nat → ℝ), Is nl Mmax nrad A F →
      (∀ e ∈ l, ∀ (A : Aux) (F : Nat → Int → Nat → Nat → ℝ), Is nl Mmax nrad A F →
        ∃ A', body A e = .ok A' ∧ Is nl Mmax nrad A' (fun L M a b => F L M a b + c e L M a b)) →
      ∃ A', l.foldlM body A = .ok A' ∧ Is nl Mmax nrad A' (fun L M a b => F L M a b + (l.map fun e => c e L M a b).sum) := by
  intro l
  induction l with
  | nil => intro A F h _; exact ⟨A, rfl, by simpa using h⟩
  | cons e l ih =>
    intro A F h hb
    obtain ⟨A1, a1, a2⟩ := hb e (by simp) A F h
    obtain ⟨A2, b1, b2⟩ := ih A1 _ a2 (fun e' he' => hb e' (by simp [he']))
    refine ⟨A2, by rw [List.foldlM_cons, a1]; exact b1, ?_⟩
    simpa [add_assoc] using b2

theorem Is.congr {nl : Nat} {Mmax : Int} {nrad : Nat} {A : Aux} {F F' : Nat → Int → Nat → Nat → ℝ} (h : Is nl Mmax nrad A F)
    (he : ∀ L < nl, ∀ M : Int, |M| ≤ min (L : Int) Mmax → ∀ a < nrad, ∀ b < nrad, F L M a b = F' L M a b) : Is nl Mmax nrad A F' := by
  intro L hL M hM
  obtain ⟨X, x1, x2, x3, x4⟩ := h L hL M hM
  exact ⟨X, x1, x2, x3, fun a ha b hb => by rw [x4 a ha b hb, he L hL M hM a ha b hb]⟩

theorem readAt_lm {lm : List (Int × Int)} {k : Nat} (h : k < lm.length) : readAt lm k = .ok (lm.getD k (0, 0)) ∧ lm.getD k (0, 0) ∈ lm := by
  unfold readAt
  rw [List.getElem?_eq_getElem h, List.getD_eq_getElem?_getD, List.getElem?_eq_getElem h]
  exact ⟨rfl, List.getElem_mem h⟩

/-- `Mmax` bounds all differences of `m` -/
def Spread (lm : List (Int × Int)) (Mmax : Int) : Prop := ∀ a ∈ lm, ∀ b ∈ lm, |a.2 - b.2| ≤ Mmax

theorem sum_flatMap_pairs {α β : Type _} (l : List α) (g : α → List β) (f : β → ℝ) : ((l.flatMap g).map f).sum = (l.map fun x => ((g x).map f).sum).sum := by
  induction l with
  | nil => simp
  | cons x l ih => simp [List.flatMap_cons, ih]

theorem block_fits {n nrad k : Nat} (h : k < n) : k * nrad + nrad ≤ n * nrad := by
  calc k * nrad + nrad = (k + 1) * nrad := by ring
    _ ≤ n * nrad := Nat.mul_le_mul_right _ h

variable {lm : List (Int × Int)} {lmax nrad : Nat} {Mmax : Int} {T : Gaunt.Table ℝ}

theorem contractKet_ok (hG : Gaunt.Symmetric G) (hS : Selection G) (hA : Angular lm lmax) (hT : Looks T G lm lmax) (hM : Spread lm Mmax)
    (P : Mat ℝ) (p1 : P.rows = lm.length * nrad) (p2 : P.cols = lm.length * nrad) :
    ∃ A, contractKet T lm nrad P (auxZero (2 * lmax + 1) Mmax nrad) = .ok A ∧ Is (2 * lmax + 1) Mmax nrad A (fun L M a b =>
      ∑ k ∈ range lm.length, ∑ l ∈ range lm.length, sphere G (lm.getD k (0, 0)) L M (lm.getD l (0, 0)) * P.get (k * nrad + a) (l * nrad + b)) := by
  obtain ⟨A, a1, a2⟩ := foldlM_is (nl := 2 * lmax + 1) (Mmax := Mmax) (nrad := nrad)
    (fun A k => (readAt lm k).bind fun a => (List.range lm.length).foldlM (fun A l => (readAt lm l).bind fun b => (couples a b).foldlM (ketStep T nrad P k l a b) A) A)
    (fun k L M a b => ∑ l ∈ range lm.length, sphere G (lm.getD k (0, 0)) L M (lm.getD l (0, 0)) * P.get (k * nrad + a) (l * nrad + b))
    (List.range lm.length) _ _ (auxZero_is (2 * lmax + 1) Mmax nrad) (by
      intro k hk A F hF
      obtain ⟨k1, k2⟩ := readAt_lm (List.mem_range.1 hk)
      have hk := List.mem_range.1 hk
      generalize hkk : lm.getD k (0, 0) = ka at *
      obtain ⟨A', b1, b2⟩ := foldlM_is (nl := 2 * lmax + 1) (Mmax := Mmax) (nrad := nrad)
        (fun A l => (readAt lm l).bind fun b => (couples ka b).foldlM (ketStep T nrad P k l ka b) A)
        (fun l L M a b => sphere G ka L M (lm.getD l (0, 0)) * P.get (k * nrad + a) (l * nrad + b))
        (List.range lm.length) A F hF (by
          intro l hl A F hF
          obtain ⟨l1, l2⟩ := readAt_lm (List.mem_range.1 hl)
          have hl := List.mem_range.1 hl
          generalize hll : lm.getD l (0, 0) = la at *
          obtain ⟨v1, v2⟩ := hA.valid ka k2
          obtain ⟨w1, w2⟩ := hA.valid la l2
          have := abs_nonneg ka.2
          have := abs_nonneg la.2
          have hsp := hM ka k2 la l2
          obtain ⟨A', c1, c2⟩ := foldlM_is (nl := 2 * lmax + 1) (Mmax := Mmax) (nrad := nrad) (ketStep T nrad P k l ka la)
            (fun L' L M a b => if L = L'.toNat ∧ M = ka.2 - la.2 then sphere G ka L'.toNat (ka.2 - la.2) la * P.get (k * nrad + a) (l * nrad + b) else 0)
            (couples ka la) A F hF (by
              intro L hL A F hF
              have hL := (mem_intRange _ _ _).1 hL
              have := abs_nonneg (ka.1 - la.1)
              obtain ⟨A', d1, d2⟩ := auxAdd_is hF L.toNat (by omega) (ka.2 - la.2) (by omega)
                (Mat.smul (sphere G ka L.toNat (ka.2 - la.2) la) ⟨nrad, nrad, fun a b => P.get (k * nrad + a) (l * nrad + b)⟩) rfl rfl
              refine ⟨A', ?_, d2⟩
              unfold ketStep
              rw [hT ka k2 la l2 L (ka.2 - la.2) (by omega) (by omega), Res.ok_bind,
                show P.block (k * nrad) (l * nrad) nrad nrad = .ok ⟨nrad, nrad, fun a b => P.get (k * nrad + a) (l * nrad + b)⟩ from
                  if_pos ⟨by rw [p1]; exact block_fits hk, by rw [p2]; exact block_fits hl⟩, Res.ok_bind]
              rw [show ka.2 - (ka.2 - la.2) = la.2 by omega]
              exact d1)
          refine ⟨A', by rw [l1]; exact c1, c2.congr ?_⟩
          intro L hL M hM' a _ b _
          congr 1
          unfold couples
          rw [sum_couples (max |ka.1 - la.1| |ka.2 - la.2|) (ka.1 + la.1) (2 * lmax + 1) (by have := abs_nonneg (ka.1 - la.1); omega) (by push_cast; omega)
            (fun L' => if L = L' ∧ M = ka.2 - la.2 then sphere G ka L' (ka.2 - la.2) la * P.get (k * nrad + a) (l * nrad + b) else 0)]
          · by_cases hMe : M = ka.2 - la.2
            · subst hMe
              simp only [and_true]
              rw [sum_ite_eq (range (2 * lmax + 1)) L, if_pos (Finset.mem_range.2 hL)]
            · rw [sphere_sel hS ka la L M hMe, zero_mul]
              apply sum_eq_zero; intro L' _
              rw [if_neg (by tauto)]
          · intro L' hL' hout
            rw [sphere_zero hG hS ka la (by omega) (by omega) L' (ka.2 - la.2) (by omega), zero_mul, ite_self])
      refine ⟨A', by rw [k1]; exact b1, b2.congr ?_⟩
      intro L hL M hM' a _ b _
      rw [sum_map_range])
  refine ⟨A, a1, a2.congr ?_⟩
  intro L hL M hM' a _ b _
  rw [sum_map_range, zero_add]

/-- the radial Coulomb assembly computes the contraction with `radial L` -/
def RadJ (radJ : Nat → Mat ℝ → Res (Mat ℝ)) (nl nrad : Nat) (radial : Nat → Nat → Nat → Nat → Nat → ℝ) : Prop :=
  ∀ L < nl, ∀ P : Mat ℝ, P.rows = nrad → P.cols = nrad → ∃ J, radJ L P = .ok J ∧ J.rows = nrad ∧ J.cols = nrad ∧
    ∀ a < nrad, ∀ b < nrad, J.get a b = Spec.coulomb nrad (radial L) P.get a b

/-- the radial exchange assembly computes the contraction with `radial L` -/
def RadK (radK : Nat → Mat ℝ → Res (Mat ℝ)) (nl nrad : Nat) (radial : Nat → Nat → Nat → Nat → Nat → ℝ) : Prop :=
  ∀ L < nl, ∀ P : Mat ℝ, P.rows = nrad → P.cols = nrad → ∃ J, radK L P = .ok J ∧ J.rows = nrad ∧ J.cols = nrad ∧
    ∀ a < nrad, ∀ b < nrad, J.get a b = Spec.exchange nrad (radial L) P.get a b

theorem coulomb_congr (N : Nat) (four : Nat → Nat → Nat → Nat → ℝ) (P Q : Nat → Nat → ℝ) (h : ∀ a < N, ∀ b < N, P a b = Q a b) (i j : Nat) :
    Spec.coulomb N four P i j = Spec.coulomb N four Q i j := by
  unfold Spec.coulomb
  apply sum_congr rfl; intro k hk
  apply sum_congr rfl; intro l hl
  rw [h k (Finset.mem_range.1 hk) l (Finset.mem_range.1 hl)]

theorem exchange_congr (N : Nat) (four : Nat → Nat → Nat → Nat → ℝ) (P Q : Nat → Nat → ℝ) (h : ∀ a < N, ∀ b < N, P a b = Q a b) (i j : Nat) :
    Spec.exchange N four P i j = Spec.exchange N four Q i j := by
  unfold Spec.exchange
  apply sum_congr rfl; intro k hk
  apply sum_congr rfl; intro l hl
  rw [h k (Finset.mem_range.1 hk) l (Finset.mem_range.1 hl)]

theorem contractInts_ok {radJ : Nat → Mat ℝ → Res (Mat ℝ)} {nl : Nat} {radial : Nat → Nat → Nat → Nat → Nat → ℝ} (hJ : RadJ radJ nl nrad radial)
    {Paux : Aux} {F : Nat → Int → Nat → Nat → ℝ} (hP : Is nl Mmax nrad Paux F) :
    ∃ A, contractInts radJ nl Mmax Paux (auxZero nl Mmax nrad) = .ok A ∧ Is nl Mmax nrad A (fun L M a b =>
      bareFac L * Spec.coulomb nrad (radial L) (F L M) a b) := by
  obtain ⟨A, a1, a2⟩ := foldlM_is (nl := nl) (Mmax := Mmax) (nrad := nrad) (intStep radJ Paux)
    (fun e L M a b => if L = e.1 ∧ M = e.2 then bareFac L * Spec.coulomb nrad (radial L) (F L M) a b else 0)
    ((List.range nl).flatMap fun (L : Nat) => (intRange (-(min (L : Int) Mmax)) (min (L : Int) Mmax)).map fun M => (L, M))
    _ _ (auxZero_is nl Mmax nrad) (by
      intro e he A F' hF'
      obtain ⟨L, hL, he⟩ := List.mem_flatMap.1 he
      obtain ⟨M, hM, rfl⟩ := List.mem_map.1 he
      have hL := List.mem_range.1 hL
      have hM : |M| ≤ min (L : Int) Mmax := abs_le.2 ((mem_intRange _ _ _).1 hM)
      obtain ⟨X, x1, x2, x3, x4⟩ := hP L hL M hM
      obtain ⟨J, j1, j2, j3, j4⟩ := hJ L hL X x2 x3
      obtain ⟨A', d1, d2⟩ := auxAdd_is hF' L hL M hM (Mat.smul (bareFac L) J) j2 j3
      refine ⟨A', ?_, d2.congr ?_⟩
      · unfold intStep
        rw [show auxGet Paux L M = .ok X by unfold auxGet; rw [x1], Res.ok_bind, j1, Res.ok_bind]
        exact d1
      · intro L' hL' M' hM' a ha b hb
        by_cases hc : L' = L ∧ M' = M
        · obtain ⟨rfl, rfl⟩ := hc
          rw [if_pos ⟨rfl, rfl⟩, if_pos ⟨rfl, rfl⟩]
          simp only [Mat.smul]
          rw [j4 a ha b hb, coulomb_congr nrad (radial L') _ _ x4]
        · rw [if_neg hc, if_neg hc])
  refine ⟨A, a1, a2.congr ?_⟩
  intro L hL M hM a _ b _
  rw [sum_flatMap_pairs, zero_add]
  simp only [List.map_map, Function.comp_def]
  rw [sum_map_range]
  rw [sum_eq_single_of_mem L (Finset.mem_range.2 hL)]
  · simp only [true_and]
    rw [← List.sum_toFinset _ (nodup_intRange _ _), sum_ite_eq, if_pos (List.mem_toFinset.2 ((mem_intRange _ _ _).2 (abs_le.1 hM)))]
  · intro L' _ hne
    apply List.sum_eq_zero
    intro x hx
    obtain ⟨M', _, rfl⟩ := List.mem_map.1 hx
    rw [if_neg (by rintro ⟨h, _⟩; exact hne h.symm)]

/-- blocks of a matrix numbered by angular functions -/
theorem at_grid (n nrad : Nat) (B : Nat → Nat → Nat → Nat → ℝ) (i j : Nat) (hi : i < n * nrad) (hj : j < n * nrad) :
    ∑ x ∈ range n, ∑ y ∈ range n, at_ (x * nrad) nrad (y * nrad) nrad (B x y) i j = B (i / nrad) (j / nrad) (i % nrad) (j % nrad) := by
  have hn : 0 < nrad := Nat.pos_of_ne_zero (by rintro rfl; simp at hi)
  have key : ∀ i x : Nat, (x * nrad ≤ i ∧ i < x * nrad + nrad) ↔ x = i / nrad := by
    intro i x
    have e := Nat.div_add_mod i nrad
    have m := Nat.mod_lt i hn
    constructor
    · rintro ⟨h1, h2⟩
      have h1' : x ≤ i / nrad := (Nat.le_div_iff_mul_le hn).2 h1
      have h2' : i / nrad < x + 1 := (Nat.div_lt_iff_lt_mul hn).2 (by rw [Nat.add_mul, one_mul]; exact h2)
      omega
    · rintro rfl
      rw [Nat.mul_comm] at e
      omega
  have hdi : i / nrad < n := (Nat.div_lt_iff_lt_mul hn).2 hi
  have hdj : j / nrad < n := (Nat.div_lt_iff_lt_mul hn).2 hj
  have sub : ∀ i : Nat, i - i / nrad * nrad = i % nrad := by
    intro i
    have e := Nat.div_add_mod i nrad
    rw [Nat.mul_comm] at e
    omega
  rw [sum_eq_single_of_mem (i / nrad) (Finset.mem_range.2 hdi), sum_eq_single_of_mem (j / nrad) (Finset.mem_range.2 hdj)]
  · unfold at_
    rw [if_pos ⟨(key i _).2 rfl, (key j _).2 rfl⟩, sub, sub]
  · intro y _ hy
    unfold at_
    rw [if_neg]
    rintro ⟨_, h⟩; exact hy ((key j y).1 h)
  · intro x _ hx
    apply sum_eq_zero; intro y _
    unfold at_
    rw [if_neg]
    rintro ⟨h, _⟩; exact hx ((key i x).1 h)

theorem at_list {ι : Type _} (l : List ι) (fi ni fj nj : Nat) (B : ι → Nat → Nat → ℝ) (i j : Nat) :
    (l.map fun e => at_ fi ni fj nj (B e) i j).sum = at_ fi ni fj nj (fun a b => (l.map fun e => B e a b).sum) i j := by
  unfold at_
  split_ifs
  · rfl
  · simp

theorem expandBra_ok (hG : Gaunt.Symmetric G) (hS : Selection G) (hA : Angular lm lmax) (hT : Looks T G lm lmax) (hM : Spread lm Mmax)
    {Jaux : Aux} {F : Nat → Int → Nat → Nat → ℝ} (hJ : Is (2 * lmax + 1) Mmax nrad Jaux F) :
    ∃ J, expandBra T lm nrad Jaux = .ok J ∧ J.rows = lm.length * nrad ∧ J.cols = lm.length * nrad ∧ ∀ i < lm.length * nrad, ∀ j < lm.length * nrad,
      J.get i j = ∑ L ∈ range (2 * lmax + 1), sphere G (lm.getD (j / nrad) (0, 0)) L ((lm.getD (j / nrad) (0, 0)).2 - (lm.getD (i / nrad) (0, 0)).2) (lm.getD (i / nrad) (0, 0)) *
        F L ((lm.getD (j / nrad) (0, 0)).2 - (lm.getD (i / nrad) (0, 0)).2) (i % nrad) (j % nrad) := by
  obtain ⟨J, a1, a2, a3, a4⟩ := foldlM_acc (lm.length * nrad) (lm.length * nrad)
    (fun J i => (readAt lm i).bind fun a => (List.range lm.length).foldlM (fun J j => (readAt lm j).bind fun b => (couples b a).foldlM (braStep T nrad Jaux i j a b) J) J)
    (fun x i j => ∑ y ∈ range lm.length, at_ (x * nrad) nrad (y * nrad) nrad (fun a b => ∑ L ∈ range (2 * lmax + 1),
      sphere G (lm.getD y (0, 0)) L ((lm.getD y (0, 0)).2 - (lm.getD x (0, 0)).2) (lm.getD x (0, 0)) * F L ((lm.getD y (0, 0)).2 - (lm.getD x (0, 0)).2) a b) i j)
    (List.range lm.length) (Mat.zero (lm.length * nrad) (lm.length * nrad)) rfl rfl (by
      intro x hx J j1 j2
      have hx := List.mem_range.1 hx
      obtain ⟨x1, x2⟩ := readAt_lm hx
      generalize lm.getD x (0, 0) = xa at *
      obtain ⟨J', b1, b2, b3, b4⟩ := foldlM_acc (lm.length * nrad) (lm.length * nrad)
        (fun J j => (readAt lm j).bind fun b => (couples b xa).foldlM (braStep T nrad Jaux x j xa b) J)
        (fun y i j => at_ (x * nrad) nrad (y * nrad) nrad (fun a b => ∑ L ∈ range (2 * lmax + 1),
          sphere G (lm.getD y (0, 0)) L ((lm.getD y (0, 0)).2 - xa.2) xa * F L ((lm.getD y (0, 0)).2 - xa.2) a b) i j)
        (List.range lm.length) J j1 j2 (by
          intro y hy J j1 j2
          have hy := List.mem_range.1 hy
          obtain ⟨y1, y2⟩ := readAt_lm hy
          generalize lm.getD y (0, 0) = ya at *
          obtain ⟨v1, v2⟩ := hA.valid xa x2
          obtain ⟨w1, w2⟩ := hA.valid ya y2
          have := abs_nonneg xa.2
          have := abs_nonneg ya.2
          have hsp := hM ya y2 xa x2
          obtain ⟨J', c1, c2, c3, c4⟩ := foldlM_acc (lm.length * nrad) (lm.length * nrad) (braStep T nrad Jaux x y xa ya)
            (fun L i j => at_ (x * nrad) nrad (y * nrad) nrad (fun a b => sphere G ya L.toNat (ya.2 - xa.2) xa * F L.toNat (ya.2 - xa.2) a b) i j)
            (couples ya xa) J j1 j2 (by
              intro L hL J j1 j2
              have hL := (mem_intRange _ _ _).1 hL
              have := abs_nonneg (ya.1 - xa.1)
              have hco : T.coeff ya.1 ya.2 L (ya.2 - xa.2) xa.1 = .ok (sphere G ya L.toNat (ya.2 - xa.2) xa) := by
                rw [hT ya y2 xa x2 L (ya.2 - xa.2) (by omega) (by omega), show ya.2 - (ya.2 - xa.2) = xa.2 by omega]
                rfl
              unfold braStep
              rw [hco, Res.ok_bind]
              unfold braAdd
              by_cases hz : sphere G ya L.toNat (ya.2 - xa.2) xa = 0
              · rw [if_neg (by simpa using hz)]
                refine ⟨J, rfl, j1, j2, ?_⟩
                intro i j
                unfold at_
                simp [hz]
              · rw [if_pos hz]
                obtain ⟨X, z1, z2, z3, z4⟩ := hJ L.toNat (by omega) (ya.2 - xa.2) (by omega)
                obtain ⟨J', d1, d2, d3, d4⟩ := addBlock_ok J (lm.length * nrad) j1 j2 (x * nrad) (y * nrad) nrad nrad
                  (Mat.smul (sphere G ya L.toNat (ya.2 - xa.2) xa) X) z2 z3 (block_fits hx) (block_fits hy)
                refine ⟨J', ?_, d2, d3, ?_⟩
                · rw [show auxGet Jaux L.toNat (ya.2 - xa.2) = .ok X by unfold auxGet; rw [z1], Res.ok_bind]
                  exact d1
                · intro i j
                  rw [d4]
                  congr 1
                  apply at_congr
                  intro a ha b hb
                  simp only [Mat.smul]
                  rw [z4 a ha b hb])
          refine ⟨J', by rw [y1]; exact c1, c2, c3, ?_⟩
          intro i j
          rw [c4, at_list]
          congr 1
          apply at_congr
          intro a _ b _
          unfold couples
          rw [sum_couples (max |ya.1 - xa.1| |ya.2 - xa.2|) (ya.1 + xa.1) (2 * lmax + 1) (by have := abs_nonneg (ya.1 - xa.1); omega) (by push_cast; omega)
            (fun L => sphere G ya L (ya.2 - xa.2) xa * F L (ya.2 - xa.2) a b)]
          intro L' hL' hout
          rw [sphere_zero hG hS ya xa (by omega) (by omega) L' (ya.2 - xa.2) (by omega), zero_mul])
      refine ⟨J', by rw [x1]; exact b1, b2, b3, ?_⟩
      intro i j
      rw [b4, sum_map_range])
  refine ⟨J, a1, a2, a3, ?_⟩
  intro i hi j hj
  rw [a4, sum_map_range, at_grid lm.length nrad (fun x y a b => ∑ L ∈ range (2 * lmax + 1),
      sphere G (lm.getD y (0, 0)) L ((lm.getD y (0, 0)).2 - (lm.getD x (0, 0)).2) (lm.getD x (0, 0)) * F L ((lm.getD y (0, 0)).2 - (lm.getD x (0, 0)).2) a b) i j hi hj]
  simp [Mat.zero]

/-- sums over basis functions -/
theorem sum_orbitals (n nrad : Nat) (f : Nat → ℝ) : ∑ i ∈ range (n * nrad), f i = ∑ x ∈ range n, ∑ a ∈ range nrad, f (x * nrad + a) := by
  have := sum_flat nrad n (fun c d => f (d * nrad + c))
  rw [← this, Nat.mul_comm]
  apply sum_congr rfl
  intro k _
  congr 1
  have e := Nat.div_add_mod k nrad
  rw [Nat.mul_comm] at e
  omega

theorem orbital_at (lm : List (Int × Int)) (nrad x a : Nat) (ha : a < nrad) : orbital lm nrad (x * nrad + a) = (lm.getD x (0, 0), a) := by
  unfold orbital
  rw [Nat.mul_comm, Nat.mul_add_div (by omega), Nat.div_eq_of_lt ha, Nat.mul_add_mod, Nat.mod_eq_of_lt ha, add_zero]

theorem coulombWith_ok (hG : Gaunt.Symmetric G) (hS : Selection G) (hA : Angular lm lmax) (hT : Looks T G lm lmax)
    {radJ : Nat → Mat ℝ → Res (Mat ℝ)} {radial : Nat → Nat → Nat → Nat → Nat → ℝ} (hJ : RadJ radJ (2 * lmax + 1) nrad radial)
    (P : Mat ℝ) (p1 : P.rows = lm.length * nrad) (p2 : P.cols = lm.length * nrad) :
    ∃ J, coulombWith T lm nrad radJ P = .ok J ∧ J.rows = lm.length * nrad ∧ J.cols = lm.length * nrad ∧
      ∀ i < lm.length * nrad, ∀ j < lm.length * nrad, J.get i j = Spec.coulomb (lm.length * nrad)
        (fun i j k l => eri G bareFac (2 * lmax + 1) radial (orbital lm nrad i) (orbital lm nrad j) (orbital lm nrad k) (orbital lm nrad l)) P.get i j := by
  obtain ⟨mx, m1, _, m2⟩ := maxOf_spec (lm.map Prod.snd) (by simp [hA.ne])
  obtain ⟨mn, n1, _, n2⟩ := minOf_spec (lm.map Prod.snd) (by simp [hA.ne])
  have hM : Spread lm (mx - mn) := by
    intro a ha b hb
    have := m2 a.2 (List.mem_map.2 ⟨a, ha, rfl⟩)
    have := m2 b.2 (List.mem_map.2 ⟨b, hb, rfl⟩)
    have := n2 a.2 (List.mem_map.2 ⟨a, ha, rfl⟩)
    have := n2 b.2 (List.mem_map.2 ⟨b, hb, rfl⟩)
    rw [abs_le]; omega
  obtain ⟨A, a1, a2⟩ := contractKet_ok hG hS hA hT hM P p1 p2
  obtain ⟨B, b1, b2⟩ := contractInts_ok hJ a2
  obtain ⟨J, j1, j2, j3, j4⟩ := expandBra_ok hG hS hA hT hM b2
  refine ⟨J, ?_, j2, j3, ?_⟩
  · unfold coulombWith
    rw [m1, n1, hA.num]
    simp only [Res.ok_bind]
    rw [a1, Res.ok_bind, b1, Res.ok_bind, j1]
  · intro i hi j hj
    rw [j4 i hi j hj]
    have hn : 0 < nrad := Nat.pos_of_ne_zero (by rintro rfl; simp at hi)
    have hi' : i / nrad < lm.length := (Nat.div_lt_iff_lt_mul hn).2 hi
    have hj' : j / nrad < lm.length := (Nat.div_lt_iff_lt_mul hn).2 hj
    have hia := (readAt_lm hi').2
    have hja := (readAt_lm hj').2
    have vi := hA.valid _ hia
    have vj := hA.valid _ hja
    have := abs_nonneg (lm.getD (i / nrad) (0, 0)).2
    have := abs_nonneg (lm.getD (j / nrad) (0, 0)).2
    unfold Spec.coulomb
    rw [sum_orbitals]
    have e : ∀ k ∈ range lm.length, ∑ a ∈ range nrad, ∑ l ∈ range (lm.length * nrad),
        eri G bareFac (2 * lmax + 1) radial (orbital lm nrad i) (orbital lm nrad j) (orbital lm nrad (k * nrad + a)) (orbital lm nrad l) * P.get (k * nrad + a) l =
        ∑ a ∈ range nrad, ∑ l ∈ range lm.length, ∑ b ∈ range nrad, ∑ L ∈ range (2 * lmax + 1), bareFac L *
          (sphere G (lm.getD (j / nrad) (0, 0)) L ((lm.getD (j / nrad) (0, 0)).2 - (lm.getD (i / nrad) (0, 0)).2) (lm.getD (i / nrad) (0, 0)) *
           sphere G (lm.getD k (0, 0)) L ((lm.getD (j / nrad) (0, 0)).2 - (lm.getD (i / nrad) (0, 0)).2) (lm.getD l (0, 0))) *
            radial L (i % nrad) (j % nrad) a b * P.get (k * nrad + a) (l * nrad + b) := by
      intro k _
      apply sum_congr rfl; intro a ha
      rw [sum_orbitals]
      apply sum_congr rfl; intro l _
      apply sum_congr rfl; intro b hb
      rw [orbital_at lm nrad k a (Finset.mem_range.1 ha), orbital_at lm nrad l b (Finset.mem_range.1 hb)]
      unfold eri orbital
      rw [sum_mul]
      apply sum_congr rfl; intro L _
      simp only
      rw [sum_single_M L ((lm.getD (j / nrad) (0, 0)).2 - (lm.getD (i / nrad) (0, 0)).2)]
      · intro M hM'
        rw [sphere_sel hS _ _ L M hM', zero_mul, mul_zero, zero_mul]
      · intro hL
        rw [sphere_zero hG hS _ _ (by omega) (by omega) L _ (Or.inr (Or.inr hL)), zero_mul, mul_zero, zero_mul]
    rw [sum_congr rfl e]
    -- reorder
    have s1 : ∀ k ∈ range lm.length, (∑ a ∈ range nrad, ∑ l ∈ range lm.length, ∑ b ∈ range nrad, ∑ L ∈ range (2 * lmax + 1), bareFac L *
          (sphere G (lm.getD (j / nrad) (0, 0)) L ((lm.getD (j / nrad) (0, 0)).2 - (lm.getD (i / nrad) (0, 0)).2) (lm.getD (i / nrad) (0, 0)) *
           sphere G (lm.getD k (0, 0)) L ((lm.getD (j / nrad) (0, 0)).2 - (lm.getD (i / nrad) (0, 0)).2) (lm.getD l (0, 0))) *
            radial L (i % nrad) (j % nrad) a b * P.get (k * nrad + a) (l * nrad + b)) =
        ∑ L ∈ range (2 * lmax + 1), ∑ a ∈ range nrad, ∑ b ∈ range nrad, ∑ l ∈ range lm.length, bareFac L *
          (sphere G (lm.getD (j / nrad) (0, 0)) L ((lm.getD (j / nrad) (0, 0)).2 - (lm.getD (i / nrad) (0, 0)).2) (lm.getD (i / nrad) (0, 0)) *
           sphere G (lm.getD k (0, 0)) L ((lm.getD (j / nrad) (0, 0)).2 - (lm.getD (i / nrad) (0, 0)).2) (lm.getD l (0, 0))) *
            radial L (i % nrad) (j % nrad) a b * P.get (k * nrad + a) (l * nrad + b) := by
      intro k _
      have : ∀ a ∈ range nrad, (∑ l ∈ range lm.length, ∑ b ∈ range nrad, ∑ L ∈ range (2 * lmax + 1), bareFac L *
          (sphere G (lm.getD (j / nrad) (0, 0)) L ((lm.getD (j / nrad) (0, 0)).2 - (lm.getD (i / nrad) (0, 0)).2) (lm.getD (i / nrad) (0, 0)) *
           sphere G (lm.getD k (0, 0)) L ((lm.getD (j / nrad) (0, 0)).2 - (lm.getD (i / nrad) (0, 0)).2) (lm.getD l (0, 0))) *
            radial L (i % nrad) (j % nrad) a b * P.get (k * nrad + a) (l * nrad + b)) = 
          ∑ L ∈ range (2 * lmax + 1), ∑ b ∈ range nrad, ∑ l ∈ range lm.length, bareFac L *
          (sphere G (lm.getD (j / nrad) (0, 0)) L ((lm.getD (j / nrad) (0, 0)).2 - (lm.getD (i / nrad) (0, 0)).2) (lm.getD (i / nrad) (0, 0)) *
           sphere G (lm.getD k (0, 0)) L ((lm.getD (j / nrad) (0, 0)).2 - (lm.getD (i / nrad) (0, 0)).2) (lm.getD l (0, 0))) *
            radial L (i % nrad) (j % nrad) a b * P.get (k * nrad + a) (l * nrad + b) := by
        intro a _
        rw [sum_comm]
        rw [sum_comm (s := range (2 * lmax + 1))]
        apply sum_congr rfl; intro b _
        rw [sum_comm]
      rw [sum_congr rfl this, sum_comm]
    rw [sum_congr rfl s1, sum_comm]
    apply sum_congr rfl; intro L _
    symm
    rw [sum_comm, mul_sum, mul_sum]
    apply sum_congr rfl; intro a _
    rw [sum_comm, mul_sum, mul_sum]
    apply sum_congr rfl; intro b _
    rw [mul_sum, mul_sum, mul_sum]
    apply sum_congr rfl; intro k _
    rw [mul_sum, mul_sum, mul_sum]
    apply sum_congr rfl; intro l _
    ring

end AtomJK
end HelFEM
