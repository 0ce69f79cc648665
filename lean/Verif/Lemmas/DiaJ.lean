import Verif.Lemmas.DiaJKRad
import Verif.Props.DiaIndex

/-! The Coulomb matrix of the diatomic basis. -/

namespace HelFEM
namespace DiaJK
open Finset Spec TwoE Sym Dia AtomJK

/-! ### a matrix for each table entry -/

/-- `A` holds for each entry `(L, M)` of the table a matrix with entries `F L M a b` -/
def AIs (tab : List (Int × Int)) (nrad : Nat) (A : List (Mat ℝ)) (F : Int → Int → Nat → Nat → ℝ) : Prop :=
  A.length = tab.length ∧ ∀ (i : Nat) (L M : Int), tab[i]? = some (L, M) → ∃ X : Mat ℝ, A[i]? = some X ∧ X.rows = nrad ∧ X.cols = nrad ∧ ∀ a < nrad, ∀ b < nrad, X.get a b = F L M a b

/-- both terms -/
def AIs2 (tab : List (Int × Int)) (nrad : Nat) (A : List (Mat ℝ) × List (Mat ℝ)) (F : Nat → Int → Int → Nat → Nat → ℝ) : Prop :=
  AIs tab nrad A.1 (F 0) ∧ AIs tab nrad A.2 (F 1)

variable {tab : List (Int × Int)} {nrad : Nat}

theorem AIs.congr {A : List (Mat ℝ)} {F F' : Int → Int → Nat → Nat → ℝ} (h : AIs tab nrad A F)
    (he : ∀ L M, (L, M) ∈ tab → ∀ a < nrad, ∀ b < nrad, F L M a b = F' L M a b) : AIs tab nrad A F' := by
  refine ⟨h.1, ?_⟩
  intro i L M hi
  obtain ⟨X, x1, x2, x3, x4⟩ := h.2 i L M hi
  exact ⟨X, x1, x2, x3, fun a ha b hb => by rw [x4 a ha b hb, he L M (List.mem_of_getElem? hi) a ha b hb]⟩

theorem AIs2.congr {A : List (Mat ℝ) × List (Mat ℝ)} {F F' : Nat → Int → Int → Nat → Nat → ℝ} (h : AIs2 tab nrad A F)
    (he : ∀ α < 2, ∀ L M, (L, M) ∈ tab → ∀ a < nrad, ∀ b < nrad, F α L M a b = F' α L M a b) : AIs2 tab nrad A F' :=
  ⟨h.1.congr (he 0 (by omega)), h.2.congr (he 1 (by omega))⟩

theorem ais_zero (tab : List (Int × Int)) (nrad : Nat) : AIs tab nrad (List.replicate tab.length (Mat.zero nrad nrad)) (fun _ _ _ _ => 0) := by
  refine ⟨by simp, ?_⟩
  intro i L M hi
  obtain ⟨hlt, _⟩ := List.getElem?_eq_some_iff.1 hi
  exact ⟨Mat.zero nrad nrad, by rw [List.getElem?_replicate, if_pos hlt], rfl, rfl, fun _ _ _ _ => rfl⟩

theorem AIs.read {A : List (Mat ℝ)} {F : Int → Int → Nat → Nat → ℝ} (h : AIs tab nrad A F) {i : Nat} {L M : Int} (hi : tab[i]? = some (L, M)) :
    ∃ X, readAt A i = .ok X ∧ X.rows = nrad ∧ X.cols = nrad ∧ ∀ a < nrad, ∀ b < nrad, X.get a b = F L M a b := by
  obtain ⟨X, x1, x2⟩ := h.2 i L M hi
  exact ⟨X, by unfold readAt; rw [x1], x2⟩

theorem AIs.write (hnd : tab.Nodup) {A : List (Mat ℝ)} {F : Int → Int → Nat → Nat → ℝ} (h : AIs tab nrad A F) {i : Nat} {L M : Int} (hi : tab[i]? = some (L, M))
    (Y : Mat ℝ) (y1 : Y.rows = nrad) (y2 : Y.cols = nrad) (c : Nat → Nat → ℝ) (hY : ∀ a < nrad, ∀ b < nrad, Y.get a b = F L M a b + c a b) :
    ∃ A', writeAt A i Y = .ok A' ∧ AIs tab nrad A' (fun L' M' a b => F L' M' a b + if (L', M') = (L, M) then c a b else 0) := by
  obtain ⟨hlt, hget⟩ := List.getElem?_eq_some_iff.1 hi
  refine ⟨A.set i Y, if_pos (by rw [h.1]; exact hlt), by rw [List.length_set, h.1], ?_⟩
  intro k L' M' hk
  by_cases hki : k = i
  · subst hki
    rw [hi] at hk
    cases hk
    refine ⟨Y, by rw [List.getElem?_set_self (by rw [h.1]; exact hlt)], y1, y2, ?_⟩
    intro a ha b hb
    beta_reduce
    rw [if_pos rfl, hY a ha b hb]
  · obtain ⟨X, x1, x2, x3, x4⟩ := h.2 k L' M' hk
    refine ⟨X, by rw [List.getElem?_set_ne (fun h => hki h.symm)]; exact x1, x2, x3, ?_⟩
    intro a ha b hb
    beta_reduce
    rw [if_neg, add_zero, x4 a ha b hb]
    intro he
    rw [he] at hk
    obtain ⟨hk', hkg⟩ := List.getElem?_eq_some_iff.1 hk
    exact hki ((List.Nodup.getElem_inj_iff hnd).1 (hkg.trans hget.symm))

theorem addAt_ok (hnd : tab.Nodup) {A : List (Mat ℝ)} {F : Int → Int → Nat → Nat → ℝ} (h : AIs tab nrad A F) {i : Nat} {L M : Int} (hi : tab[i]? = some (L, M))
    (c : ℝ) (B : Mat ℝ) (b1 : B.rows = nrad) (b2 : B.cols = nrad) :
    ∃ A', addAt A i c B = .ok A' ∧ AIs tab nrad A' (fun L' M' a b => F L' M' a b + if (L', M') = (L, M) then c * B.get a b else 0) := by
  unfold addAt
  by_cases hc : c = 0
  · rw [if_neg (by simpa using hc)]
    refine ⟨A, rfl, h.congr ?_⟩
    intro L' M' _ a _ b _
    simp [hc]
  · rw [if_pos hc]
    obtain ⟨X, x1, x2, x3, x4⟩ := h.read hi
    rw [x1, Res.ok_bind, show X.add (Mat.smul c B) = .ok ⟨X.rows, X.cols, fun a b => X.get a b + (Mat.smul c B).get a b⟩ from if_pos ⟨by rw [x2]; exact b1.symm, by rw [x3]; exact b2.symm⟩,
      Res.ok_bind]
    exact h.write hnd hi ⟨X.rows, X.cols, fun a b => X.get a b + (Mat.smul c B).get a b⟩ x2 x3 (fun a b => c * B.get a b) (fun a ha b hb => by change X.get a b + c * B.get a b = _; rw [x4 a ha b hb])

theorem foldlM_ais2 {ι : Type _} (body : List (Mat ℝ) × List (Mat ℝ) → ι → Res (List (Mat ℝ) × List (Mat ℝ))) (c : ι → Nat → Int → Int → Nat → Nat → ℝ) :
    ∀ (l : List ι) (A : List (Mat ℝ) × List (Mat ℝ)) (F : Nat → Int → Int → Nat → Nat → ℝ), AIs2 tab nrad A F →
      (∀ e ∈ l, ∀ (A : List (Mat ℝ) × List (Mat ℝ)) (F : Nat → Int → Int → Nat → Nat → ℝ), AIs2 tab nrad A F →
        ∃ A', body A e = .ok A' ∧ AIs2 tab nrad A' (fun α L M a b => F α L M a b + c e α L M a b)) →
      ∃ A', l.foldlM body A = .ok A' ∧ AIs2 tab nrad A' (fun α L M a b => F α L M a b + (l.map fun e => c e α L M a b).sum) := by
  intro l
  induction l with
  | nil => intro A F h _; exact ⟨A, rfl, by simpa using h⟩
  | cons e l ih =>
    intro A F h hb
    obtain ⟨A1, a1, a2⟩ := hb e (by simp) A F h
    obtain ⟨A2, b1, b2⟩ := ih A1 _ a2 (fun e' he' => hb e' (by simp [he']))
    refine ⟨A2, by rw [List.foldlM_cons, a1]; exact b1, ?_⟩
    simpa [add_assoc] using b2

theorem sum_ite_mem {ι : Type _} [DecidableEq ι] (l : List ι) (hn : l.Nodup) (x : ι) (f : ι → ℝ) : (l.map fun y => if x = y then f y else 0).sum = if x ∈ l then f x else 0 := by
  rw [← List.sum_toFinset _ hn, sum_ite_eq]
  simp only [List.mem_toFinset]

/-! ### tables -/

theorem Ready.pos {b : Basis} (h : Ready b) (p : Int × Int) (hp : p ∈ b.lm) : 0 ≤ p.1 := le_trans (abs_nonneg _) (h.valid p hp)

theorem Ready.nodupLM {b : Basis} (h : Ready b) : b.mp.LM.Nodup := by
  obtain ⟨t, t1, _, _, t2, _⟩ := C39_tables b.lm
  rw [h.tables] at t1; cases t1
  exact t2.imp fun {p q} hpq he => by rw [he] at hpq; omega

theorem Ready.nodup_lm {b : Basis} (h : Ready b) : b.mp.lm.Nodup := by
  obtain ⟨t, t1, _, _, _, t2, _⟩ := C39_tables b.lm
  rw [h.tables] at t1; cases t1
  exact t2.imp fun {p q} hpq he => by rw [he] at hpq; omega

theorem Ready.memLM {b : Basis} (h : Ready b) (L M : Int) : (L, M) ∈ b.mp.LM ↔ ∃ x ∈ b.lm, ∃ y ∈ b.lm, Couples x y L M := by
  obtain ⟨t, t1, t2, _⟩ := C39_tables b.lm
  rw [h.tables] at t1; cases t1
  exact t2 L M

theorem Ready.mem_lm {b : Basis} (h : Ready b) (L Ma : Int) : (L, Ma) ∈ b.mp.lm ↔ ∃ x ∈ b.lm, ∃ y ∈ b.lm, ∃ M, Couples x y L M ∧ Ma = |M| := by
  obtain ⟨t, t1, _, t2, _⟩ := C39_tables b.lm
  rw [h.tables] at t1; cases t1
  exact t2 L Ma

theorem Ready.index {b : Basis} (h : Ready b) (x y : Int × Int) (hx : x ∈ b.lm) (hy : y ∈ b.lm) (L : Int) (hL : L ∈ coupledL y x (x.2 - y.2)) :
    ∃ k, LMind b.mp.LM L (x.2 - y.2) true = .ok k ∧ b.mp.LM[k]? = some (L, x.2 - y.2) :=
  (C39_lookup b.lm b.mp h.tables L (x.2 - y.2)).1 ⟨y, hy, x, hx, (mem_coupledL y x L).1 hL⟩

theorem Ready.cpl {b : Basis} (h : Ready b) (x y : Int × Int) (hx : x ∈ b.lm) (hy : y ∈ b.lm) (L : Int) (hL : Couples y x L (x.2 - y.2)) :
    b.cpl0 x L (x.2 - y.2) y = .ok (angular 0 x L.toNat (x.2 - y.2) y) ∧ b.cpl2 x L (x.2 - y.2) y = .ok (angular 1 x L.toNat (x.2 - y.2) y) := by
  have := abs_nonneg (x.2 - y.2)
  have e : ((L.toNat : Nat) : Int) = L := by have := hL.2.2.1; omega
  have := h.looks x hx y hy L.toNat (by rw [e]; exact hL)
  rwa [e] at this

/-- outside the visited multipoles the couplings vanish -/
theorem ang_not_coupled (α : Nat) (x y : Int × Int) (hx : 0 ≤ x.1) (hy : 0 ≤ y.1) (L M : Int) (hL : 0 ≤ L) (h : ¬((L, M) ∈ (coupledL y x (x.2 - y.2)).map fun L => (L, x.2 - y.2))) :
    angular α x L.toNat M y = 0 := by
  by_cases hM : M = x.2 - y.2
  · subst hM
    apply ang_zero α x y hx hy
    by_contra hc
    apply h
    apply List.mem_map.2
    refine ⟨L, (mem_coupledL y x L).2 ⟨rfl, by omega, by omega, by omega⟩, rfl⟩
  · exact ang_sel α x y _ M hM

theorem nodup_coupled (x y : Int × Int) (M M' : Int) : ((coupledL y x M).map fun L => (L, M')).Nodup :=
  (nodup_intRange _ _).map (fun a b h => (Prod.mk.inj h).1)

theorem contractKet_ok {b : Basis} (h : Ready b) (P : Mat ℝ) (p1 : P.rows = b.lm.length * b.rad.nbf) (p2 : P.cols = b.lm.length * b.rad.nbf) :
    ∃ A, contractKet b P = .ok A ∧ AIs2 b.mp.LM b.rad.nbf A (fun α L M a c => ∑ k ∈ range b.lm.length, ∑ l ∈ range b.lm.length,
      angular α (b.lm.getD k (0, 0)) L.toNat M (b.lm.getD l (0, 0)) * P.get (k * b.rad.nbf + a) (l * b.rad.nbf + c)) := by
  obtain ⟨nrad, hnr⟩ : ∃ n, n = b.rad.nbf := ⟨_, rfl⟩
  have hpos : ∀ L M, (L, M) ∈ b.mp.LM → 0 ≤ L := by
    intro L M hm
    obtain ⟨x, _, y, _, hc⟩ := (h.memLM L M).1 hm
    have := hc.2.2.1
    have := abs_nonneg M
    omega
  rw [← hnr] at p1 p2 ⊢
  obtain ⟨A, a1, a2⟩ := foldlM_ais2 (tab := b.mp.LM) (nrad := nrad)
    (fun A k => (readAt b.lm k).bind fun x => (List.range b.lm.length).foldlM (fun A l => (readAt b.lm l).bind fun y => (coupledL y x (x.2 - y.2)).foldlM (ketStep b P k l x y) A) A)
    (fun k α L M a c => ∑ l ∈ range b.lm.length, angular α (b.lm.getD k (0, 0)) L.toNat M (b.lm.getD l (0, 0)) * P.get (k * nrad + a) (l * nrad + c))
    (List.range b.lm.length) (auxZero b, auxZero b) (fun _ _ _ _ _ => 0) (by unfold auxZero; rw [← hnr]; exact ⟨ais_zero _ _, ais_zero _ _⟩) (by
      intro k hk A F hF
      have hk := List.mem_range.1 hk
      obtain ⟨k1, k2⟩ := readAt_lm hk
      generalize b.lm.getD k (0, 0) = x at *
      obtain ⟨A', b1, b2⟩ := foldlM_ais2 (tab := b.mp.LM) (nrad := nrad)
        (fun A l => (readAt b.lm l).bind fun y => (coupledL y x (x.2 - y.2)).foldlM (ketStep b P k l x y) A)
        (fun l α L M a c => angular α x L.toNat M (b.lm.getD l (0, 0)) * P.get (k * nrad + a) (l * nrad + c))
        (List.range b.lm.length) A F hF (by
          intro l hl A F hF
          have hl := List.mem_range.1 hl
          obtain ⟨l1, l2⟩ := readAt_lm hl
          generalize b.lm.getD l (0, 0) = y at *
          obtain ⟨A', c1, c2⟩ := foldlM_ais2 (tab := b.mp.LM) (nrad := nrad) (ketStep b P k l x y)
            (fun L' α L M a c => if (L, M) = (L', x.2 - y.2) then angular α x L'.toNat (x.2 - y.2) y * P.get (k * nrad + a) (l * nrad + c) else 0)
            (coupledL y x (x.2 - y.2)) A F hF (by
              intro L hL A F hF
              obtain ⟨iLM, i1, i2⟩ := h.index x y k2 l2 L hL
              obtain ⟨g0, g2⟩ := h.cpl x y k2 l2 L ((mem_coupledL y x L).1 hL)
              obtain ⟨A0, d1, d2⟩ := addAt_ok h.nodupLM hF.1 i2 (angular 0 x L.toNat (x.2 - y.2) y) ⟨nrad, nrad, fun a c => P.get (k * nrad + a) (l * nrad + c)⟩ rfl rfl
              obtain ⟨A2, e1, e2⟩ := addAt_ok h.nodupLM hF.2 i2 (angular 1 x L.toNat (x.2 - y.2) y) ⟨nrad, nrad, fun a c => P.get (k * nrad + a) (l * nrad + c)⟩ rfl rfl
              refine ⟨(A0, A2), ?_, d2, e2⟩
              unfold ketStep
              rw [i1, Res.ok_bind, g0, Res.ok_bind, g2, Res.ok_bind, ← hnr,
                show P.block (k * nrad) (l * nrad) nrad nrad = .ok ⟨nrad, nrad, fun a c => P.get (k * nrad + a) (l * nrad + c)⟩ from
                  if_pos ⟨by rw [p1]; exact block_fits hk, by rw [p2]; exact block_fits hl⟩, Res.ok_bind, d1, Res.ok_bind, e1, Res.ok_bind])
          refine ⟨A', by rw [l1]; exact c1, c2.congr ?_⟩
          intro α _ L M hLM a _ c _
          congr 1
          have := sum_ite_mem ((coupledL y x (x.2 - y.2)).map fun L => (L, x.2 - y.2)) (nodup_coupled _ _ _ _) (L, M)
            (fun q => angular α x q.1.toNat q.2 y * P.get (k * nrad + a) (l * nrad + c))
          rw [List.map_map] at this
          refine this.trans ?_
          by_cases hm : (L, M) ∈ (coupledL y x (x.2 - y.2)).map fun L => (L, x.2 - y.2)
          · rw [if_pos hm]
          · rw [if_neg hm, ang_not_coupled α x y (h.pos x k2) (h.pos y l2) L M (hpos L M hLM) hm, zero_mul])
      refine ⟨A', by rw [k1]; exact b1, b2.congr ?_⟩
      intro α _ L M _ a _ c _
      rw [sum_map_range])
  refine ⟨A, a1, a2.congr ?_⟩
  intro α _ L M _ a _ c _
  rw [sum_map_range, zero_add]

/-! ### contraction of the integrals -/

/-- the prefactor of `(L, M)` -/
noncomputable def facOf (Rh : ℝ) (L M : Int) : ℝ := signM M * prefactor Rh L |M|

theorem intLoop_ok {b : Basis} (h : Ready b) {ne : Nat} {first last : Nat → Nat} (hR : Layout b.rad ne b.rad.nbf first last) {c : Ints}
    {Pm Qm : Int → Int → Nat → Nat → Nat → Nat → ℝ} {W : Int → Int → Nat → Nat → Nat → ℝ}
    (hs : ∀ ilm L Ma, b.mp.lm[ilm]? = some (L, Ma) → SliceOk (c.slice b.rad.nel ilm) ne (cnt first last) (Pm L Ma) (Qm L Ma) (W L Ma))
    {Paux : List (Mat ℝ) × List (Mat ℝ)} {F : Nat → Int → Int → Nat → Nat → ℝ} (hP : AIs2 b.mp.LM b.rad.nbf Paux F) :
    ∃ A, (List.range b.mp.LM.length).foldlM (intStep b c Paux) (auxZero b, auxZero b) = .ok A ∧ AIs2 b.mp.LM b.rad.nbf A (fun α L M i j =>
      facOf b.Rhalf L M * ∑ β ∈ range 2, termSign α β * Spec.coulomb b.rad.nbf (fourOf ne first last (Pm L |M|) (Qm L |M|) (W L |M|) α β) (F β L M) i j) := by
  obtain ⟨A, a1, a2⟩ := foldlM_ais2 (tab := b.mp.LM) (nrad := b.rad.nbf) (intStep b c Paux)
    (fun k α L M i j => if b.mp.LM.getD k (0, 0) = (L, M) then
      facOf b.Rhalf L M * ∑ β ∈ range 2, termSign α β * Spec.coulomb b.rad.nbf (fourOf ne first last (Pm L |M|) (Qm L |M|) (W L |M|) α β) (F β L M) i j else 0)
    (List.range b.mp.LM.length) (auxZero b, auxZero b) (fun _ _ _ _ _ => 0) ⟨ais_zero _ _, ais_zero _ _⟩ (by
      intro k hk A G hA
      have hk := List.mem_range.1 hk
      obtain ⟨k1, k2⟩ := readAt_lm hk
      have k3 : b.mp.LM[k]? = some (b.mp.LM.getD k (0, 0)) := by rw [List.getD_eq_getElem?_getD, List.getElem?_eq_getElem hk]; rfl
      generalize b.mp.LM.getD k (0, 0) = LM at *
      obtain ⟨L, M⟩ := LM
      obtain ⟨x, hx, y, hy, hc⟩ := (h.memLM L M).1 k2
      obtain ⟨ilm, i1, i2⟩ := (C39_lookup b.lm b.mp h.tables L M).2.2.1 ⟨x, hx, y, hy, M, hc, rfl⟩
      have hfac : readAt (lmFacs b.Rhalf b.mp.lm) ilm = .ok (prefactor b.Rhalf L |M|) := by
        unfold readAt lmFacs
        rw [List.getElem?_map, i2]; rfl
      obtain ⟨X0, x1, x2, x3, x4⟩ := hP.1.read k3
      obtain ⟨X2, y1, y2, y3, y4⟩ := hP.2.read k3
      obtain ⟨J0, u1, u2, u3, u4⟩ := hA.1.read k3
      obtain ⟨J2, v1, v2, v3, v4⟩ := hA.2.read k3
      obtain ⟨J, j1, j2, j3⟩ := jelLoop_ok hR (hs ilm L |M| i2) (facOf b.Rhalf L M) X0 X2 ⟨x2, x3⟩ ⟨y2, y3⟩ (J0, J2) ⟨u2, u3, v2, v3⟩
      have hco : ∀ α β i j, Spec.coulomb b.rad.nbf (fourOf ne first last (Pm L |M|) (Qm L |M|) (W L |M|) α β) (if β = 0 then X0.get else X2.get) i j =
          if β = 0 then Spec.coulomb b.rad.nbf (fourOf ne first last (Pm L |M|) (Qm L |M|) (W L |M|) α β) (F 0 L M) i j
          else Spec.coulomb b.rad.nbf (fourOf ne first last (Pm L |M|) (Qm L |M|) (W L |M|) α β) (F 1 L M) i j := by
        intro α β i j
        split_ifs
        · exact coulomb_congr _ _ _ _ x4 i j
        · exact coulomb_congr _ _ _ _ y4 i j
      have hval : ∀ α i j, ∑ β ∈ range 2, termSign α β * Spec.coulomb b.rad.nbf (fourOf ne first last (Pm L |M|) (Qm L |M|) (W L |M|) α β) (if β = 0 then X0.get else X2.get) i j =
          ∑ β ∈ range 2, termSign α β * Spec.coulomb b.rad.nbf (fourOf ne first last (Pm L |M|) (Qm L |M|) (W L |M|) α β) (F β L M) i j := by
        intro α i j
        simp only [hco, sum_range_succ, sum_range_zero]
        simp
      obtain ⟨A0, w1, w2⟩ := hA.1.write h.nodupLM k3 J.1 j2.1 j2.2.1 (fun i j => facOf b.Rhalf L M * ∑ β ∈ range 2, termSign 0 β *
        Spec.coulomb b.rad.nbf (fourOf ne first last (Pm L |M|) (Qm L |M|) (W L |M|) 0 β) (F β L M) i j) (fun i hi j hj => by
          rw [(j3 i j).1, hval, u4 i hi j hj])
      obtain ⟨A2, z1, z2⟩ := hA.2.write h.nodupLM k3 J.2 j2.2.2.1 j2.2.2.2 (fun i j => facOf b.Rhalf L M * ∑ β ∈ range 2, termSign 1 β *
        Spec.coulomb b.rad.nbf (fourOf ne first last (Pm L |M|) (Qm L |M|) (W L |M|) 1 β) (F β L M) i j) (fun i hi j hj => by
          rw [(j3 i j).2, hval, v4 i hi j hj])
      refine ⟨(A0, A2), ?_, w2.congr ?_, z2.congr ?_⟩
      · unfold intStep
        rw [k1, Res.ok_bind]
        simp only
        rw [i1, Res.ok_bind, hfac, Res.ok_bind, x1, Res.ok_bind, y1, Res.ok_bind, u1, Res.ok_bind, v1, Res.ok_bind]
        unfold facOf at j1
        rw [j1, Res.ok_bind, w1, Res.ok_bind, z1, Res.ok_bind]
      all_goals
        intro L' M' _ i _ j _
        beta_reduce
        by_cases he : (L', M') = (L, M)
        · cases he
          rw [if_pos rfl]
        · rw [if_neg he, if_neg (fun h => he h.symm)])
  refine ⟨A, a1, a2.congr ?_⟩
  intro α _ L M hLM i _ j _
  obtain ⟨k, hk, hg⟩ := List.getElem_of_mem hLM
  have hg' : b.mp.LM.getD k (0, 0) = (L, M) := by rw [List.getD_eq_getElem?_getD, List.getElem?_eq_getElem hk, hg]; rfl
  rw [sum_map_range, zero_add, sum_eq_single_of_mem k (mem_range.2 hk), if_pos hg']
  intro k' hk' hne
  have hk' := mem_range.1 hk'
  rw [if_neg]
  intro he
  apply hne
  rw [List.getD_eq_getElem?_getD, List.getElem?_eq_getElem hk'] at he
  exact (List.Nodup.getElem_inj_iff h.nodupLM).1 (he.trans hg.symm)

/-! ### the bra -/

theorem braAdd_ok {tab : List (Int × Int)} {nrad n : Nat} {A : List (Mat ℝ)} {F : Int → Int → Nat → Nat → ℝ} (hA : AIs tab nrad A F) {iLM : Nat} {L M : Int}
    (hi : tab[iLM]? = some (L, M)) (c : ℝ) (x y : Nat) (hx : x < n) (hy : y < n) (J : Mat ℝ) (j1 : J.rows = n * nrad) (j2 : J.cols = n * nrad) :
    ∃ J', braAdd nrad x y A iLM c J = .ok J' ∧ J'.rows = n * nrad ∧ J'.cols = n * nrad ∧
      ∀ i j, J'.get i j = J.get i j + at_ (x * nrad) nrad (y * nrad) nrad (fun a b => c * F L M a b) i j := by
  unfold braAdd
  by_cases hc : c = 0
  · rw [if_neg (by simpa using hc)]
    refine ⟨J, rfl, j1, j2, ?_⟩
    intro i j
    unfold at_
    simp [hc]
  · rw [if_pos hc]
    obtain ⟨X, x1, x2, x3, x4⟩ := hA.read hi
    obtain ⟨J', d1, d2, d3, d4⟩ := addBlock_ok J (n * nrad) j1 j2 (x * nrad) (y * nrad) nrad nrad (Mat.smul c X) x2 x3 (block_fits hx) (block_fits hy)
    refine ⟨J', by rw [x1, Res.ok_bind]; exact d1, d2, d3, ?_⟩
    intro i j
    rw [d4]
    congr 1
    apply at_congr
    intro a ha b hb
    simp only [Mat.smul]
    rw [x4 a ha b hb]

theorem expandBra_ok {b : Basis} (h : Ready b) {A : List (Mat ℝ) × List (Mat ℝ)} {F : Nat → Int → Int → Nat → Nat → ℝ} (hA : AIs2 b.mp.LM b.rad.nbf A F) (nL : Nat)
    (hnL : ∀ x ∈ b.lm, ∀ y ∈ b.lm, x.1 + y.1 + 2 < nL) :
    ∃ J, expandBra b A = .ok J ∧ J.rows = b.lm.length * b.rad.nbf ∧ J.cols = b.lm.length * b.rad.nbf ∧ ∀ i < b.lm.length * b.rad.nbf, ∀ j < b.lm.length * b.rad.nbf,
      J.get i j = ∑ L ∈ range nL, ∑ α ∈ range 2, angular α (b.lm.getD (j / b.rad.nbf) (0, 0)) L ((b.lm.getD (j / b.rad.nbf) (0, 0)).2 - (b.lm.getD (i / b.rad.nbf) (0, 0)).2)
        (b.lm.getD (i / b.rad.nbf) (0, 0)) * F α L ((b.lm.getD (j / b.rad.nbf) (0, 0)).2 - (b.lm.getD (i / b.rad.nbf) (0, 0)).2) (i % b.rad.nbf) (j % b.rad.nbf) := by
  obtain ⟨nrad, hnr⟩ : ∃ n, n = b.rad.nbf := ⟨_, rfl⟩
  rw [← hnr] at hA ⊢
  obtain ⟨J, a1, a2, a3, a4⟩ := foldlM_acc (b.lm.length * nrad) (b.lm.length * nrad)
    (fun J i => (readAt b.lm i).bind fun x => (List.range b.lm.length).foldlM (fun J j => (readAt b.lm j).bind fun y => (coupledL x y (y.2 - x.2)).foldlM (braStep b A i j x y) J) J)
    (fun p i j => ∑ q ∈ range b.lm.length, at_ (p * nrad) nrad (q * nrad) nrad (fun a c => ∑ L ∈ range nL, ∑ α ∈ range 2,
      angular α (b.lm.getD q (0, 0)) L ((b.lm.getD q (0, 0)).2 - (b.lm.getD p (0, 0)).2) (b.lm.getD p (0, 0)) * F α L ((b.lm.getD q (0, 0)).2 - (b.lm.getD p (0, 0)).2) a c) i j)
    (List.range b.lm.length) (Mat.zero (b.lm.length * nrad) (b.lm.length * nrad)) rfl rfl (by
      intro p hp J j1 j2
      have hp := List.mem_range.1 hp
      obtain ⟨p1, p2⟩ := readAt_lm hp
      generalize b.lm.getD p (0, 0) = x at *
      obtain ⟨J', b1, b2, b3, b4⟩ := foldlM_acc (b.lm.length * nrad) (b.lm.length * nrad)
        (fun J j => (readAt b.lm j).bind fun y => (coupledL x y (y.2 - x.2)).foldlM (braStep b A p j x y) J)
        (fun q i j => at_ (p * nrad) nrad (q * nrad) nrad (fun a c => ∑ L ∈ range nL, ∑ α ∈ range 2,
          angular α (b.lm.getD q (0, 0)) L ((b.lm.getD q (0, 0)).2 - x.2) x * F α L ((b.lm.getD q (0, 0)).2 - x.2) a c) i j)
        (List.range b.lm.length) J j1 j2 (by
          intro q hq J j1 j2
          have hq := List.mem_range.1 hq
          obtain ⟨q1, q2⟩ := readAt_lm hq
          generalize b.lm.getD q (0, 0) = y at *
          obtain ⟨J', c1, c2, c3, c4⟩ := foldlM_acc (b.lm.length * nrad) (b.lm.length * nrad) (braStep b A p q x y)
            (fun L i j => at_ (p * nrad) nrad (q * nrad) nrad (fun a c => ∑ α ∈ range 2, angular α y L.toNat (y.2 - x.2) x * F α (L.toNat : Int) (y.2 - x.2) a c) i j)
            (coupledL x y (y.2 - x.2)) J j1 j2 (by
              intro L hL J j1 j2
              obtain ⟨iLM, i1, i2⟩ := h.index y x q2 p2 L hL
              have hcp := (mem_coupledL x y L).1 hL
              obtain ⟨g0, g2⟩ := h.cpl y x q2 p2 L hcp
              obtain ⟨J0, d1, d2, d3, d4⟩ := braAdd_ok hA.1 i2 (angular 0 y L.toNat (y.2 - x.2) x) p q hp hq J j1 j2
              obtain ⟨J2, e1, e2, e3, e4⟩ := braAdd_ok hA.2 i2 (angular 1 y L.toNat (y.2 - x.2) x) p q hp hq J0 d2 d3
              refine ⟨J2, ?_, e2, e3, ?_⟩
              · unfold braStep
                rw [i1, Res.ok_bind, g0, Res.ok_bind, ← hnr, d1, Res.ok_bind, g2, Res.ok_bind, e1]
              · intro i j
                have hL0 : ((L.toNat : Nat) : Int) = L := by have := hcp.2.2.1; have := abs_nonneg (y.2 - x.2); omega
                rw [e4, d4, add_assoc, hL0]
                congr 1
                unfold at_
                simp only [sum_range_succ, sum_range_zero, zero_add]
                split_ifs
                · rfl
                · simp)
          refine ⟨J', by rw [q1]; exact c1, c2, c3, ?_⟩
          intro i j
          rw [c4, at_list]
          congr 1
          apply at_congr
          intro a _ c _
          unfold coupledL
          have := abs_nonneg (y.2 - x.2)
          have hb := hnL x p2 y q2
          rw [sum_couples _ _ nL (by omega) (by omega) (fun L => ∑ α ∈ range 2, angular α y L (y.2 - x.2) x * F α (L : Int) (y.2 - x.2) a c)]
          intro L' hL' hout
          apply sum_eq_zero; intro α _
          rw [ang_zero α y x (h.pos y q2) (h.pos x p2) L' _ (by omega), zero_mul])
      refine ⟨J', by rw [p1]; exact b1, b2, b3, ?_⟩
      intro i j
      rw [b4, sum_map_range])
  refine ⟨J, ?_, a2, a3, ?_⟩
  · unfold expandBra nDummy
    rw [← hnr]; exact a1
  intro i hi j hj
  rw [a4, sum_map_range, at_grid b.lm.length nrad (fun p q a c => ∑ L ∈ range nL, ∑ α ∈ range 2,
      angular α (b.lm.getD q (0, 0)) L ((b.lm.getD q (0, 0)).2 - (b.lm.getD p (0, 0)).2) (b.lm.getD p (0, 0)) * F α L ((b.lm.getD q (0, 0)).2 - (b.lm.getD p (0, 0)).2) a c) i j hi hj]
  simp [Mat.zero]

end DiaJK
end HelFEM
