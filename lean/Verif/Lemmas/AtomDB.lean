import Verif.Model.AtomDB
import Verif.Props.Gram

/-! Lemmas for the free-atom database. -/

namespace HelFEM
namespace AtomDB
open Grid Poly Finset Polynomial Spec Assembly

/-- radius of the reference coordinate `x` in element `e` -/
noncomputable def coord (bval : List ℝ) (e : Nat) (x : ℝ) : ℝ :=
  1 / 2 * (bval.getD e 0 + bval.getD (e + 1) 0) + (bval.getD (e + 1) 0 - bval.getD e 0) / 2 * x

theorem coord_left (bval : List ℝ) (e : Nat) : coord bval e (-1) = bval.getD e 0 := by unfold coord; ring
theorem coord_right (bval : List ℝ) (e : Nat) : coord bval e 1 = bval.getD (e + 1) 0 := by unfold coord; ring

theorem evalCoord_one (bval : List ℝ) (e : Nat) (he : e + 1 < bval.length) (x : ℝ) : evalCoord bval [x] e = .ok [coord bval e x] := by
  rw [coord_eq bval e he]
  simp [coord, he, show e < bval.length by omega]

theorem elementLength_eq (bval : List ℝ) (e : Nat) (he : e + 1 < bval.length) : elementLength bval e = .ok (bval.getD (e + 1) 0 - bval.getD e 0) := by
  rw [len_eq bval e he]
  simp [he, show e < bval.length by omega]

theorem elementMidpoint_eq (bval : List ℝ) (e : Nat) (he : e + 1 < bval.length) : elementMidpoint bval e = .ok (1 / 2 * (bval.getD e 0 + bval.getD (e + 1) 0)) := by
  rw [mid_eq bval e he]
  simp [he, show e < bval.length by omega]

variable {f : Family} {n ne : Nat} {zfl zdl zfr zdr : Bool} {x0 : Nat → ℝ} {bval : List ℝ} {o : FEObj ℝ} {N : Nat} {first last : Nat → Nat}

/-- the evaluated derivatives of an element's functions -/
theorem row (h : Basis f n ne zfl zdl zfr zdr x0 bval o N first last) (φ : Nat → Nat → ℝ[X]) (hφ : IsPieces o x0 ne first φ)
    (e : Nat) (he : e < ne) (k : Nat) (hk : k ≤ maxN f) (x : ℝ) :
    ∃ v, feEvalDnf o.shape o.bval x0 x k e = .ok v ∧ v.length = last e + 1 - first e ∧
      ∀ i, v.getD i 0 = (derivative^[k] (φ e (first e + i))).eval (coord bval e x) := by
  have h2 := h.nodes.two
  have hl := h.len
  obtain ⟨m, rfl⟩ : ∃ m, n = m + 2 := ⟨n - 2, by omega⟩
  have hpiece : ∀ g, φ e g = piece f m ne zfl zdl zfr zdr bval x0 first e g :=
    fun g => h.pieces_unique φ _ hφ h.piece_isPieces e he g
  obtain ⟨v, h1, h1', _⟩ := piece_eval f m ne zfl zdl zfr zdr bval h.len h.inc x0 first e he 0 k hk x
  obtain ⟨l1, l2, l3, l4, l5⟩ := layout f (m + 2) ne zfl zdl zfr zdr h.nodes.two h.nelem bval h.len o h.built N h.nbf h.pos first last h.idx
  obtain ⟨en, k1, k2⟩ := l3 e he
  rw [basisIndices_eq] at k1
  have k3 := Res.ok.inj k1
  refine ⟨v, by rw [h.shape.1, h.shape.2]; exact h1, by rw [h1', k3]; omega, ?_⟩
  intro i
  obtain ⟨w, g1, _, g3⟩ := piece_eval f m ne zfl zdl zfr zdr bval h.len h.inc x0 first e he (first e + i) k hk x
  obtain rfl := Res.ok.inj (h1.symm.trans g1)
  have hc : coord bval e x = 1 / 2 * (bval[e]'(by omega) + bval[e + 1]'(by omega)) + (bval[e + 1]'(by omega) - bval[e]'(by omega)) / 2 * x := by
    simp [coord, show e < bval.length by omega, show e + 1 < bval.length by omega]
  rw [hpiece, hc, g3]
  simp [globalValue]

theorem coord_surj (h : Basis f n ne zfl zdl zfr zdr x0 bval o N first last) (e : Nat) (he : e < ne) (r : ℝ) : ∃ x, coord bval e x = r := by
  have hl := h.len
  have := getD_lt h.inc e (by omega)
  refine ⟨(r - 1 / 2 * (bval.getD e 0 + bval.getD (e + 1) 0)) / ((bval.getD (e + 1) 0 - bval.getD e 0) / 2), ?_⟩
  unfold coord
  rw [mul_div_cancel₀ _ (by linarith : (bval.getD (e + 1) 0 - bval.getD e 0) / 2 ≠ 0)]
  ring

/-- functions of the first element divided by `r` -/
theorem rowOver (h : Basis f n ne true zdl zfr zdr x0 bval o N first last) (φ : Nat → Nat → ℝ[X]) (hφ : IsPieces o x0 ne first φ)
    (h0 : bval.getD 0 0 = 0) (hne0 : first 0 ≤ last 0) :
    ∃ R : Nat → ℝ[X], (∀ i < last 0 + 1 - first 0, φ 0 (first 0 + i) = X * R i) ∧
      ∀ x, ∀ d ≤ 2, ∃ v, feOverR o.shape o.bval x0 x (d : Nat) 0 = .ok v ∧ v.length = last 0 + 1 - first 0 ∧
        ∀ i < last 0 + 1 - first 0, v.getD i 0 = (derivative^[d] (R i)).eval (coord bval 0 x) := by
  have hl := h.len
  have hn := h.nelem
  obtain ⟨l1, l2, l3, l4, l5⟩ := layout f n ne true zdl zfr zdr h.nodes.two h.nelem bval h.len o h.built N h.nbf h.pos first last h.idx
  obtain ⟨en, k1, k2⟩ := l3 0 (by omega)
  have h0' : bval[0]'(by omega) = 0 := by
    rw [← h0]; simp [show 0 < bval.length by omega]
  obtain ⟨B, R, b1, b2, b3, b4, b5⟩ := C14_fe_over_r f n ne zdl zfr zdr x0 h.nodes h.nelem bval h.len h.inc h0' en k1 (by rintro rfl; simp at k2; omega)
  have hc : ∀ x, coord bval 0 x = bval[1]'(by omega) / 2 * (x + 1) := fun x => by
    unfold coord
    rw [h0]
    simp [show 1 < bval.length by omega]
    ring
  refine ⟨fun i => R.getD i 0, ?_, ?_⟩
  · intro i hi
    have hiB : i < B.length := by omega
    have hiR : i < R.length := by omega
    have hR : R.getD i 0 = R[i] := by simp [hiR]
    simp only [hR]
    rw [← b3 i hiB hiR]
    apply Polynomial.funext
    intro r
    obtain ⟨x, hx⟩ := coord_surj h 0 (by omega) r
    obtain ⟨v, v1, v2, v3⟩ := row h φ hφ 0 (by omega) 0 (Nat.zero_le _) x
    rw [h.shape.1, h.shape.2] at v1
    have v4 := Res.ok.inj (v1.symm.trans (b4 x 0 (Nat.zero_le _)))
    have v5 := v3 i
    rw [v4] at v5
    simp only [Function.iterate_zero, id] at v5
    rw [← hx, ← v5, hc]
    simp [hiB]
  · intro x d hd
    refine ⟨_, by rw [h.shape.1, h.shape.2]; exact b5 x d hd, by simp; omega, ?_⟩
    intro i hi
    have hiR : i < R.length := by omega
    rw [hc]
    simp [hiR]

/-- charge distribution of the density matrix `P` on element `e` -/
noncomputable def rho (N : Nat) (P : Nat → Nat → ℝ) (φ : Nat → Nat → ℝ[X]) (e : Nat) : ℝ[X] :=
  ∑ i ∈ range N, ∑ j ∈ range N, C (P i j) * (φ e i * φ e j)

theorem sum_window {M : Type _} [AddCommMonoid M] (N a c : Nat) (F : Nat → M) (hac : a + c ≤ N) (hz : ∀ i < N, ¬ (a ≤ i ∧ i < a + c) → F i = 0) :
    ∑ i ∈ range N, F i = ∑ i ∈ range c, F (a + i) := by
  rw [← sum_filter_add_sum_filter_not (range N) (fun i => a ≤ i ∧ i < a + c), sum_eq_zero (s := (range N).filter fun i => ¬ (a ≤ i ∧ i < a + c)), add_zero]
  · symm
    apply sum_bij (fun i _ => a + i)
    · intro i hi
      simp only [mem_range] at hi
      simp only [mem_filter, mem_range]
      omega
    · intro i _ j _ hij; omega
    · intro b hb
      simp only [mem_filter, mem_range] at hb
      exact ⟨b - a, by simp only [mem_range]; omega, by omega⟩
    · intro i _; rfl
  · intro i hi
    simp only [mem_filter, mem_range] at hi
    exact hz i hi.1 hi.2

/-- only the element's own functions count -/
theorem rho_window (h : Basis f n ne zfl zdl zfr zdr x0 bval o N first last) (φ : Nat → Nat → ℝ[X]) (hφ : IsPieces o x0 ne first φ)
    (P : Nat → Nat → ℝ) (e : Nat) (he : e < ne) :
    rho N P φ e = ∑ i ∈ range (last e + 1 - first e), ∑ j ∈ range (last e + 1 - first e), C (P (first e + i) (first e + j)) * (φ e (first e + i) * φ e (first e + j)) := by
  obtain ⟨l1, l2, l3, l4, l5⟩ := layout f n ne zfl zdl zfr zdr h.nodes.two h.nelem bval h.len o h.built N h.nbf h.pos first last h.idx
  have a := l4 e he
  have b := (h.count e he 0).2
  unfold rho
  rw [sum_window N (first e) (last e + 1 - first e) _ (by omega)]
  · apply sum_congr rfl
    intro i _
    rw [sum_window N (first e) (last e + 1 - first e) _ (by omega)]
    intro j _ hj
    rw [h.outside φ hφ e he j (by omega)]
    simp
  · intro i _ hi
    apply sum_eq_zero
    intro j _
    rw [h.outside φ hφ e he i (by omega)]
    simp

theorem piece_deg (h : Basis f n ne zfl zdl zfr zdr x0 bval o N first last) (φ : Nat → Nat → ℝ[X]) (hφ : IsPieces o x0 ne first φ)
    (e : Nat) (he : e < ne) (g : Nat) : (φ e g).natDegree ≤ (PolyBasis.mk' f n).noverlap * n - 1 := by
  have h2 := h.nodes.two
  obtain ⟨m, rfl⟩ : ∃ m, n = m + 2 := ⟨n - 2, by omega⟩
  rw [h.pieces_unique φ _ hφ h.piece_isPieces e he g, mk'_noverlap]
  exact piece_degree f m ne zfl zdl zfr zdr bval x0 h.nodes first e g

theorem rho_deg (h : Basis f n ne zfl zdl zfr zdr x0 bval o N first last) (φ : Nat → Nat → ℝ[X]) (hφ : IsPieces o x0 ne first φ)
    (P : Nat → Nat → ℝ) (e : Nat) (he : e < ne) : (rho N P φ e).natDegree ≤ 2 * ((PolyBasis.mk' f n).noverlap * n - 1) := by
  unfold rho
  apply natDegree_sum_le_of_forall_le
  intro i _
  apply natDegree_sum_le_of_forall_le
  intro j _
  refine (natDegree_C_mul_le _ _).trans (natDegree_mul_le.trans ?_)
  have := piece_deg h φ hφ e he i
  have := piece_deg h φ hφ e he j
  omega

theorem coord_pos (h : Basis f n ne zfl zdl zfr zdr x0 bval o N first last) (h0 : bval.getD 0 0 = 0) (e : Nat) (he : e < ne) (x : ℝ) (hx : -1 ≤ x) :
    bval.getD e 0 ≤ coord bval e x ∧ 0 ≤ bval.getD e 0 ∧ (e ≠ 0 → 0 < bval.getD e 0) := by
  have hl := h.len
  have a := getD_lt h.inc e (by omega)
  have b : coord bval e x = bval.getD e 0 + (bval.getD (e + 1) 0 - bval.getD e 0) / 2 * (x + 1) := by unfold coord; ring
  have c : 0 ≤ (bval.getD (e + 1) 0 - bval.getD e 0) / 2 * (x + 1) := mul_nonneg (by linarith) (by linarith)
  have d : e ≠ 0 → 0 < bval.getD e 0 := by
    intro hne
    have := List.pairwise_iff_getElem.1 h.inc 0 e (by omega) (by omega) (by omega)
    have e0 : bval.getD 0 0 = bval[0]'(by omega) := by simp [show 0 < bval.length by omega]
    have ee : bval.getD e 0 = bval[e]'(by omega) := by simp [show e < bval.length by omega]
    rw [ee]; rw [← e0, h0] at this; exact this
  refine ⟨by linarith, ?_, d⟩
  by_cases hz : e = 0
  · rw [hz, h0]
  · exact (d hz).le

/-- basis functions over `r` -/
theorem getBf_eq (h : Basis f n ne true zdl zfr zdr x0 bval o N first last) (φ : Nat → Nat → ℝ[X]) (hφ : IsPieces o x0 ne first φ)
    (h0 : bval.getD 0 0 = 0) (hne0 : first 0 ≤ last 0) (rule : List (ℝ × ℝ)) (e : Nat) (he : e < ne) (x : ℝ) (hx : -1 ≤ x) :
    ∃ v, getBf ⟨o, x0, rule⟩ x e = .ok v ∧ v.length = last e + 1 - first e ∧
      ∀ i < last e + 1 - first e, coord bval e x * v.getD i 0 = (φ e (first e + i)).eval (coord bval e x) := by
  have hl := h.len
  by_cases hz : e = 0
  · subst hz
    obtain ⟨R, r1, r2⟩ := rowOver h φ hφ h0 hne0
    obtain ⟨v, v1, v2, v3⟩ := r2 x 0 (by omega)
    refine ⟨v, by unfold getBf; rw [if_pos rfl]; exact v1, v2, ?_⟩
    intro i hi
    rw [v3 i hi, r1 i hi]
    simp
  · obtain ⟨v, v1, v2, v3⟩ := row h φ hφ e he 0 (Nat.zero_le _) x
    obtain ⟨p1, p2, p3⟩ := coord_pos h h0 e he x hx
    have := p3 hz
    have hr : coord bval e x ≠ 0 := by linarith
    have v1' : feEvalDnf o.shape o.bval x0 x 0 e = .ok v := v1
    refine ⟨v.map (· / coord bval e x), ?_, by simpa using v2, ?_⟩
    · unfold getBf
      rw [if_neg hz]
      simp only
      rw [v1', h.shape.2, evalCoord_one bval e (by omega)]
      rfl
    · intro i hi
      have e1 : (v.map (· / coord bval e x)).getD i 0 = v.getD i 0 / coord bval e x := by
        simp [List.getD_eq_getElem?_getD, show i < v.length by omega]
      rw [e1, mul_div_cancel₀ _ hr, v3 i]
      rfl

/-- the block of element `e` -/
def IsBlock (P : Nat → Nat → ℝ) (a c : Nat) (B : Mat ℝ) : Prop := B.rows = c ∧ B.cols = c ∧ ∀ i < c, ∀ j < c, B.get i j = P (a + i) (a + j)

theorem contract_eq (u v : List ℝ) (c : Nat) (B : Mat ℝ) (hB : B.rows = c ∧ B.cols = c) (hu : u.length = c) (hv : v.length = c) :
    contract u B v = .ok (∑ i ∈ range c, ∑ j ∈ range c, u.getD i 0 * B.get i j * v.getD j 0) := by
  unfold contract
  rw [hB.1, hB.2, hu, hv, if_pos ⟨rfl, rfl⟩]

theorem quad_eq (h : Basis f n ne true zdl zfr zdr x0 bval o N first last) (φ : Nat → Nat → ℝ[X]) (hφ : IsPieces o x0 ne first φ)
    (h0 : bval.getD 0 0 = 0) (hne0 : first 0 ≤ last 0) (rule : List (ℝ × ℝ)) (P : Nat → Nat → ℝ) (e : Nat) (he : e < ne) (B : Mat ℝ)
    (hB : IsBlock P (first e) (last e + 1 - first e) B) (x : ℝ) (hx : -1 ≤ x) :
    ∃ v q, getBf ⟨o, x0, rule⟩ x e = .ok v ∧ contract v B v = .ok q ∧ coord bval e x * coord bval e x * q = (rho N P φ e).eval (coord bval e x) := by
  obtain ⟨v, v1, v2, v3⟩ := getBf_eq h φ hφ h0 hne0 rule e he x hx
  refine ⟨v, _, v1, contract_eq v v _ B ⟨hB.1, hB.2.1⟩ v2 v2, ?_⟩
  rw [rho_window h φ hφ P e he, eval_finsetSum, mul_sum]
  refine sum_congr rfl fun i hi => ?_
  rw [eval_finsetSum, mul_sum]
  refine sum_congr rfl fun j hj => ?_
  rw [mem_range] at hi hj
  rw [eval_mul, eval_mul, eval_C, ← v3 i hi, ← v3 j hj, hB.2.2 i hi j hj]
  ring

theorem integrandAt_eq (h : Basis f n ne true zdl zfr zdr x0 bval o N first last) (φ : Nat → Nat → ℝ[X]) (hφ : IsPieces o x0 ne first φ)
    (h0 : bval.getD 0 0 = 0) (hne0 : first 0 ≤ last 0) (rule : List (ℝ × ℝ)) (P : Nat → Nat → ℝ) (e : Nat) (he : e < ne) (B : Mat ℝ)
    (hB : IsBlock P (first e) (last e + 1 - first e) B) (x : ℝ) (hx : -1 ≤ x) :
    integrandAt ⟨o, x0, rule⟩ B e x false = .ok ((rho N P φ e).eval (coord bval e x)) ∧
    ∃ q, integrandAt ⟨o, x0, rule⟩ B e x true = .ok q ∧ coord bval e x * q = (rho N P φ e).eval (coord bval e x) := by
  have hl := h.len
  obtain ⟨v, q, v1, v2, v3⟩ := quad_eq h φ hφ h0 hne0 rule P e he B hB x hx
  unfold integrandAt
  simp only
  rw [h.shape.2, evalCoord_one bval e (by omega)]
  simp only [Res.ok_bind, v1, v2, readAt, List.getElem?_cons_zero, Res.pure_eq, if_true, Bool.false_eq_true, if_false]
  refine ⟨by rw [← v3]; congr 1; ring, _, rfl, by rw [← v3]; ring⟩

theorem zipWith_map (rule : List (ℝ × ℝ)) (g : ℝ × ℝ → ℝ) : List.zipWith (fun (q : ℝ × ℝ) v => q.2 * v) rule (rule.map g) = rule.map fun q => q.2 * g q := by
  induction rule with
  | nil => rfl
  | cons a r ih => simp [ih]

/-- a rule exact for the degree of the density, with nodes in [-1, 1] -/
structure GoodRule (rule : List (ℝ × ℝ)) (D : Nat) : Prop where
  exact : ExactTo rule D
  nodes : ∀ q ∈ rule, -1 ≤ q.1 ∧ q.1 ≤ 1

theorem node_ge (xa xb t : ℝ) (ha : -1 ≤ xa) (hab : xa ≤ xb) (ht : -1 ≤ t) : -1 ≤ 1 / 2 * (xa + xb) + 1 / 2 * (xb - xa) * t := by
  have : 0 ≤ 1 / 2 * (xb - xa) * (t + 1) := mul_nonneg (by linarith) (by linarith)
  linarith

/-- partial integrals of the charge are exact -/
theorem partial_charge (h : Basis f n ne true zdl zfr zdr x0 bval o N first last) (φ : Nat → Nat → ℝ[X]) (hφ : IsPieces o x0 ne first φ)
    (h0 : bval.getD 0 0 = 0) (hne0 : first 0 ≤ last 0) (rule : List (ℝ × ℝ)) (hr : GoodRule rule (2 * ((PolyBasis.mk' f n).noverlap * n - 1)))
    (P : Nat → Nat → ℝ) (e : Nat) (he : e < ne) (B : Mat ℝ) (hB : IsBlock P (first e) (last e + 1 - first e) B) (xa xb : ℝ) (ha : -1 ≤ xa) (hab : xa ≤ xb) :
    partialIntegral ⟨o, x0, rule⟩ B e xa xb false = .ok (∫ r in (coord bval e xa)..(coord bval e xb), (rho N P φ e).eval r) := by
  have hl := h.len
  unfold partialIntegral
  simp only
  by_cases hh : 1 / 2 * (xb - xa) ≤ 0
  · have : xa = xb := le_antisymm hab (by linarith)
    rw [if_pos hh, this, intervalIntegral.integral_same]
  · rw [if_neg hh]
    rw [Res.mapM_ok _ (fun q : ℝ × ℝ => (rho N P φ e).eval (coord bval e (1 / 2 * (xa + xb) + 1 / 2 * (xb - xa) * q.1)))
      rule (fun q hq => (integrandAt_eq h φ hφ h0 hne0 rule P e he B hB _ (node_ge _ _ _ ha hab (hr.nodes q hq).1)).1)]
    rw [h.shape.2, elementLength_eq bval e (by omega)]
    simp only [Res.ok_bind, Res.pure_eq, Res.ok.injEq]
    rw [zipWith_map]
    have := rule_range rule _ hr.exact (rho N P φ e) (rho_deg h φ hφ P e he) (1 / 2 * (bval.getD e 0 + bval.getD (e + 1) 0)) ((bval.getD (e + 1) 0 - bval.getD e 0) / 2) xa xb
    unfold coord
    rw [← this, ← List.sum_map_mul_left]
    congr 1
    apply List.map_congr_left
    intro q _
    rw [show (xb - xa) / 2 * q.1 + (xb + xa) / 2 = 1 / 2 * (xa + xb) + 1 / 2 * (xb - xa) * q.1 by ring]
    ring

/-- partial integrals of the charge over `r` return; in the first element they are exact -/
theorem partial_moment (h : Basis f n ne true zdl zfr zdr x0 bval o N first last) (φ : Nat → Nat → ℝ[X]) (hφ : IsPieces o x0 ne first φ)
    (h0 : bval.getD 0 0 = 0) (hne0 : first 0 ≤ last 0) (rule : List (ℝ × ℝ)) (hr : GoodRule rule (2 * ((PolyBasis.mk' f n).noverlap * n - 1)))
    (P : Nat → Nat → ℝ) (e : Nat) (he : e < ne) (B : Mat ℝ) (hB : IsBlock P (first e) (last e + 1 - first e) B) (xa xb : ℝ) (ha : -1 ≤ xa) (hab : xa ≤ xb) :
    ∃ m, partialIntegral ⟨o, x0, rule⟩ B e xa xb true = .ok m ∧ (e = 0 → m = ∫ r in (coord bval e xa)..(coord bval e xb), (rho N P φ e).eval r / r) := by
  have hl := h.len
  have hlt := getD_lt h.inc e (by omega)
  unfold partialIntegral
  simp only
  by_cases hh : 1 / 2 * (xb - xa) ≤ 0
  · have : xa = xb := le_antisymm hab (by linarith)
    exact ⟨0, by rw [if_pos hh], fun _ => by rw [this, intervalIntegral.integral_same]⟩
  · rw [if_neg hh]
    have hq : ∀ x, ∃ q, -1 ≤ x → integrandAt ⟨o, x0, rule⟩ B e x true = .ok q ∧ coord bval e x * q = (rho N P φ e).eval (coord bval e x) := by
      intro x
      by_cases hx : -1 ≤ x
      · obtain ⟨q, a, b⟩ := (integrandAt_eq h φ hφ h0 hne0 rule P e he B hB x hx).2
        exact ⟨q, fun _ => ⟨a, b⟩⟩
      · exact ⟨0, fun hc => absurd hc hx⟩
    choose g hg using hq
    rw [Res.mapM_ok _ (fun q : ℝ × ℝ => g (1 / 2 * (xa + xb) + 1 / 2 * (xb - xa) * q.1))
      rule (fun q hq => (hg _ (node_ge _ _ _ ha hab (hr.nodes q hq).1)).1)]
    rw [h.shape.2, elementLength_eq bval e (by omega)]
    simp only [Res.ok_bind, Res.pure_eq, Res.ok.injEq]
    rw [zipWith_map]
    refine ⟨_, rfl, ?_⟩
    intro hz
    subst hz
    obtain ⟨R, r1, r2⟩ := rowOver h φ hφ h0 hne0
    obtain ⟨Q, hQ⟩ : ∃ Q : ℝ[X], Q = ∑ i ∈ range (last 0 + 1 - first 0), ∑ j ∈ range (last 0 + 1 - first 0), C (P (first 0 + i) (first 0 + j)) * (R i * R j) * X := ⟨_, rfl⟩
    have hrhoQ : rho N P φ 0 = X * Q := by
      rw [rho_window h φ hφ P 0 he, hQ, mul_sum]
      refine sum_congr rfl fun i hi => ?_
      rw [mul_sum]
      refine sum_congr rfl fun j hj => ?_
      rw [mem_range] at hi hj
      rw [r1 i hi, r1 j hj]
      ring
    have hgQ : ∀ x, -1 ≤ x → g x = Q.eval (coord bval 0 x) := by
      intro x hx
      obtain ⟨v, v1, v2, v3⟩ := r2 x 0 (by omega)
      have a := (hg x hx).1
      unfold integrandAt at a
      simp only at a
      rw [h.shape.2, evalCoord_one bval 0 (by omega)] at a
      have a2 : getBf ⟨o, x0, rule⟩ x 0 = .ok v := by unfold getBf; rw [if_pos rfl]; exact v1
      simp only [Res.ok_bind, a2, contract_eq v v _ B ⟨hB.1, hB.2.1⟩ v2 v2, readAt, List.getElem?_cons_zero, Res.pure_eq, if_true, Res.ok.injEq] at a
      rw [← a, hQ, eval_finsetSum, sum_mul]
      refine sum_congr rfl fun i hi => ?_
      rw [eval_finsetSum, sum_mul]
      refine sum_congr rfl fun j hj => ?_
      rw [mem_range] at hi hj
      rw [v3 i hi, v3 j hj, hB.2.2 i hi j hj]
      simp only [Function.iterate_zero, id, eval_mul, eval_C, eval_X]
      ring
    have hQdeg : Q.natDegree ≤ 2 * ((PolyBasis.mk' f n).noverlap * n - 1) := by
      have := rho_deg h φ hφ P 0 he
      rw [hrhoQ] at this
      by_cases hq0 : Q = 0
      · rw [hq0]; simp
      · rw [natDegree_X_mul hq0] at this
        omega
    have hint : ∫ r in (coord bval 0 xa)..(coord bval 0 xb), (rho N P φ 0).eval r / r = ∫ r in (coord bval 0 xa)..(coord bval 0 xb), Q.eval r := by
      apply intervalIntegral.integral_congr_uIoo
      intro r hrr
      have hp := coord_pos h h0 0 he xa ha
      have hp2 := coord_pos h h0 0 he xb (by linarith)
      have : 0 < r := by
        have := hrr.1
        rcases le_total (coord bval 0 xa) (coord bval 0 xb) with hle | hle
        · rw [min_eq_left hle] at this; linarith
        · rw [min_eq_right hle] at this; linarith
      simp only
      rw [hrhoQ, eval_mul, eval_X, mul_div_cancel_left₀ _ this.ne']
    rw [hint]
    have := rule_range rule _ hr.exact Q hQdeg (1 / 2 * (bval.getD 0 0 + bval.getD (0 + 1) 0)) ((bval.getD (0 + 1) 0 - bval.getD 0 0) / 2) xa xb
    unfold coord at hgQ ⊢
    rw [← this, ← List.sum_map_mul_left]
    congr 1
    apply List.map_congr_left
    intro q hq
    rw [hgQ _ (node_ge _ _ _ ha hab (hr.nodes q hq).1)]
    rw [show (xb - xa) / 2 * q.1 + (xb + xa) / 2 = 1 / 2 * (xa + xb) + 1 / 2 * (xb - xa) * q.1 by ring]
    ring

/-- a function that is polynomial on every element integrates element by element -/
theorem piecewise_integral (b : Nat → ℝ) (ne : Nat) (hb : ∀ e < ne, b e ≤ b (e + 1)) (F : ℝ → ℝ) (p : Nat → ℝ → ℝ)
    (hp : ∀ e < ne, ∀ r s, b e ≤ r → r ≤ s → s ≤ b (e + 1) → IntervalIntegrable (p e) MeasureTheory.volume r s)
    (hF : ∀ e < ne, ∀ r, b e < r → r < b (e + 1) → F r = p e r) :
    ∀ e < ne, ∀ r, b e ≤ r → r ≤ b (e + 1) →
      IntervalIntegrable F MeasureTheory.volume (b 0) r ∧ ∫ s in (b 0)..r, F s = ∑ e' ∈ range e, (∫ s in (b e')..(b (e' + 1)), p e' s) + ∫ s in (b e)..r, p e s := by
  have sub : ∀ e < ne, ∀ r s, b e ≤ r → r ≤ s → s ≤ b (e + 1) →
      IntervalIntegrable F MeasureTheory.volume r s ∧ ∫ t in r..s, F t = ∫ t in r..s, p e t := by
    intro e he r s h1 h2 h3
    have hcong : Set.EqOn F (p e) (Set.uIoo r s) := by
      intro t ht
      rw [Set.uIoo_of_le h2] at ht
      exact hF e he t (by linarith [ht.1]) (by linarith [ht.2])
    exact ⟨(hp e he r s h1 h2 h3).congr_uIoo (fun t ht => (hcong ht).symm), intervalIntegral.integral_congr_uIoo hcong⟩
  intro e
  induction e with
  | zero =>
    intro he r h1 h2
    obtain ⟨a, c⟩ := sub 0 he (b 0) r le_rfl h1 h2
    exact ⟨a, by rw [c]; simp⟩
  | succ e ih =>
    intro he r h1 h2
    obtain ⟨a, c⟩ := ih (by omega) (b (e + 1)) (hb e (by omega)) le_rfl
    obtain ⟨a', c'⟩ := sub (e + 1) he (b (e + 1)) r le_rfl h1 h2
    refine ⟨a.trans a', ?_⟩
    rw [← intervalIntegral.integral_add_adjacent_intervals a a', c, c', sum_range_succ]

/-- density matrix of the shells -/
noncomputable def pmat (shells : List Shell) (i j : Nat) : ℝ := (shells.map fun s => ∑ k ∈ range s.C.cols, s.C.get i k * s.occ k * s.C.get j k).sum

theorem pmat_symm (shells : List Shell) (i j : Nat) : pmat shells i j = pmat shells j i := by
  unfold pmat
  congr 1
  apply List.map_congr_left
  intro s _
  apply sum_congr rfl
  intro k _
  ring

theorem contractShells_eq (N : Nat) (shells : List Shell) (hs : ∀ s ∈ shells, s.C.cols = 0 ∨ s.C.rows = N) :
    ∀ P : Mat ℝ, P.rows = N → P.cols = N → ∃ P', contractShells P shells = .ok P' ∧ P'.rows = N ∧ P'.cols = N ∧ ∀ i j, P'.get i j = P.get i j + pmat shells i j := by
  induction shells with
  | nil => intro P h1 h2; exact ⟨P, rfl, h1, h2, by simp [pmat]⟩
  | cons s r ih =>
    intro P h1 h2
    have ih' := ih (fun t ht => hs t (List.mem_cons_of_mem _ ht))
    rw [contractShells]
    by_cases hc : s.C.cols = 0
    · rw [if_pos hc]
      obtain ⟨P', a, b, c, d⟩ := ih' P h1 h2
      exact ⟨P', a, b, c, fun i j => by rw [d, pmat, pmat, List.map_cons, List.sum_cons, hc]; simp⟩
    · rw [if_neg hc]
      have hrow := (hs s (List.mem_cons_self ..)).resolve_left hc
      have : P.add (shellDensity s) = .ok ⟨P.rows, P.cols, fun i j => P.get i j + (shellDensity s).get i j⟩ := by
        unfold Mat.add shellDensity
        rw [if_pos ⟨by simp [h1, hrow], by simp [h2, hrow]⟩]
      rw [this, Res.ok_bind]
      obtain ⟨P', a, b, c, d⟩ := ih' ⟨P.rows, P.cols, fun i j => P.get i j + (shellDensity s).get i j⟩ h1 h2
      refine ⟨P', a, b, c, fun i j => ?_⟩
      rw [d, pmat, pmat, List.map_cons, List.sum_cons]
      simp only [shellDensity]
      ring

theorem below_eq (q : Nat → ℝ) (nel : Nat) : ∀ i ≤ nel, below ((List.range nel).map q) i = ∑ e ∈ range i, q e := by
  intro i
  induction i with
  | zero => intro _; rfl
  | succ i ih =>
    intro hi
    rw [below, ih (by omega), sum_range_succ]
    simp [show i < nel by omega]

theorem above_eq (q : Nat → ℝ) (nel : Nat) : ∀ k < nel, above ((List.range nel).map q) nel k = ∑ e ∈ range k, q (nel - 1 - e) := by
  intro k
  induction k with
  | zero => intro _; rfl
  | succ k ih =>
    intro hk
    rw [above, ih (by omega), sum_range_succ]
    simp [show nel - 1 - k < nel by omega]

theorem sum_tail (q : Nat → ℝ) (nel e : Nat) (he : e < nel) : ∑ k ∈ range (nel - 1 - e), q (nel - 1 - k) = ∑ k ∈ Ico (e + 1) nel, q k := by
  obtain ⟨d, rfl⟩ : ∃ d, nel = e + 1 + d := ⟨nel - e - 1, by omega⟩
  rw [sum_Ico_eq_sum_range, show e + 1 + d - 1 - e = d by omega, show e + 1 + d - (e + 1) = d by omega, ← sum_range_reflect]
  apply sum_congr rfl
  intro k hk
  rw [mem_range] at hk
  congr 1
  omega

theorem readAt_map {α : Type _} (g : Nat → α) (nel e : Nat) (he : e < nel) : readAt ((List.range nel).map g) e = .ok (g e) := by
  simp [readAt, he]

/-- what the constructor produces -/
theorem build_eq (h : Basis f n ne true zdl zfr zdr x0 bval o N first last) (φ : Nat → Nat → ℝ[X]) (hφ : IsPieces o x0 ne first φ)
    (h0 : bval.getD 0 0 = 0) (hne0 : first 0 ≤ last 0) (rule : List (ℝ × ℝ)) (hr : GoodRule rule (2 * ((PolyBasis.mk' f n).noverlap * n - 1)))
    (shells : List Shell) (hs : ∀ s ∈ shells, s.C.cols = 0 ∨ s.C.rows = N) :
    ∃ (a : Atom) (B : Nat → Mat ℝ) (m : Nat → ℝ), Atom.build ⟨o, x0, rule⟩ shells = .ok a ∧ a.db = ⟨o, x0, rule⟩ ∧ a.Rmax = bval.getD ne 0 ∧
      (∀ e < ne, readAt a.Psub e = .ok (B e) ∧ IsBlock (pmat shells) (first e) (last e + 1 - first e) (B e)) ∧
      (∀ e < ne, partialIntegral ⟨o, x0, rule⟩ (B e) e (-1) 1 true = .ok (m e)) ∧
      (∀ e < ne, readAt a.Qbelow e = .ok (∑ e' ∈ range e, ∫ r in (bval.getD e' 0)..(bval.getD (e' + 1) 0), (rho N (pmat shells) φ e').eval r)) ∧
      (∀ e < ne, readAt a.Mabove e = .ok (∑ e' ∈ Ico (e + 1) ne, m e')) ∧
      a.Ntot = ∑ e' ∈ range ne, ∫ r in (bval.getD e' 0)..(bval.getD (e' + 1) 0), (rho N (pmat shells) φ e').eval r := by
  have hl := h.len
  have hn := h.nelem
  obtain ⟨l1, l2, l3, l4, l5⟩ := layout f n ne true zdl zfr zdr h.nodes.two h.nelem bval h.len o h.built N h.nbf h.pos first last h.idx
  obtain ⟨P, p1, p2, p3, p4⟩ := contractShells_eq N shells hs (Mat.zero N N) rfl rfl
  have hnel : nelem o.bval = ne := by rw [h.shape.2]; unfold nelem; rw [hl, if_neg (by omega)]; omega
  obtain ⟨B, hB⟩ : ∃ B : Nat → Mat ℝ, B = fun e => ⟨last e + 1 - first e, last e + 1 - first e, fun i j => P.get (first e + i) (first e + j)⟩ := ⟨_, rfl⟩
  have hIB : ∀ e, IsBlock (pmat shells) (first e) (last e + 1 - first e) (B e) := by
    intro e
    rw [hB]
    refine ⟨rfl, rfl, fun i _ j _ => ?_⟩
    simp only
    rw [p4]
    simp [Mat.zero]
  have hblk : ∀ e ∈ List.range ne, elementBlock o P e = .ok (B e) := by
    intro e he
    rw [List.mem_range] at he
    have a := l4 e he
    have b := (h.count e he 0).2
    unfold elementBlock
    rw [h.idx e he]
    simp only [Res.ok_bind]
    rw [hB]
    unfold Mat.block
    rw [if_pos ⟨by omega, by omega⟩]
  have hm : ∀ e, ∃ m, e < ne → partialIntegral ⟨o, x0, rule⟩ (B e) e (-1) 1 true = .ok m := by
    intro e
    by_cases he : e < ne
    · obtain ⟨m, a, _⟩ := partial_moment h φ hφ h0 hne0 rule hr (pmat shells) e he (B e) (hIB e) (-1) 1 le_rfl (by norm_num)
      exact ⟨m, fun _ => a⟩
    · exact ⟨0, fun hc => absurd hc he⟩
  choose m hm using hm
  have hq : ∀ e < ne, partialIntegral ⟨o, x0, rule⟩ (B e) e (-1) 1 false = .ok (∫ r in (bval.getD e 0)..(bval.getD (e + 1) 0), (rho N (pmat shells) φ e).eval r) := by
    intro e he
    rw [partial_charge h φ hφ h0 hne0 rule hr (pmat shells) e he (B e) (hIB e) (-1) 1 le_rfl (by norm_num), coord_left, coord_right]
  have hend : elementEnd o.bval (ne - 1) = .ok (bval.getD ne 0) := by
    rw [h.shape.2, end_eq bval (ne - 1) (by omega)]
    simp [show ne - 1 + 1 = ne by omega, show ne < bval.length by omega]
  obtain ⟨q, hqd⟩ : ∃ q : Nat → ℝ, q = fun e => ∫ r in (bval.getD e 0)..(bval.getD (e + 1) 0), (rho N (pmat shells) φ e).eval r := ⟨_, rfl⟩
  refine ⟨⟨⟨o, x0, rule⟩, (List.range ne).map B, (List.range ne).map (below ((List.range ne).map q)),
    (List.range ne).map (fun iel => above ((List.range ne).map m) ne (ne - 1 - iel)), ((List.range ne).map q).sum, bval.getD ne 0⟩, B, m, ?_, rfl, rfl,
    fun e he => ⟨readAt_map B ne e he, hIB e⟩, hm, ?_, ?_, ?_⟩
  · unfold Atom.build
    simp only [h.nbf, Res.ok_bind, p1, hnel]
    rw [Res.mapM_ok _ B _ hblk]
    simp only [Res.ok_bind]
    rw [Res.mapM_ok _ q _ (fun e he => by
      have he := List.mem_range.1 he
      rw [readAt_map B ne e he, Res.ok_bind, hq e he, hqd])]
    simp only [Res.ok_bind]
    rw [Res.mapM_ok _ m _ (fun e he => by
      have he := List.mem_range.1 he
      rw [readAt_map B ne e he, Res.ok_bind, hm e he])]
    simp only [Res.ok_bind, hend, Res.pure_eq]
  · intro e he
    simp only
    rw [readAt_map _ ne e he, below_eq _ _ _ he.le, hqd]
  · intro e he
    simp only
    rw [readAt_map _ ne e he, above_eq _ _ _ (by omega), sum_tail m ne e he]
  · simp only
    rw [sum_map_range, hqd]

theorem locate_eq (h : Basis f n ne zfl zdl zfr zdr x0 bval o N first last) (rule : List (ℝ × ℝ)) (r : ℝ) (hr0 : bval.getD 0 0 ≤ r) (hr1 : r ≤ bval.getD ne 0) :
    ∃ e x, locate ⟨o, x0, rule⟩ r = .ok (e, x) ∧ e < ne ∧ -1 ≤ x ∧ x ≤ 1 ∧ coord bval e x = r := by
  have hl := h.len
  have hn := h.nelem
  obtain ⟨e, he, f1, f2⟩ := C03_find_element_returns_partial bval (by omega) h.inc r
  have f3 := C03_find_element_fuel_irrelevant _ _ _ _ _ f1 1
  rw [show bval.length - 1 + 1 = bval.length by omega] at f3
  have g0 : bval.getD 0 0 = bval[0]'(by omega) := by simp [show 0 < bval.length by omega]
  have g1 : bval.getD ne 0 = bval[ne]'(by omega) := by simp [show ne < bval.length by omega]
  have ge : bval.getD e 0 = bval[e]'(by omega) := by simp [show e < bval.length by omega]
  have ge' : bval.getD (e + 1) 0 = bval[e + 1]'(by omega) := by simp [show e + 1 < bval.length by omega]
  have hin : bval.getD e 0 ≤ r ∧ r ≤ bval.getD (e + 1) 0 := by
    rw [ge, ge']
    rcases f2 with f2 | f2 | f2
    · exact f2
    · exact absurd f2.2 (by rw [← g0]; exact not_lt.2 hr0)
    · exfalso
      have : bval[bval.length - 1]'(by omega) = bval.getD ne 0 := by rw [g1]; congr 1; omega
      rw [this] at f2
      linarith [f2.2]
  have hlt := getD_lt h.inc e (by omega)
  have hc : coord bval e ((r - 1 / 2 * (bval.getD e 0 + bval.getD (e + 1) 0)) / (1 / 2 * (bval.getD (e + 1) 0 - bval.getD e 0))) = r := by
    unfold coord
    have : bval.getD (e + 1) 0 - bval.getD e 0 ≠ 0 := by linarith
    field_simp
    ring
  have hx1 : -1 ≤ (r - 1 / 2 * (bval.getD e 0 + bval.getD (e + 1) 0)) / (1 / 2 * (bval.getD (e + 1) 0 - bval.getD e 0)) := by
    rw [le_div_iff₀ (by linarith)]; linarith [hin.1]
  have hx2 : (r - 1 / 2 * (bval.getD e 0 + bval.getD (e + 1) 0)) / (1 / 2 * (bval.getD (e + 1) 0 - bval.getD e 0)) ≤ 1 := by
    rw [div_le_iff₀ (by linarith)]; linarith [hin.2]
  refine ⟨e, _, ?_, by omega, hx1, hx2, hc⟩
  unfold locate
  simp only
  rw [h.shape.2, f3]
  simp only [Res.ok_bind, elementMidpoint_eq bval e (by omega), elementLength_eq bval e (by omega), Res.pure_eq]
  rw [max_eq_left hx1, min_eq_left hx2]

end AtomDB
end HelFEM
