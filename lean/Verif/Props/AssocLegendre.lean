import Verif.Lemmas.ALegCF

/-!
# C37: tables of associated Legendre functions
-/

namespace HelFEM
namespace ALeg
open Polynomial

/-- After the call the buffer holds `f l m` at `l + m (lmax + 1)` for all degrees up to `lmax` and orders up to `mmax`, and is unchanged beyond the table. -/
def IsTable (out v : Vect ℝ) (lmax mmax : Nat) (f : Nat → Nat → ℝ) : Prop :=
  v.size = out.size ∧ (∀ l m, l ≤ lmax → m ≤ mmax → entry v.get lmax l m = f l m) ∧ ∀ i, (lmax + 1) * (mmax + 1) ≤ i → v.get i = out.get i

theorem Good.isTable {out v : Vect ℝ} {lmax mmax : Nat} {F : Nat → Nat → ℝ} (h : Good out v lmax mmax (fun _ _ => True) F) :
    IsTable out v lmax mmax F :=
  ⟨h.size, fun l m hl hm => by
    have := h.val l m hl hm trivial
    unfold entry; unfold idx at this
    rw [Nat.add_comm]; exact this, h.beyond⟩

/-- The table of the first kind: for every degree and order, every argument and every buffer that can hold the table, the call succeeds, stays inside the
table and every entry is `P_l^m(x)`; in particular the entries with `m > l` are zero. -/
theorem C37_first_kind (lmax mmax : Nat) (x : ℝ) (out : Vect ℝ) (hfit : (lmax + 1) * (mmax + 1) ≤ out.size) :
    ∃ v, plm lmax mmax x out = .ok v ∧ IsTable out v lmax mmax (fun l m => assocP l m x) ∧
      ∀ l m, l ≤ lmax → m ≤ mmax → l < m → entry v.get lmax l m = 0 := by
  obtain ⟨v, e, h⟩ := computePlm_ok lmax mmax x out hfit
  refine ⟨v, ?_, h.isTable, ?_⟩
  · unfold plm
    rw [if_neg (by omega)]
    exact e
  · intro l m hl hm hlm
    rw [h.isTable.2.1 l m hl hm]
    exact assocP_gt l m x hlm

theorem qlm_start (tiny tol : ℝ) (lmax mmax : Nat) (x : ℝ) (hx : |x| ≠ 1) (out : Vect ℝ) (hfit : (lmax + 1) * (mmax + 1) ≤ out.size) :
    ∃ v, Good out v lmax mmax (fun l m => l ≤ 1 ∧ m ≤ 1) (fun l m => assocQ l m x) ∧ ∀ n : Nat,
      (|x| ≤ 1 → qlm tiny tol n lmax mmax x out = computeQlmUpward lmax mmax x v) ∧
      (¬|x| ≤ 1 → nearCut lmax x → qlm tiny tol n lmax mmax x out = computeQlmChristoffel lmax mmax x v) ∧
      (¬|x| ≤ 1 → ¬nearCut lmax x → qlm tiny tol n lmax mmax x out = computeQlmMiller tiny tol n lmax mmax x v) := by
  obtain ⟨v, e, h⟩ := seedQlm_ok lmax mmax x hx out ⟨out.size, fun i => if i < (lmax + 1) * (mmax + 1) then 0 else out.get i⟩ (fun _ _ => True)
    (fun _ _ => 0) ⟨rfl, hfit, fun l m hl hm _ => if_pos (idx_lt hl hm), fun i hi => if_neg (by omega)⟩
  refine ⟨v, h, fun n => ⟨?_, ?_, ?_⟩⟩
  · intro h1
    unfold qlm
    rw [if_neg (by omega), if_neg hx]
    simp only [Int.toNat_natCast]
    rw [if_pos hfit, e, Res.ok_bind, if_pos h1]
  · intro h1 h2
    unfold qlm
    rw [if_neg (by omega), if_neg hx]
    simp only [Int.toNat_natCast]
    rw [if_pos hfit, e, Res.ok_bind, if_neg h1, if_pos h2]
  · intro h1 h2
    unfold qlm
    rw [if_neg (by omega), if_neg hx]
    simp only [Int.toNat_natCast]
    rw [if_pos hfit, e, Res.ok_bind, if_neg h1, if_neg h2]

/-- The table of the second kind on the cut and, above it, in the whole region where the code does not iterate a continued fraction: the call succeeds,
stays inside the table and every entry is `Q_l^m(x)`. -/
theorem C37_second_kind (tiny tol : ℝ) (n lmax mmax : Nat) (x : ℝ) (out : Vect ℝ) (hx : |x| ≠ 1) (hreg : |x| < 1 ∨ nearCut lmax x)
    (hfit : (lmax + 1) * (mmax + 1) ≤ out.size) :
    ∃ v, qlm tiny tol n lmax mmax x out = .ok v ∧ IsTable out v lmax mmax (fun l m => assocQ l m x) := by
  obtain ⟨v, h, hq⟩ := qlm_start tiny tol lmax mmax x hx out hfit
  obtain ⟨h1, h2, _⟩ := hq n
  by_cases hc : |x| ≤ 1
  · obtain ⟨v', e, h'⟩ := computeQlmUpward_ok lmax mmax x hx out v h
    exact ⟨v', by rw [h1 hc, e], h'.isTable⟩
  · have hn : nearCut lmax x := hreg.resolve_left (fun h => hc h.le)
    obtain ⟨v', e, h'⟩ := computeQlmChristoffel_ok lmax mmax x hc out v _ _ h
    exact ⟨v', by rw [h2 hc hn, e], h'.isTable⟩

/-- The table of the second kind where the code iterates a continued fraction: for every wanted accuracy `δ` there is `ε` such that for all constants `tiny`
and `tol` below `ε`, the call either reports that the fraction did not converge within the iterations allowed, or fills the table with entries within `δ`
of `Q_l^m(x)`; and with enough iterations it does the latter. -/
theorem C37_second_kind_far (lmax mmax : Nat) (x : ℝ) (hx : 1 < |x|) (hreg : ¬nearCut lmax x) (δ : ℝ) (hδ : 0 < δ) :
    ∃ ε : ℝ, 0 < ε ∧ ∀ tiny tol, 0 < tiny → tiny < ε → 0 < tol → tol < ε → ∀ out : Vect ℝ, (lmax + 1) * (mmax + 1) ≤ out.size →
      (∀ n, qlm tiny tol n lmax mmax x out = .throw .runtimeError ∨
        ∃ v f, qlm tiny tol n lmax mmax x out = .ok v ∧ IsTable out v lmax mmax f ∧
          ∀ l m, l ≤ lmax → m ≤ mmax → |f l m - assocQ l m x| < δ) ∧
      ∃ N, ∀ n, N ≤ n → ∃ v f, qlm tiny tol n lmax mmax x out = .ok v ∧ IsTable out v lmax mmax f ∧
          ∀ l m, l ≤ lmax → m ≤ mmax → |f l m - assocQ l m x| < δ := by
  have habs : ¬|x| ≤ 1 := not_le.2 hx
  have h1x : |x| ≠ 1 := fun e => habs e.le
  have hl : 1 ≤ lmax := by
    rcases Nat.eq_zero_or_pos lmax with h | h
    · exact absurd (Or.inl h) hreg
    · exact h
  obtain ⟨ε, hε, H⟩ := miller_limit x habs lmax mmax hl δ hδ
  refine ⟨ε, hε, fun tiny tol ht ht2 htol htol2 out hfit => ?_⟩
  obtain ⟨v, h, h3⟩ := qlm_start tiny tol lmax mmax x h1x out hfit
  have key : ∀ n, qlm tiny tol n lmax mmax x out = .throw .runtimeError ∨
      ∃ v f, qlm tiny tol n lmax mmax x out = .ok v ∧ IsTable out v lmax mmax f ∧ ∀ l m, l ≤ lmax → m ≤ mmax → |f l m - assocQ l m x| < δ := by
    intro n
    rw [(h3 n).2.2 habs hreg]
    rcases (H tiny tol ht ht2 htol htol2 out v _ _ h).1 n with h | ⟨v', F, e, g, b⟩
    · exact Or.inl h
    · exact Or.inr ⟨v', F, e, g.isTable, b⟩
  refine ⟨key, ?_⟩
  obtain ⟨N, hN⟩ := (H tiny tol ht ht2 htol htol2 out v _ _ h).2
  refine ⟨N, fun n hn => (key n).resolve_left ?_⟩
  rw [(h3 n).2.2 habs hreg]
  exact hN n hn

/-- The recurrence in the degree holds for all neighbouring entries of a table of the first kind and of the second kind, at every order. -/
theorem C37_degree_recurrence (tiny tol : ℝ) (n lmax mmax : Nat) (x : ℝ) (out : Vect ℝ) (hfit : (lmax + 1) * (mmax + 1) ≤ out.size) :
    (∀ v, plm lmax mmax x out = .ok v → ∀ l m : Nat, l + 2 ≤ lmax → m ≤ mmax →
      ((l : ℝ) + 2 - m) * entry v.get lmax (l + 2) m = (2 * l + 3) * x * entry v.get lmax (l + 1) m - (l + 1 + m) * entry v.get lmax l m) ∧
    ((|x| < 1 ∨ nearCut lmax x) → ∀ v, qlm tiny tol n lmax mmax x out = .ok v → ∀ l m : Nat, l + 2 ≤ lmax → m ≤ mmax →
      ((l : ℝ) + 2 - m) * entry v.get lmax (l + 2) m = (2 * l + 3) * x * entry v.get lmax (l + 1) m - (l + 1 + m) * entry v.get lmax l m) := by
  constructor
  · intro v hv l m hl hm
    obtain ⟨w, e, h, _⟩ := C37_first_kind lmax mmax x out hfit
    rw [e] at hv; cases hv
    rw [h.2.1 _ m hl hm, h.2.1 _ m (by omega) hm, h.2.1 _ m (by omega) hm]
    exact assocP_recL l m x
  · intro hreg v hv l m hl hm
    have hx : |x| ≠ 1 := by
      intro e
      unfold qlm at hv
      rw [if_neg (by omega), if_pos e] at hv
      cases hv
    obtain ⟨w, e, h⟩ := C37_second_kind tiny tol n lmax mmax x out hx hreg hfit
    rw [e] at hv; cases hv
    rw [h.2.1 _ m hl hm, h.2.1 _ m (by omega) hm, h.2.1 _ m (by omega) hm]
    exact assocQ_recL l m x hx

/-- Above the cut the two direct evaluation paths, the upward recurrence and the decomposition into first-kind functions, fill identical tables. -/
theorem C37_paths_agree (lmax mmax : Nat) (x : ℝ) (hx : 1 < |x|) (out v : Vect ℝ) (hfit : (lmax + 1) * (mmax + 1) ≤ out.size)
    (hv : seedQlm lmax mmax x ⟨out.size, fun i => if i < (lmax + 1) * (mmax + 1) then 0 else out.get i⟩ = .ok v) :
    ∃ a b, computeQlmUpward lmax mmax x v = .ok a ∧ computeQlmChristoffel lmax mmax x v = .ok b ∧ a.size = b.size ∧
      (∀ l m, l ≤ lmax → m ≤ mmax → entry a.get lmax l m = entry b.get lmax l m) ∧ ∀ i, (lmax + 1) * (mmax + 1) ≤ i → a.get i = b.get i := by
  have habs : ¬|x| ≤ 1 := not_le.2 hx
  have h1x : |x| ≠ 1 := fun e => habs e.le
  obtain ⟨w, e, h⟩ := seedQlm_ok lmax mmax x h1x out ⟨out.size, fun i => if i < (lmax + 1) * (mmax + 1) then 0 else out.get i⟩ (fun _ _ => True)
    (fun _ _ => 0) ⟨rfl, hfit, fun l m hl hm _ => if_pos (idx_lt hl hm), fun i hi => if_neg (by omega)⟩
  rw [e] at hv; cases hv
  obtain ⟨a, e1, h1⟩ := computeQlmUpward_ok lmax mmax x h1x out v h
  obtain ⟨b, e2, h2⟩ := computeQlmChristoffel_ok lmax mmax x habs out v _ _ h
  refine ⟨a, b, e1, e2, by rw [h1.size, h2.size], fun l m hl hm => ?_, fun i hi => by rw [h1.beyond i hi, h2.beyond i hi]⟩
  rw [h1.isTable.2.1 l m hl hm, h2.isTable.2.1 l m hl hm]

/-- Negative degrees or orders are rejected, and so are the singular arguments of the second kind. -/
theorem C37_rejections (tiny tol : ℝ) (n : Nat) (lmax mmax : Int) (x : ℝ) (out : Vect ℝ) :
    (lmax < 0 ∨ mmax < 0 → plm lmax mmax x out = .throw .invalidArgument ∧ qlm tiny tol n lmax mmax x out = .throw .invalidArgument) ∧
    (0 ≤ lmax → 0 ≤ mmax → x = 1 ∨ x = -1 → qlm tiny tol n lmax mmax x out = .throw .domainError) := by
  constructor
  · intro h
    unfold plm qlm
    rw [if_pos h, if_pos h]
    exact ⟨rfl, rfl⟩
  · intro h1 h2 h
    unfold qlm
    rw [if_neg (by omega), if_pos (by rcases h with rfl | rfl <;> simp)]

/-- Distinct pairs of degree and order have distinct places inside the table. -/
theorem C37_places (lmax mmax l m l' m' : Nat) (hl : l ≤ lmax) (hm : m ≤ mmax) (hl' : l' ≤ lmax) :
    idx l m lmax < (lmax + 1) * (mmax + 1) ∧ (idx l m lmax = idx l' m' lmax → l = l' ∧ m = m') :=
  ⟨idx_lt hl hm, idx_inj hl hl'⟩

/-- The specification's functions of the second kind solve Legendre's equation, as the polynomials do, away from the singularities. -/
theorem C37_legendre_equation (l : Nat) (x : ℝ) (hx : |x| ≠ 1) :
    (1 - x ^ 2) * iteratedDeriv 2 (legQ l) x - 2 * x * iteratedDeriv 1 (legQ l) x + l * (l + 1) * legQ l x = 0 := by
  have := jetQ.recM l 0 x ((abs_ne_one_iff x).1 hx)
  simp only [Nat.cast_zero, iteratedDeriv_zero] at this
  linarith

/-- The documentation says that the entries with `m > l` are zero in both tables. For the second kind they are not: `Q_0^1(x)` is `-1/√|1-x²|`. -/
theorem C37_second_kind_not_zero_above_degree (tiny tol : ℝ) (n lmax : Nat) (x : ℝ) (out : Vect ℝ) (hx : |x| ≠ 1) (hreg : |x| < 1 ∨ nearCut lmax x)
    (hfit : (lmax + 1) * 2 ≤ out.size) : ∃ v, qlm tiny tol n lmax 1 x out = .ok v ∧ entry v.get lmax 0 1 ≠ 0 := by
  obtain ⟨v, e, h⟩ := C37_second_kind tiny tol n lmax 1 x out hx hreg hfit
  refine ⟨v, e, ?_⟩
  rw [h.2.1 0 1 (Nat.zero_le _) le_rfl]
  simp only
  rw [assocQ_zero_one x hx]
  exact div_ne_zero (by norm_num) (ww_ne x hx)

/-! ## Concrete cases -/

/-- a table of degrees up to 3 and orders up to 5 in a larger buffer -/
example : ∃ v, plm 3 5 (1 / 2) ⟨30, fun _ => 7⟩ = .ok v ∧ entry v.get 3 2 1 = -(3 / 2) * Real.sqrt (3 / 4) ∧ entry v.get 3 1 3 = 0 ∧ v.get 24 = 7 := by
  obtain ⟨v, e, h, hz⟩ := C37_first_kind 3 5 (1 / 2) ⟨30, fun _ => 7⟩ (by norm_num)
  refine ⟨v, e, ?_, hz 1 3 (by norm_num) (by norm_num) (by norm_num), h.2.2 24 (by norm_num)⟩
  rw [h.2.1 2 1 (by norm_num) (by norm_num)]
  have h1 : |(1 / 2 : ℝ)| ≤ 1 := by rw [abs_of_pos] <;> norm_num
  simp only [assocP, prefactor, if_pos h1, Poly.pP]
  norm_num [derivative_mul]
  ring_nf

/-- above the cut, `P_2^1(2) = 6 √3` -/
example : assocP 2 1 2 = 6 * Real.sqrt 3 := by
  have h1 : ¬|(2 : ℝ)| ≤ 1 := by rw [abs_of_pos] <;> norm_num
  simp only [assocP, prefactor, if_neg h1, Poly.pP]
  norm_num [derivative_mul]
  ring_nf

/-- `Q_1^0(2)`, between the cut and the region of the continued fraction -/
example : nearCut 1 2 ∧ ∃ v, qlm 1 1 0 1 2 2 ⟨6, fun _ => 0⟩ = .ok v ∧ entry v.get 1 1 0 = Real.log 3 - 1 := by
  have hn : nearCut 1 2 := by
    right
    rw [abs_of_pos (by norm_num), Real.cosh_eq]
    have h0 : 0 < Real.exp (-(Real.log 1000 / ((2 * (1 : Nat) : Int) : ℝ))) := Real.exp_pos _
    have h1 : Real.exp (Real.log 1000 / ((2 * (1 : Nat) : Int) : ℝ)) * Real.exp (Real.log 1000 / ((2 * (1 : Nat) : Int) : ℝ)) = 1000 := by
      rw [← Real.exp_add]
      push_cast
      rw [add_halves, Real.exp_log (by norm_num)]
    have h2 : 31 < Real.exp (Real.log 1000 / ((2 * (1 : Nat) : Int) : ℝ)) := by
      have := Real.exp_pos (Real.log 1000 / ((2 * (1 : Nat) : Int) : ℝ))
      nlinarith
    linarith
  have h2 : |(2 : ℝ)| ≠ 1 := by rw [abs_of_pos] <;> norm_num
  obtain ⟨v, e, h⟩ := C37_second_kind 1 1 0 1 2 2 ⟨6, fun _ => 0⟩ h2 (Or.inr hn) (by norm_num)
  refine ⟨hn, v, e, ?_⟩
  rw [h.2.1 1 0 (by norm_num) (by norm_num)]
  simp only
  rw [assocQ_zero, legQ]
  norm_num
  ring

/-- far above the cut, where the continued fraction is used -/
example : ¬nearCut 1 1000 := by
  rintro (h | h)
  · omega
  · rw [abs_of_pos (by norm_num), Real.cosh_eq] at h
    have h1 : Real.exp (Real.log 1000 / ((2 * (1 : Nat) : Int) : ℝ)) ≤ 1000 := by
      rw [← Real.le_log_iff_exp_le (by norm_num)]
      push_cast
      have : 0 ≤ Real.log 1000 := Real.log_nonneg (by norm_num)
      linarith
    have h2 : Real.exp (-(Real.log 1000 / ((2 * (1 : Nat) : Int) : ℝ))) ≤ 1000 := by
      refine (Real.exp_le_one_iff.2 ?_).trans (by norm_num)
      push_cast
      have : 0 ≤ Real.log 1000 := Real.log_nonneg (by norm_num)
      linarith
    linarith

end ALeg
end HelFEM
