import Verif.Lemmas.AssocLegendre

/-!
# Filling the associated Legendre tables
-/

namespace HelFEM
namespace ALeg
open Polynomial

/-! ## Loops -/

theorem forUp_inv {σ : Type _} (f : Nat → σ → Res σ) (I : Nat → σ → Prop) : ∀ (k lo : Nat) (s : σ), I lo s →
    (∀ i s, lo ≤ i → i < lo + k → I i s → ∃ s', f i s = .ok s' ∧ I (i + 1) s') → ∃ s', forUp f lo k s = .ok s' ∧ I (lo + k) s' := by
  intro k
  induction k with
  | zero => intro lo s h0 _; exact ⟨s, rfl, h0⟩
  | succ k ih =>
    intro lo s h0 hs
    obtain ⟨s1, e1, h1⟩ := hs lo s le_rfl (by omega) h0
    obtain ⟨s2, e2, h2⟩ := ih (lo + 1) s1 h1 (fun i s a b => hs i s (by omega) (by omega))
    refine ⟨s2, ?_, by rw [show lo + (k + 1) = lo + 1 + k by omega]; exact h2⟩
    rw [forUp, e1, Res.ok_bind, e2]

theorem forDown_inv {σ : Type _} (f : Nat → σ → Res σ) (I : Nat → σ → Prop) : ∀ (hi : Nat) (s : σ), I hi s →
    (∀ i s, 1 ≤ i → i ≤ hi → I i s → ∃ s', f i s = .ok s' ∧ I (i - 1) s') → ∃ s', forDown f hi s = .ok s' ∧ I 0 s' := by
  intro hi
  induction hi with
  | zero => intro s h0 _; exact ⟨s, rfl, h0⟩
  | succ k ih =>
    intro s h0 hs
    obtain ⟨s1, e1, h1⟩ := hs (k + 1) s (by omega) le_rfl h0
    obtain ⟨s2, e2, h2⟩ := ih s1 h1 (fun i s a b => hs i s a (by omega))
    exact ⟨s2, by rw [forDown, e1, Res.ok_bind, e2], h2⟩

/-! ## Tables -/

theorem idx_lt {l m lmax mmax : Nat} (hl : l ≤ lmax) (hm : m ≤ mmax) : idx l m lmax < (lmax + 1) * (mmax + 1) := by
  unfold idx
  have : m * (lmax + 1) ≤ mmax * (lmax + 1) := Nat.mul_le_mul_right _ hm
  nlinarith

theorem idx_inj {l m l' m' lmax : Nat} (hl : l ≤ lmax) (hl' : l' ≤ lmax) (h : idx l m lmax = idx l' m' lmax) : l = l' ∧ m = m' := by
  unfold idx at h
  have h1 : (m * (lmax + 1) + l) / (lmax + 1) = m := by
    rw [Nat.mul_comm, Nat.mul_add_div (by omega), Nat.div_eq_of_lt (by omega), Nat.add_zero]
  have h2 : (m' * (lmax + 1) + l') / (lmax + 1) = m' := by
    rw [Nat.mul_comm, Nat.mul_add_div (by omega), Nat.div_eq_of_lt (by omega), Nat.add_zero]
  have : m = m' := by rw [← h1, ← h2, h]
  subst this
  exact ⟨by omega, rfl⟩

/-- the entries in `S` of the table hold `F`, and the buffer beyond the table is untouched -/
structure Good (out v : Vect ℝ) (lmax mmax : Nat) (S : Nat → Nat → Prop) (F : Nat → Nat → ℝ) : Prop where
  size : v.size = out.size
  fits : (lmax + 1) * (mmax + 1) ≤ out.size
  val : ∀ l m, l ≤ lmax → m ≤ mmax → S l m → v.get (idx l m lmax) = F l m
  beyond : ∀ i, (lmax + 1) * (mmax + 1) ≤ i → v.get i = out.get i

theorem Good.mono {out v : Vect ℝ} {lmax mmax : Nat} {S S' : Nat → Nat → Prop} {F F' : Nat → Nat → ℝ} (h : Good out v lmax mmax S F)
    (hS : ∀ l m, l ≤ lmax → m ≤ mmax → S' l m → S l m ∧ F' l m = F l m) : Good out v lmax mmax S' F' :=
  ⟨h.size, h.fits, fun l m hl hm hs => by
    obtain ⟨h1, h2⟩ := hS l m hl hm hs
    rw [h2]; exact h.val l m hl hm h1, h.beyond⟩

theorem Good.read {out v : Vect ℝ} {lmax mmax : Nat} {S : Nat → Nat → Prop} {F : Nat → Nat → ℝ} (h : Good out v lmax mmax S F)
    {l m : Nat} (hl : l ≤ lmax) (hm : m ≤ mmax) (hs : S l m) : rd v (idx l m lmax) = .ok (F l m) := by
  unfold rd
  rw [if_pos (by rw [h.size]; exact (idx_lt hl hm).trans_le h.fits), h.val l m hl hm hs]

theorem Good.write {out v : Vect ℝ} {lmax mmax : Nat} {S S' : Nat → Nat → Prop} {F F' : Nat → Nat → ℝ} (h : Good out v lmax mmax S F)
    {l m : Nat} (hl : l ≤ lmax) (hm : m ≤ mmax) {a : ℝ} (ha : a = F' l m)
    (hS : ∀ l' m', l' ≤ lmax → m' ≤ mmax → S' l' m' → ¬(l' = l ∧ m' = m) → S l' m' ∧ F' l' m' = F l' m') :
    ∃ v', wr v (idx l m lmax) a = .ok v' ∧ Good out v' lmax mmax S' F' := by
  unfold wr
  rw [if_pos (by rw [h.size]; exact (idx_lt hl hm).trans_le h.fits)]
  refine ⟨_, rfl, h.size, h.fits, ?_, ?_⟩
  · intro l' m' hl' hm' hs
    simp only
    split_ifs with e
    · obtain ⟨rfl, rfl⟩ := idx_inj hl' hl e
      exact ha
    · obtain ⟨h1, h2⟩ := hS l' m' hl' hm' hs (fun ⟨a, b⟩ => e (by rw [a, b]))
      rw [h2]; exact h.val l' m' hl' hm' h1
  · intro i hi
    simp only
    rw [if_neg (by have := idx_lt hl hm; omega)]
    exact h.beyond i hi

/-! ## Recurrences of the scaled functions -/

/-- `s` -/
theorem sf_sq (x : ℝ) : signFactor x * signFactor x = 1 := by
  unfold signFactor; split_ifs <;> norm_num

/-- `w` -/
noncomputable def ww (x : ℝ) : ℝ := sqrtClamped (signFactor x * (1 - x * x))

theorem abs_le_one_iff (x : ℝ) : |x| ≤ 1 ↔ x * x ≤ 1 := by
  rw [abs_le]; constructor
  · rintro ⟨a, b⟩; nlinarith
  · intro h; constructor <;> nlinarith

theorem ww_sq (x : ℝ) : signFactor x * (ww x * ww x) = 1 - x * x := by
  unfold ww sqrtClamped
  rw [Real.mul_self_sqrt (le_max_right _ _)]
  unfold signFactor
  split_ifs with h
  · rw [abs_le_one_iff] at h
    rw [max_eq_left (by linarith)]; ring
  · rw [abs_le_one_iff] at h
    rw [max_eq_left (by linarith)]; ring

theorem ww_nonneg (x : ℝ) : 0 ≤ ww x := Real.sqrt_nonneg _

theorem abs_ne_one_iff (x : ℝ) : |x| ≠ 1 ↔ x ∈ offSing := by
  rw [Ne, abs_eq (by norm_num)]
  simp [offSing, not_or]

theorem ww_ne (x : ℝ) (h : |x| ≠ 1) : ww x ≠ 0 := by
  intro e
  have := ww_sq x
  rw [e] at this
  rw [abs_ne_one_iff] at h
  have h0 : (1 - x) * (1 + x) = 0 := by linarith
  rcases mul_eq_zero.1 h0 with h1 | h1
  · exact h.1 (by linarith)
  · exact h.2 (by linarith)

theorem ww_off (x : ℝ) (h : ¬|x| ≤ 1) : ww x = Real.sqrt (max (x * x - 1) 0) := by
  unfold ww sqrtClamped signFactor; rw [if_neg h]; congr 2; ring

theorem prefactor_eq (m : Nat) (x : ℝ) : prefactor m x = (-signFactor x) ^ m * ww x ^ m := by
  unfold prefactor ww sqrtClamped signFactor
  split_ifs with h
  · rw [abs_le_one_iff] at h
    rw [max_eq_left (by linarith)]; congr 3; ring
  · rw [abs_le_one_iff] at h
    rw [max_eq_left (by linarith), neg_neg, one_pow, one_mul]; congr 2; ring

/-- the scaled family -/
noncomputable def scaled (y : Nat → Nat → ℝ → ℝ) (x : ℝ) (l m : Nat) : ℝ := prefactor m x * y l m x

theorem scaled_recL {U : Set ℝ} {y : Nat → Nat → ℝ → ℝ} (J : Jet U y) (x : ℝ) (hx : x ∈ U) (l m : Nat) :
    ((l : ℝ) + 2 - m) * scaled y x (l + 2) m = (2 * l + 3) * x * scaled y x (l + 1) m - (l + 1 + m) * scaled y x l m := by
  have := J.recL l m x hx
  unfold scaled
  linear_combination prefactor m x * this

theorem scaled_recM {U : Set ℝ} {y : Nat → Nat → ℝ → ℝ} (J : Jet U y) (x : ℝ) (hx : x ∈ U) (hw : ww x ≠ 0) (l m : Nat) :
    scaled y x l (m + 2) = -(2 * ((m : ℝ) + 1)) * x / ww x * scaled y x l (m + 1) -
      signFactor x * (l + (m + 1)) * (l - (m + 1) + 1) * scaled y x l m := by
  have h := J.recM l m x hx
  have e := ww_sq x
  have s2 := sf_sq x
  unfold scaled
  simp only [prefactor_eq]
  generalize signFactor x = s at *
  generalize ww x = w at *
  have hs : (-s) ^ (m + 2) = (-s) ^ m := by rw [pow_add, neg_sq, sq, s2, mul_one]
  have hh : s * (w * w) * y l (m + 2) x = 2 * (m + 1) * x * y l (m + 1) x - (l + (m + 1)) * (l - (m + 1) + 1) * y l m x := by
    rw [e, ← sq x]; exact h
  have h3 : w * w * y l (m + 2) x = s * (2 * (m + 1) * x * y l (m + 1) x - (l + (m + 1)) * (l - (m + 1) + 1) * y l m x) := by
    rw [← hh]; linear_combination (-(w * w * y l (m + 2) x)) * s2
  rw [hs, pow_succ (-s) m, pow_succ w m, pow_add w m 2]
  have : -(2 * ((m : ℝ) + 1)) * x / w * ((-s) ^ m * -s * (w ^ m * w) * y l (m + 1) x) =
      2 * (m + 1) * x * ((-s) ^ m * s * w ^ m * y l (m + 1) x) := by field_simp
  rw [this]
  linear_combination ((-s) ^ m * w ^ m) * h3

theorem assocP_scaled (l m : Nat) (x : ℝ) : assocP l m x = scaled (fun l k x => (derivative^[k] (Poly.pP l)).eval x) x l m := rfl

theorem assocQ_scaled (l m : Nat) (x : ℝ) : assocQ l m x = scaled (fun l k => iteratedDeriv k (legQ l)) x l m := rfl

theorem assocP_gt (l m : Nat) (x : ℝ) (h : l < m) : assocP l m x = 0 := by
  unfold assocP; rw [pP_iter_zero l m h]; simp

theorem pP_diag (m : Nat) (x : ℝ) : (derivative^[m + 1] (Poly.pP (m + 1))).eval x = (2 * m + 1) * (derivative^[m] (Poly.pP m)).eval x := by
  have := jetP.Ak m m x (Set.mem_univ x)
  simp only [pP_iter_zero m (m + 1) (by omega), eval_zero, mul_zero, zero_add] at this
  rw [this]; ring

theorem pP_subdiag (m : Nat) (x : ℝ) : (derivative^[m] (Poly.pP (m + 1))).eval x = (2 * m + 1) * x * (derivative^[m] (Poly.pP m)).eval x := by
  have := jetP.Bk m m x (Set.mem_univ x)
  simp only [pP_iter_zero m (m + 1) (by omega), eval_zero, zero_add, pP_diag] at this
  linarith

theorem assocP_diag (m : Nat) (x : ℝ) : assocP (m + 1) (m + 1) x = -signFactor x * (2 * m + 1) * ww x * assocP m m x := by
  unfold assocP
  rw [pP_diag, prefactor_eq, prefactor_eq, pow_succ, pow_succ]; ring

theorem assocP_subdiag (m : Nat) (x : ℝ) : assocP (m + 1) m x = (2 * m + 1) * x * assocP m m x := by
  unfold assocP
  rw [pP_subdiag]; ring

theorem assocP_recL (l m : Nat) (x : ℝ) : ((l : ℝ) + 2 - m) * assocP (l + 2) m x = (2 * l + 3) * x * assocP (l + 1) m x - (l + 1 + m) * assocP l m x :=
  scaled_recL jetP x (Set.mem_univ x) l m

/-! ## The first kind -/

theorem seedPlm_ok (lmax mmax : Nat) (x : ℝ) (out v : Vect ℝ) (h : Good out v lmax mmax (fun _ _ => True) (fun _ _ => 0)) :
    ∃ v', seedPlm lmax mmax x v = .ok v' ∧ Good out v' lmax mmax (fun l m => l ≤ m + 1) (fun l m => assocP l m x) := by
  unfold seedPlm
  simp only
  obtain ⟨v1, e1, h1⟩ := h.write (S' := fun l m => l < m ∨ (l = m ∧ m < 1)) (F' := fun l m => assocP l m x) (l := 0) (m := 0)
    (Nat.zero_le _) (Nat.zero_le _) (a := 1) (by simp [assocP, prefactor, Poly.pP]) (by
      rintro l m hl hm hs hn
      refine ⟨trivial, ?_⟩
      rcases hs with hs | ⟨hs, hs'⟩
      · exact assocP_gt l m x hs
      · exact absurd ⟨by omega, by omega⟩ hn)
  rw [e1, Res.ok_bind]
  obtain ⟨v2, e2, h2⟩ := forUp_inv
    (fun m P => do wr P (idx m m lmax) (-signFactor x * (2 * m - 1 : Int) * sqrtClamped (signFactor x * (1 - x * x)) * (← rd P (idx (m - 1) (m - 1) lmax))))
    (fun k v => Good out v lmax mmax (fun l m => l < m ∨ (l = m ∧ m < k)) (fun l m => assocP l m x)) (min mmax lmax) 1 v1 h1 (by
      intro i s h1i hi hg
      have him : i ≤ mmax := by omega
      have hil : i ≤ lmax := by omega
      obtain ⟨j, rfl⟩ : ∃ j, i = j + 1 := ⟨i - 1, by omega⟩
      rw [show j + 1 - 1 = j by omega, hg.read (l := j) (m := j) (by omega) (by omega) (Or.inr ⟨rfl, by omega⟩), Res.ok_bind]
      refine hg.write hil him ?_ ?_
      · rw [assocP_diag, ww]; push_cast; ring
      · intro l m hl hm hs hn
        refine ⟨?_, rfl⟩
        rcases hs with hs | ⟨hs, hs'⟩
        · exact Or.inl hs
        · exact Or.inr ⟨hs, by rcases Nat.lt_succ_iff_lt_or_eq.1 hs' with a | a; exact a; exact absurd ⟨by omega, a⟩ hn⟩)
  rw [e2, Res.ok_bind]
  obtain ⟨v3, e3, h3⟩ := forUp_inv
    (fun m P => do wr P (idx (m + 1) m lmax) ((2 * m + 1 : Int) * x * (← rd P (idx m m lmax))))
    (fun k v => Good out v lmax mmax (fun l m => l ≤ m ∨ (l = m + 1 ∧ m < k)) (fun l m => assocP l m x)) (min (mmax + 1) lmax) 0 v2
    (h2.mono (by
      intro l m hl hm hs
      refine ⟨?_, rfl⟩
      rcases hs with hs | ⟨_, hs⟩
      · rcases Nat.lt_or_eq_of_le hs with a | a
        · exact Or.inl a
        · exact Or.inr ⟨a, by omega⟩
      · omega)) (by
      intro i s h1i hi hg
      have him : i ≤ mmax := by omega
      have hil : i + 1 ≤ lmax := by omega
      rw [hg.read (l := i) (m := i) (by omega) (by omega) (Or.inl le_rfl), Res.ok_bind]
      refine hg.write hil him ?_ ?_
      · rw [assocP_subdiag]; push_cast; ring
      · intro l m hl hm hs hn
        refine ⟨?_, rfl⟩
        rcases hs with hs | ⟨hs, hs'⟩
        · exact Or.inl hs
        · exact Or.inr ⟨hs, by rcases Nat.lt_succ_iff_lt_or_eq.1 hs' with a | a; exact a; exact absurd ⟨by omega, a⟩ hn⟩)
  refine ⟨v3, e3, h3.mono ?_⟩
  intro l m hl hm hs
  refine ⟨?_, rfl⟩
  rcases Nat.lt_or_eq_of_le hs with a | a
  · exact Or.inl (by omega)
  · exact Or.inr ⟨a, by omega⟩

theorem recurPlmInL_ok (lmax mmax m : Nat) (x : ℝ) (out v : Vect ℝ) (hm : m ≤ mmax)
    (h : Good out v lmax mmax (fun l k => k < m ∨ l ≤ k + 1) (fun l m => assocP l m x)) :
    ∃ v', recurPlmInL lmax m x v = .ok v' ∧ Good out v' lmax mmax (fun l k => k < m + 1 ∨ l ≤ k + 1) (fun l m => assocP l m x) := by
  unfold recurPlmInL
  obtain ⟨v2, e2, h2⟩ := forUp_inv
    (fun l P => do
      let a : ℝ := (2 * l + 1 : Int) * x
      let b : ℝ := (l + m : Int)
      let c : ℝ := (l + 1 - m : Int)
      wr P (idx (l + 1) m lmax) ((a * (← rd P (idx l m lmax)) - b * (← rd P (idx (l - 1) m lmax))) / c))
    (fun i v => Good out v lmax mmax (fun l k => k < m ∨ l ≤ k + 1 ∨ (k = m ∧ l ≤ i)) (fun l m => assocP l m x)) (lmax - (m + 1)) (m + 1) v
    (h.mono (fun l k hl hk hs => ⟨by omega, rfl⟩)) (by
      intro i s h1 hi hg
      obtain ⟨j, rfl⟩ : ∃ j, i = j + 1 := ⟨i - 1, by omega⟩
      simp only [show j + 1 - 1 = j by omega]
      rw [hg.read (l := j + 1) (m := m) (by omega) hm (by omega), Res.ok_bind,
        hg.read (l := j) (m := m) (by omega) hm (by omega), Res.ok_bind]
      refine hg.write (by omega) hm ?_ ?_
      · have := assocP_recL j m x
        have hc : ((j : ℝ) + 2 - m) ≠ 0 := by
          have : (m : ℝ) ≤ j := by exact_mod_cast (by omega : m ≤ j)
          linarith
        rw [div_eq_iff (by push_cast; intro h; exact hc (by linarith))]
        push_cast
        linear_combination -this
      · intro l k hl hk hs hn
        refine ⟨?_, rfl⟩
        omega)
  refine ⟨v2, e2, h2.mono ?_⟩
  intro l k hl hk hs
  refine ⟨?_, rfl⟩
  omega

theorem computePlm_ok (lmax mmax : Nat) (x : ℝ) (out : Vect ℝ) (hfit : (lmax + 1) * (mmax + 1) ≤ out.size) :
    ∃ v', computePlm lmax mmax x out = .ok v' ∧ Good out v' lmax mmax (fun _ _ => True) (fun l m => assocP l m x) := by
  unfold computePlm
  rw [if_pos hfit, Res.ok_bind]
  obtain ⟨v1, e1, h1⟩ := seedPlm_ok lmax mmax x out ⟨out.size, fun i => if i < (lmax + 1) * (mmax + 1) then 0 else out.get i⟩
    ⟨rfl, hfit, fun l m hl hm _ => if_pos (idx_lt hl hm), fun i hi => if_neg (by omega)⟩
  beta_reduce
  rw [e1, Res.ok_bind]
  obtain ⟨v2, e2, h2⟩ := forUp_inv (fun m P => recurPlmInL lmax m x P)
    (fun i v => Good out v lmax mmax (fun l k => k < i ∨ l ≤ k + 1) (fun l m => assocP l m x)) (min mmax lmax + 1) 0 v1
    (h1.mono (fun l k hl hk hs => ⟨by omega, rfl⟩))
    (fun i s _ hi hg => recurPlmInL_ok lmax mmax i x out s (by omega) hg)
  exact ⟨v2, e2, h2.mono (fun l k hl hk _ => ⟨by omega, rfl⟩)⟩

/-! ## The second kind -/

theorem q00_eq (x : ℝ) (hx : x ∈ offSing) : q00 x = legQ 0 x := by
  rw [legQ_zero_eq x hx, q00, Real.log_abs, Real.log_abs]

theorem assocQ_zero (l : Nat) (x : ℝ) : assocQ l 0 x = legQ l x := by
  simp [assocQ, prefactor]

theorem assocQ_one (l : Nat) (x : ℝ) : assocQ l 1 x = -signFactor x * ww x * deriv (legQ l) x := by
  simp [assocQ, prefactor_eq, iteratedDeriv_one]

theorem legQ_one_eq (x : ℝ) : legQ 1 x = x * legQ 0 x - 1 := by rw [legQ, legQ]

theorem one_sub_ne (x : ℝ) (h : |x| ≠ 1) : 1 - x * x ≠ 0 := by
  rw [← ww_sq]
  have := ww_ne x h
  have s : signFactor x ≠ 0 := by have := sf_sq x; intro h; rw [h] at this; norm_num at this
  exact mul_ne_zero s (mul_ne_zero this this)

theorem legQ_zero_deriv' (x : ℝ) (h : |x| ≠ 1) : deriv (legQ 0) x = 1 / (1 - x * x) := by
  rw [eq_div_iff (one_sub_ne x h), mul_comm, ← sq x]
  exact legQ_zero_deriv x ((abs_ne_one_iff x).1 h)

theorem assocQ_zero_one (x : ℝ) (h : |x| ≠ 1) : assocQ 0 1 x = -1 / ww x := by
  rw [assocQ_one, legQ_zero_deriv' x h, ← ww_sq]
  have hw := ww_ne x h
  have hs : signFactor x ≠ 0 := by have := sf_sq x; intro h; rw [h] at this; norm_num at this
  field_simp

theorem assocQ_one_one (x : ℝ) (h : |x| ≠ 1) : assocQ 1 1 x = -signFactor x * ww x * (legQ 0 x + x / (1 - x * x)) := by
  rw [assocQ_one, legQ_one_deriv x ((abs_ne_one_iff x).1 h), legQ_zero_deriv' x h, mul_one_div]

theorem assocQ_recL (l m : Nat) (x : ℝ) (h : |x| ≠ 1) :
    ((l : ℝ) + 2 - m) * assocQ (l + 2) m x = (2 * l + 3) * x * assocQ (l + 1) m x - (l + 1 + m) * assocQ l m x :=
  scaled_recL jetQ x ((abs_ne_one_iff x).1 h) l m

theorem assocQ_recM (l m : Nat) (x : ℝ) (h : |x| ≠ 1) :
    assocQ l (m + 2) x = -(2 * ((m : ℝ) + 1)) * x / ww x * assocQ l (m + 1) x -
      signFactor x * (l + (m + 1)) * (l - (m + 1) + 1) * assocQ l m x :=
  scaled_recM jetQ x ((abs_ne_one_iff x).1 h) (ww_ne x h) l m

theorem seedQlm_ok (lmax mmax : Nat) (x : ℝ) (hx : |x| ≠ 1) (out v : Vect ℝ) (S : Nat → Nat → Prop) (F : Nat → Nat → ℝ)
    (h : Good out v lmax mmax S F) :
    ∃ v', seedQlm lmax mmax x v = .ok v' ∧ Good out v' lmax mmax (fun l m => l ≤ 1 ∧ m ≤ 1) (fun l m => assocQ l m x) := by
  have hx' := (abs_ne_one_iff x).1 hx
  unfold seedQlm
  simp only
  obtain ⟨v1, e1, h1⟩ := h.write (S' := fun l m => l = 0 ∧ m = 0) (F' := fun l m => assocQ l m x) (l := 0) (m := 0)
    (Nat.zero_le _) (Nat.zero_le _) (a := q00 x) (by rw [assocQ_zero, q00_eq x hx']) (fun l m _ _ hs hn => absurd hs hn)
  rw [e1, Res.ok_bind]
  obtain ⟨v2, e2, h2⟩ : ∃ v2, whenDo (1 ≤ lmax) (wr v1 (idx 1 0 lmax) (x * q00 x - 1)) v1 = .ok v2 ∧
      Good out v2 lmax mmax (fun l m => l ≤ 1 ∧ m = 0) (fun l m => assocQ l m x) := by
    unfold whenDo
    split_ifs with hl
    · refine h1.write hl (Nat.zero_le _) (by rw [assocQ_zero, legQ_one_eq, q00_eq x hx']) ?_
      intro l m _ _ hs hn
      exact ⟨by omega, rfl⟩
    · exact ⟨v1, rfl, h1.mono (fun l m _ _ hs => ⟨by omega, rfl⟩)⟩
  rw [e2, Res.ok_bind]
  split_ifs with hm hw
  · exact absurd hw (ww_ne x hx)
  · obtain ⟨v3, e3, h3⟩ := h2.write (S' := fun l m => (l ≤ 1 ∧ m = 0) ∨ (l = 0 ∧ m = 1)) (F' := fun l m => assocQ l m x) (l := 0) (m := 1)
      (Nat.zero_le _) hm (a := -1 / sqrtClamped (signFactor x * (1 - x * x))) (by rw [assocQ_zero_one x hx, ww])
      (fun l m _ _ hs hn => ⟨by omega, rfl⟩)
    rw [e3, Res.ok_bind]
    unfold whenDo
    split_ifs with hl
    · refine h3.write hl hm (by rw [assocQ_one_one x hx, ww, q00_eq x hx']) ?_
      intro l m _ _ hs hn
      exact ⟨by omega, rfl⟩
    · exact ⟨v3, rfl, h3.mono (fun l m _ _ hs => ⟨by omega, rfl⟩)⟩
  · exact ⟨v2, rfl, h2.mono (fun l m _ _ hs => ⟨by omega, rfl⟩)⟩

/-- the upward recurrence completes a column -/
theorem recurQlmInLUp_ok (lmax mmax m : Nat) (x : ℝ) (hx : |x| ≠ 1) (out v : Vect ℝ) (hm : m ≤ mmax) (hm1 : m ≤ 1) (S : Nat → Nat → Prop)
    (h : Good out v lmax mmax S (fun l m => assocQ l m x)) (h0 : S 0 m) (h1 : S 1 m) :
    ∃ v', recurQlmInLUp lmax m x v = .ok v' ∧ Good out v' lmax mmax (fun l k => S l k ∨ k = m) (fun l m => assocQ l m x) := by
  unfold recurQlmInLUp
  obtain ⟨v2, e2, h2⟩ := forUp_inv
    (fun l Q => do
      let a : ℝ := (2 * l + 1 : Int) * x
      let b : ℝ := (l + m : Int)
      let c : ℝ := (l + 1 - m : Int)
      wr Q (idx (l + 1) m lmax) ((a * (← rd Q (idx l m lmax)) - b * (← rd Q (idx (l - 1) m lmax))) / c))
    (fun i v => Good out v lmax mmax (fun l k => S l k ∨ (k = m ∧ l ≤ i)) (fun l m => assocQ l m x)) (lmax - 1) 1 v
    (h.mono (fun l k hl hk hs => ⟨by
      rcases hs with hs | ⟨rfl, hs⟩
      · exact hs
      · rcases (by omega : l = 0 ∨ l = 1) with rfl | rfl
        exacts [h0, h1], rfl⟩)) (by
      intro i s h1 hi hg
      obtain ⟨j, rfl⟩ : ∃ j, i = j + 1 := ⟨i - 1, by omega⟩
      simp only [show j + 1 - 1 = j by omega]
      rw [hg.read (l := j + 1) (m := m) (by omega) hm (Or.inr ⟨rfl, by omega⟩), Res.ok_bind,
        hg.read (l := j) (m := m) (by omega) hm (Or.inr ⟨rfl, by omega⟩), Res.ok_bind]
      refine hg.write (by omega) hm ?_ ?_
      · have := assocQ_recL j m x hx
        have hc : ((j : ℝ) + 2 - m) ≠ 0 := by
          have : (m : ℝ) ≤ 1 := by exact_mod_cast hm1
          have : (0 : ℝ) ≤ j := Nat.cast_nonneg j
          intro h; linarith
        rw [div_eq_iff (by push_cast; intro h; exact hc (by linarith))]
        push_cast
        linear_combination -this
      · intro l k hl hk hs hn
        refine ⟨?_, rfl⟩
        rcases hs with hs | hs
        · exact Or.inl hs
        · exact Or.inr (by omega))
  refine ⟨v2, e2, h2.mono ?_⟩
  intro l k hl hk hs
  refine ⟨?_, rfl⟩
  rcases hs with hs | hs
  · exact Or.inl hs
  · by_cases hL : l ≤ 1
    · rcases (by omega : l = 0 ∨ l = 1) with rfl | rfl
      exacts [Or.inl (hs ▸ h0), Or.inl (hs ▸ h1)]
    · exact Or.inr (by omega)

/-- the recurrence in the order fills the remaining columns -/
theorem recurQlmInMUp_gen (lmax mmax : Nat) (x : ℝ) (hx : |x| ≠ 1) (out v : Vect ℝ) (F : Nat → Nat → ℝ)
    (hF : ∀ l m : Nat, F l (m + 2) = -(2 * ((m : ℝ) + 1)) * x / ww x * F l (m + 1) - signFactor x * (l + (m + 1)) * (l - (m + 1) + 1) * F l m)
    (h : Good out v lmax mmax (fun _ k => k ≤ 1) F) :
    ∃ v', recurQlmInMUp lmax mmax x v = .ok v' ∧ Good out v' lmax mmax (fun _ _ => True) F := by
  unfold recurQlmInMUp
  split_ifs with hm
  · exact ⟨v, rfl, h.mono (fun l m _ _ _ => ⟨by omega, rfl⟩)⟩
  · simp only
    rw [if_neg (show ¬sqrtClamped (signFactor x * (1 - x * x)) = 0 from ww_ne x hx)]
    obtain ⟨v2, e2, h2⟩ := forUp_inv
      (fun l Q => forUp (fun m Q => do
        wr Q (idx l (m + 1) lmax) (-((2 * m : Int) : ℝ) * x / sqrtClamped (signFactor x * (1 - x * x)) * (← rd Q (idx l m lmax))
          - signFactor x * (l + m : Int) * (l - m + 1 : Int) * (← rd Q (idx l (m - 1) lmax)))) 1 (mmax - 1) Q)
      (fun i v => Good out v lmax mmax (fun l k => k ≤ 1 ∨ l < i) F) (lmax + 1) 0 v
      (h.mono (fun l k _ _ hs => ⟨by omega, rfl⟩)) (by
        intro i s _ hi hg
        obtain ⟨v3, e3, h3⟩ := forUp_inv (fun m Q => do
            wr Q (idx i (m + 1) lmax) (-((2 * m : Int) : ℝ) * x / sqrtClamped (signFactor x * (1 - x * x)) * (← rd Q (idx i m lmax))
              - signFactor x * (i + m : Int) * (i - m + 1 : Int) * (← rd Q (idx i (m - 1) lmax))))
          (fun j v => Good out v lmax mmax (fun l k => k ≤ 1 ∨ l < i ∨ (l = i ∧ k ≤ j)) F) (mmax - 1) 1 s
          (hg.mono (fun l k _ _ hs => ⟨by omega, rfl⟩)) (by
            intro j s hj1 hj hg
            obtain ⟨j, rfl⟩ : ∃ k, j = k + 1 := ⟨j - 1, by omega⟩
            simp only [show j + 1 - 1 = j by omega]
            rw [hg.read (l := i) (m := j + 1) (by omega) (by omega) (by omega), Res.ok_bind,
              hg.read (l := i) (m := j) (by omega) (by omega) (by omega), Res.ok_bind]
            refine hg.write (by omega) (by omega) ?_ ?_
            · rw [show j + 1 + 1 = j + 2 from rfl, hF i j, ww]; push_cast; ring
            · intro l k hl hk hs hn
              exact ⟨by omega, rfl⟩)
        refine ⟨v3, e3, h3.mono (fun l k _ _ hs => ⟨by omega, rfl⟩)⟩)
    exact ⟨v2, e2, h2.mono (fun l k _ _ hs => ⟨by omega, rfl⟩)⟩

theorem recurQlmInMUp_ok (lmax mmax : Nat) (x : ℝ) (hx : |x| ≠ 1) (out v : Vect ℝ)
    (h : Good out v lmax mmax (fun _ k => k ≤ 1) (fun l m => assocQ l m x)) :
    ∃ v', recurQlmInMUp lmax mmax x v = .ok v' ∧ Good out v' lmax mmax (fun _ _ => True) (fun l m => assocQ l m x) :=
  recurQlmInMUp_gen lmax mmax x hx out v _ (fun l m => assocQ_recM l m x hx) h

theorem computeQlmUpward_ok (lmax mmax : Nat) (x : ℝ) (hx : |x| ≠ 1) (out v : Vect ℝ)
    (h : Good out v lmax mmax (fun l m => l ≤ 1 ∧ m ≤ 1) (fun l m => assocQ l m x)) :
    ∃ v', computeQlmUpward lmax mmax x v = .ok v' ∧ Good out v' lmax mmax (fun _ _ => True) (fun l m => assocQ l m x) := by
  unfold computeQlmUpward
  obtain ⟨v1, e1, h1⟩ : ∃ v1, whenDo (2 ≤ lmax) (recurQlmInLUp lmax 0 x v) v = .ok v1 ∧
      Good out v1 lmax mmax (fun l m => (l ≤ 1 ∧ m ≤ 1) ∨ m = 0) (fun l m => assocQ l m x) := by
    unfold whenDo
    split_ifs with hl
    · exact recurQlmInLUp_ok lmax mmax 0 x hx out v (Nat.zero_le _) (by omega) _ h ⟨by omega, by omega⟩ ⟨by omega, by omega⟩
    · exact ⟨v, rfl, h.mono (fun l m hl hm hs => ⟨by omega, rfl⟩)⟩
  rw [e1, Res.ok_bind]
  obtain ⟨v2, e2, h2⟩ : ∃ v2, whenDo (1 ≤ mmax ∧ 2 ≤ lmax) (recurQlmInLUp lmax 1 x v1) v1 = .ok v2 ∧
      Good out v2 lmax mmax (fun _ m => m ≤ 1) (fun l m => assocQ l m x) := by
    unfold whenDo
    split_ifs with hl
    · obtain ⟨v2, e2, h2⟩ := recurQlmInLUp_ok lmax mmax 1 x hx out v1 hl.1 (by omega) _ h1 (by omega) (by omega)
      exact ⟨v2, e2, h2.mono (fun l m hl hm hs => ⟨by omega, rfl⟩)⟩
    · exact ⟨v1, rfl, h1.mono (fun l m hl hm hs => ⟨by omega, rfl⟩)⟩
  rw [e2, Res.ok_bind]
  exact recurQlmInMUp_ok lmax mmax x hx out v2 h2

/-! ### Christoffel decomposition -/

theorem chr_zero (x : ℝ) : ∀ l, chrP x l * legQ 0 x - chrW x l = legQ l x
  | 0 => by simp [chrP, chrW]
  | 1 => by rw [legQ_one_eq]; simp [chrP, chrW]
  | n + 2 => by
    have h0 := chr_zero x n
    have h1 := chr_zero x (n + 1)
    have hb := legQ_bonnet n x
    have hn : (n : ℝ) + 2 ≠ 0 := by positivity
    apply mul_left_cancel₀ hn
    rw [hb, ← h0, ← h1, chrP, chrW]
    push_cast
    rw [show (n : ℝ) + 1 + 1 = n + 2 by ring]
    field_simp
    ring

theorem chr_one (x : ℝ) (hx : |x| ≠ 1) : ∀ l, chrPp x l * legQ 0 x + chrP x l * deriv (legQ 0) x - chrWp x l = deriv (legQ l) x
  | 0 => by simp [chrP, chrPp, chrWp]
  | 1 => by rw [legQ_one_deriv x ((abs_ne_one_iff x).1 hx)]; simp [chrP, chrPp, chrWp]
  | n + 2 => by
    have h0 := chr_one x hx n
    have h1 := chr_one x hx (n + 1)
    have z1 := chr_zero x (n + 1)
    have hb := legQ_bonnet_deriv n x ((abs_ne_one_iff x).1 hx)
    have hn : (n : ℝ) + 2 ≠ 0 := by positivity
    apply mul_left_cancel₀ hn
    rw [hb, ← h0, ← h1, ← z1, chrP, chrPp, chrWp]
    push_cast
    rw [show (n : ℝ) + 1 + 1 = n + 2 by ring]
    field_simp
    ring

theorem computeQlmChristoffel_ok (lmax mmax : Nat) (x : ℝ) (hx : ¬|x| ≤ 1) (out v : Vect ℝ) (S : Nat → Nat → Prop) (F : Nat → Nat → ℝ)
    (h : Good out v lmax mmax S F) :
    ∃ v', computeQlmChristoffel lmax mmax x v = .ok v' ∧ Good out v' lmax mmax (fun _ _ => True) (fun l m => assocQ l m x) := by
  have h1x : |x| ≠ 1 := fun e => hx e.le
  have hx' := (abs_ne_one_iff x).1 h1x
  have hs : signFactor x = -1 := by unfold signFactor; rw [if_neg hx]
  unfold computeQlmChristoffel
  simp only
  obtain ⟨v1, e1, h1⟩ := forUp_inv (fun l Q => wr Q (idx l 0 lmax) (chrP x l * q00 x - chrW x l))
    (fun i v => Good out v lmax mmax (fun l k => k = 0 ∧ l < i) (fun l m => assocQ l m x)) (lmax + 1) 0 v
    (h.mono (fun l k _ _ hs => by omega)) (by
      intro i s _ hi hg
      refine hg.write (by omega) (Nat.zero_le _) (by rw [assocQ_zero, q00_eq x hx', chr_zero]) ?_
      intro l k _ _ hs hn
      exact ⟨by omega, rfl⟩)
  rw [e1, Res.ok_bind]
  obtain ⟨v2, e2, h2⟩ : ∃ v2, whenDo (1 ≤ mmax) (chrColumn1 lmax x v1) v1 = .ok v2 ∧ Good out v2 lmax mmax (fun _ m => m ≤ 1) (fun l m => assocQ l m x) := by
    unfold whenDo
    split_ifs with hm
    · unfold chrColumn1
      simp only
      rw [← ww_off x hx]
      obtain ⟨v2, e2, h2⟩ := h1.write (S' := fun l k => k = 0 ∨ (k = 1 ∧ l < 1)) (F' := fun l m => assocQ l m x) (l := 0) (m := 1) (Nat.zero_le _) hm
        (a := -1 / ww x) (by rw [assocQ_zero_one x h1x]) (fun l k _ _ hs hn => ⟨by omega, rfl⟩)
      rw [e2, Res.ok_bind]
      obtain ⟨v3, e3, h3⟩ := forUp_inv
        (fun l Q => wr Q (idx l 1 lmax) (ww x * chrPp x l * q00 x - chrP x l / ww x - ww x * chrWp x l))
        (fun i v => Good out v lmax mmax (fun l k => k = 0 ∨ (k = 1 ∧ l < i)) (fun l m => assocQ l m x)) lmax 1 v2 h2 (by
          intro i s _ hi hg
          refine hg.write (by omega) hm ?_ ?_
          · rw [assocQ_one, hs, ← chr_one x h1x, q00_eq x hx', legQ_zero_deriv' x h1x, ← ww_sq, hs]
            have hw := ww_ne x h1x
            field_simp
            ring
          · intro l k _ _ hs hn
            exact ⟨by omega, rfl⟩)
      exact ⟨v3, e3, h3.mono (fun l k _ _ hs => ⟨by omega, rfl⟩)⟩
    · exact ⟨v1, rfl, h1.mono (fun l k _ _ hs => ⟨by omega, rfl⟩)⟩
  rw [e2, Res.ok_bind]
  exact recurQlmInMUp_ok lmax mmax x h1x out v2 h2

/-! ### Miller's algorithm -/

/-- entries of a family obeying the recurrence in one column, scaled by `κ` in that column -/
theorem recurQlmInLDown_ok (lmax mmax m : Nat) (x : ℝ) (out v : Vect ℝ) (hm : m ≤ mmax) (hl : 1 ≤ lmax) (S : Nat → Nat → Prop) (F : Nat → Nat → ℝ)
    (hF : ∀ l, l + 2 ≤ lmax → ((l : ℝ) + 2 - m) * F (l + 2) m = (2 * l + 3) * x * F (l + 1) m - (l + 1 + m) * F l m)
    (h : Good out v lmax mmax S F) (h0 : S (lmax - 1) m) (h1 : S lmax m) :
    ∃ v', recurQlmInLDown lmax m x v = .ok v' ∧ Good out v' lmax mmax (fun l k => S l k ∨ k = m) F := by
  unfold recurQlmInLDown
  obtain ⟨v2, e2, h2⟩ := forDown_inv
    (fun l Q => do
      let a : ℝ := (2 * l + 1 : Int) * x
      let b : ℝ := (l + 1 - m : Int)
      let c : ℝ := (l + m : Int)
      wr Q (idx (l - 1) m lmax) ((a * (← rd Q (idx l m lmax)) - b * (← rd Q (idx (l + 1) m lmax))) / c))
    (fun i v => Good out v lmax mmax (fun l k => S l k ∨ (k = m ∧ i ≤ l)) F) (lmax - 1) v
    (h.mono (fun l k hl hk hs => ⟨by
      rcases hs with hs | ⟨rfl, hs⟩
      · exact hs
      · rcases (by omega : l = lmax - 1 ∨ l = lmax) with rfl | rfl
        exacts [h0, h1], rfl⟩)) (by
      intro i s hi1 hi hg
      obtain ⟨j, rfl⟩ : ∃ j, i = j + 1 := ⟨i - 1, by omega⟩
      simp only [show j + 1 - 1 = j by omega]
      rw [hg.read (l := j + 1) (m := m) (by omega) hm (Or.inr ⟨rfl, by omega⟩), Res.ok_bind,
        hg.read (l := j + 1 + 1) (m := m) (by omega) hm (Or.inr ⟨rfl, by omega⟩), Res.ok_bind]
      refine hg.write (by omega) hm ?_ ?_
      · have := hF j (by omega)
        have hc : ((j : ℝ) + 1 + m) ≠ 0 := by positivity
        rw [div_eq_iff (by push_cast; exact hc)]
        push_cast
        linear_combination -this
      · intro l k hl hk hs hn
        refine ⟨?_, rfl⟩
        rcases hs with hs | hs
        · exact Or.inl hs
        · exact Or.inr (by omega))
  exact ⟨v2, e2, h2.mono (fun l k hl hk hs => ⟨by
    rcases hs with hs | hs
    · exact Or.inl hs
    · exact Or.inr ⟨hs, Nat.zero_le _⟩, rfl⟩)⟩

theorem assocQ_zero_ne (m : Nat) (hm : m ≤ 1) (x : ℝ) (hx : ¬|x| ≤ 1) : assocQ 0 m x ≠ 0 := by
  have h1 : |x| ≠ 1 := fun e => hx e.le
  rcases (by omega : m = 0 ∨ m = 1) with rfl | rfl
  · rw [assocQ_zero, ← q00_eq x ((abs_ne_one_iff x).1 h1), q00]
    have hx' := (abs_ne_one_iff x).1 h1
    have a1 : 0 < |x + 1| := abs_pos.2 (fun h => hx'.2 (by linarith))
    have a2 : 0 < |x - 1| := abs_pos.2 (fun h => hx'.1 (by linarith))
    intro h
    have : |x + 1| = |x - 1| := Real.log_injOn_pos a1 a2 (by linarith)
    rw [abs_eq_abs] at this
    rcases this with h | h
    · linarith
    · have : x = 0 := by linarith
      rw [this] at hx; simp at hx
  · rw [assocQ_zero_one x h1]
    exact div_ne_zero (by norm_num) (ww_ne x h1)

theorem millerColumn_ok (tiny tol : ℝ) (maxIter lmax mmax m : Nat) (x top : ℝ) (out v : Vect ℝ) (hm : m ≤ mmax)
    (hl : 1 ≤ lmax) (ht : tiny ≠ 0) (ratio : ℝ) (hr : cfLegendreRatio tiny tol maxIter x lmax m = .ok ratio) (G : Nat → Nat → ℝ)
    (hrec : ∀ l, l + 2 ≤ lmax → ((l : ℝ) + 2 - m) * G (l + 2) m = (2 * l + 3) * x * G (l + 1) m - (l + 1 + m) * G l m)
    (hex : ratio * G (lmax - 1) m = G lmax m) (htop : G 0 m = top) (h0 : top ≠ 0) (hL : G (lmax - 1) m ≠ 0) (S : Nat → Nat → Prop)
    (h : Good out v lmax mmax S G) :
    ∃ v', millerColumn tiny tol maxIter lmax m x top v = .ok v' ∧ Good out v' lmax mmax (fun l k => S l k ∨ k = m) G := by
  obtain ⟨L, rfl⟩ : ∃ L, lmax = L + 1 := ⟨lmax - 1, by omega⟩
  rw [show L + 1 - 1 = L by omega] at hex hL
  obtain ⟨κ, hκ⟩ : ∃ κ : ℝ, κ = tiny / G L m := ⟨_, rfl⟩
  have hκ0 : κ ≠ 0 := by rw [hκ]; exact div_ne_zero ht hL
  unfold millerColumn
  rw [hr, Res.ok_bind]
  obtain ⟨F, hFd⟩ : ∃ F : Nat → Nat → ℝ, F = fun l k => if k = m then κ * G l k else G l k := ⟨_, rfl⟩
  have hFm : ∀ l, F l m = κ * G l m := fun l => by rw [hFd]; exact if_pos rfl
  have hFn : ∀ l k, k ≠ m → F l k = G l k := fun l k hk => by rw [hFd]; exact if_neg hk
  obtain ⟨v1, e1, h1⟩ := h.write (S' := fun l k => (S l k ∧ k ≠ m) ∨ (l = L ∧ k = m)) (F' := F) (l := L + 1 - 1) (m := m) (by omega) hm
    (a := tiny) (by rw [hFm, hκ]; simp [hL]) (by
      intro l k _ _ hs hn
      rcases hs with hs | hs
      · exact ⟨hs.1, hFn l k hs.2⟩
      · exact absurd hs hn)
  rw [e1, Res.ok_bind]
  obtain ⟨v2, e2, h2⟩ := h1.write (S' := fun l k => (S l k ∧ k ≠ m) ∨ (L ≤ l ∧ k = m)) (F' := F) (l := L + 1) (m := m) le_rfl hm
    (a := tiny * ratio) (by rw [hFm, ← hex, hκ]; field_simp) (by
      intro l k _ _ hs hn
      rcases hs with hs | hs
      · exact ⟨Or.inl hs, rfl⟩
      · exact ⟨Or.inr (by omega), rfl⟩)
  rw [e2, Res.ok_bind]
  obtain ⟨v3, e3, h3⟩ := recurQlmInLDown_ok (L + 1) mmax m x out v2 hm hl _ F (by
    intro l hl2
    rw [hFm, hFm, hFm]
    linear_combination κ * hrec l hl2) h2 (Or.inr ⟨by omega, rfl⟩) (Or.inr ⟨by omega, rfl⟩)
  rw [e3, Res.ok_bind, h3.read (Nat.zero_le _) hm (Or.inr rfl), Res.ok_bind]
  simp only
  obtain ⟨v4, e4, h4⟩ := forUp_inv
    (fun l Q => do wr Q (idx l m (L + 1)) ((← rd Q (idx l m (L + 1))) * (top / F 0 m)))
    (fun i v => Good out v (L + 1) mmax (fun l k => (S l k ∧ k ≠ m) ∨ k = m) (fun l k => if k = m ∧ i ≤ l then F l k else G l k))
    (L + 1 + 1) 0 v3 (h3.mono (by
      intro l k _ _ hs
      refine ⟨by tauto, ?_⟩
      rcases hs with hs | hs
      · rw [if_neg (by tauto), hFn l k hs.2]
      · rw [if_pos ⟨hs, Nat.zero_le _⟩])) (by
      intro i s _ hi hg
      rw [hg.read (l := i) (m := m) (by omega) hm (Or.inr rfl), Res.ok_bind]
      refine hg.write (by omega) hm ?_ ?_
      · rw [if_pos ⟨rfl, le_rfl⟩, if_neg (by omega), hFm, hFm, htop]
        field_simp
      · intro l k _ _ hs hn
        refine ⟨hs, ?_⟩
        by_cases hk : k = m
        · by_cases hi' : i ≤ l
          · rw [if_pos ⟨hk, by omega⟩, if_pos ⟨hk, hi'⟩]
          · rw [if_neg (by omega), if_neg (by omega)]
        · rw [if_neg (by tauto), if_neg (by tauto)])
  refine ⟨v4, e4, h4.mono ?_⟩
  intro l k hl' _ hs
  refine ⟨by tauto, ?_⟩
  rw [if_neg (by omega)]

end ALeg
end HelFEM
