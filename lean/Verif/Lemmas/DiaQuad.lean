import Verif.Lemmas.NeumannSwap
import Verif.Lemmas.LegendreNear

/-! The in-element integrals as nested sums. -/

namespace HelFEM
namespace DiaQuad
open Finset intervalIntegral Filter Topology Quad MeasureTheory ALeg

theorem hyper_eq (k : Nat) (t : ℝ) : hyper k t = Real.sinh t * Real.cosh t ^ k := by
  unfold hyper
  by_cases h : k ≠ 0
  · rw [if_pos h]
  · rw [if_neg h, not_not.1 h, pow_zero, mul_one]

theorem weight_eq (k : Nat) (h w t : ℝ) : weight k h w (Real.sinh t) (Real.cosh t) = h * w * hyper k t := by
  rw [hyper_eq]
  unfold weight
  by_cases hk : k ≠ 0
  · rw [if_pos hk]; ring
  · rw [if_neg hk, not_not.1 hk, pow_zero, mul_one]

theorem at_fst (n k : Nat) : at' ((chebyshev n).map Prod.fst) k = nodeX n k := by
  unfold at' nodeX
  rw [List.getD_eq_getElem?_getD, List.getD_eq_getElem?_getD, List.getElem?_map]
  cases (chebyshev n)[k]? <;> rfl

theorem at_snd (n k : Nat) : at' ((chebyshev n).map Prod.snd) k = nodeW n k := by
  unfold at' nodeW
  rw [List.getD_eq_getElem?_getD, List.getD_eq_getElem?_getD, List.getElem?_map]
  cases (chebyshev n)[k]? <;> rfl

theorem muAt_cheb (E : Elem) (n ip : Nat) : muAt E ((chebyshev n).map Prod.fst) ip = pt E.mumin E.mumax n (ip + 1) := by
  unfold muAt; rw [at_fst, pt_succ]

theorem len_ne {E : Elem} (h : E.mumin < E.mumax) : lenOf E.mumin E.mumax ≠ 0 := by unfold lenOf; intro h'; linarith

theorem fn_pt {E : Elem} (h : E.mumin < E.mumax) (i n ip : Nat) : E.fn i (pt E.mumin E.mumax n (ip + 1)) = E.bf (lenOf E.mumin E.mumax) i (nodeX n ip) := by
  unfold Elem.fn
  rw [pt_succ, add_sub_cancel_left, mul_div_cancel_left₀ _ (len_ne h)]

/-! ### the two implementations -/

theorem cached_inner (E : Elem) (P : ℝ → ℝ) (l : Nat) (x w : List ℝ) (el : TwoElectron) (h : twoeElement E x w = .ok el) (ip c : Nat) :
    innerAcc el P l (ip + 1) c = inner E P l x w ip c := by
  unfold twoeElement at h
  by_cases hl : x.length ≠ w.length
  · rw [if_pos hl] at h; cases h
  rw [if_neg hl] at h
  cases h
  have key : ∀ ip, ∑ q ∈ range x.length, (subInterval E x ip).bf q (c % E.nbf) * (weight l (subInterval E x ip).mulen (at' w q) ((subInterval E x ip).shmu q)
      ((subInterval E x ip).chmu q) * P ((subInterval E x ip).chmu q)) * (subInterval E x ip).bf q (c / E.nbf) =
      innerWrk E P (if ip = 0 then E.mumin else muAt E x (ip - 1)) (muAt E x ip) l x w c := by
    intro ip
    unfold innerWrk
    apply sum_congr rfl
    intro q _
    simp only [subInterval, weight_eq]
  induction ip with
  | zero =>
    show 0 + _ = _
    rw [zero_add]
    exact key 0
  | succ ip ih =>
    show innerAcc _ P l (ip + 1) c + _ = inner E P l x w ip c + _
    rw [ih]
    congr 1
    exact key (ip + 1)

theorem cached_outer (E : Elem) (P Q : ℝ → ℝ) (k l : Nat) (x w : List ℝ) (el : TwoElectron) (h : twoeElement E x w = .ok el) (hx : x ≠ []) :
    halfDirect E P Q k l x w = .ok (outer el P Q k l) := by
  have hi := cached_inner E P l x w el h
  unfold twoeElement at h
  by_cases hl : x.length ≠ w.length
  · rw [if_pos hl] at h; cases h
  rw [if_neg hl] at h
  unfold halfDirect
  rw [if_neg hl, if_neg (by have := List.length_pos_iff.2 hx; omega)]
  cases h
  unfold outer
  congr 2
  funext r c
  apply sum_congr rfl
  intro ip _
  simp only
  rw [← hi ip c, weight_eq]

/-! ### limits -/

/-- the functions under the outer and inner integral -/
noncomputable def fQ (k : Nat) (Q f : ℝ → ℝ) (t : ℝ) : ℝ := f t * (hyper k t * Q (Real.cosh t))

theorem innerAcc_cheb (E : Elem) (P : ℝ → ℝ) (l n : Nat) (el : TwoElectron)
    (h : twoeElement E ((chebyshev n).map Prod.fst) ((chebyshev n).map Prod.snd) = .ok el) (ip c : Nat) :
    innerAcc el P l ip c = ∑ j ∈ range ip, piece (fQ l P fun t => E.fn (c % E.nbf) t * E.fn (c / E.nbf) t) (pt E.mumin E.mumax n j) (pt E.mumin E.mumax n (j + 1)) n := by
  unfold twoeElement at h
  by_cases hl : ((chebyshev n).map Prod.fst).length ≠ ((chebyshev n).map Prod.snd).length
  · rw [if_pos hl] at h; cases h
  rw [if_neg hl] at h
  cases h
  induction ip with
  | zero => rfl
  | succ ip ih =>
    rw [sum_range_succ, ← ih]
    show innerAcc _ P l ip c + _ = _
    congr 1
    unfold piece
    simp only [subInterval, weight_eq, List.length_map, cheb_length]
    apply sum_congr rfl
    intro q _
    have e1 : (if ip = 0 then E.mumin else muAt E ((chebyshev n).map Prod.fst) (ip - 1)) = pt E.mumin E.mumax n ip := by
      cases ip with
      | zero => rw [if_pos rfl, pt_zero]
      | succ j => rw [if_neg (by omega), muAt_cheb]; rfl
    rw [e1, muAt_cheb, at_fst, at_snd]
    unfold fQ Elem.fn
    ring

theorem outer_cheb {E : Elem} (hE : E.mumin < E.mumax) (P Q : ℝ → ℝ) (k l n : Nat) (el : TwoElectron)
    (h : twoeElement E ((chebyshev n).map Prod.fst) ((chebyshev n).map Prod.snd) = .ok el) (r c : Nat) :
    (outer el P Q k l).get r c = ∑ ip ∈ range n, lenOf E.mumin E.mumax * nodeW n ip *
      (fQ k Q (fun t => E.fn (r % E.nbf) t * E.fn (r / E.nbf) t) (pt E.mumin E.mumax n (ip + 1)) *
        acc (fQ l P fun t => E.fn (c % E.nbf) t * E.fn (c / E.nbf) t) E.mumin E.mumax n ip) := by
  have hi := innerAcc_cheb E P l n el h
  unfold twoeElement at h
  by_cases hl : ((chebyshev n).map Prod.fst).length ≠ ((chebyshev n).map Prod.snd).length
  · rw [if_pos hl] at h; cases h
  rw [if_neg hl] at h
  cases h
  unfold outer
  simp only [List.length_map, cheb_length] at hi ⊢
  apply sum_congr rfl
  intro ip _
  rw [hi (ip + 1) c, weight_eq, muAt_cheb, at_fst, at_snd]
  unfold acc
  rw [fQ, fn_pt hE, fn_pt hE]
  ring

theorem element_cheb (E : Elem) (n : Nat) : ∃ el, twoeElement E ((chebyshev n).map Prod.fst) ((chebyshev n).map Prod.snd) = .ok el ∧ el.nbf = E.nbf := by
  refine ⟨_, if_neg (by simp), rfl⟩

theorem twoeAt_eq (E : Elem) (P Q : ℝ → ℝ) (k l n : Nat) (el : TwoElectron) (h : twoeElement E ((chebyshev n).map Prod.fst) ((chebyshev n).map Prod.snd) = .ok el) (hn : el.nbf = E.nbf) :
    twoeAt E P Q k l n = .ok ⟨E.nbf * E.nbf, E.nbf * E.nbf, fun r c => (outer el P Q k l).get r c + (outer el P Q l k).get c r⟩ := by
  unfold twoeAt
  rw [h, Res.ok_bind]
  unfold twoeCached Mat.add
  rw [if_pos (by simp [outer, Mat.transpose])]
  simp only [outer, Mat.transpose, hn]

theorem pair_regular {a b : ℝ} (ha : 0 ≤ a) (hab : a < b) (L M k l : Nat) {f g : ℝ → ℝ} (hf : ContinuousOn f (Set.Icc a b)) (hg : ContinuousOn g (Set.Icc a b)) :
    Pair a b (fQ k (assocQ L M) f) (fQ l (assocP L M) g) := by
  have hcg : ContinuousOn (fQ l (assocP L M) g) (Set.Icc a b) := by
    refine hg.mul (ContinuousOn.mul ?_ ((assocP_cosh_continuous L M).mono fun x hx => le_trans ha hx.1))
    have : hyper l = fun t => Real.sinh t * Real.cosh t ^ l := funext (hyper_eq l)
    rw [this]
    exact (Real.continuous_sinh.mul (Real.continuous_cosh.pow l)).continuousOn
  have hcq : ContinuousOn (fQ k (assocQ L M) f) (Set.Ioc a b) := by
    refine (hf.mono Set.Ioc_subset_Icc_self).mul (ContinuousOn.mul ?_ ((assocQ_cosh_continuous L M).mono fun x hx => lt_of_le_of_lt ha hx.1))
    have : hyper k = fun t => Real.sinh t * Real.cosh t ^ k := funext (hyper_eq k)
    rw [this]
    exact (Real.continuous_sinh.mul (Real.continuous_cosh.pow k)).continuousOn
  refine ⟨hcg, hcq, ?_⟩
  obtain ⟨F, hF⟩ := (isCompact_Icc (a := a) (b := b)).exists_bound_of_continuousOn hf
  obtain ⟨H, hH⟩ := (isCompact_Icc (a := a) (b := b)).exists_bound_of_continuousOn hg
  obtain ⟨CP, cp0, hCP⟩ := assocP_cosh_bound L M b
  obtain ⟨CQ, cq0, hCQ⟩ := assocQ_cosh_bound L M b
  have hcosh : ∀ t ∈ Set.Icc a b, Real.cosh t ≤ Real.cosh b := fun t ht =>
    Real.cosh_le_cosh.2 (by rw [abs_of_nonneg (le_trans ha ht.1), abs_of_nonneg (le_trans ha hab.le)]; exact ht.2)
  have hF0 : 0 ≤ F := le_trans (norm_nonneg _) (hF b ⟨hab.le, le_rfl⟩)
  have hH0 : 0 ≤ H := le_trans (norm_nonneg _) (hH b ⟨hab.le, le_rfl⟩)
  have hb0 := Real.cosh_pos b
  refine ⟨fun t => H * Real.cosh b ^ l * CP * Real.sinh t ^ (M + 1), F * Real.cosh b ^ k * (H * Real.cosh b ^ l * CP) * CQ, ?_, ?_, ?_⟩
  · intro s hs t ht hst
    refine mul_le_mul_of_nonneg_left (pow_le_pow_left₀ (Real.sinh_nonneg_iff.2 (le_trans ha hs.1)) (Real.sinh_le_sinh.2 hst) _) (by positivity)
  · intro t ht
    have ht0 := le_trans ha ht.1
    have hs := Real.sinh_nonneg_iff.2 ht0
    have h1 := hH t ht
    rw [Real.norm_eq_abs] at h1
    have h2 := hCP t ⟨ht0, ht.2⟩
    have h3 : Real.cosh t ^ l ≤ Real.cosh b ^ l := pow_le_pow_left₀ (Real.cosh_pos t).le (hcosh t ht) l
    unfold fQ
    rw [abs_mul, abs_mul, hyper_eq, abs_mul, abs_of_nonneg hs, abs_of_nonneg (pow_nonneg (Real.cosh_pos t).le l)]
    calc _ ≤ H * (Real.sinh t * Real.cosh b ^ l * (CP * Real.sinh t ^ M)) := by
            refine mul_le_mul h1 (mul_le_mul (mul_le_mul_of_nonneg_left h3 hs) h2 (abs_nonneg _) (by positivity)) (by have := Real.cosh_pos t; positivity) hH0
      _ = _ := by ring
  · intro t ht
    have ht0 := lt_of_le_of_lt ha ht.1
    have hs := Real.sinh_pos_iff.2 ht0
    have h1 := hF t ⟨ht.1.le, ht.2⟩
    rw [Real.norm_eq_abs] at h1
    have h2 := hCQ t ⟨ht0, ht.2⟩
    have h3 : Real.cosh t ^ k ≤ Real.cosh b ^ k := pow_le_pow_left₀ (Real.cosh_pos t).le (hcosh t ⟨ht.1.le, ht.2⟩) k
    unfold fQ
    rw [abs_mul, abs_mul, hyper_eq, abs_mul, abs_of_pos hs, abs_of_nonneg (pow_nonneg (Real.cosh_pos t).le k)]
    have e : |f t| * (Real.sinh t * Real.cosh t ^ k * |assocQ L M (Real.cosh t)|) * (H * Real.cosh b ^ l * CP * Real.sinh t ^ (M + 1)) =
        |f t| * Real.cosh t ^ k * (H * Real.cosh b ^ l * CP) * (|assocQ L M (Real.cosh t)| * Real.sinh t ^ (M + 2)) := by ring
    rw [e]
    refine mul_le_mul ?_ h2 (by positivity) (by positivity)
    refine mul_le_mul_of_nonneg_right ?_ (by positivity)
    exact mul_le_mul h1 h3 (pow_nonneg (Real.cosh_pos t).le k) hF0

/-- the square as a Neumann integral -/
theorem neumann_square {a b : ℝ} (ha : 0 ≤ a) (hab : a < b) (L M k l : Nat) {f g : ℝ → ℝ} (hf : ContinuousOn f (Set.Icc a b)) (hg : ContinuousOn g (Set.Icc a b)) :
    Spec.neumannInt (assocP L M) (assocQ L M) k l f g a b a b =
      (∫ t in a..b, fQ k (assocQ L M) f t * ∫ s in a..t, fQ l (assocP L M) g s) + ∫ t in a..b, fQ l (assocQ L M) g t * ∫ s in a..t, fQ k (assocP L M) f s := by
  rw [← square hab (pair_regular ha hab L M k l hf hg) (pair_regular ha hab L M l k hg hf)]
  unfold Spec.neumannInt
  congr 1; funext t
  congr 1; funext s
  unfold fQ
  rw [hyper_eq, hyper_eq]
  by_cases h : s ≤ t
  · rw [if_pos h, min_eq_right h, max_eq_left h]; ring
  · rw [if_neg h, min_eq_left (not_le.1 h).le, max_eq_right (not_le.1 h).le]; ring

theorem neumann_apart {a b a' b' : ℝ} (hab : a ≤ b) (hba : b ≤ a') (hab' : a' ≤ b') (P Q : ℝ → ℝ) (k l : Nat) (f g : ℝ → ℝ) :
    Spec.neumannInt P Q k l f g a b a' b' = (∫ t in a..b, fQ k P f t) * ∫ s in a'..b', fQ l Q g s ∧
    Spec.neumannInt P Q l k g f a' b' a b = (∫ s in a'..b', fQ l Q g s) * ∫ t in a..b, fQ k P f t := by
  unfold Spec.neumannInt
  constructor
  · rw [← intervalIntegral.integral_mul_const]
    apply integral_congr
    intro t ht
    rw [Set.uIcc_of_le hab] at ht
    simp only
    rw [← intervalIntegral.integral_const_mul]
    apply integral_congr
    intro s hs
    rw [Set.uIcc_of_le hab'] at hs
    have : t ≤ s := le_trans ht.2 (le_trans hba hs.1)
    simp only
    rw [min_eq_left this, max_eq_right this]
    unfold fQ
    rw [hyper_eq, hyper_eq]; ring
  · rw [← intervalIntegral.integral_mul_const]
    apply integral_congr
    intro s hs
    rw [Set.uIcc_of_le hab'] at hs
    simp only
    rw [← intervalIntegral.integral_const_mul]
    apply integral_congr
    intro t ht
    rw [Set.uIcc_of_le hab] at ht
    have : t ≤ s := le_trans ht.2 (le_trans hba hs.1)
    simp only
    rw [min_eq_right this, max_eq_left this]
    unfold fQ
    rw [hyper_eq, hyper_eq]; ring

theorem acc_congr {g h : ℝ → ℝ} {a b : ℝ} (hab : a < b) {n ip : Nat} (hip : ip < n) (e : ∀ t, g t = h t) : acc g a b n ip = acc h a b n ip := by
  rw [funext e]

/-- the order-`n` integrals with the true Legendre functions in place of the given ones -/
theorem outer_legendre {E : Elem} (hE : E.Regular) {P Q : ℝ → ℝ} (L M : Nat) (hP : ∀ x, 1 ≤ x → P x = assocP L M x) (hQ : ∀ x, 1 < x → Q x = assocQ L M x) (k l n : Nat)
    (el : TwoElectron) (h : twoeElement E ((chebyshev n).map Prod.fst) ((chebyshev n).map Prod.snd) = .ok el) (r c : Nat) :
    (outer el P Q k l).get r c = ∑ ip ∈ range n, lenOf E.mumin E.mumax * nodeW n ip *
      (fQ k (assocQ L M) (fun t => E.fn (r % E.nbf) t * E.fn (r / E.nbf) t) (pt E.mumin E.mumax n (ip + 1)) *
        acc (fQ l (assocP L M) fun t => E.fn (c % E.nbf) t * E.fn (c / E.nbf) t) E.mumin E.mumax n ip) := by
  rw [outer_cheb hE.lt P Q k l n el h r c]
  apply sum_congr rfl
  intro ip hip
  have hip := Finset.mem_range.1 hip
  have h1 := (pt_lt hE.lt hip).1
  have h2 : 1 < Real.cosh (pt E.mumin E.mumax n (ip + 1)) := Real.one_lt_cosh.2 (ne_of_gt (lt_of_le_of_lt hE.nonneg h1))
  rw [acc_congr hE.lt hip (g := fQ l P _) (h := fQ l (assocP L M) _) (fun t => by unfold fQ; rw [hP _ (Real.one_le_cosh t)])]
  congr 2
  unfold fQ
  rw [hQ _ h2]

theorem mod_lt' {n r : Nat} (h : r < n * n) : r % n < n ∧ r / n < n := by
  have hn : 0 < n := by rcases Nat.eq_zero_or_pos n with h' | h'
                        · rw [h'] at h; omega
                        · exact h'
  exact ⟨Nat.mod_lt _ hn, Nat.div_lt_of_lt_mul h⟩

theorem prod_cont {E : Elem} (hE : E.Regular) {i j : Nat} (hi : i < E.nbf) (hj : j < E.nbf) : ContinuousOn (fun t => E.fn i t * E.fn j t) (Set.Icc E.mumin E.mumax) :=
  (hE.cont i hi).mul (hE.cont j hj)

theorem single_cheb {E : Elem} (hE : E.mumin < E.mumax) (f : ℝ → ℝ) (n a b : Nat) :
    (single E f (chebyshev n)).get a b = ∑ q ∈ range n, lenOf E.mumin E.mumax * nodeW n q * ((fun t => E.fn a t * E.fn b t * f t) (pt E.mumin E.mumax n (q + 1))) := by
  have hl : (chebyshev n) = (List.range n).map fun k => (nodeX n k, nodeW n k) := by
    apply List.ext_getElem?
    intro i
    rw [List.getElem?_map]
    by_cases h : i < n
    · rw [List.getElem?_range h, Option.map_some]
      unfold nodeX nodeW
      rw [List.getD_eq_getElem?_getD, cheb_get n i h]
      rfl
    · rw [List.getElem?_eq_none (by rw [cheb_length]; omega), List.getElem?_eq_none (by rw [List.length_range]; omega)]; rfl
  unfold single
  rw [Finset.sum_range]
  simp only
  rw [hl, List.map_map, ← List.sum_ofFn]
  congr 1
  rw [List.ofFn_eq_map, ← List.map_coe_finRange_eq_range, List.map_map]
  apply List.map_congr_left
  intro q _
  simp only [Function.comp]
  rw [fn_pt hE, fn_pt hE, pt_succ]
  ring

end DiaQuad
end HelFEM
