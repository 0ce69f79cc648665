import Verif.Lemmas.DiaQuad
import Verif.Lemmas.BlockConv
import Verif.Props.AssocLegendre
import Verif.Props.DiaJK

/-!
# C74: radial two-electron integrals of the diatomic basis

`neumannInt` (specification file) is the integral over `μ₁`, `μ₂` of products of functions with `P_L^M(cosh μ_<) Q_L^M(cosh μ_>)`. `E.fn i` is function `i` of an
element as a function of `μ`.
-/

namespace HelFEM
namespace DiaQuad
open Finset Filter Topology Quad ALeg Assembly

theorem modAt {n x a : Nat} (ha : a < n) : (x * n + a) % n = a := by rw [Nat.mul_comm, Nat.mul_add_mod, Nat.mod_eq_of_lt ha]

/-! ### in-element integrals -/

/-- **C74, cached tables.** The integrals from the precomputed tables of an element are those of the direct evaluation, for every rule; a rule whose nodes
and weights do not match in number is rejected by both. -/
theorem C74_cached (E : Elem) (P Q : ℝ → ℝ) (k l : Nat) (x w : List ℝ) :
    (x ≠ [] → (twoeElement E x w >>= fun el => twoeCached el P Q k l) = twoeDirect E P Q k l x w) ∧
    (x.length ≠ w.length → twoeElement E x w = .throw .logicError ∧ twoeDirect E P Q k l x w = .throw .logicError) := by
  constructor
  · intro hx
    by_cases hl : x.length ≠ w.length
    · unfold twoeDirect halfDirect twoeElement
      rw [if_pos hl, if_pos hl, Res.throw_bind, Res.throw_bind]
    · obtain ⟨el, h⟩ : ∃ el, twoeElement E x w = .ok el := ⟨_, if_neg hl⟩
      unfold twoeDirect
      rw [h, cached_outer E P Q k l x w el h hx, cached_outer E P Q l k x w el h hx, Res.ok_bind, Res.ok_bind, Res.ok_bind]
      rfl
  · intro hl
    unfold twoeDirect halfDirect twoeElement
    rw [if_pos hl, if_pos hl, Res.throw_bind]
    exact ⟨rfl, rfl⟩

/-- **C74, symmetry.** Exchanging the two electrons exchanges the powers of `cosh`; exchanging the two functions of an electron changes nothing. -/
theorem C74_symmetry (E : Elem) (P Q : ℝ → ℝ) (k l n : Nat) :
    ∃ T T' : Nat → Nat → ℝ, twoeAt E P Q k l n = .ok ⟨E.nbf * E.nbf, E.nbf * E.nbf, T⟩ ∧ twoeAt E P Q l k n = .ok ⟨E.nbf * E.nbf, E.nbf * E.nbf, T'⟩ ∧
      (∀ r c, T r c = T' c r) ∧ ∀ a < E.nbf, ∀ b < E.nbf, ∀ c < E.nbf, ∀ d < E.nbf,
        T (a * E.nbf + b) (c * E.nbf + d) = T (b * E.nbf + a) (c * E.nbf + d) ∧ T (a * E.nbf + b) (c * E.nbf + d) = T (a * E.nbf + b) (d * E.nbf + c) := by
  obtain ⟨el, h, hn⟩ := element_cheb E n
  refine ⟨_, _, twoeAt_eq E P Q k l n el h hn, twoeAt_eq E P Q l k n el h hn, fun r c => add_comm _ _, ?_⟩
  have hin : ∀ l ip, ∀ a < E.nbf, ∀ b < E.nbf, innerAcc el P l ip (a * E.nbf + b) = innerAcc el P l ip (b * E.nbf + a) := by
    intro l ip a ha b hb
    rw [innerAcc_cheb E P l n el h, innerAcc_cheb E P l n el h]
    simp only [AtomJK.div_at ha, AtomJK.div_at hb, modAt ha, modAt hb, mul_comm (E.fn a _) (E.fn b _)]
  have hrow : ∀ k l, ∀ a < E.nbf, ∀ b < E.nbf, ∀ c, (outer el P Q k l).get (a * E.nbf + b) c = (outer el P Q k l).get (b * E.nbf + a) c := by
    intro k l a ha b hb c
    have hp : ∀ ip, el.bfprod ip (a * E.nbf + b) = el.bfprod ip (b * E.nbf + a) := by
      intro ip
      unfold twoeElement at h
      rw [if_neg (by simp)] at h
      cases h
      simp only [AtomJK.div_at ha, AtomJK.div_at hb, modAt ha, modAt hb, mul_comm]
    unfold outer
    simp only [hp]
  have hcol : ∀ k l, ∀ a < E.nbf, ∀ b < E.nbf, ∀ r, (outer el P Q k l).get r (a * E.nbf + b) = (outer el P Q k l).get r (b * E.nbf + a) := by
    intro k l a ha b hb r
    unfold outer
    simp only [hin l _ a ha b hb]
  intro a ha b hb c hc d hd
  constructor
  · show _ + _ = _ + _
    rw [hrow k l a ha b hb, hcol l k a ha b hb]
  · show _ + _ = _ + _
    rw [hcol k l c hc d hd, hrow l k c hc d hd]

/-- **C74, in-element integrals.** As the order of the rule grows, the in-element integrals converge to the double integrals over the element, also on the
element at `μ = 0` where `Q_L^M` is singular, for every multipole and both powers of `cosh`. `P` and `Q` are only used where they are defined. -/
theorem C74_converges {E : Elem} (hE : E.Regular) (L M k l : Nat) {P Q : ℝ → ℝ} (hP : ∀ x, 1 ≤ x → P x = assocP L M x) (hQ : ∀ x, 1 < x → Q x = assocQ L M x) :
    ∃ T : Nat → Nat → Nat → ℝ, (∀ n, twoeAt E P Q k l n = .ok ⟨E.nbf * E.nbf, E.nbf * E.nbf, T n⟩) ∧
      ∀ a < E.nbf, ∀ b < E.nbf, ∀ c < E.nbf, ∀ d < E.nbf, Tendsto (fun n => T n (b * E.nbf + a) (d * E.nbf + c)) atTop
        (𝓝 (Spec.neumannInt (assocP L M) (assocQ L M) k l (fun μ => E.fn a μ * E.fn b μ) (fun μ => E.fn c μ * E.fn d μ) E.mumin E.mumax E.mumin E.mumax)) := by
  have hel : ∀ n, ∃ el, twoeElement E ((chebyshev n).map Prod.fst) ((chebyshev n).map Prod.snd) = .ok el ∧ el.nbf = E.nbf := element_cheb E
  choose el h1 h2 using hel
  refine ⟨fun n r c => (outer (el n) P Q k l).get r c + (outer (el n) P Q l k).get c r, fun n => twoeAt_eq E P Q k l n (el n) (h1 n) (h2 n), ?_⟩
  intro a ha b hb c hc d hd
  have c1 := prod_cont hE ha hb
  have c2 := prod_cont hE hc hd
  rw [neumann_square hE.nonneg hE.lt L M k l c1 c2]
  refine Tendsto.add ?_ ?_
  · refine ((pair_regular hE.nonneg hE.lt L M k l c1 c2).nested hE.lt).congr fun n => ?_
    rw [outer_legendre hE L M hP hQ k l n (el n) (h1 n)]
    simp only [AtomJK.div_at ha, modAt ha, AtomJK.div_at hc, modAt hc]
  · refine ((pair_regular hE.nonneg hE.lt L M l k c2 c1).nested hE.lt).congr fun n => ?_
    rw [outer_legendre hE L M hP hQ l k n (el n) (h1 n)]
    simp only [AtomJK.div_at ha, modAt ha, AtomJK.div_at hc, modAt hc]

/-! ### two elements -/

theorem single_tendsto {E : Elem} (hE : E.Regular) (k : Nat) {F F' : ℝ → ℝ} (hF : ∀ t ∈ Set.Icc E.mumin E.mumax, F (Real.cosh t) = F' (Real.cosh t))
    (hc : ContinuousOn (fun t => F' (Real.cosh t)) (Set.Icc E.mumin E.mumax)) {a b : Nat} (ha : a < E.nbf) (hb : b < E.nbf) :
    Tendsto (fun n => (single E (legWeight k F) (chebyshev n)).get a b) atTop (𝓝 (∫ t in E.mumin..E.mumax, fQ k F' (fun μ => E.fn a μ * E.fn b μ) t)) := by
  have hcont : ContinuousOn (fQ k F' fun μ => E.fn a μ * E.fn b μ) (Set.Icc E.mumin E.mumax) := by
    refine (prod_cont hE ha hb).mul (ContinuousOn.mul ?_ hc)
    have : hyper k = fun t => Real.sinh t * Real.cosh t ^ k := funext (hyper_eq k)
    rw [this]
    exact (Real.continuous_sinh.mul (Real.continuous_cosh.pow k)).continuousOn
  refine (rule_tendsto hE.lt hcont).congr fun n => ?_
  rw [single_cheb hE.lt]
  apply sum_congr rfl
  intro q hq
  have h := pt_lt hE.lt (Finset.mem_range.1 hq)
  unfold fQ legWeight
  beta_reduce
  rw [hF _ ⟨h.1.le, h.2.le⟩]

/-- **C74, two elements.** Between different elements the product of an integral with `P_L^M` over the inner and one with `Q_L^M` over the outer element
converges to the double integral over the two elements, in both orders of the electrons. The integral with `Q_L^M` over the innermost element is not needed. -/
theorem C74_two_elements {E E' : Elem} (hE : E.Regular) (hE' : E'.Regular) (hlt : E.mumax ≤ E'.mumin) (L M k l : Nat) {P Q : ℝ → ℝ}
    (hP : ∀ x, 1 ≤ x → P x = assocP L M x) (hQ : ∀ x, 1 < x → Q x = assocQ L M x) {a b c d : Nat} (ha : a < E.nbf) (hb : b < E.nbf) (hc : c < E'.nbf) (hd : d < E'.nbf) :
    Tendsto (fun n : Nat × Nat => (single E (legWeight k P) (chebyshev n.1)).get a b * (single E' (legWeight l Q) (chebyshev n.2)).get c d) atTop
      (𝓝 (Spec.neumannInt (assocP L M) (assocQ L M) k l (fun μ => E.fn a μ * E.fn b μ) (fun μ => E'.fn c μ * E'.fn d μ) E.mumin E.mumax E'.mumin E'.mumax)) ∧
    Tendsto (fun n : Nat × Nat => (single E' (legWeight l Q) (chebyshev n.1)).get c d * (single E (legWeight k P) (chebyshev n.2)).get a b) atTop
      (𝓝 (Spec.neumannInt (assocP L M) (assocQ L M) l k (fun μ => E'.fn c μ * E'.fn d μ) (fun μ => E.fn a μ * E.fn b μ) E'.mumin E'.mumax E.mumin E.mumax)) := by
  have h0 : 0 < E'.mumin := lt_of_lt_of_le (lt_of_le_of_lt hE.nonneg hE.lt) hlt
  have t1 := single_tendsto hE k (F := P) (F' := assocP L M) (fun t _ => hP _ (Real.one_le_cosh t))
    ((assocP_cosh_continuous L M).mono fun x hx => le_trans hE.nonneg hx.1) ha hb
  have t2 := single_tendsto hE' l (F := Q) (F' := assocQ L M) (fun t ht => hQ _ (Real.one_lt_cosh.2 (ne_of_gt (lt_of_lt_of_le h0 ht.1))))
    ((assocQ_cosh_continuous L M).mono fun x hx => lt_of_lt_of_le h0 hx.1) hc hd
  obtain ⟨e1, e2⟩ := neumann_apart hE.lt.le hlt hE'.lt.le (assocP L M) (assocQ L M) k l (fun μ => E.fn a μ * E.fn b μ) (fun μ => E'.fn c μ * E'.fn d μ)
  rw [e1, e2, ← prod_atTop_atTop_eq]
  exact ⟨(t1.comp tendsto_fst).mul (t2.comp tendsto_snd), (t2.comp tendsto_fst).mul (t1.comp tendsto_snd)⟩

/-! ### adaptive order -/

/-- **C74, refinement.** The refinement of a block always ends. It tries the orders `n0 = max(nstart, 2)`, then doubled up to the cap, until the block has
settled or the cap is reached. A settled block is returned with its order; at the cap without settling it returns the block at the cap, or with fallback the
block at the first order. -/
theorem C74_refinement {K : Type _} [Field K] [LinearOrder K] [IsStrictOrderedRing K] {A : Type _} (eps sqrteps : K) (diff : A → A → Option K) (scale : A → K)
    (cur : Nat → A) (nmax nstart : Nat) (fallback : Bool) :
    ∃ m c, convergeBlock eps sqrteps diff scale (fun n => .ok (cur n)) nmax nstart fallback = .ok (some c) ∧
      c.orders = (List.range (m + 1)).map (tryOrder nmax (max nstart 2)) ∧
      (∀ j < m, tryOrder nmax (max nstart 2) j < nmax ∧ (1 ≤ j → ¬Settled eps sqrteps diff scale (fun j => cur (tryOrder nmax (max nstart 2) j)) j)) ∧
      ((1 ≤ m ∧ Settled eps sqrteps diff scale (fun j => cur (tryOrder nmax (max nstart 2) j)) m ∧
          c.block = cur (tryOrder nmax (max nstart 2) m) ∧ c.nconv = tryOrder nmax (max nstart 2) m) ∨
        ((m = 0 ∨ ¬Settled eps sqrteps diff scale (fun j => cur (tryOrder nmax (max nstart 2) j)) m) ∧ nmax ≤ tryOrder nmax (max nstart 2) m ∧
          c.block = cur (if fallback then max nstart 2 else tryOrder nmax (max nstart 2) m) ∧ c.nconv = if fallback then max nstart 2 else tryOrder nmax (max nstart 2) m)) := by
  obtain ⟨M, c, e1, e2, e3, e4, e5⟩ := blockLoop_spec eps sqrteps diff scale cur nmax (max nstart 2) (by omega) fallback (nmax + 1) 0 rfl (by omega) (by omega)
  exact ⟨M, c, e1, e2, fun j hj => ⟨e3 j hj, e4 j hj⟩, e5⟩

theorem twoeOrder_ok (eps sqrteps : ℝ) (E : Elem) (nquad : Nat) (tab : List (Int × Int)) (P Q : Int → Int → ℝ → ℝ) :
    ∃ n, twoeOrder eps sqrteps E nquad tab P Q = .ok n ∧ 5 ≤ n ∧ n ≤ 512 ∧ min nquad 512 ≤ n ∧ (tab = [] → n = min (max nquad 5) 512) := by
  have hs : (if 512 < (if nquad < 5 then 5 else nquad) then 512 else (if nquad < 5 then 5 else nquad)) = min (max nquad 5) 512 := by
    by_cases h1 : nquad < 5
    · rw [if_pos h1, if_neg (by omega)]; omega
    · rw [if_neg h1]
      by_cases h2 : 512 < nquad
      · rw [if_pos h2]; omega
      · rw [if_neg h2]; omega
  unfold twoeOrder
  simp only
  rw [hs]
  by_cases ht : tab = []
  · rw [if_pos ht]
    exact ⟨_, rfl, by omega, by omega, by omega, fun _ => rfl⟩
  · rw [if_neg ht]
    obtain ⟨p, h1, _, _⟩ := hardest_spec tab ht
    rw [h1, Res.ok_bind]
    have hprobe : ∀ n, ∃ W, (twoeAt E (P p.1 p.2) (Q p.1 p.2) 0 0 n >>= fun T00 => twoeAt E (P p.1 p.2) (Q p.1 p.2) 0 2 n >>= fun T02 =>
        twoeAt E (P p.1 p.2) (Q p.1 p.2) 2 2 n >>= fun T22 => DiaJK.kernel T00 T02 T22) = .ok W := by
      intro n
      obtain ⟨el, h, hn⟩ := element_cheb E n
      rw [twoeAt_eq E _ _ 0 0 n el h hn, twoeAt_eq E _ _ 0 2 n el h hn, twoeAt_eq E _ _ 2 2 n el h hn, Res.ok_bind, Res.ok_bind, Res.ok_bind]
      obtain ⟨W, w, _⟩ := DiaJK.kernel_ok (E.nbf * E.nbf) _ _ _
      exact ⟨W, w⟩
    choose W hW using hprobe
    obtain ⟨c, n, e1, _, e3, e4, e5⟩ := convergeMat_ok eps sqrteps W (min (max nquad 5) 512) false
    simp only [hW]
    rw [e1, Res.ok_bind]
    refine ⟨c.nconv, rfl, ?_, ?_, ?_, fun h => absurd h ht⟩
    · omega
    · omega
    · omega

/-- **C74, in-element order.** For every element there is one order for all multipoles, between 5 and 512 and not below the one requested (up to 512). It is
found with the multipole of largest `L`, and among those of largest `|M|`. -/
theorem C74_order (eps sqrteps : ℝ) (E : Elem) (nquad : Nat) (tab : List (Int × Int)) (P Q : Int → Int → ℝ → ℝ) :
    (∃ n, twoeOrder eps sqrteps E nquad tab P Q = .ok n ∧ 5 ≤ n ∧ n ≤ 512 ∧ min nquad 512 ≤ n ∧ (tab = [] → n = min (max nquad 5) 512)) ∧
    ∀ h ∈ tab, (∀ e ∈ tab, e.1 < h.1 ∨ (e.1 = h.1 ∧ e.2 ≤ h.2)) → ∀ P' Q' : Int → Int → ℝ → ℝ, P' h.1 h.2 = P h.1 h.2 → Q' h.1 h.2 = Q h.1 h.2 →
      twoeOrder eps sqrteps E nquad tab P' Q' = twoeOrder eps sqrteps E nquad tab P Q := by
  refine ⟨twoeOrder_ok eps sqrteps E nquad tab P Q, ?_⟩
  intro h hm hmax P' Q' hP hQ
  have ht : tab ≠ [] := List.ne_nil_of_mem hm
  obtain ⟨p, h1, h2, h3⟩ := hardest_spec tab ht
  have hp : p = h := by
    have a1 := h3 h hm
    have a2 := hmax p h2
    exact Prod.ext (by omega) (by omega)
  subst hp
  unfold twoeOrder
  simp only
  rw [if_neg ht, if_neg ht, h1, Res.ok_bind, Res.ok_bind, hP, hQ]

/-! ### for the Coulomb and exchange matrices -/

/-- **C74, the integrals of `compute_tei`.** The quadrature delivers what the theorems on Coulomb and exchange matrices ask for: every integral is available,
has the size of its element and the symmetries. The integrals with `P` and `Q` over an element are those of one order, at least the requested one; the
in-element integrals of an element are those of its order. -/
theorem C74_radials (eps sqrteps : ℝ) (els : List Elem) (nquad : Nat) (tab : List (Int × Int)) (htab : ∀ p ∈ tab, 0 ≤ p.1) (P Q : Int → Int → ℝ → ℝ) :
    ∃ (n : Nat → Nat) (Pm Qm : Int → Int → Nat → Nat → Nat → Nat → ℝ) (T : Int → Int → Nat → Nat → Nat → Nat → Nat → ℝ),
      (∀ (e : Nat) (E : Elem), els[e]? = some E → n e = E.nbf) ∧ DiaJK.Radials (prims eps sqrteps els nquad tab P Q) tab els.length n Pm Qm T ∧
      ∀ (e : Nat) (E : Elem), els[e]? = some E → (∃ o, twoeOrder eps sqrteps E nquad tab P Q = .ok o ∧
        ∀ L Ma, ∀ α β, twoeAt E (P L Ma) (Q L Ma) (2 * α) (2 * β) o = .ok ⟨n e * n e, n e * n e, T L Ma α β e⟩) ∧
        ∀ L Ma α, (∃ o, max nquad 5 ≤ o ∧ o ≤ max 512 nquad ∧ Pm L Ma α e = (single E (legWeight (2 * α) (P L Ma)) (chebyshev o)).get) ∧
          ∃ o, max nquad 5 ≤ o ∧ o ≤ max 512 nquad ∧ Qm L Ma α e = (single E (legWeight (2 * α) (Q L Ma)) (chebyshev o)).get := by
  have hdis : ∀ (E : Elem) (k : Nat) (F : ℝ → ℝ), ∃ o, disjoint eps sqrteps E nquad k F = .ok (single E (legWeight k F) (chebyshev o)) ∧ max nquad 5 ≤ o ∧ o ≤ max 512 nquad := by
    intro E k F
    obtain ⟨c, o, e1, e2, _, e4, e5⟩ := convergeMat_ok eps sqrteps (fun n => single E (legWeight k F) (chebyshev n)) (max nquad 5) true
    refine ⟨o, ?_, by omega, by omega⟩
    unfold disjoint
    rw [e1, Res.ok_bind, e2]
  choose od d1 d2 d3 using hdis
  have hord : ∀ E, ∃ o, twoeOrder eps sqrteps E nquad tab P Q = .ok o := fun E => by
    obtain ⟨o, h, _⟩ := twoeOrder_ok eps sqrteps E nquad tab P Q; exact ⟨o, h⟩
  choose ot ho using hord
  have hel : ∀ E : Elem, ∃ el, twoeElement E ((chebyshev (ot E)).map Prod.fst) ((chebyshev (ot E)).map Prod.snd) = .ok el ∧ el.nbf = E.nbf := fun E => element_cheb E (ot E)
  choose el l1 l2 using hel
  obtain ⟨dE, hdE⟩ : ∃ dE : Nat → Elem, dE = fun e => els.getD e ⟨0, 0, 0, fun _ _ _ => 0⟩ := ⟨_, rfl⟩
  have hget : ∀ e E, els[e]? = some E → dE e = E := by
    intro e E h
    rw [hdE]
    show els.getD e _ = E
    rw [List.getD_eq_getElem?_getD, h]; rfl
  have hread : ∀ e < els.length, readAt els e = .ok (dE e) := by
    intro e h
    have : els[e]? = some els[e] := List.getElem?_eq_getElem h
    unfold readAt
    rw [this, hget e _ this]
  refine ⟨fun e => (dE e).nbf, fun L Ma α e => (single (dE e) (legWeight (2 * α) (P L Ma)) (chebyshev (od (dE e) (2 * α) (P L Ma)))).get,
    fun L Ma α e => (single (dE e) (legWeight (2 * α) (Q L Ma)) (chebyshev (od (dE e) (2 * α) (Q L Ma)))).get,
    fun L Ma α β e r c => (outer (el (dE e)) (P L Ma) (Q L Ma) (2 * α) (2 * β)).get r c + (outer (el (dE e)) (P L Ma) (Q L Ma) (2 * β) (2 * α)).get c r, ?_, ?_, ?_⟩
  · intro e E h; show (dE e).nbf = _; rw [hget e E h]
  · have hsym : ∀ (E : Elem) f n a b, (single E f (chebyshev n)).get a b = (single E f (chebyshev n)).get b a := by
      intro E f n a b
      unfold single
      simp only
      congr 1
      apply List.map_congr_left
      intro p _; ring
    constructor
    · intro L Ma hm Lhi hL e he α _
      have h0 := htab _ hm
      show (readAt els e >>= fun E => if L < 0 ∨ Lhi < L then _ else disjoint eps sqrteps E nquad (2 * α) (P L Ma)) = _
      rw [hread e he, Res.ok_bind, if_neg (by omega), d1]
      rfl
    · intro L Ma hm Lhi hL e he α _
      have h0 := htab _ hm
      show (readAt els e >>= fun E => if L < 0 ∨ Lhi < L then _ else disjoint eps sqrteps E nquad (2 * α) (Q L Ma)) = _
      rw [hread e he, Res.ok_bind, if_neg (by omega), d1]
      rfl
    · intro L Ma hm Lhi hL e he α _ β _ _
      have h0 := htab _ hm
      show (readAt els e >>= fun E => if L < 0 ∨ Lhi < L then _ else twoeOrder eps sqrteps E nquad tab P Q >>= fun n => twoeAt E (P L Ma) (Q L Ma) (2 * α) (2 * β) n) = _
      rw [hread e he, Res.ok_bind, if_neg (by omega), ho, Res.ok_bind]
      exact twoeAt_eq _ _ _ _ _ _ _ (l1 (dE e)) (l2 (dE e))
    · intro L Ma _ e _ α _ a _ b _; exact hsym _ _ _ _ _
    · intro L Ma _ e _ α _ a _ b _; exact hsym _ _ _ _ _
    · intro L Ma _ e _ α _ β _ i _ j _; exact add_comm _ _
  · intro e E h
    have hE := hget e E h
    subst hE
    exact ⟨⟨ot (dE e), ho (dE e), fun L Ma α β => twoeAt_eq _ _ _ _ _ _ _ (l1 (dE e)) (l2 (dE e))⟩,
      fun L Ma α => ⟨⟨_, d2 _ _ _, d3 _ _ _, rfl⟩, ⟨_, d2 _ _ _, d3 _ _ _, rfl⟩⟩⟩

/-! ### the Legendre cache -/

/-- one request: first or second kind, `L`, argument -/
noncomputable def ask (kc : Consts) (c : Cache) (q : Bool × Int × ℝ) : Res (ℝ × Cache) := if q.1 then c.P kc q.2.1 q.2.2 else c.Q kc q.2.1 q.2.2

/-- the cache after a history of requests -/
noncomputable def after (kc : Consts) (c : Cache) (hist : List (Bool × Int × ℝ)) : Res Cache := hist.foldlM (fun c q => ask kc c q >>= fun r => .ok r.2) c

/-- the stored columns are those that would be computed -/
def Cache.Sound (kc : Consts) (c : Cache) : Prop :=
  (∀ e ∈ c.Ptab, column kc c.Mabs c.Lmax true e.1 = .ok e.2) ∧ ∀ e ∈ c.Qtab, column kc c.Mabs c.Lmax false e.1 = .ok e.2

theorem fetch_sound {kc : Consts} {c : Cache} (hc : c.Sound kc) (w : Bool) (x : ℝ) :
    (c.fetch kc w x >>= fun r => .ok r.1) = column kc c.Mabs c.Lmax w x ∧
      ∀ r, c.fetch kc w x = .ok r → r.2.Sound kc ∧ r.2.Mabs = c.Mabs ∧ r.2.Lmax = c.Lmax := by
  unfold Cache.fetch
  cases hf : (if w then c.Ptab else c.Qtab).find? (fun e => e.1 = x) with
  | some e =>
    have hm := List.mem_of_find?_eq_some hf
    have he := List.find?_some hf
    simp only [decide_eq_true_eq] at he
    simp only [Res.ok_bind]
    refine ⟨?_, fun r hr => by cases hr; exact ⟨hc, rfl, rfl⟩⟩
    cases w
    · rw [← he]; exact (hc.2 e hm).symm
    · rw [← he]; exact (hc.1 e hm).symm
  | none =>
    simp only
    cases hcol : column kc c.Mabs c.Lmax w x with
    | ok col =>
      simp only [Res.ok_bind]
      refine ⟨trivial, fun r hr => ?_⟩
      cases hr
      cases w
      · refine ⟨⟨hc.1, ?_⟩, rfl, rfl⟩
        intro e he
        rcases List.mem_cons.1 he with rfl | he
        · exact hcol
        · exact hc.2 e he
      · refine ⟨⟨?_, hc.2⟩, rfl, rfl⟩
        intro e he
        rcases List.mem_cons.1 he with rfl | he
        · exact hcol
        · exact hc.1 e he
    | throw e => simp [Res.throw_bind]
    | ub => simp [Res.ub_bind]

theorem ask_sound {kc : Consts} {c : Cache} (hc : c.Sound kc) (q : Bool × Int × ℝ) :
    (∀ c' : Cache, c'.Sound kc → c'.Mabs = c.Mabs → c'.Lmax = c.Lmax → (ask kc c q >>= fun r => Res.ok r.1) = (ask kc c' q >>= fun r => Res.ok r.1)) ∧
      ∀ r, ask kc c q = .ok r → r.2.Sound kc ∧ r.2.Mabs = c.Mabs ∧ r.2.Lmax = c.Lmax := by
  have hval : ∀ (c : Cache), c.Sound kc → ∀ w x L, (c.fetch kc w x >>= fun r => pickL r.1 L >>= fun v => Res.ok (v, r.2)) >>= (fun r => Res.ok r.1) =
      column kc c.Mabs c.Lmax w x >>= fun col => pickL col L := by
    intro c hc w x L
    rw [← (fetch_sound hc w x).1]
    simp only [bind_assoc, Res.ok_bind]
    congr 1
    funext r
    cases pickL r.1 L <;> rfl
  have hnext : ∀ w x L r, (c.fetch kc w x >>= fun r => pickL r.1 L >>= fun v => Res.ok (v, r.2)) = .ok r → r.2.Sound kc ∧ r.2.Mabs = c.Mabs ∧ r.2.Lmax = c.Lmax := by
    intro w x L r hr
    cases hf : c.fetch kc w x with
    | ok s =>
      rw [hf, Res.ok_bind] at hr
      cases hp : pickL s.1 L with
      | ok v => rw [hp, Res.ok_bind] at hr; cases hr; exact (fetch_sound hc w x).2 s hf
      | throw e => rw [hp, Res.throw_bind] at hr; cases hr
      | ub => rw [hp, Res.ub_bind] at hr; cases hr
    | throw e => rw [hf, Res.throw_bind] at hr; cases hr
    | ub => rw [hf, Res.ub_bind] at hr; cases hr
  obtain ⟨w, L, x⟩ := q
  cases w
  · constructor
    · intro c' hc' h1 h2
      show (c.Q kc L x >>= _) = (c'.Q kc L x >>= _)
      unfold Cache.Q
      by_cases hx : x = 1
      · rw [if_pos hx, if_pos hx]; rfl
      · rw [if_neg hx, if_neg hx, hval c hc, hval c' hc', h1, h2]
    · intro r hr
      have hr : c.Q kc L x = .ok r := hr
      unfold Cache.Q at hr
      by_cases hx : x = 1
      · rw [if_pos hx] at hr; cases hr; exact ⟨hc, rfl, rfl⟩
      · rw [if_neg hx] at hr; exact hnext false x L r hr
  · constructor
    · intro c' hc' h1 h2
      show (c.P kc L x >>= _) = (c'.P kc L x >>= _)
      unfold Cache.P
      rw [hval c hc, hval c' hc', h1, h2]
    · intro r hr
      exact hnext true x L r hr

/-- **C74, cache, history.** What a cache answers does not depend on what it was asked before. -/
theorem C74_cache_history (kc : Consts) (Mabs Lmax : Int) (hist : List (Bool × Int × ℝ)) (c : Cache) (h : after kc (Cache.new Mabs Lmax) hist = .ok c) (q : Bool × Int × ℝ) :
    (ask kc c q >>= fun r => Res.ok r.1) = (ask kc (Cache.new Mabs Lmax) q >>= fun r => Res.ok r.1) := by
  have hnew : (Cache.new Mabs Lmax).Sound kc := by
    constructor <;> intro e he <;> exact absurd he (by simp [Cache.new])
  have key : ∀ (hist : List (Bool × Int × ℝ)) (c0 c : Cache), c0.Sound kc → after kc c0 hist = .ok c → c.Sound kc ∧ c.Mabs = c0.Mabs ∧ c.Lmax = c0.Lmax := by
    intro hist
    induction hist with
    | nil => intro c0 c h0 h; cases h; exact ⟨h0, rfl, rfl⟩
    | cons q t ih =>
      intro c0 c h0 h
      unfold after at h
      rw [List.foldlM_cons] at h
      cases ha : ask kc c0 q with
      | ok r =>
        rw [ha, Res.ok_bind, Res.ok_bind] at h
        obtain ⟨a1, a2, a3⟩ := (ask_sound h0 q).2 r ha
        obtain ⟨b1, b2, b3⟩ := ih r.2 c a1 h
        exact ⟨b1, b2.trans a2, b3.trans a3⟩
      | throw e => rw [ha] at h; simp [Res.throw_bind] at h
      | ub => rw [ha] at h; simp [Res.ub_bind] at h
  obtain ⟨h1, h2, h3⟩ := key hist _ c hnew h
  exact (ask_sound h1 q).1 _ hnew h2.symm h3.symm

theorem column_table {kc : Consts} {M Lmax : Nat} {wantP : Bool} {x : ℝ} {v : Vect ℝ} {f : Nat → Nat → ℝ}
    (hv : (if wantP then plm Lmax M x ⟨(((Lmax : Int) + 1) * ((M : Int) + 1)).toNat, fun _ => 0⟩ else
      qlm kc.tiny kc.tol kc.maxIter Lmax M x ⟨(((Lmax : Int) + 1) * ((M : Int) + 1)).toNat, fun _ => 0⟩) = .ok v)
    (ht : IsTable ⟨(((Lmax : Int) + 1) * ((M : Int) + 1)).toNat, fun _ => 0⟩ v Lmax M f) :
    column kc M Lmax wantP x = .ok ((List.range (Lmax + 1)).map fun L => f L M) := by
  have hs : (((Lmax : Int) + 1) * ((M : Int) + 1)).toNat = (Lmax + 1) * (M + 1) := by
    rw [show ((Lmax : Int) + 1) * ((M : Int) + 1) = (((Lmax + 1) * (M + 1) : Nat) : Int) by push_cast; ring, Int.toNat_natCast]
  unfold column
  simp only
  rw [hv, Res.ok_bind, show ((Lmax : Int) + 1).toNat = Lmax + 1 by omega, Int.toNat_natCast]
  apply Res.mapM_ok
  intro L hL
  have hL := List.mem_range.1 hL
  unfold rd
  have hlt : L + M * (Lmax + 1) < v.size := by
    rw [ht.1]
    show _ < (((Lmax : Int) + 1) * ((M : Int) + 1)).toNat
    rw [hs]; nlinarith
  rw [if_pos hlt]
  exact congrArg _ (ht.2.1 L M (by omega) le_rfl)

/-- **C74, cache, values.** A cache for `|M|` and `Lmax` answers `P_L^|M|(x)` for every `x` and `L ≤ Lmax`, and `Q_L^|M|(x)` near the cut; at `x = 1` the answer
for the second kind is 0. An `L` outside the range reads out of bounds. -/
theorem C74_cache_values (kc : Consts) (M Lmax L : Nat) (hL : L ≤ Lmax) (x : ℝ) :
    (ask kc (Cache.new M Lmax) (true, L, x) >>= fun r => Res.ok r.1) = .ok (assocP L M x) ∧
    (1 < x → nearCut Lmax x → (ask kc (Cache.new M Lmax) (false, L, x) >>= fun r => Res.ok r.1) = .ok (assocQ L M x)) ∧
    (ask kc (Cache.new M Lmax) (false, L, 1) >>= fun r => Res.ok r.1) = .ok 0 ∧
    ∀ L' : Int, L' < 0 ∨ (Lmax : Int) < L' → (ask kc (Cache.new M Lmax) (true, L', x) >>= fun r => Res.ok r.1) = .ub := by
  have hs : (Lmax + 1) * (M + 1) ≤ (((Lmax : Int) + 1) * ((M : Int) + 1)).toNat := by
    rw [show ((Lmax : Int) + 1) * ((M : Int) + 1) = (((Lmax + 1) * (M + 1) : Nat) : Int) by push_cast; ring, Int.toNat_natCast]
  have hP : column kc M Lmax true x = .ok ((List.range (Lmax + 1)).map fun L => assocP L M x) := by
    obtain ⟨v, e, h, _⟩ := C37_first_kind Lmax M x ⟨(((Lmax : Int) + 1) * ((M : Int) + 1)).toNat, fun _ => 0⟩ (by simpa using hs)
    exact column_table (wantP := true) e h
  have hask : ∀ (w : Bool) (L : Int) (col : List ℝ), (w = false → x ≠ 1) → column kc M Lmax w x = .ok col →
      (ask kc (Cache.new M Lmax) (w, L, x) >>= fun r => Res.ok r.1) = pickL col L := by
    intro w L col hx hcol
    have hf : (Cache.new (M : Int) Lmax).fetch kc w x >>= (fun r => Res.ok r.1) = .ok col := by
      rw [(fetch_sound (kc := kc) (c := Cache.new M Lmax) (by constructor <;> intro e he <;> exact absurd he (by simp [Cache.new])) w x).1]
      exact hcol
    have hfetch : ∃ c', (Cache.new (M : Int) Lmax).fetch kc w x = .ok (col, c') := by
      cases hc : (Cache.new (M : Int) Lmax).fetch kc w x with
      | ok r => rw [hc, Res.ok_bind] at hf; cases hf; exact ⟨r.2, rfl⟩
      | throw e => rw [hc, Res.throw_bind] at hf; cases hf
      | ub => rw [hc, Res.ub_bind] at hf; cases hf
    obtain ⟨c', hc'⟩ := hfetch
    have hp : ∀ r : List ℝ × Cache, (pickL r.1 L >>= fun v => Res.ok (v, r.2)) >>= (fun r => Res.ok r.1) = pickL r.1 L := by
      intro r; cases pickL r.1 L <;> rfl
    cases w
    · show ((Cache.new (M : Int) Lmax).Q kc L x >>= _) = _
      unfold Cache.Q
      rw [if_neg (hx rfl), hc', Res.ok_bind, hp]
    · show ((Cache.new (M : Int) Lmax).P kc L x >>= _) = _
      unfold Cache.P
      rw [hc', Res.ok_bind, hp]
  have hpick : ∀ f : Nat → ℝ, pickL ((List.range (Lmax + 1)).map f) L = .ok (f L) := by
    intro f
    unfold pickL
    rw [if_neg (by omega), Int.toNat_natCast]
    unfold readAt
    rw [List.getElem?_map, List.getElem?_range (by omega)]
    rfl
  refine ⟨?_, ?_, ?_, ?_⟩
  · rw [hask true L _ (fun h => by cases h) hP, hpick]
  · intro hx hn
    obtain ⟨v, e, h⟩ := C37_second_kind kc.tiny kc.tol kc.maxIter Lmax M x ⟨(((Lmax : Int) + 1) * ((M : Int) + 1)).toNat, fun _ => 0⟩
      (by rw [abs_of_pos (by linarith)]; exact ne_of_gt hx) (Or.inr hn) (by simpa using hs)
    rw [hask false L _ (fun _ => ne_of_gt hx) (column_table (wantP := false) e h), hpick]
  · show ((Cache.new (M : Int) Lmax).Q kc L 1 >>= _) = _
    unfold Cache.Q
    rw [if_pos rfl]; rfl
  · intro L' hL'
    rw [hask true L' _ (fun h => by cases h) hP]
    unfold pickL
    rcases hL' with h | h
    · rw [if_pos h]
    · rw [if_neg (by omega)]
      unfold readAt
      rw [List.getElem?_eq_none (by rw [List.length_map, List.length_range]; omega)]

/-! ### concrete cases -/

/-- the first element, from 0 to 2, with the two linear functions; the second from 2 to 3 -/
noncomputable def demo (lo hi : ℝ) : Elem := ⟨lo, hi, 2, fun _ i x => if i = 0 then (1 - x) / 2 else (1 + x) / 2⟩

theorem demo_regular {lo hi : ℝ} (h0 : 0 ≤ lo) (h : lo < hi) : (demo lo hi).Regular := by
  refine ⟨h0, h, fun i _ => Continuous.continuousOn ?_⟩
  unfold Elem.fn demo
  by_cases hi : i = 0
  · simp only [if_pos hi]; fun_prop
  · simp only [if_neg hi]; fun_prop

/-- the quadrupole with `M = 2` on the element at `μ = 0`, where `Q_2^2` is singular, with a `Q` that is 0 at the singular point as in the code -/
example : ∃ T : Nat → Nat → Nat → ℝ, (∀ n, twoeAt (demo 0 2) (assocP 2 2) (fun x => if x = 1 then 0 else assocQ 2 2 x) 0 2 n = .ok ⟨4, 4, T n⟩) ∧
    Tendsto (fun n => T n 2 3) atTop (𝓝 (Spec.neumannInt (assocP 2 2) (assocQ 2 2) 0 2 (fun μ => (demo 0 2).fn 0 μ * (demo 0 2).fn 1 μ)
      (fun μ => (demo 0 2).fn 1 μ * (demo 0 2).fn 1 μ) 0 2 0 2)) := by
  obtain ⟨T, h1, h2⟩ := C74_converges (demo_regular le_rfl (by norm_num : (0 : ℝ) < 2)) 2 2 0 2 (P := assocP 2 2) (Q := fun x => if x = 1 then 0 else assocQ 2 2 x)
    (fun _ _ => rfl) (fun x hx => if_neg (ne_of_gt hx))
  exact ⟨T, h1, h2 0 (by decide) 1 (by decide) 1 (by decide) 1 (by decide)⟩

/-- the elements `[0, 2]` and `[2, 3]` -/
example : Tendsto (fun n : Nat × Nat => (single (demo 0 2) (legWeight 2 (assocP 3 1)) (chebyshev n.1)).get 0 1 * (single (demo 2 3) (legWeight 0 (assocQ 3 1)) (chebyshev n.2)).get 1 1) atTop
    (𝓝 (Spec.neumannInt (assocP 3 1) (assocQ 3 1) 2 0 (fun μ => (demo 0 2).fn 0 μ * (demo 0 2).fn 1 μ) (fun μ => (demo 2 3).fn 1 μ * (demo 2 3).fn 1 μ) 0 2 2 3)) :=
  (C74_two_elements (demo_regular le_rfl (by norm_num)) (demo_regular (by norm_num) (by norm_num)) le_rfl 3 1 2 0 (fun _ _ => rfl) (fun _ _ => rfl)
    (by decide) (by decide) (by decide) (by decide)).1

/-- the functions of the first element at its ends -/
example : (demo 0 2).fn 0 0 = 1 ∧ (demo 0 2).fn 0 2 = 0 ∧ (demo 0 2).fn 1 0 = 0 ∧ (demo 0 2).fn 1 2 = 1 := by
  unfold Elem.fn demo midOf lenOf
  norm_num

/-- a block that does not change settles at the second order; one that alternates reaches the cap, and falls back -/
example : convergeBlock (0 : ℚ) 0 (fun a b : Nat => some (if a = b then 0 else 1)) (fun _ => 1) (fun _ => .ok 7) 512 5 true = .ok (some ⟨7, 10, [5, 10]⟩) ∧
    convergeBlock (0 : ℚ) 0 (fun a b : Nat => some (if a = b then 0 else 1)) (fun _ => 1) (fun n => .ok n) 20 5 true = .ok (some ⟨5, 5, [5, 10, 20]⟩) ∧
    convergeBlock (0 : ℚ) 0 (fun a b : Nat => some (if a = b then 0 else 1)) (fun _ => 1) (fun n => .ok n) 20 5 false = .ok (some ⟨20, 20, [5, 10, 20]⟩) := by
  refine ⟨?_, ?_, ?_⟩ <;> with_unfolding_all rfl

/-- the largest `L` first, then the largest `|M|` -/
example : hardest [(0, 0), (2, 0), (1, 1), (2, 1), (2, 2), (1, 2)] = .ok (2, 2) := rfl

/-- a cache for `M = 1` and `L ≤ 2` after two requests -/
example (kc : Consts) (c : Cache) (h : after kc (Cache.new 1 2) [(true, 2, 3), (false, 1, 1)] = .ok c) :
    (ask kc c (true, 2, 3) >>= fun r => Res.ok r.1) = .ok (assocP 2 1 3) := by
  rw [C74_cache_history kc 1 2 _ c h]
  exact (C74_cache_values kc 1 2 2 le_rfl 3).1

/-- Coulomb and exchange for two elements: the integrals by quadrature are what `C73_coulomb_exchange` needs -/
example (eps sqrteps : ℝ) (P Q : Int → Int → ℝ → ℝ) : ∃ Pm Qm T, ∃ n : Nat → Nat, n 0 = 2 ∧ n 1 = 2 ∧
    DiaJK.Radials (prims eps sqrteps [demo 0 2, demo 2 3] 30 [(0, 0), (1, 1)] P Q) [(0, 0), (1, 1)] 2 n Pm Qm T := by
  obtain ⟨n, Pm, Qm, T, h1, h2, _⟩ := C74_radials eps sqrteps [demo 0 2, demo 2 3] 30 [(0, 0), (1, 1)] (by simp) P Q
  exact ⟨Pm, Qm, T, n, h1 0 _ rfl, h1 1 _ rfl, h2⟩

end DiaQuad
end HelFEM
