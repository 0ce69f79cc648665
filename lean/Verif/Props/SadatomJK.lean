import Verif.Props.AtomicJK

/-!
# C64: Coulomb and exchange matrices of the spherically averaged atom

The densities are one radial matrix per angular momentum, the same for all `m`. The exchange matrix of angular momentum `lo` is the average
over `m` of the exchange matrix of the full atom.
-/

namespace HelFEM
namespace AtomJK
open Finset Spec TwoE Sym

variable {G : Nat → Int → Nat → Int → Nat → Int → ℝ} {lmax : Nat} {R : Radial} {ne N : Nat} {first last : Nat → Nat}

/-- all functions `(l, m)` with `l ≤ lmax` -/
def allLm (lmax : Nat) : List (Int × Int) := (List.range (lmax + 1)).flatMap fun (l : Nat) => (intRange (-(l : Int)) l).map fun m => ((l : Int), m)

theorem mem_allLm (lmax : Nat) (a : Int × Int) : a ∈ allLm lmax ↔ |a.2| ≤ a.1 ∧ a.1 ≤ lmax := by
  unfold allLm
  rw [List.mem_flatMap]
  constructor
  · rintro ⟨l, hl, ha⟩
    obtain ⟨m, hm, rfl⟩ := List.mem_map.1 ha
    have hl := List.mem_range.1 hl
    have hm := (mem_intRange _ _ _).1 hm
    exact ⟨abs_le.2 ⟨hm.1, hm.2⟩, by simp only; omega⟩
  · rintro ⟨h1, h2⟩
    have h0 := abs_nonneg a.2
    refine ⟨a.1.toNat, List.mem_range.2 (by omega), List.mem_map.2 ⟨a.2, (mem_intRange _ _ _).2 ?_, ?_⟩⟩
    · have := abs_le.1 h1
      constructor <;> omega
    · have : ((a.1.toNat : Nat) : Int) = a.1 := by omega
      rw [this]

theorem allLm_angular (lmax : Nat) : Angular (allLm lmax) lmax := by
  have h : ((lmax : Int), (0 : Int)) ∈ allLm lmax := (mem_allLm _ _).2 ⟨by simp, le_rfl⟩
  exact ⟨List.ne_nil_of_mem h, fun a ha => (mem_allLm _ _).1 ha, ⟨_, h, rfl⟩⟩

theorem sad_table (hG : Gaunt.Symmetric G) (lmax : Nat) (sched : List Nat) (hs : sched.Perm (List.range (2 * lmax + 1))) :
    ∃ T, Gaunt.build G lmax (2 * lmax) lmax (-1) sched = .ok T ∧ Looks T G (allLm lmax) lmax := by
  have hA := allLm_angular lmax
  obtain ⟨T, h1, h2⟩ := gauntTable_looks hG hA sched hs
  refine ⟨T, ?_, h2⟩
  rw [← h1]
  unfold gauntTable
  obtain ⟨m, m1, m2, m3⟩ := maxOf_spec ((allLm lmax).map Prod.snd) (by simp [hA.ne])
  obtain ⟨b, hb, hb'⟩ := List.mem_map.1 m2
  have hm : m ≤ lmax := by
    have := hA.valid b hb
    have := abs_le.1 this.1
    omega
  rw [hA.max_l, Res.ok_bind, m1, Res.ok_bind, max_eq_left hm]
  rfl

theorem sadL_angular (lmax : Nat) : Angular (sadL lmax) lmax := by
  have h : ((lmax : Int), (0 : Int)) ∈ sadL lmax := List.mem_map.2 ⟨lmax, List.mem_range.2 (Nat.lt_succ_self lmax), rfl⟩
  refine ⟨List.ne_nil_of_mem h, ?_, ⟨_, h, rfl⟩⟩
  intro a ha
  obtain ⟨l, hl, rfl⟩ := List.mem_map.1 ha
  have := List.mem_range.1 hl
  simp only [abs_zero]
  constructor <;> omega

theorem foldlM_fun {ι : Type _} (body : (Int → ℝ) → ι → Res (Int → ℝ)) (c : ι → Int → ℝ) :
    ∀ (l : List ι) (t : Int → ℝ), (∀ e ∈ l, ∀ t, ∃ t', body t e = .ok t' ∧ ∀ L, t' L = t L + c e L) →
      ∃ t', l.foldlM body t = .ok t' ∧ ∀ L, t' L = t L + (l.map fun e => c e L).sum := by
  intro l
  induction l with
  | nil => intro t _; exact ⟨t, rfl, by simp⟩
  | cons e l ih =>
    intro t h
    obtain ⟨t1, a1, a2⟩ := h e (by simp) t
    obtain ⟨t2, b1, b2⟩ := ih t1 (fun e' he' => h e' (by simp [he']))
    refine ⟨t2, by rw [List.foldlM_cons, a1]; exact b1, ?_⟩
    intro L
    rw [b2, a2, List.map_cons, List.sum_cons, add_assoc]

theorem sum_intRange (lo hi : Int) (f : Int → ℝ) : ((intRange lo hi).map f).sum = ∑ M ∈ Icc lo hi, f M := by
  rw [← List.sum_toFinset _ (nodup_intRange lo hi)]
  apply sum_congr _ (fun _ _ => rfl)
  ext M
  rw [List.mem_toFinset, mem_intRange, Finset.mem_Icc]

/-- coupling of two shells summed over both `m` -/
noncomputable def shellSum (G : Nat → Int → Nat → Int → Nat → Int → ℝ) (lo li L : Nat) : ℝ :=
  ∑ mo ∈ Icc (-(lo : Int)) lo, ∑ mi ∈ Icc (-(li : Int)) li, sphere G (lo, mo) L (mo - mi) (li, mi) * sphere G (lo, mo) L (mo - mi) (li, mi)

theorem totCoup_ok {T : Gaunt.Table ℝ} (hT : Looks T G (allLm lmax) lmax) (lo li : Nat) (hlo : lo ≤ lmax) (hli : li ≤ lmax) :
    ∃ t, totCoup T lo li = .ok t ∧ ∀ L : Int, L ∈ intRange |(li : Int) - lo| (li + lo) → t L = shellSum G lo li L.toNat / (2 * lo + 1) := by
  obtain ⟨t, t1, t2⟩ := foldlM_fun (fun t mout => (intRange (-(li : Int)) li).foldlM (fun t min =>
      (intRange |(li : Int) - lo| (li + lo)).foldlM (coupStep T lo li mout min) t) t)
    (fun mo L => ∑ mi ∈ Icc (-(li : Int)) li, if L ∈ intRange |(li : Int) - lo| (li + lo) then
      sphere G (lo, mo) L.toNat (mo - mi) (li, mi) * sphere G (lo, mo) L.toNat (mo - mi) (li, mi) else 0) (intRange (-(lo : Int)) lo) (fun _ => 0) (by
      intro mo hmo t
      obtain ⟨t', a1, a2⟩ := foldlM_fun (fun t min => (intRange |(li : Int) - lo| (li + lo)).foldlM (coupStep T lo li mo min) t)
        (fun mi L => if L ∈ intRange |(li : Int) - lo| (li + lo) then
          sphere G (lo, mo) L.toNat (mo - mi) (li, mi) * sphere G (lo, mo) L.toNat (mo - mi) (li, mi) else 0) (intRange (-(li : Int)) li) t (by
          intro mi hmi t
          have hmo := (mem_intRange _ _ _).1 hmo
          have hmi := (mem_intRange _ _ _).1 hmi
          obtain ⟨t', b1, b2⟩ := foldlM_fun (coupStep T lo li mo mi) (fun L' L => if L = L' then
            sphere G (lo, mo) L'.toNat (mo - mi) (li, mi) * sphere G (lo, mo) L'.toNat (mo - mi) (li, mi) else 0) (intRange |(li : Int) - lo| (li + lo)) t (by
            intro L hL t
            have hL := (mem_intRange _ _ _).1 hL
            have := abs_nonneg ((li : Int) - lo)
            unfold coupStep
            have hc : T.coeff lo mo L (mo - mi) li = .ok (sphere G (lo, mo) L.toNat (mo - mi) (li, mi)) := by
              rw [hT ((lo : Int), mo) ((mem_allLm _ _).2 ⟨abs_le.2 hmo, by simp only; omega⟩) ((li : Int), mi) ((mem_allLm _ _).2 ⟨abs_le.2 hmi, by simp only; omega⟩)
                L (mo - mi) (by omega) (by omega)]
              unfold sphere
              simp only
              rw [show mo - (mo - mi) = mi by omega]
            rw [hc, Res.ok_bind, Res.ok_bind]
            refine ⟨_, rfl, ?_⟩
            intro L'
            split_ifs <;> simp)
          refine ⟨t', b1, ?_⟩
          intro L
          rw [b2]
          congr 1
          rw [sum_intRange, sum_ite_eq]
          simp only [Finset.mem_Icc, mem_intRange])
      refine ⟨t', a1, ?_⟩
      intro L
      rw [a2, sum_intRange])
  unfold totCoup
  refine ⟨_, by rw [t1]; rfl, ?_⟩
  intro L hL
  rw [t2, sum_intRange, zero_add]
  unfold shellSum
  congr 1
  apply sum_congr rfl; intro mo _
  apply sum_congr rfl; intro mi _
  rw [if_pos hL]

theorem shellSum_zero (hG : Gaunt.Symmetric G) (hS : Selection G) (lo li L : Nat) (h : (L : Int) < |(li : Int) - lo| ∨ (li : Int) + lo < L) : shellSum G lo li L = 0 := by
  unfold shellSum
  apply sum_eq_zero; intro mo _
  apply sum_eq_zero; intro mi _
  rw [sphere_zero hG hS (lo, mo) (li, mi) (by simp) (by simp) L _ (by
    simp only
    rw [abs_sub_comm (lo : Int) li]
    omega)]
  simp

theorem frob_zero {nrad : Nat} (B : Mat ℝ) (b1 : B.rows = nrad) (b2 : B.cols = nrad) (h : frob B = 0) : ∀ a < nrad, ∀ b < nrad, B.get a b = 0 := by
  intro a ha b hb
  unfold frob at h
  have h1 := (Real.sqrt_eq_zero (sum_nonneg fun i _ => sum_nonneg fun j _ => mul_self_nonneg _)).1 h
  rw [b1, b2] at h1
  have h2 := (sum_eq_zero_iff_of_nonneg (fun i _ => sum_nonneg fun j _ => mul_self_nonneg _)).1 h1 a (Finset.mem_range.2 ha)
  have h3 := (sum_eq_zero_iff_of_nonneg (fun j _ => mul_self_nonneg _)).1 h2 b (Finset.mem_range.2 hb)
  exact mul_self_eq_zero.1 h3

theorem sadIn_ok (hG : Gaunt.Symmetric G) (hS : Selection G) {T : Gaunt.Table ℝ} (hT : Looks T G (allLm lmax) lmax) (fac : Nat → ℝ) (P : List (Mat ℝ))
    (lo li : Nat) (hlo : lo ≤ lmax) (hli : li ≤ lmax) (B : Mat ℝ) (hB : P[li]? = some B) (b1 : B.rows = N) (b2 : B.cols = N) (h : Helpers) (F : Nat → Nat → Nat → ℝ)
    (hF : HIs (2 * lmax + 1) N h F) :
    ∃ h', sadIn T (2 * lmax + 1) fac P lo h li = .ok h' ∧ HIs (2 * lmax + 1) N h' (fun L a b => F L a b + fac L * (shellSum G lo li L / (2 * lo + 1)) * B.get a b) := by
  unfold sadIn readAt
  rw [hB]
  simp only [Res.ok_bind]
  unfold sadDense
  by_cases hz : frob B = 0
  · rw [if_pos hz]
    refine ⟨h, rfl, hF.congr ?_⟩
    intro L _ a ha b hb
    rw [frob_zero B b1 b2 hz a ha b hb]; simp
  · rw [if_neg hz]
    obtain ⟨t, t1, t2⟩ := totCoup_ok hT lo li hlo hli
    rw [t1, Res.ok_bind]
    obtain ⟨h', c1, c2⟩ := foldlM_his (nl := 2 * lmax + 1) (nrad := N) (fun h (L : Int) => exAdd (2 * lmax + 1) fac B h L.toNat (t L))
      (fun L' L a b => if L = L'.toNat then fac L'.toNat * (shellSum G lo li L'.toNat / (2 * lo + 1)) * B.get a b else 0) (intRange |(li : Int) - lo| (li + lo)) h F hF (by
        intro L hL h F hF
        rw [t2 L hL]
        have hL := (mem_intRange _ _ _).1 hL
        have := abs_nonneg ((li : Int) - lo)
        exact exAdd_is hF fac L.toNat (by omega) _ B b1 b2)
    refine ⟨h', c1, c2.congr ?_⟩
    intro L hL a ha b hb
    congr 1
    rw [sum_couples _ _ (2 * lmax + 1) (abs_nonneg _) (by push_cast; omega)
      (fun L' => if L = L' then fac L' * (shellSum G lo li L' / (2 * lo + 1)) * B.get a b else 0)]
    · rw [sum_ite_eq (range (2 * lmax + 1)) L, if_pos (Finset.mem_range.2 hL)]
    · intro L' _ hout
      rw [shellSum_zero hG hS lo li L' hout]; simp

theorem sadRadial_ok {radK : Nat → Mat ℝ → Res (Mat ℝ)} {nl : Nat} {radial : Nat → Nat → Nat → Nat → Nat → ℝ} (hK : RadK radK nl N radial) {h : Helpers}
    {F : Nat → Nat → Nat → ℝ} (hF : HIs nl N h F) :
    ∃ Kb, (List.range nl).foldlM (sadRadial radK h) (Mat.zero N N) = .ok Kb ∧ Kb.rows = N ∧ Kb.cols = N ∧
      ∀ a < N, ∀ b < N, Kb.get a b = -∑ L ∈ range nl, Spec.exchange N (radial L) (F L) a b := by
  obtain ⟨Kb, k1, k2, k3, k4⟩ := foldlM_mat N (sadRadial radK h) (fun L a b => -Spec.exchange N (radial L) (F L) a b) (List.range nl)
    (Mat.zero N N) (fun _ _ => 0) rfl rfl (fun _ _ _ _ => rfl) (by
      intro L hL M F' m1 m2 m3
      have hL := List.mem_range.1 hL
      obtain ⟨h1, h2, h3, h4⟩ := hF L hL
      unfold sadRadial
      rcases Bool.eq_false_or_eq_true (h.couple L) with hc | hc
      · rw [if_pos hc]
        obtain ⟨X, x1, x2, x3, x4⟩ := hK L hL (h.mat L) h1 h2
        rw [x1, Res.ok_bind, show M.add (Mat.smul (-1) X) = .ok ⟨M.rows, M.cols, fun i j => M.get i j + (Mat.smul (-1) X).get i j⟩ from
          if_pos ⟨by rw [m1]; exact x2.symm, by rw [m2]; exact x3.symm⟩]
        refine ⟨_, rfl, m1, m2, ?_⟩
        intro a ha b hb
        simp only [Mat.smul]
        rw [m3 a ha b hb, x4 a ha b hb, exchange_congr N (radial L) _ _ h3]
        ring
      · rw [if_neg (by simp [hc])]
        refine ⟨M, rfl, m1, m2, ?_⟩
        intro a ha b hb
        rw [m3 a ha b hb, exchange_zero N (radial L) _ (h4 hc), neg_zero, add_zero])
  refine ⟨Kb, k1, k2, k3, ?_⟩
  intro a ha b hb
  rw [k4 a ha b hb, zero_add, sum_map_range, sum_neg_distrib]

theorem fold_set {α : Type _} (body : List α → Nat → Res (List α)) (X : Nat → α) (z : α) :
    ∀ (l : List Nat) (K : List α), l.Nodup → (∀ i ∈ l, K[i]? = some z) →
      (∀ i ∈ l, ∀ K : List α, K[i]? = some z → body K i = .ok (K.set i (X i))) →
      ∃ K', l.foldlM body K = .ok K' ∧ K'.length = K.length ∧ (∀ i ∈ l, K'[i]? = some (X i)) ∧ ∀ i ∉ l, K'[i]? = K[i]? := by
  intro l
  induction l with
  | nil => intro K _ _ _; exact ⟨K, rfl, rfl, by simp, fun _ _ => rfl⟩
  | cons e l ih =>
    intro K hn hz hb
    have hn' := List.nodup_cons.1 hn
    obtain ⟨K', k1, k2, k3, k4⟩ := ih (K.set e (X e)) hn'.2 (by
      intro i hi
      rw [List.getElem?_set_ne (by rintro rfl; exact hn'.1 hi)]
      exact hz i (by simp [hi])) (fun i hi => hb i (by simp [hi]))
    refine ⟨K', by rw [List.foldlM_cons, hb e (by simp) K (hz e (by simp))]; exact k1, by simpa using k2, ?_, ?_⟩
    · intro i hi
      rcases List.mem_cons.1 hi with rfl | hi
      · rw [k4 i hn'.1]
        have := hz i (by simp)
        obtain ⟨hlt, _⟩ := List.getElem?_eq_some_iff.1 this
        rw [List.getElem?_set_self hlt]
      · exact k3 i hi
    · intro i hi
      rw [List.mem_cons, not_or] at hi
      rw [k4 i hi.2, List.getElem?_set_ne (fun h => hi.1 h.symm)]

/-- what `exchange` and `rs_exchange` of the averaged atom compute from one multipole expansion -/
noncomputable def sadSpec (G : Nat → Int → Nat → Int → Nat → Int → ℝ) (fac : Nat → ℝ) (lmax N : Nat) (radial : Nat → Nat → Nat → Nat → Nat → ℝ) (P : Nat → Nat → Nat → ℝ)
    (lo a b : Nat) : ℝ :=
  -(1 / (2 * lo + 1)) * ∑ mo ∈ Icc (-(lo : Int)) lo, ∑ li ∈ range (lmax + 1), ∑ mi ∈ Icc (-(li : Int)) li, ∑ c ∈ range N, ∑ d ∈ range N,
    eri G fac (2 * lmax + 1) radial ((li, mi), c) ((lo, mo), a) ((lo, mo), b) ((li, mi), d) * P li c d

theorem sadSpec_eq (hG : Gaunt.Symmetric G) (hS : Selection G) (fac : Nat → ℝ) (lmax N : Nat) (radial : Nat → Nat → Nat → Nat → Nat → ℝ)
    (hrs : ∀ L < 2 * lmax + 1, ∀ a b c d, radial L a b c d = radial L b a c d) (P : Nat → Nat → Nat → ℝ) (lo a b : Nat) :
    sadSpec G fac lmax N radial P lo a b = -∑ L ∈ range (2 * lmax + 1), Spec.exchange N (radial L)
      (fun c d => ∑ li ∈ range (lmax + 1), fac L * (shellSum G lo li L / (2 * lo + 1)) * P li c d) a b := by
  have hM : ∀ (li : Nat) (mo mi : Int) (c d : Nat), eri G fac (2 * lmax + 1) radial ((li, mi), c) ((lo, mo), a) ((lo, mo), b) ((li, mi), d) =
      ∑ L ∈ range (2 * lmax + 1), fac L * (sphere G (lo, mo) L (mo - mi) (li, mi) * sphere G (lo, mo) L (mo - mi) (li, mi)) * radial L a c b d := by
    intro li mo mi c d
    unfold eri
    apply sum_congr rfl; intro L hL
    simp only
    rw [sum_single_M L (mo - mi) (fun M => fac L * (sphere G (lo, mo) L M (li, mi) * sphere G (lo, mo) L M (li, mi)) * radial L c a b d)]
    · rw [hrs L (Finset.mem_range.1 hL)]
    · intro M hM
      rw [sphere_sel hS (lo, mo) (li, mi) L M hM]; simp
    · intro h
      rw [sphere_zero hG hS (lo, mo) (li, mi) (by simp) (by simp) L _ (Or.inr (Or.inr h))]; simp
  unfold sadSpec Spec.exchange
  simp only [hM]
  rw [neg_mul, neg_inj]
  have e1 : ∀ L, ∑ c ∈ range N, ∑ d ∈ range N, radial L a c b d * (∑ li ∈ range (lmax + 1), fac L * (shellSum G lo li L / (2 * lo + 1)) * P li c d) =
      1 / (2 * lo + 1) * ∑ mo ∈ Icc (-(lo : Int)) lo, ∑ li ∈ range (lmax + 1), ∑ mi ∈ Icc (-(li : Int)) li, ∑ c ∈ range N, ∑ d ∈ range N,
        fac L * (sphere G (lo, mo) L (mo - mi) (li, mi) * sphere G (lo, mo) L (mo - mi) (li, mi)) * radial L a c b d * P li c d := by
    intro L
    have e2 : ∀ li : Nat, ∑ mo ∈ Icc (-(lo : Int)) lo, ∑ mi ∈ Icc (-(li : Int)) li, ∑ c ∈ range N, ∑ d ∈ range N,
        fac L * (sphere G (lo, mo) L (mo - mi) (li, mi) * sphere G (lo, mo) L (mo - mi) (li, mi)) * radial L a c b d * P li c d =
        ∑ c ∈ range N, ∑ d ∈ range N, fac L * shellSum G lo li L * radial L a c b d * P li c d := by
      intro li
      unfold shellSum
      simp only [mul_sum, sum_mul]
      rw [show (∑ c ∈ range N, ∑ d ∈ range N, ∑ mo ∈ Icc (-(lo : Int)) lo, ∑ mi ∈ Icc (-(li : Int)) li,
        fac L * (sphere G (lo, mo) L (mo - mi) (li, mi) * sphere G (lo, mo) L (mo - mi) (li, mi)) * radial L a c b d * P li c d) =
        ∑ c ∈ range N, ∑ mo ∈ Icc (-(lo : Int)) lo, ∑ d ∈ range N, ∑ mi ∈ Icc (-(li : Int)) li,
        fac L * (sphere G (lo, mo) L (mo - mi) (li, mi) * sphere G (lo, mo) L (mo - mi) (li, mi)) * radial L a c b d * P li c d from sum_congr rfl fun c _ => sum_comm]
      rw [sum_comm (s := range N)]
      apply sum_congr rfl; intro mo _
      rw [show (∑ c ∈ range N, ∑ d ∈ range N, ∑ mi ∈ Icc (-(li : Int)) li,
        fac L * (sphere G (lo, mo) L (mo - mi) (li, mi) * sphere G (lo, mo) L (mo - mi) (li, mi)) * radial L a c b d * P li c d) =
        ∑ c ∈ range N, ∑ mi ∈ Icc (-(li : Int)) li, ∑ d ∈ range N,
        fac L * (sphere G (lo, mo) L (mo - mi) (li, mi) * sphere G (lo, mo) L (mo - mi) (li, mi)) * radial L a c b d * P li c d from sum_congr rfl fun c _ => sum_comm]
      rw [sum_comm (s := range N)]
    rw [sum_comm (s := Icc (-(lo : Int)) lo) (t := range (lmax + 1))]
    simp only [e2]
    simp only [mul_sum]
    rw [show (∑ c ∈ range N, ∑ d ∈ range N, ∑ li ∈ range (lmax + 1), radial L a c b d * (fac L * (shellSum G lo li L / (2 * lo + 1)) * P li c d)) =
      ∑ c ∈ range N, ∑ li ∈ range (lmax + 1), ∑ d ∈ range N, radial L a c b d * (fac L * (shellSum G lo li L / (2 * lo + 1)) * P li c d) from
      sum_congr rfl fun c _ => sum_comm]
    rw [sum_comm]
    apply sum_congr rfl; intro li _
    apply sum_congr rfl; intro c _
    apply sum_congr rfl; intro d _
    ring
  simp only [e1]
  rw [← mul_sum]
  congr 1
  symm
  rw [sum_comm]
  apply sum_congr rfl; intro mo _
  rw [sum_comm]
  apply sum_congr rfl; intro li _
  rw [sum_comm]
  apply sum_congr rfl; intro mi _
  rw [sum_comm]
  apply sum_congr rfl; intro c _
  rw [sum_comm]
  apply sum_congr rfl; intro d _
  rw [sum_mul]

theorem sadExchangeWith_ok (hG : Gaunt.Symmetric G) (hS : Selection G) {T : Gaunt.Table ℝ} (hT : Looks T G (allLm lmax) lmax) (fac : Nat → ℝ)
    {radK : Nat → Mat ℝ → Res (Mat ℝ)} {radial : Nat → Nat → Nat → Nat → Nat → ℝ} (hK : RadK radK (2 * lmax + 1) N radial)
    (hrs : ∀ L < 2 * lmax + 1, ∀ a b c d, radial L a b c d = radial L b a c d) (order : List Nat) (ho : order.Perm (List.range (lmax + 1)))
    (P : List (Mat ℝ)) (p0 : P.length = lmax + 1) (pd : ∀ M ∈ P, M.rows = N ∧ M.cols = N) :
    ∃ K, sadExchangeWith T lmax N fac radK order P = .ok K ∧ K.length = lmax + 1 ∧ ∀ lo ≤ lmax, ∃ X, K[lo]? = some X ∧ X.rows = N ∧ X.cols = N ∧
      ∀ a < N, ∀ b < N, X.get a b = sadSpec G fac lmax N radial (fun l => (P.getD l (Mat.zero 0 0)).get) lo a b := by
  have hX : ∀ lo, ∃ X : Mat ℝ, lo ≤ lmax → (∀ K : List (Mat ℝ), K[lo]? = some (Mat.zero N N) → sadBody T lmax N fac radK P K lo = .ok (K.set lo X)) ∧ X.rows = N ∧ X.cols = N ∧
      ∀ a < N, ∀ b < N, X.get a b = sadSpec G fac lmax N radial (fun l => (P.getD l (Mat.zero 0 0)).get) lo a b := by
    intro lo
    by_cases hlo : lo ≤ lmax
    · obtain ⟨h, h1, h2⟩ := foldlM_his (nl := 2 * lmax + 1) (nrad := N) (sadIn T (2 * lmax + 1) fac P lo)
        (fun li L a b => fac L * (shellSum G lo li L / (2 * lo + 1)) * (P.getD li (Mat.zero 0 0)).get a b) (List.range (lmax + 1)) _ _ (his_init (2 * lmax + 1) N) (by
          intro li hli h F hF
          have hli := List.mem_range.1 hli
          have hlt : li < P.length := by omega
          have hB : P[li]? = some (P.getD li (Mat.zero 0 0)) := by
            rw [List.getD_eq_getElem?_getD, List.getElem?_eq_getElem hlt]; rfl
          have hmem : P.getD li (Mat.zero 0 0) ∈ P := by
            rw [List.getD_eq_getElem?_getD, List.getElem?_eq_getElem hlt]; exact List.getElem_mem hlt
          exact sadIn_ok hG hS hT fac P lo li hlo (by omega) _ hB (pd _ hmem).1 (pd _ hmem).2 h F hF)
      obtain ⟨X, x1, x2, x3, x4⟩ := sadRadial_ok hK h2
      refine ⟨X, fun _ => ⟨?_, x2, x3, ?_⟩⟩
      · intro K hK0
        unfold sadBody
        rw [h1, Res.ok_bind, show readAt K lo = .ok (Mat.zero N N) by unfold readAt; rw [hK0], Res.ok_bind, x1, Res.ok_bind]
        rfl
      · intro a ha b hb
        rw [x4 a ha b hb, sadSpec_eq hG hS fac lmax N radial hrs]
        congr 1
        apply sum_congr rfl; intro L _
        apply exchange_congr
        intro c _ d _
        rw [sum_map_range, zero_add]
    · exact ⟨Mat.zero 0 0, fun h => absurd h hlo⟩
  choose X hX using hX
  obtain ⟨K, k1, k2, k3, _⟩ := fold_set (sadBody T lmax N fac radK P) X (Mat.zero N N) order (List.replicate (lmax + 1) (Mat.zero N N))
    (ho.nodup_iff.2 List.nodup_range) (by
      intro i hi
      have := List.mem_range.1 (ho.mem_iff.1 hi)
      rw [List.getElem?_replicate, if_pos this]) (by
      intro i hi K hK0
      have := List.mem_range.1 (ho.mem_iff.1 hi)
      exact (hX i (by omega)).1 K hK0)
  have hlt : 0 < P.length := by omega
  have h0 := pd P[0] (List.getElem_mem hlt)
  refine ⟨K, ?_, by rw [k2, List.length_replicate], ?_⟩
  · unfold sadExchangeWith
    rw [if_neg (by omega), show readAt P 0 = .ok P[0] by unfold readAt; rw [List.getElem?_eq_getElem hlt], Res.ok_bind, if_neg (by rw [h0.1, h0.2]; simp)]
    exact k1
  · intro lo hlo
    exact ⟨X lo, k3 lo (ho.mem_iff.2 (List.mem_range.2 (by omega))), (hX lo hlo).2⟩

/-- **C64, exchange.** After `compute_tei`, for any radial densities `P_l` the matrix returned for `lo` is the average over `mo` of
`-Σ (li mi c, lo mo a | lo mo b, li mi d) P_li(c, d)` over all shells: the exchange matrix of the full atom whose density is `P_l` in every
function of shell `l`. -/
theorem C64_exchange (hG : Gaunt.Symmetric G) (hS : Selection G) (h : Layout R ne N first last) (hne : 0 < ne) (pr : Prims)
    {S B T : Nat → Nat → Mat ℝ} (hI : Ints pr.small pr.big pr.twoe (2 * lmax + 1) ne first last S B T) (tol : ℝ) (ht : 0 ≤ tol) (c0 : Caches) :
    ∃ c, computeTei (sadL lmax) R pr tol c0 = .ok c ∧ ∃ T', Approx (2 * lmax + 1) ne first last tol T T' ∧
      (∀ P : Mat ℝ, P.rows = N → P.cols = N → ∃ J, sadCoulomb R c P = .ok J ∧ J.rows = N ∧ J.cols = N ∧ ∀ a < N, ∀ b < N,
        J.get a b = 4 * Real.pi * ∑ c ∈ range N, ∑ d ∈ range N, radialOf ne first last S B T' 0 a b c d * P.get c d) ∧
      (∀ (sched : List Nat), sched.Perm (List.range (2 * lmax + 1)) → ∀ (order : List Nat), order.Perm (List.range (lmax + 1)) → ∀ P : List (Mat ℝ),
        P.length = lmax + 1 → (∀ M ∈ P, M.rows = N ∧ M.cols = N) →
        ∃ K, sadExchange G sched order lmax R c P = .ok K ∧ K.length = lmax + 1 ∧ ∀ lo ≤ lmax, ∃ X, K[lo]? = some X ∧ X.rows = N ∧ X.cols = N ∧
          ∀ a < N, ∀ b < N, X.get a b = -(1 / (2 * lo + 1)) * ∑ mo ∈ Icc (-(lo : Int)) lo, ∑ li ∈ range (lmax + 1), ∑ mi ∈ Icc (-(li : Int)) li,
            ∑ c ∈ range N, ∑ d ∈ range N, eri G bareFac (2 * lmax + 1) (radialOf ne first last S B T') ((li, mi), c) ((lo, mo), a) ((lo, mo), b) ((li, mi), d) *
              (P.getD li (Mat.zero 0 0)).get c d) := by
  obtain ⟨cs, cb, cc, s1, b1, c1, c2, T', hT, hJ, hK⟩ := kernel_ok h hI tol ht
  have hne' : cc.length ≠ 0 := by rw [c2]; have := Nat.mul_pos (show 0 < 2 * lmax + 1 by omega) hne; omega
  refine ⟨{ c0 with small := cs, big := cb, chol := cc }, ?_, T', hT, ?_, ?_⟩
  · unfold computeTei
    rw [(sadL_angular lmax).num, Res.ok_bind, s1, Res.ok_bind, b1, Res.ok_bind, c1, Res.ok_bind]
    rfl
  · intro P p1 p2
    obtain ⟨J, j1, j2, j3, j4⟩ := hJ 0 (by omega) P p1 p2
    refine ⟨Mat.smul (bareFac 0) J, ?_, j2, j3, ?_⟩
    · unfold sadCoulomb
      rw [if_neg hne', show radialJ R { c0 with small := cs, big := cb, chol := cc } 0 P = .ok J from j1, Res.ok_bind]
      rfl
    · intro a ha b hb
      simp only [Mat.smul]
      rw [j4 a ha b hb]
      unfold bareFac Spec.coulomb
      simp
  · intro sched hs order ho P p0 pd
    obtain ⟨T0, t1, t2⟩ := sad_table hG lmax sched hs
    unfold sadExchange
    rw [if_neg hne', t1, Res.ok_bind, h.nbf]
    exact sadExchangeWith_ok hG hS t2 bareFac hK (fun L hL a b c d => radialOf_pair h hI hT L hL a b c d) order ho P p0 pd

/-- **C64, Yukawa.** -/
theorem C64_yukawa (hG : Gaunt.Symmetric G) (hS : Selection G) (h : Layout R ne N first last) (hne : 0 < ne) (pr : Prims) (lam : ℝ)
    {S B T : Nat → Nat → Mat ℝ} (hI : Ints (pr.besselI lam) (pr.besselK lam) (pr.yukawa lam) (2 * lmax + 1) ne first last S B T) (tol : ℝ) (ht : 0 ≤ tol) (c0 : Caches) :
    ∃ c, computeYukawa (sadL lmax) R pr tol lam c0 = .ok c ∧ ∃ T', Approx (2 * lmax + 1) ne first last tol T T' ∧
      ∀ (sched : List Nat), sched.Perm (List.range (2 * lmax + 1)) → ∀ (order : List Nat), order.Perm (List.range (lmax + 1)) → ∀ P : List (Mat ℝ),
        P.length = lmax + 1 → (∀ M ∈ P, M.rows = N ∧ M.cols = N) →
        ∃ K, sadRsExchange G sched order lmax R c P = .ok K ∧ K.length = lmax + 1 ∧ ∀ lo ≤ lmax, ∃ X, K[lo]? = some X ∧ X.rows = N ∧ X.cols = N ∧
          ∀ a < N, ∀ b < N, X.get a b = -(1 / (2 * lo + 1)) * ∑ mo ∈ Icc (-(lo : Int)) lo, ∑ li ∈ range (lmax + 1), ∑ mi ∈ Icc (-(li : Int)) li,
            ∑ c ∈ range N, ∑ d ∈ range N, eri G (fun _ => 4 * Real.pi * lam) (2 * lmax + 1) (radialOf ne first last S B T') ((li, mi), c) ((lo, mo), a) ((lo, mo), b) ((li, mi), d) *
              (P.getD li (Mat.zero 0 0)).get c d := by
  obtain ⟨cs, cb, cc, s1, b1, c1, c2, T', hT, hJ, hK⟩ := kernel_ok h hI tol ht
  have hne' : cc.length ≠ 0 := by rw [c2]; have := Nat.mul_pos (show 0 < 2 * lmax + 1 by omega) hne; omega
  refine ⟨{ c0 with rsSmall := cs, rsBig := cb, rsChol := cc, yukawa := true, lambda := lam }, ?_, T', hT, ?_⟩
  · unfold computeYukawa
    rw [(sadL_angular lmax).num, Res.ok_bind, s1, Res.ok_bind, b1, Res.ok_bind, c1, Res.ok_bind]
    rfl
  · intro sched hs order ho P p0 pd
    obtain ⟨T0, t1, t2⟩ := sad_table hG lmax sched hs
    unfold sadRsExchange
    rw [if_neg (by simp only; tauto), t1, Res.ok_bind, h.nbf]
    exact sadExchangeWith_ok hG hS t2 (fun _ => 4 * Real.pi * lam) hK (fun L hL a b c d => radialOf_pair h hI hT L hL a b c d) order ho P p0 pd

theorem erfc_pair {erfc : Nat → Nat → Nat → Res (Mat ℝ)} {nl : Nat} {T : Nat → Nat → Nat → Mat ℝ} (hI : PairInts erfc nl ne first last T) (L : Nat) (hL : L < nl) (a b c d : Nat) :
    fourIndex ne first last (fun e1 e2 a b c d => (T L e1 e2).get (b * cnt first last e1 + a) (d * cnt first last e2 + c)) a b c d =
      fourIndex ne first last (fun e1 e2 a b c d => (T L e1 e2).get (b * cnt first last e1 + a) (d * cnt first last e2 + c)) b a c d := by
  unfold fourIndex
  apply sum_congr rfl; intro e1 he1
  apply sum_congr rfl; intro e2 he2
  have he1 := Finset.mem_range.1 he1
  have he2 := Finset.mem_range.1 he2
  by_cases hc : ((first e1 ≤ a ∧ a ≤ last e1) ∧ (first e1 ≤ b ∧ b ≤ last e1)) ∧ ((first e2 ≤ c ∧ c ≤ last e2) ∧ (first e2 ≤ d ∧ d ≤ last e2))
  · rw [if_pos hc, if_pos (by tauto)]
    exact hI.pair L hL e1 he1 e2 he2 _ (by unfold cnt; omega) _ (by unfold cnt; omega) _ (pair_lt (by unfold cnt; omega) (by unfold cnt; omega))
  · rw [if_neg hc, if_neg (by tauto)]

/-- **C64, erfc.** -/
theorem C64_erfc (hG : Gaunt.Symmetric G) (hS : Selection G) (h : Layout R ne N first last) (hne : 0 < ne) (pr : Prims) (mu : ℝ)
    {T : Nat → Nat → Nat → Mat ℝ} (hI : PairInts (pr.erfc mu) (2 * lmax + 1) ne first last T) (c0 : Caches) :
    ∃ c, computeErfc (sadL lmax) R pr mu c0 = .ok c ∧
      ∀ (sched : List Nat), sched.Perm (List.range (2 * lmax + 1)) → ∀ (order : List Nat), order.Perm (List.range (lmax + 1)) → ∀ P : List (Mat ℝ),
        P.length = lmax + 1 → (∀ M ∈ P, M.rows = N ∧ M.cols = N) →
        ∃ K, sadRsExchange G sched order lmax R c P = .ok K ∧ K.length = lmax + 1 ∧ ∀ lo ≤ lmax, ∃ X, K[lo]? = some X ∧ X.rows = N ∧ X.cols = N ∧
          ∀ a < N, ∀ b < N, X.get a b = -(1 / (2 * lo + 1)) * ∑ mo ∈ Icc (-(lo : Int)) lo, ∑ li ∈ range (lmax + 1), ∑ mi ∈ Icc (-(li : Int)) li,
            ∑ c ∈ range N, ∑ d ∈ range N, eri G (fun L => 4 * Real.pi * mu / (2 * L + 1)) (2 * lmax + 1) (fun L => fourIndex ne first last fun e1 e2 a b c d =>
              (T L e1 e2).get (b * cnt first last e1 + a) (d * cnt first last e2 + c)) ((li, mi), c) ((lo, mo), a) ((lo, mo), b) ((li, mi), d) *
              (P.getD li (Mat.zero 0 0)).get c d := by
  have hx : ∀ L e1 e2, ∃ X, L < 2 * lmax + 1 → e1 < ne → e2 < ne → erfcKteiOf R (pr.erfc mu L) e1 e2 = .ok X := by
    intro L e1 e2
    by_cases hc : L < 2 * lmax + 1 ∧ e1 < ne ∧ e2 < ne
    · obtain ⟨v1, v2, v3⟩ := hI.value L hc.1 e1 hc.2.1 e2 hc.2.2
      obtain ⟨M, m1, _⟩ := C18_exchange (T L e1 e2) (cnt first last e1) (cnt first last e1) (cnt first last e2) (cnt first last e2) v2 v3
      refine ⟨M, fun _ _ _ => ?_⟩
      unfold erfcKteiOf
      rw [h.range e1 hc.2.1, h.range e2 hc.2.2]
      simp only [Res.ok_bind, v1]
      exact m1
    · exact ⟨Mat.zero 0 0, fun h1 h2 h3 => absurd ⟨h1, h2, h3⟩ hc⟩
  choose X hX using hx
  obtain ⟨k, k1, k2, k3⟩ := fillPairs_ok (2 * lmax + 1) ne (fun L => erfcKteiOf R (pr.erfc mu L)) X (fun L hL e he e' he' => hX L e e' hL he he')
  refine ⟨{ c0 with rsSmall := [], rsBig := [], rsKtei := k, yukawa := false, lambda := mu }, ?_, ?_⟩
  · unfold computeErfc
    rw [(sadL_angular lmax).num, Res.ok_bind, h.nel, k1, Res.ok_bind]
    rfl
  · intro sched hs order ho P p0 pd
    obtain ⟨T0, t1, t2⟩ := sad_table hG lmax sched hs
    unfold sadRsExchange
    rw [if_neg (by simp only; rw [k2]; have := Nat.mul_pos (show 0 < 2 * lmax + 1 by omega) (Nat.mul_pos hne hne); omega), t1, Res.ok_bind, h.nbf]
    refine sadExchangeWith_ok hG hS t2 (fun L => 4 * Real.pi * mu / (2 * L + 1)) (radial := fun L => fourIndex ne first last fun e1 e2 a b c d =>
              (T L e1 e2).get (b * cnt first last e1 + a) (d * cnt first last e2 + c)) ?_ (erfc_pair hI) order ho P p0 pd
    intro L hL P p1 p2
    have e : radialRs R { c0 with rsSmall := [], rsBig := [], rsKtei := k, yukawa := false, lambda := mu } L P = assembleK R (pairBlk (erfcKteiOf R (pr.erfc mu L))) P := by
      unfold radialRs
      rw [if_neg (by simp)]
      apply assembleK_congr
      intro i hi j hj
      rw [h.nel] at hi hj
      funext ni nj Ps
      unfold pairBlk
      simp only
      rw [h.nel, k3 L hL i hi j hj, hX L i j hL hi hj]
    rw [e]
    exact C21_exchange_pairwise h (pr.erfc mu L) (T L) (hI.value L hL) (hI.pair L hL) P p1 p2

/-- **C64, wrong input.** A logic error is thrown before the integrals have been computed, for a wrong number of densities, and for a first
density of the wrong size. -/
theorem C64_guards (hG : Gaunt.Symmetric G) (sched order : List Nat) (hs : sched.Perm (List.range (2 * lmax + 1))) (c : Caches) (P : List (Mat ℝ)) (M : Mat ℝ)
    (h : c.chol.length = 0 ∨ P.length ≠ lmax + 1 ∨ ∃ P0, P[0]? = some P0 ∧ (P0.rows ≠ R.nbf ∨ P0.cols ≠ R.nbf)) :
    sadExchange G sched order lmax R c P = .throw .logicError ∧ (c.chol.length = 0 → sadCoulomb R c M = .throw .logicError) := by
  refine ⟨?_, fun hc => if_pos hc⟩
  unfold sadExchange
  by_cases hc : c.chol.length = 0
  · rw [if_pos hc]
  rw [if_neg hc]
  obtain ⟨T0, t1, _⟩ := sad_table hG lmax sched hs
  rw [t1, Res.ok_bind]
  unfold sadExchangeWith
  by_cases hp : P.length ≠ lmax + 1
  · rw [if_pos hp]
  rw [if_neg hp]
  obtain ⟨P0, h1, h2⟩ : ∃ P0, P[0]? = some P0 ∧ (P0.rows ≠ R.nbf ∨ P0.cols ≠ R.nbf) := by
    rcases h with h | h | h
    · exact absurd h hc
    · exact absurd h hp
    · exact h
  rw [show readAt P 0 = .ok P0 by unfold readAt; rw [h1], Res.ok_bind, if_pos h2]

/-- s and p shells, a truncated factorisation, parallel loops in any order, one density zero -/
example : ∃ c J K, computeTei (sadL 1) exR exPrims (1 / 100) (Caches.fresh false 0) = .ok c ∧ sadCoulomb exR c ⟨3, 3, fun i j => (i + j : ℝ)⟩ = .ok J ∧
    sadExchange realG [2, 0, 1] [1, 0] 1 exR c [⟨3, 3, fun i j => (i + 2 * j : ℝ)⟩, Mat.zero 3 3] = .ok K ∧ J.rows = 3 ∧ K.length = 2 := by
  obtain ⟨c, h1, T', _, h2, h3⟩ := C64_exchange (lmax := 1) realG_symmetric realG_selection exLayout (by decide) exPrims exInts (1 / 100) (by norm_num) (Caches.fresh false 0)
  obtain ⟨J, j1, j2, _⟩ := h2 ⟨3, 3, fun i j => (i + j : ℝ)⟩ rfl rfl
  obtain ⟨K, k1, k2, _⟩ := h3 [2, 0, 1] (by decide) [1, 0] (by decide) [⟨3, 3, fun i j => (i + 2 * j : ℝ)⟩, Mat.zero 3 3] rfl (by
    intro M hM
    simp only [List.mem_cons, List.not_mem_nil, or_false] at hM
    rcases hM with rfl | rfl <;> exact ⟨rfl, rfl⟩)
  exact ⟨c, J, K, h1, j1, k1, j2, k2⟩

/-- both screened kernels, the second replacing the first -/
example : ∃ c c' K K', computeYukawa (sadL 1) exR exPrims (1 / 100) 2 (Caches.fresh false 0) = .ok c ∧ computeErfc (sadL 1) exR exPrims 3 c = .ok c' ∧
    sadRsExchange realG [2, 0, 1] [1, 0] 1 exR c [⟨3, 3, fun i j => (i + 2 * j : ℝ)⟩, Mat.zero 3 3] = .ok K ∧
    sadRsExchange realG [0, 1, 2] [0, 1] 1 exR c' [⟨3, 3, fun i j => (i + 2 * j : ℝ)⟩, Mat.zero 3 3] = .ok K' ∧ K.length = 2 ∧ K'.length = 2 := by
  have hd : ∀ M ∈ [(⟨3, 3, fun i j => (i + 2 * j : ℝ)⟩ : Mat ℝ), Mat.zero 3 3], M.rows = 3 ∧ M.cols = 3 := by
    intro M hM
    simp only [List.mem_cons, List.not_mem_nil, or_false] at hM
    rcases hM with rfl | rfl <;> exact ⟨rfl, rfl⟩
  obtain ⟨c, h1, T', _, h2⟩ := C64_yukawa (lmax := 1) realG_symmetric realG_selection exLayout (by decide) exPrims 2 (exYukawa 2) (1 / 100) (by norm_num) (Caches.fresh false 0)
  obtain ⟨c', h3, h4⟩ := C64_erfc (lmax := 1) realG_symmetric realG_selection exLayout (by decide) exPrims 3 (exErfc 3) c
  obtain ⟨K, k1, k2, _⟩ := h2 [2, 0, 1] (by decide) [1, 0] (by decide) _ rfl hd
  obtain ⟨K', k3, k4, _⟩ := h4 [0, 1, 2] (by decide) [0, 1] (by decide) _ rfl hd
  exact ⟨c, c', K, K', h1, h3, k1, k3, k2, k4⟩

end AtomJK
end HelFEM
