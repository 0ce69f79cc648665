import Verif.Spec.TwoDGrid
import Verif.Lemmas.PureMForm
import Verif.Lemmas.Harmonics

/-!
# The diatomic quadrature grid: geometry and sums
-/

namespace HelFEM.TGrid

open Harm Dia

/-! ### Geometry -/

section Geo
variable {R μ c : ℝ}

theorem one_lt_cosh (hμ : 0 < μ) : 1 < Real.cosh μ := Real.one_lt_cosh.2 hμ.ne'

theorem c_sq (hc : |c| ≤ 1) : c ^ 2 ≤ 1 := by
  have := sq_abs c
  nlinarith [abs_nonneg c]

theorem rho_sq (hc : |c| ≤ 1) : Spec.rho R μ c ^ 2 = R ^ 2 * (Real.cosh μ ^ 2 - 1) * (1 - c ^ 2) := by
  unfold Spec.rho
  rw [mul_pow, mul_pow, Real.sq_sqrt (by linarith [c_sq hc]), Real.sinh_sq]

theorem dist_left (hR : 0 < R) (hμ : 0 < μ) (hc : |c| ≤ 1) : Spec.dist R μ c .left = R * (Real.cosh μ + c) := by
  have h1 := one_lt_cosh hμ
  have h2 := abs_le.1 hc
  unfold Spec.dist
  rw [rho_sq hc, show R ^ 2 * (Real.cosh μ ^ 2 - 1) * (1 - c ^ 2) + (Spec.zed R μ c - Spec.centre R .left) ^ 2 = (R * (Real.cosh μ + c)) ^ 2 by
    simp only [Spec.zed, Spec.centre]; ring]
  exact Real.sqrt_sq (mul_nonneg hR.le (by linarith))

theorem dist_right (hR : 0 < R) (hμ : 0 < μ) (hc : |c| ≤ 1) : Spec.dist R μ c .right = R * (Real.cosh μ - c) := by
  have h1 := one_lt_cosh hμ
  have h2 := abs_le.1 hc
  unfold Spec.dist
  rw [rho_sq hc, show R ^ 2 * (Real.cosh μ ^ 2 - 1) * (1 - c ^ 2) + (Spec.zed R μ c - Spec.centre R .right) ^ 2 = (R * (Real.cosh μ - c)) ^ 2 by
    simp only [Spec.zed, Spec.centre]; ring]
  exact Real.sqrt_sq (mul_nonneg hR.le (by linarith))

theorem dist_middle (hR : 0 < R) (hc : |c| ≤ 1) : Spec.dist R μ c .middle = R * √(Real.cosh μ * Real.cosh μ + c * c - 1) := by
  unfold Spec.dist
  rw [rho_sq hc, show R ^ 2 * (Real.cosh μ ^ 2 - 1) * (1 - c ^ 2) + (Spec.zed R μ c - Spec.centre R .middle) ^ 2 = R ^ 2 * (Real.cosh μ * Real.cosh μ + c * c - 1) by
    simp only [Spec.zed, Spec.centre]; ring]
  rw [Real.sqrt_mul (by positivity), Real.sqrt_sq hR.le]

theorem cosine_left (hR : 0 < R) (hμ : 0 < μ) (hc : |c| ≤ 1) : Spec.cosine R μ c .left = (1 + Real.cosh μ * c) / (Real.cosh μ + c) := by
  have h1 := one_lt_cosh hμ
  have h2 := abs_le.1 hc
  unfold Spec.cosine
  rw [dist_left hR hμ hc]
  simp only [Spec.axis, Spec.zed, Spec.centre]
  rw [show 1 * (R * Real.cosh μ * c - -R) = R * (1 + Real.cosh μ * c) by ring, mul_div_mul_left _ _ hR.ne']

theorem cosine_right (hR : 0 < R) (hμ : 0 < μ) (hc : |c| ≤ 1) : Spec.cosine R μ c .right = (1 - Real.cosh μ * c) / (Real.cosh μ - c) := by
  unfold Spec.cosine
  rw [dist_right hR hμ hc]
  simp only [Spec.axis, Spec.zed, Spec.centre]
  rw [show -1 * (R * Real.cosh μ * c - R) = R * (1 - Real.cosh μ * c) by ring, mul_div_mul_left _ _ hR.ne']

/-- a cosine is one, whatever the probe -/
theorem cosine_range (R μ c : ℝ) (pr : Probe) : -1 ≤ Spec.cosine R μ c pr ∧ Spec.cosine R μ c pr ≤ 1 := by
  have ha : |Spec.axis pr * (Spec.zed R μ c - Spec.centre R pr)| ≤ Spec.dist R μ c pr := by
    rw [abs_mul]
    have : |Spec.axis pr| = 1 := by cases pr <;> simp [Spec.axis]
    rw [this, one_mul]
    unfold Spec.dist
    apply Real.abs_le_sqrt
    nlinarith [sq_nonneg (Spec.rho R μ c)]
  have : |Spec.cosine R μ c pr| ≤ 1 := by
    unfold Spec.cosine
    rw [abs_div, abs_of_nonneg (show 0 ≤ Spec.dist R μ c pr from Real.sqrt_nonneg _)]
    exact div_le_one_of_le₀ ha (Real.sqrt_nonneg _)
  exact abs_le.1 this

theorem evalPlm_eq (l : Nat) (m : Int) {x : ℝ} (h : -1 ≤ x ∧ x ≤ 1) : evalPlm l m x = sphLegendre l m.natAbs (Real.arccos x) := by
  unfold evalPlm
  rw [min_eq_left h.2, max_eq_right h.1]

end Geo

/-! ### Sums -/

theorem sum_range_getD {α : Type} (l : List α) (d : α) (F : α → ℝ) : ∑ i ∈ Finset.range l.length, F (l.getD i d) = (l.map F).sum := by
  induction l with
  | nil => simp
  | cons a l ih =>
    rw [List.length_cons, Finset.sum_range_succ', List.map_cons, List.sum_cons, add_comm]
    congr 1

theorem sum_pick {idx : List Nat} (hn : idx.Nodup) (j : Nat) (F : Nat → ℝ) : (∑ b : Fin idx.length, if j = idx[b] then F idx[b] else 0) = if j ∈ idx then F j else 0 := by
  by_cases h : j ∈ idx
  · obtain ⟨k, hk, rfl⟩ := List.getElem_of_mem h
    rw [Finset.sum_eq_single ⟨k, hk⟩]
    · simp
    · intro b _ hb
      rw [if_neg]
      intro hh
      exact hb (Fin.ext ((hn.getElem_inj_iff).1 hh).symm)
    · simp
  · rw [if_neg h]
    apply Finset.sum_eq_zero
    intro b _
    rw [if_neg]
    rintro rfl
    exact h (List.getElem_mem _)

theorem scatterCols_ok (Vo : Mat ℝ) {idx : List Nat} (hn : idx.Nodup) (h : ∀ j ∈ idx, j < Vo.cols) (F : Nat → Nat → ℝ) :
    ∃ V, scatterCols Vo idx (fun i b => F i idx[b]) = .ok V ∧ V.rows = Vo.rows ∧ V.cols = Vo.cols ∧ ∀ i j, V.get i j = Vo.get i j + if j ∈ idx then F i j else 0 := by
  unfold scatterCols
  rw [if_pos h]
  refine ⟨_, rfl, rfl, rfl, fun i j => ?_⟩
  rw [← sum_pick hn j (F i), Fin.sum_univ_def]
  have key : ∀ (l : List (Fin idx.length)) (M : Nat → Nat → ℝ), l.foldl (fun (M : Nat → Nat → ℝ) (b : Fin idx.length) => fun i j => if j = idx[b] then M i j + F i idx[b] else M i j) M i j =
      M i j + (l.map fun b => if j = idx[b] then F i idx[b] else 0).sum := by
    intro l
    induction l with
    | nil => intro M; simp
    | cons b l ih =>
      intro M
      rw [List.foldl_cons, ih, List.map_cons, List.sum_cons]
      by_cases hb : j = idx[b]
      · simp only [if_pos hb]; ring
      · simp only [if_neg hb]; ring
  exact key _ _

/-! ### The functions of an element -/

section Elem
variable (g : Grid) {p : Pt} (m : Int)

theorem mem_list (hf : p.first ≤ p.last) (hl : p.last < g.nrad) (k : Nat) :
    k ∈ bfListDummyM g.lm g.nrad p.first p.last m ↔ k < nDummy g.lm g.nrad ∧ (Spec.ang g k).2 = m ∧ p.first ≤ k % g.nrad ∧ k % g.nrad ≤ p.last := by
  rw [C38_bf_list_m _ _ _ _ _ hf hl, List.mem_filter, bfListDummy]
  simp only [List.mem_flatMap, List.mem_range, List.mem_map, nDummy, Spec.ang, decide_eq_true_eq]
  constructor
  · rintro ⟨⟨i, hi, j, hj, rfl⟩, hm⟩
    have e1 : (g.nrad * i + p.first + j) / g.nrad = i := by
      rw [add_assoc, Nat.mul_add_div (by omega), Nat.div_eq_of_lt (by omega), add_zero]
    have e2 : (g.nrad * i + p.first + j) % g.nrad = p.first + j := by
      rw [add_assoc, Nat.mul_add_mod, Nat.mod_eq_of_lt (by omega)]
    refine ⟨?_, hm, by omega, by omega⟩
    have : g.nrad * (i + 1) ≤ g.nrad * g.lm.length := Nat.mul_le_mul_left _ hi
    rw [mul_comm g.lm.length]
    have h2 : g.nrad * (i + 1) = g.nrad * i + g.nrad := by ring
    omega
  · rintro ⟨hk, hm, h1, h2⟩
    refine ⟨⟨k / g.nrad, Nat.div_lt_of_lt_mul (by rwa [mul_comm]), k % g.nrad - p.first, by omega, ?_⟩, hm⟩
    have := Nat.div_add_mod k g.nrad
    omega

theorem nodup_list (hf : p.first ≤ p.last) (hl : p.last < g.nrad) : (bfListDummyM g.lm g.nrad p.first p.last m).Nodup := by
  rw [C38_bf_list_m _ _ _ _ _ hf hl]
  apply List.Nodup.filter
  unfold bfListDummy
  rw [List.nodup_flatMap]
  refine ⟨fun i _ => List.Nodup.map (fun a b h => by simpa using h) List.nodup_range, List.pairwise_lt_range.imp ?_⟩
  intro i j hij x hx hy
  obtain ⟨a, ha, rfl⟩ := List.mem_map.1 hx
  obtain ⟨b, hb, hb'⟩ := List.mem_map.1 hy
  have ha := List.mem_range.1 ha
  have h3 : g.nrad * (i + 1) ≤ g.nrad * j := Nat.mul_le_mul_left _ (by omega)
  have h4 : g.nrad * (i + 1) = g.nrad * i + g.nrad := by ring
  omega

theorem list_length : (bfListDummyM g.lm g.nrad p.first p.last m).length = (flist g.lm m).length * (p.last - p.first + 1) := by
  rw [XC.block_length, XC.Spec.lsOf, List.length_map, flist]

/-- a column of `abf` is the function the list names -/
theorem abf_get (hf : p.first ≤ p.last) (hl : p.last < g.nrad) (ia : Nat) (a : Nat) (ha : a < (bfListDummyM g.lm g.nrad p.first p.last m).length) :
    (abf g p m ia).get 0 a = Spec.fn g (bfListDummyM g.lm g.nrad p.first p.last m)[a] p (g.cth ia) := by
  obtain ⟨h1, h2, h3, -⟩ := XC.block_row g.lm g.nrad p.first p.last m hf hl a ha
  have hmod : a % (p.last - p.first + 1) < p.last - p.first + 1 := Nat.mod_lt _ (by omega)
  unfold Spec.fn
  rw [if_pos ⟨by omega, by omega⟩, h3, Nat.add_sub_cancel_left]
  simp only [abf, evalBfM]
  rw [list_length] at ha
  have hd : a / (p.last - p.first + 1) < (flist g.lm m).length := Nat.div_lt_of_lt_mul (by rwa [mul_comm])
  have e2 : ((flist g.lm m).getD (a / (p.last - p.first + 1)) (0, 0)).2 = m := by
    rw [List.getD_eq_getElem?_getD, List.getElem?_eq_getElem hd, Option.getD_some]
    have := (List.mem_filter.1 (List.getElem_mem hd)).2
    simpa using this
  have e1 : ((flist g.lm m).getD (a / (p.last - p.first + 1)) (0, 0)).1 = (Spec.ang g (bfListDummyM g.lm g.nrad p.first p.last m)[a]).1 := by
    have : (Spec.ang g (bfListDummyM g.lm g.nrad p.first p.last m)[a]).1 = XC.Spec.lOf g.lm g.nrad (bfListDummyM g.lm g.nrad p.first p.last m)[a] := rfl
    rw [this, h1, XC.pmShells_eq, XC.Spec.lsOf]
    simp only [List.getD_eq_getElem?_getD, List.getElem?_map]
    rw [show (g.lm.filter fun p => p.2 = m) = flist g.lm m from rfl, List.getElem?_eq_getElem hd]
    rfl
  have e3 : (Spec.ang g (bfListDummyM g.lm g.nrad p.first p.last m)[a]).2 = m := h2
  rw [e1, e2, e3]

theorem computeBf_ok : computeBf g p m = .ok ⟨bfListDummyM g.lm g.nrad p.first p.last m, wtot g p,
    ⟨(bfListDummyM g.lm g.nrad p.first p.last m).length, g.ang.length, fun a ia => (abf g p m ia).get 0 a⟩, ⟨0, 0, fun _ _ => 0⟩⟩ := by
  unfold computeBf
  rw [if_neg]
  rintro ⟨ia, -, h⟩
  apply h
  rw [list_length]
  rfl

end Elem

/-! ### Weights -/

theorem wtot_eq (g : Grid) (p : Pt) (ia : Nat) (h : |g.cth ia| ≤ 1) : wtot g p ia = p.w * g.wang ia * Spec.volume g.Rhalf p.mu (g.cth ia) := by
  unfold wtot Spec.volume
  rw [Real.sq_sqrt (by nlinarith [c_sq h])]
  ring

theorem cth_le {g : Grid} (hv : Spec.Valid g) {ia : Nat} (h : ia < g.ang.length) : |g.cth ia| ≤ 1 := by
  unfold Grid.cth
  rw [List.getD_eq_getElem?_getD, List.getElem?_eq_getElem h]
  exact hv.ang _ (List.getElem_mem h)

/-- the sum over angles is the sum over the rule -/
theorem ang_sum {g : Grid} (hv : Spec.Valid g) (p : Pt) (F : ℝ → ℝ) :
    ∑ ia ∈ Finset.range g.ang.length, wtot g p ia * F (g.cth ia) = (g.ang.map fun a => p.w * a.2 * Spec.volume g.Rhalf p.mu a.1 * F a.1).sum := by
  rw [← sum_range_getD g.ang (0, 0)]
  refine Finset.sum_congr rfl fun ia hia => ?_
  rw [wtot_eq g p ia (cth_le hv (Finset.mem_range.1 hia))]
  rfl

/-! ### Loops -/

theorem swap3 (x y z : ℝ) : x * y * z = y * (x * z) := by ring

/-- what the program multiplies: the probe orbital by the program's coordinates -/
noncomputable def codeOrb (ao : ℝ → ℝ) (l : Nat) (m : Int) (R : ℝ) (pr : Probe) (μ c : ℝ) : ℝ :=
  match pr with
  | .left => ao (R * (Real.cosh μ + c)) * evalPlm l m ((1 + Real.cosh μ * c) / (Real.cosh μ + c))
  | .right => ao (R * (Real.cosh μ - c)) * evalPlm l m ((1 - Real.cosh μ * c) / (Real.cosh μ - c))
  | .middle => ao (R * √(max (Real.cosh μ * Real.cosh μ + c * c - 1) 0)) * evalPlm l m c

theorem itg_get (g : Grid) (n : Nat) (ao : ℝ → Nat → ℝ) (l : Nat) (m : Int) (pr : Probe) (p : Pt) (wk : Worker) (ix ia : Nat) :
    (multiplyPlm g l m pr p (aoProjection g n ao pr p wk)).itg.get ix ia = codeOrb (fun r => ao r ix) l m g.Rhalf pr p.mu (g.cth ia) := by
  cases pr <;> rfl

theorem codeOrb_outer {ao : ℝ → ℝ} {l : Nat} {m : Int} {R : ℝ} {pr : Probe} {μ c : ℝ} (hR : 0 < R) (hμ : 0 < μ) (hc : |c| ≤ 1) (hp : pr ≠ .middle) :
    codeOrb ao l m R pr μ c = Spec.orbital ao l m R pr μ c := by
  unfold Spec.orbital
  rw [← evalPlm_eq l m (cosine_range R μ c pr)]
  cases pr with
  | left => rw [dist_left hR hμ hc, cosine_left hR hμ hc]; rfl
  | right => rw [dist_right hR hμ hc, cosine_right hR hμ hc]; rfl
  | middle => exact absurd rfl hp

theorem codeOrb_middle {ao : ℝ → ℝ} {l : Nat} {m : Int} {R μ c : ℝ} (hR : 0 < R) (hμ : 0 < μ) (hc : |c| ≤ 1) :
    codeOrb ao l m R .middle μ c = ao (Spec.dist R μ c .middle) * sphLegendre l m.natAbs (Real.arccos c) := by
  rw [← evalPlm_eq l m (abs_le.1 hc), dist_middle hR hc]
  have h1 := one_lt_cosh hμ
  simp only [codeOrb]
  rw [max_eq_left (by nlinarith [mul_self_nonneg c])]

section Loops
variable {g : Grid} (hv : Spec.Valid g)
include hv

theorem evalProj_ok {p : Pt} (hp : p ∈ g.pts) (n : Nat) (ao : ℝ → Nat → ℝ) (l : Nat) (m : Int) (pr : Probe) {S : Mat ℝ} (hr : S.rows = n) (hc : S.cols = nDummy g.lm g.nrad) :
    ∃ V, (computeBf g p m >>= fun wk => evalProj (multiplyPlm g l m pr p (aoProjection g n ao pr p wk)) S) = .ok V ∧ V.rows = n ∧ V.cols = nDummy g.lm g.nrad ∧
      ∀ i j, V.get i j = S.get i j + if j < nDummy g.lm g.nrad ∧ (Spec.ang g j).2 = m then
        (g.ang.map fun a => p.w * a.2 * Spec.volume g.Rhalf p.mu a.1 * (codeOrb (fun r => ao r i) l m g.Rhalf pr p.mu a.1 * Spec.fn g j p a.1)).sum else 0 := by
  obtain ⟨hf, hl, hμ⟩ := hv.pts p hp
  rw [computeBf_ok, Res.ok_bind]
  have hn := nodup_list g m hf hl
  have hb : ∀ j ∈ bfListDummyM g.lm g.nrad p.first p.last m, j < S.cols := fun j hj => hc ▸ ((mem_list g m hf hl j).1 hj).1
  obtain ⟨V, h1, h2, h3, h4⟩ := scatterCols_ok S hn hb fun i k =>
    ∑ ia ∈ Finset.range g.ang.length, wtot g p ia * (codeOrb (fun r => ao r i) l m g.Rhalf pr p.mu (g.cth ia) * Spec.fn g k p (g.cth ia))
  refine ⟨V, ?_, h2.trans hr, h3.trans hc, fun i j => ?_⟩
  · rw [← h1]
    refine Eq.trans (if_neg (by intro h; exact h hr)) (congrArg (scatterCols S (bfListDummyM g.lm g.nrad p.first p.last m)) ?_)
    funext i b
    refine Finset.sum_congr rfl fun ia _ => ?_
    rw [itg_get]
    refine Eq.trans (congrArg (fun x => codeOrb (fun r => ao r i) l m g.Rhalf pr p.mu (g.cth ia) * wtot g p ia * x) (abf_get g m hf hl ia b b.2)) ?_
    exact swap3 _ _ _
  · rw [h4, ang_sum hv p fun c => codeOrb (fun r => ao r i) l m g.Rhalf pr p.mu c * Spec.fn g j p c]
    congr 1
    by_cases hj : j ∈ bfListDummyM g.lm g.nrad p.first p.last m
    · have := (mem_list g m hf hl j).1 hj
      rw [if_pos hj, if_pos ⟨this.1, this.2.1⟩]
    · rw [if_neg hj]
      by_cases h : j < nDummy g.lm g.nrad ∧ (Spec.ang g j).2 = m
      · rw [if_pos h]
        symm
        apply List.sum_eq_zero
        intro x hx
        obtain ⟨a, -, rfl⟩ := List.mem_map.1 hx
        have : Spec.fn g j p a.1 = 0 := by
          unfold Spec.fn
          rw [if_neg]
          intro hh
          exact hj ((mem_list g m hf hl j).2 ⟨h.1, h.2, hh⟩)
        rw [this]
        ring
      · rw [if_neg h]

theorem proj_loop (n : Nat) (ao : ℝ → Nat → ℝ) (l : Nat) (m : Int) (pr : Probe) (ps : List Pt) (hps : ∀ p ∈ ps, p ∈ g.pts) (S : Mat ℝ) (hr : S.rows = n) (hc : S.cols = nDummy g.lm g.nrad) :
    ∃ V, ps.foldlM (fun S p => computeBf g p m >>= fun wk => evalProj (multiplyPlm g l m pr p (aoProjection g n ao pr p wk)) S) S = .ok V ∧ V.rows = n ∧ V.cols = nDummy g.lm g.nrad ∧
      ∀ i j, V.get i j = S.get i j + if j < nDummy g.lm g.nrad ∧ (Spec.ang g j).2 = m then
        (ps.map fun p => (g.ang.map fun a => p.w * a.2 * Spec.volume g.Rhalf p.mu a.1 * (codeOrb (fun r => ao r i) l m g.Rhalf pr p.mu a.1 * Spec.fn g j p a.1)).sum).sum else 0 := by
  induction ps generalizing S with
  | nil => exact ⟨S, rfl, hr, hc, fun i j => by simp⟩
  | cons p ps ih =>
    obtain ⟨V, h1, h2, h3, h4⟩ := evalProj_ok hv (hps p (by simp)) n ao l m pr hr hc
    obtain ⟨W, e1, e2, e3, e4⟩ := ih (fun q hq => hps q (by simp [hq])) V h2 h3
    refine ⟨W, ?_, e2, e3, fun i j => ?_⟩
    · rw [List.foldlM_cons, h1, Res.ok_bind, e1]
    · rw [e4, h4, List.map_cons, List.sum_cons]
      by_cases h : j < nDummy g.lm g.nrad ∧ (Spec.ang g j).2 = m
      · simp only [if_pos h]; ring
      · simp only [if_neg h]; ring

theorem projectionOf_ok (n : Nat) (ao : ℝ → Nat → ℝ) (l : Nat) (m : Int) (pr : Probe) :
    ∃ S, projectionOf g n ao l m pr = .ok S ∧ S.rows = n ∧ S.cols = (Sym.pureIndices g.lm g.nrad).length ∧ ∀ i, ∀ j < S.cols,
      S.get i j = if (Spec.ang g ((Sym.pureIndices g.lm g.nrad).getD j 0)).2 = m then
        Spec.quad g fun p c => codeOrb (fun r => ao r i) l m g.Rhalf pr p.mu c * Spec.fn g ((Sym.pureIndices g.lm g.nrad).getD j 0) p c else 0 := by
  obtain ⟨V, h1, h2, h3, h4⟩ := proj_loop hv n ao l m pr g.pts (fun _ h => h) (Mat.zero n (nDummy g.lm g.nrad)) rfl rfl
  unfold projectionOf
  rw [h1, Res.ok_bind]
  unfold pureCols
  rw [if_pos]
  · refine ⟨_, rfl, h2, rfl, fun i j hj => ?_⟩
    simp only
    rw [h4]
    have hlt := pure_getD_lt g.lm g.nrad j hj
    simp only [Mat.zero, zero_add, hlt, true_and]
    rfl
  · intro j hj
    rw [h3]
    exact physical_lt _ _ _ ((mem_pure _ _ _).1 hj)

theorem overlap_step (p : Pt) (n : Nat) (ao : ℝ → Nat → ℝ) (l : Nat) (m : Int) (pr : Probe) {S : Mat ℝ} (hr : S.rows = n) (hc : S.cols = n) :
    ∃ V, (computeBf g p m >>= fun wk => evalProjOverlap (multiplyPlm g l m pr p (aoProjection g n ao pr p wk)) S) = .ok V ∧ V.rows = n ∧ V.cols = n ∧
      ∀ i j, V.get i j = S.get i j + (g.ang.map fun a => p.w * a.2 * Spec.volume g.Rhalf p.mu a.1 *
        (codeOrb (fun r => ao r i) l m g.Rhalf pr p.mu a.1 * codeOrb (fun r => ao r j) l m g.Rhalf pr p.mu a.1)).sum := by
  rw [computeBf_ok, Res.ok_bind]
  refine ⟨_, if_pos ⟨hr, hc⟩, hr, hc, fun i j => ?_⟩
  rw [← ang_sum hv p fun c => codeOrb (fun r => ao r i) l m g.Rhalf pr p.mu c * codeOrb (fun r => ao r j) l m g.Rhalf pr p.mu c]
  refine congrArg (S.get i j + ·) ?_
  dsimp only
  refine Finset.sum_congr rfl fun ia _ => ?_
  rw [itg_get, itg_get]
  exact swap3 _ _ _

theorem overlap_loop (n : Nat) (ao : ℝ → Nat → ℝ) (l : Nat) (m : Int) (pr : Probe) (ps : List Pt) (S : Mat ℝ) (hr : S.rows = n) (hc : S.cols = n) :
    ∃ V, ps.foldlM (fun S p => computeBf g p m >>= fun wk => evalProjOverlap (multiplyPlm g l m pr p (aoProjection g n ao pr p wk)) S) S = .ok V ∧ V.rows = n ∧ V.cols = n ∧
      ∀ i j, V.get i j = S.get i j + (ps.map fun p => (g.ang.map fun a => p.w * a.2 * Spec.volume g.Rhalf p.mu a.1 *
        (codeOrb (fun r => ao r i) l m g.Rhalf pr p.mu a.1 * codeOrb (fun r => ao r j) l m g.Rhalf pr p.mu a.1)).sum).sum := by
  induction ps generalizing S with
  | nil => exact ⟨S, rfl, hr, hc, fun i j => by simp⟩
  | cons p ps ih =>
    obtain ⟨V, h1, h2, h3, h4⟩ := overlap_step hv p n ao l m pr hr hc
    obtain ⟨W, e1, e2, e3, e4⟩ := ih V h2 h3
    refine ⟨W, ?_, e2, e3, fun i j => ?_⟩
    · rw [List.foldlM_cons, h1, Res.ok_bind, e1]
    · rw [e4, h4, List.map_cons, List.sum_cons, add_assoc]

omit hv in
theorem addNormal_eq (x : ℝ) (v : Option ℝ) : addNormal x v = x + v.getD 0 := by cases v <;> simp [addNormal]

theorem evalPot_ok {p : Pt} (hp : p ∈ g.pts) (V1 V2 : ℝ → Option ℝ) (m : Int) {H : Mat ℝ} (hr : H.rows = nDummy g.lm g.nrad) (hc : H.cols = nDummy g.lm g.nrad) :
    ∃ V, (computeBf g p m >>= fun wk => evalPot (modelPotential g V1 V2 p wk) H) = .ok V ∧ V.rows = nDummy g.lm g.nrad ∧ V.cols = nDummy g.lm g.nrad ∧
      ∀ i j, i < nDummy g.lm g.nrad → j < nDummy g.lm g.nrad → V.get i j = H.get i j + if (Spec.ang g i).2 = m ∧ (Spec.ang g j).2 = m then
        (g.ang.map fun a => p.w * a.2 * Spec.volume g.Rhalf p.mu a.1 * (((V1 (Spec.dist g.Rhalf p.mu a.1 .left)).getD 0 + (V2 (Spec.dist g.Rhalf p.mu a.1 .right)).getD 0) *
          Spec.fn g i p a.1 * Spec.fn g j p a.1)).sum else 0 := by
  obtain ⟨hf, hl, hμ⟩ := hv.pts p hp
  rw [computeBf_ok, Res.ok_bind]
  have hn := nodup_list g m hf hl
  have hb : ∀ j ∈ bfListDummyM g.lm g.nrad p.first p.last m, j < nDummy g.lm g.nrad := fun j hj => ((mem_list g m hf hl j).1 hj).1
  unfold evalPot
  rw [if_neg (by simp [modelPotential])]
  obtain ⟨F, hF⟩ : ∃ F : Nat → Nat → ℝ, F = fun i j => ∑ ia ∈ Finset.range g.ang.length, wtot g p ia *
      (((V1 (g.Rhalf * (Real.cosh p.mu + g.cth ia))).getD 0 + (V2 (g.Rhalf * (Real.cosh p.mu - g.cth ia))).getD 0) * Spec.fn g i p (g.cth ia) * Spec.fn g j p (g.cth ia)) := ⟨_, rfl⟩
  have hH : (Matrix.of fun (a b : Fin (bfListDummyM g.lm g.nrad p.first p.last m).length) => ∑ ia ∈ Finset.range g.ang.length,
      (abf g p m ia).get 0 a * (addNormal (addNormal 0 (V1 (g.Rhalf * (Real.cosh p.mu + g.cth ia)))) (V2 (g.Rhalf * (Real.cosh p.mu - g.cth ia))) * wtot g p ia) * (abf g p m ia).get 0 b) =
      Matrix.of fun a b => F (bfListDummyM g.lm g.nrad p.first p.last m)[a] (bfListDummyM g.lm g.nrad p.first p.last m)[b] := by
    ext a b
    rw [hF]
    simp only [Matrix.of_apply]
    refine Finset.sum_congr rfl fun ia _ => ?_
    rw [abf_get g m hf hl ia a a.2, abf_get g m hf hl ia b b.2, addNormal_eq, addNormal_eq]
    simp only [Fin.getElem_fin]
    ring
  obtain ⟨V, h1, h2, h3, h4, -⟩ := XC.scatterMat_ok (nDummy g.lm g.nrad) H hr hc _ hb (Matrix.of fun a b => F (bfListDummyM g.lm g.nrad p.first p.last m)[a] (bfListDummyM g.lm g.nrad p.first p.last m)[b])
  refine ⟨V, ?_, h2, h3, fun i j hi hj => ?_⟩
  · rw [← h1, ← hH]
    rfl
  · rw [h4]
    congr 1
    have e1 : ∀ a : Fin (bfListDummyM g.lm g.nrad p.first p.last m).length, (∑ b : Fin (bfListDummyM g.lm g.nrad p.first p.last m).length,
        if i = (bfListDummyM g.lm g.nrad p.first p.last m)[a] ∧ j = (bfListDummyM g.lm g.nrad p.first p.last m)[b] then
          (Matrix.of fun a b => F (bfListDummyM g.lm g.nrad p.first p.last m)[a] (bfListDummyM g.lm g.nrad p.first p.last m)[b]) a b else 0) =
        if i = (bfListDummyM g.lm g.nrad p.first p.last m)[a] then (if j ∈ bfListDummyM g.lm g.nrad p.first p.last m then F (bfListDummyM g.lm g.nrad p.first p.last m)[a] j else 0) else 0 := by
      intro a
      rw [← sum_pick hn j (F (bfListDummyM g.lm g.nrad p.first p.last m)[a])]
      by_cases h : i = (bfListDummyM g.lm g.nrad p.first p.last m)[a]
      · simp only [if_pos h]
        refine Finset.sum_congr rfl fun b _ => ?_
        by_cases h' : j = (bfListDummyM g.lm g.nrad p.first p.last m)[b]
        · rw [if_pos ⟨h, h'⟩, if_pos h', Matrix.of_apply]
        · rw [if_neg fun hh => h' hh.2, if_neg h']
      · simp only [if_neg h]
        apply Finset.sum_eq_zero
        intro b _
        rw [if_neg fun hh => h hh.1]
    rw [Finset.sum_congr rfl fun a _ => e1 a, sum_pick hn i fun k => if j ∈ bfListDummyM g.lm g.nrad p.first p.last m then F k j else 0]
    have eF : F i j = (g.ang.map fun a => p.w * a.2 * Spec.volume g.Rhalf p.mu a.1 * (((V1 (Spec.dist g.Rhalf p.mu a.1 .left)).getD 0 + (V2 (Spec.dist g.Rhalf p.mu a.1 .right)).getD 0) *
          Spec.fn g i p a.1 * Spec.fn g j p a.1)).sum := by
      rw [hF, ← ang_sum hv p fun c => ((V1 (Spec.dist g.Rhalf p.mu c .left)).getD 0 + (V2 (Spec.dist g.Rhalf p.mu c .right)).getD 0) * Spec.fn g i p c * Spec.fn g j p c]
      refine Finset.sum_congr rfl fun ia hia => ?_
      have := cth_le hv (Finset.mem_range.1 hia)
      rw [dist_left hv.R hμ this, dist_right hv.R hμ this]
    rw [← eF]
    by_cases h : (Spec.ang g i).2 = m ∧ (Spec.ang g j).2 = m
    · rw [if_pos h]
      by_cases h1 : i ∈ bfListDummyM g.lm g.nrad p.first p.last m
      · by_cases h2 : j ∈ bfListDummyM g.lm g.nrad p.first p.last m
        · rw [if_pos h1, if_pos h2]
        · rw [if_pos h1, if_neg h2, hF]
          symm
          apply Finset.sum_eq_zero
          intro ia _
          have : Spec.fn g j p (g.cth ia) = 0 := by
            unfold Spec.fn
            rw [if_neg]
            intro hh
            exact h2 ((mem_list g m hf hl j).2 ⟨hj, h.2, hh⟩)
          rw [this]
          ring
      · rw [if_neg h1, hF]
        symm
        apply Finset.sum_eq_zero
        intro ia _
        have : Spec.fn g i p (g.cth ia) = 0 := by
          unfold Spec.fn
          rw [if_neg]
          intro hh
          exact h1 ((mem_list g m hf hl i).2 ⟨hi, h.1, hh⟩)
        rw [this]
        ring
    · rw [if_neg h]
      by_cases h1 : i ∈ bfListDummyM g.lm g.nrad p.first p.last m
      · rw [if_pos h1, if_neg]
        intro h2
        exact h ⟨((mem_list g m hf hl i).1 h1).2.1, ((mem_list g m hf hl j).1 h2).2.1⟩
      · rw [if_neg h1]

/-- the integrand of the model potential -/
noncomputable def potTerm (g : Grid) (V1 V2 : ℝ → Option ℝ) (i j : Nat) (p : Pt) : ℝ :=
  (g.ang.map fun a => p.w * a.2 * Spec.volume g.Rhalf p.mu a.1 * (((V1 (Spec.dist g.Rhalf p.mu a.1 .left)).getD 0 + (V2 (Spec.dist g.Rhalf p.mu a.1 .right)).getD 0) *
    Spec.fn g i p a.1 * Spec.fn g j p a.1)).sum

theorem pot_loop (V1 V2 : ℝ → Option ℝ) (m : Int) (ps : List Pt) (hps : ∀ p ∈ ps, p ∈ g.pts) (H : Mat ℝ) (hr : H.rows = nDummy g.lm g.nrad) (hc : H.cols = nDummy g.lm g.nrad) :
    ∃ V, ps.foldlM (fun H p => computeBf g p m >>= fun wk => evalPot (modelPotential g V1 V2 p wk) H) H = .ok V ∧ V.rows = nDummy g.lm g.nrad ∧ V.cols = nDummy g.lm g.nrad ∧
      ∀ i j, i < nDummy g.lm g.nrad → j < nDummy g.lm g.nrad → V.get i j = H.get i j + if (Spec.ang g i).2 = m ∧ (Spec.ang g j).2 = m then (ps.map (potTerm g V1 V2 i j)).sum else 0 := by
  induction ps generalizing H with
  | nil => exact ⟨H, rfl, hr, hc, fun i j _ _ => by simp⟩
  | cons p ps ih =>
    obtain ⟨V, h1, h2, h3, h4⟩ := evalPot_ok hv (hps p (by simp)) V1 V2 m hr hc
    obtain ⟨W, e1, e2, e3, e4⟩ := ih (fun q hq => hps q (by simp [hq])) V h2 h3
    refine ⟨W, ?_, e2, e3, fun i j hi hj => ?_⟩
    · rw [List.foldlM_cons, h1, Res.ok_bind, e1]
    · rw [e4 i j hi hj, h4 i j hi hj, List.map_cons, List.sum_cons]
      by_cases h : (Spec.ang g i).2 = m ∧ (Spec.ang g j).2 = m
      · simp only [if_pos h, potTerm]; ring
      · simp only [if_neg h]; ring

theorem pot_outer (V1 V2 : ℝ → Option ℝ) (ms : List Int) (hms : ms.Nodup) (H : Mat ℝ) (hr : H.rows = nDummy g.lm g.nrad) (hc : H.cols = nDummy g.lm g.nrad) :
    ∃ V, ms.foldlM (fun H m => g.pts.foldlM (fun H p => computeBf g p m >>= fun wk => evalPot (modelPotential g V1 V2 p wk) H) H) H = .ok V ∧
      V.rows = nDummy g.lm g.nrad ∧ V.cols = nDummy g.lm g.nrad ∧
      ∀ i j, i < nDummy g.lm g.nrad → j < nDummy g.lm g.nrad → V.get i j = H.get i j + if (Spec.ang g i).2 = (Spec.ang g j).2 ∧ (Spec.ang g i).2 ∈ ms then (g.pts.map (potTerm g V1 V2 i j)).sum else 0 := by
  induction ms generalizing H with
  | nil => exact ⟨H, rfl, hr, hc, fun i j _ _ => by simp⟩
  | cons m ms ih =>
    obtain ⟨V, h1, h2, h3, h4⟩ := pot_loop hv V1 V2 m g.pts (fun _ h => h) H hr hc
    obtain ⟨W, e1, e2, e3, e4⟩ := ih (List.nodup_cons.1 hms).2 V h2 h3
    refine ⟨W, ?_, e2, e3, fun i j hi hj => ?_⟩
    · rw [List.foldlM_cons, h1, Res.ok_bind, e1]
    · rw [e4 i j hi hj, h4 i j hi hj]
      have hm := (List.nodup_cons.1 hms).1
      by_cases h : (Spec.ang g i).2 = (Spec.ang g j).2
      · by_cases h' : (Spec.ang g i).2 = m
        · have h1 : ¬((Spec.ang g i).2 = (Spec.ang g j).2 ∧ (Spec.ang g i).2 ∈ ms) := fun hh => hm (h' ▸ hh.2)
          rw [if_pos ⟨h', h ▸ h'⟩, if_neg h1, if_pos ⟨h, by simp [h']⟩, add_zero]
        · rw [if_neg fun hh => h' hh.1, add_zero]
          by_cases h2 : (Spec.ang g i).2 ∈ ms
          · rw [if_pos ⟨h, h2⟩, if_pos ⟨h, by simp [h2]⟩]
          · rw [if_neg fun hh => h2 hh.2, if_neg]
            rintro ⟨-, hh⟩
            rcases List.mem_cons.1 hh with e | e
            exacts [h' e, h2 e]
      · rw [if_neg fun hh => h (hh.1.trans hh.2.symm), if_neg fun hh => h hh.1, if_neg fun hh => h hh.1, add_zero]

end Loops

end HelFEM.TGrid
