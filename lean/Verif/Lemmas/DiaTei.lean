import Verif.Lemmas.DiaJKRad
import Verif.Props.DiaMultipole
import Verif.Props.Cholesky

/-! The radial two-electron integrals that `compute_tei` stores. -/

namespace HelFEM
namespace DiaJK
open Finset Spec TwoE Sym Dia AtomJK

/-- The radial integrals are available whenever the Legendre cache reaches `L`, have the sizes of the elements, and are those of products of real functions:
`Pm`, `Qm` are symmetric in the two functions, `T` in the two pairs. Terms: 0 is `k = 0`, 1 is `k = 2`. -/
structure Radials (pr : Prims) (tab : List (Int × Int)) (ne : Nat) (n : Nat → Nat) (Pm Qm : Int → Int → Nat → Nat → Nat → Nat → ℝ)
    (T : Int → Int → Nat → Nat → Nat → Nat → Nat → ℝ) : Prop where
  P : ∀ L Ma, (L, Ma) ∈ tab → ∀ Lhi ≥ L, ∀ e < ne, ∀ α < 2, pr.P (2 * α) e L Ma (Ma, Lhi) = .ok ⟨n e, n e, Pm L Ma α e⟩
  Q : ∀ L Ma, (L, Ma) ∈ tab → ∀ Lhi ≥ L, ∀ e < ne, ∀ α < 2, pr.Q (2 * α) e L Ma (Ma, Lhi) = .ok ⟨n e, n e, Qm L Ma α e⟩
  twoe : ∀ L Ma, (L, Ma) ∈ tab → ∀ Lhi ≥ L, ∀ e < ne, ∀ α < 2, ∀ β < 2, α ≤ β → pr.twoe (2 * α) (2 * β) e L Ma (Ma, Lhi) = .ok ⟨n e * n e, n e * n e, T L Ma α β e⟩
  symP : ∀ L Ma, (L, Ma) ∈ tab → ∀ e < ne, ∀ α < 2, ∀ a < n e, ∀ b < n e, Pm L Ma α e a b = Pm L Ma α e b a
  symQ : ∀ L Ma, (L, Ma) ∈ tab → ∀ e < ne, ∀ α < 2, ∀ a < n e, ∀ b < n e, Qm L Ma α e a b = Qm L Ma α e b a
  symT : ∀ L Ma, (L, Ma) ∈ tab → ∀ e < ne, ∀ α < 2, ∀ β < 2, ∀ i < n e * n e, ∀ j < n e * n e, T L Ma α β e i j = T L Ma β α e j i

/-! ### storing entries by table entry and element -/

/-- entries `D` of a stored table -/
def Stored {α : Type _} (nel nt : Nat) (l : List α) (D : Nat → Nat → Prop) (v : Nat → Nat → α) : Prop :=
  l.length = nel * nt ∧ ∀ i < nt, ∀ e < nel, D i e → l[i * nel + e]? = some (v i e)

theorem flat_lt {nel nt i e : Nat} (hi : i < nt) (he : e < nel) : i * nel + e < nel * nt := by
  have : (i + 1) * nel ≤ nt * nel := Nat.mul_le_mul_right _ hi
  have e1 : (i + 1) * nel = i * nel + nel := by ring
  rw [Nat.mul_comm nel nt]; omega

theorem flat_inj {nel i e i' e' : Nat} (he : e < nel) (he' : e' < nel) (h : i * nel + e = i' * nel + e') : i = i' ∧ e = e' := by
  have h1 : (i * nel + e) / nel = i := div_at he
  have h2 : (i' * nel + e') / nel = i' := div_at he'
  have : i = i' := by rw [← h1, ← h2, h]
  subst this; omega

theorem Stored.write {α : Type _} {nel nt : Nat} {l : List α} {D : Nat → Nat → Prop} {v : Nat → Nat → α} (h : Stored nel nt l D v) {i e : Nat} (hi : i < nt) (he : e < nel) :
    ∃ l', writeAt l (i * nel + e) (v i e) = .ok l' ∧ Stored nel nt l' (fun i' e' => D i' e' ∨ (i' = i ∧ e' = e)) v := by
  refine ⟨l.set (i * nel + e) (v i e), if_pos (by rw [h.1]; exact flat_lt hi he), by rw [List.length_set, h.1], ?_⟩
  intro i' hi' e' he' hD
  by_cases hc : i' = i ∧ e' = e
  · obtain ⟨rfl, rfl⟩ := hc
    rw [List.getElem?_set_self (by rw [h.1]; exact flat_lt hi he)]
  · rw [List.getElem?_set_ne (fun hx => hc (by have := flat_inj he he' hx; omega))]
    exact h.2 i' hi' e' he' (hD.resolve_right hc)

theorem Stored.imp {α : Type _} {nel nt : Nat} {l : List α} {D D' : Nat → Nat → Prop} {v : Nat → Nat → α} (h : Stored nel nt l D v) (hD : ∀ i < nt, ∀ e < nel, D' i e → D i e) :
    Stored nel nt l D' v := ⟨h.1, fun i hi e he hd => h.2 i hi e he (hD i hi e he hd)⟩

variable {pr : Prims} {tab : List (Int × Int)} {ne : Nat} {n : Nat → Nat} {Pm Qm : Int → Int → Nat → Nat → Nat → Nat → ℝ} {T : Int → Int → Nat → Nat → Nat → Nat → Nat → ℝ}

theorem tab_mem {i : Nat} (hi : i < tab.length) : ((tab.getD i (0, 0)).1, (tab.getD i (0, 0)).2) ∈ tab := (readAt_lm hi).2

/-- the stored moments of the entries `D` -/
def Moments (tab : List (Int × Int)) (ne : Nat) (n : Nat → Nat) (Pm Qm : Int → Int → Nat → Nat → Nat → Nat → ℝ) (c : Ints) (D : Nat → Nat → Prop) : Prop :=
  Stored ne tab.length c.P0 D (fun i e => ⟨n e, n e, Pm (tab.getD i (0, 0)).1 (tab.getD i (0, 0)).2 0 e⟩) ∧
  Stored ne tab.length c.P2 D (fun i e => ⟨n e, n e, Pm (tab.getD i (0, 0)).1 (tab.getD i (0, 0)).2 1 e⟩) ∧
  Stored ne tab.length c.Q0 D (fun i e => ⟨n e, n e, Qm (tab.getD i (0, 0)).1 (tab.getD i (0, 0)).2 0 e⟩) ∧
  Stored ne tab.length c.Q2 D (fun i e => ⟨n e, n e, Qm (tab.getD i (0, 0)).1 (tab.getD i (0, 0)).2 1 e⟩)

theorem disjointStep_ok (hp : Radials pr tab ne n Pm Qm T) (c : Ints) (D : Nat → Nat → Prop) (hc : Moments tab ne n Pm Qm c D) (t : Task)
    (h1 : t.ilm < tab.length) (h2 : t.iel < ne) (h3 : tab[t.ilm]? = some (t.L, t.Mabs)) (h4 : t.L ≤ t.Lhi) :
    ∃ c', disjointStep pr ne c t = .ok c' ∧ Moments tab ne n Pm Qm c' (fun i e => D i e ∨ (i = t.ilm ∧ e = t.iel)) ∧ c'.B = c.B ∧ c'.sigma = c.sigma := by
  have hg : tab.getD t.ilm (0, 0) = (t.L, t.Mabs) := by rw [List.getD_eq_getElem?_getD, h3]; rfl
  have hm : (t.L, t.Mabs) ∈ tab := List.mem_of_getElem? h3
  obtain ⟨c1, c2, c3, c4⟩ := hc
  obtain ⟨l1, w1, s1⟩ := c1.write h1 h2
  obtain ⟨l2, w2, s2⟩ := c2.write h1 h2
  obtain ⟨l3, w3, s3⟩ := c3.write h1 h2
  obtain ⟨l4, w4, s4⟩ := c4.write h1 h2
  rw [hg] at w1 w2 w3 w4
  refine ⟨{ c with P0 := l1, P2 := l2, Q0 := l3, Q2 := l4 }, ?_, ⟨s1, s2, s3, s4⟩, rfl, rfl⟩
  unfold disjointStep
  rw [show pr.P 0 = pr.P (2 * 0) from rfl, show pr.P 2 = pr.P (2 * 1) from rfl, show pr.Q 0 = pr.Q (2 * 0) from rfl, show pr.Q 2 = pr.Q (2 * 1) from rfl,
    hp.P _ _ hm _ h4 _ h2 0 (by omega), Res.ok_bind, w1, Res.ok_bind, hp.P _ _ hm _ h4 _ h2 1 (by omega), Res.ok_bind, w2, Res.ok_bind,
    hp.Q _ _ hm _ h4 _ h2 0 (by omega), Res.ok_bind, w3, Res.ok_bind, hp.Q _ _ hm _ h4 _ h2 1 (by omega), Res.ok_bind, w4, Res.ok_bind]

theorem disjoint_ok (hp : Radials pr tab ne n Pm Qm T) : ∀ (tasks : List Task) (c : Ints) (D : Nat → Nat → Prop), Moments tab ne n Pm Qm c D →
    (∀ t ∈ tasks, t.ilm < tab.length ∧ t.iel < ne ∧ tab[t.ilm]? = some (t.L, t.Mabs) ∧ t.L ≤ t.Lhi) →
    ∃ c', tasks.foldlM (disjointStep pr ne) c = .ok c' ∧ Moments tab ne n Pm Qm c' (fun i e => D i e ∨ ∃ t ∈ tasks, t.ilm = i ∧ t.iel = e) ∧ c'.B = c.B ∧ c'.sigma = c.sigma := by
  intro tasks
  induction tasks with
  | nil =>
    intro c D hc _
    refine ⟨c, rfl, ?_, rfl, rfl⟩
    have : ∀ i < tab.length, ∀ e < ne, (D i e ∨ ∃ t ∈ ([] : List Task), t.ilm = i ∧ t.iel = e) → D i e := by intro i _ e _ h; simpa using h
    exact ⟨hc.1.imp this, hc.2.1.imp this, hc.2.2.1.imp this, hc.2.2.2.imp this⟩
  | cons t tasks ih =>
    intro c D hc ht
    obtain ⟨a1, a2, a3, a4⟩ := ht t (by simp)
    obtain ⟨c1, s1, s2, s3, s4⟩ := disjointStep_ok hp c D hc t a1 a2 a3 a4
    obtain ⟨c2, r1, r2, r3, r4⟩ := ih c1 _ s2 (fun t' ht' => ht t' (by simp [ht']))
    refine ⟨c2, by rw [List.foldlM_cons, s1]; exact r1, ?_, r3.trans s3, r4.trans s4⟩
    have : ∀ i < tab.length, ∀ e < ne, (D i e ∨ ∃ t' ∈ t :: tasks, t'.ilm = i ∧ t'.iel = e) → (D i e ∨ (i = t.ilm ∧ e = t.iel)) ∨ ∃ t' ∈ tasks, t'.ilm = i ∧ t'.iel = e := by
      rintro i _ e _ (h | ⟨t', h1, rfl, rfl⟩)
      · exact Or.inl (Or.inl h)
      · rcases List.mem_cons.1 h1 with rfl | h
        · exact Or.inl (Or.inr ⟨rfl, rfl⟩)
        · exact Or.inr ⟨t', h, rfl, rfl⟩
    exact ⟨r2.1.imp this, r2.2.1.imp this, r2.2.2.1.imp this, r2.2.2.2.imp this⟩

/-! ### the in-element factor -/

theorem kernel_ok (m : Nat) (t00 t02 t22 : Nat → Nat → ℝ) :
    ∃ W, kernel ⟨m, m, t00⟩ ⟨m, m, t02⟩ ⟨m, m, t22⟩ = .ok W ∧ W.rows = 2 * m ∧ W.cols = 2 * m ∧ ∀ i < m, ∀ j < m,
      W.get i j = 1 / 2 * (t00 i j + t00 j i) ∧ W.get i (m + j) = -t02 i j ∧ W.get (m + i) j = -t02 j i ∧ W.get (m + i) (m + j) = 1 / 2 * (t22 i j + t22 j i) := by
  unfold kernel
  simp only [Mat.setBlock, Mat.zero, Mat.smul, Mat.transpose, Mat.add]
  rw [if_pos ⟨by omega, by omega, trivial, trivial⟩, Res.ok_bind]
  simp only
  rw [if_pos ⟨by omega, by omega, trivial, trivial⟩, Res.ok_bind]
  simp only
  rw [if_pos ⟨by omega, by omega, trivial, trivial⟩, Res.ok_bind]
  simp only
  rw [if_pos ⟨by omega, by omega, trivial, trivial⟩, Res.ok_bind]
  simp only
  rw [if_pos ⟨trivial, trivial⟩, Res.ok_bind]
  refine ⟨_, rfl, rfl, rfl, ?_⟩
  intro i hi j hj
  have e1 : ∀ x, m + x - m = x := fun x => by omega
  refine ⟨?_, ?_, ?_, ?_⟩ <;>
  simp only [e1, Nat.zero_le, true_and, hi, hj, and_true, Nat.sub_zero, Nat.zero_add, Nat.le_add_right, show ¬m ≤ i by omega, show ¬m ≤ j by omega,
    show ¬m + i < m by omega, show ¬m + j < m by omega, show m + i < m + m by omega, show m + j < m + m by omega, if_true, if_false, and_false, false_and, and_self] <;> ring

/-- the matrix of both terms -/
def twoTerm (m : Nat) (T : Nat → Nat → Nat → Nat → ℝ) (x y : Nat) : ℝ := termSign (x / m) (y / m) * T (x / m) (y / m) (x % m) (y % m)

theorem twoTerm_at {m : Nat} (T : Nat → Nat → Nat → Nat → ℝ) (α β : Nat) {i j : Nat} (hi : i < m) (hj : j < m) :
    twoTerm m T (α * m + i) (β * m + j) = termSign α β * T α β i j := by
  unfold twoTerm
  rw [div_at hi, div_at hj, Nat.mul_add_mod', Nat.mul_add_mod', Nat.mod_eq_of_lt hi, Nat.mod_eq_of_lt hj]

/-- what the stored columns and signs stand for -/
noncomputable def recon (cols : List ((Nat → ℝ) × ℝ)) (i j : Nat) : ℝ := (cols.map fun c => c.2 * (c.1 i * c.1 j)).sum

theorem sum_getD {α : Type _} (d : α) (f : α → ℝ) : ∀ l : List α, (l.map f).sum = ∑ p ∈ range l.length, f (l.getD p d) := by
  intro l
  induction l with
  | nil => simp
  | cons a l ih => rw [List.map_cons, List.sum_cons, List.length_cons, sum_range_succ', ih, add_comm]; rfl

/-- the stored factor of one entry and element -/
noncomputable def facMat (thresh : ℝ) (W : Mat ℝ) : Mat ℝ :=
  ⟨W.rows, (Chol.signedCholesky W.rows W.get thresh).length, fun i p => ((Chol.signedCholesky W.rows W.get thresh).getD p (fun _ => 0, 0)).1 i⟩

noncomputable def facSig (thresh : ℝ) (W : Mat ℝ) : Vect ℝ :=
  ⟨(Chol.signedCholesky W.rows W.get thresh).length, fun p => ((Chol.signedCholesky W.rows W.get thresh).getD p (fun _ => 0, 0)).2⟩

theorem factorise_ok (thresh : ℝ) (W : Mat ℝ) (h : W.rows ≠ 0) : factorise thresh W = .ok (facMat thresh W, facSig thresh W) := by
  unfold factorise
  rw [if_neg h]; rfl

/-- the Legendre cache reaches all remaining entries of the current run -/
def LegOk (tab : List (Int × Int)) (k : Nat) (s : Option Int × (Int × Int)) : Prop :=
  ∀ M, s.1 = some M → s.2.1 = M ∧ ∀ q ∈ (tab.drop k).takeWhile (fun q => q.2 = M), q.1 ≤ s.2.2

theorem le_foldl_max : ∀ (l : List (Int × Int)) (a : Int), a ≤ l.foldl (fun a q => max a q.1) a ∧ ∀ q ∈ l, q.1 ≤ l.foldl (fun a q => max a q.1) a := by
  intro l
  induction l with
  | nil => intro a; simp
  | cons x l ih =>
    intro a
    obtain ⟨h1, h2⟩ := ih (max a x.1)
    refine ⟨le_trans (le_max_left _ _) h1, ?_⟩
    intro q hq
    rcases List.mem_cons.1 hq with rfl | hq
    · exact le_trans (le_max_right _ _) h1
    · exact h2 q hq

theorem repoint_ok {k : Nat} (hk : k < tab.length) {s : Option Int × (Int × Int)} (hs : LegOk tab k s) :
    ∃ Lhi, (repoint tab (tab.getD k (0, 0)).2 k s).2 = ((tab.getD k (0, 0)).2, Lhi) ∧ (tab.getD k (0, 0)).1 ≤ Lhi ∧ LegOk tab (k + 1) (repoint tab (tab.getD k (0, 0)).2 k s) := by
  obtain ⟨p, hp⟩ : ∃ p, p = tab.getD k (0, 0) := ⟨_, rfl⟩
  have hd : tab.drop k = p :: tab.drop (k + 1) := by
    rw [List.drop_eq_getElem_cons hk, hp, List.getD_eq_getElem?_getD, List.getElem?_eq_getElem hk]; rfl
  have htw : (tab.drop k).takeWhile (fun q => q.2 = p.2) = p :: (tab.drop (k + 1)).takeWhile (fun q => q.2 = p.2) := by
    rw [hd, List.takeWhile_cons, if_pos (by simp)]
  rw [← hp]
  -- the new cache
  have key : ∃ Lhi, repoint tab p.2 k s = (some p.2, (p.2, Lhi)) ∧ ∀ q ∈ (tab.drop k).takeWhile (fun q => q.2 = p.2), q.1 ≤ Lhi := by
    unfold repoint
    by_cases h : s.1 = some p.2
    · obtain ⟨h1, h2⟩ := hs p.2 h
      rw [if_neg (not_not.2 h)]
      exact ⟨s.2.2, Prod.ext h (Prod.ext h1 rfl), h2⟩
    · rw [if_pos h]
      exact ⟨_, rfl, (le_foldl_max _ 0).2⟩
  obtain ⟨Lhi, e, hle⟩ := key
  rw [e]
  refine ⟨Lhi, rfl, hle p (by rw [htw]; simp), ?_⟩
  intro M hM
  obtain rfl : p.2 = M := Option.some.inj hM
  exact ⟨rfl, fun q hq => hle q (by rw [htw]; exact List.mem_cons_of_mem _ hq)⟩

/-- the stored factors of the entries `D` -/
def Factors (tab : List (Int × Int)) (ne : Nat) (thresh : ℝ) (Wc : Int → Int → Nat → Mat ℝ) (B : List (Mat ℝ)) (sg : List (Vect ℝ)) (D : Nat → Nat → Prop) : Prop :=
  Stored ne tab.length B D (fun i e => facMat thresh (Wc (tab.getD i (0, 0)).1 (tab.getD i (0, 0)).2 e)) ∧
  Stored ne tab.length sg D (fun i e => facSig thresh (Wc (tab.getD i (0, 0)).1 (tab.getD i (0, 0)).2 e))

/-- the matrices that are factored -/
def Kernels (ne : Nat) (n : Nat → Nat) (T : Int → Int → Nat → Nat → Nat → Nat → Nat → ℝ) (Wc : Int → Int → Nat → Mat ℝ) : Prop :=
  ∀ L Ma e, kernel ⟨n e * n e, n e * n e, T L Ma 0 0 e⟩ ⟨n e * n e, n e * n e, T L Ma 0 1 e⟩ ⟨n e * n e, n e * n e, T L Ma 1 1 e⟩ = .ok (Wc L Ma e) ∧
    (Wc L Ma e).rows = 2 * (n e * n e)

theorem elStep_ok (hp : Radials pr tab ne n Pm Qm T) {Wc : Int → Int → Nat → Mat ℝ} (hW : Kernels ne n T Wc) (hn : ∀ e < ne, 0 < n e) (thresh : ℝ) (e : Nat) (he : e < ne) (k : Nat)
    (hk : k < tab.length) (s : ElState) (hl : LegOk tab k s.leg) (D : Nat → Nat → Prop) (hs : Factors tab ne thresh Wc s.B s.sigma D) :
    ∃ s', elStep pr thresh tab ne e s k = .ok s' ∧ LegOk tab (k + 1) s'.leg ∧ Factors tab ne thresh Wc s'.B s'.sigma (fun i' e' => D i' e' ∨ (i' = k ∧ e' = e)) := by
  obtain ⟨Lhi, l1, l2, l3⟩ := repoint_ok hk hl
  obtain ⟨B', b1, b2⟩ := hs.1.write hk he
  obtain ⟨S', s1, s2⟩ := hs.2.write hk he
  obtain ⟨w1, w2⟩ := hW (tab.getD k (0, 0)).1 (tab.getD k (0, 0)).2 e
  have hm := tab_mem hk
  refine ⟨⟨repoint tab (tab.getD k (0, 0)).2 k s.leg, B', S'⟩, ?_, l3, b2, s2⟩
  unfold elStep
  rw [(readAt_lm hk).1, Res.ok_bind]
  simp only [l1]
  have t00 := hp.twoe _ _ hm Lhi l2 e he 0 (by omega) 0 (by omega) (by omega)
  have t02 := hp.twoe _ _ hm Lhi l2 e he 0 (by omega) 1 (by omega) (by omega)
  have t22 := hp.twoe _ _ hm Lhi l2 e he 1 (by omega) 1 (by omega) (by omega)
  simp only [Nat.mul_zero, Nat.mul_one] at t00 t02 t22
  have hpos := Nat.mul_pos (hn e he) (hn e he)
  rw [t00, Res.ok_bind, t02, Res.ok_bind, t22, Res.ok_bind, w1, Res.ok_bind, factorise_ok _ _ (by rw [w2]; omega), Res.ok_bind, b1, Res.ok_bind, s1, Res.ok_bind]

theorem elLoop_ok (hp : Radials pr tab ne n Pm Qm T) {Wc : Int → Int → Nat → Mat ℝ} (hW : Kernels ne n T Wc) (hn : ∀ e < ne, 0 < n e) (thresh : ℝ) (e : Nat) (he : e < ne) :
    ∀ (m k : Nat) (s : ElState) (D : Nat → Nat → Prop), k + m = tab.length → LegOk tab k s.leg → Factors tab ne thresh Wc s.B s.sigma D →
      ∃ s', (List.range' k m).foldlM (elStep pr thresh tab ne e) s = .ok s' ∧ Factors tab ne thresh Wc s'.B s'.sigma (fun i' e' => D i' e' ∨ (k ≤ i' ∧ e' = e)) := by
  intro m
  induction m with
  | zero =>
    intro k s D hk _ hs
    refine ⟨s, rfl, hs.1.imp ?_, hs.2.imp ?_⟩ <;>
    · rintro i hi e' _ (h | h)
      · exact h
      · omega
  | succ m ih =>
    intro k s D hk hl hs
    obtain ⟨s1, a1, a2, a3⟩ := elStep_ok hp hW hn thresh e he k (by omega) s hl D hs
    obtain ⟨s2, b1, b2⟩ := ih (k + 1) s1 _ (by omega) a2 a3
    refine ⟨s2, by rw [List.range'_succ, List.foldlM_cons, a1]; exact b1, b2.1.imp ?_, b2.2.imp ?_⟩ <;>
    · rintro i hi e' _ (h | h)
      · exact Or.inl (Or.inl h)
      · by_cases hik : i = k
        · exact Or.inl (Or.inr ⟨hik, h.2⟩)
        · exact Or.inr ⟨by omega, h.2⟩

theorem elements_ok (hp : Radials pr tab ne n Pm Qm T) {Wc : Int → Int → Nat → Mat ℝ} (hW : Kernels ne n T Wc) (hn : ∀ e < ne, 0 < n e) (thresh : ℝ) :
    ∀ (els : List Nat) (c : Ints) (D : Nat → Nat → Prop), (∀ e ∈ els, e < ne) → Factors tab ne thresh Wc c.B c.sigma D →
      ∃ c', els.foldlM (elFactor pr thresh tab ne) c = .ok c' ∧ Factors tab ne thresh Wc c'.B c'.sigma (fun i' e' => D i' e' ∨ e' ∈ els) ∧
        c'.P0 = c.P0 ∧ c'.P2 = c.P2 ∧ c'.Q0 = c.Q0 ∧ c'.Q2 = c.Q2 := by
  intro els
  induction els with
  | nil =>
    intro c D _ hs
    refine ⟨c, rfl, ⟨hs.1.imp ?_, hs.2.imp ?_⟩, rfl, rfl, rfl, rfl⟩ <;>
    · intro i _ e _ h; simpa using h
  | cons e els ih =>
    intro c D hel hs
    obtain ⟨s, a1, a2⟩ := elLoop_ok hp hW hn thresh e (hel e (by simp)) tab.length 0 ⟨(Option.none, (0, 0)), c.B, c.sigma⟩ D (by omega) (by intro M hM; cases hM) hs
    obtain ⟨c2, b1, b2, b3⟩ := ih { c with B := s.B, sigma := s.sigma } _ (fun e' he' => hel e' (by simp [he'])) a2
    refine ⟨c2, ?_, ⟨b2.1.imp ?_, b2.2.imp ?_⟩, b3⟩
    · have h1 : elFactor pr thresh tab ne c e = .ok { c with B := s.B, sigma := s.sigma } := by
        unfold elFactor
        rw [List.range_eq_range', a1, Res.ok_bind]
      rw [List.foldlM_cons, h1, Res.ok_bind]
      exact b1
    all_goals
      rintro i _ e' _ (h | h)
      · exact Or.inl (Or.inl h)
      · rcases List.mem_cons.1 h with rfl | h
        · exact Or.inl (Or.inr ⟨Nat.zero_le _, rfl⟩)
        · exact Or.inr h

/-- **what `compute_tei` stores**, for any order of its parallel loops -/
theorem computeTei_ok (hp : Radials pr tab ne n Pm Qm T) {Wc : Int → Int → Nat → Mat ℝ} (hW : Kernels ne n T Wc) (hn : ∀ e < ne, 0 < n e) (thresh : ℝ) (tasks : List Task)
    (ht : tasks.Perm (disjointTasks tab ne)) (els : List Nat) (he : els.Perm (List.range ne)) :
    ∃ c, computeTei pr thresh tab ne tasks els = .ok c ∧ c.B.length = ne * tab.length ∧ ∀ ilm L Ma, tab[ilm]? = some (L, Ma) →
      SliceOk (c.slice ne ilm) ne n (Pm L Ma) (Qm L Ma) (fun e => recon (Chol.signedCholesky (2 * (n e * n e)) (Wc L Ma e).get thresh)) := by
  obtain ⟨_, t2, t3⟩ := C39_integral_tasks tab ne
  have h0 : ∀ {α : Type} (x : α) (v : Nat → Nat → α), Stored ne tab.length (List.replicate (ne * tab.length) x) (fun _ _ => False) v :=
    fun x v => ⟨by simp, fun _ _ _ _ h => h.elim⟩
  obtain ⟨c1, a1, a2, a3, a4⟩ := disjoint_ok hp tasks ⟨List.replicate (ne * tab.length) ⟨0, 0, fun _ _ => 0⟩, List.replicate (ne * tab.length) ⟨0, 0, fun _ _ => 0⟩,
    List.replicate (ne * tab.length) ⟨0, 0, fun _ _ => 0⟩, List.replicate (ne * tab.length) ⟨0, 0, fun _ _ => 0⟩, List.replicate (ne * tab.length) ⟨0, 0, fun _ _ => 0⟩,
    List.replicate (ne * tab.length) ⟨0, fun _ => 0⟩⟩ (fun _ _ => False) ⟨h0 _ _, h0 _ _, h0 _ _, h0 _ _⟩ (fun t h => t3 t (ht.mem_iff.1 h))
  obtain ⟨c2, b1, b2, b3, b4, b5, b6⟩ := elements_ok hp hW hn thresh els c1 (fun _ _ => False) (fun e h => List.mem_range.1 (he.mem_iff.1 h))
    ⟨by rw [a3]; exact h0 _ _, by rw [a4]; exact h0 _ _⟩
  refine ⟨c2, ?_, b2.1.1, ?_⟩
  · unfold computeTei
    simp only
    rw [a1, Res.ok_bind, b1]
  · intro ilm L Ma hi
    obtain ⟨hlt, _⟩ := List.getElem?_eq_some_iff.1 hi
    have hg : tab.getD ilm (0, 0) = (L, Ma) := by rw [List.getD_eq_getElem?_getD, hi]; rfl
    have hm : (L, Ma) ∈ tab := List.mem_of_getElem? hi
    have hdone : ∀ e < ne, False ∨ ∃ t ∈ tasks, t.ilm = ilm ∧ t.iel = e := by
      intro e he
      obtain ⟨t, h1, h2⟩ := t2 ilm e hlt he
      exact Or.inr ⟨t, ht.mem_iff.2 h1, h2⟩
    have hdone2 : ∀ e < ne, False ∨ e ∈ els := fun e h => Or.inr (he.mem_iff.2 (List.mem_range.2 h))
    obtain ⟨m1, m2, m3, m4⟩ := a2
    refine ⟨?_, ?_, ?_, ?_, ?_, ?_, ?_⟩
    · intro e h
      have := m1.2 ilm hlt e h (hdone e h)
      beta_reduce at this
      rw [hg] at this
      simp only [Ints.slice]
      rw [b3]
      exact readAt_some this
    · intro e h
      have := m2.2 ilm hlt e h (hdone e h)
      beta_reduce at this
      rw [hg] at this
      simp only [Ints.slice]
      rw [b4]
      exact readAt_some this
    · intro e h
      have := m3.2 ilm hlt e h (hdone e h)
      beta_reduce at this
      rw [hg] at this
      simp only [Ints.slice]
      rw [b5]
      exact readAt_some this
    · intro e h
      have := m4.2 ilm hlt e h (hdone e h)
      beta_reduce at this
      rw [hg] at this
      simp only [Ints.slice]
      rw [b6]
      exact readAt_some this
    · intro α hα e h; exact hp.symP L Ma hm e h α hα
    · intro α hα e h; exact hp.symQ L Ma hm e h α hα
    · intro e h
      have f1 := b2.1.2 ilm hlt e h (hdone2 e h)
      have f2 := b2.2.2 ilm hlt e h (hdone2 e h)
      beta_reduce at f1 f2
      rw [hg] at f1 f2
      refine ⟨_, _, readAt_some f1, readAt_some f2, (hW L Ma e).2, rfl, ?_⟩
      intro i _ j _
      simp only [facMat, facSig]
      rw [(hW L Ma e).2, recon, sum_getD (fun _ => 0, 0)]

/-- the factor reproduces the in-element integrals when they are definite -/
theorem recon_close (hp : Radials pr tab ne n Pm Qm T) {Wc : Int → Int → Nat → Mat ℝ} (hW : Kernels ne n T Wc) (hn : ∀ e < ne, 0 < n e) (thresh : ℝ) (ht : 0 ≤ thresh)
    (L Ma : Int) (hm : (L, Ma) ∈ tab) (e : Nat) (he : e < ne) (hd : Chol.PSD (2 * (n e * n e)) (twoTerm (n e * n e) fun α β => T L Ma α β e) ∨
      Chol.PSD (2 * (n e * n e)) fun x y => -twoTerm (n e * n e) (fun α β => T L Ma α β e) x y) (B : ℝ)
    (hB : ∀ α < 2, ∀ i < n e * n e, |T L Ma α α e i i| ≤ B) (α β i j : Nat) (hα : α < 2) (hβ : β < 2) (hi : i < n e * n e) (hj : j < n e * n e) :
    |T L Ma α β e i j - teiOf n (fun e => recon (Chol.signedCholesky (2 * (n e * n e)) (Wc L Ma e).get thresh)) α β e i j| ≤ thresh * B := by
  obtain ⟨m, hmm⟩ : ∃ m, m = n e * n e := ⟨_, rfl⟩
  rw [← hmm] at hi hj hB hd
  have hm0 : 0 < m := by rw [hmm]; exact Nat.mul_pos (hn e he) (hn e he)
  obtain ⟨W, w1, w2, w3, w4⟩ := kernel_ok m (T L Ma 0 0 e) (T L Ma 0 1 e) (T L Ma 1 1 e)
  have hWc : W = Wc L Ma e := by
    have := (hW L Ma e).1
    rw [← hmm, w1] at this
    exact Res.ok.inj this
  have hsym : ∀ α < 2, ∀ β < 2, ∀ i < m, ∀ j < m, T L Ma α β e i j = T L Ma β α e j i := by
    rw [hmm]; exact hp.symT L Ma hm e he
  have hval : ∀ α < 2, ∀ β < 2, ∀ i < m, ∀ j < m, W.get (α * m + i) (β * m + j) = termSign α β * T L Ma α β e i j := by
    intro α hα β hβ i hi j hj
    obtain ⟨v1, v2, v3, v4⟩ := w4 i hi j hj
    have h0 := hsym 0 (by omega) 0 (by omega) i hi j hj
    have h1 := hsym 1 (by omega) 1 (by omega) i hi j hj
    have h2 := hsym 1 (by omega) 0 (by omega) i hi j hj
    interval_cases α <;> interval_cases β <;> simp only [Nat.zero_mul, Nat.zero_add, Nat.one_mul, termSign]
    · rw [v1, ← h0]; simp only [if_true]; ring
    · rw [v2]; norm_num
    · rw [v3, h2]; norm_num
    · rw [v4, ← h1]; simp only [if_true]; ring
  have hsplit : ∀ x < 2 * m, x / m < 2 ∧ x % m < m ∧ x / m * m + x % m = x := by
    intro x hx
    refine ⟨Nat.div_lt_of_lt_mul (by rw [Nat.mul_comm]; exact hx), Nat.mod_lt _ hm0, ?_⟩
    have := Nat.div_add_mod x m; rw [Nat.mul_comm] at this; exact this
  have hagree : ∀ x < 2 * m, ∀ y < 2 * m, W.get x y = twoTerm m (fun α β => T L Ma α β e) x y := by
    intro x hx y hy
    obtain ⟨x1, x2, x3⟩ := hsplit x hx
    obtain ⟨y1, y2, y3⟩ := hsplit y hy
    have := hval _ x1 _ y1 _ x2 _ y2
    rw [x3, y3] at this
    rw [this]; rfl
  have hBd : ∀ x < 2 * m, |W.get x x| ≤ B := by
    intro x hx
    obtain ⟨x1, x2, x3⟩ := hsplit x hx
    have := hval _ x1 _ x1 _ x2 _ x2
    rw [x3] at this
    rw [this]
    simp only [termSign, if_true, one_mul]
    exact hB _ x1 _ x2
  have hx : α * m + i < 2 * m := by have : (α + 1) * m ≤ 2 * m := Nat.mul_le_mul_right _ hα; have e1 : (α + 1) * m = α * m + m := by ring
                                    omega
  have hy : β * m + j < 2 * m := by have : (β + 1) * m ≤ 2 * m := Nat.mul_le_mul_right _ hβ; have e1 : (β + 1) * m = β * m + m := by ring
                                    omega
  have hclose : |W.get (α * m + i) (β * m + j) - recon (Chol.signedCholesky (2 * m) W.get thresh) (α * m + i) (β * m + j)| ≤ thresh * B := by
    rcases hd with hd | hd
    · refine (Chol.C23_signed_psd (2 * m) (by omega) W.get ?_ thresh ht B (fun x hx => (le_abs_self _).trans (hBd x hx))).2.2 _ hx _ hy
      refine ⟨fun x hx y hy => by rw [hagree x hx y hy, hagree y hy x hx]; exact hd.1 x hx y hy, fun v => ?_⟩
      refine le_of_le_of_eq (hd.2 v) ?_
      apply sum_congr rfl; intro x hx
      apply sum_congr rfl; intro y hy
      rw [hagree x (Finset.mem_range.1 hx) y (Finset.mem_range.1 hy)]
    · refine (Chol.C23_signed_nsd (2 * m) (by omega) W.get ?_ thresh ht B (fun x hx => (neg_le_abs _).trans (hBd x hx))).2.2 _ hx _ hy
      refine ⟨fun x hx y hy => by beta_reduce; rw [hagree x hx y hy, hagree y hy x hx]; exact hd.1 x hx y hy, fun v => ?_⟩
      refine le_of_le_of_eq (hd.2 v) ?_
      apply sum_congr rfl; intro x hx
      apply sum_congr rfl; intro y hy
      beta_reduce
      rw [hagree x (Finset.mem_range.1 hx) y (Finset.mem_range.1 hy)]
  unfold teiOf
  beta_reduce
  rw [← hWc, ← hmm]
  rw [hval α hα β hβ i hi j hj] at hclose
  have hs : termSign α β = 1 ∨ termSign α β = -1 := by unfold termSign; split_ifs <;> simp
  rcases hs with h | h <;> rw [h] at hclose ⊢
  · simpa using hclose
  · rw [← abs_neg]
    refine le_of_eq_of_le ?_ hclose
    congr 1; ring

end DiaJK
end HelFEM
