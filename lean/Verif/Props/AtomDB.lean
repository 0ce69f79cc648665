import Verif.Lemmas.AtomDB
import Mathlib.Algebra.Ring.GeomSum
import Mathlib.Analysis.Calculus.Deriv.Polynomial
import Mathlib.Analysis.Calculus.Deriv.Pow
import Mathlib.Analysis.Calculus.Deriv.Inv
import Mathlib.Analysis.SpecialFunctions.Integrals.Basic

/-!
# C36, C57: free atoms

The basis is any finite element basis that starts at the nucleus, `φ e g` is the polynomial basis function `g` on element `e` (C48), the quadrature rule is any rule that integrates the density exactly and whose nodes lie in [-1, 1].
-/

namespace HelFEM
namespace AtomDB
open Grid Poly Finset Polynomial Spec Assembly

/-- a free atom on a basis that starts at the nucleus; coefficient matrices have one row per basis function -/
structure Setup (f : Family) (n ne : Nat) (zdl zfr zdr : Bool) (x0 : Nat → ℝ) (bval : List ℝ) (o : FEObj ℝ) (N : Nat) (first last : Nat → Nat)
    (φ : Nat → Nat → ℝ[X]) (rule : List (ℝ × ℝ)) (shells : List Shell) : Prop where
  basis : Basis f n ne true zdl zfr zdr x0 bval o N first last
  pieces : IsPieces o x0 ne first φ
  origin : bval.getD 0 0 = 0
  inner : first 0 ≤ last 0
  rule : GoodRule rule (2 * ((PolyBasis.mk' f n).noverlap * n - 1))
  shells : ∀ s ∈ shells, s.C.cols = 0 ∨ s.C.rows = N

/-- radial orbital `k` of a shell on element `e` -/
noncomputable def orbital (N : Nat) (φ : Nat → Nat → ℝ[X]) (s : Shell) (k e : Nat) : ℝ[X] := ∑ g ∈ range N, C (s.C.get g k) * φ e g

/-- occupation-weighted sum of the squared orbitals on element `e` -/
noncomputable def occupied (N : Nat) (φ : Nat → Nat → ℝ[X]) (shells : List Shell) (e : Nat) (r : ℝ) : ℝ :=
  (shells.map fun s => ∑ k ∈ range s.C.cols, s.occ k * (orbital N φ s k e).eval r ^ 2).sum

theorem rho_occupied (N : Nat) (φ : Nat → Nat → ℝ[X]) (shells : List Shell) (e : Nat) (r : ℝ) :
    (rho N (pmat shells) φ e).eval r = occupied N φ shells e r := by
  unfold rho occupied
  induction shells with
  | nil => simp [pmat]
  | cons s t ih =>
    rw [List.map_cons, List.sum_cons, ← ih]
    simp only [eval_finsetSum, eval_mul, eval_C]
    have : ∀ i j, pmat (s :: t) i j = ∑ k ∈ range s.C.cols, s.C.get i k * s.occ k * s.C.get j k + pmat t i j := fun i j => by
      unfold pmat; rw [List.map_cons, List.sum_cons]
    simp only [this, add_mul, sum_add_distrib, orbital, eval_finsetSum, eval_mul, eval_C]
    congr 1
    simp only [sq, mul_sum, sum_mul]
    rw [sum_congr rfl (fun i _ => sum_comm), sum_comm]
    apply sum_congr rfl
    intro k _
    rw [sum_comm]
    apply sum_congr rfl
    intro i _
    apply sum_congr rfl
    intro j _
    ring

section
variable {f : Family} {n ne : Nat} {zdl zfr zdr : Bool} {x0 : Nat → ℝ} {bval : List ℝ} {o : FEObj ℝ} {N : Nat} {first last : Nat → Nat}
  {φ : Nat → Nat → ℝ[X]} {rule : List (ℝ × ℝ)} {shells : List Shell} {a : Atom}

theorem elem_unique (hs : bval.Pairwise (· < ·)) (e e' : Nat) (he : e + 1 < bval.length) (he' : e' + 1 < bval.length) (r : ℝ)
    (h1 : bval.getD e 0 < r) (h2 : r < bval.getD (e + 1) 0) (h3 : bval.getD e' 0 ≤ r) (h4 : r ≤ bval.getD (e' + 1) 0) : e' = e := by
  have mono : ∀ i j, i ≤ j → j < bval.length → bval.getD i 0 ≤ bval.getD j 0 := by
    intro i j hij hj
    rcases eq_or_lt_of_le hij with rfl | hlt
    · exact le_rfl
    · have := List.pairwise_iff_getElem.1 hs i j (by omega) hj hlt
      simp only [List.getD_eq_getElem?_getD, List.getElem?_eq_getElem hj, List.getElem?_eq_getElem (show i < bval.length by omega), Option.getD_some]
      exact this.le
  rcases lt_trichotomy e e' with hlt | rfl | hlt
  · have := mono (e + 1) e' hlt (by omega); linarith
  · rfl
  · have := mono (e' + 1) e hlt (by omega); linarith

/-- what the built atom holds -/
structure Built (a : Atom) (ne : Nat) (x0 : Nat → ℝ) (bval : List ℝ) (o : FEObj ℝ) (N : Nat) (first last : Nat → Nat)
    (φ : Nat → Nat → ℝ[X]) (rule : List (ℝ × ℝ)) (shells : List Shell) (B : Nat → Mat ℝ) (m : Nat → ℝ) : Prop where
  db : a.db = ⟨o, x0, rule⟩
  rmax : a.Rmax = bval.getD ne 0
  psub : ∀ e < ne, readAt a.Psub e = .ok (B e)
  block : ∀ e < ne, IsBlock (pmat shells) (first e) (last e + 1 - first e) (B e)
  moment : ∀ e < ne, partialIntegral ⟨o, x0, rule⟩ (B e) e (-1) 1 true = .ok (m e)
  below : ∀ e < ne, readAt a.Qbelow e = .ok (∑ e' ∈ range e, ∫ r in (bval.getD e' 0)..(bval.getD (e' + 1) 0), (rho N (pmat shells) φ e').eval r)
  above : ∀ e < ne, readAt a.Mabove e = .ok (∑ e' ∈ Ico (e + 1) ne, m e')
  total : a.Ntot = ∑ e' ∈ range ne, ∫ r in (bval.getD e' 0)..(bval.getD (e' + 1) 0), (rho N (pmat shells) φ e').eval r

theorem Setup.built (S : Setup f n ne zdl zfr zdr x0 bval o N first last φ rule shells) (ha : Atom.build ⟨o, x0, rule⟩ shells = .ok a) :
    ∃ B m, Built a ne x0 bval o N first last φ rule shells B m := by
  obtain ⟨a', B, m, h1, h2, h3, h4, h5, h6, h7, h8⟩ := build_eq S.basis φ S.pieces S.origin S.inner rule S.rule shells S.shells
  obtain rfl := Res.ok.inj (ha.symm.trans h1)
  exact ⟨B, m, h2, h3, fun e he => (h4 e he).1, fun e he => (h4 e he).2, h5, h6, h7, h8⟩

theorem radial_at (S : Setup f n ne zdl zfr zdr x0 bval o N first last φ rule shells) {B m} (hb : Built a ne x0 bval o N first last φ rule shells B m)
    (r : ℝ) (h0 : 0 < r) (h1 : r ≤ a.Rmax) : ∃ e x, locate a.db r = .ok (e, x) ∧ e < ne ∧ -1 ≤ x ∧ x ≤ 1 ∧ coord bval e x = r ∧
      bval.getD e 0 ≤ r ∧ r ≤ bval.getD (e + 1) 0 ∧ a.radialDensity r = .ok ((rho N (pmat shells) φ e).eval r) := by
  have hl := S.basis.len
  rw [hb.rmax] at h1
  obtain ⟨e, x, l1, l2, l3, l4, l5⟩ := locate_eq S.basis rule r (by rw [S.origin]; exact h0.le) h1
  have hlt := getD_lt S.basis.inc e (by omega)
  have hin : bval.getD e 0 ≤ r ∧ r ≤ bval.getD (e + 1) 0 := by
    rw [← l5]
    unfold coord
    constructor <;> nlinarith
  refine ⟨e, x, by rw [hb.db]; exact l1, l2, l3, l4, l5, hin.1, hin.2, ?_⟩
  obtain ⟨v, q, v1, v2, v3⟩ := quad_eq S.basis φ S.pieces S.origin S.inner rule (pmat shells) e l2 (B e) (hb.block e l2) x l3
  unfold Atom.radialDensity
  rw [hb.db, if_neg (by rw [hb.rmax, not_or, not_le, not_lt]; exact ⟨h0, h1⟩), l1]
  simp only [Res.ok_bind, v1, hb.psub e l2, v2, Res.pure_eq]
  rw [l5] at v3
  rw [v3]

/-- the radial density as a function -/
theorem radial_spec (S : Setup f n ne zdl zfr zdr x0 bval o N first last φ rule shells) (ha : Atom.build ⟨o, x0, rule⟩ shells = .ok a) :
    ∃ ρ : ℝ → ℝ, (∀ r, a.radialDensity r = .ok (ρ r)) ∧ (∀ r, r ≤ 0 ∨ a.Rmax < r → ρ r = 0) ∧
      (∀ r, 0 < r → r ≤ a.Rmax → ∃ e < ne, bval.getD e 0 ≤ r ∧ r ≤ bval.getD (e + 1) 0 ∧ ρ r = (rho N (pmat shells) φ e).eval r) ∧
      (∀ e < ne, ∀ r, bval.getD e 0 < r → r < bval.getD (e + 1) 0 → ρ r = (rho N (pmat shells) φ e).eval r) := by
  obtain ⟨B, m, hb⟩ := S.built ha
  have hl := S.basis.len
  have ex : ∀ r, ∃ v, a.radialDensity r = .ok v ∧ (r ≤ 0 ∨ a.Rmax < r → v = 0) ∧
      (0 < r → r ≤ a.Rmax → ∃ e < ne, bval.getD e 0 ≤ r ∧ r ≤ bval.getD (e + 1) 0 ∧ v = (rho N (pmat shells) φ e).eval r) := by
    intro r
    by_cases hr : r ≤ 0 ∨ a.Rmax < r
    · refine ⟨0, by unfold Atom.radialDensity; rw [if_pos hr], fun _ => rfl, fun h1 h2 => ?_⟩
      rcases hr with hr | hr <;> linarith
    · rw [not_or, not_le, not_lt] at hr
      obtain ⟨e, x, g1, g2, g3, g4, g5, g6, g7, g8⟩ := radial_at S hb r hr.1 hr.2
      exact ⟨_, g8, fun h => by rcases h with h | h <;> linarith [hr.1, hr.2], fun _ _ => ⟨e, g2, g6, g7, rfl⟩⟩
  choose ρ h1 h2 h3 using ex
  refine ⟨ρ, h1, h2, h3, ?_⟩
  intro e he r hr1 hr2
  have p := coord_pos S.basis S.origin e he (-1) le_rfl
  have mono : ∀ j, e + 1 ≤ j → j ≤ ne → bval.getD (e + 1) 0 ≤ bval.getD j 0 := by
    intro j hj
    induction j, hj using Nat.le_induction with
    | base => intro _; exact le_rfl
    | succ j hj ih => intro hle; exact (ih (by omega)).trans (getD_lt S.basis.inc j (by omega)).le
  obtain ⟨e', g1, g2, g3, g4⟩ := h3 r (by linarith [p.2.1]) (by rw [hb.rmax]; exact hr2.le.trans (mono ne (by omega) le_rfl))
  rw [g4, elem_unique S.basis.inc e e' (by omega) (by omega) r hr1 hr2 g2 g3]

/-- C36: the atom is built, and its radial density is the occupation-weighted sum of the squared radial orbitals, zero outside the grid -/
theorem C36_radial_density (S : Setup f n ne zdl zfr zdr x0 bval o N first last φ rule shells) :
    ∃ a, Atom.build ⟨o, x0, rule⟩ shells = .ok a ∧ a.Rmax = bval.getD ne 0 ∧
      (∀ r, r ≤ 0 ∨ bval.getD ne 0 < r → a.radialDensity r = .ok 0) ∧
      ∀ e < ne, ∀ r, bval.getD e 0 < r → r < bval.getD (e + 1) 0 → a.radialDensity r = .ok (occupied N φ shells e r) := by
  obtain ⟨a, B, m, h1, h2, h3, _⟩ := build_eq S.basis φ S.pieces S.origin S.inner rule S.rule shells S.shells
  obtain ⟨ρ, r1, r2, r3, r4⟩ := radial_spec S h1
  refine ⟨a, h1, h3, fun r hr => by rw [r1, r2 r (by rw [h3]; exact hr)], fun e he r hr1 hr2 => by rw [r1, r4 e he r hr1 hr2, rho_occupied]⟩

theorem integrate (S : Setup f n ne zdl zfr zdr x0 bval o N first last φ rule shells) (ρ : ℝ → ℝ)
    (r4 : ∀ e < ne, ∀ r, bval.getD e 0 < r → r < bval.getD (e + 1) 0 → ρ r = (rho N (pmat shells) φ e).eval r) (e : Nat) (he : e < ne) (r : ℝ)
    (h1 : bval.getD e 0 ≤ r) (h2 : r ≤ bval.getD (e + 1) 0) :
    IntervalIntegrable ρ MeasureTheory.volume 0 r ∧ ∫ s in (0 : ℝ)..r, ρ s =
      ∑ e' ∈ range e, (∫ s in (bval.getD e' 0)..(bval.getD (e' + 1) 0), (rho N (pmat shells) φ e').eval s) + ∫ s in (bval.getD e 0)..r, (rho N (pmat shells) φ e).eval s := by
  have hl := S.basis.len
  have := piecewise_integral (fun e => bval.getD e 0) ne (fun e he => (getD_lt S.basis.inc e (by omega)).le) ρ (fun e r => (rho N (pmat shells) φ e).eval r)
    (fun e _ r s _ _ _ => (Polynomial.continuous _).intervalIntegrable _ _) r4 e he r h1 h2
  simp only [S.origin] at this
  exact this

/-- C36: the enclosed charge is the integral of the radial density from the nucleus, at every radius; it is 0 at the nucleus and the total at and beyond the outer radius -/
theorem C36_enclosed_charge (S : Setup f n ne zdl zfr zdr x0 bval o N first last φ rule shells) (ha : Atom.build ⟨o, x0, rule⟩ shells = .ok a) :
    ∃ ρ : ℝ → ℝ, (∀ r, a.radialDensity r = .ok (ρ r)) ∧ (∀ r, IntervalIntegrable ρ MeasureTheory.volume 0 r) ∧
      (∀ r, a.enclosedCharge r = .ok (∫ s in (0 : ℝ)..r, ρ s)) ∧
      (∀ r ≤ 0, a.enclosedCharge r = .ok 0) ∧ (∀ r, a.Rmax ≤ r → a.enclosedCharge r = .ok a.Ntot) := by
  obtain ⟨B, m, hb⟩ := S.built ha
  obtain ⟨ρ, r1, r2, r3, r4⟩ := radial_spec S ha
  have hl := S.basis.len
  have hn := S.basis.nelem
  have hlt := getD_lt S.basis.inc (ne - 1) (by omega)
  rw [show ne - 1 + 1 = ne by omega] at hlt
  have hpos : 0 < a.Rmax := by
    have := coord_pos S.basis S.origin (ne - 1) (by omega) (-1) le_rfl
    rw [hb.rmax]; linarith [this.2.1]
  have full := integrate S ρ r4 (ne - 1) (by omega) a.Rmax (by rw [hb.rmax]; exact hlt.le) (by rw [hb.rmax, show ne - 1 + 1 = ne by omega])
  have htot : ∫ s in (0 : ℝ)..a.Rmax, ρ s = a.Ntot := by
    rw [full.2, hb.total, hb.rmax]
    obtain ⟨k, rfl⟩ : ∃ k, ne = k + 1 := ⟨ne - 1, by omega⟩
    rw [sum_range_succ]
    rfl
  have zeroInt : ∀ (p q : ℝ) (hpq : ∀ s ∈ Set.uIoo p q, ρ s = 0), IntervalIntegrable ρ MeasureTheory.volume p q ∧ ∫ s in p..q, ρ s = 0 := by
    intro p q hpq
    have h0 : IntervalIntegrable (fun _ : ℝ => (0 : ℝ)) MeasureTheory.volume p q := intervalIntegrable_const
    exact ⟨h0.congr_uIoo (fun s hs => (hpq s hs).symm), by rw [intervalIntegral.integral_congr_uIoo (g := fun _ => (0 : ℝ)) hpq]; simp⟩
  have neg : ∀ r ≤ 0, IntervalIntegrable ρ MeasureTheory.volume 0 r ∧ ∫ s in (0 : ℝ)..r, ρ s = 0 := by
    intro r hr
    apply zeroInt
    intro s hs
    rw [Set.uIoo_of_ge hr] at hs
    exact r2 s (Or.inl hs.2.le)
  have out : ∀ r, a.Rmax ≤ r → IntervalIntegrable ρ MeasureTheory.volume 0 r ∧ ∫ s in (0 : ℝ)..r, ρ s = a.Ntot := by
    intro r hr
    have z := zeroInt a.Rmax r (fun s hs => by
      rw [Set.uIoo_of_le hr] at hs
      exact r2 s (Or.inr hs.1))
    refine ⟨full.1.trans z.1, ?_⟩
    rw [← intervalIntegral.integral_add_adjacent_intervals full.1 z.1, htot, z.2, add_zero]
  have cneg : ∀ r ≤ 0, a.enclosedCharge r = .ok 0 := by
    intro r hr
    unfold Atom.enclosedCharge
    rw [if_pos hr]
  have cout : ∀ r, a.Rmax ≤ r → a.enclosedCharge r = .ok a.Ntot := by
    intro r hr
    unfold Atom.enclosedCharge
    rw [if_neg (by linarith), if_pos hr]
  have mid : ∀ r, 0 < r → r < a.Rmax → IntervalIntegrable ρ MeasureTheory.volume 0 r ∧ a.enclosedCharge r = .ok (∫ s in (0 : ℝ)..r, ρ s) := by
    intro r h0 h1
    obtain ⟨e, x, g1, g2, g3, g4, g5, g6, g7, _⟩ := radial_at S hb r h0 h1.le
    have I := integrate S ρ r4 e g2 r g6 g7
    refine ⟨I.1, ?_⟩
    unfold Atom.enclosedCharge
    rw [if_neg (not_le.2 h0), if_neg (not_le.2 h1), g1]
    simp only [Res.ok_bind, hb.below e g2, hb.psub e g2, hb.db]
    rw [partial_charge S.basis φ S.pieces S.origin S.inner rule S.rule (pmat shells) e g2 (B e) (hb.block e g2) (-1) x le_rfl g3, coord_left, g5]
    simp only [Res.ok_bind, Res.pure_eq]
    rw [I.2]
  refine ⟨ρ, r1, ?_, ?_, cneg, cout⟩
  · intro r
    rcases le_or_gt r 0 with h | h
    · exact (neg r h).1
    · rcases lt_or_ge r a.Rmax with h' | h'
      · exact (mid r h h').1
      · exact (out r h').1
  · intro r
    rcases le_or_gt r 0 with h | h
    · rw [cneg r h, (neg r h).2]
    · rcases lt_or_ge r a.Rmax with h' | h'
      · exact (mid r h h').2
      · rw [cout r h', (out r h').2]

theorem occupied_nonneg (hocc : ∀ s ∈ shells, ∀ k < s.C.cols, 0 ≤ s.occ k) (e : Nat) (r : ℝ) : 0 ≤ occupied N φ shells e r := by
  unfold occupied
  apply List.sum_nonneg
  intro v hv
  obtain ⟨s, hs, rfl⟩ := List.mem_map.1 hv
  exact sum_nonneg fun k hk => mul_nonneg (hocc s hs k (mem_range.1 hk)) (sq_nonneg _)

/-- C36: with nonnegative occupations the enclosed charge never decreases and lies between 0 and the total -/
theorem C36_enclosed_charge_monotone (S : Setup f n ne zdl zfr zdr x0 bval o N first last φ rule shells) (ha : Atom.build ⟨o, x0, rule⟩ shells = .ok a)
    (hocc : ∀ s ∈ shells, ∀ k < s.C.cols, 0 ≤ s.occ k) :
    ∃ Q : ℝ → ℝ, (∀ r, a.enclosedCharge r = .ok (Q r)) ∧ Monotone Q ∧ ∀ r, 0 ≤ Q r ∧ Q r ≤ a.Ntot := by
  obtain ⟨ρ, r1, hi, hc, hz, ht⟩ := C36_enclosed_charge S ha
  obtain ⟨ρ', s1, s2, s3, s4⟩ := radial_spec S ha
  have hnn : ∀ s, 0 ≤ ρ s := by
    intro s
    have : ρ s = ρ' s := Res.ok.inj ((r1 s).symm.trans (s1 s))
    rw [this]
    by_cases h : s ≤ 0 ∨ a.Rmax < s
    · rw [s2 s h]
    · rw [not_or, not_le, not_lt] at h
      obtain ⟨e, _, _, _, g⟩ := s3 s h.1 h.2
      rw [g, rho_occupied]
      exact occupied_nonneg hocc e s
  have mono : Monotone fun r => ∫ s in (0 : ℝ)..r, ρ s := by
    intro p q hpq
    simp only
    have := intervalIntegral.integral_interval_sub_left (hi q) (hi p)
    have h2 : 0 ≤ ∫ s in p..q, ρ s := intervalIntegral.integral_nonneg hpq (fun s _ => hnn s)
    linarith
  refine ⟨_, hc, mono, fun r => ⟨?_, ?_⟩⟩
  · have e1 : ∫ s in (0 : ℝ)..(min r 0), ρ s = 0 := Res.ok.inj ((hc _).symm.trans (hz _ (min_le_right _ _)))
    have := mono (min_le_left r 0)
    simp only [e1] at this
    exact this
  · have e1 : ∫ s in (0 : ℝ)..(max r a.Rmax), ρ s = a.Ntot := Res.ok.inj ((hc _).symm.trans (ht _ (le_max_right _ _)))
    have := mono (le_max_left r a.Rmax)
    simp only [e1] at this
    exact this

/-- C36: records outside the table are refused -/
theorem C36_record_range (maxZ : Int) (db : Db) (table : Int → List Shell) (Z : Int) (h : Z < 1 ∨ maxZ < Z) :
    Atom.make maxZ db table Z = .throw .logicError := by
  unfold Atom.make
  rw [if_pos h]

/-- C36: with normalised orbitals the total charge is the number of electrons in the shells -/
theorem C36_total_charge (S : Setup f n ne zdl zfr zdr x0 bval o N first last φ rule shells) (ha : Atom.build ⟨o, x0, rule⟩ shells = .ok a)
    (hnorm : ∀ s ∈ shells, ∀ k < s.C.cols, ∑ e ∈ range ne, (∫ r in (bval.getD e 0)..(bval.getD (e + 1) 0), (orbital N φ s k e).eval r ^ 2) = 1) :
    a.Ntot = (shells.map fun s => ∑ k ∈ range s.C.cols, s.occ k).sum := by
  obtain ⟨B, m, hb⟩ := S.built ha
  rw [hb.total]
  have e1 : ∀ e, ∫ r in (bval.getD e 0)..(bval.getD (e + 1) 0), (rho N (pmat shells) φ e).eval r =
      (shells.map fun s => ∑ k ∈ range s.C.cols, s.occ k * ∫ r in (bval.getD e 0)..(bval.getD (e + 1) 0), (orbital N φ s k e).eval r ^ 2).sum := by
    intro e
    simp only [rho_occupied]
    clear hnorm hb ha S
    induction shells with
    | nil => simp [occupied]
    | cons s t ih =>
      have : ∀ r, occupied N φ (s :: t) e r = ∑ k ∈ range s.C.cols, s.occ k * (orbital N φ s k e).eval r ^ 2 + occupied N φ t e r := fun r => by
        unfold occupied; rw [List.map_cons, List.sum_cons]
      simp only [this]
      have ic : IntervalIntegrable (fun r => occupied N φ t e r) MeasureTheory.volume (bval.getD e 0) (bval.getD (e + 1) 0) := by
        simp only [← rho_occupied]
        exact (Polynomial.continuous _).intervalIntegrable _ _
      have is : ∀ k, IntervalIntegrable (fun r => s.occ k * (orbital N φ s k e).eval r ^ 2) MeasureTheory.volume (bval.getD e 0) (bval.getD (e + 1) 0) := fun k => by
        apply Continuous.intervalIntegrable
        fun_prop
      rw [intervalIntegral.integral_add _ ic, ih, List.map_cons, List.sum_cons, intervalIntegral.integral_finsetSum (fun k _ => is k)]
      · congr 1
        apply sum_congr rfl
        intro k _
        rw [intervalIntegral.integral_const_mul]
      · apply Continuous.intervalIntegrable
        fun_prop
  simp only [e1]
  clear e1 hb ha S
  induction shells with
  | nil => simp
  | cons s t ih =>
    simp only [List.map_cons, List.sum_cons, sum_add_distrib]
    rw [ih (fun s hs => hnorm s (List.mem_cons_of_mem _ hs)), sum_comm]
    congr 1
    apply sum_congr rfl
    intro k hk
    rw [← mul_sum, hnorm s (List.mem_cons_self ..) k (mem_range.1 hk), mul_one]

/-! ### Screening -/

/-- the sum formed for the outer moment, outside the first element -/
theorem moment_sum (S : Setup f n ne zdl zfr zdr x0 bval o N first last φ rule shells) (e : Nat) (he : e < ne) (hz : e ≠ 0) (B : Mat ℝ)
    (hB : IsBlock (pmat shells) (first e) (last e + 1 - first e) B) (xa : ℝ) (ha : -1 ≤ xa) (hab : xa ≤ 1) :
    partialIntegral ⟨o, x0, rule⟩ B e xa 1 true = .ok ((rule.map fun q => q.2 * ((bval.getD (e + 1) 0 - bval.getD e 0) / 2) * ((1 - xa) / 2) *
      ((rho N (pmat shells) φ e).eval (coord bval e ((1 - xa) / 2 * q.1 + (1 + xa) / 2)) / coord bval e ((1 - xa) / 2 * q.1 + (1 + xa) / 2))).sum) := by
  have hl := S.basis.len
  unfold partialIntegral
  simp only
  by_cases hh : 1 / 2 * (1 - xa) ≤ 0
  · have : xa = 1 := le_antisymm hab (by linarith)
    rw [if_pos hh, this]
    simp
  · rw [if_neg hh]
    have e1 : ∀ t, 1 / 2 * (xa + 1) + 1 / 2 * (1 - xa) * t = (1 - xa) / 2 * t + (1 + xa) / 2 := fun t => by ring
    rw [Res.mapM_ok _ (fun q : ℝ × ℝ => (rho N (pmat shells) φ e).eval (coord bval e ((1 - xa) / 2 * q.1 + (1 + xa) / 2)) / coord bval e ((1 - xa) / 2 * q.1 + (1 + xa) / 2))
      rule (fun q hq => by
        have hge := node_ge xa 1 q.1 ha hab (S.rule.nodes q hq).1
        obtain ⟨v, v1, v2⟩ := (integrandAt_eq S.basis φ S.pieces S.origin S.inner rule (pmat shells) e he B hB _ hge).2
        have p := coord_pos S.basis S.origin e he _ hge
        have := p.2.2 hz
        rw [v1, ← e1, ← v2, mul_div_cancel_left₀ _ (by linarith : coord bval e (1 / 2 * (xa + 1) + 1 / 2 * (1 - xa) * q.1) ≠ 0)])]
    rw [S.basis.shape.2, elementLength_eq bval e (by omega)]
    simp only [Res.ok_bind, Res.pure_eq, Res.ok.injEq]
    rw [zipWith_map, ← List.sum_map_mul_left]
    congr 1
    apply List.map_congr_left
    intro q _
    ring

/-- truncated geometric series for `1/r` around `c` -/
noncomputable def geom (c : ℝ) (D : Nat) : ℝ[X] := ∑ k ∈ range (D + 1), C (1 / c) * (1 - C (1 / c) * X) ^ k

theorem geom_deg (c : ℝ) (D : Nat) : (geom c D).natDegree ≤ D := by
  unfold geom
  apply natDegree_sum_le_of_forall_le
  intro k hk
  rw [mem_range] at hk
  refine (natDegree_C_mul_le _ _).trans (natDegree_pow_le.trans ?_)
  have : (1 - C (1 / c) * X : ℝ[X]).natDegree ≤ 1 := by
    refine (natDegree_sub_le _ _).trans ?_
    simp only [natDegree_one]
    exact max_le (by omega) ((natDegree_C_mul_le _ _).trans natDegree_X_le)
  calc k * (1 - C (1 / c) * X : ℝ[X]).natDegree ≤ k * 1 := Nat.mul_le_mul le_rfl this
    _ ≤ D := by omega

theorem geom_eval (c : ℝ) (D : Nat) (r : ℝ) : r * (geom c D).eval r = 1 - (1 - 1 / c * r) ^ (D + 1) := by
  unfold geom
  rw [← mul_neg_geom_sum, eval_finsetSum, mul_sum, mul_sum]
  apply sum_congr rfl
  intro k _
  simp only [eval_mul, eval_C, eval_pow, eval_sub, eval_one, eval_X]
  ring

/-- error of the outer moment of element `e`: the pole of `1/r` lies outside the element -/
noncomputable def momentError (bval : List ℝ) (N : Nat) (φ : Nat → Nat → ℝ[X]) (shells : List Shell) (D e : Nat) : ℝ :=
  2 * (bval.getD (e + 1) 0 - bval.getD e 0) *
    (|(rho N (pmat shells) φ e).eval 0| * ((bval.getD (e + 1) 0 - bval.getD e 0) / (bval.getD (e + 1) 0 + bval.getD e 0)) ^ (D + 1) / bval.getD e 0)

theorem sum_abs_le (rule : List (ℝ × ℝ)) (g : ℝ × ℝ → ℝ) (η s : ℝ) (hs : 0 ≤ s) (hw : ∀ q ∈ rule, 0 ≤ q.2) (hg : ∀ q ∈ rule, |g q| ≤ η) :
    |(rule.map fun q => q.2 * s * g q).sum| ≤ (rule.map fun q => q.2).sum * s * η := by
  induction rule with
  | nil => simp
  | cons q t ih =>
    simp only [List.map_cons, List.sum_cons]
    have a := ih (fun p hp => hw p (List.mem_cons_of_mem _ hp)) (fun p hp => hg p (List.mem_cons_of_mem _ hp))
    have b := hg q (List.mem_cons_self ..)
    have c := mul_nonneg (hw q (List.mem_cons_self ..)) hs
    have d : |q.2 * s * g q| ≤ q.2 * s * η := by rw [abs_mul, abs_of_nonneg c]; exact mul_le_mul_of_nonneg_left b c
    calc _ ≤ |q.2 * s * g q| + |(t.map fun q => q.2 * s * g q).sum| := abs_add_le _ _
      _ ≤ _ := by linarith [add_le_add d a]

theorem moment_error (S : Setup f n ne zdl zfr zdr x0 bval o N first last φ rule shells) (D : Nat) (hD : ExactTo rule D)
    (hdeg : 2 * ((PolyBasis.mk' f n).noverlap * n - 1) ≤ D) (hw : ∀ q ∈ rule, 0 ≤ q.2) (e : Nat) (he : e < ne) (hz : e ≠ 0) (B : Mat ℝ)
    (hB : IsBlock (pmat shells) (first e) (last e + 1 - first e) B) (xa : ℝ) (ha : -1 ≤ xa) (hab : xa ≤ 1) :
    ∃ m, partialIntegral ⟨o, x0, rule⟩ B e xa 1 true = .ok m ∧
      |m - ∫ r in (coord bval e xa)..(coord bval e 1), (rho N (pmat shells) φ e).eval r / r| ≤ momentError bval N φ shells D e := by
  have hl := S.basis.len
  refine ⟨_, moment_sum S e he hz B hB xa ha hab, ?_⟩
  have hlt := getD_lt S.basis.inc e (by omega)
  have hpos := (coord_pos S.basis S.origin e he (-1) le_rfl).2.2 hz
  obtain ⟨u, hu⟩ : ∃ u, u = bval.getD e 0 := ⟨_, rfl⟩
  obtain ⟨v, hv⟩ : ∃ v, v = bval.getD (e + 1) 0 := ⟨_, rfl⟩
  unfold momentError
  have hcoord : ∀ x, coord bval e x = 1 / 2 * (u + v) + (v - u) / 2 * x := fun x => by rw [hu, hv]; rfl
  have hcu : ∀ x, -1 ≤ x → u ≤ coord bval e x := fun x hx => by rw [hu]; exact (coord_pos S.basis S.origin e he x hx).1
  rw [← hu, ← hv] at hlt ⊢
  rw [← hu] at hpos
  obtain ⟨p, hp⟩ : ∃ p, p = rho N (pmat shells) φ e := ⟨_, rfl⟩
  have hpd : p.natDegree ≤ D := by rw [hp]; exact (rho_deg S.basis φ S.pieces _ e he).trans hdeg
  rw [← hp]
  obtain ⟨c, hc⟩ : ∃ c, c = (u + v) / 2 := ⟨_, rfl⟩
  obtain ⟨G, hG⟩ : ∃ G : ℝ[X], G = p.divX + C (p.eval 0) * geom c D := ⟨_, rfl⟩
  have hGd : G.natDegree ≤ D := by
    rw [hG]
    refine (natDegree_add_le _ _).trans (max_le ?_ ((natDegree_C_mul_le _ _).trans (geom_deg c D)))
    rw [natDegree_divX_eq_natDegree_tsub_one]
    omega
  have hsplit : ∀ r, 0 < r → p.eval r / r = G.eval r + p.eval 0 * (1 - 1 / c * r) ^ (D + 1) / r := by
    intro r hr
    have e1 : p.eval r = r * p.divX.eval r + p.eval 0 := by
      conv_lhs => rw [← divX_mul_X_add p]
      simp only [eval_add, eval_mul, eval_X, eval_C, coeff_zero_eq_eval_zero]
      ring
    rw [hG, eval_add, eval_mul, eval_C, div_eq_iff hr.ne']
    rw [add_mul, div_mul_cancel₀ _ hr.ne', e1]
    have := geom_eval c D r
    linear_combination (p.eval 0) * (-this)
  obtain ⟨η, hη⟩ : ∃ η, η = |p.eval 0| * ((v - u) / (v + u)) ^ (D + 1) / u := ⟨_, rfl⟩
  rw [← hη]
  have hrem : ∀ x, -1 ≤ x → x ≤ 1 → |p.eval 0 * (1 - 1 / c * coord bval e x) ^ (D + 1) / coord bval e x| ≤ η := by
    intro x hx hx'
    have h1 := hcu x hx
    have h2 : 0 < coord bval e x := by linarith
    rw [hη, abs_div, abs_mul, abs_pow, abs_of_pos h2]
    have h3 : |1 - 1 / c * coord bval e x| ≤ (v - u) / (v + u) := by
      rw [hcoord, hc, show 1 - 1 / ((u + v) / 2) * (1 / 2 * (u + v) + (v - u) / 2 * x) = - ((v - u) / (v + u)) * x by
        have n1 : u + v ≠ 0 := by linarith
        have n2 : v + u ≠ 0 := by linarith
        field_simp
        ring]
      rw [abs_mul, abs_neg, abs_of_pos (div_pos (by linarith) (by linarith))]
      have : |x| ≤ 1 := abs_le.2 ⟨hx, hx'⟩
      have h5 : 0 ≤ (v - u) / (v + u) := (div_pos (by linarith) (by linarith)).le
      nlinarith
    have h4 := pow_le_pow_left₀ (abs_nonneg _) h3 (D + 1)
    have h6 : |p.eval 0| * |1 - 1 / c * coord bval e x| ^ (D + 1) ≤ |p.eval 0| * ((v - u) / (v + u)) ^ (D + 1) := mul_le_mul_of_nonneg_left h4 (abs_nonneg _)
    exact div_le_div₀ (mul_nonneg (abs_nonneg _) (pow_nonneg (div_pos (by linarith) (by linarith)).le _)) h6 hpos h1
  have hη0 : 0 ≤ η := (abs_nonneg _).trans (hrem 0 (by norm_num) (by norm_num))
  -- the nodes
  have hnode : ∀ q ∈ rule, -1 ≤ (1 - xa) / 2 * q.1 + (1 + xa) / 2 ∧ (1 - xa) / 2 * q.1 + (1 + xa) / 2 ≤ 1 := by
    intro q hq
    obtain ⟨a1, a2⟩ := S.rule.nodes q hq
    constructor <;> nlinarith
  have hsum : (rule.map fun q => q.2).sum = 2 := by
    have := hD 1 (by simp)
    simp only [eval_one, mul_one, intervalIntegral.integral_const, smul_eq_mul] at this
    rw [this]
    norm_num
  have hexact := rule_range rule D hD G hGd (1 / 2 * (u + v)) ((v - u) / 2) xa 1
  have hsumsplit : (rule.map fun q => q.2 * ((v - u) / 2) * ((1 - xa) / 2) * (p.eval (coord bval e ((1 - xa) / 2 * q.1 + (1 + xa) / 2)) / coord bval e ((1 - xa) / 2 * q.1 + (1 + xa) / 2))).sum =
      (∫ r in (coord bval e xa)..(coord bval e 1), G.eval r) + (rule.map fun q => q.2 * ((v - u) / 2 * ((1 - xa) / 2)) * (p.eval 0 * (1 - 1 / c * coord bval e ((1 - xa) / 2 * q.1 + (1 + xa) / 2)) ^ (D + 1) / coord bval e ((1 - xa) / 2 * q.1 + (1 + xa) / 2))).sum := by
    rw [hcoord xa, hcoord 1, ← hexact, ← List.sum_map_add]
    congr 1
    apply List.map_congr_left
    intro q hq
    have h1 := hcu _ (hnode q hq).1
    rw [hsplit _ (by linarith), hcoord]
    ring
  have hle : coord bval e xa ≤ coord bval e 1 := by rw [hcoord, hcoord]; nlinarith
  have hint : ∫ r in (coord bval e xa)..(coord bval e 1), p.eval r / r =
      (∫ r in (coord bval e xa)..(coord bval e 1), G.eval r) + ∫ r in (coord bval e xa)..(coord bval e 1), p.eval 0 * (1 - 1 / c * r) ^ (D + 1) / r := by
    rw [← intervalIntegral.integral_add ((Polynomial.continuous _).intervalIntegrable _ _)]
    · apply intervalIntegral.integral_congr
      intro r hr
      rw [Set.uIcc_of_le hle] at hr
      exact hsplit r (by linarith [hcu xa ha, hr.1])
    · apply ContinuousOn.intervalIntegrable
      apply ContinuousOn.div
      · fun_prop
      · fun_prop
      · intro r hr
        rw [Set.uIcc_of_le hle] at hr
        linarith [hcu xa ha, hr.1]
  have hb1 : ‖∫ r in (coord bval e xa)..(coord bval e 1), p.eval 0 * (1 - 1 / c * r) ^ (D + 1) / r‖ ≤ η * |coord bval e 1 - coord bval e xa| := by
    apply intervalIntegral.norm_integral_le_of_norm_le_const
    intro r hr
    rw [Set.uIoc_of_le hle] at hr
    obtain ⟨x, hx⟩ := coord_surj S.basis e he r
    rw [← hx] at hr ⊢
    have hr1 := hr.1
    have hr2 := hr.2
    rw [hcoord xa, hcoord x] at hr1
    rw [hcoord 1, hcoord x] at hr2
    rw [Real.norm_eq_abs]
    apply hrem x
    · by_contra hcon; nlinarith
    · by_contra hcon; nlinarith
  have hb2 := sum_abs_le rule (fun q => p.eval 0 * (1 - 1 / c * coord bval e ((1 - xa) / 2 * q.1 + (1 + xa) / 2)) ^ (D + 1) / coord bval e ((1 - xa) / 2 * q.1 + (1 + xa) / 2))
    η ((v - u) / 2 * ((1 - xa) / 2)) (mul_nonneg (by linarith) (by linarith)) hw (fun q hq => hrem _ (hnode q hq).1 (hnode q hq).2)
  rw [hsum] at hb2
  rw [hsumsplit, hint, Real.norm_eq_abs] at *
  rw [abs_of_nonneg (by linarith : (0 : ℝ) ≤ coord bval e 1 - coord bval e xa)] at hb1
  have hlen : coord bval e 1 - coord bval e xa ≤ v - u := by rw [hcoord, hcoord]; nlinarith
  have t1 := mul_le_mul_of_nonneg_left hlen hη0
  have t2 : 2 * ((v - u) / 2 * ((1 - xa) / 2)) * η ≤ (v - u) * η := by
    apply mul_le_mul_of_nonneg_right _ hη0
    nlinarith
  rw [abs_le] at hb1 hb2 ⊢
  constructor <;> linarith [hb1.1, hb1.2, hb2.1, hb2.2]

theorem integrate_over (S : Setup f n ne zdl zfr zdr x0 bval o N first last φ rule shells) (ρ : ℝ → ℝ)
    (r4 : ∀ e < ne, ∀ r, bval.getD e 0 < r → r < bval.getD (e + 1) 0 → ρ r = (rho N (pmat shells) φ e).eval r) (e : Nat) (he : e < ne) (r : ℝ)
    (hr : 0 < r) (h1 : bval.getD e 0 ≤ r) (h2 : r ≤ bval.getD (e + 1) 0) :
    ∫ s in r..(bval.getD ne 0), ρ s / s = (∫ s in r..(bval.getD (e + 1) 0), (rho N (pmat shells) φ e).eval s / s) +
      ∑ e' ∈ Ico (e + 1) ne, (∫ s in (bval.getD e' 0)..(bval.getD (e' + 1) 0), (rho N (pmat shells) φ e').eval s / s) := by
  have hl := S.basis.len
  have sub : ∀ e < ne, ∀ p q, 0 < p → bval.getD e 0 ≤ p → p ≤ q → q ≤ bval.getD (e + 1) 0 →
      IntervalIntegrable (fun s => ρ s / s) MeasureTheory.volume p q ∧ ∫ s in p..q, ρ s / s = ∫ s in p..q, (rho N (pmat shells) φ e).eval s / s := by
    intro e he p q hp g1 g2 g3
    have hcong : Set.EqOn (fun s => ρ s / s) (fun s => (rho N (pmat shells) φ e).eval s / s) (Set.uIoo p q) := by
      intro t ht
      rw [Set.uIoo_of_le g2] at ht
      simp only
      rw [r4 e he t (by linarith [ht.1]) (by linarith [ht.2])]
    have hi : IntervalIntegrable (fun s => (rho N (pmat shells) φ e).eval s / s) MeasureTheory.volume p q := by
      apply ContinuousOn.intervalIntegrable
      apply ContinuousOn.div
      · exact (Polynomial.continuous _).continuousOn
      · fun_prop
      · intro s hs
        rw [Set.uIcc_of_le g2] at hs
        linarith [hs.1]
    exact ⟨hi.congr_uIoo (fun t ht => (hcong ht).symm), intervalIntegral.integral_congr_uIoo hcong⟩
  have tail : ∀ k, e + 1 + k ≤ ne → IntervalIntegrable (fun s => ρ s / s) MeasureTheory.volume r (bval.getD (e + 1 + k) 0) ∧
      ∫ s in r..(bval.getD (e + 1 + k) 0), ρ s / s = (∫ s in r..(bval.getD (e + 1) 0), (rho N (pmat shells) φ e).eval s / s) +
      ∑ e' ∈ Ico (e + 1) (e + 1 + k), (∫ s in (bval.getD e' 0)..(bval.getD (e' + 1) 0), (rho N (pmat shells) φ e').eval s / s) := by
    intro k
    induction k with
    | zero =>
      intro _
      obtain ⟨a, b⟩ := sub e he r _ hr h1 h2 le_rfl
      exact ⟨a, by rw [add_zero, b]; simp⟩
    | succ k ih =>
      intro hk
      obtain ⟨a, b⟩ := ih (by omega)
      have hlt := getD_lt S.basis.inc (e + 1 + k) (by omega)
      have p := (coord_pos S.basis S.origin (e + 1 + k) (by omega) (-1) le_rfl).2.2 (by omega)
      obtain ⟨a', b'⟩ := sub (e + 1 + k) (by omega) _ _ p le_rfl hlt.le le_rfl
      refine ⟨a.trans a', ?_⟩
      rw [← add_assoc, ← intervalIntegral.integral_add_adjacent_intervals a a', b, b', sum_Ico_succ_top (by omega), add_assoc]
  have := (tail (ne - (e + 1)) (by omega)).2
  rwa [show e + 1 + (ne - (e + 1)) = ne by omega] at this

/-- C36: the Hartree screening is the charge inside plus `r` times the outer moment of the charge. The inner part is exact; the outer moment of the innermost element is exact and the moment of each later element is off by at most `momentError`, which decreases geometrically with the exactness degree of the rule. Outside the grid it is the total charge. -/
theorem C36_hartree_screening (S : Setup f n ne zdl zfr zdr x0 bval o N first last φ rule shells) (ha : Atom.build ⟨o, x0, rule⟩ shells = .ok a)
    (D : Nat) (hD : ExactTo rule D) (hdeg : 2 * ((PolyBasis.mk' f n).noverlap * n - 1) ≤ D) (hw : ∀ q ∈ rule, 0 ≤ q.2) :
    ∃ ρ : ℝ → ℝ, (∀ r, a.radialDensity r = .ok (ρ r)) ∧ (∀ r ≤ 0, a.hartreeScreening r = .ok 0) ∧
      (∀ r, a.Rmax ≤ r → a.hartreeScreening r = .ok (∫ s in (0 : ℝ)..r, ρ s)) ∧
      ∀ r, 0 < r → r < a.Rmax → ∃ V, a.hartreeScreening r = .ok V ∧
        |V - ((∫ s in (0 : ℝ)..r, ρ s) + r * ∫ s in r..a.Rmax, ρ s / s)| ≤ r * ∑ e ∈ Ico 1 ne, momentError bval N φ shells D e := by
  obtain ⟨B, m, hb⟩ := S.built ha
  obtain ⟨ρ, r1, r2, r3, r4⟩ := radial_spec S ha
  obtain ⟨ρ', s1, _, s2, _, s4⟩ := C36_enclosed_charge S ha
  obtain rfl : ρ' = ρ := funext fun r => Res.ok.inj ((s1 r).symm.trans (r1 r))
  have hl := S.basis.len
  have hn := S.basis.nelem
  have hRpos : 0 < a.Rmax := by
    have := (coord_pos S.basis S.origin (ne - 1) (by omega) (-1) le_rfl).2.1
    have h2 := getD_lt S.basis.inc (ne - 1) (by omega)
    rw [show ne - 1 + 1 = ne by omega] at h2
    rw [hb.rmax]; linarith
  refine ⟨ρ', r1, fun r hr => by unfold Atom.hartreeScreening; rw [if_pos hr], fun r hr => ?_, ?_⟩
  · rw [← s2 r, s4 r hr]
    unfold Atom.hartreeScreening
    rw [if_neg (by linarith), if_pos hr]
  · intro r h0 h1
    obtain ⟨e, x, g1, g2, g3, g4, g5, g6, g7, _⟩ := radial_at S hb r h0 h1.le
    have I := integrate S ρ' r4 e g2 r g6 g7
    have J := integrate_over S ρ' r4 e g2 r h0 g6 g7
    have merr : ∀ e, 0 < e → e < ne → 0 ≤ momentError bval N φ shells D e := by
      intro e he he'
      obtain ⟨_, _, h⟩ := moment_error S D hD hdeg hw e he' (by omega) (B e) (hb.block e he') (-1) le_rfl (by norm_num)
      exact (abs_nonneg _).trans h
    have hlast : ∃ t, partialIntegral ⟨o, x0, rule⟩ (B e) e x 1 true = .ok t ∧
        |t - ∫ s in r..(bval.getD (e + 1) 0), (rho N (pmat shells) φ e).eval s / s| ≤ if e = 0 then 0 else momentError bval N φ shells D e := by
      by_cases hz : e = 0
      · rw [if_pos hz]
        obtain ⟨t, t1, t2⟩ := partial_moment S.basis φ S.pieces S.origin S.inner rule S.rule (pmat shells) e g2 (B e) (hb.block e g2) x 1 g3 g4
        refine ⟨t, t1, ?_⟩
        rw [t2 hz, g5, coord_right, sub_self, abs_zero]
      · rw [if_neg hz]
        obtain ⟨t, t1, t2⟩ := moment_error S D hD hdeg hw e g2 hz (B e) (hb.block e g2) x g3 g4
        rw [g5, coord_right] at t2
        exact ⟨t, t1, t2⟩
    obtain ⟨t, t1, t2⟩ := hlast
    have hout : |∑ e' ∈ Ico (e + 1) ne, m e' - ∑ e' ∈ Ico (e + 1) ne, (∫ s in (bval.getD e' 0)..(bval.getD (e' + 1) 0), (rho N (pmat shells) φ e').eval s / s)| ≤
        ∑ e' ∈ Ico (e + 1) ne, momentError bval N φ shells D e' := by
      rw [← sum_sub_distrib]
      refine (abs_sum_le_sum_abs _ _).trans (sum_le_sum fun e' he' => ?_)
      rw [mem_Ico] at he'
      obtain ⟨m', m1, m2⟩ := moment_error S D hD hdeg hw e' he'.2 (by omega) (B e') (hb.block e' he'.2) (-1) le_rfl (by norm_num)
      rw [coord_left, coord_right] at m2
      rwa [Res.ok.inj ((hb.moment e' he'.2).symm.trans m1)]
    refine ⟨(∫ s in (0 : ℝ)..r, ρ' s) + r * (∑ e' ∈ Ico (e + 1) ne, m e' + t), ?_, ?_⟩
    · unfold Atom.hartreeScreening
      rw [if_neg (not_le.2 h0), if_neg (not_le.2 h1), g1]
      simp only [Res.ok_bind, hb.below e g2, hb.psub e g2, hb.above e g2, hb.db, t1]
      rw [partial_charge S.basis φ S.pieces S.origin S.inner rule S.rule (pmat shells) e g2 (B e) (hb.block e g2) (-1) x le_rfl g3, coord_left, g5]
      simp only [Res.ok_bind, Res.pure_eq]
      rw [I.2]
    · rw [hb.rmax, J]
      obtain ⟨A, hA⟩ : ∃ A, A = ∫ s in r..(bval.getD (e + 1) 0), (rho N (pmat shells) φ e).eval s / s := ⟨_, rfl⟩
      obtain ⟨A', hA'⟩ : ∃ A', A' = ∑ e' ∈ Ico (e + 1) ne, (∫ s in (bval.getD e' 0)..(bval.getD (e' + 1) 0), (rho N (pmat shells) φ e').eval s / s) := ⟨_, rfl⟩
      rw [← hA] at t2 ⊢
      rw [← hA'] at hout ⊢
      rw [show (∫ s in (0 : ℝ)..r, ρ' s) + r * (∑ e' ∈ Ico (e + 1) ne, m e' + t) - ((∫ s in (0 : ℝ)..r, ρ' s) + r * (A + A')) =
        r * ((t - A) + (∑ e' ∈ Ico (e + 1) ne, m e' - A')) by ring, abs_mul, abs_of_pos h0]
      apply mul_le_mul_of_nonneg_left _ h0.le
      refine (abs_add_le _ _).trans ((add_le_add t2 hout).trans ?_)
      by_cases hz : e = 0
      · rw [if_pos hz, hz]; simp
      · rw [if_neg hz, ← sum_Ico_consecutive _ (show 1 ≤ e + 1 by omega) (show e + 1 ≤ ne by omega), sum_Ico_succ_top (by omega)]
        have : 0 ≤ ∑ k ∈ Ico 1 e, momentError bval N φ shells D k := sum_nonneg fun k hk => by
          rw [mem_Ico] at hk; exact merr k (by omega) (by omega)
        linarith

/-! ### Pointwise densities -/

theorem getDf_eq (S : Setup f n ne zdl zfr zdr x0 bval o N first last φ rule shells) (hmax : 2 ≤ maxN f) (e : Nat) (he : e < ne) (x : ℝ) (hx : -1 ≤ x)
    (hpos : 0 < coord bval e x) :
    ∃ b d l, getBf ⟨o, x0, rule⟩ x e = .ok b ∧ getDf ⟨o, x0, rule⟩ x e = .ok d ∧ getLf ⟨o, x0, rule⟩ x e = .ok l ∧
      b.length = last e + 1 - first e ∧ d.length = last e + 1 - first e ∧ l.length = last e + 1 - first e ∧
      ∀ i < last e + 1 - first e,
        coord bval e x * b.getD i 0 = (φ e (first e + i)).eval (coord bval e x) ∧
        b.getD i 0 + coord bval e x * d.getD i 0 = (derivative (φ e (first e + i))).eval (coord bval e x) ∧
        2 * d.getD i 0 + coord bval e x * l.getD i 0 = (derivative (derivative (φ e (first e + i)))).eval (coord bval e x) := by
  have hl := S.basis.len
  by_cases hz : e = 0
  · subst hz
    obtain ⟨R, r1, r2⟩ := rowOver S.basis φ S.pieces S.origin S.inner
    obtain ⟨b, b1, b2, b3⟩ := r2 x 0 (by omega)
    obtain ⟨d, d1, d2, d3⟩ := r2 x 1 (by omega)
    obtain ⟨l, l1, l2, l3⟩ := r2 x 2 (by omega)
    refine ⟨b, d, l, by unfold getBf; rw [if_pos rfl]; exact b1, by unfold getDf; rw [if_pos rfl]; exact d1, by unfold getLf; rw [if_pos rfl]; exact l1, b2, d2, l2, ?_⟩
    intro i hi
    rw [b3 i hi, d3 i hi, l3 i hi, r1 i hi]
    simp only [Function.iterate_zero, id, Function.iterate_one, Function.iterate_succ, Function.comp, derivative_mul, derivative_X, one_mul, derivative_add, eval_add, eval_mul, eval_X]
    refine ⟨trivial, trivial, by ring⟩
  · obtain ⟨u, u1, u2, u3⟩ := row S.basis φ S.pieces e he 0 (Nat.zero_le _) x
    obtain ⟨v, v1, v2, v3⟩ := row S.basis φ S.pieces e he 1 (by omega) x
    obtain ⟨w, w1, w2, w3⟩ := row S.basis φ S.pieces e he 2 (by omega) x
    have hr : coord bval e x ≠ 0 := hpos.ne'
    obtain ⟨r, hrr⟩ : ∃ r, r = coord bval e x := ⟨_, rfl⟩
    have hc := evalCoord_one bval e (by omega) x
    have u1' : feEvalDnf o.shape o.bval x0 x 0 e = .ok u := u1
    have v1' : feEvalDnf o.shape o.bval x0 x 1 e = .ok v := v1
    have w1' : feEvalDnf o.shape o.bval x0 x 2 e = .ok w := w1
    refine ⟨u.map (· / coord bval e x), List.zipWith (fun f d => (-f * (1 / coord bval e x) + d) * (1 / coord bval e x)) u v,
      List.zipWith (fun (fd : ℝ × ℝ) l => ((2 * fd.1 * (1 / coord bval e x) - 2 * fd.2) * (1 / coord bval e x) + l) * (1 / coord bval e x)) (u.zip v) w, ?_, ?_, ?_, by simpa using u2, by simp [u2, v2], by simp [u2, v2, w2], ?_⟩
    · unfold getBf
      rw [if_neg hz]
      simp only
      rw [u1', S.basis.shape.2, hc]
      rfl
    · unfold getDf
      rw [if_neg hz]
      simp only
      rw [u1', v1', S.basis.shape.2, hc]
      rfl
    · unfold getLf
      rw [if_neg hz]
      simp only
      rw [u1', v1', w1', S.basis.shape.2, hc]
      rfl
    · intro i hi
      have a1 : i < u.length := by omega
      have a2 : i < v.length := by omega
      have a3 : i < w.length := by omega
      have U := u3 i
      have V := v3 i
      have W := w3 i
      rw [← hrr] at U V W hr ⊢
      simp only [List.getD_eq_getElem?_getD, List.getElem?_eq_getElem a1, List.getElem?_eq_getElem a2, List.getElem?_eq_getElem a3, Option.getD_some,
        Function.iterate_zero, id, Function.iterate_one, Function.iterate_succ, Function.comp] at U V W
      simp only [List.getD_eq_getElem?_getD, List.getElem?_map, List.getElem?_zipWith, List.getElem?_eq_getElem a1, List.getElem?_eq_getElem a2, List.getElem?_eq_getElem a3,
        Option.map_some, Option.getD_some, List.zip, List.getElem?_zipWith]
      rw [← U, ← V, ← W]
      refine ⟨by field_simp, by field_simp; ring, by field_simp; ring⟩

/-- sum over the element's functions -/
theorem rho_eval (S : Setup f n ne zdl zfr zdr x0 bval o N first last φ rule shells) (e : Nat) (he : e < ne) (r : ℝ) :
    let c := last e + 1 - first e
    let P := fun i j => pmat shells (first e + i) (first e + j)
    let v := fun i => (φ e (first e + i)).eval r
    let v' := fun i => (derivative (φ e (first e + i))).eval r
    let v'' := fun i => (derivative (derivative (φ e (first e + i)))).eval r
    (rho N (pmat shells) φ e).eval r = ∑ i ∈ range c, ∑ j ∈ range c, P i j * v i * v j ∧
    (derivative (rho N (pmat shells) φ e)).eval r = 2 * ∑ i ∈ range c, ∑ j ∈ range c, P i j * v i * v' j ∧
    (derivative (derivative (rho N (pmat shells) φ e))).eval r = 2 * ∑ i ∈ range c, ∑ j ∈ range c, P i j * (v' i * v' j + v i * v'' j) := by
  intro c P v v' v''
  have swap : ∀ F : Nat → Nat → ℝ, ∑ i ∈ range c, ∑ j ∈ range c, P i j * F i j = ∑ i ∈ range c, ∑ j ∈ range c, P i j * F j i := by
    intro F
    rw [sum_comm]
    refine sum_congr rfl fun i _ => sum_congr rfl fun j _ => ?_
    rw [show P j i = P i j from pmat_symm shells _ _]
  rw [rho_window S.basis φ S.pieces (pmat shells) e he]
  refine ⟨?_, ?_, ?_⟩
  · simp only [eval_finsetSum, eval_mul, eval_C]
    refine sum_congr rfl fun i _ => sum_congr rfl fun j _ => ?_
    simp only [P, v]; ring
  · simp only [derivative_sum, derivative_mul, derivative_C, zero_mul, zero_add, eval_finsetSum, eval_mul, eval_C, eval_add]
    have := swap fun i j => v' i * v j
    have e1 : ∑ i ∈ range c, ∑ j ∈ range c, P i j * v i * v' j = ∑ i ∈ range c, ∑ j ∈ range c, P i j * (v' j * v i) :=
      sum_congr rfl fun i _ => sum_congr rfl fun j _ => by ring
    rw [two_mul, e1]
    nth_rw 1 [← this]
    simp only [← sum_add_distrib]
    refine sum_congr rfl fun i _ => sum_congr rfl fun j _ => ?_
    simp only [P, v, v']; ring
  · simp only [derivative_sum, derivative_mul, derivative_C, zero_mul, zero_add, derivative_add, eval_finsetSum, eval_mul, eval_C, eval_add]
    have := swap fun i j => v'' i * v j
    have e1 : ∑ i ∈ range c, ∑ j ∈ range c, P i j * (v' i * v' j + v i * v'' j) = ∑ i ∈ range c, ∑ j ∈ range c, P i j * (v' i * v' j) + ∑ i ∈ range c, ∑ j ∈ range c, P i j * (v'' j * v i) := by
      simp only [← sum_add_distrib]
      exact sum_congr rfl fun i _ => sum_congr rfl fun j _ => by ring
    rw [two_mul, e1]
    nth_rw 1 [← this]
    simp only [← sum_add_distrib]
    refine sum_congr rfl fun i _ => sum_congr rfl fun j _ => ?_
    simp only [P, v, v', v'']; ring

/-- C57: inside the grid the density, its gradient and its Laplacian are the derivatives of one function: the radial density over 4πr². At element boundaries, where the second derivative of the density may jump, only the values of the density are covered. -/
theorem C57_density_derivatives_partial (S : Setup f n ne zdl zfr zdr x0 bval o N first last φ rule shells) (ha : Atom.build ⟨o, x0, rule⟩ shells = .ok a)
    (hmax : 2 ≤ maxN f) (pi : ℝ) (hpi : 0 < pi) :
    ∃ ρ ρ' ρ'' : ℝ → ℝ, (∀ r, a.density pi r = .ok (ρ r)) ∧
      (∀ r, 0 < r → a.radialDensity r = .ok (4 * pi * r ^ 2 * ρ r)) ∧
      (∀ r, r ≤ 0 ∨ a.Rmax < r → ρ r = 0 ∧ a.densityGradient pi r = .ok 0 ∧ a.densityLaplacian pi r = .ok 0) ∧
      ∀ e < ne, ∀ r, bval.getD e 0 < r → r < bval.getD (e + 1) 0 →
        HasDerivAt ρ (ρ' r) r ∧ HasDerivAt ρ' (ρ'' r) r ∧ a.densityGradient pi r = .ok (ρ' r) ∧ a.densityLaplacian pi r = .ok (ρ'' r + 2 * ρ' r / r) := by
  obtain ⟨B, m, hb⟩ := S.built ha
  obtain ⟨σ, r1, r2, r3, r4⟩ := radial_spec S ha
  have hl := S.basis.len
  obtain ⟨E, hE⟩ : ∃ E : ℝ → Nat, ∀ e < ne, ∀ r, bval.getD e 0 < r → r < bval.getD (e + 1) 0 → E r = e := by
    classical
    refine ⟨fun r => if h : ∃ e, e < ne ∧ bval.getD e 0 < r ∧ r < bval.getD (e + 1) 0 then Classical.choose h else 0, ?_⟩
    intro e he r h1 h2
    have hex : ∃ e, e < ne ∧ bval.getD e 0 < r ∧ r < bval.getD (e + 1) 0 := ⟨e, he, h1, h2⟩
    simp only [dif_pos hex]
    obtain ⟨c1, c2, c3⟩ := Classical.choose_spec hex
    exact elem_unique S.basis.inc e _ (by omega) (by omega) r h1 h2 c2.le c3.le
  refine ⟨fun r => if 0 < r then σ r / (4 * pi * r * r) else 0,
    fun r => ((derivative (rho N (pmat shells) φ (E r))).eval r / r ^ 2 - 2 * (rho N (pmat shells) φ (E r)).eval r / r ^ 3) / (4 * pi),
    fun r => ((derivative (derivative (rho N (pmat shells) φ (E r)))).eval r / r ^ 2 - 4 * (derivative (rho N (pmat shells) φ (E r))).eval r / r ^ 3
      + 6 * (rho N (pmat shells) φ (E r)).eval r / r ^ 4) / (4 * pi), ?_, ?_, ?_, ?_⟩
  · intro r
    unfold Atom.density
    rw [r1]
    rfl
  · intro r hr
    rw [r1]
    simp only [if_pos hr]
    congr 1
    field_simp
  · intro r hr
    refine ⟨?_, by unfold Atom.densityGradient; rw [if_pos hr], by unfold Atom.densityLaplacian; rw [if_pos hr]⟩
    simp only [r2 r hr, zero_div, ite_self]
  · intro e he r h1 h2
    have hr0 : 0 < r := by linarith [(coord_pos S.basis S.origin e he (-1) le_rfl).2.1]
    have nb : ∀ᶠ s in nhds r, bval.getD e 0 < s ∧ s < bval.getD (e + 1) 0 := Ioo_mem_nhds h1 h2
    obtain ⟨p, hp⟩ : ∃ p, p = rho N (pmat shells) φ e := ⟨_, rfl⟩
    have hpow : ∀ k : Nat, HasDerivAt (fun s : ℝ => s ^ k) (k * r ^ (k - 1)) r := fun k => hasDerivAt_pow k r
    have H1 : HasDerivAt (fun s => p.eval s / s ^ 2 / (4 * pi)) (((derivative p).eval r / r ^ 2 - 2 * p.eval r / r ^ 3) / (4 * pi)) r := by
      have := ((p.hasDerivAt r).div (hpow 2) (by positivity)).div_const (4 * pi)
      refine HasDerivAt.congr_deriv (f := fun s => p.eval s / s ^ 2 / (4 * pi)) this ?_
      congr 1
      field_simp
      norm_num
      ring
    have H2 : HasDerivAt (fun s => ((derivative p).eval s / s ^ 2 - 2 * p.eval s / s ^ 3) / (4 * pi))
        (((derivative (derivative p)).eval r / r ^ 2 - 4 * (derivative p).eval r / r ^ 3 + 6 * p.eval r / r ^ 4) / (4 * pi)) r := by
      have := ((((derivative p).hasDerivAt r).div (hpow 2) (by positivity)).sub (((p.hasDerivAt r).const_mul 2).div (hpow 3) (by positivity))).div_const (4 * pi)
      refine HasDerivAt.congr_deriv (f := fun s => ((derivative p).eval s / s ^ 2 - 2 * p.eval s / s ^ 3) / (4 * pi)) this ?_
      congr 1
      field_simp
      norm_num
      ring
    simp only [hE e he r h1 h2, ← hp]
    have hRmax : r ≤ a.Rmax := by
      by_contra hcon
      have := r2 r (Or.inr (not_le.1 hcon))
      have mono : ∀ j, e + 1 ≤ j → j ≤ ne → bval.getD (e + 1) 0 ≤ bval.getD j 0 := by
        intro j hj
        induction j, hj using Nat.le_induction with
        | base => intro _; exact le_rfl
        | succ j hj ih => intro hle; exact (ih (by omega)).trans (getD_lt S.basis.inc j (by omega)).le
      have := mono ne (by omega) le_rfl
      rw [hb.rmax] at hcon
      linarith
    obtain ⟨e', x, g1, g2, g3, g4, g5, g6, g7, _⟩ := radial_at S hb r hr0 hRmax
    obtain rfl := elem_unique S.basis.inc e e' (by omega) (by omega) r h1 h2 g6 g7
    obtain ⟨b, d, l, q1, q2, q3, q4, q5, q6, q7⟩ := getDf_eq S hmax e' he x g3 (by rw [g5]; exact hr0)
    rw [g5] at q7
    have hB := hb.block e' he
    obtain ⟨R1, R2, R3⟩ := rho_eval S e' he r
    rw [← hp] at R1 R2 R3
    have guard : ¬ (r ≤ 0 ∨ a.Rmax < r) := by rw [not_or, not_le, not_lt]; exact ⟨hr0, hRmax⟩
    have hrn : r ≠ 0 := hr0.ne'
    have sums : ∀ (F G : Nat → Nat → ℝ), (∀ i < last e' + 1 - first e', ∀ j < last e' + 1 - first e', F i j = G i j) →
        ∑ i ∈ range (last e' + 1 - first e'), ∑ j ∈ range (last e' + 1 - first e'), F i j = ∑ i ∈ range (last e' + 1 - first e'), ∑ j ∈ range (last e' + 1 - first e'), G i j :=
      fun F G h => sum_congr rfl fun i hi => sum_congr rfl fun j hj => h i (mem_range.1 hi) j (mem_range.1 hj)
    have cbd : contract b (B e') d = .ok (((derivative p).eval r / r ^ 2 - 2 * p.eval r / r ^ 3) / 2) := by
      rw [contract_eq b d _ (B e') ⟨hB.1, hB.2.1⟩ q4 q5, R1, R2]
      congr 1
      rw [eq_div_iff two_ne_zero, eq_sub_iff_add_eq, mul_div_assoc, mul_div_assoc, sum_div, sum_div, sum_mul]
      simp only [sum_div, sum_mul, mul_sum, ← sum_add_distrib]
      refine sums _ _ fun i hi j hj => ?_
      obtain ⟨bi, di, _⟩ := q7 i hi
      obtain ⟨bj, dj, _⟩ := q7 j hj
      rw [hB.2.2 i hi j hj, ← bi, ← bj, ← dj]
      field_simp
      ring
    have csum : ∃ y z, contract d (B e') d = .ok y ∧ contract b (B e') l = .ok z ∧
        2 * (y + z) = (derivative (derivative p)).eval r / r ^ 2 - 4 * (derivative p).eval r / r ^ 3 + 6 * p.eval r / r ^ 4 := by
      refine ⟨_, _, contract_eq d d _ (B e') ⟨hB.1, hB.2.1⟩ q5 q5, contract_eq b l _ (B e') ⟨hB.1, hB.2.1⟩ q4 q6, ?_⟩
      rw [R1, R2, R3]
      have e2 : ∀ A1 A2 A3 : ℝ, 2 * A1 / r ^ 2 - 4 * (2 * A2) / r ^ 3 + 6 * A3 / r ^ 4 = A1 * (2 / r ^ 2) + A2 * (-8 / r ^ 3) + A3 * (6 / r ^ 4) := by intros; ring
      have hsym : ∑ i ∈ range (last e' + 1 - first e'), ∑ j ∈ range (last e' + 1 - first e'), 2 / r * (d.getD i 0 * (B e').get i j * b.getD j 0) =
          ∑ i ∈ range (last e' + 1 - first e'), ∑ j ∈ range (last e' + 1 - first e'), 2 / r * (b.getD i 0 * (B e').get i j * d.getD j 0) := by
        rw [sum_comm]
        refine sums _ _ fun i hi j hj => ?_
        rw [hB.2.2 i hi j hj, hB.2.2 j hj i hi, pmat_symm]
        ring
      rw [e2]
      refine add_right_cancel (b := ∑ i ∈ range (last e' + 1 - first e'), ∑ j ∈ range (last e' + 1 - first e'), 2 / r * (d.getD i 0 * (B e').get i j * b.getD j 0)) ?_
      nth_rw 2 [hsym]
      simp only [sum_mul, mul_sum, mul_add, ← sum_add_distrib]
      refine sums _ _ fun i hi j hj => ?_
      obtain ⟨bi, di, li⟩ := q7 i hi
      obtain ⟨bj, dj, lj⟩ := q7 j hj
      rw [hB.2.2 i hi j hj, ← bi, ← bj, ← di, ← dj, ← lj]
      field_simp
      ring
    obtain ⟨y, z, cdd, cbl, hyz⟩ := csum
    refine ⟨?_, ?_, ?_, ?_⟩
    · refine H1.congr_of_eventuallyEq ?_
      filter_upwards [nb] with s hs
      have hs0 : 0 < s := by linarith [(coord_pos S.basis S.origin e' he (-1) le_rfl).2.1, hs.1]
      rw [if_pos hs0, r4 e' he s hs.1 hs.2, ← hp]
      field_simp
    · refine H2.congr_of_eventuallyEq ?_
      filter_upwards [nb] with s hs
      rw [hE e' he s hs.1 hs.2, ← hp]
    · unfold Atom.densityGradient
      rw [if_neg guard, g1]
      simp only [Res.ok_bind, hb.db, q1, q2, hb.psub e' he, cbd, Res.pure_eq]
      congr 1
      ring
    · unfold Atom.densityLaplacian
      rw [if_neg guard, g1]
      simp only [Res.ok_bind, hb.db, q1, q2, q3, hb.psub e' he, cbd, cdd, cbl, Res.pure_eq]
      congr 1
      rw [hyz]
      ring

theorem orbital_zero (S : Setup f n ne zdl zfr zdr x0 bval o N first last φ rule shells) (s : Shell) (k : Nat) : (orbital N φ s k 0).eval 0 = 0 := by
  have hn := S.basis.nelem
  obtain ⟨R, r1, _⟩ := rowOver S.basis φ S.pieces S.origin S.inner
  unfold orbital
  rw [eval_finsetSum]
  apply sum_eq_zero
  intro g _
  rw [eval_mul]
  by_cases hg : first 0 ≤ g ∧ g ≤ last 0
  · have := r1 (g - first 0) (by omega)
    rw [show first 0 + (g - first 0) = g by omega] at this
    rw [this]
    simp
  · rw [S.basis.outside φ S.pieces 0 (by omega) g (by omega)]
    simp

/-- C57 fails at the nucleus: the density returned there is zero, but the densities returned at small positive radii tend to the occupation-weighted squared slopes of the orbitals over 4π -/
theorem C57_nucleus_value_is_not_the_limit (S : Setup f n ne zdl zfr zdr x0 bval o N first last φ rule shells) (ha : Atom.build ⟨o, x0, rule⟩ shells = .ok a)
    (pi : ℝ) (hpi : 0 < pi) :
    ∃ ρ : ℝ → ℝ, (∀ r, a.density pi r = .ok (ρ r)) ∧ ρ 0 = 0 ∧
      Filter.Tendsto ρ (nhdsWithin 0 (Set.Ioi 0))
        (nhds ((shells.map fun s => ∑ k ∈ range s.C.cols, s.occ k * ((derivative (orbital N φ s k 0)).eval 0) ^ 2).sum / (4 * pi))) := by
  obtain ⟨σ, r1, r2, r3, r4⟩ := radial_spec S ha
  have hl := S.basis.len
  have hn := S.basis.nelem
  have hlt := getD_lt S.basis.inc 0 (by omega)
  rw [S.origin] at hlt
  refine ⟨fun r => if 0 < r then σ r / (4 * pi * r * r) else 0, fun r => by unfold Atom.density; rw [r1]; rfl, by simp, ?_⟩
  obtain ⟨T, hT⟩ : ∃ T : ℝ → ℝ, T = fun r => (shells.map fun s => ∑ k ∈ range s.C.cols, s.occ k * ((orbital N φ s k 0).divX.eval r) ^ 2).sum := ⟨_, rfl⟩
  have hcont : Continuous T := by
    rw [hT]
    clear hT r1 r2 r3 r4 ha S
    induction shells with
    | nil => simp only [List.map_nil, List.sum_nil]; exact continuous_const
    | cons s t ih =>
      simp only [List.map_cons, List.sum_cons]
      refine Continuous.add ?_ ih
      fun_prop
  have hdiv : ∀ s k r, (orbital N φ s k 0).eval r = r * (orbital N φ s k 0).divX.eval r := by
    intro s k r
    have h0 := orbital_zero S s k
    conv_lhs => rw [← divX_mul_X_add (orbital N φ s k 0)]
    rw [coeff_zero_eq_eval_zero, h0]
    simp only [eval_add, eval_mul, eval_X, eval_C]
    ring
  have hval : T 0 = (shells.map fun s => ∑ k ∈ range s.C.cols, s.occ k * ((derivative (orbital N φ s k 0)).eval 0) ^ 2).sum := by
    rw [hT]
    simp only
    congr 1
    apply List.map_congr_left
    intro s _
    apply sum_congr rfl
    intro k _
    have e1 : orbital N φ s k 0 = X * (orbital N φ s k 0).divX := Polynomial.funext fun r => by rw [hdiv]; simp
    conv_rhs => rw [e1]
    simp
  have hocc : ∀ r, occupied N φ shells 0 r = r ^ 2 * T r := by
    intro r
    rw [hT]
    unfold occupied
    simp only
    rw [← List.sum_map_mul_left]
    congr 1
    apply List.map_congr_left
    intro s _
    rw [mul_sum]
    apply sum_congr rfl
    intro k _
    rw [hdiv]
    ring
  rw [← hval]
  have h1 : Filter.Tendsto (fun r => T r / (4 * pi)) (nhdsWithin 0 (Set.Ioi 0)) (nhds (T 0 / (4 * pi))) :=
    ((hcont.div_const _).tendsto 0).mono_left nhdsWithin_le_nhds
  refine h1.congr' ?_
  filter_upwards [Ioo_mem_nhdsGT hlt] with r hr
  have hr0 : 0 < r := hr.1
  rw [if_pos hr0, r4 0 (by omega) r (by rw [S.origin]; exact hr.1) hr.2, rho_occupied, hocc]
  field_simp

end

/-! ### A concrete atom: two linear elements on 0 < 1 < 3 with one function vanishing at both ends, one doubly occupied orbital, three-point rule -/

theorem simpson_exact : ExactTo [(-1, 1 / 3), (0, 4 / 3), (1, 1 / 3)] 3 := by
  intro p hp
  have e : ∀ x, p.eval x = ∑ i ∈ range 4, p.coeff i * x ^ i := fun x => by rw [eval_eq_sum_range' (by omega : p.natDegree < 4)]
  simp only [e, sum_range_succ, range_zero, sum_empty, List.map_cons, List.map_nil, List.sum_cons, List.sum_nil]
  have c : ∀ k : Nat, IntervalIntegrable (fun x : ℝ => p.coeff k * x ^ k) MeasureTheory.volume (-1) 1 := fun k => by
    apply Continuous.intervalIntegrable; fun_prop
  have ii : ∀ k : Nat, ∫ x in (-1 : ℝ)..1, p.coeff k * x ^ k = p.coeff k * ((1 ^ (k + 1) - (-1) ^ (k + 1)) / (k + 1)) := fun k => by
    rw [intervalIntegral.integral_const_mul, integral_pow]
  rw [intervalIntegral.integral_add (by apply Continuous.intervalIntegrable; fun_prop) (c 3), intervalIntegral.integral_add (by apply Continuous.intervalIntegrable; fun_prop) (c 2),
    intervalIntegral.integral_add (by apply Continuous.intervalIntegrable; fun_prop) (c 1), ii 3, ii 2, ii 1]
  simp only [zero_add]
  rw [ii 0]
  norm_num
  ring

noncomputable def exampleShell : Shell := ⟨⟨1, 1, fun _ _ => 1⟩, fun _ => 2⟩

theorem setup_example : ∃ o φ, Setup .lip 2 2 false true false (fun k => 2 * (k : ℝ) - 1) [0, 1, 3] o 1 (fun _ => 0) (fun _ => 0) φ
    [(-1, 1 / 3), (0, 4 / 3), (1, 1 / 3)] [exampleShell] := by
  have hb : ∃ o, Basis .lip 2 2 true false true false (fun k => 2 * (k : ℝ) - 1) [0, 1, 3] o 1 (fun _ => 0) (fun _ => 0) := by
    refine ⟨_, good_two, by omega, rfl, by norm_num, rfl, by decide, by omega, ?_⟩
    intro e he
    interval_cases e <;> rfl
  obtain ⟨o, hb⟩ := hb
  obtain ⟨φ, hφ, _, _⟩ := C48_pieces hb
  refine ⟨o, φ, hb, hφ, rfl, le_rfl, ⟨fun p hp => simpson_exact p (hp.trans (by decide)), ?_⟩, ?_⟩
  · intro q hq
    simp only [List.mem_cons, List.not_mem_nil, or_false] at hq
    rcases hq with rfl | rfl | rfl <;> norm_num
  · intro s hs
    simp only [List.mem_cons, List.not_mem_nil, or_false] at hs
    subst hs
    exact Or.inr rfl

theorem example_piece : piece .lip 0 2 true false true false [0, 1, 3] (fun k => 2 * (k : ℝ) - 1) (fun _ => 0) 0 0 = X := by
  have : enBlocks .lip 0 0 2 true false true false = [1] := by decide
  unfold piece
  rw [this]
  simp only [onElement, primPoly, Lagrange.basis, le_refl, if_true, Nat.sub_self, List.getElem?_cons_zero]
  rw [show (range (0 + 2)).erase 1 = {0} by decide, prod_singleton]
  apply Polynomial.funext
  intro r
  simp [Lagrange.basisDivisor]
  ring

/-- in the concrete atom the density is 1/(2π) all the way to the nucleus, where 0 is returned -/
example : ∃ (a : Atom) (ρ : ℝ → ℝ), (∀ r, a.density Real.pi r = .ok (ρ r)) ∧ ρ 0 = 0 ∧
    Filter.Tendsto ρ (nhdsWithin 0 (Set.Ioi 0)) (nhds (2 / (4 * Real.pi))) := by
  obtain ⟨o, φ, S⟩ := setup_example
  obtain ⟨a, ha, _⟩ := C36_radial_density S
  obtain ⟨ρ, h1, h2, h3⟩ := C57_nucleus_value_is_not_the_limit S ha Real.pi Real.pi_pos
  refine ⟨a, ρ, h1, h2, ?_⟩
  have e1 : φ 0 0 = X := by
    rw [S.basis.pieces_unique φ _ S.pieces S.basis.piece_isPieces 0 (by omega) 0]
    exact example_piece
  simpa [exampleShell, orbital, e1] using h3

example : ∃ (a : Atom) (Q : ℝ → ℝ), (∀ r, a.enclosedCharge r = .ok (Q r)) ∧ Monotone Q ∧ Q 0 = 0 ∧ Q 3 = a.Ntot := by
  obtain ⟨o, φ, S⟩ := setup_example
  obtain ⟨a, ha, hR, _⟩ := C36_radial_density S
  obtain ⟨Q, h1, h2, _⟩ := C36_enclosed_charge_monotone S ha (by
    intro s hs k _
    simp only [List.mem_cons, List.not_mem_nil, or_false] at hs
    subst hs
    norm_num [exampleShell])
  obtain ⟨_, _, _, _, h3, h4⟩ := C36_enclosed_charge S ha
  exact ⟨a, Q, h1, h2, Res.ok.inj ((h1 0).symm.trans (h3 0 le_rfl)), Res.ok.inj ((h1 3).symm.trans (h4 3 (by rw [hR]; norm_num)))⟩

example : ∃ (a : Atom) (ρ ρ' : ℝ → ℝ) (V : ℝ), a.density Real.pi 2 = .ok (ρ 2) ∧ HasDerivAt ρ (ρ' 2) 2 ∧ a.densityGradient Real.pi 2 = .ok (ρ' 2) ∧
    a.hartreeScreening 2 = .ok V := by
  obtain ⟨o, φ, S⟩ := setup_example
  obtain ⟨a, ha, hR, _⟩ := C36_radial_density S
  obtain ⟨ρ, ρ', ρ'', h1, _, _, h4⟩ := C57_density_derivatives_partial S ha (by decide) Real.pi Real.pi_pos
  obtain ⟨g1, _, g3, _⟩ := h4 1 (by omega) 2 (by norm_num) (by norm_num)
  obtain ⟨_, _, _, _, k⟩ := C36_hartree_screening S ha 3 simpson_exact (by decide) (by
    intro q hq
    simp only [List.mem_cons, List.not_mem_nil, or_false] at hq
    rcases hq with rfl | rfl | rfl <;> norm_num)
  obtain ⟨V, k1, _⟩ := k 2 (by norm_num) (by rw [hR]; norm_num)
  exact ⟨a, ρ, ρ', V, h1 2, g1, g3, k1⟩

end AtomDB
end HelFEM
