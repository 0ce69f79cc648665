import Verif.Lemmas.Gram
import Mathlib.LinearAlgebra.Lagrange

/-!
# C48, C49, C50: operator matrices are the integrals they stand for

With a quadrature rule that is exact for the polynomials involved, the matrices are the integrals of products of
(derivatives of) basis functions; the overlap matrix is positive definite; the self-converging quadrature returns the
exact integrals whatever breakpoints are given.
-/

namespace HelFEM
namespace Assembly
open Grid Poly Finset Polynomial Spec

/-- A constructed finite element basis with at least one function: family `f`, `n` reference nodes `x0`, `ne` elements with increasing
boundaries `bval`, boundary conditions, `N` functions, of which element `e` has those numbered `first e … last e`. -/
structure Basis (f : Family) (n ne : Nat) (zfl zdl zfr zdr : Bool) (x0 : Nat → ℝ) (bval : List ℝ) (o : FEObj ℝ) (N : Nat)
    (first last : Nat → Nat) : Prop where
  nodes : GoodNodes n x0
  nelem : 1 ≤ ne
  len : bval.length = ne + 1
  inc : bval.Pairwise (· < ·)
  built : construct (PolyBasis.mk' f n) bval zfl zdl zfr zdr = .ok o
  nbf : FEShape.getNbf o.tab = .ok N
  pos : 0 < N
  idx : ∀ e < ne, FEShape.getIdx o.tab e = .ok (first e, last e)

/-- `φ e g` is the polynomial in `r` which the global function `g` is on element `e`, as evaluated by the code. -/
def IsPieces (o : FEObj ℝ) (x0 : Nat → ℝ) (ne : Nat) (first : Nat → Nat) (φ : Nat → Nat → ℝ[X]) : Prop :=
  ∀ e < ne, ∀ g x, ∃ v r, feEvalDnf o.shape o.bval x0 x 0 e = .ok v ∧ evalCoord o.bval [x] e = .ok [r] ∧
    (φ e g).eval r = globalValue (first e) v g

variable {f : Family} {n ne : Nat} {zfl zdl zfr zdr : Bool} {x0 : Nat → ℝ} {bval : List ℝ} {o : FEObj ℝ} {N : Nat}
  {first last : Nat → Nat}

theorem Basis.shape (h : Basis f n ne zfl zdl zfr zdr x0 bval o N first last) :
    o.shape = feShape f n ne zfl zdl zfr zdr ∧ o.bval = bval := by
  refine ⟨(layout f n ne zfl zdl zfr zdr h.nodes.two h.nelem bval h.len o h.built N h.nbf h.pos first last h.idx).1, ?_⟩
  have := h.built
  unfold construct at this
  cases hu : (FEShape.mk (PolyBasis.mk' f n) bval.length zfl zdl zfr zdr).updateBfList with
  | ok t => simp only [hu, Res.ok_bind, Res.pure_eq, Res.ok.injEq] at this; rw [← this]
  | throw x => simp [hu] at this
  | ub => simp [hu] at this

theorem Basis.piece_isPieces (m : Nat) (h : Basis f (m + 2) ne zfl zdl zfr zdr x0 bval o N first last) :
    IsPieces o x0 ne first (piece f m ne zfl zdl zfr zdr bval x0 first) := by
  intro e he g x
  obtain ⟨v, h1, _, h3⟩ := piece_eval f m ne zfl zdl zfr zdr bval h.len h.inc x0 first e he g 0 (Nat.zero_le _) x
  have hl := h.len
  refine ⟨v, _, ?_, ?_, h3⟩
  · rw [h.shape.1, h.shape.2]; exact h1
  · rw [h.shape.2, coord_eq bval e (by omega)]; simp

theorem Basis.pieces_unique (h : Basis f n ne zfl zdl zfr zdr x0 bval o N first last) (φ ψ : Nat → Nat → ℝ[X])
    (hφ : IsPieces o x0 ne first φ) (hψ : IsPieces o x0 ne first ψ) (e : Nat) (he : e < ne) (g : Nat) : φ e g = ψ e g := by
  have hl := h.len
  apply Polynomial.funext
  intro r
  obtain ⟨v, r1, a1, a2, a3⟩ := hφ e he g ((r - 1 / 2 * (bval[e]'(by omega) + bval[e + 1]'(by omega))) / ((bval[e + 1]'(by omega) - bval[e]'(by omega)) / 2))
  obtain ⟨w, r2, b1, b2, b3⟩ := hψ e he g ((r - 1 / 2 * (bval[e]'(by omega) + bval[e + 1]'(by omega))) / ((bval[e + 1]'(by omega) - bval[e]'(by omega)) / 2))
  obtain rfl := Res.ok.inj (a1.symm.trans b1)
  rw [a2] at b2
  rw [h.shape.2, coord_eq bval e (by omega)] at a2
  simp only [Res.ok.injEq, List.cons.injEq, and_true, List.map_cons, List.map_nil] at a2 b2
  have hne := half_ne h.inc e (by omega)
  rw [mul_div_cancel₀ _ hne] at a2
  have : r = r1 := by rw [← a2]; ring
  rw [this, a3, b2, b3]

/-- **C48.** The global functions exist as piecewise polynomials, and the derivatives the code evaluates are the derivatives with
respect to `r` of these polynomials, for all supported orders. -/
theorem C48_pieces (h : Basis f n ne zfl zdl zfr zdr x0 bval o N first last) :
    ∃ φ, IsPieces o x0 ne first φ ∧ (∀ e < ne, ∀ g, (φ e g).natDegree ≤ (PolyBasis.mk' f n).noverlap * n - 1) ∧
      ∀ e < ne, ∀ g x, ∀ d ≤ maxN f, ∃ v r, feEvalDnf o.shape o.bval x0 x d e = .ok v ∧ evalCoord o.bval [x] e = .ok [r] ∧
        (derivative^[d] (φ e g)).eval r = globalValue (first e) v g := by
  have h2 := h.nodes.two
  obtain ⟨m, rfl⟩ : ∃ m, n = m + 2 := ⟨n - 2, by omega⟩
  refine ⟨_, h.piece_isPieces, ?_, ?_⟩
  · intro e _ g
    rw [mk'_noverlap]
    exact piece_degree f m ne zfl zdl zfr zdr bval x0 h.nodes first e g
  · intro e he g x d hd
    obtain ⟨v, h1, _, h3⟩ := piece_eval f m ne zfl zdl zfr zdr bval h.len h.inc x0 first e he g d hd x
    have hl := h.len
    refine ⟨v, _, ?_, ?_, h3⟩
    · rw [h.shape.1, h.shape.2]; exact h1
    · rw [h.shape.2, coord_eq bval e (by omega)]; simp

theorem Basis.count (h : Basis f n ne zfl zdl zfr zdr x0 bval o N first last) (e : Nat) (he : e < ne) (d : Int) :
    (dnfEvaluator o.shape o.bval x0 d).ncols e = last e + 1 - first e ∧ first e ≤ last e + 1 := by
  obtain ⟨l1, l2, l3, l4, l5⟩ := layout f n ne zfl zdl zfr zdr h.nodes.two h.nelem bval h.len o h.built N h.nbf h.pos first last h.idx
  obtain ⟨en, h1, h2⟩ := l3 e he
  simp only [dnfEvaluator, l1, h1]
  omega

/-- matrix elements over a part of an element -/
theorem Basis.elem (h : Basis f n ne zfl zdl zfr zdr x0 bval o N first last) (φ : Nat → Nat → ℝ[X]) (hφ : IsPieces o x0 ne first φ)
    (e : Nat) (he : e < ne) (d d' : Nat) (hd : d ≤ maxN f) (hd' : d' ≤ maxN f) (G : ℝ[X]) (rule : List (ℝ × ℝ)) (D : Nat) (hr : ExactTo rule D)
    (hD : 2 * ((PolyBasis.mk' f n).noverlap * n - 1) + G.natDegree ≤ D) (xl xr : ℝ) (hb : e + 1 < bval.length) :
    ∃ B, matElRange o.bval e (some (dnfEvaluator o.shape o.bval x0 d)) (some (dnfEvaluator o.shape o.bval x0 d')) rule
        (some fun r => some (G.eval r)) xl xr = .ok B ∧ B.rows = last e + 1 - first e ∧ B.cols = last e + 1 - first e ∧
      ∀ i j, B.get i j = ∫ r in (1 / 2 * (bval[e] + bval[e + 1]) + (bval[e + 1] - bval[e]) / 2 * xl)..(1 / 2 * (bval[e] + bval[e + 1]) + (bval[e + 1] - bval[e]) / 2 * xr),
        (derivative^[d] (φ e (first e + i))).eval r * (derivative^[d'] (φ e (first e + j))).eval r * G.eval r := by
  have h2 := h.nodes.two
  obtain ⟨m, rfl⟩ : ∃ m, n = m + 2 := ⟨n - 2, by omega⟩
  have hpiece : ∀ g, φ e g = piece f m ne zfl zdl zfr zdr bval x0 first e g :=
    fun g => h.pieces_unique φ _ hφ h.piece_isPieces e he g
  have hrow : ∀ k ≤ maxN f, ∀ x, ∃ v, feEvalDnf o.shape o.bval x0 x k e = .ok v ∧ ∀ i,
      v.getD i 0 = (derivative^[k] (φ e (first e + i))).eval (1 / 2 * (bval[e] + bval[e + 1]) + (bval[e + 1] - bval[e]) / 2 * x) := by
    intro k hk x
    obtain ⟨v, h1, _, _⟩ := piece_eval f m ne zfl zdl zfr zdr bval h.len h.inc x0 first e he 0 k hk x
    refine ⟨v, by rw [h.shape.1, h.shape.2]; exact h1, ?_⟩
    intro i
    obtain ⟨w, g1, _, g3⟩ := piece_eval f m ne zfl zdl zfr zdr bval h.len h.inc x0 first e he (first e + i) k hk x
    obtain rfl := Res.ok.inj (h1.symm.trans g1)
    rw [hpiece, g3]
    simp [globalValue]
  choose lrow hl1 hl2 using hrow d hd
  choose rrow hr1 hr2 using hrow d' hd'
  have hbo : o.bval = bval := h.shape.2
  obtain ⟨B, b1, b2, b3, b4⟩ := matElRange_eq o.bval e (by rw [hbo]; exact hb) (dnfEvaluator o.shape o.bval x0 d) (dnfEvaluator o.shape o.bval x0 d')
    rule (some fun r => some (G.eval r)) xl xr lrow rrow hl1 hr1
  refine ⟨B, b1, by rw [b2]; exact (h.count e he d).1, by rw [b3]; exact (h.count e he d').1, ?_⟩
  intro i j
  rw [b4 i j]
  simp only [hbo]
  have hdeg : ∀ k g, (derivative^[k] (φ e g)).natDegree ≤ (PolyBasis.mk' f (m + 2)).noverlap * (m + 2) - 1 := by
    intro k g
    refine (natDegree_iterate_derivative _ _).trans ?_
    rw [hpiece, mk'_noverlap]
    have := piece_degree f m ne zfl zdl zfr zdr bval x0 h.nodes first e g
    omega
  have hQ : (derivative^[d] (φ e (first e + i)) * derivative^[d'] (φ e (first e + j)) * G).natDegree ≤ D := by
    refine natDegree_mul_le.trans ?_
    have h3 := @natDegree_mul_le _ _ (derivative^[d] (φ e (first e + i))) (derivative^[d'] (φ e (first e + j)))
    have h4 := hdeg d (first e + i)
    have h5 := hdeg d' (first e + j)
    omega
  have := rule_range rule D hr _ hQ (1 / 2 * (bval[e] + bval[e + 1])) ((bval[e + 1] - bval[e]) / 2) xl xr
  simp only [eval_mul] at this
  rw [← this]
  congr 1
  apply List.map_congr_left
  intro p _
  rw [weightAt_some, hl2, hr2]
  ring

theorem Basis.outside (h : Basis f n ne zfl zdl zfr zdr x0 bval o N first last) (φ : Nat → Nat → ℝ[X]) (hφ : IsPieces o x0 ne first φ)
    (e : Nat) (he : e < ne) (g : Nat) (hg : ¬ (first e ≤ g ∧ g ≤ last e)) : φ e g = 0 := by
  have h2 := h.nodes.two
  obtain ⟨m, rfl⟩ : ∃ m, n = m + 2 := ⟨n - 2, by omega⟩
  rw [h.pieces_unique φ _ hφ h.piece_isPieces e he g]
  obtain ⟨l1, l2, l3, l4, l5⟩ := layout f (m + 2) ne zfl zdl zfr zdr h.nodes.two h.nelem bval h.len o h.built N h.nbf h.pos first last h.idx
  obtain ⟨en, k1, k2⟩ := l3 e he
  rw [basisIndices_eq] at k1
  have k3 := Res.ok.inj k1
  unfold piece
  split
  · rw [List.getElem?_eq_none (by rw [k3]; omega)]
  · rfl

theorem coord_ends (a b : ℝ) : 1 / 2 * (a + b) + (b - a) / 2 * (-1) = a ∧ 1 / 2 * (a + b) + (b - a) / 2 * 1 = b := by
  constructor <;> ring

theorem Basis.assemble (h : Basis f n ne zfl zdl zfr zdr x0 bval o N first last) (φ : Nat → Nat → ℝ[X]) (hφ : IsPieces o x0 ne first φ)
    (d d' : Nat) (G : ℝ[X]) (body : Nat → Res (Mat ℝ))
    (hbody : ∀ e < ne, ∃ B, body e = .ok B ∧ B.rows = last e + 1 - first e ∧ B.cols = last e + 1 - first e ∧
      ∀ i < B.rows, ∀ j < B.cols, B.get i j = ∫ r in (bval.getD e 0)..(bval.getD (e + 1) 0),
        (derivative^[d] (φ e (first e + i))).eval r * (derivative^[d'] (φ e (first e + j))).eval r * G.eval r)
    (sched : List Nat) (hs : sched.Perm (List.range ne)) :
    ∃ M, globalMatrix o body sched = .ok M ∧ M.rows = N ∧ M.cols = N ∧ ∀ i < N, ∀ j < N,
      M.get i j = ∑ e ∈ range ne, ∫ r in (bval.getD e 0)..(bval.getD (e + 1) 0),
        (derivative^[d] (φ e i)).eval r * (derivative^[d'] (φ e j)).eval r * G.eval r := by
  have : Nonempty (Mat ℝ) := ⟨Mat.zero 0 0⟩
  choose! B b1 b2 b3 b4 using hbody
  obtain ⟨M, m1, m2, m3, m4⟩ := C15_matrix f n ne zfl zdl zfr zdr h.nodes.two h.nelem bval h.len o h.built N h.nbf h.pos first last h.idx
    body B b1 (fun e he => ⟨b2 e he, b3 e he⟩) sched hs
  refine ⟨M, m1, m2, m3, ?_⟩
  intro i hi j hj
  rw [m4 i hi j hj]
  apply sum_congr rfl
  intro e he
  have he := mem_range.1 he
  have z2 := b2 e he
  have z3 := b3 e he
  by_cases hc : (first e ≤ i ∧ i ≤ last e) ∧ (first e ≤ j ∧ j ≤ last e)
  · rw [if_pos hc, b4 e he _ (by omega) _ (by omega), show first e + (i - first e) = i by omega, show first e + (j - first e) = j by omega]
  · rw [if_neg hc]
    by_cases hci : first e ≤ i ∧ i ≤ last e
    · rw [h.outside φ hφ e he j (fun hcj => hc ⟨hci, hcj⟩)]; simp [iterate_derivative_zero]
    · rw [h.outside φ hφ e he i hci]; simp [iterate_derivative_zero]

/-- **C48.** The matrix of the operator with derivative orders `d`, `d'` and polynomial weight `G` consists of the integrals
`∫ φ_i^(d) φ_j^(d') G dr` over all elements, provided the rule given is exact for the degrees that occur. -/
theorem C48_matrix_integrals (h : Basis f n ne zfl zdl zfr zdr x0 bval o N first last) (φ : Nat → Nat → ℝ[X])
    (hφ : IsPieces o x0 ne first φ) (d d' : Nat) (hd : d ≤ maxN f) (hd' : d' ≤ maxN f) (G : ℝ[X]) (rule : List (ℝ × ℝ)) (D : Nat)
    (hr : ExactTo rule D) (hD : 2 * ((PolyBasis.mk' f n).noverlap * n - 1) + G.natDegree ≤ D)
    (sched : List Nat) (hs : sched.Perm (List.range ne)) :
    ∃ M, feMatrix o x0 d d' rule (some fun r => some (G.eval r)) sched = .ok M ∧ M.rows = N ∧ M.cols = N ∧ ∀ i < N, ∀ j < N,
      M.get i j = ∑ e ∈ range ne, ∫ r in (bval.getD e 0)..(bval.getD (e + 1) 0),
        (derivative^[d] (φ e i)).eval r * (derivative^[d'] (φ e j)).eval r * G.eval r := by
  apply h.assemble φ hφ d d' G
  · intro e he
    have hl := h.len
    have hb : e + 1 < bval.length := by omega
    obtain ⟨B, b1, b2, b3, b4⟩ := h.elem φ hφ e he d d' hd hd' G rule D hr hD (-1) 1 hb
    refine ⟨B, b1, b2, b3, fun i _ j _ => ?_⟩
    rw [b4 i j, (coord_ends _ _).1, (coord_ends _ _).2]
    simp [show e < bval.length by omega, hb]
  · exact hs

/-- **C48, singular weights.** A point at which the weight function is not finite contributes nothing: the matrix is that of the weight with the
non-finite values replaced by zero, for any derivative orders, rule and schedule. -/
theorem C48_nonfinite_weight (o : FEObj ℝ) (x0 : Nat → ℝ) (d d' : Int) (rule : List (ℝ × ℝ)) (g : ℝ → Option ℝ) (sched : List Nat) :
    feMatrix o x0 d d' rule (some g) sched = feMatrix o x0 d d' rule (some fun r => some ((g r).getD 0)) sched := by
  have : ∀ r w, weightAt (some g) r w = weightAt (some fun r => some ((g r).getD 0)) r w := by
    intro r w
    simp only [weightAt]
    rcases Option.eq_none_or_eq_some (g r) with h | ⟨v, h⟩
    · simp only [h, Option.getD_none, mul_zero]
    · simp only [h, Option.getD_some]
  unfold feMatrix matElRange
  simp only [this]

/-- the element vector as a sum over the points -/
theorem vecEl_eq (bval : List ℝ) (iel : Nat) (hi : iel + 1 < bval.length) (E : Evaluator ℝ) (rule : List (ℝ × ℝ)) (f : Option (ℝ → ℝ))
    (row : ℝ → List ℝ) (hE : ∀ x, E.row x iel = .ok (row x)) :
    ∃ B, vecEl bval iel (some E) rule (f.map fun g r => some (g r)) = .ok (some B) ∧ B.size = E.ncols iel ∧ ∀ i, B.get i = (rule.map fun p =>
      p.2 * ((bval[iel + 1] - bval[iel]'(by omega)) / 2) * (f.getD fun _ => 1) (1 / 2 * (bval[iel]'(by omega) + bval[iel + 1]) + (bval[iel + 1] - bval[iel]'(by omega)) / 2 * p.1) *
        (row p.1).getD i 0).sum := by
  have h1 : (rule.map Prod.fst).mapM (fun x => E.row x iel) = .ok ((rule.map Prod.fst).map row) := Res.mapM_ok _ _ _ (fun a _ => hE a)
  obtain ⟨sf, hsf⟩ : ∃ sf, sf = (bval[iel + 1] - bval[iel]'(by omega)) / 2 := ⟨_, rfl⟩
  obtain ⟨mid, hmid⟩ : ∃ mid, mid = 1 / 2 * (bval[iel]'(by omega) + bval[iel + 1]) := ⟨_, rfl⟩
  have hco := coord_eq bval iel hi (rule.map Prod.fst)
  have hw : ((List.zipWith (fun (p : ℝ × ℝ) ri => match f.map (fun g r => some (g r)) with
      | none => some (p.2 * sf)
      | some g => (g ri).map (p.2 * sf * ·)) rule ((rule.map Prod.fst).map fun x => mid + sf * x)).mapM id : Option (List ℝ)) =
      some (rule.map fun p => p.2 * sf * (f.getD fun _ => 1) (mid + sf * p.1)) := by
    induction rule with
    | nil => rfl
    | cons p rule ih =>
      have ih := ih (Res.mapM_ok _ _ _ (fun a _ => hE a)) (coord_eq bval iel hi (rule.map Prod.fst))
      simp only [List.map_cons, List.zipWith_cons_cons, List.mapM_cons, id]
      rw [ih]
      cases f <;> simp
  unfold vecEl
  simp only [hco, sf_eq bval iel hi, Res.ok_bind, h1, Res.pure_eq, ← hsf, ← hmid]
  rcases f with _ | g <;> simp only [Option.map_none, Option.map_some] at hw ⊢ <;> rw [hw] <;> refine ⟨_, rfl, rfl, fun i => ?_⟩ <;>
    simp only <;> congr 1 <;> clear hw hco h1 <;> induction rule with
  | nil => rfl
  | cons p rule ih =>
    simp only [List.map_cons, List.zipWith_cons_cons, ih]
    rw [mul_comm]

/-- **C48 for vectors.** The vector of a polynomial `G` with derivative order `d` consists of the integrals `∫ φ_i^(d) G dr` over all elements;
without a weight function, of `∫ φ_i^(d) dr`. -/
theorem C48_vector_integrals (h : Basis f n ne zfl zdl zfr zdr x0 bval o N first last) (φ : Nat → Nat → ℝ[X])
    (hφ : IsPieces o x0 ne first φ) (d : Nat) (hd : d ≤ maxN f) (G : Option ℝ[X]) (rule : List (ℝ × ℝ)) (D : Nat)
    (hr : ExactTo rule D) (hD : (PolyBasis.mk' f n).noverlap * n - 1 + (G.getD 1).natDegree ≤ D)
    (sched : List Nat) (hs : sched.Perm (List.range ne)) :
    ∃ V, feVector o x0 d rule (G.map fun G r => some (G.eval r)) sched = .ok V ∧ V.size = N ∧ ∀ i < N,
      V.get i = ∑ e ∈ range ne, ∫ r in (bval.getD e 0)..(bval.getD (e + 1) 0), (derivative^[d] (φ e i)).eval r * (G.getD 1).eval r := by
  have h2 := h.nodes.two
  have hl := h.len
  have hbody : ∀ e < ne, ∃ B, vecEl o.bval e (some (dnfEvaluator o.shape o.bval x0 d)) rule (G.map fun G r => some (G.eval r)) = .ok (some B) ∧
      B.size = last e + 1 - first e ∧ ∀ i, B.get i = ∫ r in (bval.getD e 0)..(bval.getD (e + 1) 0),
        (derivative^[d] (φ e (first e + i))).eval r * (G.getD 1).eval r := by
    intro e he
    have hb : e + 1 < bval.length := by omega
    obtain ⟨m, rfl⟩ : ∃ m, n = m + 2 := ⟨n - 2, by omega⟩
    have hpiece : ∀ g, φ e g = piece f m ne zfl zdl zfr zdr bval x0 first e g :=
      fun g => h.pieces_unique φ _ hφ h.piece_isPieces e he g
    have hrow : ∀ x, ∃ v, feEvalDnf o.shape o.bval x0 x d e = .ok v ∧ ∀ i,
        v.getD i 0 = (derivative^[d] (φ e (first e + i))).eval (1 / 2 * (bval[e] + bval[e + 1]) + (bval[e + 1] - bval[e]) / 2 * x) := by
      intro x
      obtain ⟨v, h1, _, _⟩ := piece_eval f m ne zfl zdl zfr zdr bval h.len h.inc x0 first e he 0 d hd x
      refine ⟨v, by rw [h.shape.1, h.shape.2]; exact h1, ?_⟩
      intro i
      obtain ⟨w, g1, _, g3⟩ := piece_eval f m ne zfl zdl zfr zdr bval h.len h.inc x0 first e he (first e + i) d hd x
      obtain rfl := Res.ok.inj (h1.symm.trans g1)
      rw [hpiece, g3]
      simp [globalValue]
    choose row hl1 hl2 using hrow
    have hbo : o.bval = bval := h.shape.2
    obtain ⟨B, b1, b2, b3⟩ := vecEl_eq o.bval e (by rw [hbo]; exact hb) (dnfEvaluator o.shape o.bval x0 d) rule (G.map fun G r => G.eval r) row hl1
    refine ⟨B, ?_, by rw [b2]; exact (h.count e he d).1, ?_⟩
    · rw [← b1]; cases G <;> rfl
    intro i
    rw [b3 i]
    simp only [hbo]
    have hdeg : (derivative^[d] (φ e (first e + i))).natDegree ≤ (PolyBasis.mk' f (m + 2)).noverlap * (m + 2) - 1 := by
      refine (natDegree_iterate_derivative _ _).trans ?_
      rw [hpiece, mk'_noverlap]
      have := piece_degree f m ne zfl zdl zfr zdr bval x0 h.nodes first e (first e + i)
      omega
    have hQ : (derivative^[d] (φ e (first e + i)) * G.getD 1).natDegree ≤ D := by
      refine natDegree_mul_le.trans ?_
      omega
    have := rule_range rule D hr _ hQ (1 / 2 * (bval[e] + bval[e + 1])) ((bval[e + 1] - bval[e]) / 2) (-1) 1
    rw [(coord_ends _ _).1, (coord_ends _ _).2] at this
    simp only [eval_mul] at this
    have e1 : bval.getD e 0 = bval[e] := by simp [show e < bval.length by omega]
    have e2 : bval.getD (e + 1) 0 = bval[e + 1] := by simp [hb]
    rw [e1, e2, ← this]
    congr 1
    apply List.map_congr_left
    intro p _
    have hx : ((1 : ℝ) - -1) / 2 * p.1 + (1 + -1) / 2 = p.1 := by ring
    have hG : ∀ r, ((G.map fun G r => G.eval r).getD fun _ => 1) r = (G.getD 1).eval r := by
      intro r; cases G <;> simp
    rw [hx, hl2, hG]
    ring
  have : Nonempty (Vect ℝ) := ⟨Vect.zero 0⟩
  choose! B b1 b2 b4 using hbody
  obtain ⟨V, m1, m2, m4⟩ := C15_vector f n ne zfl zdl zfr zdr h.nodes.two h.nelem bval h.len o h.built N h.nbf h.pos first last h.idx
    (fun e => (vecEl o.bval e (some (dnfEvaluator o.shape o.bval x0 d)) rule (G.map fun G r => some (G.eval r))).bind fun
      | some v => .ok v
      | none => .ub) B (fun e he => by simp only [b1 e he]; rfl) b2 sched hs
  refine ⟨V, m1, m2, ?_⟩
  intro i hi
  rw [m4 i hi]
  apply sum_congr rfl
  intro e he
  have he := mem_range.1 he
  by_cases hc : first e ≤ i ∧ i ≤ last e
  · rw [if_pos hc, b4 e he, show first e + (i - first e) = i by omega]
  · rw [if_neg hc, h.outside φ hφ e he i hc]; simp [iterate_derivative_zero]

theorem getD_lt (hs : bval.Pairwise (· < ·)) (e : Nat) (he : e + 1 < bval.length) : bval.getD e 0 < bval.getD (e + 1) 0 := by
  have := List.pairwise_iff_getElem.1 hs e (e + 1) (by omega) he (by omega)
  simpa [show e < bval.length by omega, he] using this

/-- a combination of the functions that vanishes on an element has zero coefficients there -/
theorem Basis.indep (h : Basis f n ne zfl zdl zfr zdr x0 bval o N first last) (φ : Nat → Nat → ℝ[X]) (hφ : IsPieces o x0 ne first φ)
    (e : Nat) (he : e < ne) (c : Nat → ℝ) (hc : ∑ i ∈ range N, C (c i) * φ e i = 0) : ∀ i, first e ≤ i → i ≤ last e → c i = 0 := by
  have h2 := h.nodes.two
  have hl := h.len
  have hout := h.outside φ hφ e he
  obtain ⟨m, rfl⟩ : ∃ m, n = m + 2 := ⟨n - 2, by omega⟩
  obtain ⟨l1, l2, l3, l4, l5⟩ := layout f (m + 2) ne zfl zdl zfr zdr h.nodes.two h.nelem bval h.len o h.built N h.nbf h.pos first last h.idx
  obtain ⟨en, k1, k2⟩ := l3 e he
  rw [basisIndices_eq] at k1
  have k3 := Res.ok.inj k1
  have hlN := l4 e he
  have hsf : (bval.getD (e + 1) 0 - bval.getD e 0) / 2 ≠ 0 := by
    have := getD_lt h.inc e (by omega)
    have : 0 < bval.getD (e + 1) 0 - bval.getD e 0 := by linarith
    positivity
  have hsum : ∑ i ∈ range en.length, C (c (first e + i)) * primPoly f (m + 2) x0 ((bval.getD (e + 1) 0 - bval.getD e 0) / 2) (en.getD i 0) = 0 := by
    have h5 : ∑ i ∈ range N, C (c i) * φ e i = ∑ i ∈ range en.length, C (c (first e + i)) * φ e (first e + i) := by
      have h6 : Finset.Ico (first e) (first e + en.length) ⊆ range N := by
        intro x hx
        simp only [Finset.mem_Ico, mem_range] at *
        omega
      rw [← sum_subset h6]
      · rw [sum_Ico_eq_sum_range]; simp
      · intro x _ hx
        simp only [Finset.mem_Ico] at hx
        rw [hout x (by omega), mul_zero]
    rw [h5] at hc
    have h7 := congrArg (fun p => p.comp (C (1 / 2 * (bval.getD e 0 + bval.getD (e + 1) 0)) + C ((bval.getD (e + 1) 0 - bval.getD e 0) / 2) * X)) hc
    have hcs : ∀ (s : Finset Nat) (g : Nat → ℝ[X]) (q : ℝ[X]), (∑ i ∈ s, g i).comp q = ∑ i ∈ s, (g i).comp q :=
      fun s g q => map_sum (compRingHom q) g s
    simp only [hcs, mul_comp, C_comp, zero_comp] at h7
    rw [← h7]
    apply sum_congr rfl
    intro i hi
    congr 1
    rw [h.pieces_unique φ _ hφ h.piece_isPieces e he]
    unfold piece
    rw [if_pos (by omega), Nat.add_sub_cancel_left]
    have hi' := mem_range.1 hi
    rw [k3, List.getElem?_eq_getElem hi']
    simp only [onElement, comp_assoc, mul_comp, sub_comp, X_comp, C_comp]
    have : (C ((bval.getD (e + 1) 0 - bval.getD e 0) / 2)⁻¹ * (C (1 / 2 * (bval.getD e 0 + bval.getD (e + 1) 0)) +
        C ((bval.getD (e + 1) 0 - bval.getD e 0) / 2) * X - C (1 / 2 * (bval.getD e 0 + bval.getD (e + 1) 0))) : ℝ[X]) = X := by
      rw [add_sub_cancel_left, ← mul_assoc, ← C_mul, inv_mul_cancel₀ hsf, C_1, one_mul]
    rw [this, comp_X]
    simp [hi']
  have h8 := list_indep en (k3 ▸ enBlocks_nodup ..) (nov f * (m + 2)) (fun i hi => enBlocks_lt f m e ne zfl zdl zfr zdr i (k3 ▸ hi)) _
    (fun a ha => primPoly_indep f (m + 2) x0 h.nodes _ hsf a ha) (fun i => c (first e + i)) hsum
  intro i hi1 hi2
  have := h8 (i - first e) (by omega)
  simpa [show first e + (i - first e) = i by omega] using this

/-- **C49.** The overlap matrix is symmetric positive definite, for every family, node set, grid and boundary conditions, as soon as the
rule is exact for products of two basis functions. -/
theorem C49_overlap_posdef (h : Basis f n ne zfl zdl zfr zdr x0 bval o N first last) (rule : List (ℝ × ℝ)) (D : Nat)
    (hr : ExactTo rule D) (hD : 2 * ((PolyBasis.mk' f n).noverlap * n - 1) ≤ D)
    (sched : List Nat) (hs : sched.Perm (List.range ne)) :
    ∃ S, feMatrix o x0 0 0 rule (some fun _ => some 1) sched = .ok S ∧ S.rows = N ∧ S.cols = N ∧
      (∀ i < N, ∀ j < N, S.get i j = S.get j i) ∧
      ∀ c : Nat → ℝ, (∃ i < N, c i ≠ 0) → 0 < ∑ i ∈ range N, ∑ j ∈ range N, c i * S.get i j * c j := by
  obtain ⟨φ, hφ, _, _⟩ := C48_pieces h
  obtain ⟨S, s1, s2, s3, s4⟩ := C48_matrix_integrals h φ hφ 0 0 (Nat.zero_le _) (Nat.zero_le _) 1 rule D hr (by simpa using hD) sched hs
  refine ⟨S, by simpa using s1, s2, s3, ?_, ?_⟩
  · intro i hi j hj
    rw [s4 i hi j hj, s4 j hj i hi]
    apply sum_congr rfl; intro e _
    congr 1; funext r; ring
  · rintro c ⟨k, hk, hck⟩
    have hl := h.len
    have e1 : ∑ i ∈ range N, ∑ j ∈ range N, c i * S.get i j * c j = ∑ e ∈ range ne,
        ∫ r in (bval.getD e 0)..(bval.getD (e + 1) 0), (∑ i ∈ range N, C (c i) * φ e i).eval r * (∑ i ∈ range N, C (c i) * φ e i).eval r := by
      rw [sum_congr rfl (fun e _ => (quad_form N (φ e) c (bval.getD e 0) (bval.getD (e + 1) 0)).symm)]
      symm
      rw [sum_comm]
      apply sum_congr rfl; intro i hi
      rw [sum_comm]
      apply sum_congr rfl; intro j hj
      rw [s4 i (mem_range.1 hi) j (mem_range.1 hj), mul_sum, sum_mul]
      simp
    rw [e1]
    have hnn : ∀ e ∈ range ne, 0 ≤ ∫ r in (bval.getD e 0)..(bval.getD (e + 1) 0),
        (∑ i ∈ range N, C (c i) * φ e i).eval r * (∑ i ∈ range N, C (c i) * φ e i).eval r := by
      intro e he
      have := mem_range.1 he
      exact sq_integral_nonneg _ _ _ (getD_lt h.inc e (by omega)).le
    rcases (sum_nonneg hnn).lt_or_eq with hlt | heq
    · exact hlt
    · exfalso
      obtain ⟨l1, l2, l3, l4, l5⟩ := layout f n ne zfl zdl zfr zdr h.nodes.two h.nelem bval h.len o h.built N h.nbf h.pos first last h.idx
      obtain ⟨e, he, ha, hb⟩ := l5 k hk
      have h0 := (sum_eq_zero_iff_of_nonneg hnn).1 heq.symm e (mem_range.2 he)
      exact hck (h.indep φ hφ e he c (sq_integral_zero _ _ _ (getD_lt h.inc e (by omega)) h0) k ha hb)

/-- **C49, derivatives.** The matrix of `∫ φ_i^(d) φ_j^(d)` (for `d = 1`, twice the kinetic energy) is symmetric positive semidefinite. -/
theorem C49_derivative_psd (h : Basis f n ne zfl zdl zfr zdr x0 bval o N first last) (d : Nat) (hd : d ≤ maxN f) (rule : List (ℝ × ℝ)) (D : Nat)
    (hr : ExactTo rule D) (hD : 2 * ((PolyBasis.mk' f n).noverlap * n - 1) ≤ D)
    (sched : List Nat) (hs : sched.Perm (List.range ne)) :
    ∃ S, feMatrix o x0 d d rule (some fun _ => some 1) sched = .ok S ∧ S.rows = N ∧ S.cols = N ∧
      (∀ i < N, ∀ j < N, S.get i j = S.get j i) ∧
      ∀ c : Nat → ℝ, 0 ≤ ∑ i ∈ range N, ∑ j ∈ range N, c i * S.get i j * c j := by
  obtain ⟨φ, hφ, _, _⟩ := C48_pieces h
  obtain ⟨S, s1, s2, s3, s4⟩ := C48_matrix_integrals h φ hφ d d hd hd 1 rule D hr (by simpa using hD) sched hs
  refine ⟨S, by simpa using s1, s2, s3, ?_, ?_⟩
  · intro i hi j hj
    rw [s4 i hi j hj, s4 j hj i hi]
    apply sum_congr rfl; intro e _
    congr 1; funext r; ring
  · intro c
    have hl := h.len
    have e1 : ∑ i ∈ range N, ∑ j ∈ range N, c i * S.get i j * c j = ∑ e ∈ range ne,
        ∫ r in (bval.getD e 0)..(bval.getD (e + 1) 0), (∑ i ∈ range N, C (c i) * derivative^[d] (φ e i)).eval r *
          (∑ i ∈ range N, C (c i) * derivative^[d] (φ e i)).eval r := by
      rw [sum_congr rfl (fun e _ => (quad_form N (fun i => derivative^[d] (φ e i)) c (bval.getD e 0) (bval.getD (e + 1) 0)).symm)]
      symm
      rw [sum_comm]
      apply sum_congr rfl; intro i hi
      rw [sum_comm]
      apply sum_congr rfl; intro j hj
      rw [s4 i (mem_range.1 hi) j (mem_range.1 hj), mul_sum, sum_mul]
      simp
    rw [e1]
    apply sum_nonneg
    intro e he
    have := mem_range.1 he
    exact sq_integral_nonneg _ _ _ (getD_lt h.inc e (by omega)).le

theorem foldl_max_zero : ∀ (l : List ℝ), (∀ x ∈ l, x = 0) → l.foldl max 0 = 0 := by
  intro l
  induction l with
  | nil => intro _; rfl
  | cons a l ih =>
    intro h
    rw [List.foldl_cons, h a (by simp), max_self]
    exact ih fun x hx => h x (by simp [hx])

theorem maxDiff_same (A B : Mat ℝ) (h : ∀ i < A.rows, ∀ j < A.cols, A.get i j = B.get i j) : maxDiff A B = some 0 := by
  unfold maxDiff maxAbs
  rw [foldl_max_zero]
  intro x hx
  simp only [List.mem_flatMap, List.mem_range, List.mem_map] at hx
  obtain ⟨i, hi, j, hj, rfl⟩ := hx
  rw [h i hi j hj, sub_self, abs_zero]

theorem foldl_max_nonneg : ∀ (l : List ℝ) (a : ℝ), 0 ≤ a → 0 ≤ l.foldl max a := by
  intro l
  induction l with
  | nil => intro a h; exact h
  | cons b l ih => intro a h; exact ih _ (le_trans h (le_max_left _ _))

theorem maxAbs_nonneg (A : Mat ℝ) : 0 ≤ maxAbs A := foldl_max_nonneg _ _ le_rfl

/-- the rule of the panel is never coarser than needed -/
theorem converge_exact {A : Type _} (P : A → Prop) (eps sqrteps : ℝ) (heps : 0 < eps) (diff : A → A → Option ℝ) (scale : A → ℝ)
    (hd : ∀ a b, P a → P b → diff a b = some 0) (hsc : ∀ a, 0 ≤ scale a) (cur : Nat → Res A) (nstart nmax : Nat) (h2 : 2 ≤ nstart) (hm : nstart ≤ nmax)
    (hc : ∀ n, nstart ≤ n → ∃ a, cur n = .ok a ∧ P a) :
    ∃ a l, converge eps sqrteps diff scale cur nstart nmax (nmax + 1) = .ok (some (a, l)) ∧ P a := by
  obtain ⟨k, hk⟩ : ∃ k, nmax = k + 1 := ⟨nmax - 1, by omega⟩
  unfold converge
  rw [convergeLoop, max_eq_left h2]
  obtain ⟨a, a1, a2⟩ := hc nstart le_rfl
  simp only [a1, Res.ok_bind]
  by_cases hle : nmax ≤ nstart
  · rw [if_pos hle]; exact ⟨a, _, rfl, a2⟩
  · rw [if_neg hle]
    obtain ⟨b, b1, b2⟩ := hc (min (2 * nstart) nmax) (by omega)
    have : nmax = k + 1 := hk
    rw [show (nmax : Nat) = k + 1 from hk] at *
    rw [convergeLoop]
    simp only [b1, Res.ok_bind]
    rw [if_pos]
    · exact ⟨b, _, rfl, b2⟩
    · rw [hd b a b2 a2]
      simp only [stopTest, leN, Bool.or_eq_true, decide_eq_true_eq]
      left; left
      have := hsc b
      positivity

theorem addPanels_spec (R C : Nat) (I : Nat → Nat → ℝ → ℝ → ℝ) (hadd : ∀ i j x y z, I i j x y + I i j y z = I i j x z)
    (block : ℝ × ℝ → Res (Mat ℝ)) (hb : ∀ p : ℝ × ℝ, ∃ B, block p = .ok B ∧ B.rows = R ∧ B.cols = C ∧ ∀ i < R, ∀ j < C, B.get i j = I i j p.1 p.2) :
    ∀ (d : List ℝ) (x0 a z : ℝ) (T : Mat ℝ), T.rows = R → T.cols = C → (∀ i < R, ∀ j < C, T.get i j = I i j x0 a) →
      (a :: d).getLast? = some z →
      ∃ M, addPanels block T (List.zip (a :: d) d) = .ok M ∧ M.rows = R ∧ M.cols = C ∧ ∀ i < R, ∀ j < C, M.get i j = I i j x0 z := by
  intro d
  induction d with
  | nil =>
    intro x0 a z T h1 h2 h3 h4
    simp only [List.getLast?_singleton, Option.some.injEq] at h4
    subst h4
    exact ⟨T, rfl, h1, h2, h3⟩
  | cons b d ih =>
    intro x0 a z T h1 h2 h3 h4
    obtain ⟨B, b1, b2, b3, b4⟩ := hb (a, b)
    have hadd' : T.add B = .ok ⟨R, C, fun i j => T.get i j + B.get i j⟩ := by
      simp [Mat.add, h1, h2, b2, b3]
    obtain ⟨M, m1, m2, m3, m4⟩ := ih x0 b z ⟨R, C, fun i j => T.get i j + B.get i j⟩ rfl rfl (by
      intro i hi j hj
      simp only
      rw [h3 i hi j hj, b4 i hi j hj, hadd]) (by simpa using h4)
    refine ⟨M, ?_, m2, m3, m4⟩
    rw [List.zip_cons_cons, addPanels]
    simp only [b1, hadd', Res.ok_bind]
    exact m1

/-- **C50.** The self-converging quadrature is exact for polynomial weights: with a Lobatto rule of order `m` exact to degree `2m - 3`, the
matrix consists of the exact integrals whatever the breakpoints, for any positive machine epsilon, provided the declared degree of the weight
is not too low and the total degree is within the range of the largest rule. -/
theorem C50_auto_exact (h : Basis f n ne zfl zdl zfr zdr x0 bval o N first last) (φ : Nat → Nat → ℝ[X])
    (hφ : IsPieces o x0 ne first φ) (d d' : Nat) (hd : d ≤ maxN f) (hd' : d' ≤ maxN f) (G : ℝ[X]) (lob : Nat → List (ℝ × ℝ))
    (hlob : ∀ m, 2 ≤ m → ExactTo (lob m) (2 * m - 3)) (polyDegreeF : Int) (hG : (G.natDegree : Int) ≤ polyDegreeF)
    (hdeg : 2 * ((PolyBasis.mk' f n).noverlap * n - 1) + G.natDegree ≤ 1021)
    (eps sqrteps : ℝ) (heps : 0 < eps) (bps : List ℝ)
    (sched : List Nat) (hs : sched.Perm (List.range ne)) :
    ∃ M, feMatrixAuto eps sqrteps lob o x0 d d' (some fun r => some (G.eval r)) bps polyDegreeF sched = .ok M ∧
      M.rows = N ∧ M.cols = N ∧ ∀ i < N, ∀ j < N,
      M.get i j = ∑ e ∈ range ne, ∫ r in (bval.getD e 0)..(bval.getD (e + 1) 0),
        (derivative^[d] (φ e i)).eval r * (derivative^[d'] (φ e j)).eval r * G.eval r := by
  apply h.assemble φ hφ d d' G
  · intro e he
    have hl := h.len
    have hb : e + 1 < bval.length := by omega
    obtain ⟨xb, dl, q1, q2, q3, ⟨b, d'', q4⟩, q5, q6⟩ := panels_edges bval e hb bps (-1) 1 (by norm_num)
    generalize hco : (fun x : ℝ => 1 / 2 * (bval[e] + bval[e + 1]) + (bval[e + 1] - bval[e]) / 2 * x) = co at *
    have hpoly : o.shape.poly = PolyBasis.mk' f n := by rw [h.shape.1]
    have hnn : (PolyBasis.mk' f n).nnodes = n := by cases f <;> rfl
    have hst : 2 ≤ autoStart (PolyBasis.mk' f n).noverlap (PolyBasis.mk' f n).nnodes polyDegreeF ∧
        autoStart (PolyBasis.mk' f n).noverlap (PolyBasis.mk' f n).nnodes polyDegreeF ≤ 512 ∧
        2 * ((PolyBasis.mk' f n).noverlap * n - 1) + G.natDegree ≤
          2 * autoStart (PolyBasis.mk' f n).noverlap (PolyBasis.mk' f n).nnodes polyDegreeF - 3 := by
      rw [hnn]
      generalize hdd : (PolyBasis.mk' f n).noverlap * n - 1 = bd at *
      unfold autoStart
      rw [hdd]
      simp only
      split_ifs <;> omega
    obtain ⟨hs1, hs2, hs3⟩ := hst
    have hpanel : ∀ p : ℝ × ℝ, ∃ B, convergePanel eps sqrteps lob o.bval e (some (dnfEvaluator o.shape o.bval x0 d))
        (some (dnfEvaluator o.shape o.bval x0 d')) (some fun r => some (G.eval r))
        (autoStart o.shape.poly.noverlap o.shape.poly.nnodes polyDegreeF) 512 p = .ok B ∧
        B.rows = last e + 1 - first e ∧ B.cols = last e + 1 - first e ∧
        ∀ i < last e + 1 - first e, ∀ j < last e + 1 - first e, B.get i j = ∫ r in (co p.1)..(co p.2),
          (derivative^[d] (φ e (first e + i))).eval r * (derivative^[d'] (φ e (first e + j))).eval r * G.eval r := by
      intro p
      rw [hpoly]
      obtain ⟨B, l, r1, r2⟩ := converge_exact (fun B : Mat ℝ => B.rows = last e + 1 - first e ∧ B.cols = last e + 1 - first e ∧
        ∀ i < last e + 1 - first e, ∀ j < last e + 1 - first e, B.get i j = ∫ r in (co p.1)..(co p.2),
          (derivative^[d] (φ e (first e + i))).eval r * (derivative^[d'] (φ e (first e + j))).eval r * G.eval r) eps sqrteps heps maxDiff maxAbs
        (by
          rintro A B ⟨a1, a2, a3⟩ ⟨b1, b2, b3⟩
          apply maxDiff_same
          intro i hi j hj
          rw [a3 i (by omega) j (by omega), b3 i (by omega) j (by omega)])
        maxAbs_nonneg
        (fun m => matElRange o.bval e (some (dnfEvaluator o.shape o.bval x0 d)) (some (dnfEvaluator o.shape o.bval x0 d')) (lob m)
          (some fun r => some (G.eval r)) p.1 p.2)
        (autoStart (PolyBasis.mk' f n).noverlap (PolyBasis.mk' f n).nnodes polyDegreeF) 512 hs1 hs2
        (by
          intro m hm
          obtain ⟨B, b1, b2, b3, b4⟩ := h.elem φ hφ e he d d' hd hd' G (lob m) (2 * m - 3) (hlob m (by omega)) (by omega) p.1 p.2 hb
          refine ⟨B, b1, b2, b3, fun i _ j _ => ?_⟩
          rw [b4 i j, ← hco])
      refine ⟨B, ?_, r2⟩
      unfold convergePanel
      rw [r1]; rfl
    unfold matElAuto
    rw [h.shape.2, q1]
    simp only [Res.ok_bind]
    rw [q2, q4, List.zip_cons_cons, sumPanels]
    rw [← h.shape.2]
    obtain ⟨B, b1, b2, b3, b4⟩ := hpanel (-1, b)
    rw [b1]
    simp only [Res.ok_bind]
    obtain ⟨M, m1, m2, m3, m4⟩ := addPanels_spec (last e + 1 - first e) (last e + 1 - first e)
      (fun i j x y => ∫ r in (co x)..(co y),
          (derivative^[d] (φ e (first e + i))).eval r * (derivative^[d'] (φ e (first e + j))).eval r * G.eval r)
      (by
        intro i j x y z
        have hcont : Continuous fun r => (derivative^[d] (φ e (first e + i))).eval r * (derivative^[d'] (φ e (first e + j))).eval r * G.eval r := by
          fun_prop
        exact intervalIntegral.integral_add_adjacent_intervals (hcont.intervalIntegrable _ _) (hcont.intervalIntegrable _ _))
      _ hpanel d'' (-1) b 1 B b2 b3 b4 (by rw [q4] at q5; exact q5)
    refine ⟨M, m1, m2, m3, ?_⟩
    intro i hi j hj
    rw [m4 i (by omega) j (by omega)]
    have c1 : co (-1) = bval.getD e 0 := by
      rw [← hco]; simp only; rw [(coord_ends _ _).1]; simp [show e < bval.length by omega]
    have c2 : co 1 = bval.getD (e + 1) 0 := by
      rw [← hco]; simp only; rw [(coord_ends _ _).2]; simp [hb]
    rw [c1, c2, h.shape.2]
  · exact hs

/-- there are rules exact to any degree, so that the hypotheses on the rules can be met -/
theorem exists_exact (D : Nat) : ∃ rule, ExactTo rule D := by
  classical
  let v : Nat → ℝ := fun i => i
  have hv : Set.InjOn v (range (D + 1) : Finset Nat) := fun a _ b _ hab => Nat.cast_injective hab
  refine ⟨(List.range (D + 1)).map fun i => (v i, ∫ x in (-1 : ℝ)..1, (Lagrange.basis (range (D + 1)) v i).eval x), ?_⟩
  intro p hp
  have hdeg : p.degree < ((range (D + 1)).card : Nat) := by
    rw [card_range]
    exact lt_of_le_of_lt degree_le_natDegree (by exact_mod_cast Nat.lt_succ_of_le hp)
  rw [List.map_map, sum_map_range]
  conv_rhs => rw [Lagrange.eq_interpolate hv hdeg]
  simp only [Lagrange.interpolate_apply, eval_finsetSum, eval_mul, eval_C, Function.comp]
  rw [intervalIntegral.integral_finsetSum]
  · apply sum_congr rfl
    intro i _
    rw [intervalIntegral.integral_const_mul, mul_comm]
  · intro i _
    apply Continuous.intervalIntegrable
    fun_prop

/-- a concrete basis: linear elements on 0 < 1 < 3, vanishing at the outer boundary -/
theorem basis_example : ∃ o, Basis .lip 2 2 false false true false (fun k => 2 * (k : ℝ) - 1) [0, 1, 3] o 2
    (fun e => e) (fun e => 1) := by
  refine ⟨_, good_two, by omega, rfl, by norm_num, rfl, by decide, by omega, ?_⟩
  intro e he
  interval_cases e <;> rfl

/-- the basis above meets the hypotheses of C48, C49 and C50, with a weight of degree two -/
example : ∃ o S, feMatrix o (fun k => 2 * (k : ℝ) - 1) 0 0 (Classical.choose (exists_exact 2)) (some fun _ => some 1) [1, 0] = .ok S ∧
    ∀ c : Nat → ℝ, (∃ i < 2, c i ≠ 0) → 0 < ∑ i ∈ range 2, ∑ j ∈ range 2, c i * S.get i j * c j := by
  obtain ⟨o, ho⟩ := basis_example
  obtain ⟨S, h1, _, _, _, h2⟩ := C49_overlap_posdef ho _ 2 (Classical.choose_spec (exists_exact 2)) (by decide) [1, 0] (by decide)
  exact ⟨o, S, h1, h2⟩

example : ∃ o M, feMatrixAuto 1 1 (fun m => Classical.choose (exists_exact (2 * m - 3))) o (fun k => 2 * (k : ℝ) - 1) 0 1
    (some fun r => some ((X ^ 2 : ℝ[X]).eval r)) [2, 1 / 2, 2, 7] 2 [0, 1] = .ok M ∧ M.rows = 2 := by
  obtain ⟨o, ho⟩ := basis_example
  obtain ⟨φ, hφ, _, _⟩ := C48_pieces ho
  obtain ⟨M, h1, h2, _, _⟩ := C50_auto_exact ho φ hφ 0 1 (by decide) (by decide) (X ^ 2) _
    (fun m _ => Classical.choose_spec (exists_exact (2 * m - 3))) 2 (by simp) (by simp; decide) 1 1 one_pos [2, 1 / 2, 2, 7] [0, 1] (by decide)
  exact ⟨o, M, h1, h2⟩

/-- the weight 1/r at a point where it is infinite, and a vector without a weight -/
example (o : FEObj ℝ) (x0 : Nat → ℝ) (rule : List (ℝ × ℝ)) : feMatrix o x0 0 0 rule (some fun r => if r = 0 then none else some (1 / r)) [1, 0] =
    feMatrix o x0 0 0 rule (some fun r => some ((if r = 0 then none else some (1 / r)).getD 0)) [1, 0] :=
  C48_nonfinite_weight o x0 0 0 rule _ _

example : ∃ o V, feVector o (fun k => 2 * (k : ℝ) - 1) 0 (Classical.choose (exists_exact 2)) none [1, 0] = .ok V ∧ V.size = 2 := by
  obtain ⟨o, ho⟩ := basis_example
  obtain ⟨φ, hφ, _, _⟩ := C48_pieces ho
  obtain ⟨V, h1, h2, _⟩ := C48_vector_integrals ho φ hφ 0 (by decide) none _ 2 (Classical.choose_spec (exists_exact 2)) (by simp; decide) [1, 0] (by decide)
  exact ⟨o, V, h1, h2⟩

end Assembly
end HelFEM
