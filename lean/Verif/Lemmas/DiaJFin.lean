import Verif.Lemmas.DiaJ

/-! The Coulomb matrix of the diatomic basis: the prefactor and the final form. -/

namespace HelFEM
namespace DiaJK
open Finset Spec TwoE Sym Dia AtomJK

theorem fold_fact (s : Nat) (k : Nat) (h : k ≤ s) : ((List.range k).foldl (fun fr i => fr * (((s : Int) - (i : Nat) : Int) : ℝ)) 1) * ((s - k).factorial : ℝ) = (s.factorial : ℝ) := by
  induction k with
  | zero => simp
  | succ k ih =>
    rw [List.range_succ, List.foldl_append, List.foldl_cons, List.foldl_nil, ← ih (by omega)]
    rw [show s - k = (s - (k + 1)) + 1 by omega, Nat.factorial_succ]
    have e : (((s : Int) - (k : Nat) : Int) : ℝ) = ((s - (k + 1) : Nat) : ℝ) + 1 := by
      rw [Nat.cast_sub h]; push_cast; ring
    rw [e]; push_cast; ring

theorem prefactor_eq (Rh : ℝ) (L m : Nat) (h : m ≤ L) : prefactor Rh L m = 4 * Real.pi * Rh ^ 5 * ((L - m).factorial : ℝ) / ((L + m).factorial : ℝ) := by
  unfold prefactor
  have hk := fold_fact (L + m) (2 * m) (by omega)
  rw [show L + m - 2 * m = L - m by omega] at hk
  rw [show (2 * (m : Int)).toNat = 2 * m by omega, ← hk]
  push_cast at hk ⊢
  have h1 : ((L - m).factorial : ℝ) ≠ 0 := by exact_mod_cast (Nat.factorial_pos _).ne'
  have h2 : (((L + m).factorial : Nat) : ℝ) ≠ 0 := by exact_mod_cast (Nat.factorial_pos _).ne'
  rw [← hk] at h2
  have h3 := left_ne_zero_of_mul h2
  field_simp

theorem facOf_eq (Rh : ℝ) (L : Nat) (M : Int) (h : |M| ≤ L) : facOf Rh L M =
    (if M % 2 = 0 then 1 else -1) * (4 * Real.pi * Rh ^ 5 * ((L - M.natAbs).factorial : ℝ) / ((L + M.natAbs).factorial : ℝ)) := by
  unfold facOf signM
  rw [Int.abs_eq_natAbs, prefactor_eq Rh L M.natAbs (by rw [Int.abs_eq_natAbs] at h; omega)]

/-- the radial integrals that the tables hold -/
noncomputable def radialOf (ne : Nat) (first last : Nat → Nat) (Pm Qm : Int → Int → Nat → Nat → Nat → Nat → ℝ) (W : Int → Int → Nat → Nat → Nat → ℝ) (L Ma : Nat) (α β : Nat) :
    Nat → Nat → Nat → Nat → ℝ := fourOf ne first last (Pm L Ma) (Qm L Ma) (W L Ma) α β

/-- the sum over `M` has a single term -/
theorem neumann_single (Rh : ℝ) (nL : Nat) (radial : Nat → Nat → Nat → Nat → Nat → Nat → Nat → Nat → ℝ) (p q r s : (Int × Int) × Nat) (hp : 0 ≤ p.1.1) (hq : 0 ≤ q.1.1) :
    neumann Rh nL radial p q r s = ∑ L ∈ range nL, facOf Rh L (q.1.2 - p.1.2) * ∑ α ∈ range 2, ∑ β ∈ range 2, termSign α β *
      (angular α q.1 L (q.1.2 - p.1.2) p.1 * angular β r.1 L (q.1.2 - p.1.2) s.1) * radial L (q.1.2 - p.1.2).natAbs α β p.2 q.2 r.2 s.2 := by
  unfold neumann
  apply sum_congr rfl; intro L _
  have hzero : ∀ M : Int, (∀ α, angular α q.1 L M p.1 = 0) → ∑ α ∈ range 2, ∑ β ∈ range 2, termSign α β *
      (angular α q.1 L M p.1 * angular β r.1 L M s.1) * radial L M.natAbs α β p.2 q.2 r.2 s.2 = 0 := by
    intro M hM
    apply sum_eq_zero; intro α _
    apply sum_eq_zero; intro β _
    rw [hM]; ring
  rw [sum_single_M L (q.1.2 - p.1.2)]
  · by_cases hL : |q.1.2 - p.1.2| ≤ L
    · rw [facOf_eq Rh L _ hL]
    · rw [hzero _ (fun α => ang_zero α _ _ hq hp L _ (Or.inr (Or.inr (by omega)))), mul_zero, mul_zero]
  · intro M hM
    rw [hzero M (fun α => ang_sel α _ _ L M hM), mul_zero]
  · intro hL
    rw [hzero _ (fun α => ang_zero α _ _ hq hp L _ (Or.inr (Or.inr hL))), mul_zero]

theorem sum_swap {ι : Type _} (s : Finset ι) (n m : Nat) (f : Nat → Nat → Nat → Nat → ι → ℝ) :
    ∑ k ∈ range n, ∑ a ∈ range m, ∑ l ∈ range n, ∑ c ∈ range m, ∑ x ∈ s, f k a l c x = ∑ x ∈ s, ∑ k ∈ range n, ∑ a ∈ range m, ∑ l ∈ range n, ∑ c ∈ range m, f k a l c x := by
  have h1 : ∀ k ∈ range n, ∑ a ∈ range m, ∑ l ∈ range n, ∑ c ∈ range m, ∑ x ∈ s, f k a l c x = ∑ x ∈ s, ∑ a ∈ range m, ∑ l ∈ range n, ∑ c ∈ range m, f k a l c x := by
    intro k _
    have h2 : ∀ a ∈ range m, ∑ l ∈ range n, ∑ c ∈ range m, ∑ x ∈ s, f k a l c x = ∑ x ∈ s, ∑ l ∈ range n, ∑ c ∈ range m, f k a l c x := by
      intro a _
      have h3 : ∀ l ∈ range n, ∑ c ∈ range m, ∑ x ∈ s, f k a l c x = ∑ x ∈ s, ∑ c ∈ range m, f k a l c x := fun l _ => sum_comm
      rw [sum_congr rfl h3, sum_comm]
    rw [sum_congr rfl h2, sum_comm]
  rw [sum_congr rfl h1, sum_comm]

theorem sum_regroup (n m : Nat) (f : Nat → Nat → Nat → Nat → ℝ) :
    ∑ k ∈ range n, ∑ a ∈ range m, ∑ l ∈ range n, ∑ c ∈ range m, f k a l c = ∑ a ∈ range m, ∑ c ∈ range m, ∑ k ∈ range n, ∑ l ∈ range n, f k a l c := by
  rw [sum_comm]
  apply sum_congr rfl; intro a _
  have : ∀ k ∈ range n, ∑ l ∈ range n, ∑ c ∈ range m, f k a l c = ∑ c ∈ range m, ∑ l ∈ range n, f k a l c := fun k _ => sum_comm
  rw [sum_congr rfl this, sum_comm]

variable {b : Basis} {ne : Nat} {first last : Nat → Nat} {c : Ints} {Pm Qm : Int → Int → Nat → Nat → Nat → Nat → ℝ} {W : Int → Int → Nat → Nat → Nat → ℝ}

/-- the stored integrals are those of `Pm`, `Qm` and `W` -/
def Holds (b : Basis) (c : Ints) (ne : Nat) (first last : Nat → Nat) (Pm Qm : Int → Int → Nat → Nat → Nat → Nat → ℝ) (W : Int → Int → Nat → Nat → Nat → ℝ) : Prop :=
  ∀ ilm L Ma, b.mp.lm[ilm]? = some (L, Ma) → SliceOk (c.slice b.rad.nel ilm) ne (cnt first last) (Pm L Ma) (Qm L Ma) (W L Ma)

theorem coulombFull_ok (h : Ready b) (hR : Layout b.rad ne b.rad.nbf first last) (hs : Holds b c ne first last Pm Qm W) (nL : Nat)
    (hnL : ∀ x ∈ b.lm, ∀ y ∈ b.lm, x.1 + y.1 + 2 < nL) (P : Mat ℝ) (p1 : P.rows = b.lm.length * b.rad.nbf) (p2 : P.cols = b.lm.length * b.rad.nbf) :
    ∃ J, (contractKet b P >>= fun Paux => (List.range b.mp.LM.length).foldlM (intStep b c Paux) (auxZero b, auxZero b) >>= fun A => expandBra b A) = .ok J ∧
      J.rows = b.lm.length * b.rad.nbf ∧ J.cols = b.lm.length * b.rad.nbf ∧ ∀ i < b.lm.length * b.rad.nbf, ∀ j < b.lm.length * b.rad.nbf, J.get i j =
        Spec.coulomb (b.lm.length * b.rad.nbf) (fun i j k l => neumann b.Rhalf nL (radialOf ne first last Pm Qm W)
          (orbital b.lm b.rad.nbf i) (orbital b.lm b.rad.nbf j) (orbital b.lm b.rad.nbf k) (orbital b.lm b.rad.nbf l)) P.get i j := by
  obtain ⟨Paux, a1, a2⟩ := contractKet_ok h P p1 p2
  obtain ⟨A, b1, b2⟩ := intLoop_ok h hR hs a2
  obtain ⟨J, j1, j2, j3, j4⟩ := expandBra_ok h b2 nL hnL
  refine ⟨J, by rw [a1, Res.ok_bind, b1, Res.ok_bind, j1], j2, j3, ?_⟩
  intro i hi j hj
  rw [j4 i hi j hj]
  obtain ⟨nrad, hnr⟩ : ∃ n, n = b.rad.nbf := ⟨_, rfl⟩
  obtain ⟨n, hn⟩ : ∃ n, n = b.lm.length := ⟨_, rfl⟩
  rw [← hnr, ← hn] at hi hj ⊢
  have hn0 : 0 < nrad := Nat.pos_of_ne_zero (by rintro rfl; simp at hi)
  have hia := h.pos _ (readAt_lm (hn ▸ (Nat.div_lt_iff_lt_mul hn0).2 hi)).2
  have hja := h.pos _ (readAt_lm (hn ▸ (Nat.div_lt_iff_lt_mul hn0).2 hj)).2
  unfold Spec.coulomb
  rw [sum_orbitals]
  have e : ∀ k ∈ range n, ∑ a ∈ range nrad, ∑ l ∈ range (n * nrad), neumann b.Rhalf nL (radialOf ne first last Pm Qm W)
          (orbital b.lm nrad i) (orbital b.lm nrad j) (orbital b.lm nrad (k * nrad + a)) (orbital b.lm nrad l) * P.get (k * nrad + a) l =
      ∑ a ∈ range nrad, ∑ l ∈ range n, ∑ d ∈ range nrad, ∑ L ∈ range nL, ∑ α ∈ range 2, ∑ β ∈ range 2,
        facOf b.Rhalf L ((orbital b.lm nrad j).1.2 - (orbital b.lm nrad i).1.2) * (termSign α β *
      (angular α (orbital b.lm nrad j).1 L ((orbital b.lm nrad j).1.2 - (orbital b.lm nrad i).1.2) (orbital b.lm nrad i).1 *
        angular β (b.lm.getD k (0, 0)) L ((orbital b.lm nrad j).1.2 - (orbital b.lm nrad i).1.2) (b.lm.getD l (0, 0))) *
        radialOf ne first last Pm Qm W L ((orbital b.lm nrad j).1.2 - (orbital b.lm nrad i).1.2).natAbs α β (orbital b.lm nrad i).2 (orbital b.lm nrad j).2 a d) *
          P.get (k * nrad + a) (l * nrad + d) := by
    intro k _
    apply sum_congr rfl; intro a ha
    rw [sum_orbitals]
    apply sum_congr rfl; intro l _
    apply sum_congr rfl; intro d hd
    rw [orbital_at b.lm nrad k a (Finset.mem_range.1 ha), orbital_at b.lm nrad l d (Finset.mem_range.1 hd), neumann_single _ _ _ _ _ _ _ hia hja]
    simp only [mul_sum, sum_mul]
  rw [sum_congr rfl e, sum_swap]
  apply sum_congr rfl; intro L _
  rw [sum_swap]
  apply sum_congr rfl; intro α _
  rw [sum_swap, mul_sum, mul_sum]
  apply sum_congr rfl; intro β _
  rw [sum_regroup]
  simp only [mul_sum]
  apply sum_congr rfl; intro a _
  apply sum_congr rfl; intro d _
  apply sum_congr rfl; intro k _
  apply sum_congr rfl; intro l _
  unfold radialOf orbital
  simp only [Int.toNat_natCast, Int.abs_eq_natAbs]
  ring

/-- the function with number `i` among those that are not removed at the boundary -/
def actual (lm : List (Int × Int)) (nrad i : Nat) : Nat := (pureIndices lm nrad).getD i 0

theorem coulomb_ok (h : Ready b) (hR : Layout b.rad ne b.rad.nbf first last) (hs : Holds b c ne first last Pm Qm W) (hB : c.B.length ≠ 0) (hr : 1 ≤ b.rad.nbf) (nL : Nat)
    (hnL : ∀ x ∈ b.lm, ∀ y ∈ b.lm, x.1 + y.1 + 2 < nL) (P : Mat ℝ) (p1 : P.rows = diaNbf b.lm b.rad.nbf) (p2 : P.cols = diaNbf b.lm b.rad.nbf) :
    ∃ E J, expandBoundaries b.lm b.rad.nbf P = .ok E ∧ coulomb b c P = .ok J ∧ J.rows = diaNbf b.lm b.rad.nbf ∧ J.cols = diaNbf b.lm b.rad.nbf ∧
      ∀ i < J.rows, ∀ j < J.cols, J.get i j =
        Spec.coulomb (b.lm.length * b.rad.nbf) (fun i j k l => neumann b.Rhalf nL (radialOf ne first last Pm Qm W)
          (orbital b.lm b.rad.nbf i) (orbital b.lm b.rad.nbf j) (orbital b.lm b.rad.nbf k) (orbital b.lm b.rad.nbf l)) E.get (actual b.lm b.rad.nbf i) (actual b.lm b.rad.nbf j) := by
  obtain ⟨E, e1, e2, e3, _⟩ := C38_expand b.lm b.rad.nbf hr P p1 p2
  obtain ⟨J, j1, j2, j3, j4⟩ := coulombFull_ok h hR hs nL hnL E e2 e3
  have hlt : ∀ i < (pureIndices b.lm b.rad.nbf).length, actual b.lm b.rad.nbf i < b.lm.length * b.rad.nbf := by
    intro i hi
    exact pure_getD_lt b.lm b.rad.nbf i hi
  refine ⟨E, ⟨(pureIndices b.lm b.rad.nbf).length, (pureIndices b.lm b.rad.nbf).length, fun i j => J.get (actual b.lm b.rad.nbf i) (actual b.lm b.rad.nbf j)⟩, e1, ?_,
    (diaNbf_eq b.lm b.rad.nbf hr).symm, (diaNbf_eq b.lm b.rad.nbf hr).symm, ?_⟩
  · unfold coulomb
    rw [if_neg hB, e1, Res.ok_bind]
    have hj : (contractKet b E >>= fun Paux => (List.range b.mp.LM.length).foldlM (intStep b c Paux) (auxZero b, auxZero b) >>= fun A => expandBra b A >>= fun J => removeBoundaries b.lm b.rad.nbf J) =
        ((contractKet b E >>= fun Paux => (List.range b.mp.LM.length).foldlM (intStep b c Paux) (auxZero b, auxZero b) >>= fun A => expandBra b A) >>= fun J => removeBoundaries b.lm b.rad.nbf J) := by
      simp only [bind_assoc]
    rw [hj, j1, Res.ok_bind, removeBoundaries, if_neg (by rw [j2, j3]; simp [nDummy])]
    rfl
  · intro i hi j hj
    exact j4 _ (hlt i hi) _ (hlt j hj)

end DiaJK
end HelFEM
