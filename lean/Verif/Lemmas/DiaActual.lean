import Verif.Lemmas.DiaKMir
import Verif.Lemmas.DiaTei
import Verif.Lemmas.DiaOne

/-! From the padded functions to the functions of the basis. -/

namespace HelFEM
namespace DiaJK
open Finset Spec TwoE Sym Dia AtomJK

variable (lm : List (Int × Int)) (nrad : Nat)

theorem actual_spec {i : Nat} (hi : i < (DiaOne.Spec.functions lm nrad).length) :
    Physical lm nrad (actual lm nrad i) ∧ actual lm nrad i < lm.length * nrad ∧ orbital lm nrad (actual lm nrad i) = func lm nrad i ∧ actual lm nrad i / nrad = angNo lm nrad i := by
  obtain ⟨p, hp⟩ : ∃ p, p = (DiaOne.Spec.functions lm nrad).getD i (0, 0) := ⟨_, rfl⟩
  have hg : (DiaOne.Spec.functions lm nrad)[i]? = some (p.1, p.2) := by
    rw [hp, List.getD_eq_getElem?_getD, List.getElem?_eq_getElem hi]; rfl
  obtain ⟨h1, h2, h3, h4⟩ := DiaOne.functions_get hg
  have hi' : i < (pureIndices lm nrad).length := by rw [DiaOne.functions_length]; exact hi
  have ha : actual lm nrad i = p.1 * nrad + p.2 := h1
  have hd : actual lm nrad i / nrad = p.1 := by rw [ha]; exact div_at h3
  have hm : actual lm nrad i % nrad = p.2 := by rw [ha, Nat.mul_add_mod', Nat.mod_eq_of_lt h3]
  refine ⟨?_, pure_getD_lt lm nrad i hi', ?_, ?_⟩
  · rw [← mem_pure]
    unfold actual
    rw [getD_lt _ _ hi']
    exact List.getElem_mem hi'
  · unfold orbital func angNo
    rw [hd, hm, ← hp]
  · rw [hd]; unfold angNo; rw [← hp]

theorem actual_inj {i j : Nat} (hi : i < (DiaOne.Spec.functions lm nrad).length) (hj : j < (DiaOne.Spec.functions lm nrad).length) (h : actual lm nrad i = actual lm nrad j) : i = j := by
  rw [← DiaOne.functions_length] at hi hj
  exact pure_inj lm nrad hi hj h

theorem actual_surj {k : Nat} (hk : Physical lm nrad k) : ∃ i < (DiaOne.Spec.functions lm nrad).length, actual lm nrad i = k := by
  rw [← mem_pure] at hk
  obtain ⟨i, hi, rfl⟩ := List.getElem_of_mem hk
  refine ⟨i, by rw [← DiaOne.functions_length]; exact hi, ?_⟩
  unfold actual
  rw [getD_lt _ _ hi]

/-- sums over the padded functions of something that vanishes outside the basis -/
theorem sum_actual (f : Nat → ℝ) (hf : ∀ k < lm.length * nrad, ¬Physical lm nrad k → f k = 0) :
    ∑ k ∈ range (lm.length * nrad), f k = ∑ i ∈ range (DiaOne.Spec.functions lm nrad).length, f (actual lm nrad i) := by
  classical
  symm
  apply sum_bij_ne_zero (fun i _ _ => actual lm nrad i)
  · intro i hi _
    exact Finset.mem_range.2 (actual_spec lm nrad (Finset.mem_range.1 hi)).2.1
  · intro i hi _ j hj _ h
    exact actual_inj lm nrad (Finset.mem_range.1 hi) (Finset.mem_range.1 hj) h
  · intro k hk hne
    have hp : Physical lm nrad k := by
      by_contra hc
      exact hne (hf k (Finset.mem_range.1 hk) hc)
    obtain ⟨i, hi, rfl⟩ := actual_surj lm nrad hp
    exact ⟨i, Finset.mem_range.2 hi, hne, rfl⟩
  · intro i _ _; rfl

theorem sum_actual2 (f : Nat → Nat → ℝ) (hf : ∀ k l, ¬(Physical lm nrad k ∧ Physical lm nrad l) → f k l = 0) :
    ∑ k ∈ range (lm.length * nrad), ∑ l ∈ range (lm.length * nrad), f k l =
      ∑ i ∈ range (DiaOne.Spec.functions lm nrad).length, ∑ j ∈ range (DiaOne.Spec.functions lm nrad).length, f (actual lm nrad i) (actual lm nrad j) := by
  rw [sum_actual lm nrad _ (fun k _ hk => sum_eq_zero fun l _ => hf k l (fun h => hk h.1))]
  apply sum_congr rfl; intro i _
  exact sum_actual lm nrad _ (fun l _ hl => hf _ l (fun h => hl h.2))

/-- screening of blocks is that of the blocks of the padded matrix -/
theorem screened_actual {E : Nat → Nat → ℝ} {P : Nat → Nat → ℝ} (hE : ∀ i < (DiaOne.Spec.functions lm nrad).length, ∀ j < (DiaOne.Spec.functions lm nrad).length, E (actual lm nrad i) (actual lm nrad j) = P i j)
    (hz : ∀ k l, ¬(Physical lm nrad k ∧ Physical lm nrad l) → E k l = 0) (thr : ℝ) {i l : Nat} (hi : i < (DiaOne.Spec.functions lm nrad).length) (hl : l < (DiaOne.Spec.functions lm nrad).length) :
    screened nrad thr E (actual lm nrad i) (actual lm nrad l) = screenedAng (DiaOne.Spec.functions lm nrad).length (angNo lm nrad) thr P i l := by
  unfold screened screenedAng
  rw [hE i hi l hl]
  obtain ⟨_, i2, _, i4⟩ := actual_spec lm nrad hi
  obtain ⟨_, l2, _, l4⟩ := actual_spec lm nrad hl
  have hn : 0 < nrad := Nat.pos_of_ne_zero (by rintro rfl; simp at i2)
  have hx : actual lm nrad i / nrad < lm.length := (Nat.div_lt_iff_lt_mul hn).2 i2
  have hy : actual lm nrad l / nrad < lm.length := (Nat.div_lt_iff_lt_mul hn).2 l2
  have key : ∑ a ∈ range nrad, ∑ b ∈ range nrad, E (actual lm nrad i / nrad * nrad + a) (actual lm nrad l / nrad * nrad + b) * E (actual lm nrad i / nrad * nrad + a) (actual lm nrad l / nrad * nrad + b) =
      ∑ k ∈ range (lm.length * nrad), ∑ m ∈ range (lm.length * nrad), if k / nrad = actual lm nrad i / nrad ∧ m / nrad = actual lm nrad l / nrad then E k m * E k m else 0 := by
    rw [sum_orbitals, sum_eq_single_of_mem _ (Finset.mem_range.2 hx)]
    · apply sum_congr rfl; intro a ha
      rw [sum_orbitals, sum_eq_single_of_mem _ (Finset.mem_range.2 hy)]
      · apply sum_congr rfl; intro b hb
        rw [div_at (Finset.mem_range.1 ha), div_at (Finset.mem_range.1 hb), if_pos ⟨rfl, rfl⟩]
      · intro y _ hne
        apply sum_eq_zero; intro b hb
        rw [div_at (Finset.mem_range.1 hb), if_neg (fun h => hne h.2)]
    · intro x _ hne
      apply sum_eq_zero; intro a ha
      rw [div_at (Finset.mem_range.1 ha)]
      exact sum_eq_zero fun m _ => if_neg (fun h => hne h.1)
  rw [key, sum_actual2 lm nrad _ (fun k m h => by rw [hz k m h]; simp)]
  have : ∀ k ∈ range (DiaOne.Spec.functions lm nrad).length, ∀ m ∈ range (DiaOne.Spec.functions lm nrad).length,
      (if actual lm nrad k / nrad = actual lm nrad i / nrad ∧ actual lm nrad m / nrad = actual lm nrad l / nrad then E (actual lm nrad k) (actual lm nrad m) * E (actual lm nrad k) (actual lm nrad m) else 0) =
      if angNo lm nrad k = angNo lm nrad i ∧ angNo lm nrad m = angNo lm nrad l then P k m * P k m else 0 := by
    intro k hk m hm
    have hk := Finset.mem_range.1 hk
    have hm := Finset.mem_range.1 hm
    rw [hE k hk m hm, i4, l4, (actual_spec lm nrad hk).2.2.2, (actual_spec lm nrad hm).2.2.2]
  rw [sum_congr rfl fun k hk => sum_congr rfl fun m hm => this k hk m hm]

/-- the symmetry of the density in terms of the padded functions -/
theorem symE_actual (hnd : lm.Nodup) (hcl : ∀ p ∈ lm, (p.1, -p.2) ∈ lm) {E : Nat → Nat → ℝ} {P : Nat → Nat → ℝ}
    (hE : ∀ i < (DiaOne.Spec.functions lm nrad).length, ∀ j < (DiaOne.Spec.functions lm nrad).length, E (actual lm nrad i) (actual lm nrad j) = P i j)
    (hz : ∀ k l, ¬(Physical lm nrad k ∧ Physical lm nrad l) → E k l = 0) (hP : AbsmSymmetric (DiaOne.Spec.functions lm nrad).length (func lm nrad) P) : SymE lm nrad E := by
  have hbar : ∀ k < lm.length * nrad, Physical lm nrad k ↔ Physical lm nrad (bar lm nrad k) := by
    intro k hk
    have hn : 0 < nrad := Nat.pos_of_ne_zero (by rintro rfl; simp at hk)
    have hx : k / nrad < lm.length := (Nat.div_lt_iff_lt_mul hn).2 hk
    obtain ⟨_, _, _, b4, b5⟩ := bar_spec hnd hcl hk
    obtain ⟨m1, m2⟩ := mir_spec hcl hx
    unfold Physical
    rw [b4, b5, List.getElem?_eq_getElem hx, List.getElem?_eq_getElem m1]
    rw [getD_lt _ _ m1, getD_lt _ _ hx] at m2
    rw [m2]
    constructor
    · rintro ⟨p, hp, h1, h2⟩
      cases hp
      exact ⟨_, rfl, h1, by simpa using h2⟩
    · rintro ⟨p, hp, h1, h2⟩
      cases hp
      exact ⟨_, rfl, h1, by simpa using h2⟩
  constructor
  · intro k hk l hl hne
    by_cases hp : Physical lm nrad k ∧ Physical lm nrad l
    · obtain ⟨i, hi, rfl⟩ := actual_surj lm nrad hp.1
      obtain ⟨j, hj, rfl⟩ := actual_surj lm nrad hp.2
      rw [hE i hi j hj]
      rw [(actual_spec lm nrad hi).2.2.1, (actual_spec lm nrad hj).2.2.1] at hne
      exact hP.1 i hi j hj hne
    · exact hz k l hp
  · intro k hk l hl
    by_cases hp : Physical lm nrad k ∧ Physical lm nrad l
    · obtain ⟨i', hi', ei⟩ := actual_surj lm nrad ((hbar k hk).1 hp.1)
      obtain ⟨j', hj', ej⟩ := actual_surj lm nrad ((hbar l hl).1 hp.2)
      have fi := (actual_spec lm nrad hi').2.2.1
      have fj := (actual_spec lm nrad hj').2.2.1
      rw [ei, (bar_spec hnd hcl hk).2.2.1] at fi
      rw [ej, (bar_spec hnd hcl hl).2.2.1] at fj
      rw [← ei, ← ej]
      obtain ⟨i, hi, rfl⟩ := actual_surj lm nrad hp.1
      obtain ⟨j, hj, rfl⟩ := actual_surj lm nrad hp.2
      rw [(actual_spec lm nrad hi).2.2.1] at fi
      rw [(actual_spec lm nrad hj).2.2.1] at fj
      rw [hE i hi j hj, hE i' hi' j' hj']
      exact hP.2 i hi j hj i' hi' j' hj' fi.symm fj.symm
    · rw [hz k l hp, hz _ _ (fun h => hp ⟨(hbar k hk).2 h.1, (hbar l hl).2 h.2⟩)]

end DiaJK
end HelFEM
