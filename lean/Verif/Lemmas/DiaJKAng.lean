import Verif.Spec.DiaJK
import Verif.Model.DiaJK
import Verif.Props.Couplings
import Verif.Props.DiaMultipole
import Verif.Lemmas.AtomicK

/-! Angular couplings of the diatomic Coulomb and exchange matrices. -/

namespace HelFEM
namespace DiaJK
open Finset Spec TwoE Sym Dia Gaunt

theorem modDirect_sphere (lj : Nat) (mj : Int) (L : Nat) (M : Int) (li : Nat) (mi : Int) (h : mj = M + mi) :
    ((modDirect Harm.Spec.gaunt modC0 modC2 lj mj L M li mi : ℝ) : ℂ) =
      Harm.Spec.sphere fun c φ => (starRingEnd ℂ) (Harm.sph lj mj c φ) * ((c ^ 2 : ℝ) : ℂ) * Harm.sph L M c φ * Harm.sph li mi c φ := by
  obtain ⟨n, hn⟩ : ∃ n, n = lj + L + li + 2 := ⟨_, rfl⟩
  obtain ⟨T, v, h1, h2, h3⟩ := Harm.C69_modified n n n (-1) (List.range (max (max n n) n + 1)) (List.Perm.refl _) lj L li mj M mi (by omega) (by omega) (by omega) (by omega)
    (by omega) (Or.inl (by omega))
  obtain ⟨T', k1, k2⟩ := C25_modified Harm.C69_gaunt_symmetric modC0 modC2 n n n (-1) (List.range (max (max n n) n + 1)) (List.Perm.refl _) lj L li mj M mi (by omega) (by omega)
    (by omega) (by omega) (by omega) (Or.inl (by omega)) h
  rw [h1] at k1; cases k1
  rw [h2] at k2; cases k2
  exact h3

theorem sphere_off (lj : Nat) (mj : Int) (L : Nat) (M : Int) (li : Nat) (mi : Int) (h : mj ≠ M + mi) (f : ℝ → ℝ) :
    (Harm.Spec.sphere fun c φ => (starRingEnd ℂ) (Harm.sph lj mj c φ) * (f c : ℂ) * Harm.sph L M c φ * Harm.sph li mi c φ) = 0 := by
  rw [Harm.sphere_triple lj mj L M li mi f, if_neg h, Complex.ofReal_zero]

theorem ang_sel (α : Nat) (a b : Int × Int) (L : Nat) (M : Int) (h : M ≠ a.2 - b.2) : angular α a L M b = 0 := by
  unfold angular
  rw [sphere_off _ _ _ _ _ _ (by omega) (fun c => if α = 0 then c ^ 2 else 1)]
  rfl

theorem ang_zero_eq (a b : Int × Int) (L : Nat) : angular 0 a L (a.2 - b.2) b = modDirect Harm.Spec.gaunt modC0 modC2 a.1.toNat a.2 L (a.2 - b.2) b.1.toNat b.2 := by
  unfold angular
  rw [← Complex.ofReal_re (modDirect _ _ _ _ _ _ _ _ _), modDirect_sphere _ _ _ _ _ _ (by omega)]
  simp

theorem ang_one_eq (a b : Int × Int) (L : Nat) : angular 1 a L (a.2 - b.2) b = direct Harm.Spec.gaunt a.1.toNat a.2 L (a.2 - b.2) b.1.toNat b.2 := by
  unfold angular
  rw [← Complex.ofReal_re (direct _ _ _ _ _ _ _), Harm.direct_sphere]
  simp

theorem ang_other (α : Nat) (h : α ≠ 0) (a b : Int × Int) (L : Nat) (M : Int) : angular α a L M b = angular 1 a L M b := by
  unfold angular
  simp [h]

/-- `direct` outside the selection rules -/
theorem direct_out (l1 : Nat) (m1 : Int) (l2 : Nat) (m2 : Int) (l3 : Nat) (m3 : Int) (h : l1 + l2 < l3 ∨ l1 + l3 < l2 ∨ l2 + l3 < l1) :
    direct Harm.Spec.gaunt l1 m1 l2 m2 l3 m3 = 0 := by
  unfold direct
  rw [Harm.C69_gaunt_selection _ _ _ _ _ _ (Or.inr h), mul_zero]

theorem direct_range (l1 : Nat) (m1 : Int) (l2 : Nat) (m2 : Int) (l3 : Nat) (m3 : Int) (h : (l1 : Int) < |m1| ∨ (l2 : Int) < |m2| ∨ (l3 : Int) < |m3|) :
    direct Harm.Spec.gaunt l1 m1 l2 m2 l3 m3 = 0 := by
  unfold direct
  rw [Harm.C69_gaunt_symmetric.range _ _ _ _ _ _ (by rwa [abs_neg]), mul_zero]

theorem ang_zero (α : Nat) (a b : Int × Int) (ha : 0 ≤ a.1) (hb : 0 ≤ b.1) (L : Nat) (M : Int)
    (h : (L : Int) < |a.1 - b.1| - 2 ∨ a.1 + b.1 + 2 < L ∨ (L : Int) < |M|) : angular α a L M b = 0 := by
  by_cases hm : M = a.2 - b.2
  swap
  · exact ang_sel α a b L M hm
  subst hm
  by_cases h0 : α = 0
  · subst h0
    rw [ang_zero_eq, C25_modified_sum Harm.C69_gaunt_symmetric modC0 modC2 a.1.toNat L b.1.toNat a.2 (a.2 - b.2) b.2 (L + 2 + 1) le_rfl]
    have key : ∀ Lp : Nat, direct Harm.Spec.gaunt Lp (a.2 - b.2) 2 0 L (a.2 - b.2) * direct Harm.Spec.gaunt a.1.toNat a.2 b.1.toNat b.2 Lp (a.2 - b.2) = 0 := by
      intro Lp
      rcases h with h | h | h
      · by_cases hp : L + 2 < Lp
        · rw [direct_out _ _ _ _ _ _ (by omega), zero_mul]
        · rw [direct_out a.1.toNat _ _ _ _ _ (by rcases abs_cases (a.1 - b.1) with ⟨e, _⟩ | ⟨e, _⟩ <;> omega), mul_zero]
      · by_cases hp : Lp + 2 < L
        · rw [direct_out _ _ _ _ _ _ (by omega), zero_mul]
        · rw [direct_out a.1.toNat _ _ _ _ _ (by omega), mul_zero]
      · rw [direct_range Lp _ _ _ _ _ (Or.inr (Or.inr h)), zero_mul]
    have key0 : direct Harm.Spec.gaunt L (a.2 - b.2) 0 0 L (a.2 - b.2) * direct Harm.Spec.gaunt a.1.toNat a.2 b.1.toNat b.2 L (a.2 - b.2) = 0 := by
      rcases h with h | h | h
      · rw [direct_out a.1.toNat _ _ _ _ _ (by rcases abs_cases (a.1 - b.1) with ⟨e, _⟩ | ⟨e, _⟩ <;> omega), mul_zero]
      · rw [direct_out a.1.toNat _ _ _ _ _ (by omega), mul_zero]
      · rw [direct_range L _ _ _ _ _ (Or.inl h), zero_mul]
    rw [key0, sum_eq_zero fun Lp _ => key Lp, mul_zero, mul_zero, add_zero]
  · rw [ang_other α h0, ang_one_eq]
    rcases h with h | h | h
    · exact direct_out _ _ _ _ _ _ (by rcases abs_cases (a.1 - b.1) with ⟨e, _⟩ | ⟨e, _⟩ <;> omega)
    · exact direct_out _ _ _ _ _ _ (by omega)
    · exact direct_range _ _ _ _ _ _ (Or.inr (Or.inl h))

/-- the couplings do not change when all `m` change sign -/
theorem ang_flip (α : Nat) (a b : Int × Int) (L : Nat) (M : Int) : angular α (a.1, -a.2) L (-M) (b.1, -b.2) = angular α a L M b := by
  by_cases hm : M = a.2 - b.2
  swap
  · rw [ang_sel α a b L M hm, ang_sel α _ _ L (-M) (by simp only; omega)]
  subst hm
  have hd : ∀ (l1 : Nat) (m1 : Int) (l2 : Nat) (m2 : Int) (l3 : Nat) (m3 : Int), m1 = m2 + m3 →
      direct Harm.Spec.gaunt l1 (-m1) l2 (-m2) l3 (-m3) = direct Harm.Spec.gaunt l1 m1 l2 m2 l3 m3 := by
    intro l1 m1 l2 m2 l3 m3 hm
    unfold direct
    have e1 : (-m1) % 2 = 0 ↔ m1 % 2 = 0 := by omega
    simp only [e1]
    rw [Harm.C69_gaunt_symmetric.neg _ _ _ _ _ _ (by omega)]
    simp
  have e : -(a.2 - b.2) = ((a.1, -a.2) : Int × Int).2 - ((b.1, -b.2) : Int × Int).2 := by simp only; omega
  by_cases h0 : α = 0
  · subst h0
    rw [e, ang_zero_eq, ang_zero_eq, C25_modified_sum Harm.C69_gaunt_symmetric modC0 modC2 _ L _ _ _ _ (L + 2 + 1) le_rfl,
      C25_modified_sum Harm.C69_gaunt_symmetric modC0 modC2 _ L _ _ _ _ (L + 2 + 1) le_rfl, ← e]
    simp only
    have k0 := hd L (a.2 - b.2) 0 0 L (a.2 - b.2) (by omega)
    rw [neg_zero] at k0
    rw [k0, hd a.1.toNat a.2 b.1.toNat b.2 L (a.2 - b.2) (by omega)]
    congr 2
    apply sum_congr rfl; intro Lp _
    have k2 := hd Lp (a.2 - b.2) 2 0 L (a.2 - b.2) (by omega)
    rw [neg_zero] at k2
    rw [k2, hd a.1.toNat a.2 b.1.toNat b.2 Lp (a.2 - b.2) (by omega)]
  · rw [ang_other α h0, ang_other α h0, e, ang_one_eq, ang_one_eq, ← e]
    exact hd _ _ _ _ _ _ (by omega)

/-- what is known of the basis: the tables of multipoles and the Gaunt table made by the constructor -/
structure Ready (b : Basis) : Prop where
  ne : b.lm ≠ []
  valid : ∀ p ∈ b.lm, |p.2| ≤ p.1
  tables : multipoles b.lm = .ok b.mp
  looks : ∀ x ∈ b.lm, ∀ y ∈ b.lm, ∀ L : Nat, Couples y x L (x.2 - y.2) →
    b.cpl0 x L (x.2 - y.2) y = .ok (angular 0 x L (x.2 - y.2) y) ∧ b.cpl2 x L (x.2 - y.2) y = .ok (angular 1 x L (x.2 - y.2) y)

theorem make_ready (sched : List Nat) (lm : List (Int × Int)) (hne : lm ≠ []) (hv : ∀ p ∈ lm, |p.2| ≤ p.1) (rad : Radial) (Rh : ℝ) (sym : Bool) (t : Multipoles)
    (ht : multipoles lm = .ok t) (hs : ∃ n, sched.Perm (List.range (n + 1)) ∧ (n : Int) = max (t.Lmax + 2) 5) :
    ∃ b, Basis.make Harm.Spec.gaunt sched lm rad Rh sym = .ok b ∧ Ready b ∧ b.lm = lm ∧ b.rad = rad ∧ b.Rhalf = Rh ∧ b.mp = t ∧ b.absmSym = sym := by
  have hl : ∀ p ∈ lm, 0 ≤ p.1 := fun p hp => le_trans (abs_nonneg _) (hv p hp)
  obtain ⟨x0, hx0⟩ := List.exists_mem_of_ne_nil lm hne
  obtain ⟨T, hT, _⟩ := C39_couplings_tabulated Harm.C69_gaunt_symmetric modC0 modC2 lm hl t ht sched hs x0 x0 hx0 hx0
  refine ⟨⟨lm, rad, Rh, t, T, sym⟩, ?_, ⟨hne, hv, ht, ?_⟩, rfl, rfl, rfl, rfl, rfl⟩
  · unfold Basis.make
    rw [ht, Res.ok_bind, hT, Res.ok_bind]
  · intro x hx y hy L hc
    obtain ⟨T', hT', hk⟩ := C39_couplings_tabulated Harm.C69_gaunt_symmetric modC0 modC2 lm hl t ht sched hs y x hy hx
    rw [hT] at hT'; cases hT'
    obtain ⟨k1, k2⟩ := hk L hc
    rw [ang_zero_eq, ang_one_eq]
    exact ⟨k1, k2⟩

end DiaJK
end HelFEM
