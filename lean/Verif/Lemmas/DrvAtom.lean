import Verif.Lemmas.DrvGrid
import Verif.Lemmas.SadKernel
import Verif.Props.AtomicJK

/-!
# The atomic driver's routines compute with one theory
-/

namespace HelFEM
namespace Drv

open Finset Spec AtomJK TwoE HelFEM.Spec

/-- none of the density's blocks between two angular functions is dropped by the screening of the exchange matrix -/
def Unscreened (n nrad : Nat) (thr : ℝ) (P : Nat → Nat → ℝ) : Prop := ∀ i < n, ∀ j < n, screened nrad thr P i j = P i j

theorem plain_same {G : Nat → Int → Nat → Int → Nat → Int → ℝ} {lm : List (Int × Int)} {R : Radial} {c c' : Caches} (h1 : c'.small = c.small) (h2 : c'.big = c.big) (h3 : c'.chol = c.chol)
    (sched : List Nat) (order : List (Nat × Nat)) (thr : ℝ) :
    coulomb G sched lm R c' = coulomb G sched lm R c ∧ exchange G sched order lm R c' thr = exchange G sched order lm R c thr := by
  have eJ : radialJ R c' = radialJ R c := by funext L P; unfold radialJ; rw [h1, h2, h3]
  have eK : radialK R c' = radialK R c := by funext L P; unfold radialK; rw [h1, h2, h3]
  constructor
  · funext P; unfold AtomJK.coulomb; rw [h3, eJ]
  · funext P; unfold AtomJK.exchange; rw [h3, eK]

section
variable {G : Nat → Int → Nat → Int → Nat → Int → ℝ} {fac : Nat → ℝ} {radial : Nat → Nat → Nat → Nat → Nat → ℝ} {lm : List (Int × Int)} {nl nrad : Nat}
  (hG : Gaunt.Symmetric G) (hS : Selection G) (h1 : ∀ L < nl, ∀ a b c d, radial L a b c d = radial L b a c d) (h3 : ∀ L < nl, ∀ a b c d, radial L a b c d = radial L c d a b)
include hG hS h1 h3

theorem eri_transpose (i j k l : Nat) : basisEri G fac nl radial lm nrad i j k l = basisEri G fac nl radial lm nrad j i l k :=
  C60_eri_conj hG hS _ _ _ h1 (fun L hL a b c d => by rw [h3 L hL, h1 L hL, h3 L hL]) _ _ _ _

theorem eri_reverse (i j k l : Nat) : basisEri G fac nl radial lm nrad i j k l = basisEri G fac nl radial lm nrad l k j i := C60_eri_electrons _ _ _ h1 h3 _ _ _ _

theorem eri_swap (i j k l : Nat) : basisEri G fac nl radial lm nrad i j k l = basisEri G fac nl radial lm nrad k l i j :=
  (C60_eri_electrons _ _ _ h1 h3 _ _ _ _).trans (eri_transpose hG hS h1 h3 (fac := fac) l k j i)

end

/-- the exchange matrix of a symmetric density is symmetric, whatever the screening drops -/
theorem exchange_symmOn {x : Nat → Nat → Nat → Nat → ℝ} (hx : ∀ i j k l, x i j k l = x l k j i) {n nrad : Nat} {thr : ℝ} {P : Nat → Nat → ℝ} (hP : Symmetric P) {N : Nat} (hN : N = n * nrad) {K : Mat ℝ}
    (hK : ∀ j < N, ∀ k < N, K.get j k = -∑ i ∈ range N, ∑ l ∈ range N, x i j k l * screened nrad thr P i l) : SymmOn N K.get := by
  intro i hi j hj
  have hn : 0 < nrad := Nat.pos_of_ne_zero (by rintro rfl; simp [hN] at hi)
  rw [hK i hi j hj, hK j hj i hi, sum_comm]
  congr 1
  refine sum_congr rfl fun k hk => sum_congr rfl fun l hl => ?_
  rw [hx l i j k, screened_symm nrad thr P n hn (fun a _ b _ => hP a b) l k (hN ▸ Finset.mem_range.1 hl) (hN ▸ Finset.mem_range.1 hk)]

section atom
variable {s : Setup} {G : Nat → Int → Nat → Int → Nat → Int → ℝ} {lm : List (Int × Int)} {lmax : Nat} {R : Radial} {ne nrad : Nat} {first last : Nat → Nat} {pr : Prims}
  {S B T : Nat → Nat → Mat ℝ} {tol thr omega : ℝ} {env : XC.Libxc} {elems : List XC.AtomElem} {sched : List Nat} {order : List (Nat × Nat)}
  (hG : Gaunt.Symmetric G) (hS : Selection G) (hA : Angular lm lmax) (h : TwoE.Layout R ne nrad first last) (hne : 0 < ne) (hI : Ints pr.small pr.big pr.twoe (2 * lmax + 1) ne first last S B T)
  (ht : 0 ≤ tol) (hs : sched.Perm (List.range (2 * lmax + 1))) (ho : order.Perm (allPairs lm.length)) (hN : s.N = lm.length * nrad) (hN0 : 0 < s.N)
  (hx : XC.Spec.Usable env s.fn.x s.fn.xp) (hc : XC.Spec.Usable env s.fn.c s.fn.cp) (hidx : ∀ e ∈ elems, ∀ i ∈ e.idx, i < s.N)
  (hl : s.restricted = false → XC.useLapl env s.fn = true → 0 < s.nelb ∧ XC.useTau env s.fn = true)
include hG hS hA h hne hI ht hs ho hN hN0 hx hc hidx hl

/-- the part that does not depend on the screened kernel -/
theorem atom_plain (c0 : Caches) : ∃ c, computeTei lm R pr tol c0 = .ok c ∧ ∃ T', Approx (2 * lmax + 1) ne first last tol T T' ∧
    ∀ (c' : Caches) (κ : Nat → Nat → Nat → Nat → ℝ), c'.small = c.small ∧ c'.big = c.big ∧ c'.chol = c.chol →
      (s.kshort ≠ 0 → ExchangeIs s.N (rsExchange G sched order lm R c' thr) Symmetric (Unscreened s.N nrad thr) κ) →
      Represents s (atomEngine G sched order lm R c' thr env elems)
        ⟨basisEri G bareFac (2 * lmax + 1) (radialOf ne first last S B T') lm nrad, basisEri G bareFac (2 * lmax + 1) (radialOf ne first last S B T') lm nrad, κ, env,
          elems.flatMap XC.Spec.atomPoints, some⟩ Symmetric (Unscreened s.N nrad thr) ∧
      ((s.kshort ≠ 0 → ∀ P K, Symmetric P → rsExchange G sched order lm R c' thr (mat s.N P) = .ok K → SymmOn s.N K.get) →
        Keeps s (atomEngine G sched order lm R c' thr env elems) Symmetric (SymmOn s.N)) := by
  obtain ⟨c, h1, T', hT, hJ, hK⟩ := C60_coulomb_exchange hG hS hA h hne pr hI tol ht c0
  have r1 := radialOf_pair h hI hT
  have r3 := fun L hL a b c d => radialOf_swap (S := S) (B := B) h hT L hL a b c d
  refine ⟨c, h1, T', hT, fun c' κ hcc hκ => ?_⟩
  obtain ⟨e1, e2⟩ := plain_same (G := G) (lm := lm) (R := R) hcc.1 hcc.2.1 hcc.2.2 sched order thr
  refine ⟨⟨fun P hP => ?_, fun i _ j _ k _ l _ => eri_swap hG hS r1 r3 i j k l, fun _ => ⟨fun P hP hk => ?_, fun i _ j _ k _ l _ => eri_transpose hG hS r1 r3 i j k l⟩, hκ, fun _ => ?_, fun hr => ?_⟩, fun hs' => ⟨fun P J hP hJ' => ?_, fun _ P K hP hK' => ?_, hs', fun _ P r hP hr => ?_, fun hr A B r hA hB he => ?_⟩⟩
  · obtain ⟨J, j1, j2, j3, j4⟩ := hJ sched hs (mat s.N P) hN hN
    rw [← hN] at j2 j3 j4
    exact ⟨J, by show coulomb G sched lm R c' _ = _; rw [e1]; exact j1, ⟨j2, j3⟩, j4⟩
  · obtain ⟨K, j1, j2, j3, j4⟩ := hK sched hs order ho thr (mat s.N P) hN hN
    rw [← hN] at j2 j3 j4
    refine ⟨K, by show exchange G sched order lm R c' thr _ = _; rw [e2]; exact j1, ⟨j2, j3⟩, fun j hj k hk' => ?_⟩
    rw [j4 j hj k hk']
    congr 1
    refine sum_congr rfl fun i hi => sum_congr rfl fun l hl => ?_
    rw [show screened nrad thr (mat s.N P).get i l = P i l from hk i (Finset.mem_range.1 hi) l (Finset.mem_range.1 hl)]
  · exact grid1_curve (atom_grid1 hx hc hN0 hidx rfl rfl rfl)
  · exact grid2_curve (atom_grid2 hx hc hN0 hidx _ (fun hu => ⟨by simpa using (hl hr hu).1, (hl hr hu).2⟩) rfl rfl rfl)
  · obtain ⟨J', j1, _, _, j4⟩ := hJ sched hs (mat s.N P) hN hN
    rw [← hN] at j4
    rw [show (atomEngine G sched order lm R c' thr env elems).coulomb = _ from e1, j1] at hJ'
    injection hJ' with hJ'
    subst hJ'
    intro i hi j hj
    rw [j4 i hi j hj, j4 j hj i hi, sum_comm]
    refine sum_congr rfl fun k _ => sum_congr rfl fun l _ => ?_
    rw [eri_transpose hG hS r1 r3 i j l k]
    exact congrArg _ (hP l k)
  · obtain ⟨K', j1, _, _, j4⟩ := hK sched hs order ho thr (mat s.N P) hN hN
    rw [← hN] at j4
    rw [show (atomEngine G sched order lm R c' thr env elems).exchange = _ from e2, j1] at hK'
    injection hK' with hK'
    subst hK'
    exact exchange_symmOn (eri_reverse hG hS r1 r3) hP hN j4
  · obtain ⟨t, h1, ha⟩ := XC.atomGrid1_ok hx hc hN0 (symm_mat (N := s.N) hP) elems hidx
    rw [show (atomEngine G sched order lm R c' thr env elems).xc1 s.fn (mat s.N P) = XC.atomGrid1 env s.fn (mat s.N P) elems >>= fun t => .ok (t.H, t.exc) from rfl, h1, Res.ok_bind] at hr
    injection hr with hr
    subst hr
    exact ha.symm.2.2
  · obtain ⟨t, h1, ha⟩ := XC.atomGrid2_ok hx hc hN0 (symm_mat (N := s.N) hA) (symm_mat (N := s.N) hB) (0 < s.nelb) (fun hu => by simpa using (hl hr hu).1) elems hidx
    rw [show (atomEngine G sched order lm R c' thr env elems).xc2 s.fn (mat s.N A) (mat s.N B) (0 < s.nelb) =
      XC.atomGrid2 env s.fn (mat s.N A) (mat s.N B) (0 < s.nelb) elems >>= fun t => .ok (t.Ha, t.Hb, t.exc) from rfl, h1, Res.ok_bind] at he
    injection he with he
    subst he
    exact ⟨ha.symm.1.2.2, ha.symm.2.2.2⟩

end atom

end Drv
end HelFEM
