import Verif.Lemmas.SadKernel
import Verif.Props.SadXC
import Mathlib.Analysis.Matrix.Spectrum
import Mathlib.Analysis.SpecialFunctions.Trigonometric.Deriv

/-!
# C75: the Fock builder of the spherically averaged atom

The energy handed to the solver is the energy functional of the density matrices, in both spin modes, and the Fock blocks are its derivative: the change of the energy along any motion of
the orbitals or occupations is the trace of the Fock blocks with the change of the density.
-/

namespace HelFEM
namespace SadSCF

open Matrix Finset XC AtomJK HelFEM.Spec TwoE

section prepare
variable {s : Setup} {ne : Nat} {first last : Nat → Nat} {S B T : Nat → Nat → Mat ℝ}
  (hG : Gaunt.Symmetric s.G) (hS : Selection s.G) (h : Layout s.R ne s.N first last) (hne : 0 < ne) (hI : Ints s.pr.small s.pr.big s.pr.twoe (2 * s.lmax + 1) ne first last S B T) (ht : 0 ≤ s.tol)
include hG hS h hne hI ht

/-- the unscreened part of every case -/
theorem plain_ok (c0 : Caches) : ∃ c, computeTei (sadL s.lmax) s.R s.pr s.tol c0 = .ok c ∧ ∃ T', Approx (2 * s.lmax + 1) ne first last s.tol T T' ∧
    ∀ (c' : Caches) (κ : Nat → Nat → Nat → Nat → Nat → Nat → ℝ), c'.small = c.small ∧ c'.big = c.big ∧ c'.chol = c.chol →
      (s.kshort ≠ 0 → Spec.ExchangeIs s (fun sched order P => AtomJK.sadRsExchange s.G sched order s.lmax s.R c' P) κ ∧ Spec.ExchangeSymm κ) →
      Spec.Represents s c' ⟨radialOf ne first last S B T' 0, Spec.shellKernel s.G bareFac s.lmax (radialOf ne first last S B T'), κ⟩ := by
  obtain ⟨c, h1, T', hT, hJ, hK⟩ := C64_exchange (lmax := s.lmax) hG hS h hne s.pr hI s.tol ht c0
  refine ⟨c, h1, T', hT, fun c' κ hc hκ => ?_⟩
  obtain ⟨e1, e2⟩ := plain_congr (G := s.G) (R := s.R) hc.1 hc.2.1 hc.2.2
  refine ⟨fun P p1 p2 => by rw [e1]; exact hJ P p1 p2, radialOf_pair h hI hT 0 (by omega), radialOf_swap h hT 0 (by omega), ?_, ?_, fun hs => (hκ hs).1, fun hs => (hκ hs).2⟩
  · intro sched hs order ho P p0 pd
    obtain ⟨K, k1, k2, k3⟩ := hK sched hs order ho P p0 pd
    refine ⟨K, by beta_reduce; rw [e2]; exact k1, k2, fun l hl => ?_⟩
    obtain ⟨X, x1, x2, x3, x4⟩ := k3 l hl
    exact ⟨X, x1, x2, x3, fun a ha b hb => by rw [x4 a ha b hb]; exact shell_sum _ _ _ _ _ fun li c d => (P.getD li (Mat.zero 0 0)).get c d⟩
  · exact shell_symm hG hS s.lmax (fun L hL => radialOf_pair h hI hT L hL) fun L hL => radialOf_swap h hT L hL

/-- **C75, integrals.** Before the solver starts the Coulomb integrals are computed, and the builder works with them: without screened exchange, -/
theorem C75_prepare (hk : s.kshort = 0) (c0 : Caches) : ∃ c, prepare s c0 = .ok c ∧ ∃ T', Approx (2 * s.lmax + 1) ne first last s.tol T T' ∧
    ∀ κ, Spec.Represents s c ⟨radialOf ne first last S B T' 0, Spec.shellKernel s.G bareFac s.lmax (radialOf ne first last S B T'), κ⟩ := by
  obtain ⟨c, h1, T', hT, hr⟩ := plain_ok hG hS h hne hI ht c0
  refine ⟨c, ?_, T', hT, fun κ => hr c κ ⟨rfl, rfl, rfl⟩ fun hs => absurd hk hs⟩
  unfold prepare
  rw [h1, Res.ok_bind, if_neg fun hc => hc.1 hk, if_neg fun hc => hc.1 hk]

/-- with a Yukawa screened exchange, -/
theorem C75_prepare_yukawa (hk : s.kshort ≠ 0) (hy : s.yukawa = true) {S' B' Y : Nat → Nat → Mat ℝ}
    (hY : Ints (s.pr.besselI s.omega) (s.pr.besselK s.omega) (s.pr.yukawa s.omega) (2 * s.lmax + 1) ne first last S' B' Y) (c0 : Caches) :
    ∃ c, prepare s c0 = .ok c ∧ ∃ T' Y', Approx (2 * s.lmax + 1) ne first last s.tol T T' ∧ Approx (2 * s.lmax + 1) ne first last s.tol Y Y' ∧
      Spec.Represents s c ⟨radialOf ne first last S B T' 0, Spec.shellKernel s.G bareFac s.lmax (radialOf ne first last S B T'),
        Spec.shellKernel s.G (fun _ => 4 * Real.pi * s.omega) s.lmax (radialOf ne first last S' B' Y')⟩ := by
  obtain ⟨c, h1, T', hT, hr⟩ := plain_ok hG hS h hne hI ht c0
  obtain ⟨c', h2, Y', hY', hK⟩ := C64_yukawa (lmax := s.lmax) hG hS h hne s.pr s.omega hY s.tol ht c
  refine ⟨c', ?_, T', Y', hT, hY', hr c' _ (screened_keeps s.pr (.yukawa s.tol s.omega) rfl h2) fun _ => ⟨?_, ?_⟩⟩
  · unfold prepare
    rw [h1, Res.ok_bind, if_pos ⟨hk, hy⟩, h2]
  · intro sched hs order ho P p0 pd
    obtain ⟨K, k1, k2, k3⟩ := hK sched hs order ho P p0 pd
    refine ⟨K, k1, k2, fun l hl => ?_⟩
    obtain ⟨X, x1, x2, x3, x4⟩ := k3 l hl
    exact ⟨X, x1, x2, x3, fun a ha b hb => by rw [x4 a ha b hb]; exact shell_sum _ _ _ _ _ fun li c d => (P.getD li (Mat.zero 0 0)).get c d⟩
  · exact shell_symm hG hS s.lmax (fun L hL => radialOf_pair h hY hY' L hL) fun L hL => radialOf_swap h hY' L hL

/-- with an error function screened one. -/
theorem C75_prepare_erfc (hk : s.kshort ≠ 0) (hy : s.yukawa = false) (he : s.erfc = true) {E : Nat → Nat → Nat → Mat ℝ}
    (hE : PairInts (s.pr.erfc s.omega) (2 * s.lmax + 1) ne first last E) (hw : Spec.Swaps (2 * s.lmax + 1) ne first last E) (c0 : Caches) :
    ∃ c, prepare s c0 = .ok c ∧ ∃ T', Approx (2 * s.lmax + 1) ne first last s.tol T T' ∧
      Spec.Represents s c ⟨radialOf ne first last S B T' 0, Spec.shellKernel s.G bareFac s.lmax (radialOf ne first last S B T'),
        Spec.shellKernel s.G (fun L => 4 * Real.pi * s.omega / (2 * L + 1)) s.lmax fun L => fourIndex ne first last fun e1 e2 a b c d =>
          (E L e1 e2).get (b * (last e1 + 1 - first e1) + a) (d * (last e2 + 1 - first e2) + c)⟩ := by
  obtain ⟨c, h1, T', hT, hr⟩ := plain_ok hG hS h hne hI ht c0
  obtain ⟨c', h2, hK⟩ := C64_erfc (lmax := s.lmax) hG hS h hne s.pr s.omega hE c
  refine ⟨c', ?_, T', hT, hr c' _ (screened_keeps s.pr (.erfc s.omega) rfl h2) fun _ => ⟨?_, ?_⟩⟩
  · unfold prepare
    rw [h1, Res.ok_bind, if_neg (by rw [hy]; simp), if_pos ⟨hk, he⟩, h2]
  · intro sched hs order ho P p0 pd
    obtain ⟨K, k1, k2, k3⟩ := hK sched hs order ho P p0 pd
    refine ⟨K, k1, k2, fun l hl => ?_⟩
    obtain ⟨X, x1, x2, x3, x4⟩ := k3 l hl
    exact ⟨X, x1, x2, x3, fun a ha b hb => by rw [x4 a ha b hb]; exact shell_sum _ _ _ _ _ fun li c d => (P.getD li (Mat.zero 0 0)).get c d⟩
  · exact shell_symm hG hS s.lmax (fun L hL => erfc_pair hE L hL) fun L hL => erfc_swap hw L hL

end prepare

/-! ### A setup for the examples -/

/-- three radial functions on two elements, two orthonormal ones, s and p shells, a confinement, a hybrid functional of a density and a gradient part -/
noncomputable def exSetup (restricted : Bool) (nelb : Int) (kshort : ℝ) (yukawa : Bool) : Setup where
  N := 3
  M := 2
  lmax := 1
  restricted := restricted
  nelb := nelb
  haveConf := true
  T := diagonal fun i => (i : ℝ) + 1
  Tl := diagonal fun i => 1 / ((i : ℝ) + 1)
  Vnuc := Matrix.of fun i j => -1 / ((i : ℝ) + j + 1)
  Vconf := diagonal fun i => (i : ℝ) ^ 2
  X := Matrix.of fun i j => if (i : Nat) = j then 1 else if (i : Nat) = 2 then 1 / 2 else 0
  kfrac := 1 / 4
  kshort := kshort
  omega := 2
  erfc := !yukawa
  yukawa := yukawa
  env := toy
  fn := ⟨2, [], 1, [], 0⟩
  G := realG
  R := exR
  pr := exPrims
  tol := 1 / 100
  elems := [toySad, toySad]

theorem exOne (r : Bool) (nb : Int) (ks : ℝ) (y : Bool) : Spec.OneSymm (exSetup r nb ks y) where
  T := diagonal_transpose _
  Tl := diagonal_transpose _
  Vnuc := by
    ext (i : Fin 3) (j : Fin 3)
    show -1 / ((j : ℝ) + i + 1) = -1 / ((i : ℝ) + j + 1)
    rw [add_comm (j : ℝ)]
  Vconf := diagonal_transpose _

theorem exGrid (r : Bool) (nb : Int) (ks : ℝ) (y : Bool) : Spec.GridOk (exSetup r nb ks y) where
  x := toy_usable (by norm_num [exSetup]) _ rfl
  c := toy_usable (by norm_num [exSetup]) _ rfl
  idx := by
    intro e he i hi
    simp only [exSetup, List.mem_cons, List.not_mem_nil, or_false, or_self] at he
    subst he
    have : i < 1 := toySad_idx toySad (by simp) i hi
    show i < 3
    omega
  r := by
    intro e he p
    simp only [exSetup, List.mem_cons, List.not_mem_nil, or_false, or_self] at he
    subst he
    exact toySad_r toySad (by simp) p

/-- iterations run out of order -/
noncomputable def exSched : Sched := ⟨[2, 0, 1], [1, 0], [1, 0, 2], [0, 1], [toySad, toySad]⟩

theorem exComplete (r : Bool) (nb : Int) (ks : ℝ) (y : Bool) : Spec.Complete (exSetup r nb ks y) exSched where
  gaunt := show [2, 0, 1].Perm (List.range 3) by decide
  lout := show [1, 0].Perm (List.range 2) by decide
  gaunt' := show [1, 0, 2].Perm (List.range 3) by decide
  lout' := show [0, 1].Perm (List.range 2) by decide
  elems := List.Perm.refl _

theorem exPlain (r : Bool) (nb : Int) (y : Bool) : ∃ c k, prepare (exSetup r nb 0 y) (Caches.fresh false 0) = .ok c ∧ Spec.Represents (exSetup r nb 0 y) c k := by
  obtain ⟨c, h1, T', _, h2⟩ := C75_prepare (s := exSetup r nb 0 y) realG_symmetric realG_selection exLayout (by decide) exInts (by norm_num [exSetup]) rfl (Caches.fresh false 0)
  exact ⟨c, _, h1, h2 fun _ _ _ _ _ _ => 0⟩

theorem exYuk (r : Bool) (nb : Int) : ∃ c k, prepare (exSetup r nb (1 / 2) true) (Caches.fresh false 0) = .ok c ∧ Spec.Represents (exSetup r nb (1 / 2) true) c k := by
  obtain ⟨c, h1, T', Y', _, _, h2⟩ := C75_prepare_yukawa (s := exSetup r nb (1 / 2) true) realG_symmetric realG_selection exLayout (by decide) exInts (by norm_num [exSetup])
    (by norm_num [exSetup]) rfl (exYukawa 2) (Caches.fresh false 0)
  exact ⟨c, _, h1, h2⟩

theorem exErf (r : Bool) (nb : Int) : ∃ c k, prepare (exSetup r nb (1 / 2) false) (Caches.fresh false 0) = .ok c ∧ Spec.Represents (exSetup r nb (1 / 2) false) c k := by
  obtain ⟨c, h1, T', _, h2⟩ := C75_prepare_erfc (s := exSetup r nb (1 / 2) false) realG_symmetric realG_selection exLayout (by decide) exInts (by norm_num [exSetup])
    (by norm_num [exSetup]) rfl rfl (exErfc 2) (fun L _ e1 _ e2 _ r _ c _ => by simp only; ring) (Caches.fresh false 0)
  exact ⟨c, _, h1, h2⟩

/-- two orbitals in each shell, with different occupations -/
noncomputable def exOrbs (x : ℝ) (l : Nat) : Dens.Orbs 2 := ⟨2, 1, ![x, (l : ℝ) / 2]⟩

theorem exPhysical {x : ℝ} (hx : 0 ≤ x) (l : Nat) : Spec.Physical (exOrbs x l) := by
  have : ∀ i : Fin 2, 0 ≤ ![x, (l : ℝ) / 2] i := by
    rw [Fin.forall_fin_two]
    exact ⟨hx, by simp; positivity⟩
  exact ⟨two_ne_zero, this⟩

theorem exOrbs_moves (l : Nat) (i j : Fin 2) : HasDerivAt (fun t => Spec.orthDensity (exOrbs t l) i j) ((diagonal ![1, 0] : Matrix (Fin 2) (Fin 2) ℝ) i j) 2 := by
  have h : ∀ t, Spec.orthDensity (exOrbs t l) = diagonal ![t, (l : ℝ) / 2] := by
    intro t
    show (1 : Matrix (Fin 2) (Fin 2) ℝ) * diagonal ![t, (l : ℝ) / 2] * (1 : Matrix (Fin 2) (Fin 2) ℝ)ᵀ = _
    rw [transpose_one, Matrix.one_mul, Matrix.mul_one]
  simp only [h]
  fin_cases i <;> fin_cases j
  · simpa using hasDerivAt_id' (2 : ℝ)
  · simpa using hasDerivAt_const (2 : ℝ) (0 : ℝ)
  · simpa using hasDerivAt_const (2 : ℝ) (0 : ℝ)
  · simpa using hasDerivAt_const (2 : ℝ) ((l : ℝ) / 2)

theorem exDiag (F : List (Matrix (Fin 2) (Fin 2) ℝ)) (l : Nat) (i : Fin 2) : ((1 : Matrix (Fin 2) (Fin 2) ℝ)ᵀ * F.getD l 0 * (1 : Matrix (Fin 2) (Fin 2) ℝ)) i i = F.getD l 0 i i := by
  rw [transpose_one, Matrix.one_mul, Matrix.mul_one]

/-- every orbital holds an electron -/
noncomputable def exAll : Dens.Orbs 2 := ⟨2, 1, fun _ => 1⟩

/-- a rotation -/
noncomputable def rot (t : ℝ) : Matrix (Fin 2) (Fin 2) ℝ := !![Real.cos t, -Real.sin t; Real.sin t, Real.cos t]

theorem rot_zero : rot 0 = 1 := by
  ext i j
  fin_cases i <;> fin_cases j <;> simp [rot]

theorem rot_orth (t : ℝ) : (rot t)ᵀ * rot t = 1 := by
  ext i j
  have := Real.sin_sq_add_cos_sq t
  fin_cases i <;> fin_cases j <;> simp [rot, Matrix.mul_apply, Fin.sum_univ_two] <;> nlinarith

theorem rot_moves (U : Matrix (Fin 2) (Fin 2) ℝ) (a i : Fin 2) : HasDerivAt (fun t => (U * rot t) a i) ((U * (!![0, -1; 1, 0] : Matrix (Fin 2) (Fin 2) ℝ)) a i) 0 := by
  have h : ∀ b i : Fin 2, HasDerivAt (fun t => rot t b i) ((!![0, -1; 1, 0] : Matrix (Fin 2) (Fin 2) ℝ) b i) 0 := by
    intro b i
    have hs := Real.hasDerivAt_sin 0
    have hc := Real.hasDerivAt_cos 0
    rw [Real.cos_zero] at hs
    rw [Real.sin_zero, neg_zero] at hc
    fin_cases b <;> fin_cases i
    · exact hc
    · exact hs.neg
    · exact hs
    · exact hc
  simp only [Matrix.mul_apply]
  exact HasDerivAt.fun_sum fun b _ => (h b i).const_mul (U a b)

theorem exEigen (A : Matrix (Fin 2) (Fin 2) ℝ) (h : Aᵀ = A) : ∃ (U : Matrix (Fin 2) (Fin 2) ℝ) (ε : Fin 2 → ℝ), U * Uᵀ = 1 ∧ A * U = U * diagonal ε := by
  have hA : A.IsHermitian := by rw [Matrix.IsHermitian, conjTranspose_eq_transpose_of_trivial]; exact h
  have hu := Unitary.coe_star_mul_self hA.eigenvectorUnitary
  rw [star_eq_conjTranspose, conjTranspose_eq_transpose_of_trivial] at hu
  have := hA.spectral_theorem
  rw [Unitary.conjStarAlgAut_apply, star_eq_conjTranspose, conjTranspose_eq_transpose_of_trivial] at this
  refine ⟨hA.eigenvectorUnitary, hA.eigenvalues, mul_eq_one_comm.1 hu, ?_⟩
  have h2 := congrArg (fun B => B * (hA.eigenvectorUnitary : Matrix (Fin 2) (Fin 2) ℝ)) this
  simp only [Matrix.mul_assoc, hu, Matrix.mul_one] at h2
  exact h2

theorem exNorm {U : Matrix (Fin 2) (Fin 2) ℝ} (h : U * Uᵀ = 1) (t : ℝ) (i : Fin 2) : ∑ a, (U * rot t) a i ^ 2 = 1 := by
  have h' : Uᵀ * U = 1 := mul_eq_one_comm.1 h
  have : ((U * rot t)ᵀ * (U * rot t)) i i = 1 := by
    rw [transpose_mul, Matrix.mul_assoc, ← Matrix.mul_assoc Uᵀ, h', Matrix.one_mul, rot_orth, Matrix.one_apply_eq]
  rw [← this, Matrix.mul_apply]
  exact sum_congr rfl fun a _ => by rw [transpose_apply, sq]

theorem exFull {U : Matrix (Fin 2) (Fin 2) ℝ} (h : U * Uᵀ = 1) : Spec.orthDensity (⟨2, U * rot 0, fun _ => 1⟩ : Dens.Orbs 2) = Spec.orthDensity exAll := by
  have e : Spec.orthDensity exAll = (1 : Matrix (Fin 2) (Fin 2) ℝ) * diagonal (fun _ : Fin 2 => (1 : ℝ)) * (1 : Matrix (Fin 2) (Fin 2) ℝ)ᵀ := rfl
  rw [e]
  show U * rot 0 * diagonal (fun _ : Fin 2 => (1 : ℝ)) * (U * rot 0)ᵀ = _
  rw [diagonal_one, rot_zero, Matrix.mul_one, Matrix.mul_one, h, transpose_one, Matrix.mul_one, Matrix.mul_one]

/-! ## Energy and Fock matrices -/

variable {s : Setup} {c : Caches} {k : Spec.Kernels}

theorem read_blocks (o : Nat → Dens.Orbs s.M) : ∀ l < s.nblock, readAt (Spec.blocks s o) l = .ok (o l) := fun _ hl => read_map _ hl

theorem read_left {α : Type _} (x y : List α) {i : Nat} (h : i < x.length) : readAt (x ++ y) i = readAt x i := by
  unfold readAt
  rw [List.getElem?_append_left h]

theorem read_right {α : Type _} (x y : List α) (i : Nat) : readAt (x ++ y) (x.length + i) = readAt y i := by
  unfold readAt
  rw [List.getElem?_append_right (by omega), Nat.add_sub_cancel_left]

theorem read_alpha (oa ob : Nat → Dens.Orbs s.M) : ∀ l < s.nblock, readAt (Spec.blocks s oa ++ Spec.blocks s ob) l = .ok (oa l) := fun l hl => by
  rw [read_left _ _ (by unfold Spec.blocks; rw [List.length_map, List.length_range]; exact hl), read_blocks oa l hl]

theorem read_beta (oa ob : Nat → Dens.Orbs s.M) : ∀ l < s.nblock, readAt (Spec.blocks s oa ++ Spec.blocks s ob) (s.nblock + l) = .ok (ob l) := fun l hl => by
  have := read_right (Spec.blocks s oa) (Spec.blocks s ob) l
  rw [show (Spec.blocks s oa).length = s.nblock by unfold Spec.blocks; rw [List.length_map, List.length_range]; rfl] at this
  rw [this, read_blocks ob l hl]

theorem getD_map {α : Type _} (f : Nat → α) (n : Nat) (z : α) {l : Nat} (h : l < n) : ((List.range n).map f).getD l z = f l := by
  rw [List.getD_eq_getElem?_getD, List.getElem?_map, List.getElem?_range h]
  rfl

theorem getD_symm {M : Nat} {F : List (Matrix (Fin M) (Fin M) ℝ)} (h : ∀ A ∈ F, Aᵀ = A) (l : Nat) : (F.getD l 0)ᵀ = F.getD l 0 := by
  rw [List.getD_eq_getElem?_getD]
  cases hl : F[l]? with
  | none => simp
  | some A => simpa using h A (List.mem_of_getElem? hl)

theorem withOcc_self {M : Nat} (o : Nat → Dens.Orbs M) (l : Nat) (i : Fin (o l).p) : Spec.withOcc o l i ((o l).occ i) = o := by
  unfold Spec.withOcc
  rw [Function.update_eq_self]
  exact Function.update_eq_self l o

theorem withOcc_physical {M : Nat} (o : Nat → Dens.Orbs M) (l0 : Nat) (i : Fin (o l0).p) (l : Nat) (h : Spec.Physical (o l)) {n : ℝ} (hn : 0 ≤ n) : Spec.Physical (Spec.withOcc o l0 i n l) := by
  unfold Spec.withOcc
  by_cases hl : l = l0
  · subst hl
    rw [Function.update_self]
    refine ⟨h.1, fun (j : Fin (o l).p) => ?_⟩
    show 0 ≤ Function.update (o l).occ i n j
    by_cases hj : j = i
    · rw [hj, Function.update_self]; exact hn
    · rw [Function.update_of_ne hj]; exact h.2 j
  · rw [Function.update_of_ne hl]; exact h

theorem withOcc_moves {M : Nat} (o : Nat → Dens.Orbs M) (l0 : Nat) (i : Fin (o l0).p) (l : Nat) (a b : Fin M) : HasDerivAt (fun t => Spec.orthDensity (Spec.withOcc o l0 i t l) a b)
    ((if l = l0 then Matrix.of fun a b => (o l0).C a i * (o l0).C b i else 0) a b) ((o l0).occ i) := by
  unfold Spec.withOcc
  by_cases hl : l = l0
  · subst hl
    simp only [Function.update_self, if_true]
    exact moves_occ (o l) i a b
  · simp only [Function.update_of_ne hl, if_neg hl]
    exact hasDerivAt_const _ _

theorem withOcc_trace {M L : Nat} (o : Nat → Dens.Orbs M) {l0 : Nat} (hl : l0 ≤ L) (i : Fin (o l0).p) (F : List (Matrix (Fin M) (Fin M) ℝ)) :
    ∑ l ∈ range (L + 1), (F.getD l 0 * if l = l0 then Matrix.of fun a b => (o l0).C a i * (o l0).C b i else 0).trace = ((o l0).Cᵀ * F.getD l0 0 * (o l0).C) i i := by
  rw [sum_eq_single l0 (fun l _ hn => by rw [if_neg hn, Matrix.mul_zero, Matrix.trace_zero]) fun hn => absurd (Finset.mem_range.2 (Nat.lt_succ_iff.2 hl)) hn, if_pos rfl, trace_occ]

theorem readAt_eq {α : Type _} {x : List α} {i : Nat} {a : α} (h : x[i]? = some a) : readAt x i = .ok a := by
  unfold readAt
  rw [h]

section build
variable (hk : Spec.Represents s c k) (hg : Spec.GridOk s)
include hk hg

theorem restricted_ok (hr : s.restricted = true) {o : Nat → Dens.Orbs s.M} (ho : ∀ l ≤ s.lmax, Spec.Physical (o l)) {sch : Sched} (hsch : Spec.Complete s sch) :
    buildFock s c sch (Spec.blocks s o) = .ok (Spec.energyR s k fun l => Spec.density s.X (o l),
      (List.range s.nblock).map fun l => s.Xᵀ * fockR s k (fun l => Spec.density s.X (o l)) l * s.X) := by
  unfold buildFock
  rw [if_pos hr]
  exact buildR_ok hk hg hsch _ o (read_blocks o) fun l hl => ho l (Nat.lt_succ_iff.1 hl)

theorem unrestricted_ok (hr : s.restricted = false) {oa ob : Nat → Dens.Orbs s.M} (ha : ∀ l ≤ s.lmax, Spec.Physical (oa l)) (hb : ∀ l ≤ s.lmax, Spec.Physical (ob l)) {sch : Sched}
    (hsch : Spec.Complete s sch) :
    buildFock s c sch (Spec.blocks s oa ++ Spec.blocks s ob) = .ok (Spec.energyU s k (fun l => Spec.density s.X (oa l)) fun l => Spec.density s.X (ob l),
      ((List.range s.nblock).map fun l => s.Xᵀ * fockA s k (fun l => Spec.density s.X (oa l)) (fun l => Spec.density s.X (ob l)) l * s.X) ++
        (List.range s.nblock).map fun l => s.Xᵀ * fockB s k (fun l => Spec.density s.X (oa l)) (fun l => Spec.density s.X (ob l)) l * s.X) := by
  unfold buildFock
  rw [if_neg (by rw [hr]; simp)]
  exact buildU_ok hk hg hsch _ oa ob (read_alpha oa ob) (read_beta oa ob) (fun l hl => ha l (Nat.lt_succ_iff.1 hl)) fun l hl => hb l (Nat.lt_succ_iff.1 hl)

/-- **C75, energy.** For orbitals with non-negative occupations the builder returns the energy of their density and one Fock matrix per shell, the same ones in whatever order the parallel loops
run. -/
theorem C75_energy (hr : s.restricted = true) (o : Nat → Dens.Orbs s.M) (ho : ∀ l ≤ s.lmax, Spec.Physical (o l)) :
    ∃ F, F.length = s.lmax + 1 ∧ ∀ sch, Spec.Complete s sch → buildFock s c sch (Spec.blocks s o) = .ok (Spec.energyR s k fun l => Spec.density s.X (o l), F) :=
  ⟨_, by rw [List.length_map, List.length_range]; rfl, fun _ hsch => restricted_ok hk hg hr ho hsch⟩

omit hk hg in
example : ∃ (c : Caches) (k : Spec.Kernels) (F : List (Matrix (Fin 2) (Fin 2) ℝ)), prepare (exSetup true 1 (1 / 2) true) (Caches.fresh false 0) = .ok c ∧ F.length = 2 ∧ buildFock (exSetup true 1 (1 / 2) true) c exSched (Spec.blocks _ (exOrbs 2)) =
    .ok (Spec.energyR (exSetup true 1 (1 / 2) true) k fun l => Spec.density (exSetup true 1 (1 / 2) true).X (exOrbs 2 l), F) := by
  obtain ⟨c, k, h1, h2⟩ := exYuk true 1
  obtain ⟨F, h3, h4⟩ := C75_energy h2 (exGrid _ _ _ _) rfl (exOrbs 2) fun l _ => exPhysical (by norm_num) l
  exact ⟨c, k, F, h1, h3, h4 exSched (exComplete _ _ _ _)⟩

/-- **C75, energy, two spins.** -/
theorem C75_energy_unrestricted (hr : s.restricted = false) (oa ob : Nat → Dens.Orbs s.M) (ha : ∀ l ≤ s.lmax, Spec.Physical (oa l)) (hb : ∀ l ≤ s.lmax, Spec.Physical (ob l)) :
    ∃ Fa Fb, Fa.length = s.lmax + 1 ∧ Fb.length = s.lmax + 1 ∧ ∀ sch, Spec.Complete s sch → buildFock s c sch (Spec.blocks s oa ++ Spec.blocks s ob) =
      .ok (Spec.energyU s k (fun l => Spec.density s.X (oa l)) fun l => Spec.density s.X (ob l), Fa ++ Fb) :=
  ⟨_, _, by rw [List.length_map, List.length_range]; rfl, by rw [List.length_map, List.length_range]; rfl, fun _ hsch => unrestricted_ok hk hg hr ha hb hsch⟩

omit hk hg in
example : ∃ (c : Caches) (k : Spec.Kernels) (Fa Fb : List (Matrix (Fin 2) (Fin 2) ℝ)), prepare (exSetup false 1 (1 / 2) false) (Caches.fresh false 0) = .ok c ∧ Fa.length = 2 ∧ Fb.length = 2 ∧
    buildFock (exSetup false 1 (1 / 2) false) c exSched (Spec.blocks _ (exOrbs 2) ++ Spec.blocks _ (exOrbs 1)) =
    .ok (Spec.energyU (exSetup false 1 (1 / 2) false) k (fun l => Spec.density (exSetup false 1 (1 / 2) false).X (exOrbs 2 l)) fun l => Spec.density (exSetup false 1 (1 / 2) false).X (exOrbs 1 l),
      Fa ++ Fb) := by
  obtain ⟨c, k, h1, h2⟩ := exErf false 1
  obtain ⟨Fa, Fb, h3, h4, h5⟩ := C75_energy_unrestricted h2 (exGrid _ _ _ _) rfl (exOrbs 2) (exOrbs 1) (fun l _ => exPhysical (by norm_num) l) fun l _ => exPhysical (by norm_num) l
  exact ⟨c, k, Fa, Fb, h1, h3, h4, h5 exSched (exComplete _ _ _ _)⟩

/-- **C75, symmetry.** The Fock blocks are symmetric if the one-electron matrices are. -/
theorem C75_symmetric (h1 : Spec.OneSymm s) {sch : Sched} (hsch : Spec.Complete s sch) (E : ℝ) (F : List (Matrix (Fin s.M) (Fin s.M) ℝ)) :
    (s.restricted = true → ∀ o : Nat → Dens.Orbs s.M, (∀ l ≤ s.lmax, Spec.Physical (o l)) → buildFock s c sch (Spec.blocks s o) = .ok (E, F) → ∀ A ∈ F, Aᵀ = A) ∧
    (s.restricted = false → ∀ oa ob : Nat → Dens.Orbs s.M, (∀ l ≤ s.lmax, Spec.Physical (oa l)) → (∀ l ≤ s.lmax, Spec.Physical (ob l)) →
      buildFock s c sch (Spec.blocks s oa ++ Spec.blocks s ob) = .ok (E, F) → ∀ A ∈ F, Aᵀ = A) := by
  constructor
  · intro hr o ho hb
    rw [restricted_ok hk hg hr ho hsch, Res.ok.injEq, Prod.mk.injEq] at hb
    rw [← hb.2]
    intro A hA
    obtain ⟨l, _, rfl⟩ := List.mem_map.1 hA
    exact block_symm _ (fockR_symm h1 hk (fun l => density_symm _ _) l)
  · intro hr oa ob ha hb' hb
    rw [unrestricted_ok hk hg hr ha hb' hsch, Res.ok.injEq, Prod.mk.injEq] at hb
    rw [← hb.2]
    intro A hA
    rcases List.mem_append.1 hA with hA | hA
    · obtain ⟨l, _, rfl⟩ := List.mem_map.1 hA
      exact block_symm _ (fockA_symm h1 hk (fun l => density_symm _ _) l)
    · obtain ⟨l, _, rfl⟩ := List.mem_map.1 hA
      exact block_symm _ (fockB_symm h1 hk (fun l => density_symm _ _) l)

omit hk hg in
example : ∃ (c : Caches) (E : ℝ) (F : List (Matrix (Fin 2) (Fin 2) ℝ)), prepare (exSetup true 1 0 true) (Caches.fresh false 0) = .ok c ∧ buildFock (exSetup true 1 0 true) c exSched (Spec.blocks _ (exOrbs 2)) = .ok (E, F) ∧ ∀ A ∈ F, Aᵀ = A := by
  obtain ⟨c, k, h1, h2⟩ := exPlain true 1 true
  obtain ⟨F, h3, h4⟩ := C75_energy h2 (exGrid _ _ _ _) rfl (exOrbs 2) fun l _ => exPhysical (by norm_num) l
  have h5 := h4 exSched (exComplete _ _ _ _)
  exact ⟨c, _, F, h1, h5, (C75_symmetric h2 (exGrid _ _ _ _) (exOne _ _ _ _) (exComplete _ _ _ _) _ F).1 rfl _ (fun l _ => exPhysical (by norm_num) l) h5⟩

/-- **C75, gradient.** Let the orbitals or the occupations move so that the density matrices have a derivative `Δ` at `t0`. Then the energies the builder returns along the way are the values
of a function whose derivative at `t0` is the sum of the traces of the Fock blocks returned there with `Δ`. -/
theorem C75_gradient (hr : s.restricted = true) {sch : Sched} (hsch : Spec.Complete s sch) (o : ℝ → Nat → Dens.Orbs s.M) (t0 : ℝ) (Δ : Nat → Matrix (Fin s.M) (Fin s.M) ℝ)
    (hΔ : ∀ l ≤ s.lmax, ∀ i j, HasDerivAt (fun t => Spec.orthDensity (o t l) i j) (Δ l i j) t0) (ho : ∀ l ≤ s.lmax, Spec.Physical (o t0 l))
    (hx : Spec.SmoothR s fun l => Spec.density s.X (o t0 l)) :
    ∃ (E : ℝ → ℝ) (F : List (Matrix (Fin s.M) (Fin s.M) ℝ)), buildFock s c sch (Spec.blocks s (o t0)) = .ok (E t0, F) ∧
      (∀ t, (∀ l ≤ s.lmax, Spec.Physical (o t l)) → ∃ F', buildFock s c sch (Spec.blocks s (o t)) = .ok (E t, F')) ∧
      HasDerivAt E (∑ l ∈ range (s.lmax + 1), (F.getD l 0 * Δ l).trace) t0 := by
  refine ⟨fun t => Spec.energyR s k fun l => Spec.density s.X (o t l), _, restricted_ok hk hg hr ho hsch, fun t ht => ⟨_, restricted_ok hk hg hr ht hsch⟩, ?_⟩
  have hp : ∀ l < s.nblock, Spec.Physical (o t0 l) := fun l hl => ho l (Nat.lt_succ_iff.1 hl)
  obtain ⟨a, _, h2⟩ := gatherR_ok s _ (o t0) (read_blocks (o t0)) fun l hl => (hp l hl).1
  obtain ⟨_, _, _, _, x5⟩ := xcR_ok hg hsch h2 (good_density hp)
  refine (energyR_deriv hk (D := fun t l => Spec.density s.X (o t l)) (moves_density s.X hΔ) (fun t l => density_symm _ _) hx x5).congr_deriv ?_
  refine sum_congr rfl fun l hl => ?_
  have hl' : l < s.nblock := Finset.mem_range.1 hl
  rw [getD_map _ _ _ hl', trace_back]

omit hk hg in
/-- the first orbital of every shell is emptied while the others stay -/
example : ∃ (c : Caches) (E : ℝ → ℝ) (F : List (Matrix (Fin 2) (Fin 2) ℝ)), prepare (exSetup true 1 (1 / 2) true) (Caches.fresh false 0) = .ok c ∧ buildFock (exSetup true 1 (1 / 2) true) c exSched (Spec.blocks _ (exOrbs 2)) = .ok (E (2 : ℝ), F) ∧
    (∀ t, 0 ≤ t → ∃ F', buildFock (exSetup true 1 (1 / 2) true) c exSched (Spec.blocks _ (exOrbs t)) = .ok (E t, F')) ∧
    HasDerivAt E (∑ l ∈ range 2, (F.getD l 0 * diagonal ![1, 0]).trace) 2 := by
  obtain ⟨c, k, h1, h2⟩ := exYuk true 1
  obtain ⟨E, F, h3, h4, h5⟩ := C75_gradient h2 (exGrid _ _ _ _) rfl (exComplete _ _ _ _) exOrbs 2 (fun _ => diagonal ![1, 0]) (fun l _ => exOrbs_moves l) (fun l _ => exPhysical (by norm_num) l)
    fun x _ => ⟨toy_consistent (by norm_num [exSetup]) _ _ _, toy_consistent (by norm_num [exSetup]) _ _ _⟩
  exact ⟨c, E, F, h1, h3, fun t ht => h4 t fun l _ => exPhysical ht l, h5⟩

/-- **C75, gradient, two spins.** Without beta electrons the beta density has to stay put: the beta Fock blocks then lack exchange and correlation. -/
theorem C75_gradient_unrestricted (hr : s.restricted = false) {sch : Sched} (hsch : Spec.Complete s sch) (oa ob : ℝ → Nat → Dens.Orbs s.M) (t0 : ℝ) (Δa Δb : Nat → Matrix (Fin s.M) (Fin s.M) ℝ)
    (hΔa : ∀ l ≤ s.lmax, ∀ i j, HasDerivAt (fun t => Spec.orthDensity (oa t l) i j) (Δa l i j) t0)
    (hΔb : ∀ l ≤ s.lmax, ∀ i j, HasDerivAt (fun t => Spec.orthDensity (ob t l) i j) (Δb l i j) t0) (hn : 0 < s.nelb ∨ ∀ l ≤ s.lmax, Δb l = 0)
    (ha : ∀ l ≤ s.lmax, Spec.Physical (oa t0 l)) (hb : ∀ l ≤ s.lmax, Spec.Physical (ob t0 l))
    (hx : Spec.SmoothU s (fun l => Spec.density s.X (oa t0 l)) fun l => Spec.density s.X (ob t0 l)) :
    ∃ (E : ℝ → ℝ) (Fa Fb : List (Matrix (Fin s.M) (Fin s.M) ℝ)), Fa.length = s.lmax + 1 ∧
      buildFock s c sch (Spec.blocks s (oa t0) ++ Spec.blocks s (ob t0)) = .ok (E t0, Fa ++ Fb) ∧
      (∀ t, (∀ l ≤ s.lmax, Spec.Physical (oa t l)) → (∀ l ≤ s.lmax, Spec.Physical (ob t l)) → ∃ F', buildFock s c sch (Spec.blocks s (oa t) ++ Spec.blocks s (ob t)) = .ok (E t, F')) ∧
      HasDerivAt E (∑ l ∈ range (s.lmax + 1), ((Fa.getD l 0 * Δa l).trace + (Fb.getD l 0 * Δb l).trace)) t0 := by
  refine ⟨fun t => Spec.energyU s k (fun l => Spec.density s.X (oa t l)) fun l => Spec.density s.X (ob t l), _, _, ?_, unrestricted_ok hk hg hr ha hb hsch,
    fun t h1 h2 => ⟨_, unrestricted_ok hk hg hr h1 h2 hsch⟩, ?_⟩
  · rw [List.length_map, List.length_range]; rfl
  have hpa : ∀ l < s.nblock, Spec.Physical (oa t0 l) := fun l hl => ha l (Nat.lt_succ_iff.1 hl)
  have hpb : ∀ l < s.nblock, Spec.Physical (ob t0 l) := fun l hl => hb l (Nat.lt_succ_iff.1 hl)
  obtain ⟨a, b, _, h2, h3⟩ := gatherU_ok s _ (oa t0) (ob t0) (read_alpha (oa t0) (ob t0)) (read_beta (oa t0) (ob t0)) (fun l hl => (hpa l hl).1) fun l hl => (hpb l hl).1
  obtain ⟨_, _, _, _, _, _, x5, x6⟩ := xcU_ok hg hsch h2 (good_density hpa) h3 (good_density hpb)
  refine (energyU_deriv hk (A := fun t l => Spec.density s.X (oa t l)) (B := fun t l => Spec.density s.X (ob t l)) (moves_density s.X hΔa) (moves_density s.X hΔb)
    (fun t l => density_symm _ _) (fun t l => density_symm _ _) (hn.imp_right fun hz l hl => by rw [hz l hl, Matrix.mul_zero, Matrix.zero_mul]) hx x5 x6).congr_deriv ?_
  refine sum_congr rfl fun l hl => ?_
  have hl' : l < s.nblock := Finset.mem_range.1 hl
  rw [getD_map _ _ _ hl', getD_map _ _ _ hl', trace_back, trace_back]

omit hk hg in
/-- the spins exchange electrons -/
example : ∃ (c : Caches) (E : ℝ → ℝ) (Fa Fb : List (Matrix (Fin 2) (Fin 2) ℝ)), prepare (exSetup false 1 (1 / 2) true) (Caches.fresh false 0) = .ok c ∧
    buildFock (exSetup false 1 (1 / 2) true) c exSched (Spec.blocks _ (exOrbs 2) ++ Spec.blocks _ (exOrbs 2)) = .ok (E (2 : ℝ), Fa ++ Fb) ∧
    HasDerivAt E (∑ l ∈ range 2, ((Fa.getD l 0 * diagonal ![1, 0]).trace + (Fb.getD l 0 * diagonal ![1, 0]).trace)) 2 := by
  obtain ⟨c, k, h1, h2⟩ := exYuk false 1
  obtain ⟨E, Fa, Fb, _, h3, _, h5⟩ := C75_gradient_unrestricted h2 (exGrid _ _ _ _) rfl (exComplete _ _ _ _) exOrbs exOrbs 2 (fun _ => diagonal ![1, 0]) (fun _ => diagonal ![1, 0])
    (fun l _ => exOrbs_moves l) (fun l _ => exOrbs_moves l) (Or.inl (by norm_num [exSetup])) (fun l _ => exPhysical (by norm_num) l) (fun l _ => exPhysical (by norm_num) l)
    fun x _ => ⟨toy_consistent2 (by norm_num [exSetup]) _ _ _, toy_consistent2 (by norm_num [exSetup]) _ _ _⟩
  exact ⟨c, E, Fa, Fb, h1, h3, h5⟩

/-- **C75, orbital energies.** The derivative of the energy with respect to an occupation is the expectation value of the Fock matrix in that orbital. -/
theorem C75_occupation (hr : s.restricted = true) {sch : Sched} (hsch : Spec.Complete s sch) (o : Nat → Dens.Orbs s.M) (ho : ∀ l ≤ s.lmax, Spec.Physical (o l))
    (hx : Spec.SmoothR s fun l => Spec.density s.X (o l)) (l0 : Nat) (hl : l0 ≤ s.lmax) (i : Fin (o l0).p) :
    ∃ (E : ℝ → ℝ) (F : List (Matrix (Fin s.M) (Fin s.M) ℝ)), buildFock s c sch (Spec.blocks s o) = .ok (E ((o l0).occ i), F) ∧
      (∀ n, 0 ≤ n → ∃ F', buildFock s c sch (Spec.blocks s (Spec.withOcc o l0 i n)) = .ok (E n, F')) ∧
      HasDerivAt E (((o l0).Cᵀ * F.getD l0 0 * (o l0).C) i i) ((o l0).occ i) := by
  have h0 := withOcc_self o l0 i
  obtain ⟨E, F, h1, h2, h3⟩ := C75_gradient hk hg hr hsch (fun t => Spec.withOcc o l0 i t) ((o l0).occ i) _ (fun l _ => withOcc_moves o l0 i l) (by rw [h0]; exact ho) (by rw [h0]; exact hx)
  rw [h0] at h1
  refine ⟨E, F, h1, fun n hn => h2 n fun l hl => withOcc_physical o l0 i l (ho l hl) hn, h3.congr_deriv ?_⟩
  exact withOcc_trace o hl i _

omit hk hg in
example : ∃ (c : Caches) (E : ℝ → ℝ) (F : List (Matrix (Fin 2) (Fin 2) ℝ)), prepare (exSetup true 1 (1 / 2) true) (Caches.fresh false 0) = .ok c ∧ buildFock (exSetup true 1 (1 / 2) true) c exSched (Spec.blocks _ (exOrbs 2)) = .ok (E (1 / 2 : ℝ), F) ∧
    HasDerivAt E (F.getD 1 0 1 1) (1 / 2) := by
  obtain ⟨c, k, h1, h2⟩ := exYuk true 1
  obtain ⟨E, F, h3, _, h5⟩ := C75_occupation h2 (exGrid _ _ _ _) rfl (exComplete _ _ _ _) (exOrbs 2) (fun l _ => exPhysical (by norm_num) l)
    (fun x _ => ⟨toy_consistent (by norm_num [exSetup]) _ _ _, toy_consistent (by norm_num [exSetup]) _ _ _⟩) 1 le_rfl (1 : Fin 2)
  have e : (exOrbs 2 1).occ (1 : Fin 2) = 1 / 2 := by simp [exOrbs]
  rw [e] at h3 h5
  refine ⟨c, E, F, h1, h3, h5.congr_deriv ?_⟩
  exact exDiag F 1 1

/-- **C75, orbital energies, alpha.** -/
theorem C75_occupation_alpha (hr : s.restricted = false) {sch : Sched} (hsch : Spec.Complete s sch) (oa ob : Nat → Dens.Orbs s.M) (ha : ∀ l ≤ s.lmax, Spec.Physical (oa l))
    (hb : ∀ l ≤ s.lmax, Spec.Physical (ob l)) (hx : Spec.SmoothU s (fun l => Spec.density s.X (oa l)) fun l => Spec.density s.X (ob l)) (l0 : Nat) (hl : l0 ≤ s.lmax) (i : Fin (oa l0).p) :
    ∃ (E : ℝ → ℝ) (Fa Fb : List (Matrix (Fin s.M) (Fin s.M) ℝ)), Fa.length = s.lmax + 1 ∧ buildFock s c sch (Spec.blocks s oa ++ Spec.blocks s ob) = .ok (E ((oa l0).occ i), Fa ++ Fb) ∧
      (∀ n, 0 ≤ n → ∃ F', buildFock s c sch (Spec.blocks s (Spec.withOcc oa l0 i n) ++ Spec.blocks s ob) = .ok (E n, F')) ∧
      HasDerivAt E (((oa l0).Cᵀ * Fa.getD l0 0 * (oa l0).C) i i) ((oa l0).occ i) := by
  have h0 := withOcc_self oa l0 i
  obtain ⟨E, Fa, Fb, h1, h2, h3, h4⟩ := C75_gradient_unrestricted hk hg hr hsch (fun t => Spec.withOcc oa l0 i t) (fun _ => ob) ((oa l0).occ i) _ (fun _ => 0) (fun l _ => withOcc_moves oa l0 i l)
    (fun l _ a b => hasDerivAt_const _ _) (Or.inr fun _ _ => rfl) (by rw [h0]; exact ha) hb (by rw [h0]; exact hx)
  rw [h0] at h2
  refine ⟨E, Fa, Fb, h1, h2, fun n hn => h3 n (fun l hl => withOcc_physical oa l0 i l (ha l hl) hn) hb, h4.congr_deriv ?_⟩
  simp only [Matrix.mul_zero, Matrix.trace_zero, add_zero]
  exact withOcc_trace oa hl i _

omit hk hg in
/-- no beta electrons -/
example : ∃ (c : Caches) (E : ℝ → ℝ) (Fa Fb : List (Matrix (Fin 2) (Fin 2) ℝ)), prepare (exSetup false 0 (1 / 2) true) (Caches.fresh false 0) = .ok c ∧
    buildFock (exSetup false 0 (1 / 2) true) c exSched (Spec.blocks _ (exOrbs 2) ++ Spec.blocks _ fun _ => ⟨1, 0, 0⟩) = .ok (E (2 : ℝ), Fa ++ Fb) ∧ HasDerivAt E (Fa.getD 1 0 0 0) 2 := by
  obtain ⟨c, k, h1, h2⟩ := exYuk false 0
  obtain ⟨E, Fa, Fb, _, h3, _, h5⟩ := C75_occupation_alpha h2 (exGrid _ _ _ _) rfl (exComplete _ _ _ _) (exOrbs 2) (fun _ => ⟨1, 0, 0⟩) (fun l _ => exPhysical (by norm_num) l)
    (fun l _ => ⟨one_ne_zero, fun _ => le_rfl⟩) (fun x _ => ⟨toy_consistent2 (by norm_num [exSetup]) _ _ _, toy_consistent2 (by norm_num [exSetup]) _ _ _⟩) 1 le_rfl (0 : Fin 2)
  refine ⟨c, E, Fa, Fb, h1, h3, h5.congr_deriv ?_⟩
  exact exDiag Fa 1 0

/-- **C75, orbital energies, beta.** There are beta electrons. -/
theorem C75_occupation_beta (hr : s.restricted = false) (hn : 0 < s.nelb) {sch : Sched} (hsch : Spec.Complete s sch) (oa ob : Nat → Dens.Orbs s.M) (ha : ∀ l ≤ s.lmax, Spec.Physical (oa l))
    (hb : ∀ l ≤ s.lmax, Spec.Physical (ob l)) (hx : Spec.SmoothU s (fun l => Spec.density s.X (oa l)) fun l => Spec.density s.X (ob l)) (l0 : Nat) (hl : l0 ≤ s.lmax) (i : Fin (ob l0).p) :
    ∃ (E : ℝ → ℝ) (Fa Fb : List (Matrix (Fin s.M) (Fin s.M) ℝ)), Fa.length = s.lmax + 1 ∧ buildFock s c sch (Spec.blocks s oa ++ Spec.blocks s ob) = .ok (E ((ob l0).occ i), Fa ++ Fb) ∧
      (∀ n, 0 ≤ n → ∃ F', buildFock s c sch (Spec.blocks s oa ++ Spec.blocks s (Spec.withOcc ob l0 i n)) = .ok (E n, F')) ∧
      HasDerivAt E (((ob l0).Cᵀ * Fb.getD l0 0 * (ob l0).C) i i) ((ob l0).occ i) := by
  have h0 := withOcc_self ob l0 i
  obtain ⟨E, Fa, Fb, h1, h2, h3, h4⟩ := C75_gradient_unrestricted hk hg hr hsch (fun _ => oa) (fun t => Spec.withOcc ob l0 i t) ((ob l0).occ i) (fun _ => 0) _ (fun l _ a b => hasDerivAt_const _ _)
    (fun l _ => withOcc_moves ob l0 i l) (Or.inl hn) ha (by rw [h0]; exact hb) (by rw [h0]; exact hx)
  rw [h0] at h2
  refine ⟨E, Fa, Fb, h1, h2, fun n hn => h3 n ha fun l hl => withOcc_physical ob l0 i l (hb l hl) hn, h4.congr_deriv ?_⟩
  simp only [Matrix.mul_zero, Matrix.trace_zero, zero_add]
  exact withOcc_trace ob hl i _

omit hk hg in
example : ∃ (c : Caches) (E : ℝ → ℝ) (Fa Fb : List (Matrix (Fin 2) (Fin 2) ℝ)), prepare (exSetup false 1 (1 / 2) true) (Caches.fresh false 0) = .ok c ∧
    buildFock (exSetup false 1 (1 / 2) true) c exSched (Spec.blocks _ (exOrbs 2) ++ Spec.blocks _ (exOrbs 1)) = .ok (E (1 : ℝ), Fa ++ Fb) ∧ HasDerivAt E (Fb.getD 1 0 0 0) 1 := by
  obtain ⟨c, k, h1, h2⟩ := exYuk false 1
  obtain ⟨E, Fa, Fb, _, h3, _, h5⟩ := C75_occupation_beta h2 (exGrid _ _ _ _) rfl (by norm_num [exSetup]) (exComplete _ _ _ _) (exOrbs 2) (exOrbs 1) (fun l _ => exPhysical (by norm_num) l)
    (fun l _ => exPhysical (by norm_num) l) (fun x _ => ⟨toy_consistent2 (by norm_num [exSetup]) _ _ _, toy_consistent2 (by norm_num [exSetup]) _ _ _⟩) 1 le_rfl (0 : Fin 2)
  refine ⟨c, E, Fa, Fb, h1, h3, h5.congr_deriv ?_⟩
  exact exDiag Fb 1 0

/-- **C75, stationarity.** If the occupied orbitals are eigenvectors of the Fock blocks they give rise to, no motion of the orbitals that keeps them normalised changes the energy to first order. -/
theorem C75_stationary (hr : s.restricted = true) (h1 : Spec.OneSymm s) {sch : Sched} (hsch : Spec.Complete s sch) (p : Nat → Nat) (n : ∀ l, Fin (p l) → ℝ)
    (hp : ∀ l ≤ s.lmax, p l ≠ 0 ∧ ∀ i, 0 ≤ n l i) (C : ℝ → ∀ l, Matrix (Fin s.M) (Fin (p l)) ℝ) (C' : ∀ l, Matrix (Fin s.M) (Fin (p l)) ℝ) (t0 : ℝ)
    (hC : ∀ l ≤ s.lmax, ∀ a i, HasDerivAt (fun t => C t l a i) (C' l a i) t0) (hn : ∀ t, ∀ l ≤ s.lmax, ∀ i, ∑ a, C t l a i ^ 2 = 1)
    (hx : Spec.SmoothR s fun l => Spec.density s.X ⟨p l, C t0 l, n l⟩) (E0 : ℝ) (F : List (Matrix (Fin s.M) (Fin s.M) ℝ))
    (hF : buildFock s c sch (Spec.blocks s fun l => ⟨p l, C t0 l, n l⟩) = .ok (E0, F)) (ε : ∀ l, Fin (p l) → ℝ) (he : ∀ l ≤ s.lmax, F.getD l 0 * C t0 l = C t0 l * diagonal (ε l)) :
    ∃ E : ℝ → ℝ, E t0 = E0 ∧ (∀ t, ∃ F', buildFock s c sch (Spec.blocks s fun l => ⟨p l, C t l, n l⟩) = .ok (E t, F')) ∧ HasDerivAt E 0 t0 := by
  obtain ⟨E, F', e1, e2, e3⟩ := C75_gradient hk hg hr hsch (fun t l => ⟨p l, C t l, n l⟩) t0 (fun l => C' l * diagonal (n l) * (C t0 l)ᵀ + C t0 l * diagonal (n l) * (C' l)ᵀ)
    (fun l hl => moves_orb (n l) (hC l hl)) hp hx
  rw [hF, Res.ok.injEq, Prod.mk.injEq] at e1
  obtain ⟨e0, rfl⟩ := e1
  refine ⟨E, e0.symm, fun t => e2 t hp, e3.congr_deriv (sum_eq_zero fun l hl => ?_)⟩
  have hl' : l ≤ s.lmax := Nat.lt_succ_iff.1 (Finset.mem_range.1 hl)
  refine trace_orb (C := fun t => C t l) ?_ (n l) (ε l) (hC l hl') (fun t => hn t l hl') (he l hl')
  refine getD_symm (fun A hA => (C75_symmetric hk hg h1 hsch E0 F).1 hr (fun l => ⟨p l, C t0 l, n l⟩) hp hF A hA) l

omit hk hg in
/-- full shells, rotated -/
example : ∃ (c : Caches) (E : ℝ → ℝ) (U : Nat → Matrix (Fin 2) (Fin 2) ℝ), prepare (exSetup true 1 (1 / 2) true) (Caches.fresh false 0) = .ok c ∧ (∀ l, U l * (U l)ᵀ = 1) ∧
    (∀ t, ∃ F', buildFock (exSetup true 1 (1 / 2) true) c exSched (Spec.blocks _ fun l => ⟨2, U l * rot t, fun _ => 1⟩) = .ok (E t, F')) ∧ HasDerivAt E 0 0 := by
  obtain ⟨c, k, h1, h2⟩ := exYuk true 1
  have hsym : ∀ l, ((exSetup true 1 (1 / 2) true).Xᵀ * fockR (exSetup true 1 (1 / 2) true) k (fun _ => Spec.density (exSetup true 1 (1 / 2) true).X exAll) l *
      (exSetup true 1 (1 / 2) true).X)ᵀ = _ := fun l => block_symm _ (fockR_symm (exOne _ _ _ _) h2 (fun l => density_symm _ _) l)
  choose U ε hU hε using fun l => exEigen _ (hsym l)
  have hD : (fun l => Spec.density (exSetup true 1 (1 / 2) true).X ⟨2, U l * rot 0, fun _ => 1⟩) = fun _ : Nat => Spec.density (exSetup true 1 (1 / 2) true).X exAll := by
    funext l
    show (exSetup true 1 (1 / 2) true).X * _ * _ = (exSetup true 1 (1 / 2) true).X * _ * _
    congr 2
    exact exFull (hU l)
  have hF := restricted_ok h2 (exGrid _ _ _ _) rfl (o := fun l => ⟨2, U l * rot 0, fun _ => 1⟩) (fun l _ => ⟨two_ne_zero, fun _ => zero_le_one⟩) (exComplete _ _ _ _)
  rw [hD] at hF
  obtain ⟨E, _, e2, e3⟩ := C75_stationary h2 (exGrid _ _ _ _) rfl (exOne _ _ _ _) (exComplete _ _ _ _) (fun _ => 2) (fun _ _ => 1) (fun l _ => ⟨two_ne_zero, fun _ => zero_le_one⟩)
    (fun t l => U l * rot t) (fun l => U l * !![0, -1; 1, 0]) 0 (fun l _ => rot_moves (U l)) (fun t l _ => exNorm (hU l) t)
    (fun x _ => ⟨toy_consistent (by norm_num [exSetup]) _ _ _, toy_consistent (by norm_num [exSetup]) _ _ _⟩) _ _ hF ε fun l hl => by
      have hl' : l < (exSetup true 1 (1 / 2) true).nblock := Nat.lt_succ_iff.2 hl
      rw [getD_map _ _ _ hl', rot_zero, Matrix.mul_one]
      exact hε l
  exact ⟨c, E, U, h1, hU, e2, e3⟩

/-- **C75, stationarity, two spins.** -/
theorem C75_stationary_unrestricted (hr : s.restricted = false) (h1 : Spec.OneSymm s) {sch : Sched} (hsch : Spec.Complete s sch) (p : Nat → Nat) (na nb : ∀ l, Fin (p l) → ℝ)
    (hb : 0 < s.nelb ∨ ∀ l ≤ s.lmax, ∀ i, nb l i = 0)
    (hpa : ∀ l ≤ s.lmax, p l ≠ 0 ∧ ∀ i, 0 ≤ na l i) (hpb : ∀ l ≤ s.lmax, p l ≠ 0 ∧ ∀ i, 0 ≤ nb l i) (A B : ℝ → ∀ l, Matrix (Fin s.M) (Fin (p l)) ℝ) (A' B' : ∀ l, Matrix (Fin s.M) (Fin (p l)) ℝ)
    (t0 : ℝ) (hA : ∀ l ≤ s.lmax, ∀ a i, HasDerivAt (fun t => A t l a i) (A' l a i) t0) (hB : ∀ l ≤ s.lmax, ∀ a i, HasDerivAt (fun t => B t l a i) (B' l a i) t0)
    (hna : ∀ t, ∀ l ≤ s.lmax, ∀ i, ∑ a, A t l a i ^ 2 = 1) (hnb : ∀ t, ∀ l ≤ s.lmax, ∀ i, ∑ a, B t l a i ^ 2 = 1)
    (hx : Spec.SmoothU s (fun l => Spec.density s.X ⟨p l, A t0 l, na l⟩) fun l => Spec.density s.X ⟨p l, B t0 l, nb l⟩) (E0 : ℝ) (Fa Fb : List (Matrix (Fin s.M) (Fin s.M) ℝ))
    (hl : Fa.length = s.lmax + 1) (hF : buildFock s c sch (Spec.blocks s (fun l => ⟨p l, A t0 l, na l⟩) ++ Spec.blocks s fun l => ⟨p l, B t0 l, nb l⟩) = .ok (E0, Fa ++ Fb))
    (εa εb : ∀ l, Fin (p l) → ℝ) (hea : ∀ l ≤ s.lmax, Fa.getD l 0 * A t0 l = A t0 l * diagonal (εa l)) (heb : ∀ l ≤ s.lmax, Fb.getD l 0 * B t0 l = B t0 l * diagonal (εb l)) :
    ∃ E : ℝ → ℝ, E t0 = E0 ∧ (∀ t, ∃ F', buildFock s c sch (Spec.blocks s (fun l => ⟨p l, A t l, na l⟩) ++ Spec.blocks s fun l => ⟨p l, B t l, nb l⟩) = .ok (E t, F')) ∧ HasDerivAt E 0 t0 := by
  obtain ⟨E, Fa', Fb', e0, e1, e2, e3⟩ := C75_gradient_unrestricted hk hg hr hsch (fun t l => ⟨p l, A t l, na l⟩) (fun t l => ⟨p l, B t l, nb l⟩) t0
    (fun l => A' l * diagonal (na l) * (A t0 l)ᵀ + A t0 l * diagonal (na l) * (A' l)ᵀ) (fun l => B' l * diagonal (nb l) * (B t0 l)ᵀ + B t0 l * diagonal (nb l) * (B' l)ᵀ)
    (fun l hl => moves_orb (na l) (hA l hl)) (fun l hl => moves_orb (nb l) (hB l hl))
    (hb.imp_right fun hz l hl => by
      have : diagonal (nb l) = 0 := by rw [show nb l = 0 from funext (hz l hl)]; exact diagonal_zero
      rw [this, Matrix.mul_zero, Matrix.mul_zero, Matrix.zero_mul, Matrix.zero_mul, add_zero]) hpa hpb hx
  have hs := (C75_symmetric hk hg h1 hsch E0 (Fa ++ Fb)).2 hr (fun l => ⟨p l, A t0 l, na l⟩) (fun l => ⟨p l, B t0 l, nb l⟩) hpa hpb hF
  rw [hF, Res.ok.injEq, Prod.mk.injEq] at e1
  obtain ⟨e4, e5⟩ := e1
  obtain ⟨rfl, rfl⟩ := List.append_inj e5 (hl.trans e0.symm)
  refine ⟨E, e4.symm, fun t => e2 t hpa hpb, e3.congr_deriv (sum_eq_zero fun l hl => ?_)⟩
  have hl' : l ≤ s.lmax := Nat.lt_succ_iff.1 (Finset.mem_range.1 hl)
  rw [trace_orb (C := fun t => A t l) (getD_symm (fun M hM => hs M (List.mem_append_left _ hM)) l) (na l) (εa l) (hA l hl') (fun t => hna t l hl') (hea l hl'),
    trace_orb (C := fun t => B t l) (getD_symm (fun M hM => hs M (List.mem_append_right _ hM)) l) (nb l) (εb l) (hB l hl') (fun t => hnb t l hl') (heb l hl'), add_zero]

omit hk hg in
/-- full shells of both spins, rotated against each other -/
example : ∃ (c : Caches) (E : ℝ → ℝ) (U V : Nat → Matrix (Fin 2) (Fin 2) ℝ), prepare (exSetup false 1 (1 / 2) true) (Caches.fresh false 0) = .ok c ∧ (∀ l, U l * (U l)ᵀ = 1 ∧ V l * (V l)ᵀ = 1) ∧
    (∀ t, ∃ F', buildFock (exSetup false 1 (1 / 2) true) c exSched (Spec.blocks _ (fun l => ⟨2, U l * rot t, fun _ => 1⟩) ++ Spec.blocks _ fun l => ⟨2, V l * rot t, fun _ => 1⟩) = .ok (E t, F')) ∧
    HasDerivAt E 0 0 := by
  obtain ⟨c, k, h1, h2⟩ := exYuk false 1
  obtain ⟨D, hD⟩ : ∃ D : Nat → Matrix (Fin 3) (Fin 3) ℝ, D = fun _ => Spec.density (exSetup false 1 (1 / 2) true).X exAll := ⟨_, rfl⟩
  have hs : ∀ l, (D l)ᵀ = D l := fun l => by rw [hD]; exact density_symm _ _
  have hsa : ∀ l, ((exSetup false 1 (1 / 2) true).Xᵀ * fockA (exSetup false 1 (1 / 2) true) k D D l * (exSetup false 1 (1 / 2) true).X)ᵀ = _ :=
    fun l => block_symm _ (fockA_symm (exOne _ _ _ _) h2 hs l)
  have hsb : ∀ l, ((exSetup false 1 (1 / 2) true).Xᵀ * fockB (exSetup false 1 (1 / 2) true) k D D l * (exSetup false 1 (1 / 2) true).X)ᵀ = _ :=
    fun l => block_symm _ (fockB_symm (exOne _ _ _ _) h2 hs l)
  choose U εa hU hεa using fun l => exEigen _ (hsa l)
  choose V εb hV hεb using fun l => exEigen _ (hsb l)
  have hd : ∀ W : Nat → Matrix (Fin 2) (Fin 2) ℝ, (∀ l, W l * (W l)ᵀ = 1) → (fun l => Spec.density (exSetup false 1 (1 / 2) true).X ⟨2, W l * rot 0, fun _ => 1⟩) = D := by
    intro W hW
    rw [hD]
    funext l
    show (exSetup false 1 (1 / 2) true).X * _ * _ = (exSetup false 1 (1 / 2) true).X * _ * _
    congr 2
    exact exFull (hW l)
  have hF := unrestricted_ok h2 (exGrid _ _ _ _) rfl (oa := fun l => ⟨2, U l * rot 0, fun _ => 1⟩) (ob := fun l => ⟨2, V l * rot 0, fun _ => 1⟩)
    (fun l _ => ⟨two_ne_zero, fun _ => zero_le_one⟩) (fun l _ => ⟨two_ne_zero, fun _ => zero_le_one⟩) (exComplete _ _ _ _)
  rw [hd U hU, hd V hV] at hF
  obtain ⟨E, _, e2, e3⟩ := C75_stationary_unrestricted h2 (exGrid _ _ _ _) rfl (exOne _ _ _ _) (exComplete _ _ _ _) (fun _ => 2) (fun _ _ => 1) (fun _ _ => 1) (Or.inl (by norm_num [exSetup]))
    (fun l _ => ⟨two_ne_zero, fun _ => zero_le_one⟩) (fun l _ => ⟨two_ne_zero, fun _ => zero_le_one⟩)
    (fun t l => U l * rot t) (fun t l => V l * rot t) (fun l => U l * !![0, -1; 1, 0]) (fun l => V l * !![0, -1; 1, 0]) 0 (fun l _ => rot_moves (U l)) (fun l _ => rot_moves (V l))
    (fun t l _ => exNorm (hU l) t) (fun t l _ => exNorm (hV l) t)
    (fun x _ => ⟨toy_consistent2 (by norm_num [exSetup]) _ _ _, toy_consistent2 (by norm_num [exSetup]) _ _ _⟩) _ _ _ (by rw [List.length_map, List.length_range]; rfl) hF εa εb
    (fun l hl => by
      have hl' : l < (exSetup false 1 (1 / 2) true).nblock := Nat.lt_succ_iff.2 hl
      rw [getD_map _ _ _ hl', rot_zero, Matrix.mul_one]
      exact hεa l)
    (fun l hl => by
      have hl' : l < (exSetup false 1 (1 / 2) true).nblock := Nat.lt_succ_iff.2 hl
      rw [getD_map _ _ _ hl', rot_zero, Matrix.mul_one]
      exact hεb l)
  exact ⟨c, E, U, V, h1, fun l => ⟨hU l, hV l⟩, e2, e3⟩

end build

/-- **C75, batches.** A batch builds every state as if it were alone, whatever the order in which its iterations run. -/
theorem C75_batch (sch : Nat → Sched) (dms : List (List (Dens.Orbs s.M))) (order : List Nat) (ho : order.Perm (List.range dms.length))
    (hb : ∀ i dm, dms[i]? = some dm → ∃ r, buildFock s c (sch i) dm = .ok r) :
    ∃ out, buildBatch s c sch order dms = .ok out ∧ out.length = dms.length ∧ ∀ i dm r, dms[i]? = some dm → buildFock s c (sch i) dm = .ok r → out[i]? = some (some r) := by
  have hr : ∀ i, ∃ r, ∀ dm, dms[i]? = some dm → buildFock s c (sch i) dm = .ok r := by
    intro i
    cases h : dms[i]? with
    | none => exact ⟨(0, []), fun dm h' => by simp at h'⟩
    | some dm =>
      obtain ⟨r, hr⟩ := hb i dm h
      exact ⟨r, fun dm' h' => by rw [← Option.some.inj h']; exact hr⟩
  choose r hr using hr
  have hm : ∀ i ∈ order, i < dms.length := fun i hi => List.mem_range.1 (ho.mem_iff.1 hi)
  obtain ⟨out, h1, h2, h3, _⟩ := fold_set (fun (out : List (Option (ℝ × List (Matrix (Fin s.M) (Fin s.M) ℝ)))) i =>
      readAt dms i >>= fun dm => buildFock s c (sch i) dm >>= fun r => .ok (out.set i (some r))) (fun i => some (r i)) none order (List.replicate dms.length none)
    (ho.nodup_iff.2 List.nodup_range) (fun i hi => by rw [List.getElem?_replicate, if_pos (hm i hi)]) (fun i hi K _ => by
      have hd : dms[i]? = some (dms[i]'(hm i hi)) := List.getElem?_eq_getElem _
      beta_reduce
      rw [readAt_eq hd, Res.ok_bind, hr i _ hd, Res.ok_bind])
  refine ⟨out, h1, by rw [h2, List.length_replicate], fun i dm r' hd hr' => ?_⟩
  have hi : i < dms.length := by
    by_contra hc
    rw [List.getElem?_eq_none (by omega)] at hd
    exact absurd hd (by simp)
  rw [h3 i (ho.mem_iff.2 (List.mem_range.2 hi))]
  have := hr i dm hd
  rw [hr', Res.ok.injEq] at this
  rw [this]

/-- two states, the second one first -/
example : ∃ (c : Caches) (out : List (Option (ℝ × List (Matrix (Fin 2) (Fin 2) ℝ)))), prepare (exSetup true 1 (1 / 2) true) (Caches.fresh false 0) = .ok c ∧
    buildBatch (exSetup true 1 (1 / 2) true) c (fun _ => exSched) [1, 0] [Spec.blocks _ (exOrbs 2), Spec.blocks _ (exOrbs 1)] = .ok out ∧ out.length = 2 := by
  obtain ⟨c, k, h1, h2⟩ := exYuk true 1
  obtain ⟨out, h3, h4, _⟩ := C75_batch (s := exSetup true 1 (1 / 2) true) (c := c) (fun _ => exSched) [Spec.blocks _ (exOrbs 2), Spec.blocks _ (exOrbs 1)] [1, 0] (show [1, 0].Perm (List.range 2) by decide) (by
    intro i dm hd
    have hm := List.mem_of_getElem? hd
    simp only [List.mem_cons, List.not_mem_nil, or_false] at hm
    rcases hm with rfl | rfl
    · exact ⟨_, restricted_ok h2 (exGrid _ _ _ _) rfl (fun l _ => exPhysical (by norm_num) l) (exComplete _ _ _ _)⟩
    · exact ⟨_, restricted_ok h2 (exGrid _ _ _ _) rfl (fun l _ => exPhysical (by norm_num) l) (exComplete _ _ _ _)⟩)
  exact ⟨c, out, h1, h3, h4⟩

end SadSCF
end HelFEM
