import Verif.Model.NAO
import Verif.Spec.NAO
import Verif.Props.CoulombExchange

/-!
# C29: numerical atomic orbitals
-/

namespace HelFEM
namespace NAO
open Finset Spec TwoE

variable {K : Type _} [CommRing K] [LinearOrder K]

/-- Objects that the constructor can return. -/
def Nao.Valid (a : Nao K) : Prop := ∃ u C, Nao.make u C = .ok a

theorem Nao.Valid.dims {a : Nao K} (h : a.Valid) : a.C.rows = a.obj.nbf ∧ 0 < a.C.cols := by
  obtain ⟨u, C, h⟩ := h
  unfold Nao.make at h
  split at h
  · cases h
  · split_ifs at h with h1 h2
    cases h
    exact ⟨by simpa using h1, Nat.pos_of_ne_zero h2⟩

/-- **C29, construction.** The constructor throws on a null basis, a wrong number of rows or no columns, and on nothing else. -/
theorem C29_construct (u : Option (Nat × RadialObj K)) (C : Mat K) :
    (∃ a, Nao.make u C = .ok a ∧ ∃ p b, u = some (p, b) ∧ C.rows = b.nbf ∧ C.cols ≠ 0 ∧ a = ⟨p, b, C⟩) ∨
    (Nao.make u C = .throw .logicError ∧ ∀ p b, u = some (p, b) → C.rows ≠ b.nbf ∨ C.cols = 0) := by
  rcases u with _ | ⟨p, b⟩
  · exact .inr ⟨rfl, by simp⟩
  · unfold Nao.make
    by_cases h1 : C.rows = b.nbf
    · by_cases h2 : C.cols = 0
      · exact .inr ⟨by simp [h2], by simp_all⟩
      · exact .inl ⟨⟨p, b, C⟩, by simp [h1, h2], p, b, rfl, h1, h2, rfl⟩
    · exact .inr ⟨by simp [h1], by simp_all⟩

theorem sandwich_ok (C M : Mat K) (N : Nat) (h1 : C.rows = N) (m1 : M.rows = N) (m2 : M.cols = N) :
    ∃ X, sandwich C M = .ok X ∧ X.rows = C.cols ∧ X.cols = C.cols ∧ ∀ i j, X.get i j = orbMat N C.get M.get i j := by
  unfold sandwich Mat.mul Mat.transpose
  simp only [h1, m1, m2, if_true, Res.ok_bind]
  refine ⟨_, rfl, rfl, rfl, fun i j => ?_⟩
  simp only [orbMat, sum_mul]
  rw [sum_comm]

/-- **C29, operators.** Overlap, kinetic, centrifugal and nuclear matrices between the orbitals are the matrix elements of the orbitals as linear
combinations of the underlying functions. -/
theorem C29_operators (a : Nao K) (ha : a.Valid) (op : RadialObj K → Res (Mat K)) (naoOp : Nao K → Res (Mat K))
    (hop : (op, naoOp) ∈ [(RadialObj.overlap, Nao.overlap), (RadialObj.kinetic, Nao.kinetic), (RadialObj.kineticL, Nao.kineticL),
      (RadialObj.nuclear, Nao.nuclear)])
    (M : Mat K) (hM : op a.obj = .ok M) (m1 : M.rows = a.obj.nbf) (m2 : M.cols = a.obj.nbf) :
    ∃ X, naoOp a = .ok X ∧ X.rows = a.nbf ∧ X.cols = a.nbf ∧ ∀ i < a.nbf, ∀ j < a.nbf,
      X.get i j = orbMat a.obj.nbf a.C.get M.get i j := by
  obtain ⟨h1, _⟩ := ha.dims
  obtain ⟨X, x1, x2, x3, x4⟩ := sandwich_ok a.C M a.obj.nbf h1 m1 m2
  refine ⟨X, ?_, x2, x3, fun i _ j _ => x4 i j⟩
  simp only [List.mem_cons, Prod.mk.injEq, List.not_mem_nil, or_false] at hop
  rcases hop with ⟨rfl, rfl⟩ | ⟨rfl, rfl⟩ | ⟨rfl, rfl⟩ | ⟨rfl, rfl⟩ <;>
    simp only [Nao.overlap, Nao.kinetic, Nao.kineticL, Nao.nuclear, hM, Res.ok_bind, x1]

/-- **C29, composition.** Combining the orbitals further with `U` transforms every operator matrix as for any change of basis: the matrices over
`C U` are those of orbitals `U` over the matrices of `C`. -/
theorem C29_compose (N n : Nat) (C U M : Nat → Nat → K) (i j : Nat) :
    orbMat N (fun p i => ∑ k ∈ range n, C p k * U k i) M i j = orbMat n U (orbMat N C M) i j := by
  simp only [orbMat, sum_mul, mul_sum]
  have : ∀ p q, ∑ x ∈ range n, ∑ y ∈ range n, C p x * U x i * M p q * (C q y * U y j) =
      ∑ x ∈ range n, ∑ y ∈ range n, U x i * (C p x * M p q * C q y) * U y j := by
    intro p q
    apply sum_congr rfl; intro x _
    apply sum_congr rfl; intro y _
    ring
  calc _ = ∑ p ∈ range N, ∑ q ∈ range N, ∑ x ∈ range n, ∑ y ∈ range n, U x i * (C p x * M p q * C q y) * U y j := by
        apply sum_congr rfl; intro p _
        apply sum_congr rfl; intro q _
        rw [← this, sum_comm]
    _ = ∑ x ∈ range n, ∑ y ∈ range n, ∑ p ∈ range N, ∑ q ∈ range N, U x i * (C p x * M p q * C q y) * U y j := by
        calc _ = ∑ p ∈ range N, ∑ x ∈ range n, ∑ q ∈ range N, ∑ y ∈ range n, U x i * (C p x * M p q * C q y) * U y j := by
              apply sum_congr rfl; intro p _; rw [sum_comm]
          _ = ∑ x ∈ range n, ∑ p ∈ range N, ∑ q ∈ range N, ∑ y ∈ range n, U x i * (C p x * M p q * C q y) * U y j := sum_comm
          _ = ∑ x ∈ range n, ∑ p ∈ range N, ∑ y ∈ range n, ∑ q ∈ range N, U x i * (C p x * M p q * C q y) * U y j := by
              apply sum_congr rfl; intro x _; apply sum_congr rfl; intro p _; rw [sum_comm]
          _ = _ := by
              apply sum_congr rfl; intro x _; rw [sum_comm]
    _ = _ := rfl

/-- The value of primitive `p` at `r`: that of its local function if `r` lies in one of its elements, else zero. -/
def RadialObj.prim (b : RadialObj K) (r : K) (p : Nat) : K :=
  match b.locate r with
  | none => 0
  | some (f, v) => if f ≤ p ∧ p < f + v.size then v.get (p - f) else 0

theorem evalOrbs_ok (b : RadialObj K) (C : Mat K) (r : K) (h : C.rows = b.nbf) (hl : ∀ f v, b.locate r = some (f, v) → f + v.size ≤ b.nbf) :
    ∃ v, b.evalOrbs C r = .ok v ∧ v.size = C.cols ∧ ∀ j, v.get j = ∑ p ∈ range b.nbf, C.get p j * b.prim r p := by
  unfold RadialObj.evalOrbs RadialObj.prim
  cases hr : b.locate r with
  | none => exact ⟨_, rfl, rfl, by simp⟩
  | some q =>
    obtain ⟨f, v⟩ := q
    have hb := hl f v hr
    simp only [Mat.block, Mat.mul]
    rw [if_pos ⟨by omega, by omega⟩]
    simp only [Res.ok_bind, if_true, Res.pure_eq]
    refine ⟨_, rfl, rfl, fun j => ?_⟩
    have := sum_window b.nbf f v.size hb (fun p => v.get (p - f) * C.get p j)
    simp only [zero_add, Nat.add_sub_cancel_left] at this ⊢
    rw [← this]
    apply sum_congr rfl
    intro p _
    split_ifs with hp
    · rw [mul_comm]
    · simp

/-- **C29, evaluation.** The value of orbital `j` (column `j` of `Corb` over the NAOs) at any radius is the double linear combination of the
primitives' values there; a coefficient matrix with a wrong number of rows throws. -/
theorem C29_eval (a : Nao K) (ha : a.Valid) (Corb : Mat K) (r : K) (hl : ∀ f v, a.obj.locate r = some (f, v) → f + v.size ≤ a.obj.nbf) :
    (Corb.rows ≠ a.nbf → a.evalOrbs Corb r = .throw .logicError) ∧
    (Corb.rows = a.nbf → ∃ v, a.evalOrbs Corb r = .ok v ∧ v.size = Corb.cols ∧ ∀ j < Corb.cols,
      v.get j = ∑ m ∈ range a.nbf, Corb.get m j * ∑ p ∈ range a.obj.nbf, a.C.get p m * a.obj.prim r p) := by
  obtain ⟨h1, _⟩ := ha.dims
  constructor
  · intro h; simp [Nao.evalOrbs, h]
  · intro h
    unfold Nao.evalOrbs Mat.mul
    rw [if_neg (by simpa using h), if_pos (by rw [h]; rfl)]
    simp only [Res.ok_bind]
    obtain ⟨v, v1, v2, v3⟩ := evalOrbs_ok a.obj ⟨a.C.rows, Corb.cols, fun i j => ∑ k ∈ range a.C.cols, a.C.get i k * Corb.get k j⟩ r h1 hl
    refine ⟨v, v1, v2, fun j _ => ?_⟩
    rw [v3]
    simp only [sum_mul, mul_sum]
    rw [sum_comm]
    apply sum_congr rfl; intro m _
    apply sum_congr rfl; intro p _
    ring

/-- **C29, guards.** Two-electron operators throw exactly when the two orbital sets are defined over different objects, the underlying basis is not a finite
element one, the density has the wrong shape, or the screening constant is not positive; whatever the integrals. -/
theorem C29_guards (a other : Nao K) (ker : Kernel K) (k : Int) (D : Mat K)
    (h : a.ptr ≠ other.ptr ∨ a.obj.fem = none ∨ D.rows ≠ other.nbf ∨ D.cols ≠ other.nbf ∨ ∃ lam, ker = .yukawa lam ∧ lam ≤ 0) :
    a.coulombRadial ker k other D = .throw .logicError ∧ a.exchangeRadial ker k other D = .throw .logicError := by
  have key : ∀ (β : Type _) (f : Unit → Res β), (do a.requireShared other; requireShape other D; checkKernel ker; f ()) = (.throw .logicError : Res β) := by
    intro β f
    unfold Nao.requireShared Nao.underlyingFem
    by_cases h1 : a.ptr = other.ptr
    swap; · simp [h1]
    rw [if_neg (by simpa using h1)]
    cases h2 : a.obj.fem with
    | none => rfl
    | some g =>
      simp only [Res.ok_bind, Res.pure_eq]
      unfold requireShape
      by_cases h3 : D.rows ≠ other.nbf ∨ D.cols ≠ other.nbf
      · rw [if_pos h3]; rfl
      rw [if_neg h3]
      simp only [Res.ok_bind]
      rcases h with h | h | h | h | ⟨lam, rfl, h⟩
      · exact absurd h1 h
      · rw [h2] at h; cases h
      · exact absurd (.inl h) h3
      · exact absurd (.inr h) h3
      · simp [checkKernel, h]
  constructor
  · exact key _ (fun _ => do
      let f ← a.underlyingFem
      let P ← promote other.C D
      let J ← TwoE.assembleJ f.R (f.rSmall ker k) (f.rBig ker k) (TwoE.denseJ (f.tei ker k)) P
      sandwich a.C J)
  · exact key _ (fun _ => do
      let f ← a.underlyingFem
      let P ← promote other.C D
      let M ← TwoE.assembleK f.R (TwoE.cachedBlk (f.rSmall ker k) (f.rBig ker k) (TwoE.denseK (TwoE.kteiOf f.R (f.tei ker k)))) P
      sandwich a.C M)

theorem promote_ok (C D : Mat K) (h1 : D.rows = C.cols) (h2 : D.cols = C.cols) :
    ∃ P, promote C D = .ok P ∧ P.rows = C.rows ∧ P.cols = C.rows ∧ ∀ r s, P.get r s =
      ∑ m ∈ range C.cols, ∑ n ∈ range C.cols, D.get m n * (C.get r m * C.get s n) := by
  unfold promote Mat.mul Mat.transpose
  simp only [h1, h2, if_true, Res.ok_bind]
  refine ⟨_, rfl, rfl, rfl, fun r s => ?_⟩
  simp only [sum_mul]
  rw [sum_comm]
  apply sum_congr rfl; intro m _
  apply sum_congr rfl; intro n _
  ring

/-- What a finite element basis delivers for one kernel and multipole: numbering, moments and in-element integrals of the right sizes, symmetric in the
functions of one electron (C19, C20). -/
structure Delivers (f : Fem K) (ker : Kernel K) (k : Int) (ne N : Nat) (first last : Nat → Nat) (Sm Bg T : Nat → Mat K) : Prop where
  layout : Layout f.R ne N first last
  small : ∀ e < ne, f.rSmall ker k e = .ok (Sm e) ∧ (Sm e).rows = cnt first last e ∧ (Sm e).cols = cnt first last e
  big : ∀ e, 0 < e → e < ne → f.rBig ker k e = .ok (Bg e) ∧ (Bg e).rows = cnt first last e ∧ (Bg e).cols = cnt first last e
  tei : ∀ e < ne, f.tei ker k e = .ok (T e) ∧ (T e).rows = cnt first last e * cnt first last e ∧ (T e).cols = cnt first last e * cnt first last e
  smallSym : ∀ e < ne, ∀ a < cnt first last e, ∀ b < cnt first last e, (Sm e).get a b = (Sm e).get b a
  bigSym : ∀ e, 0 < e → e < ne → ∀ a < cnt first last e, ∀ b < cnt first last e, (Bg e).get a b = (Bg e).get b a
  teiSym : ∀ e < ne, ∀ a < cnt first last e, ∀ b < cnt first last e, ∀ m < cnt first last e * cnt first last e,
      (T e).get (b * cnt first last e + a) m = (T e).get (a * cnt first last e + b) m

/-- The four-index integrals of the primitives. -/
def prims (ne : Nat) (first last : Nat → Nat) (Sm Bg T : Nat → Mat K) : Nat → Nat → Nat → Nat → K :=
  fourIndex ne first last (multipoleBlk (cnt first last) (fun e => (Sm e).get) (fun e => (Bg e).get) (fun e => (T e).get))

theorem guards_pass (a other : Nao K) (ker : Kernel K) (D : Mat K) (f : Fem K) (hp : a.ptr = other.ptr) (hf : a.obj.fem = some f)
    (d1 : D.rows = other.nbf) (d2 : D.cols = other.nbf) (hk : ∀ lam, ker = .yukawa lam → 0 < lam) (β : Type _) (g : Fem K → Res β) :
    (do a.requireShared other; requireShape other D; checkKernel ker; let f ← a.underlyingFem; g f) = g f := by
  unfold Nao.requireShared Nao.underlyingFem requireShape
  rw [if_neg (by simpa using hp), if_neg (by simp [d1, d2]), hf]
  simp only [Res.ok_bind, Res.pure_eq]
  cases ker with
  | bare => rfl
  | yukawa lam => simp [checkKernel, not_le.2 (hk lam rfl)]

/-- quadruple sum against a density, reordered -/
theorem contract (N n : Nat) (four : Nat → Nat → Nat → Nat → K) (A C D : Nat → Nat → K) (i j : Nat) :
    ∑ p ∈ range N, ∑ q ∈ range N, A p i * (∑ r ∈ range N, ∑ s ∈ range N, four p q r s *
        ∑ m ∈ range n, ∑ l ∈ range n, D m l * (C r m * C s l)) * A q j =
      ∑ m ∈ range n, ∑ l ∈ range n, D m l * orbFour N four A A C C i j m l := by
  have e1 : ∀ p q, A p i * (∑ r ∈ range N, ∑ s ∈ range N, four p q r s * ∑ m ∈ range n, ∑ l ∈ range n, D m l * (C r m * C s l)) * A q j =
      ∑ m ∈ range n, ∑ l ∈ range n, D m l * ∑ r ∈ range N, ∑ s ∈ range N, A p i * A q j * C r m * C s l * four p q r s := by
    intro p q
    simp only [mul_sum, sum_mul]
    calc _ = ∑ r ∈ range N, ∑ m ∈ range n, ∑ s ∈ range N, ∑ l ∈ range n, A p i * (four p q r s * (D m l * (C r m * C s l))) * A q j := by
          apply sum_congr rfl; intro r _; rw [sum_comm]
      _ = ∑ m ∈ range n, ∑ r ∈ range N, ∑ s ∈ range N, ∑ l ∈ range n, A p i * (four p q r s * (D m l * (C r m * C s l))) * A q j := sum_comm
      _ = ∑ m ∈ range n, ∑ r ∈ range N, ∑ l ∈ range n, ∑ s ∈ range N, A p i * (four p q r s * (D m l * (C r m * C s l))) * A q j := by
          apply sum_congr rfl; intro m _; apply sum_congr rfl; intro r _; rw [sum_comm]
      _ = ∑ m ∈ range n, ∑ l ∈ range n, ∑ r ∈ range N, ∑ s ∈ range N, A p i * (four p q r s * (D m l * (C r m * C s l))) * A q j := by
          apply sum_congr rfl; intro m _; rw [sum_comm]
      _ = _ := by
          apply sum_congr rfl; intro m _; apply sum_congr rfl; intro l _
          apply sum_congr rfl; intro r _; apply sum_congr rfl; intro s _
          ring
  simp only [e1]
  simp only [orbFour, mul_sum]
  calc _ = ∑ p ∈ range N, ∑ m ∈ range n, ∑ q ∈ range N, ∑ l ∈ range n, ∑ r ∈ range N, ∑ s ∈ range N, D m l * (A p i * A q j * C r m * C s l * four p q r s) := by
        apply sum_congr rfl; intro p _; rw [sum_comm]
    _ = ∑ m ∈ range n, ∑ p ∈ range N, ∑ q ∈ range N, ∑ l ∈ range n, ∑ r ∈ range N, ∑ s ∈ range N, D m l * (A p i * A q j * C r m * C s l * four p q r s) := sum_comm
    _ = ∑ m ∈ range n, ∑ p ∈ range N, ∑ l ∈ range n, ∑ q ∈ range N, ∑ r ∈ range N, ∑ s ∈ range N, D m l * (A p i * A q j * C r m * C s l * four p q r s) := by
        apply sum_congr rfl; intro m _; apply sum_congr rfl; intro p _; rw [sum_comm]
    _ = _ := by
        apply sum_congr rfl; intro m _; rw [sum_comm]

/-- **C29, Coulomb.** For orbital sets over one finite element basis, `coulomb_radial` returns `J_ij = Σ_mn D_mn R(a_i a_j, b_m b_n)`, bare or screened. -/
theorem C29_coulomb (a other : Nao K) (ha : a.Valid) (hb : other.Valid) (hptr : a.ptr = other.ptr) (hobj : a.obj = other.obj)
    (f : Fem K) (hf : a.obj.fem = some f) (ker : Kernel K) (hk : ∀ lam, ker = .yukawa lam → 0 < lam) (k : Int)
    {ne : Nat} {first last : Nat → Nat} {Sm Bg T : Nat → Mat K} (hd : Delivers f ker k ne a.obj.nbf first last Sm Bg T)
    (D : Mat K) (d1 : D.rows = other.nbf) (d2 : D.cols = other.nbf) :
    ∃ J, a.coulombRadial ker k other D = .ok J ∧ J.rows = a.nbf ∧ J.cols = a.nbf ∧ ∀ i < a.nbf, ∀ j < a.nbf,
      J.get i j = ∑ m ∈ range other.nbf, ∑ n ∈ range other.nbf, D.get m n *
        orbFour a.obj.nbf (prims ne first last Sm Bg T) a.C.get a.C.get other.C.get other.C.get i j m n := by
  unfold Nao.coulombRadial
  rw [guards_pass a other ker D f hptr hf d1 d2 hk]
  obtain ⟨P, p1, p2, p3, p4⟩ := promote_ok other.C D d1 d2
  have hN : other.C.rows = a.obj.nbf := by rw [hb.dims.1, hobj]
  obtain ⟨J, j1, j2, j3, j4⟩ := C20_coulomb hd.layout _ _ _ Sm Bg T hd.small hd.big hd.tei hd.smallSym hd.bigSym P (p2.trans hN) (p3.trans hN)
  obtain ⟨X, x1, x2, x3, x4⟩ := sandwich_ok a.C J a.obj.nbf ha.dims.1 j2 j3
  refine ⟨X, by simp only [p1, j1, Res.ok_bind, x1], x2, x3, fun i _ j _ => ?_⟩
  rw [x4, orbMat, ← contract]
  apply sum_congr rfl; intro p hp
  apply sum_congr rfl; intro q hq
  rw [j4 p (mem_range.1 hp) q (mem_range.1 hq)]
  simp only [coulomb, p4, prims, Nao.nbf]

/-- **C29, exchange.** For orbital sets over one finite element basis, `exchange_radial` returns `K_ij = Σ_mn D_mn R(a_i b_m, a_j b_n)`. -/
theorem C29_exchange (a other : Nao K) (ha : a.Valid) (hb : other.Valid) (hptr : a.ptr = other.ptr) (hobj : a.obj = other.obj)
    (f : Fem K) (hf : a.obj.fem = some f) (ker : Kernel K) (hk : ∀ lam, ker = .yukawa lam → 0 < lam) (k : Int)
    {ne : Nat} {first last : Nat → Nat} {Sm Bg T : Nat → Mat K} (hd : Delivers f ker k ne a.obj.nbf first last Sm Bg T)
    (D : Mat K) (d1 : D.rows = other.nbf) (d2 : D.cols = other.nbf) :
    ∃ X, a.exchangeRadial ker k other D = .ok X ∧ X.rows = a.nbf ∧ X.cols = a.nbf ∧ ∀ i < a.nbf, ∀ j < a.nbf,
      X.get i j = ∑ m ∈ range other.nbf, ∑ n ∈ range other.nbf, D.get m n *
        orbFour a.obj.nbf (prims ne first last Sm Bg T) a.C.get other.C.get a.C.get other.C.get i m j n := by
  unfold Nao.exchangeRadial
  rw [guards_pass a other ker D f hptr hf d1 d2 hk]
  obtain ⟨P, p1, p2, p3, p4⟩ := promote_ok other.C D d1 d2
  have hN : other.C.rows = a.obj.nbf := by rw [hb.dims.1, hobj]
  obtain ⟨J, j1, j2, j3, j4⟩ := C21_exchange hd.layout _ _ _ Sm Bg T hd.small hd.big hd.tei hd.teiSym P (p2.trans hN) (p3.trans hN)
  obtain ⟨X, x1, x2, x3, x4⟩ := sandwich_ok a.C J a.obj.nbf ha.dims.1 j2 j3
  refine ⟨X, by simp only [p1, j1, Res.ok_bind, x1], x2, x3, fun i _ j _ => ?_⟩
  have := contract a.obj.nbf other.C.cols (fun p r q s => prims ne first last Sm Bg T p q r s) a.C.get other.C.get D.get i j
  rw [x4, orbMat]
  trans ∑ p ∈ range a.obj.nbf, ∑ q ∈ range a.obj.nbf, a.C.get p i * (∑ r ∈ range a.obj.nbf, ∑ s ∈ range a.obj.nbf, prims ne first last Sm Bg T p r q s *
        ∑ m ∈ range other.C.cols, ∑ l ∈ range other.C.cols, D.get m l * (other.C.get r m * other.C.get s l)) * a.C.get q j
  · apply sum_congr rfl; intro p hp
    apply sum_congr rfl; intro q hq
    rw [j4 p (mem_range.1 hp) q (mem_range.1 hq)]
    simp only [exchange, p4, prims]
  · rw [this]
    apply sum_congr rfl; intro m _
    apply sum_congr rfl; intro n _
    congr 1
    simp only [orbFour]
    apply sum_congr rfl; intro p _
    rw [sum_comm]
    apply sum_congr rfl; intro q _
    apply sum_congr rfl; intro r _
    apply sum_congr rfl; intro s _
    ring

/-! ### Orbital sets extracted from an atomic calculation -/

theorem extractLoop_ptr (obj : RadialObj K) : ∀ (rest : List (Mat K × Int)) (l fresh : Nat) (out : List (Nat × Nao K)),
    extractLoop obj l fresh rest = .ok out →
    (∀ x ∈ out, fresh ≤ x.2.ptr) ∧ out.Pairwise (fun x y => x.2.ptr ≠ y.2.ptr) ∧ ∀ x ∈ out, x.2.obj = obj ∧ x.2.Valid := by
  intro rest
  induction rest with
  | nil => intro l fresh out h; cases h; simp
  | cons c r ih =>
    obtain ⟨Cl, keep⟩ := c
    intro l fresh out h
    rw [extractLoop] at h
    split_ifs at h with h1 h2
    · exact ih _ _ _ h
    · cases ha : Nao.fromOwned fresh obj (keepCols Cl keep) with
      | throw e => rw [ha] at h; cases h
      | ub => rw [ha] at h; cases h
      | ok a =>
        have hp : a.ptr = fresh ∧ a.obj = obj := by
          have ha' := ha
          unfold Nao.fromOwned Nao.make at ha'
          simp only at ha'
          split_ifs at ha'
          cases ha'; exact ⟨rfl, rfl⟩
        rw [ha] at h
        simp only [Res.ok_bind] at h
        cases hr : extractLoop obj (l + 1) (fresh + 1) r with
        | throw e => rw [hr] at h; cases h
        | ub => rw [hr] at h; cases h
        | ok o =>
          rw [hr] at h
          simp only [Res.ok_bind, Res.pure_eq, Res.ok.injEq] at h
          obtain ⟨i1, i2, i3⟩ := ih _ _ _ hr
          subst h
          refine ⟨?_, ?_, ?_⟩
          · intro x hx
            rcases List.mem_cons.1 hx with rfl | hx
            · exact hp.1.ge
            · have := i1 x hx; omega
          · refine List.pairwise_cons.2 ⟨fun y hy => ?_, i2⟩
            have := i1 y hy
            simp only [hp.1]; omega
          · intro x hx
            rcases List.mem_cons.1 hx with rfl | hx
            · exact ⟨hp.2, ⟨_, _, ha⟩⟩
            · exact i3 x hx

theorem extractLoop_spec (obj : RadialObj K) : ∀ (rest : List (Mat K × Int)) (l fresh : Nat) (out : List (Nat × Nao K)),
    extractLoop obj l fresh rest = .ok out →
    out.map Prod.fst = (List.range rest.length).filterMap (fun i => if (rest[i]?.map Prod.snd).getD 0 = 0 then none else some (l + i)) ∧
    ∀ x ∈ out, ∃ i, ∃ h : i < rest.length, x.1 = l + i ∧ (rest[i].2 : Int) ≤ rest[i].1.cols ∧ x.2.C = keepCols rest[i].1 rest[i].2 := by
  intro rest
  induction rest with
  | nil => intro l fresh out h; cases h; simp
  | cons c r ih =>
    obtain ⟨Cl, keep⟩ := c
    intro l fresh out h
    rw [extractLoop] at h
    have hshift : ∀ g : Nat → Option Nat, (List.range (r.length + 1)).filterMap g = (match g 0 with | none => [] | some x => [x]) ++
        (List.range r.length).filterMap fun i => g (i + 1) := by
      intro g
      rw [List.range_succ_eq_map, List.filterMap_cons, List.filterMap_map]
      cases g 0 <;> rfl
    split_ifs at h with h1 h2
    · obtain ⟨i1, i2⟩ := ih _ _ _ h
      constructor
      · rw [i1, List.length_cons, hshift]
        simp only [List.getElem?_cons_zero, Option.map_some, Option.getD_some, h1, if_true, List.nil_append, List.getElem?_cons_succ]
        congr 1; funext i; rw [Nat.add_assoc, Nat.add_comm 1 i]
      · intro x hx
        obtain ⟨i, hi, a1, a2, a3⟩ := i2 x hx
        exact ⟨i + 1, by simpa using hi, by omega, by simpa using a2, by simpa using a3⟩
    · cases ha : Nao.fromOwned fresh obj (keepCols Cl keep) with
      | throw e => rw [ha] at h; cases h
      | ub => rw [ha] at h; cases h
      | ok a =>
        have hp : a.C = keepCols Cl keep := by
          have ha' := ha
          unfold Nao.fromOwned Nao.make at ha'
          simp only at ha'
          split_ifs at ha'
          cases ha'; rfl
        rw [ha] at h
        simp only [Res.ok_bind] at h
        cases hr : extractLoop obj (l + 1) (fresh + 1) r with
        | throw e => rw [hr] at h; cases h
        | ub => rw [hr] at h; cases h
        | ok o =>
          rw [hr] at h
          simp only [Res.ok_bind, Res.pure_eq, Res.ok.injEq] at h
          obtain ⟨i1, i2⟩ := ih _ _ _ hr
          subst h
          constructor
          · rw [List.map_cons, i1, List.length_cons, hshift]
            simp only [List.getElem?_cons_zero, Option.map_some, Option.getD_some, if_neg h1, List.getElem?_cons_succ, List.singleton_append, Nat.add_zero]
            congr 2; funext i; rw [Nat.add_assoc, Nat.add_comm 1 i]
          · intro x hx
            rcases List.mem_cons.1 hx with rfl | hx
            · exact ⟨0, by simp, rfl, by simpa using h2, by simpa using hp⟩
            · obtain ⟨i, hi, a1, a2, a3⟩ := i2 x hx
              exact ⟨i + 1, by simpa using hi, by omega, by simpa using a2, by simpa using a3⟩

/-- **C52, extraction.** The angular momenta returned are, in order, those with a nonzero request, each set consists of the leading `keep` orbitals of its
angular momentum (all of them for a negative request) over the given basis. Missing:
operators between different angular momenta, see below. -/
theorem C52_extract_partial (obj : RadialObj K) (fresh : Nat) (Ccube : List (Mat K)) (keep : List Int) (out : List (Nat × Nao K))
    (h : extractNaos obj fresh Ccube keep = .ok out) :
    keep.length = Ccube.length ∧
    out.map Prod.fst = (List.range keep.length).filter (fun l => keep[l]?.getD 0 ≠ 0) ∧
    ∀ x ∈ out, x.2.obj = obj ∧ x.2.Valid ∧ ∃ h1 : x.1 < Ccube.length, ∃ h2 : x.1 < keep.length,
      x.2.C.rows = Ccube[x.1].rows ∧ x.2.C.get = Ccube[x.1].get ∧ (keep[x.1] < 0 → x.2.nbf = Ccube[x.1].cols) ∧
      (0 < keep[x.1] → (x.2.nbf : Int) = keep[x.1] ∧ x.2.nbf ≤ Ccube[x.1].cols) := by
  unfold extractNaos at h
  split_ifs at h with hlen
  have hlen : keep.length = Ccube.length := by simpa using hlen
  obtain ⟨_, _, h3⟩ := extractLoop_ptr obj _ _ _ _ h
  obtain ⟨i1, i2⟩ := extractLoop_spec obj _ _ _ _ h
  refine ⟨hlen, ?_, ?_⟩
  · rw [i1]
    have hz : (Ccube.zip keep).length = keep.length := by simp [hlen]
    rw [hz, ← List.filterMap_eq_filter]
    apply List.filterMap_congr
    intro i hi
    have hi := List.mem_range.1 hi
    have e : (Ccube.zip keep)[i]?.map Prod.snd = keep[i]? := by
      rw [List.getElem?_eq_getElem (by omega), List.getElem?_eq_getElem hi]; simp
    rw [e]
    by_cases h0 : keep[i]?.getD 0 = 0 <;> simp [h0, Option.guard]
  · intro x hx
    obtain ⟨i, hi, a1, a2, a3⟩ := i2 x hx
    have hz : (Ccube.zip keep).length = keep.length := by simp [hlen]
    have hi' : i < keep.length := hz ▸ hi
    have hx1 : x.1 = i := by omega
    refine ⟨(h3 x hx).1, (h3 x hx).2, by omega, by omega, ?_⟩
    simp only [List.getElem_zip] at a2 a3
    simp only [hx1, Nao.nbf, a3, keepCols]
    by_cases hk : keep[i] < 0
    · simp [hk]; omega
    · simp [hk]; omega

/-- **C52, negation.** The orbital sets extracted from one atomic calculation for two different angular momenta never share their basis object, so the
two-electron operators between them, which are documented for exactly this use, always throw, whatever the integrals and densities. -/
theorem C52_cross_l_always_throws (obj : RadialObj K) (fresh : Nat) (Ccube : List (Mat K)) (keep : List Int) (out : List (Nat × Nao K))
    (h : extractNaos obj fresh Ccube keep = .ok out) (i j : Nat) (hi : i < out.length) (hj : j < out.length) (hij : i ≠ j)
    (ker : Kernel K) (k : Int) (D : Mat K) :
    out[i].2.obj = out[j].2.obj ∧ out[i].2.coulombRadial ker k out[j].2 D = .throw .logicError ∧
      out[i].2.exchangeRadial ker k out[j].2 D = .throw .logicError := by
  unfold extractNaos at h
  split_ifs at h
  obtain ⟨_, h2, h3⟩ := extractLoop_ptr obj _ _ _ _ h
  refine ⟨by rw [(h3 _ (List.getElem_mem hi)).1, (h3 _ (List.getElem_mem hj)).1], ?_⟩
  apply C29_guards
  left
  rcases Nat.lt_or_gt_of_ne hij with hlt | hlt
  · exact List.pairwise_iff_getElem.1 h2 i j hi hj hlt
  · exact (List.pairwise_iff_getElem.1 h2 j i hj hi hlt).symm

/-! ### non-vacuity -/

def exFem : Fem ℚ := ⟨exR, fun _ _ e => .ok ⟨2, 2, fun a b => (e + a + b + 1 : ℚ)⟩, fun _ _ e => if e = 0 then .ub else .ok ⟨2, 2, fun a b => (7 + a * b : ℚ)⟩,
  fun _ _ e => .ok ⟨4, 4, fun r c => (100 + 3 * e + (if r = 1 ∨ r = 2 then 1 else r) * (if c = 1 ∨ c = 2 then 1 else c) : ℚ)⟩⟩
def exObj : RadialObj ℚ := ⟨3, .ok ⟨3, 3, fun i j => i + j⟩, .ok ⟨3, 3, fun i j => i * j⟩, .ok ⟨3, 3, fun _ _ => 1⟩, .ok ⟨3, 3, fun _ _ => 2⟩,
  fun r => if r ≤ 1 then some (0, ⟨2, fun a => if a = 0 then 1 - r else r⟩) else none, some exFem⟩

theorem exDelivers : Delivers exFem .bare 0 2 3 (fun e => e) (fun e => e + 1) (fun e => ⟨2, 2, fun a b => (e + a + b + 1 : ℚ)⟩) (fun _ => ⟨2, 2, fun a b => (7 + a * b : ℚ)⟩)
    (fun e => ⟨4, 4, fun r c => (100 + 3 * e + (if r = 1 ∨ r = 2 then 1 else r) * (if c = 1 ∨ c = 2 then 1 else c) : ℚ)⟩) := by
  refine ⟨exLayout, ?_, ?_, ?_, ?_, ?_, ?_⟩
  · intro e he; interval_cases e <;> exact ⟨rfl, rfl, rfl⟩
  · intro e h0 he; interval_cases e; exact ⟨rfl, rfl, rfl⟩
  · intro e he; interval_cases e <;> exact ⟨rfl, rfl, rfl⟩
  · intro e _ a _ b _; simp only; ring
  · intro e _ _ a _ b _; simp only; ring
  · intro e he a ha b hb m _
    have hc : cnt (fun e => e) (fun e => e + 1) e = 2 := by simp [cnt]; omega
    rw [hc] at ha hb ⊢
    interval_cases a <;> interval_cases b <;> norm_num

/-- two orbitals over three primitives -/
def exNao : Nao ℚ := ⟨5, exObj, ⟨3, 2, fun p i => (p + 1) * (i + 2)⟩⟩
theorem exValid : exNao.Valid := ⟨some (5, exObj), ⟨3, 2, fun p i => (p + 1) * (i + 2)⟩, rfl⟩

example : ∃ J, exNao.coulombRadial .bare 0 exNao ⟨2, 2, fun m n => m + 2 * n⟩ = .ok J ∧ J.rows = 2 := by
  obtain ⟨J, h1, h2, _⟩ := C29_coulomb exNao exNao exValid exValid rfl rfl exFem rfl .bare (by intro _ h; cases h) 0 exDelivers ⟨2, 2, fun m n => m + 2 * n⟩ rfl rfl
  exact ⟨J, h1, h2⟩

example : ∃ J, exNao.exchangeRadial .bare 0 exNao ⟨2, 2, fun m n => m + 2 * n⟩ = .ok J ∧ J.rows = 2 := by
  obtain ⟨J, h1, h2, _⟩ := C29_exchange exNao exNao exValid exValid rfl rfl exFem rfl .bare (by intro _ h; cases h) 0 exDelivers ⟨2, 2, fun m n => m + 2 * n⟩ rfl rfl
  exact ⟨J, h1, h2⟩

/-- two channels are extracted, and they cannot be combined -/
example : ∃ a b, extractNaos exObj 0 [⟨3, 3, fun i j => i + j⟩, ⟨3, 2, fun i j => i * j⟩, ⟨3, 3, fun i j => i⟩] [2, -1, 0] = .ok [(0, a), (1, b)] :=
  ⟨_, _, rfl⟩

end NAO
end HelFEM
