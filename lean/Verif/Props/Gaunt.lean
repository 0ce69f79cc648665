import Verif.Lemmas.Gaunt
import Mathlib.Tactic.Push

/-!
# C25: the packed table returns every Gaunt coefficient it covers
-/

namespace HelFEM
namespace Gaunt

variable {K : Type _} [Ring K] {G : Nat → Int → Nat → Int → Nat → Int → K}

/-- a fill loop writes to every slot it visits, provided writers of one slot agree -/
theorem fill_loop (ms lall : Nat) (base : Nat → Option Nat) (total : Nat) : ∀ (es : List Entry) (c : Nat → K),
    (∀ e ∈ es, ∀ a, slot ms lall base e.1.1 e.1.2.1 e.1.2.2 e.2.1 e.2.2 = some a → a < total) →
    ∃ c', es.foldlM (fillStep G ms lall base total) c = .ok c' ∧
      ∀ a, (c' a = c a ∧ ∀ e ∈ es, slot ms lall base e.1.1 e.1.2.1 e.1.2.2 e.2.1 e.2.2 = some a → (e.1.1 : Int) < |(-e.2.2 - e.2.1 : Int)|) ∨
        ∃ e ∈ es, slot ms lall base e.1.1 e.1.2.1 e.1.2.2 e.2.1 e.2.2 = some a ∧ ¬ (e.1.1 : Int) < |(-e.2.2 - e.2.1 : Int)| ∧
          c' a = G e.1.1 (-e.2.2 - e.2.1) e.1.2.1 e.2.2 e.1.2.2 e.2.1 := by
  intro es
  induction es with
  | nil => intro c _; exact ⟨c, rfl, fun a => Or.inl ⟨rfl, by simp⟩⟩
  | cons e r ih =>
    intro c h
    have h' : ∀ e ∈ r, ∀ a, slot ms lall base e.1.1 e.1.2.1 e.1.2.2 e.2.1 e.2.2 = some a → a < total := fun x hx => h x (by simp [hx])
    rw [List.foldlM_cons]
    by_cases hm : (e.1.1 : Int) < |(-e.2.2 - e.2.1 : Int)|
    · have : fillStep G ms lall base total c e = .ok c := if_pos hm
      rw [this, Res.ok_bind]
      obtain ⟨c', hc, hp⟩ := ih c h'
      refine ⟨c', hc, fun a => ?_⟩
      rcases hp a with ⟨h1, h2⟩ | ⟨x, hx, h2⟩
      · refine Or.inl ⟨h1, fun x hx hs => ?_⟩
        rcases List.mem_cons.1 hx with rfl | hx
        · exact hm
        · exact h2 x hx hs
      · exact Or.inr ⟨x, by simp [hx], h2⟩
    · cases hs : slot ms lall base e.1.1 e.1.2.1 e.1.2.2 e.2.1 e.2.2 with
      | none =>
        have : fillStep G ms lall base total c e = .ok c := by rw [fillStep, if_neg hm, hs]
        rw [this, Res.ok_bind]
        obtain ⟨c', hc, hp⟩ := ih c h'
        refine ⟨c', hc, fun a => ?_⟩
        rcases hp a with ⟨h1, h2⟩ | ⟨x, hx, h2⟩
        · refine Or.inl ⟨h1, fun x hx hs' => ?_⟩
          rcases List.mem_cons.1 hx with rfl | hx
          · rw [hs] at hs'; cases hs'
          · exact h2 x hx hs'
        · exact Or.inr ⟨x, by simp [hx], h2⟩
      | some b =>
        have hb := h e (by simp) b hs
        have : fillStep G ms lall base total c e =
            .ok fun i => if i = b then G e.1.1 (-e.2.2 - e.2.1) e.1.2.1 e.2.2 e.1.2.2 e.2.1 else c i := by
          rw [fillStep, if_neg hm, hs]; exact if_pos hb
        rw [this, Res.ok_bind]
        obtain ⟨c', hc, hp⟩ := ih _ h'
        refine ⟨c', hc, fun a => ?_⟩
        rcases hp a with ⟨h1, h2⟩ | ⟨x, hx, h2⟩
        · by_cases hab : a = b
          · subst hab
            exact Or.inr ⟨e, by simp, hs, hm, by rw [h1, if_pos rfl]⟩
          · refine Or.inl ⟨by rw [h1, if_neg hab], fun x hx hs' => ?_⟩
            rcases List.mem_cons.1 hx with rfl | hx
            · rw [hs] at hs'
              simp only [Option.some.injEq] at hs'
              exact absurd hs'.symm hab
            · exact h2 x hx hs'
        · exact Or.inr ⟨x, by simp [hx], h2⟩

/-- after the fill, every stored slot holds its coefficient -/
theorem fill_spec (ms lall : Nat) (sched : List Nat) (hs : ∀ l1, l1 ∈ sched ↔ l1 ≤ lall) :
    ∃ c, ((sched.flatMap (triplesAt lall)).flatMap (entriesOf ms)).foldlM (fillStep G ms lall (layout ms lall).1 (layout ms lall).2)
        (fun _ => 0) = .ok c ∧
      ∀ t, Stored lall t → ∀ (m3 : Nat) (m2 : Int), Adm ms t m3 m2 → |(-m2 - m3 : Int)| ≤ t.1 →
        ∃ a, slot ms lall (layout ms lall).1 t.1 t.2.1 t.2.2 m3 m2 = some a ∧ a < (layout ms lall).2 ∧
          c a = G t.1 (-m2 - m3) t.2.1 m2 t.2.2 m3 := by
  have hmem : ∀ e : Entry, e ∈ (sched.flatMap (triplesAt lall)).flatMap (entriesOf ms) ↔ Stored lall e.1 ∧ Adm ms e.1 e.2.1 e.2.2 := by
    intro e
    rw [List.mem_flatMap]
    constructor
    · rintro ⟨t, ht, he⟩
      obtain ⟨rfl, h⟩ := (mem_entriesOf ms t e).1 he
      exact ⟨(mem_triples lall sched hs _).1 ht, h⟩
    · rintro ⟨h1, h2⟩
      exact ⟨e.1, (mem_triples lall sched hs _).2 h1, (mem_entriesOf ms e.1 e).2 ⟨rfl, h2⟩⟩
  obtain ⟨c, hc, hp⟩ := fill_loop (G := G) ms lall (layout ms lall).1 (layout ms lall).2 _ (fun _ => 0) (by
    intro e he a ha
    obtain ⟨h1, h2⟩ := (hmem e).1 he
    obtain ⟨b, _, hsl, hlt, hle⟩ := slot_stored ms lall e.1 h1 e.2.1 e.2.2 h2
    rw [hsl] at ha
    simp only [Option.some.injEq] at ha
    omega)
  refine ⟨c, hc, fun t ht m3 m2 hA hm1 => ?_⟩
  obtain ⟨b, _, hsl, hlt, hle⟩ := slot_stored ms lall t ht m3 m2 hA
  refine ⟨_, hsl, by omega, ?_⟩
  rcases hp (b + place ms t.1 t.2.1 m3 m2) with ⟨_, h2⟩ | ⟨e, he, h2, _, h4⟩
  · exact absurd (h2 (t, m3, m2) ((hmem _).2 ⟨ht, hA⟩) hsl) (not_lt.2 hm1)
  · obtain ⟨h5, h6⟩ := (hmem e).1 he
    obtain ⟨e1, e2, e3⟩ := slot_inj ms lall e.1 t h5 ht e.2.1 m3 e.2.2 m2 h6 hA _ h2 hsl
    rw [h4, e1, e2, e3]

/-- value of `G` at three columns -/
def at3 (G : Nat → Int → Nat → Int → Nat → Int → K) (t : (Nat × Int) × (Nat × Int) × (Nat × Int)) : K :=
  G t.1.1 t.1.2 t.2.1.1 t.2.1.2 t.2.2.1 t.2.2.2

theorem sort3_spec (hG : Symmetric G) (P : Nat × Int → Prop) (a b c : Nat × Int) (ha : P a) (hb : P b) (hc : P c) (h0 : a.2 + b.2 + c.2 = 0) :
    let t := sort3 a b c
    at3 G t = at3 G (a, b, c) ∧ t.2.1.1 ≤ t.1.1 ∧ t.2.2.1 ≤ t.2.1.1 ∧ P t.1 ∧ P t.2.1 ∧ P t.2.2 ∧ t.1.2 + t.2.1.2 + t.2.2.2 = 0 := by
  have s12 : ∀ x y z : Nat × Int, x.2 + y.2 + z.2 = 0 → at3 G (x, y, z) = at3 G (y, x, z) := fun x y z h => hG.swap12 _ _ _ _ _ _ h
  have s23 : ∀ x y z : Nat × Int, x.2 + y.2 + z.2 = 0 → at3 G (x, y, z) = at3 G (x, z, y) := fun x y z h => hG.swap23 _ _ _ _ _ _ h
  simp only [sort3, swapIf]
  split_ifs <;> simp only at * <;> refine ⟨?_, ?_, ?_, ?_, ?_, ?_, ?_⟩ <;> first | assumption | omega | skip
  all_goals first
    | trivial
    | rfl
    | (rw [s12 _ _ _ (by omega)]; done)
    | (rw [s23 _ _ _ (by omega)]; done)
    | (rw [s12 _ _ _ (by omega), s23 _ _ _ (by omega)]; done)
    | (rw [s23 _ _ _ (by omega), s12 _ _ _ (by omega)]; done)
    | (rw [s12 _ _ _ (by omega), s23 _ _ _ (by omega), s12 _ _ _ (by omega)]; done)

theorem flip3_spec (hG : Symmetric G) (P : Nat × Int → Prop) (hP : ∀ l m, P (l, m) → P (l, -m)) (t : (Nat × Int) × (Nat × Int) × (Nat × Int))
    (ha : P t.1) (hb : P t.2.1) (hc : P t.2.2) (h0 : t.1.2 + t.2.1.2 + t.2.2.2 = 0) :
    at3 G (flip3 t) = at3 G t ∧ (flip3 t).1.1 = t.1.1 ∧ (flip3 t).2.1.1 = t.2.1.1 ∧ (flip3 t).2.2.1 = t.2.2.1 ∧ P (flip3 t).1 ∧ P (flip3 t).2.1 ∧
      P (flip3 t).2.2 ∧ (flip3 t).1.2 + (flip3 t).2.1.2 + (flip3 t).2.2.2 = 0 ∧ 0 ≤ (flip3 t).2.2.2 := by
  unfold flip3
  split_ifs with h
  · refine ⟨(hG.neg _ _ _ _ _ _ h0).symm, rfl, rfl, rfl, hP _ _ ha, hP _ _ hb, hP _ _ hc, ?_, ?_⟩ <;> simp only <;> omega
  · exact ⟨rfl, rfl, rfl, rfl, ha, hb, hc, h0, by omega⟩

/-- **C25.** For every choice of the maximal angular momenta and of the bound on `|m|`, and every order in which the parallel fill runs, construction
succeeds without an out-of-range write and every lookup is settled: zero outside the tabulated angular momenta, a logic error when `|M|` or `|m|`
exceeds the stored bound although the harmonics exist, and otherwise the coefficient that direct computation gives. -/
theorem C25_lookup (hG : Symmetric G) (Lmax lmax lpmax : Nat) (mcap_ : Int) (sched : List Nat)
    (hs : sched.Perm (List.range (max (max Lmax lmax) lpmax + 1))) :
    ∃ T, build G Lmax lmax lpmax mcap_ sched = .ok T ∧ ∀ L M l m lp : Int, T.coeff L M l m lp =
      let w : Int := if mcap_ < 0 then max (max Lmax lmax) lpmax else min mcap_ (max (max Lmax lmax) lpmax)
      if (0 ≤ L ∧ L ≤ Lmax) ∧ (0 ≤ l ∧ l ≤ lmax) ∧ (0 ≤ lp ∧ lp ≤ lpmax) then
        (if |M| ≤ L ∧ |m| ≤ l ∧ (w < |M| ∨ w < |m|) then .throw .logicError
        else .ok (direct G L.toNat M l.toNat m lp.toNat (M - m)))
      else .ok 0 := by
  obtain ⟨lall, hlall⟩ : ∃ x, x = max (max Lmax lmax) lpmax := ⟨_, rfl⟩
  obtain ⟨mcap, hmcap⟩ : ∃ x, x = (if mcap_ < 0 then lall else min mcap_.toNat lall) := ⟨_, rfl⟩
  have hw : (if mcap_ < 0 then ((max (max Lmax lmax) lpmax : Nat) : Int) else min mcap_ ((max (max Lmax lmax) lpmax : Nat) : Int)) = mcap := by
    rw [hmcap, ← hlall]
    split_ifs <;> omega
  have hs' : ∀ l1, l1 ∈ sched ↔ l1 ≤ lall := by
    intro l1; rw [hs.mem_iff, List.mem_range, hlall]; omega
  obtain ⟨c, hc, hp⟩ := fill_spec (G := G) (min (2 * mcap) lall) lall sched hs'
  refine ⟨⟨Lmax, lmax, lpmax, lall, mcap, min (2 * mcap) lall, (layout (min (2 * mcap) lall) lall).1, (layout (min (2 * mcap) lall) lall).2, c⟩, ?_, ?_⟩
  · rw [build]
    simp only [← hlall, ← hmcap, hc]
  · intro L M l m lp
    have hw' : (if mcap_ < 0 then (max (max (Lmax : Int) lmax) lpmax) else min mcap_ (max (max (Lmax : Int) lmax) lpmax)) = mcap := by
      rw [← hw]; push_cast; rfl
    simp only [hw']
    have hmc : mcap ≤ lall := by rw [hmcap]; split_ifs <;> omega
    have hLl : Lmax ≤ lall ∧ lmax ≤ lall ∧ lpmax ≤ lall := by omega
    by_cases h1 : (0 ≤ L ∧ L ≤ Lmax) ∧ (0 ≤ l ∧ l ≤ lmax) ∧ (0 ≤ lp ∧ lp ≤ lpmax)
    · rw [if_pos h1, Table.coeff, if_neg (by simp only; omega), if_neg (by simp only; omega), if_neg (by simp only; omega)]
      by_cases h2 : L < |M|
      · rw [if_pos h2, if_neg (by omega), direct, hG.range _ _ _ _ _ _ (Or.inl (by rw [abs_neg]; omega)), mul_zero]
      rw [if_neg h2]
      by_cases h3 : l < |m|
      · rw [if_pos h3, if_neg (by omega), direct, hG.range _ _ _ _ _ _ (Or.inr (Or.inl (by omega))), mul_zero]
      rw [if_neg h3]
      by_cases h4 : (mcap : Int) < |M| ∨ (mcap : Int) < |m|
      · rw [if_pos h4, if_pos ⟨by omega, by omega, h4⟩]
      have hno : ¬ (|M| ≤ L ∧ |m| ≤ l ∧ ((mcap : Int) < |M| ∨ (mcap : Int) < |m|)) := by omega
      rw [if_neg h4, if_neg hno]
      by_cases h5 : lp < |M - m|
      · rw [if_pos h5, direct, hG.range _ _ _ _ _ _ (Or.inr (Or.inr (by omega))), mul_zero]
      rw [if_neg h5]
      simp only
      obtain ⟨P, hPdef⟩ : ∃ P : Nat × Int → Prop, P = fun p => p.1 ≤ lall ∧ |p.2| ≤ p.1 ∧ |p.2| ≤ ((min (2 * mcap) lall : Nat) : Int) := ⟨_, rfl⟩
      have hneg : ∀ l m, P (l, m) → P (l, -m) := by
        intro a b; rw [hPdef]; simp only [abs_neg]; exact id
      have hMm : |M - m| ≤ |M| + |m| := abs_sub _ _
      have hPa : P (L.toNat, -M) := by rw [hPdef]; simp only [abs_neg]; omega
      have hPb : P (l.toNat, m) := by rw [hPdef]; simp only; omega
      have hPc : P (lp.toNat, M - m) := by rw [hPdef]; simp only; omega
      have hsort := sort3_spec hG P (L.toNat, -M) (l.toNat, m) (lp.toNat, M - m) hPa hPb hPc (by simp only; omega)
      obtain ⟨s, hsd⟩ : ∃ s, s = sort3 (L.toNat, -M) (l.toNat, m) (lp.toNat, M - m) := ⟨_, rfl⟩
      rw [← hsd] at hsort ⊢
      simp only at hsort
      obtain ⟨e1, e2, e3, p1, p2, p3, e4⟩ := hsort
      have hflip := flip3_spec hG P hneg s p1 p2 p3 e4
      obtain ⟨t, htd⟩ : ∃ t, t = flip3 s := ⟨_, rfl⟩
      rw [← htd] at hflip ⊢
      obtain ⟨f1, f2, f3, f4, q1, q2, q3, f5, f6⟩ := hflip
      rw [← f2, ← f3] at e2
      rw [← f3, ← f4] at e3
      have hval : direct G L.toNat M l.toNat m lp.toNat (M - m) = (if M % 2 = 0 then 1 else -1) * at3 G t := by
        rw [f1, e1]; rfl
      rw [hval]
      obtain ⟨⟨l1, m1⟩, ⟨l2, m2⟩, ⟨l3, m3⟩⟩ := t
      rw [hPdef] at q1 q2 q3
      simp only at q1 q2 q3 e2 e3 f5 f6 ⊢
      by_cases hst : Stored lall (l1, l2, l3)
      · obtain ⟨n3, rfl⟩ := Int.eq_ofNat_of_zero_le f6
        have hm1 : m1 = -m2 - n3 := by omega
        have hA : Adm (min (2 * mcap) lall) (l1, l2, l3) n3 m2 := by
          unfold Adm m2lo m2hi
          simp only
          rw [hm1] at q1
          refine ⟨?_, ?_, ?_⟩
          · rw [Nat.abs_cast] at q3; omega
          · have := neg_abs_le m2; omega
          · have := le_abs_self m2
            have := neg_abs_le (-m2 - (n3 : Int))
            omega
        obtain ⟨a, ha, hlt, hca⟩ := hp (l1, l2, l3) hst n3 m2 hA (by rw [← hm1]; exact q1.2.1)
        simp only at ha hca
        rw [ha]
        simp only
        rw [if_pos hlt, hca, at3, ← hm1]
      · have hz : at3 G ((l1, m1), (l2, m2), (l3, m3)) = 0 := by
          unfold at3
          simp only
          by_cases h6 : l2 + l3 < l1
          · exact hG.triangle _ _ _ _ _ _ h6
          · refine hG.parity _ _ _ _ _ _ ?_
            by_contra h7
            exact hst ⟨q1.1, e3, e2, by simp only; omega, by simp only; omega⟩
        have hnone : slot (min (2 * mcap) lall) lall (layout (min (2 * mcap) lall) lall).1 l1 l2 l3 m3 m2 = none := by
          rw [slot, if_neg (by omega), if_neg (not_le.2 (tripleIndex_lt q1.1 q2.1 q3.1)),
            (layout_spec (min (2 * mcap) lall) lall).none (tripleIndex lall l1 l2 l3)]
          intro u hu hidx
          have hu' := (mem_lay lall u).1 hu
          obtain ⟨g1, g2, g3, _⟩ := id hu'
          obtain ⟨i1, i2, i3⟩ := tripleIndex_inj q2.1 q3.1 (by omega) (by omega) hidx
          apply hst
          obtain ⟨u1, u2, u3⟩ := u
          simp only at i1 i2 i3
          subst i1 i2 i3
          exact hu'
        rw [hnone, hz, mul_zero]
    · rw [if_neg h1, Table.coeff]
      by_cases h2 : L < 0 ∨ (Lmax : Int) < L
      · rw [if_pos h2]
      rw [if_neg h2]
      by_cases h3 : l < 0 ∨ (lmax : Int) < l
      · rw [if_pos h3]
      rw [if_neg h3, if_pos (by simp only; omega)]

/-- The order of the parallel fill does not matter: two tables answer every lookup alike. -/
theorem C25_schedule_independent (hG : Symmetric G) (Lmax lmax lpmax : Nat) (mcap_ : Int) (s s' : List Nat)
    (hs : s.Perm (List.range (max (max Lmax lmax) lpmax + 1))) (hs' : s'.Perm (List.range (max (max Lmax lmax) lpmax + 1))) :
    ∃ T T', build G Lmax lmax lpmax mcap_ s = .ok T ∧ build G Lmax lmax lpmax mcap_ s' = .ok T' ∧
      ∀ L M l m lp, T.coeff L M l m lp = T'.coeff L M l m lp := by
  obtain ⟨T, h1, h2⟩ := C25_lookup hG Lmax lmax lpmax mcap_ s hs
  obtain ⟨T', h1', h2'⟩ := C25_lookup hG Lmax lmax lpmax mcap_ s' hs'
  exact ⟨T, T', h1, h1', fun L M l m lp => by rw [h2, h2']⟩

theorem modLoop_ok (T : Table K) (lj mj L M li mi : Int) (f g : Int → K) (ls : List Int)
    (hf : ∀ p ∈ ls, T.coeff p M 2 0 L = .ok (f p)) (hg : ∀ p ∈ ls, T.coeff lj mj li mi p = .ok (g p)) (s : K) :
    T.modLoop lj mj L M li mi ls s = .ok (ls.foldl (fun s p => s + f p * g p) s) := by
  induction ls generalizing s with
  | nil => rfl
  | cons p r ih =>
    rw [Table.modLoop, hf p (by simp), hg p (by simp)]
    simp only [Res.ok_bind, List.foldl_cons]
    exact ih (fun q hq => hf q (by simp [hq])) (fun q hq => hg q (by simp [hq])) _

/-- **C25.** The modified coefficient (with the `1, cosh² - cos²` weight) from the table agrees with the directly computed one, provided the table
covers `L + 2` in its first and third index and the `m` in use are within its bound. -/
theorem C25_modified (hG : Symmetric G) (c0 c2 : K) (Lmax lmax lpmax : Nat) (mcap_ : Int) (sched : List Nat)
    (hs : sched.Perm (List.range (max (max Lmax lmax) lpmax + 1))) (lj L li : Nat) (mj M mi : Int)
    (hL : L + 2 ≤ Lmax) (hL' : L + 2 ≤ lpmax) (hlj : lj ≤ Lmax) (hli : li ≤ lmax) (h2 : 2 ≤ lmax)
    (hw : mcap_ < 0 ∨ (|M| ≤ mcap_ ∧ |mj| ≤ mcap_ ∧ |mi| ≤ mcap_)) (hm : mj = M + mi) :
    ∃ T, build G Lmax lmax lpmax mcap_ sched = .ok T ∧ T.modCoeff c0 c2 lj mj L M li mi = .ok (modDirect G c0 c2 lj mj L M li mi) := by
  obtain ⟨T, h1, hT⟩ := C25_lookup hG Lmax lmax lpmax mcap_ sched hs
  refine ⟨T, h1, ?_⟩
  have key : ∀ L' M' l' m' lp' : Int, 0 ≤ L' → L' ≤ Lmax → 0 ≤ l' → l' ≤ lmax → 0 ≤ lp' → lp' ≤ lpmax → (mcap_ < 0 ∨ (|M'| ≤ mcap_ ∧ |m'| ≤ mcap_)) →
      T.coeff L' M' l' m' lp' = .ok (direct G L'.toNat M' l'.toNat m' lp'.toNat (M' - m')) := by
    intro L' M' l' m' lp' a1 a2 a3 a4 a5 a6 a7
    rw [hT]
    simp only
    rw [if_pos ⟨⟨a1, a2⟩, ⟨a3, a4⟩, ⟨a5, a6⟩⟩, if_neg]
    split_ifs <;> omega
  have hM0 : mcap_ < 0 ∨ |(0 : Int)| ≤ mcap_ := by
    rw [abs_zero]; omega
  have hr : ∀ p ∈ lpRange (L : Int) M, 0 ≤ p ∧ p ≤ L + 2 := by
    intro p hp
    simp only [lpRange, List.mem_map, List.mem_range] at hp
    obtain ⟨k, hk, rfl⟩ := hp
    omega
  rw [Table.modCoeff, if_neg (by simpa using hm), key L M 0 0 L (by omega) (by omega) (by omega) (by omega) (by omega) (by omega) (by omega),
    key lj mj li mi L (by omega) (by omega) (by omega) (by omega) (by omega) (by omega) (by omega)]
  simp only [Res.ok_bind]
  rw [modLoop_ok T lj mj L M li mi (fun p => direct G p.toNat M 2 0 L M) (fun p => direct G lj mj li mi p.toNat M)]
  · simp only [Res.ok_bind, Res.pure_eq, modDirect, Int.toNat_natCast, sub_zero]
    have : mj - mi = M := by omega
    rw [this]
    rfl
  · intro p hp
    obtain ⟨b1, b2⟩ := hr p hp
    rw [key p M 2 0 L (by omega) (by omega) (by omega) (by omega) (by omega) (by omega) (by omega), sub_zero]
    rfl
  · intro p hp
    obtain ⟨b1, b2⟩ := hr p hp
    rw [key lj mj li mi p (by omega) (by omega) (by omega) (by omega) (by omega) (by omega) (by omega)]
    have : mj - mi = M := by omega
    rw [this]
    rfl

theorem foldl_add_sum (f : Int → K) : ∀ (l : List Int) (s : K), l.foldl (fun s p => s + f p) s = s + (l.map f).sum := by
  intro l
  induction l with
  | nil => intro s; simp
  | cons a l ih => intro s; rw [List.foldl_cons, ih, List.map_cons, List.sum_cons, add_assoc]

/-- **C25.** The directly computed modified coefficient couples through *every* `Y_Lp^M`: the loop bounds leave out only terms that vanish. The
sum may be taken over any range that contains `0, …, L + 2`. -/
theorem C25_modified_sum (hG : Symmetric G) (c0 c2 : K) (lj L li : Nat) (mj M mi : Int) (N : Nat) (hN : L + 3 ≤ N) :
    modDirect G c0 c2 lj mj L M li mi = c0 * (direct G L M 0 0 L M * direct G lj mj li mi L M) +
      c2 * ∑ Lp ∈ Finset.range N, direct G Lp M 2 0 L M * direct G lj mj li mi Lp M := by
  unfold modDirect
  congr 2
  rw [foldl_add_sum (fun Lp => direct G Lp.toNat M 2 0 L M * direct G lj mj li mi Lp.toNat M), zero_add, lpRange, List.map_map]
  obtain ⟨lo, hlo⟩ : ∃ lo : Nat, (lo : Int) = max (max ((L : Int) - 2) 0) |M| := ⟨(max (max ((L : Int) - 2) 0) |M|).toNat, by omega⟩
  rw [← hlo]
  have h1 : ∀ n : Nat, ((List.range n).map ((fun Lp : Int => direct G Lp.toNat M 2 0 L M * direct G lj mj li mi Lp.toNat M) ∘ fun k : Nat => (lo : Int) + (k : Int))).sum =
      ∑ k ∈ Finset.range n, direct G (lo + k) M 2 0 L M * direct G lj mj li mi (lo + k) M := by
    intro n
    rw [← List.sum_toFinset _ List.nodup_range, List.toFinset_range]
    apply Finset.sum_congr rfl
    intro k _
    simp only [Function.comp]
    rw [show ((lo : Int) + (k : Int)).toNat = lo + k by omega]
  have h0 : ∀ Lp, Lp < lo ∨ L + 2 < Lp → direct G Lp M 2 0 L M = 0 := by
    intro Lp h
    unfold direct
    rcases h with h | h
    · rcases lt_or_ge (Lp : Int) |M| with hM | hM
      · rw [hG.range _ _ _ _ _ _ (Or.inl (by rw [abs_neg]; exact hM)), mul_zero]
      · rw [hG.swap12 _ _ _ _ _ _ (by ring), hG.swap23 _ _ _ _ _ _ (by ring), hG.swap12 _ _ _ _ _ _ (by ring), hG.triangle _ _ _ _ _ _ (by omega), mul_zero]
    · rw [hG.triangle _ _ _ _ _ _ (by omega), mul_zero]
  rw [h1]
  rcases lt_or_ge (L + 2) lo with hl | hl
  · rw [show (↑L + 2 - (lo : Int) + 1).toNat = 0 by omega, Finset.range_zero, Finset.sum_empty]
    symm
    apply Finset.sum_eq_zero
    intro Lp _
    rw [h0 Lp (by omega), zero_mul]
  · rw [show (↑L + 2 - (lo : Int) + 1).toNat = L + 3 - lo by omega]
    obtain ⟨c, rfl⟩ : ∃ c, N = lo + (L + 3 - lo) + c := ⟨N - (lo + (L + 3 - lo)), by omega⟩
    rw [Finset.sum_range_add, Finset.sum_range_add, Finset.sum_eq_zero (s := Finset.range lo), Finset.sum_eq_zero (s := Finset.range c)]
    · rw [zero_add, add_zero]
    · intro k _; rw [h0 _ (by omega), zero_mul]
    · intro k hk; rw [h0 _ (Or.inl (Finset.mem_range.1 hk)), zero_mul]

/-- and zero unless the magnetic quantum numbers add up -/
theorem C25_modified_selection (T : Table K) (c0 c2 : K) (lj mj L M li mi : Int) (h : mj ≠ M + mi) :
    T.modCoeff c0 c2 lj mj L M li mi = .ok 0 := if_pos h

/-- a non-trivial function with the symmetries of the Gaunt coefficients -/
def toyG (l1 : Nat) (m1 : Int) (l2 : Nat) (m2 : Int) (l3 : Nat) (m3 : Int) : Int :=
  if l1 ≤ l2 + l3 ∧ l2 ≤ l1 + l3 ∧ l3 ≤ l1 + l2 ∧ (l1 + l2 + l3) % 2 = 0 ∧ |m1| ≤ l1 ∧ |m2| ≤ l2 ∧ |m3| ≤ l3 then
    (l1 + l2 + l3 + 1) * (m1 * m1 + m2 * m2 + m3 * m3 + 1) else 0

theorem toyG_symmetric : Symmetric toyG := by
  refine ⟨?_, ?_, ?_, ?_, ?_, ?_⟩
  · intro l1 m1 l2 m2 l3 m3 _
    unfold toyG
    split_ifs <;> first | omega | ring1 | rfl
  · intro l1 m1 l2 m2 l3 m3 _
    unfold toyG
    split_ifs <;> first | omega | ring1 | rfl
  · intro l1 m1 l2 m2 l3 m3 _
    unfold toyG
    simp only [abs_neg]
    split_ifs <;> first | omega | ring1 | rfl
  · intro l1 m1 l2 m2 l3 m3 h
    exact if_neg (by omega)
  · intro l1 m1 l2 m2 l3 m3 h
    exact if_neg (by omega)
  · intro l1 m1 l2 m2 l3 m3 h
    exact if_neg (by omega)

/-- a table for `L ≤ 2`, `l ≤ 4`, `lp ≤ 2` with `|m| ≤ 1` filled in reverse order: a non-zero entry, a zero outside, and the logic error -/
example : ∃ T, build toyG 2 4 2 1 [4, 3, 2, 1, 0] = .ok T ∧ T.coeff 2 1 3 (-1) 1 = .ok 0 ∧ T.coeff 2 1 2 1 2 = .ok (-21) ∧ T.coeff 2 2 2 1 1 = .throw .logicError := by
  obtain ⟨T, h, hT⟩ := C25_lookup toyG_symmetric 2 4 2 1 [4, 3, 2, 1, 0] (by decide)
  refine ⟨T, h, ?_, ?_, ?_⟩ <;> rw [hT] <;> decide

example : ∃ T, build toyG 4 2 4 2 [4, 3, 2, 1, 0] = .ok T ∧ T.modCoeff 1 3 2 1 2 1 2 0 = .ok (modDirect toyG 1 3 2 1 2 1 2 0) :=
  C25_modified toyG_symmetric 1 3 4 2 4 2 [4, 3, 2, 1, 0] (by decide) 2 2 2 1 1 0 (by omega) (by omega) (by omega) (by omega) (by omega) (by decide) (by omega)

/-- the same coefficient from the plain sum -/
example : modDirect toyG 1 3 2 1 2 1 2 0 = 1 * (direct toyG 2 1 0 0 2 1 * direct toyG 2 1 2 0 2 1) +
    3 * ∑ Lp ∈ Finset.range 9, direct toyG Lp 1 2 0 2 1 * direct toyG 2 1 2 0 Lp 1 :=
  C25_modified_sum toyG_symmetric 1 3 2 2 2 1 1 0 9 (by omega)

end Gaunt
end HelFEM
