import Verif.Model.TwoDGrid

/-!
# Orbitals of probe atoms in a diatomic molecule

Cylindrical coordinates: the nuclei are at `z = -R` (left) and `z = R` (right), where `R` is half the bond length; the bond centre is the origin.
Prolate spheroidal coordinates `μ` and `c = cos ν` give the point at distance `R sinh μ √(1 - c²)` from the axis and at height `R cosh μ c`.
-/

namespace HelFEM.TGrid.Spec

open Harm

/-- distance from the axis -/
noncomputable def rho (R μ c : ℝ) : ℝ := R * Real.sinh μ * √(1 - c ^ 2)

/-- height -/
noncomputable def zed (R μ c : ℝ) : ℝ := R * Real.cosh μ * c

/-- the height of a probe's centre -/
def centre (R : ℝ) : Probe → ℝ
  | .left => -R
  | .middle => 0
  | .right => R

/-- the direction of its polar axis: the outer probes look at each other -/
def axis : Probe → ℝ
  | .left => 1
  | .middle => 1
  | .right => -1

/-- distance of the point from the centre -/
noncomputable def dist (R μ c : ℝ) (pr : Probe) : ℝ := √(rho R μ c ^ 2 + (zed R μ c - centre R pr) ^ 2)

/-- cosine of the polar angle of the point, seen from the centre -/
noncomputable def cosine (R μ c : ℝ) (pr : Probe) : ℝ := axis pr * (zed R μ c - centre R pr) / dist R μ c pr

/-- the probe orbital with radial part `ao` at the point, without its factor `exp(imφ)` -/
noncomputable def orbital (ao : ℝ → ℝ) (l : Nat) (m : Int) (R : ℝ) (pr : Probe) (μ c : ℝ) : ℝ :=
  ao (dist R μ c pr) * sphLegendre l m.natAbs (Real.arccos (cosine R μ c pr))

/-- the angular function of padded basis function `k` -/
def ang (g : Grid) (k : Nat) : Int × Int := g.lm.getD (k / g.nrad) (0, 0)

/-- padded basis function `k` at a radial point and angle, without its factor `exp(imφ)`: zero outside the elements that carry it -/
noncomputable def fn (g : Grid) (k : Nat) (p : Pt) (c : ℝ) : ℝ :=
  if p.first ≤ k % g.nrad ∧ k % g.nrad ≤ p.last then (sph (ang g k).1 (ang g k).2 c 0).re * p.f (k % g.nrad - p.first) else 0

/-- the volume element of the coordinates with the azimuth integrated -/
noncomputable def volume (R μ c : ℝ) : ℝ := 2 * Real.pi * (R ^ 3 * Real.sinh μ * (Real.sinh μ ^ 2 + (1 - c ^ 2)))

/-- the quadrature of a function over all of space -/
noncomputable def quad (g : Grid) (F : Pt → ℝ → ℝ) : ℝ :=
  (g.pts.map fun p => (g.ang.map fun a => p.w * a.2 * volume g.Rhalf p.mu a.1 * F p a.1).sum).sum

/-- A grid as the programs build it: a positive bond length, interior radial points of elements of the basis, and cosines. -/
structure Valid (g : Grid) : Prop where
  R : 0 < g.Rhalf
  pts : ∀ p ∈ g.pts, p.first ≤ p.last ∧ p.last < g.nrad ∧ 0 < p.mu
  ang : ∀ a ∈ g.ang, |a.1| ≤ 1

end HelFEM.TGrid.Spec
