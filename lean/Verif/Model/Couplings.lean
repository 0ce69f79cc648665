import Verif.Model.Gaunt
import Mathlib.Analysis.SpecialFunctions.Trigonometric.Basic

/-!
# Couplings through powers of the cosine and sine of the polar angle

Models `src/general/gaunt.cpp:119-124, 254-261, 273-332`, over the real numbers.
-/

namespace HelFEM
namespace Gaunt

/-- `sqrt_pi`, `sqrt_3pi`, `sqrt_5pi`, `sqrt_7pi`, `sqrt_11pi`: `gaunt.cpp:119-123`; `n` is the factor of `pi` -/
noncomputable def sqrtPi (n : Nat) : ℝ := √((n : ℝ) * Real.pi)

/-- `sqrt_pi_by_3`, `gaunt.cpp:124` -/
noncomputable def sqrtPiBy3 : ℝ := √(Real.pi / 3)

/-- the two constants of `mod_coeff`, `gaunt.cpp:259-260` -/
noncomputable def modC0 : ℝ := 2 / 3 * sqrtPi 1
noncomputable def modC2 : ℝ := 4 / 15 * sqrtPi 5

/-- `cosine_coupling`, `gaunt.cpp:277-281` -/
noncomputable def Table.cosine (T : Table ℝ) (lj mj li mi : Int) : Res ℝ :=
  if mi ≠ mj then .ok 0
  else do
    let a ← T.coeff lj mj 1 0 li
    pure (2 * sqrtPiBy3 * a)

/-- `cosine2_coupling`, `gaunt.cpp:284-289` -/
noncomputable def Table.cosine2 (T : Table ℝ) (lj mj li mi : Int) : Res ℝ :=
  if mi ≠ mj then .ok 0
  else do
    let a ← T.coeff lj mj 0 0 li
    let b ← T.coeff lj mj 2 0 li
    pure (2 / 3 * sqrtPi 1 * a + 4 / 15 * sqrtPi 5 * b)

/-- `cosine3_coupling`, `gaunt.cpp:292-297` -/
noncomputable def Table.cosine3 (T : Table ℝ) (lj mj li mi : Int) : Res ℝ :=
  if mi ≠ mj then .ok 0
  else do
    let a ← T.coeff lj mj 1 0 li
    let b ← T.coeff lj mj 3 0 li
    pure (2 / 5 * sqrtPi 3 * a + 4 / 35 * sqrtPi 7 * b)

/-- `cosine4_coupling`, `gaunt.cpp:300-306` -/
noncomputable def Table.cosine4 (T : Table ℝ) (lj mj li mi : Int) : Res ℝ :=
  if mi ≠ mj then .ok 0
  else do
    let a ← T.coeff lj mj 0 0 li
    let b ← T.coeff lj mj 2 0 li
    let d ← T.coeff lj mj 4 0 li
    pure (2 / 5 * sqrtPi 1 * a + 8 / 35 * sqrtPi 5 * b + 16 / 105 * sqrtPi 1 * d)

/-- `cosine5_coupling`, `gaunt.cpp:309-315` -/
noncomputable def Table.cosine5 (T : Table ℝ) (lj mj li mi : Int) : Res ℝ :=
  if mi ≠ mj then .ok 0
  else do
    let a ← T.coeff lj mj 1 0 li
    let b ← T.coeff lj mj 3 0 li
    let d ← T.coeff lj mj 5 0 li
    pure (2 / 7 * sqrtPi 3 * a + 8 / 63 * sqrtPi 7 * b + 16 / 693 * sqrtPi 11 * d)

/-- `sine2_coupling`, `gaunt.cpp:318-323` -/
noncomputable def Table.sine2 (T : Table ℝ) (lj mj li mi : Int) : Res ℝ :=
  if mi ≠ mj then .ok 0
  else do
    let a ← T.coeff lj mj 0 0 li
    let b ← T.coeff lj mj 2 0 li
    pure (4 / 3 * sqrtPi 1 * a + (-4) / 15 * sqrtPi 5 * b)

/-- `cosine2_sine2_coupling`, `gaunt.cpp:326-332` -/
noncomputable def Table.cosine2sine2 (T : Table ℝ) (lj mj li mi : Int) : Res ℝ :=
  if mi ≠ mj then .ok 0
  else do
    let a ← T.coeff lj mj 0 0 li
    let b ← T.coeff lj mj 2 0 li
    let d ← T.coeff lj mj 4 0 li
    pure (4 / 15 * sqrtPi 1 * a + 4 / 105 * sqrtPi 5 * b + (-16) / 105 * sqrtPi 1 * d)

end Gaunt
end HelFEM
