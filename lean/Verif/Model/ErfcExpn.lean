import Verif.Model.Basic
import Mathlib.Analysis.SpecialFunctions.Exp
import Mathlib.Analysis.Real.Sqrt
import Mathlib.Analysis.SpecialFunctions.Trigonometric.Basic

/-!
# Expansion of the short-range (erfc) kernel

Models `libhelfem/src/erfc_expn.cpp:48-231` over the reals. The complementary error function is a parameter `erfc`, and `eps` stands for
`numeric_limits<T>::epsilon()`. Divisions by zero are excluded by the theorems on the branches.
-/

namespace HelFEM
namespace Erfc

/-- `double_factorial`, `erfc_expn.cpp:48-53` -/
def doubleFactorial : Nat → Nat
  | 0 => 1
  | 1 => 1
  | n + 2 => (n + 2) * doubleFactorial n

/-- `factorial`, `erfc_expn.cpp:55-60` -/
def factorial (n : Nat) : Nat := (List.range' 2 (n - 1)).foldl (fun v k => v * k) 1

/-- `choose`, `erfc_expn.cpp:62-92`, in the order of the C++ tests. `m` is nonnegative at every call. -/
noncomputable def choose (n : Int) (m : Nat) : ℝ :=
  if n = -1 then (-1) ^ m
  else if n = 0 then (if m = 0 then 1 else 0)
  else if m = 0 then 1
  else if m = 1 then n
  else if 0 < n ∧ 0 < m ∧ n < m then 0
  else if n < 0 then choose (n + m - 1) m * (-1) ^ m
  else (List.range (min (m : Int) (n - m)).toNat).foldl (fun (v : ℝ) (i : Nat) => v * (((n : ℝ) - i) / ((i : ℝ) + 1))) 1
termination_by (-n).toNat
decreasing_by omega

/-- `Fn`, `erfc_expn.cpp:95-112` -/
noncomputable def fn (n : Nat) (Xi xi : ℝ) : ℝ :=
  2 / Real.sqrt Real.pi * (List.range (n + 1)).foldl (fun F p =>
    F + (-1 / (4 * Xi * xi)) ^ (p + 1) * ((factorial (n + p) : ℝ) / ((factorial p : ℝ) * (factorial (n - p) : ℝ))) *
      ((-1) ^ (n - p) * Real.exp (-(Xi + xi) ^ 2) - Real.exp (-(Xi - xi) ^ 2))) 0

/-- `Hn`, `erfc_expn.cpp:115-124` -/
noncomputable def hn (erfc : ℝ → ℝ) (n : Nat) (Xi xi : ℝ) : Res ℝ :=
  if Xi < xi then .throw .logicError
  else .ok (((Xi ^ (2 * n + 1) + xi ^ (2 * n + 1)) * erfc (Xi + xi) - (Xi ^ (2 * n + 1) - xi ^ (2 * n + 1)) * erfc (Xi - xi)) /
    (2 * (xi * Xi) ^ (n + 1)))

/-- `Phi_general` after the argument swap, `erfc_expn.cpp:132-143` -/
noncomputable def phiGeneralOrdered (erfc : ℝ → ℝ) (n : Nat) (Xi xi : ℝ) : Res ℝ := do
  let s := (List.range' 1 n).foldl (fun s m => s + fn (n - m) Xi xi * ((Xi ^ m * Xi ^ m + xi ^ m * xi ^ m) / (Xi ^ m * xi ^ m))) 0
  let h ← hn erfc n Xi xi
  pure (fn n Xi xi + s + h)

/-- `Phi_general`, `erfc_expn.cpp:127-144` -/
noncomputable def phiGeneral (erfc : ℝ → ℝ) (n : Nat) (Xi xi : ℝ) : Res ℝ :=
  if Xi < xi then phiGeneralOrdered erfc n xi Xi else phiGeneralOrdered erfc n Xi xi

/-- The sum in `Dnk` for `k > 0`, `erfc_expn.cpp:160-163`; `ch` is the binomial coefficient routine. -/
noncomputable def dnkSum (ch : Int → Nat → ℝ) (n k : Nat) (Xi : ℝ) : ℝ :=
  (List.range' 1 k).foldl (fun s (m : Nat) =>
    s + ch ((m : Int) - k - 1) (m - 1) * (2 * Xi * Xi) ^ (k - m) / (doubleFactorial (2 * (n + k - m) + 1) : ℝ)) 0

/-- `Dnk`, `erfc_expn.cpp:147-169` -/
noncomputable def dnk (erfc : ℝ → ℝ) (ch : Int → Nat → ℝ) (n k : Nat) (Xi : ℝ) : ℝ :=
  let prefac := Real.exp (-Xi ^ 2) / Real.sqrt Real.pi * 2 ^ (n + 1) * Xi ^ (2 * n + 1)
  if k = 0 then
    erfc Xi + prefac * (List.range' 1 n).foldl (fun s (m : Nat) => s + 1 / ((doubleFactorial (2 * (n - m) + 1) : ℝ) * (2 * Xi * Xi) ^ m)) 0
  else prefac * (2 * n + 1) / ((factorial k : ℝ) * (2 * (n + k) + 1)) * dnkSum ch n k Xi

/-- The convergence loop, `erfc_expn.cpp:192-204`, `k` steps by two. -/
noncomputable def shortLoop (erfc : ℝ → ℝ) (eps : ℝ) (n : Nat) (Xi xi : ℝ) : (fuel k : Nat) → ℝ → Res ℝ
  | 0, _, _ => .throw .runtimeError
  | fuel + 1, k, Phi =>
    let dPhi := dnk erfc choose n k Xi * xi ^ (n + 2 * k) + dnk erfc choose n (k + 1) Xi * xi ^ (n + 2 * (k + 1))
    if |dPhi| < eps * max |Phi + dPhi| 1 then .ok (Phi + dPhi) else shortLoop erfc eps n Xi xi fuel (k + 2) (Phi + dPhi)

/-- `Phi_short` after the argument swap, `erfc_expn.cpp:177-213`; `k = 0, 2, …, 200`. -/
noncomputable def phiShortOrdered (erfc : ℝ → ℝ) (eps : ℝ) (n : Nat) (Xi xi : ℝ) : Res ℝ :=
  if xi = 0 ∧ 0 < n then .ok 0
  else if n = 0 ∧ xi = 0 ∧ Xi = 0 then .ok 1
  else do
    let v ← shortLoop erfc eps n Xi xi 101 0 0
    pure (v / Xi ^ (n + 1))

/-- `Phi_short`, `erfc_expn.cpp:172-214` -/
noncomputable def phiShort (erfc : ℝ → ℝ) (eps : ℝ) (n : Nat) (Xi xi : ℝ) : Res ℝ :=
  if Xi < xi then phiShortOrdered erfc eps n xi Xi else phiShortOrdered erfc eps n Xi xi

/-- `Phi` after the argument swap, `erfc_expn.cpp:223-230` -/
noncomputable def phiOrdered (erfc : ℝ → ℝ) (eps : ℝ) (n : Nat) (Xi xi : ℝ) : Res ℝ :=
  if xi < 4 / 10 ∨ (Xi < 1 / 2 ∧ xi < 2 * Xi) then phiShort erfc eps n Xi xi else phiGeneral erfc n Xi xi

/-- `Phi`, `erfc_expn.cpp:217-231` -/
noncomputable def phi (erfc : ℝ → ℝ) (eps : ℝ) (n : Nat) (Xi xi : ℝ) : Res ℝ :=
  if Xi < xi then phiOrdered erfc eps n xi Xi else phiOrdered erfc eps n Xi xi

end Erfc
end HelFEM
