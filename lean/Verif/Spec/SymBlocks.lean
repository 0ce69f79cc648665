import Verif.Model.SymBlocks

/-!
# Specification of a symmetry block decomposition
-/

namespace HelFEM
namespace Sym

/-- the quantum numbers `(l, m)` that belong to a label; the `|m|` blocks hold the functions with positive sign -/
def Fits : Label → Int × Int → Prop
  | .all, _ => True
  | .m a, p => p.2 = a
  | .lm l a, p => p = (l, a)
  | .g a, p => p.2 = a ∧ p.1 % 2 = 0
  | .u a, p => p.2 = a ∧ p.1 % 2 = 1
  | .absm a, p => p.2 = a

/-- Blocks with their labels: as many labels as blocks, all labels different, block `i` lists in ascending order exactly the functions with label `i`,
and together the blocks list each of the `n` functions once. -/
structure IsBlocks (n : Nat) (lmOf : Nat → Int × Int) (blocks : List (List Nat)) (labels : List Label) : Prop where
  length : labels.length = blocks.length
  distinct : labels.Nodup
  members : ∀ (i : Nat) (b : List Nat) (x : Label), blocks[i]? = some b → labels[i]? = some x → ∀ k, k ∈ b ↔ k < n ∧ Fits x (lmOf k)
  ascending : ∀ b ∈ blocks, b.Pairwise (· < ·)
  partition : blocks.flatten.Perm (List.range n)

/-- quantum numbers of function `k` of the atomic basis: radial functions run fastest (`set_sub`, `TwoDBasis.cpp:309-312`) -/
def atomLMOf (lm : List (Int × Int)) (nrad k : Nat) : Int × Int := lm.getD (k / nrad) (0, 0)

/-- quantum numbers of function `k` of the diatomic basis: those of the function of the untruncated basis it stands for -/
def diaLMOf (lm : List (Int × Int)) (nrad k : Nat) : Int × Int := lm.getD ((pureIndices lm nrad).getD k 0 / nrad) (0, 0)

end Sym
end HelFEM
