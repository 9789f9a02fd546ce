import Mathlib.Algebra.Order.Floor.Ring
import Mathlib.Algebra.BigOperators.Group.Finset.Basic
import Mathlib.Algebra.Order.Field.Basic

/-! # Specification vocabulary for aliasing -/

namespace Spurt.Spec
open Finset

/-- The change of `u` along link number `j`. -/
def changeOn {K : Type} [Sub K] (links : List (Nat × Nat)) (u : Nat → K) (j : Nat) : K :=
  u (links.getD j (0, 0)).2 - u (links.getD j (0, 0)).1

/-- The whole cycles in a difference `d` of true phases that its wrapped value does not show: 0 below half a cycle,
1 from there to below three halves, and so on. -/
def aliasedCycles {K : Type} [Field K] [LinearOrder K] [FloorRing K] (tau d : K) : ℤ := ⌊|d| / tau + 1 / 2⌋

/-- The sum over all `m` interferograms and all `n` links of `|x i j|`, weighted by the costs of both. -/
def weighted (m n : Nat) (ct cs : List ℤ) (x : Nat → Nat → ℤ) : ℤ :=
  ∑ i ∈ range m, ∑ j ∈ range n, ct.getD i 0 * cs.getD j 0 * |x i j|

end Spurt.Spec
