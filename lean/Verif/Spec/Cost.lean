import Mathlib.Data.Real.Basic
import Mathlib.Algebra.BigOperators.Group.List.Basic

/-! # Specification vocabulary for link costs -/

namespace Spurt.Spec

/-- `d` is the distance of two points of the plane. -/
def Distance (p q : ℝ × ℝ) (d : ℝ) : Prop := 0 ≤ d ∧ d ^ 2 = (p.1 - q.1) ^ 2 + (p.2 - q.2) ^ 2

/-- `g` is the mean of the points numbered `cycle`. -/
def Centroid (points : List (ℝ × ℝ)) (cycle : List Nat) (g : ℝ × ℝ) : Prop :=
  (cycle.length : ℝ) * g.1 = (cycle.map fun i => (points.getD i (0, 0)).1).sum ∧
  (cycle.length : ℝ) * g.2 = (cycle.map fun i => (points.getD i (0, 0)).2).sum

/-- `c` is the whole number nearest to `x`, the even one if two are. -/
def Nearest (x : ℝ) (c : ℤ) : Prop := |x - (c : ℝ)| ≤ 1 / 2 ∧ (|x - (c : ℝ)| = 1 / 2 → c % 2 = 0)

end Spurt.Spec
