import Verif.Spec.FloatCube

/-! # Specification vocabulary for `unwrap_cube` on large grids -/

namespace Spurt.Spec

/-- The difference `phase_diff` computes of two numbers up to `a` is, up to `δ1`, the difference less at most one
whole cycle, and at most `V`. -/
def WrapsOnce {K : Type} [Field K] [LinearOrder K] [FloorRing K] (A : FloatArith K) (a δ1 V : K) : Prop :=
  ∀ x y, |x| ≤ a → |y| ≤ a → ∃ n : ℤ,
    |phaseDiffFl A.fs A.tauS x y - (y - x - (n : K) * A.tauS)| ≤ δ1 ∧ |n| ≤ 1 ∧ |phaseDiffFl A.fs A.tauS x y| ≤ V

/-- Adding no cycles leaves a stored number as it is. -/
def AddsNothing {K : Type} [Field K] [LinearOrder K] (A : FloatArith K) : Prop :=
  ∀ x, A.fs (A.fd (A.fs x + A.fd (A.tau * ((0 : ℤ) : K)))) = A.fs x

end Spurt.Spec
