import Mathlib.Analysis.SpecialFunctions.Sqrt

/-! # Specification vocabulary for double-precision arithmetic -/

namespace Spurt.Spec

/-- Rounding `fl` and rounded square root `sq` with 53 binary digits: both have relative error at
most `2⁻⁵³`, and are exact when the result has at most 53 binary digits. -/
structure DoubleArith (fl sq : ℚ → ℚ) : Prop where
  rel : ∀ x, |fl x - x| ≤ |x| / 2 ^ 53
  exact : ∀ n k : ℤ, |n| ≤ 2 ^ 53 → fl ((n : ℚ) * (2 : ℚ) ^ k) = (n : ℚ) * (2 : ℚ) ^ k
  sqrt_rel : ∀ x : ℚ, 0 ≤ x → |((sq x : ℚ) : ℝ) - √(x : ℝ)| ≤ √(x : ℝ) / 2 ^ 53
  sqrt_exact : ∀ (n : ℕ) (k : ℤ), n ≤ 2 ^ 53 → sq (((n : ℚ) * (2 : ℚ) ^ k) ^ 2) = (n : ℚ) * (2 : ℚ) ^ k

end Spurt.Spec
