import Verif.Model.FloatLinks

/-! # Specification vocabulary for link models in double precision -/

namespace Spurt.Spec

/-- What is used of the arithmetic: basic operations are correctly rounded, `cos` and `sin` are off by at most two units in
the last place of 1, `hypot` by at most two units in the last place, and sums and inner products, in whatever order, have
the usual error bound. -/
structure LinkArithOk (A : LinkArith) : Prop where
  fl : ∀ x, |A.fl x - x| ≤ |x| / 2 ^ 53
  cos : ∀ x, |A.cos x - Real.cos x| ≤ 1 / 2 ^ 52
  sin : ∀ x, |A.sin x - Real.sin x| ≤ 1 / 2 ^ 52
  hypot : ∀ x y, |A.hypot x y - √(x ^ 2 + y ^ 2)| ≤ √(x ^ 2 + y ^ 2) / 2 ^ 52
  sum : ∀ l : List ℝ, l.length ≤ 2 ^ 50 → |A.sum l - l.sum| ≤ l.length * (l.map fun v => |v|).sum / 2 ^ 52
  dot : ∀ l k : List ℝ, l.length = k.length → l.length ≤ 2 ^ 50 →
    |A.dot l k - (List.zipWith (· * ·) l k).sum| ≤ (l.length + 1) * (List.zipWith (fun v w => |v * w|) l k).sum / 2 ^ 52

/-- Every phase of the model at `x`, term by term, and the datum beside it add up to at most `R` radians. -/
def PhaseSize (a : Arr2) (x : Fin a.cols → ℝ) (b : Arr1) (R : ℝ) : Prop :=
  ∀ i < a.rows, (∑ j : Fin a.cols, |a.at i j * x j|) + |b.at i| ≤ R

/-- The rounding error of the coherence of `m` observations with `n` parameters, weights of total size `W` and phases of
size `R`. -/
noncomputable def cohError (m n : Nat) (W R : ℝ) : ℝ := W * (m + 4 + (n + 2) * R) / 2 ^ 50

end Spurt.Spec
