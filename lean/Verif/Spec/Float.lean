import Verif.Spec.Graph
import Mathlib.Algebra.Order.Field.Basic
import Mathlib.Algebra.Order.Group.Unbundled.Abs

/-! # Specification vocabulary for rounded arithmetic -/

namespace Spurt.Spec

/-- A rounding that moves numbers of size at most `B` by at most `η`, and treats both signs alike. -/
structure Rounds {K : Type} [Field K] [LinearOrder K] (fl : K → K) (B η : K) : Prop where
  close : ∀ x, |x| ≤ B → |fl x - x| ≤ η
  odd : ∀ x, fl (-x) = - fl x

/-- `p` is reached from point 0 by a walk of `L` links. -/
inductive WalkTo (links : List (Nat × Nat)) : Nat → Nat → Prop
  | start : WalkTo links 0 0
  | step {L a b : Nat} : WalkTo links L a → Adjacent links a b → WalkTo links (L + 1) b

end Spurt.Spec
