import Verif.Spec.Mcf
import Mathlib.Algebra.BigOperators.Group.Finset.Basic

/-! # Specification vocabulary for the cost of unwrapping -/

namespace Spurt.Spec
open Finset

/-- Along link `i` the values `u` change by the given gradient plus `k i` whole cycles. -/
def Jumps {K : Type} [Ring K] (tau : K) (links : List (Nat × Nat)) (grad u : Nat → K) (k : Nat → ℤ) : Prop :=
  ∀ i a b : Nat, links[i]? = some (a, b) → u b - u a = grad i + (k i : K) * tau

/-- Price of `k i` whole cycles on link `i < n`: `up i` for a cycle up, `down i` for a cycle down. -/
def price (n : Nat) (up down : List ℤ) (k : Nat → ℤ) : ℤ :=
  ∑ i ∈ range n, (if 0 ≤ k i then up.getD i 0 * k i else down.getD i 0 * - k i)

/-- The costs meant by a setting `cost_type`: 1 for every link, or the built-in costs by length or by
distance of the neighbouring centroids. -/
inductive SelectedCost (kind : String) (n : Nat) (dist cent : Except PyErr (List ℤ)) : List ℤ → Prop
  | constant : kind = "constant" → SelectedCost kind n dist cent (List.replicate n 1)
  | distance (c : List ℤ) : kind = "distance" → dist = .ok c → SelectedCost kind n dist cent c
  | centroid (c : List ℤ) : kind = "centroid" → cent = .ok c → SelectedCost kind n dist cent c

end Spurt.Spec
