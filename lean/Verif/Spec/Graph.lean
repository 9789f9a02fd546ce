import Mathlib.Logic.Relation
import Mathlib.Data.List.Count

/-!
# Specification vocabulary for graphs

Independent of the model: a graph is given by its links and cycles.
-/

namespace Spurt.Spec

/-- Successive sides of a closed polygon, in walking direction. -/
def sides (cycle : List Nat) : List (Nat × Nat) :=
  match cycle with
  | [] => []
  | a :: l => List.zip (a :: l) (l ++ [a])

/-- All directed sides walked by the cycles. -/
def walked (cycles : List (List Nat)) : List (Nat × Nat) := cycles.flatMap sides

/-- The contract documented in graph/_interface.py:61-68 for planar graphs:
links lower index first and distinct, every cycle side is a link, every link is walked
at most once in each direction (cycles are consistently oriented, and a link lies on at
most two cycles) and at least once, all cycles have the same length. -/
structure PlanarContract (npoints : Nat) (links : List (Nat × Nat))
    (cycles : List (List Nat)) : Prop where
  ordered : ∀ a b, (a, b) ∈ links → a < b ∧ b < npoints
  distinct : links.Nodup
  side_is_link : ∀ a b, (a, b) ∈ walked cycles → (a, b) ∈ links ∨ (b, a) ∈ links
  once_per_direction : (walked cycles).Nodup
  link_walked : ∀ a b, (a, b) ∈ links → (a, b) ∈ walked cycles ∨ (b, a) ∈ walked cycles
  uniform : ∀ c ∈ cycles, ∀ c' ∈ cycles, c.length = c'.length

/-- Two points are joined by a link. -/
def Adjacent (links : List (Nat × Nat)) (a b : Nat) : Prop :=
  (a, b) ∈ links ∨ (b, a) ∈ links

/-- Every point can be reached from point 0 along links. -/
def Connected (npoints : Nat) (links : List (Nat × Nat)) : Prop :=
  ∀ p, p < npoints → Relation.ReflTransGen (Adjacent links) 0 p

/-- The value an edge function given as an array aligned with `links` takes on a link. -/
def onLink {K : Type*} [Zero K] (links : List (Nat × Nat)) (vals : List K)
    (a b : Nat) : K := vals.getD (links.idxOf (a, b)) 0

/-- Value picked up when walking from `a` to `b` along a link: links are oriented
from the lower to the higher index. -/
def along {K : Type*} [Zero K] [Neg K] (links : List (Nat × Nat)) (vals : List K)
    (a b : Nat) : K :=
  if a < b then onLink links vals a b else - onLink links vals b a

/-- Sum of an edge function around a cycle. -/
def circulation {K : Type*} [Zero K] [Neg K] [Add K] (links : List (Nat × Nat))
    (vals : List K) (cycle : List Nat) : K :=
  ((sides cycle).map fun s => along links vals s.1 s.2).sum

/-- The edge function is the difference of a point function. -/
def IsGradientOf {K : Type*} [Zero K] [Sub K] (links : List (Nat × Nat)) (vals : List K)
    (φ : Nat → K) : Prop :=
  ∀ a b, (a, b) ∈ links → onLink links vals a b = φ b - φ a

/-- The cycles generate all closed walks: an edge function without circulation is a
gradient. -/
def CyclesGenerate (K : Type*) [Zero K] [Neg K] [Add K] [Sub K]
    (links : List (Nat × Nat)) (cycles : List (List Nat)) : Prop :=
  ∀ vals : List K, vals.length = links.length →
    (∀ c ∈ cycles, circulation links vals c = 0) → ∃ φ, IsGradientOf links vals φ

end Spurt.Spec
