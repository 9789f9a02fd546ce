import Mathlib.Algebra.BigOperators.Group.List.Basic
import Mathlib.Algebra.Ring.Basic

/-!
# Specification: closure of interferograms (C90)

A loop of interferograms is a list of steps; a step is the number of an interferogram and the direction in which it is taken.
-/

namespace Spurt.Spec

/-- `Walk links s u steps`: the steps lead from acquisition `s` to acquisition `u`. `true` takes interferogram `(a, b)` from `a` to `b`, `false` back. -/
def Walk (links : List (Nat × Nat)) : Nat → Nat → List (Nat × Bool) → Prop
  | s, u, [] => s = u
  | s, u, (i, true) :: rest => ∃ b, links[i]? = some (s, b) ∧ Walk links b u rest
  | s, u, (i, false) :: rest => ∃ a, links[i]? = some (a, s) ∧ Walk links a u rest

/-- The sum of the values `v` of the interferograms along the steps, those taken backwards with a minus sign. -/
def alongWalk {K : Type} [Ring K] (v : Nat → K) (steps : List (Nat × Bool)) : K :=
  (steps.map fun st => if st.2 then v st.1 else - v st.1).sum

end Spurt.Spec
