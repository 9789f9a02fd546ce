import Verif.Spec.Graph
import Verif.Model.Mcf

/-!
# Specification vocabulary for the flow stage

`FlowProblem` and `FlowSolver` are the interface to the external solver; everything
here says what a flow, a correction and its cost are, without the model's code.
-/

namespace Spurt.Spec

/-- The walks of cycles along the link `{a, b}` (`a ≤ b`), in the order in which the
cycles list them: the 1-based cycle number and `+1` if the link is walked from the lower
to the higher index, `-1` otherwise. -/
def traversals (cycles : List (List Nat)) (a b : Nat) : List (Nat × ℤ) :=
  cycles.zipIdx.flatMap fun ck => (sides ck.1).filterMap fun s =>
    if s = (a, b) ∧ a < b then some (ck.2 + 1, 1)
    else if s = (b, a) then some (ck.2 + 1, -1)
    else none

/-- Net outflow of node `k`. -/
def netOut (arcs : List Arc) (f : List ℤ) (k : Nat) : ℤ :=
  ((List.zipWith (fun (a : Arc) x => if a.tail = k then x else 0) arcs f).sum) -
  ((List.zipWith (fun (a : Arc) x => if a.head = k then x else 0) arcs f).sum)

/-- A flow that respects the capacities and ships every supply. -/
structure FeasibleFlow (p : FlowProblem) (f : List ℤ) : Prop where
  len : f.length = p.arcs.length
  bounds : ∀ x ∈ List.zip p.arcs f, 0 ≤ x.2 ∧ x.2 ≤ x.1.cap
  conserve : ∀ k, netOut p.arcs f k = p.supplies.getD k 0

/-- Total cost of a flow. -/
def flowCost (p : FlowProblem) (f : List ℤ) : ℤ :=
  (List.zipWith (fun (a : Arc) x => a.cost * x) p.arcs f).sum

/-- The external solver only answers with feasible flows. -/
def SolverSound (s : FlowSolver) : Prop := ∀ p f, s p = some f → FeasibleFlow p f

/-- The external solver only answers with cheapest flows. -/
def SolverOptimal (s : FlowSolver) : Prop :=
  SolverSound s ∧ ∀ p f, s p = some f → ∀ f', FeasibleFlow p f' → flowCost p f ≤ flowCost p f'

/-- The external solver answers whenever a feasible flow exists and no arc has a negative
cost. -/
def SolverComplete (s : FlowSolver) : Prop :=
  ∀ p, (∀ a ∈ p.arcs, 0 ≤ a.cost) → (∃ f, FeasibleFlow p f) → (s p).isSome

/-- A correction of the links cancels the residues: around cycle number `k` (from 1) it
sums to minus the residue of that cycle. -/
def Cancels (links : List (Nat × Nat)) (cycles : List (List Nat)) (residues : List ℤ)
    (x : List ℤ) : Prop :=
  x.length = links.length ∧
  ∀ k, (h : k < cycles.length) → circulation links x cycles[k] = - residues.getD (k + 1) 0

/-- Price of a correction: a positive unit costs `cost`, a negative unit `revcost`. -/
def correctionCost (cost revcost : List ℤ) (x : List ℤ) : ℤ :=
  ((List.range x.length).map fun i =>
    cost.getD i 0 * max (x.getD i 0) 0 + revcost.getD i 0 * max (- x.getD i 0) 0).sum

end Spurt.Spec

namespace Spurt.Spec

/-- `c` is the per-link cost array meant by the argument `cost`: the array itself, or its
only entry repeated. -/
def CostOn (n : Nat) (cost c : List ℤ) : Prop :=
  c.length = n ∧ (cost = c ∨ ∃ v, cost = [v] ∧ c = List.replicate n v)

end Spurt.Spec
