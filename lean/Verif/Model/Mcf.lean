import Verif.Model.Graph

/-!
# Minimum cost flow (src/spurt/mcf/_ortools.py)
-/

namespace Spurt

/-- mcf/utils.py:31-38 `sign_nonzero` applied to `cycle[jj] - cycle[ii]`. -/
def signNonzero (x : ℤ) : ℤ := if x > 0 then 1 else -1

/-- `(cycle[ii], cycle[(ii+1) % cycsize])` for `ii in range(cycsize)`
(mcf/_ortools.py:88-91). -/
def cycleSteps (cycle : List Nat) : List (Nat × Nat) :=
  (List.range cycle.length).map fun ii =>
    (cycle.getD ii 0, cycle.getD ((ii + 1) % cycle.length) 0)

/-- `edge_to_cycles`: an insertion-ordered dictionary. -/
abbrev EdgeDict := List ((Nat × Nat) × List (Nat × ℤ))

/-- mcf/_ortools.py:86 `{tuple(link): [] for link in self.edges}`: a repeated key keeps
its first position. -/
def dictInit (links : List (Nat × Nat)) : EdgeDict :=
  (links.foldl setAdd []).map fun l => (l, [])

/-- mcf/_ortools.py:95-97 `edge_to_cycles[edge].append(v)`; `KeyError` if absent. -/
def dictAppend (d : EdgeDict) (k : Nat × Nat) (v : Nat × ℤ) : Except PyErr EdgeDict :=
  if d.any (fun e => e.1 == k) then
    .ok (d.map fun e => if e.1 = k then (e.1, e.2 ++ [v]) else e)
  else .error .keyError

/-- One row of `dual_edges` and `dual_edge_dir` (mcf/_ortools.py:37-42). -/
structure DualRow where
  c0 : Nat
  c1 : Nat
  d0 : ℤ
  d1 : ℤ
  deriving DecidableEq, Repr

/-- mcf/_ortools.py:100-116: the row of one dictionary entry. -/
def dualRow (vv : List (Nat × ℤ)) : Except PyErr DualRow :=
  match vv with
  | [v0, v1] => .ok ⟨v0.1, v1.1, v0.2, v1.2⟩
  | [v0] => .ok ⟨v0.1, 0, v0.2, 0⟩
  | _ => .error .valueError

/-- mcf/_ortools.py:73-116 `ORMCFSolver._prepare_dual`. The arrays have one row per link
(lines 37, 42); rows beyond the dictionary's size (repeated links) stay zero.
The `int32`/`int8` element types are not modelled. -/
def prepareDual (g : PlanarGraph) : Except PyErr (List DualRow) := do
  let steps := g.cycles.zipIdx.flatMap fun (cyc, icyc) =>
    (cycleSteps cyc).map fun s => (icyc, s)
  let d ← steps.foldlM (fun d (icyc, s) =>
    dictAppend d (orderPoints s) (icyc + 1, signNonzero ((s.2 : ℤ) - (s.1 : ℤ))))
    (dictInit g.links)
  let rows ← d.mapM fun e => dualRow e.2
  pure (rows ++ List.replicate (g.links.length - rows.length) ⟨0, 0, 0, 0⟩)

/-- An `ORMCFSolver` object (mcf/_ortools.py:19-43). -/
structure Mcf where
  graph : PlanarGraph
  dual : List DualRow

/-- mcf/_ortools.py:25-43 `ORMCFSolver.__init__`. -/
def ormcf (g : PlanarGraph) : Except PyErr Mcf := do
  let dual ← prepareDual g
  pure ⟨g, dual⟩

section Residues
variable {K : Type*} [Field K] [LinearOrder K] [FloorRing K]

/-- mcf/_ortools.py:126-148 `compute_residues`. `tau` is `2*np.pi`; the sum over the
columns is taken per cycle. The size check is lines 131-136; `self.cycles[0]` (lines 71, 140)
fails without cycles; a point index outside the data is an `IndexError`. Cycles are
the rows of a rectangular array. -/
def computeResidues (tau : K) (m : Mcf) (wrapdata : List K) : Except PyErr (List ℤ) :=
  if wrapdata.length ≠ m.graph.npoints then .error .valueError
  else match m.graph.cycles with
    | [] => .error .indexError
    | cyc0 :: _ =>
      let ndim := cyc0.length
      if m.graph.cycles.all (fun c => c.all (fun p => p < wrapdata.length)) then
        let res := m.graph.cycles.map fun cyc =>
          rint (((List.range ndim).map fun col =>
            let nn := (col + 1) % ndim
            phaseDiff tau (wrapdata.getD (cyc.getD col 0) 0)
              (wrapdata.getD (cyc.getD nn 0) 0)).sum / tau)
        .ok ((- res.sum) :: res)
      else .error .indexError

/-- `np.add.at(acc, idx, vals)`: repeated indices accumulate. -/
def addAt (acc : List K) (idx : List Nat) (vals : List K) : List K :=
  (idx.zip vals).foldl (fun acc p => acc.modify p.1 (· + p.2)) acc

/-- mcf/_ortools.py:150-176 `compute_residues_from_gradients`. The `float32`
accumulator (line 166) is modelled by exact arithmetic. -/
def computeResiduesFromGradients (tau : K) (m : Mcf) (graddata : List K) :
    Except PyErr (List ℤ) :=
  if graddata.length ≠ m.graph.links.length then .error .valueError
  else
    let gradSum := List.replicate (m.graph.cycles.length + 1) (0 : K)
    let gradSum := addAt gradSum (m.dual.map (·.c0))
      (List.zipWith (fun r g => (r.d0 : K) * g) m.dual graddata)
    let gradSum := addAt gradSum (m.dual.map (·.c1))
      (List.zipWith (fun r g => (r.d1 : K) * g) m.dual graddata)
    let res := gradSum.map fun s => rint (s / tau)
    .ok ((- (res.tail).sum) :: res.tail)

end Residues

/-- An arc handed to OR-tools. -/
structure Arc where
  tail : Nat
  head : Nat
  cap : ℤ
  cost : ℤ
  deriving DecidableEq, Repr

/-- What `SimpleMinCostFlow` is given: arcs in order of insertion and node supplies. -/
structure FlowProblem where
  arcs : List Arc
  supplies : List ℤ

/-- `SimpleMinCostFlow.solve`: `some flows` when the status is `OPTIMAL`, `none` for any
other status. A parameter of the model. -/
abbrev FlowSolver := FlowProblem → Option (List ℤ)

/-- mcf/_ortools.py:315 `np.iinfo(np.int32).max`. -/
def int32Max : ℤ := 2147483647

/-- numpy broadcasting of the cost array against `first_cycle_dir` (lines 327, 333): an
array of the right length, or of length one (also a scalar). -/
def bcast (n : Nat) (cost : List ℤ) : Except PyErr (List ℤ) :=
  if cost.length = n then .ok cost
  else match cost with
    | [c] => .ok (List.replicate n c)
    | _ => .error .valueError

/-- `a * (dir == x) + b * (dir == y)` (lines 327, 333). -/
def pickCost (a b : ℤ) (dir x y : ℤ) : ℤ :=
  a * (if dir = x then 1 else 0) + b * (if dir = y then 1 else 0)

/-- mcf/_ortools.py:333-346: the flow problem built from the dual edges. -/
def flowProblem (dual : List DualRow) (residues cost revcost : List ℤ) : FlowProblem :=
  { arcs :=
      (List.zipWith (fun (r : DualRow) (c : ℤ × ℤ) =>
        (⟨r.c0, r.c1, int32Max, pickCost c.1 c.2 r.d0 (-1) 1⟩ : Arc)) dual
          (cost.zip revcost)) ++
      (List.zipWith (fun (r : DualRow) (c : ℤ × ℤ) =>
        (⟨r.c1, r.c0, int32Max, pickCost c.1 c.2 r.d0 1 (-1)⟩ : Arc)) dual
          (cost.zip revcost))
    supplies := residues }

/-- mcf/_ortools.py:288-357 `solve_mcf`. -/
def solveMcf (solver : FlowSolver) (dual : List DualRow) (residues cost revcost : List ℤ) :
    Except PyErr (List ℤ) :=
  let n := dual.length
  if residues.sum ≠ 0 then .error .valueError
  else do
    let cost ← bcast n cost
    let revcost ← bcast n revcost
    match solver (flowProblem dual residues cost revcost) with
    | none => .error .runtimeError
    | some f =>
      .ok ((List.range n).map fun ii =>
        ((dual.map (·.d0)).getD ii 0) * (f.getD (ii + n) 0 - f.getD ii 0))

/-- mcf/_ortools.py:198-214 `residues_to_flows`; `revcost = none` is Python's `None`. -/
def residuesToFlows (solver : FlowSolver) (m : Mcf) (residues cost : List ℤ)
    (revcost : Option (List ℤ) := none) : Except PyErr (List ℤ) :=
  if residues.any (· ≠ 0) then
    solveMcf solver m.dual residues cost (revcost.getD cost)
  else .ok (List.replicate m.graph.links.length 0)

end Spurt
