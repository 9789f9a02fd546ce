import Verif.Model.FloodFill
import Verif.Model.Cost
import Verif.Model.Settings

/-!
# The EMCF solver (src/spurt/workflows/emcf/_solver.py)
-/

namespace Spurt

/-- An `EMCFSolver` (workflows/emcf/_solver.py:28-59) together with what its methods look
up: the number of CPUs and the values of `distance_costs` / `centroid_costs` on the two
graphs (Model/Cost.lean; passed in so that phases may live in any field). -/
structure Emcf where
  space : Mcf
  time : Mcf
  settings : SolverSettings
  cpuCount : ℤ
  tDist : Except PyErr (List ℤ)
  tCent : Except PyErr (List ℤ)
  sDist : Except PyErr (List ℤ)
  sCent : Except PyErr (List ℤ)

/-- workflows/emcf/_solver.py:28-59 `EMCFSolver.__init__`: a link model is refused. -/
def emcfInit (e : Emcf) (hasLinkModel : Bool) : Except PyErr Emcf :=
  if hasLinkModel then .error .notImplementedError else .ok e

/-- workflows/emcf/_solver.py:61-79 `nlinks`, `nepochs`, `nifgs`, `npoints`. -/
def Emcf.nlinks (e : Emcf) : Nat := e.space.graph.links.length
/-- workflows/emcf/_solver.py:71-74. -/
def Emcf.nepochs (e : Emcf) : Nat := e.time.graph.npoints
/-- workflows/emcf/_solver.py:76-79. -/
def Emcf.nifgs (e : Emcf) : Nat := e.time.graph.links.length
/-- workflows/emcf/_solver.py:61-64. -/
def Emcf.npoints (e : Emcf) : Nat := e.space.graph.npoints

/-- workflows/emcf/_solver.py:141-158 and 231-248: choice of the link costs. -/
def costOf (costType : String) (n : Nat) (dist cent : Except PyErr (List ℤ)) :
    Except PyErr (List ℤ) :=
  if costType = "constant" then .ok (List.replicate n 1)
  else if costType = "distance" then dist
  else if costType = "centroid" then cent
  else .error .valueError

section
variable {K : Type} [Field K] [LinearOrder K] [FloorRing K]

/-- Element `a[i, j]` of a 2-D array after the bounds have been checked. -/
def elem (a : List (List K)) (i j : Nat) : K := (a.getD i []).getD j 0

/-- Wrapped gradient of interferogram `i` along spatial link `j`.
Interferogram input: workflows/emcf/_solver.py:186-189.
SLC input: workflows/emcf/_solver.py:281-319 `_ifg_spatial_gradients_from_slc`. -/
def spaceGrad (tau : K) (e : Emcf) (wrap : List (List K)) (isIfg : Bool) (i j : Nat) : K :=
  let l := e.space.graph.links.getD j (0, 0)
  if isIfg then phaseDiff tau (elem wrap i l.1) (elem wrap i l.2)
  else
    let t := e.time.graph.links.getD i (0, 0)
    let ifg0 := phaseDiff tau (elem wrap t.1 l.1) (elem wrap t.2 l.1)
    let ifg1 := phaseDiff tau (elem wrap t.1 l.2) (elem wrap t.2 l.2)
    phaseDiff tau ifg0 ifg1

/-- workflows/emcf/_solver.py:198-212: one row of `residues`, from the gradients `g ii` of
one spatial link in the interferograms `ii`. The `float32` accumulator is exact here. -/
def linkResidues (tau : K) (m : Mcf) (g : Nat → K) : List ℤ :=
  let gradSum := (List.range m.graph.links.length).foldl (fun acc ii =>
    let r := m.dual.getD ii ⟨0, 0, 0, 0⟩
    let acc := acc.modify r.c0 (· + (r.d0 : K) * g ii)
    if r.c1 ≠ 0 then acc.modify r.c1 (· + (r.d1 : K) * g ii) else acc)
    (List.replicate (m.graph.cycles.length + 1) (0 : K))
  let res := gradSum.map fun s => rint (s / tau)
  (- res.tail.sum) :: res.tail

/-- workflows/emcf/_solver.py:171-226: one batch of links. `grad` is `grad_space` as a
function of (interferogram, link). Fancy indexing outside the data raises
`IndexError`; interferogram input with the wrong number of rows does not broadcast
(`ValueError`; a single row, which numpy would broadcast, is refused too:
`unwrap_cube` never passes one). -/
def timeBatch (tau : K) (solver : FlowSolver) (e : Emcf) (wrap : List (List K)) (isIfg : Bool)
    (cost : List ℤ) (order : List Nat → List Nat) (grad : Nat → Nat → K) (bb : Nat) :
    Except PyErr (Nat → Nat → K) :=
  let b := e.settings.linksPerBatch.toNat
  let iStart := bb * b
  let iEnd := min (iStart + b) e.nlinks
  let linksInBatch := iEnd - iStart
  if linksInBatch = 0 then .ok grad
  else
    let inds := (e.space.graph.links.drop iStart).take linksInBatch
    let ncols := (wrap.headD []).length
    if ¬ (inds.all fun l => l.1 < ncols ∧ l.2 < ncols) then .error .indexError
    else if isIfg ∧ wrap.length ≠ e.nifgs then .error .valueError
    else if ¬ isIfg ∧ ¬ (e.time.graph.links.all fun l => l.1 < wrap.length ∧ l.2 < wrap.length)
    then .error .indexError
    else do
      let grad1 : Nat → Nat → K := fun i j =>
        if iStart ≤ j ∧ j < iEnd then spaceGrad tau e wrap isIfg i j else grad i j
      let residues := (List.range linksInBatch).map fun k =>
        linkResidues tau e.time fun ii => grad1 ii (iStart + k)
      let flows ← residuesToFlowsMany solver e.time (e.time.graph.cycles.length + 1) residues
        cost none (poolWorkers e.cpuCount (some e.settings.tWorkerCount)) order
      pure fun i j =>
        if iStart ≤ j ∧ j < iEnd then
          grad1 i j + tau * (((flows.getD (j - iStart) []).getD i 0 : ℤ) : K)
        else grad1 i j

/-- workflows/emcf/_solver.py:132-226 `unwrap_gradients_in_time`. `order bb` is the order
in which the pool returns the results of batch `bb`. `links_per_batch` is positive
(checked by `SolverSettings`). -/
def unwrapInTime (tau : K) (solver : FlowSolver) (e : Emcf) (wrap : List (List K))
    (isIfg : Bool) (order : Nat → List Nat → List Nat) : Except PyErr (List (List K)) := do
  let cost ← costOf e.settings.tCostType e.nifgs e.tDist e.tCent
  let nbatches := (((e.nlinks : ℤ) - 1) / e.settings.linksPerBatch + 1).toNat
  let grad ← (List.range nbatches).foldlM (fun grad bb =>
    timeBatch tau solver e wrap isIfg cost (order bb) grad bb) (fun _ _ => (0 : K))
  pure ((List.range e.nifgs).map fun i => (List.range e.nlinks).map fun j => grad i j)

/-- workflows/emcf/_solver.py:322-332 `_unwrap_ifg_in_space`. -/
def unwrapIfg (tau : K) (solver : FlowSolver) (space : Mcf) (cost : List ℤ) (ifgGrad : List K) :
    Except PyErr (List K) := do
  let residues ← computeResiduesFromGradients tau space ifgGrad
  let flows ← residuesToFlows solver space residues cost
  floodFill tau ifgGrad space.graph.links flows "gradients"

/-- workflows/emcf/_solver.py:228-279 `unwrap_gradients_in_space`. `order` is the order in
which `as_completed` yields the futures; a failed future re-raises. -/
def unwrapInSpace (tau : K) (solver : FlowSolver) (e : Emcf) (grad : List (List K))
    (order : List Nat → List Nat) : Except PyErr (List (List K)) := do
  let cost ← costOf e.settings.sCostType e.nlinks e.sDist e.sCent
  let uw := List.replicate e.nifgs (List.replicate e.npoints (0 : K))
  let _ ← processPool (spatialWorkers e.cpuCount e.settings.sWorkerCount)
  (order (List.range e.nifgs)).foldlM (fun uw ii => do
    let data ← unwrapIfg tau solver e.space cost (grad.getD ii [])
    setRow uw e.npoints ii data) uw

/-- The argument of `unwrap_cube`: what the method reads of an `Irreg3DInput`. -/
structure CubeInput (K : Type) where
  ndim : Nat
  timeDim : ℤ
  data : List (List K)

/-- workflows/emcf/_solver.py:104-122: how `unwrap_cube` reads its input; `true` means
interferograms. -/
def cubeKind (e : Emcf) (w : CubeInput K) : Except PyErr Bool :=
  if w.ndim ≠ 2 then .error .valueError
  else if w.timeDim ≠ 0 then .error .notImplementedError
  else if w.data.length = e.nepochs then .ok false
  else if w.data.length = e.nifgs then .ok true
  else .error .valueError

/-- workflows/emcf/_solver.py:91-130 `unwrap_cube`. -/
def unwrapCube (tau : K) (solver : FlowSolver) (e : Emcf) (w : CubeInput K)
    (orderT : Nat → List Nat → List Nat) (orderS : List Nat → List Nat) :
    Except PyErr (List (List K)) := do
  let isIfg ← cubeKind e w
  let grad ← unwrapInTime tau solver e w.data isIfg orderT
  unwrapInSpace tau solver e grad orderS

/-- workflows/emcf/_unwrap.py:101-104: the phase offset of the first pixel, per
interferogram. -/
def phaseOffset (tau : K) (g : PlanarGraph) (data : List (List K)) : List K :=
  g.links.map fun t => phaseDiff tau (elem data t.1 0) (elem data t.2 0)

end

end Spurt
