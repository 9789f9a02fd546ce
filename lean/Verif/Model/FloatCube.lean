import Mathlib.Data.Int.Log
import Verif.Model.Emcf
import Verif.Model.Float

/-!
# `unwrap_cube` in mixed precision (src/spurt/workflows/emcf/_solver.py)

The functions of Model/Emcf.lean with the roundings numpy makes when the wrapped data are `float32`:
`phase_diff`, the accumulated gradients and the results are `float32`, the cycles added to the
gradients and `flood_fill` are `float64`. `C69_exact` gives the functions of Model/Emcf.lean back.
`dual_edge_dir` is `int8` (mcf/_ortools.py:42), so its products with `float32` data are exact.
-/

namespace Spurt

/-- The two roundings and the constants `2 * np.pi` in either precision and `1e-3`. -/
structure FloatArith (K : Type) where
  fs : K → K
  fd : K → K
  tauS : K
  tau : K
  tol : K

section
variable {K : Type} [Field K] [LinearOrder K] [FloorRing K]

/-- Wrapped gradient of interferogram `i` along spatial link `j` (workflows/emcf/_solver.py:186-194 and
281-319), see `spaceGrad`. -/
def spaceGradFl (A : FloatArith K) (e : Emcf) (wrap : List (List K)) (isIfg : Bool) (i j : Nat) : K :=
  let l := e.space.graph.links.getD j (0, 0)
  if isIfg then phaseDiffFl A.fs A.tauS (elem wrap i l.1) (elem wrap i l.2)
  else
    let t := e.time.graph.links.getD i (0, 0)
    let ifg0 := phaseDiffFl A.fs A.tauS (elem wrap t.1 l.1) (elem wrap t.2 l.1)
    let ifg1 := phaseDiffFl A.fs A.tauS (elem wrap t.1 l.2) (elem wrap t.2 l.2)
    phaseDiffFl A.fs A.tauS ifg0 ifg1

/-- workflows/emcf/_solver.py:198-212: one row of `residues` from a `float32` accumulator, see
`linkResidues`. -/
def linkResiduesFl (A : FloatArith K) (m : Mcf) (g : Nat → K) : List ℤ :=
  let gradSum := (List.range m.graph.links.length).foldl (fun acc ii =>
    let r := m.dual.getD ii ⟨0, 0, 0, 0⟩
    let acc := acc.modify r.c0 (fun x => A.fs (x + (r.d0 : K) * g ii))
    if r.c1 ≠ 0 then acc.modify r.c1 (fun x => A.fs (x + (r.d1 : K) * g ii)) else acc)
    (List.replicate (m.graph.cycles.length + 1) (0 : K))
  let res := gradSum.map fun s => rint (A.fs (s / A.tauS))
  (- res.tail.sum) :: res.tail

/-- workflows/emcf/_solver.py:223-224: `grad_space += 2 * np.pi * flows.T`, added in `float64` and stored
in the `float32` array. -/
def addCyclesFl (A : FloatArith K) (g : K) (f : ℤ) : K := A.fs (A.fd (g + A.fd (A.tau * (f : K))))

/-- workflows/emcf/_solver.py:171-226: one batch of links, see `timeBatch`. -/
def timeBatchFl (A : FloatArith K) (solver : FlowSolver) (e : Emcf) (wrap : List (List K)) (isIfg : Bool)
    (cost : List ℤ) (order : List Nat → List Nat) (grad : Nat → Nat → K) (bb : Nat) :
    Except PyErr (Nat → Nat → K) :=
  let b := e.settings.linksPerBatch.toNat
  let iStart := bb * b
  let iEnd := min (iStart + b) e.nlinks
  let linksInBatch := iEnd - iStart
  if linksInBatch = 0 then .ok grad
  else
    let inds := (e.space.graph.links.drop iStart).take linksInBatch
    let ncols := (wrap.headD []).length
    if ¬ (inds.all fun l => l.1 < ncols ∧ l.2 < ncols) then .error .indexError
    else if isIfg ∧ wrap.length ≠ e.nifgs then .error .valueError
    else if ¬ isIfg ∧ ¬ (e.time.graph.links.all fun l => l.1 < wrap.length ∧ l.2 < wrap.length)
    then .error .indexError
    else do
      let grad1 : Nat → Nat → K := fun i j =>
        if iStart ≤ j ∧ j < iEnd then spaceGradFl A e wrap isIfg i j else grad i j
      let residues := (List.range linksInBatch).map fun k =>
        linkResiduesFl A e.time fun ii => grad1 ii (iStart + k)
      let flows ← residuesToFlowsMany solver e.time (e.time.graph.cycles.length + 1) residues
        cost none (poolWorkers e.cpuCount (some e.settings.tWorkerCount)) order
      pure fun i j =>
        if iStart ≤ j ∧ j < iEnd then addCyclesFl A (grad1 i j) ((flows.getD (j - iStart) []).getD i 0)
        else grad1 i j

/-- workflows/emcf/_solver.py:132-226 `unwrap_gradients_in_time`, see `unwrapInTime`. -/
def unwrapInTimeFl (A : FloatArith K) (solver : FlowSolver) (e : Emcf) (wrap : List (List K))
    (isIfg : Bool) (order : Nat → List Nat → List Nat) : Except PyErr (List (List K)) := do
  let cost ← costOf e.settings.tCostType e.nifgs e.tDist e.tCent
  let nbatches := (((e.nlinks : ℤ) - 1) / e.settings.linksPerBatch + 1).toNat
  let grad ← (List.range nbatches).foldlM (fun grad bb =>
    timeBatchFl A solver e wrap isIfg cost (order bb) grad bb) (fun _ _ => (0 : K))
  pure ((List.range e.nifgs).map fun i => (List.range e.nlinks).map fun j => grad i j)

/-- `np.add.at(acc, idx, vals)` with a `float32` accumulator (mcf/_ortools.py:168-169), see `addAt`. -/
def addAtFl (fl : K → K) (acc : List K) (idx : List Nat) (vals : List K) : List K :=
  (idx.zip vals).foldl (fun acc p => acc.modify p.1 (fun x => fl (x + p.2))) acc

/-- mcf/_ortools.py:150-176 `compute_residues_from_gradients`, see `computeResiduesFromGradients`. -/
def computeResiduesFromGradientsFl (A : FloatArith K) (m : Mcf) (graddata : List K) :
    Except PyErr (List ℤ) :=
  if graddata.length ≠ m.graph.links.length then .error .valueError
  else
    let gradSum := List.replicate (m.graph.cycles.length + 1) (0 : K)
    let gradSum := addAtFl A.fs gradSum (m.dual.map (·.c0))
      (List.zipWith (fun r g => (r.d0 : K) * g) m.dual graddata)
    let gradSum := addAtFl A.fs gradSum (m.dual.map (·.c1))
      (List.zipWith (fun r g => (r.d1 : K) * g) m.dual graddata)
    let res := gradSum.map fun s => rint (A.fs (s / A.tauS))
    .ok ((- (res.tail).sum) :: res.tail)

/-- workflows/emcf/_solver.py:322-332 `_unwrap_ifg_in_space`, see `unwrapIfg`: `flood_fill` adds
`float64` cycles to the `float32` gradients and sums in `float64` (mcf/utils.py:110, 148). -/
def unwrapIfgFl (A : FloatArith K) (solver : FlowSolver) (space : Mcf) (cost : List ℤ) (ifgGrad : List K) :
    Except PyErr (List K) := do
  let residues ← computeResiduesFromGradientsFl A space ifgGrad
  let flows ← residuesToFlows solver space residues cost
  floodFillFl A.fd A.tau A.tol ifgGrad space.graph.links flows "gradients"

/-- workflows/emcf/_solver.py:228-279 `unwrap_gradients_in_space`, see `unwrapInSpace`; a row is stored
in a `float32` array (lines 251, 278). -/
def unwrapInSpaceFl (A : FloatArith K) (solver : FlowSolver) (e : Emcf) (grad : List (List K))
    (order : List Nat → List Nat) : Except PyErr (List (List K)) := do
  let cost ← costOf e.settings.sCostType e.nlinks e.sDist e.sCent
  let uw := List.replicate e.nifgs (List.replicate e.npoints (0 : K))
  let _ ← processPool (spatialWorkers e.cpuCount e.settings.sWorkerCount)
  (order (List.range e.nifgs)).foldlM (fun uw ii => do
    let data ← unwrapIfgFl A solver e.space cost (grad.getD ii [])
    setRow uw e.npoints ii (data.map A.fs)) uw

/-- workflows/emcf/_solver.py:91-130 `unwrap_cube`, see `unwrapCube`. -/
def unwrapCubeFl (A : FloatArith K) (solver : FlowSolver) (e : Emcf) (w : CubeInput K)
    (orderT : Nat → List Nat → List Nat) (orderS : List Nat → List Nat) :
    Except PyErr (List (List K)) := do
  let isIfg ← cubeKind e w
  let grad ← unwrapInTimeFl A solver e w.data isIfg orderT
  unwrapInSpaceFl A solver e grad orderS

end

/-- Rounding to single precision (IEEE 754 binary32, round half to even), for numbers that neither
overflow nor underflow: 24 significant bits. -/
def flSingle (x : ℚ) : ℚ :=
  let ulp : ℚ := (2 : ℚ) ^ (Int.log 2 |x| - 23)
  (rint (x / ulp) : ℚ) * ulp

/-- `2 * np.pi` in single precision. -/
def twoPiSingle : ℚ := 13176795 / 2 ^ 21

end Spurt
