import Mathlib.Analysis.SpecialFunctions.Complex.Arg
import Verif.Model.UnwrapTile

/-!
# Complex input

The library takes wrapped phases as real numbers in radians or as complex numbers. The other modules model real input. Here the
branches for complex input are modelled, over `ℂ` and with the cycle `2π`: `phase_diff`, `compute_residues`, `flood_fill`,
`unwrap_one`, `unwrap_cube`, `read_tile` and the tile worker. `np.angle` is `Complex.arg` (0 for the number 0; the sign of a zero
and NaN are not modelled).
-/

namespace Spurt

open Complex

/-- mcf/utils.py:6-28 `phase_diff`, complex branch. -/
noncomputable def phaseDiffC (z0 z1 : ℂ) (model : ℝ := 0) : ℝ :=
  let p0 := arg z0
  let p1 := arg z1
  let d := p1 - p0 - model
  model + d - (rint (d / (2 * Real.pi)) : ℝ) * 2 * Real.pi

/-- mcf/_ortools.py:126-148 `compute_residues` for complex points, see `computeResidues`. -/
noncomputable def computeResiduesC (m : Mcf) (wrapdata : List ℂ) : Except PyErr (List ℤ) :=
  if wrapdata.length ≠ m.graph.npoints then .error .valueError
  else match m.graph.cycles with
    | [] => .error .indexError
    | cyc0 :: _ =>
      let ndim := cyc0.length
      if m.graph.cycles.all (fun c => c.all (fun p => p < wrapdata.length)) then
        let res := m.graph.cycles.map fun cyc =>
          rint (((List.range ndim).map fun col =>
            let nn := (col + 1) % ndim
            phaseDiffC (wrapdata.getD (cyc.getD col 0) 0) (wrapdata.getD (cyc.getD nn 0) 0)).sum / (2 * Real.pi))
        .ok ((- res.sum) :: res)
      else .error .indexError

/-- mcf/utils.py:41-186 `flood_fill(..., mode="points")` for complex points, see `floodFill`: `phase_diff` of complex numbers on the
links, and `np.angle` of the first number at the end (lines 179-184). -/
noncomputable def floodFillPointsC (indata : List ℂ) (links : List (Nat × Nat)) (flows : List ℤ) : Except PyErr (List ℝ) :=
  if links.length ≠ flows.length then .error .valueError
  else if links = [] then .error .valueError
  else
    let npts := maxLink links + 1
    if indata.length ≠ npts then .error .valueError
    else
      let grads : List ℝ := List.zipWith (fun (l : Nat × Nat) (f : ℤ) =>
        phaseDiffC (indata.getD l.1 0) (indata.getD l.2 0) + 2 * Real.pi * (f : ℝ)) links flows
      match ffLoop (nbrsOf links grads) npts ffInit with
      | .error e => .error e
      | .ok s =>
        if s.errs > 0 then .error .valueError
        else if (List.range npts).all s.done then .ok ((List.range npts).map fun p => s.unw p + arg (indata.getD 0 0))
        else .error .valueError

/-- mcf/_ortools.py:177-196 `unwrap_one` for complex points. -/
noncomputable def unwrapOneC (solver : FlowSolver) (m : Mcf) (wrapdata : List ℂ) (cost : List ℤ)
    (revcost : Option (List ℤ) := none) : Except PyErr (List ℝ × List ℤ) := do
  let residues ← computeResiduesC m wrapdata
  let flows ← residuesToFlows solver m residues cost (some (revcost.getD cost))
  let unw ← floodFillPointsC wrapdata m.graph.links flows
  pure (unw, flows)

/-- Element `a[i, j]` of a 2-D complex array after the bounds have been checked. -/
def elemC (a : List (List ℂ)) (i j : Nat) : ℂ := (a.getD i []).getD j 0

/-- Wrapped gradient of interferogram `i` along spatial link `j` for complex data, see `spaceGrad`.
Interferogram input: workflows/emcf/_solver.py:186-189.
SLC input: workflows/emcf/_solver.py:281-319; the outer `phase_diff` (line 319) is given real numbers. -/
noncomputable def spaceGradC (e : Emcf) (wrap : List (List ℂ)) (isIfg : Bool) (i j : Nat) : ℝ :=
  let l := e.space.graph.links.getD j (0, 0)
  if isIfg then phaseDiffC (elemC wrap i l.1) (elemC wrap i l.2)
  else
    let t := e.time.graph.links.getD i (0, 0)
    let ifg0 := phaseDiffC (elemC wrap t.1 l.1) (elemC wrap t.2 l.1)
    let ifg1 := phaseDiffC (elemC wrap t.1 l.2) (elemC wrap t.2 l.2)
    phaseDiff (2 * Real.pi) ifg0 ifg1

/-- workflows/emcf/_solver.py:171-226: one batch of links for complex data, see `timeBatch`. -/
noncomputable def timeBatchC (solver : FlowSolver) (e : Emcf) (wrap : List (List ℂ)) (isIfg : Bool)
    (cost : List ℤ) (order : List Nat → List Nat) (grad : Nat → Nat → ℝ) (bb : Nat) :
    Except PyErr (Nat → Nat → ℝ) :=
  let b := e.settings.linksPerBatch.toNat
  let iStart := bb * b
  let iEnd := min (iStart + b) e.nlinks
  let linksInBatch := iEnd - iStart
  if linksInBatch = 0 then .ok grad
  else
    let inds := (e.space.graph.links.drop iStart).take linksInBatch
    let ncols := (wrap.headD []).length
    if ¬ (inds.all fun l => l.1 < ncols ∧ l.2 < ncols) then .error .indexError
    else if isIfg ∧ wrap.length ≠ e.nifgs then .error .valueError
    else if ¬ isIfg ∧ ¬ (e.time.graph.links.all fun l => l.1 < wrap.length ∧ l.2 < wrap.length)
    then .error .indexError
    else do
      let grad1 : Nat → Nat → ℝ := fun i j =>
        if iStart ≤ j ∧ j < iEnd then spaceGradC e wrap isIfg i j else grad i j
      let residues := (List.range linksInBatch).map fun k =>
        linkResidues (2 * Real.pi) e.time fun ii => grad1 ii (iStart + k)
      let flows ← residuesToFlowsMany solver e.time (e.time.graph.cycles.length + 1) residues
        cost none (poolWorkers e.cpuCount (some e.settings.tWorkerCount)) order
      pure fun i j =>
        if iStart ≤ j ∧ j < iEnd then
          grad1 i j + 2 * Real.pi * (((flows.getD (j - iStart) []).getD i 0 : ℤ) : ℝ)
        else grad1 i j

/-- workflows/emcf/_solver.py:132-226 `unwrap_gradients_in_time` for complex data, see `unwrapInTime`. -/
noncomputable def unwrapInTimeC (solver : FlowSolver) (e : Emcf) (wrap : List (List ℂ))
    (isIfg : Bool) (order : Nat → List Nat → List Nat) : Except PyErr (List (List ℝ)) := do
  let cost ← costOf e.settings.tCostType e.nifgs e.tDist e.tCent
  let nbatches := (((e.nlinks : ℤ) - 1) / e.settings.linksPerBatch + 1).toNat
  let grad ← (List.range nbatches).foldlM (fun grad bb =>
    timeBatchC solver e wrap isIfg cost (order bb) grad bb) (fun _ _ => (0 : ℝ))
  pure ((List.range e.nifgs).map fun i => (List.range e.nlinks).map fun j => grad i j)

/-- workflows/emcf/_solver.py:104-122: how `unwrap_cube` reads complex data, see `cubeKind`. The checks do not look at the values. -/
def cubeKindC (e : Emcf) (ndim : Nat) (timeDim : ℤ) (data : List (List ℂ)) : Except PyErr Bool :=
  if ndim ≠ 2 then .error .valueError
  else if timeDim ≠ 0 then .error .notImplementedError
  else if data.length = e.nepochs then .ok false
  else if data.length = e.nifgs then .ok true
  else .error .valueError

/-- workflows/emcf/_solver.py:91-130 `unwrap_cube` for complex data. -/
noncomputable def unwrapCubeC (solver : FlowSolver) (e : Emcf) (ndim : Nat) (timeDim : ℤ) (data : List (List ℂ))
    (orderT : Nat → List Nat → List Nat) (orderS : List Nat → List Nat) : Except PyErr (List (List ℝ)) := do
  let isIfg ← cubeKindC e ndim timeDim data
  let grad ← unwrapInTimeC solver e data isIfg orderT
  unwrapInSpace (2 * Real.pi) solver e grad orderS

/-- workflows/emcf/_unwrap.py:101-104: the phase offset of the first pixel, per interferogram, for complex data. -/
noncomputable def phaseOffsetC (g : PlanarGraph) (data : List (List ℂ)) : List ℝ :=
  g.links.map fun t => phaseDiffC (elemC data t.1 0) (elemC data t.2 0)

/-- What a tile worker is given, see `TileJob`, with the complex image of each date as it is in the file. -/
structure ComplexJob where
  coh : Band (Option ℝ)
  thr : ℝ
  dates : List String
  slc : String → Option (Band ℂ)
  time : PlanarGraph
  settings : SolverSettings
  cpuCount : ℤ
  simplices : List (Nat × Nat) → List Tri
  tDist : Except PyErr (List ℤ)
  tCent : Except PyErr (List ℤ)
  sDist : List (Nat × Nat) → Except PyErr (List ℤ)
  sCent : List (Nat × Nat) → Except PyErr (List ℤ)

/-- workflows/emcf/_unwrap.py:59-121 `_unwrap_one_tile` and `_dump_tile_to_h5` on complex images, see `unwrapOneTile`. `read_tile`
(io/_slc_stack.py:176-202) fills in the complex number 1 for the reference date. -/
noncomputable def unwrapOneTileC (solver : FlowSolver) (j : ComplexJob) (tiles : TileSet) (t : Nat)
    (oT : Nat → List Nat → List Nat) (oS : List Nat → List Nat) : Except PyErr (TileFile ℝ) := do
  let tile ← (tiles.tiles[t]?).elim (.error .indexError) .ok
  let sTime ← ormcf j.time
  let pts := tilePoints j.coh j.thr tile
  let gSpace := delaunayGraph pts.length (j.simplices pts)
  let sSpace ← ormcf gSpace
  let e : Emcf := ⟨sSpace, sTime, j.settings, j.cpuCount, j.tDist, j.tCent, j.sDist pts, j.sCent pts⟩
  let wrapData := (readTile j.coh j.thr j.dates j.slc (1 : ℂ) tile).2
  if (wrapData.headD []).length ≠ gSpace.npoints then .error .assertionError
  else do
    let uw ← unwrapCubeC solver e 2 0 wrapData oT oS
    pure { uw := uw
           points := pts.map fun p => ((p.1 : ℤ), (p.2 : ℤ))
           tile := tile
           phaseOffset := phaseOffsetC j.time wrapData }

end Spurt
