import Verif.Model.FloatMerge
import Verif.Model.FloatBulk
import Verif.Model.Workflow

/-!
# The tile workers and the whole workflow in mixed precision

`workflows/emcf/_unwrap.py` and the order of the stages in `workflows/emcf/_cli.py`, with the roundings of
Model/FloatCube.lean, Model/FloatMerge.lean and Model/FloatBulk.lean.
-/

namespace Spurt

section
variable {K S : Type} [Field K] [LinearOrder K] [FloorRing K]

/-- workflows/emcf/_unwrap.py:101-104 and 121: the phase offset of the first pixel in `float32`, see `phaseOffset`. -/
def phaseOffsetFl (A : FloatArith K) (g : PlanarGraph) (data : List (List K)) : List K :=
  g.links.map fun t => phaseDiffFl A.fs A.tauS (elem data t.1 0) (elem data t.2 0)

/-- workflows/emcf/_unwrap.py:59-121 `_unwrap_one_tile` and `_dump_tile_to_h5` in mixed precision, see
`unwrapOneTile`: the images hold the `float32` phase `np.angle` gives for the `complex64` samples. -/
def unwrapOneTileFl (A : FloatArith K) (solver : FlowSolver) (j : TileJob K) (tiles : TileSet) (t : Nat)
    (oT : Nat → List Nat → List Nat) (oS : List Nat → List Nat) : Except PyErr (TileFile K) := do
  let tile ← (tiles.tiles[t]?).elim (.error .indexError) .ok
  let sTime ← ormcf j.time
  let pts := tilePoints j.coh j.thr tile
  let gSpace := delaunayGraph pts.length (j.simplices pts)
  let sSpace ← ormcf gSpace
  let e : Emcf := ⟨sSpace, sTime, j.settings, j.cpuCount, j.tDist, j.tCent, j.sDist pts, j.sCent pts⟩
  let wrapData := (readTile j.coh j.thr j.dates j.phase (0 : K) tile).2
  if (wrapData.headD []).length ≠ gSpace.npoints then .error .assertionError
  else do
    let uw ← unwrapCubeFl A solver e ⟨2, 0, wrapData⟩ oT oS
    pure { uw := uw
           points := pts.map fun p => ((p.1 : ℤ), (p.2 : ℤ))
           tile := tile
           phaseOffset := phaseOffsetFl A j.time wrapData }

/-- workflows/emcf/_cli.py:155-169: the stages one after the other on an empty output folder, without an
interruption (Model/Workflow.lean has the files and the interruptions). A stage gets what the stages before it wrote; with
a single tile there are no overlap and offset files. -/
noncomputable def workflowFl (A : FloatArith K) (atol rtol : K) (P : Flow K S)
    (oT : Nat → Nat → List Nat → List Nat) (oS : Nat → List Nat → List Nat) : Except PyErr (TileSet × MergeResult K) := do
  let tiles ← makeTiles P.sc P.fl P.useTiles P.tiler P.job.coh.cols P.mask
  let _ ← processPool P.job.settings.numParallelTiles
  let fs ← (List.range tiles.tiles.length).mapM fun t => unwrapOneTileFl A P.solver P.job tiles t (oT t) (oS t)
  let files := fun t => (fs[t]?).elim (.error .indexError) Except.ok
  let olap ← phasediffDecilesFl A atol rtol id P.merger.minOverlapPoints P.cc tiles files
  let olap := olap.getD ⟨[], [], []⟩
  let bulk ← bulkOffsetsFl A.fd P.mip P.lstsq P.merger.bulkMethod tiles P.job.coh P.job.thr olap
  let bulk := bulk.getD ⟨P.merger.bulkMethod, [], []⟩
  let r ← mergeTilesFl A ⟨P.lin, P.simplices, olap⟩ P.merger tiles files bulk P.job.time.links.length fun _ => false
  pure (tiles, r)

end

end Spurt
