import Verif.Model.Emcf
import Verif.Model.Overlap

/-!
# Unwrapping one tile (src/spurt/workflows/emcf/_unwrap.py)
-/

namespace Spurt

/-- What a tile worker is given (workflows/emcf/_unwrap.py:59-66): the stack (coherence image,
threshold, dates and the phase image of each date, `none` for the reference date), the temporal
graph, the solver settings, and what the worker obtains from its libraries: scipy's Delaunay
simplices of a point list, the number of CPUs and the costs on the two graphs. -/
structure TileJob (K : Type) where
  coh : Band (Option K)
  thr : K
  dates : List String
  phase : String → Option (Band K)
  time : PlanarGraph
  settings : SolverSettings
  cpuCount : ℤ
  simplices : List (Nat × Nat) → List Tri
  tDist : Except PyErr (List ℤ)
  tCent : Except PyErr (List ℤ)
  sDist : List (Nat × Nat) → Except PyErr (List ℤ)
  sCent : List (Nat × Nat) → Except PyErr (List ℤ)

section
variable {K : Type} [Field K] [LinearOrder K] [FloorRing K]

/-- workflows/emcf/_unwrap.py:59-121 `_unwrap_one_tile` and `_dump_tile_to_h5`: the tile file
written for tile `t`. The images hold the phase of the SLC samples (the phase of the constant 1
of the reference date is 0); a NaN phase and the rounding to 32-bit types are not modelled. -/
def unwrapOneTile (tau : K) (solver : FlowSolver) (j : TileJob K) (tiles : TileSet) (t : Nat)
    (oT : Nat → List Nat → List Nat) (oS : List Nat → List Nat) : Except PyErr (TileFile K) := do
  let tile ← (tiles.tiles[t]?).elim (.error .indexError) .ok
  let sTime ← ormcf j.time
  let pts := tilePoints j.coh j.thr tile
  let gSpace := delaunayGraph pts.length (j.simplices pts)
  let sSpace ← ormcf gSpace
  let e : Emcf := ⟨sSpace, sTime, j.settings, j.cpuCount, j.tDist, j.tCent, j.sDist pts, j.sCent pts⟩
  let wrapData := (readTile j.coh j.thr j.dates j.phase (0 : K) tile).2
  if (wrapData.headD []).length ≠ gSpace.npoints then .error .assertionError
  else do
    let uw ← unwrapCube tau solver e ⟨2, 0, wrapData⟩ oT oS
    pure { uw := uw
           points := pts.map fun p => ((p.1 : ℤ), (p.2 : ℤ))
           tile := tile
           phaseOffset := phaseOffset tau j.time wrapData }

end

end Spurt
