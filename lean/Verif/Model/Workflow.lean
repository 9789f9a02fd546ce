import Verif.Model.Merge
import Verif.Model.UnwrapTile
import Verif.Model.BulkOffset
import Verif.Model.Settings

/-!
# The EMCF workflow and its files (workflows/emcf/_cli.py:155-169)

Every stage reads the files of the earlier stages and writes its own. A stage is modelled by the
writes it performs, in order and per worker, so that a run can be stopped between any two of them.
-/

namespace Spurt

/-! ### Files -/

/-- The datasets of a tile file (workflows/emcf/_unwrap.py:110-121) present so far. -/
structure TileH5 (K : Type) where
  uw : Option (List (List K)) := none
  points : Option (List (ℤ × ℤ)) := none
  tile : Option BBox := none
  phaseOffset : Option (List K) := none

/-- The datasets of a group of the overlap file (workflows/emcf/_overlap.py:73-77) present so far. -/
structure GroupH5 where
  c1 : Option (List Nat) := none
  c2 : Option (List Nat) := none
  stats : Option (List (List ℤ)) := none

/-- The overlap file so far (workflows/emcf/_overlap.py:72-90). -/
structure OverlapH5 where
  groups : List ((Nat × Nat) × GroupH5) := []
  labels : Option (List Nat) := none
  overlaps : Option (List (Nat × Nat)) := none

/-- The bulk offset file so far (workflows/emcf/_bulk_offset.py:92-95). -/
structure OffsetsH5 (K : Type) where
  method : Option String := none
  offsets : Option (List (List K)) := none
  residuals : Option (List K) := none

/-- The files of the workflow. The outer `none` is a missing file, `some none` a JSON or GeoTIFF
file that was created and not completed. The rasters are numbered by interferogram; different
interferograms have different files (C48). The log file is not modelled. -/
structure Disk (K : Type) where
  tiles : Option (Option Json)
  tile : Nat → Option (TileH5 K)
  overlap : Option OverlapH5
  offsets : Option (OffsetsH5 K)
  unw : Nat → Option (Option (Band (Option K)))
  diff : Nat → Option (Option (Band (Option K)))
  model : Nat → Option (Option (Band (Option K)))

/-- No file. -/
def Disk.empty {K : Type} : Disk K :=
  ⟨none, fun _ => none, none, none, fun _ => none, fun _ => none, fun _ => none⟩

/-- One write: a file gets a new content. A file is created by its first write; a file opened for
writing starts empty (mode "w"), the overlap file is opened for appending (mode "a") by a stage
that runs only if it does not exist. -/
inductive Write (K : Type)
  | tiles (c : Option Json)
  | tile (t : Nat) (c : TileH5 K)
  | overlap (c : OverlapH5)
  | offsets (c : OffsetsH5 K)
  | unw (i : Nat) (c : Option (Band (Option K)))
  | diff (i : Nat) (c : Option (Band (Option K)))
  | model (i : Nat) (c : Option (Band (Option K)))

/-- The files after a write. -/
def Disk.set {K : Type} (d : Disk K) : Write K → Disk K
  | .tiles c => { d with tiles := some c }
  | .tile t c => { d with tile := Function.update d.tile t (some c) }
  | .overlap c => { d with overlap := some c }
  | .offsets c => { d with offsets := some c }
  | .unw i c => { d with unw := Function.update d.unw i (some c) }
  | .diff i c => { d with diff := Function.update d.diff i (some c) }
  | .model i c => { d with model := Function.update d.model i (some c) }

section
variable {K : Type}

/-! ### Writing each file -/

/-- utils/_tiling.py:102-113 `TileSet.to_json`: create the file, then dump. -/
def tilesUnit (j : Json) : List (Write K) := [.tiles none, .tiles (some j)]

/-- workflows/emcf/_unwrap.py:110-121 `_dump_tile_to_h5`: create the file, then one dataset after
the other. -/
def tileUnit (t : Nat) (f : TileFile K) : List (Write K) :=
  [.tile t {}, .tile t { uw := some f.uw }, .tile t { uw := some f.uw, points := some f.points },
    .tile t { uw := some f.uw, points := some f.points, tile := some f.tile },
    .tile t { uw := some f.uw, points := some f.points, tile := some f.tile, phaseOffset := some f.phaseOffset }]

/-- A complete group. -/
def GroupH5.full (g : OverlapGroup) : GroupH5 := ⟨some g.c1, some g.c2, some g.stats⟩

/-- workflows/emcf/_overlap.py:72-77: append one group after the complete groups `done`. -/
def groupWrites (done : List ((Nat × Nat) × OverlapGroup)) (g : (Nat × Nat) × OverlapGroup) : List (Write K) :=
  let base := done.map fun x => (x.1, GroupH5.full x.2)
  [{}, { c1 := some g.2.c1 }, { c1 := some g.2.c1, c2 := some g.2.c2 }, GroupH5.full g.2].map fun h =>
    .overlap { groups := base ++ [(g.1, h)] }

/-- workflows/emcf/_overlap.py:72-77 over the pairs recorded. -/
def groupsWrites (gs : List ((Nat × Nat) × OverlapGroup)) : List (Write K) :=
  (List.range gs.length).flatMap fun k => (gs[k]?).elim [] (groupWrites (gs.take k))

/-- workflows/emcf/_overlap.py:72-90: the overlap file is created for the first group, or at the end,
then come the groups, the labels and the list of pairs. -/
def overlapUnit (f : OverlapFile) : List (Write K) :=
  let base := f.groups.map fun x => (x.1, GroupH5.full x.2)
  [.overlap {}] ++ groupsWrites f.groups ++
    [.overlap { groups := base, labels := some f.labels },
     .overlap { groups := base, labels := some f.labels, overlaps := some f.overlaps }]

/-- workflows/emcf/_bulk_offset.py:92-95. -/
def offsetsUnit (f : BulkFile K) : List (Write K) :=
  [.offsets {}, .offsets { method := some f.method }, .offsets { method := some f.method, offsets := some f.offsets },
    .offsets { method := some f.method, offsets := some f.offsets, residuals := some f.residuals }]

/-- workflows/emcf/_output.py:250-298: the three rasters of an interferogram, each created and then
filled. -/
def bandUnit (i : Nat) (m : MergedBand K) : List (Write K) :=
  [.unw i none, .unw i (some m.out), .diff i none, .diff i (some m.diff), .model i none, .model i (some m.model)]

/-- workflows/emcf/_output.py:173-187: the raster of an interferogram of a single tile. -/
def singleUnit (i : Nat) (b : Band (Option K)) : List (Write K) := [.unw i none, .unw i (some b)]

/-! ### Reading -/

/-- `TileSet.from_json` (utils/_tiling.py:89-100) of the file tiles.json. -/
def Disk.readTiles (d : Disk K) : Except PyErr TileSet :=
  match d.tiles with
  | none => .error .fileNotFound
  | some none => .error .valueError
  | some (some j) => TileSet.fromJson j

/-- The datasets of a tile file as read by workflows/emcf/_overlap.py:93-107 and
workflows/emcf/_output.py:48-68. All four are asked for at once, although the first reader does not
use `tile`: the file is written in the order uw_data, points, tile, phase_offset, so a file without
`tile` has no `phase_offset`, which both readers use. -/
def TileH5.read (h : TileH5 K) : Except PyErr (TileFile K) :=
  match h with
  | ⟨some uw, some pts, some b, some off⟩ => .ok ⟨uw, pts, b, off⟩
  | _ => .error .keyError

/-- A tile file. -/
def Disk.readTile (d : Disk K) (t : Nat) : Except PyErr (TileFile K) :=
  match d.tile t with
  | none => .error .fileNotFound
  | some h => h.read

/-- A complete group; looking up a dataset of another one raises `KeyError`, as does looking up a
missing group. -/
def GroupH5.complete (g : (Nat × Nat) × GroupH5) : Option ((Nat × Nat) × OverlapGroup) :=
  match g with
  | (p, ⟨some a, some b, some s⟩) => some (p, ⟨a, b, s⟩)
  | _ => none

/-- The overlap file as read by workflows/emcf/_bulk_offset.py:40-52 and
workflows/emcf/_merge.py:180-219. -/
def Disk.readOverlap (d : Disk K) : Except PyErr OverlapFile :=
  match d.overlap with
  | none => .error .fileNotFound
  | some ⟨gs, some labels, some pairs⟩ => .ok ⟨gs.filterMap GroupH5.complete, labels, pairs⟩
  | some _ => .error .keyError

/-- workflows/emcf/_merge.py:57-60. The residuals are not read: they are left empty in the result. -/
def Disk.readOffsets (d : Disk K) : Except PyErr (BulkFile K) :=
  match d.offsets with
  | none => .error .fileNotFound
  | some ⟨some m, some o, _⟩ => .ok ⟨m, o, []⟩
  | some _ => .error .keyError

/-! ### Stages -/

/-- What a stage does, given the files it finds: per worker the files it writes one after the other,
each as a list of writes, and whether the stage ends with an exception. -/
structure Plan (K : Type) where
  tasks : List (List (List (Write K)))
  fails : Bool

/-- No write. -/
def Plan.skip : Plan K := ⟨[], false⟩

/-- An exception before any write. -/
def Plan.raise : Plan K := ⟨[], true⟩

/-- A stage: the plans possible on given files (several, because worker processes complete in any
order). -/
abbrev Stage (K : Type) := Disk K → Plan K → Prop

/-- What the workflow is given: the settings, the stack and the libraries. -/
structure Flow (K S : Type) where
  tau : K
  sc : Scoring ℚ S
  fl : ℚ → ℚ
  useTiles : Bool
  tiler : TilerSettings
  job : TileJob K
  solver : FlowSolver
  cc : Nat → List (Nat × Nat) → List Nat
  mip : MipSolver
  lstsq : Lstsq K
  merger : MergerSettings
  lin : LinSolver K
  simplices : List (ℤ × ℤ) → List Tri

end

section
variable {K S : Type} [Field K] [LinearOrder K] [FloorRing K]

/-- workflows/emcf/_tiling.py:31: the coherent pixels. -/
def Flow.mask (P : Flow K S) : List (List Bool) :=
  (P.job.coh.window ⟨0, 0, P.job.coh.rows, P.job.coh.cols⟩).map fun r => r.map (aboveThreshold P.job.thr)

/-- workflows/emcf/_tiling.py:12-65 `get_tiles`. -/
def Flow.tilesStage (P : Flow K S) : Stage K := fun d p =>
  if d.tiles.isSome then p = .skip
  else match makeTiles P.sc P.fl P.useTiles P.tiler P.job.coh.cols P.mask with
    | .error _ => p = .raise
    | .ok t => p = ⟨[[tilesUnit t.toJson]], false⟩

/-- The tiles without a file (workflows/emcf/_unwrap.py:37-41). -/
def missingTiles (d : Disk K) (n : Nat) : List Nat := (List.range n).filter fun t => (d.tile t).isNone

/-- workflows/emcf/_unwrap.py:18-56 `unwrap_tiles`: one task per missing tile. A worker that raises
writes nothing; the other workers complete and then the stage raises. `oT` and `oS` are the orders
in which the worker pools inside a tile complete. -/
def Flow.unwrapStage (P : Flow K S) : Stage K := fun d p =>
  match processPool P.job.settings.numParallelTiles, d.readTiles with
  | .ok _, .ok tiles => ∃ (oT : Nat → Nat → List Nat → List Nat) (oS : Nat → List Nat → List Nat),
      (∀ t k l, (oT t k l).Perm l) ∧ (∀ t l, (oS t l).Perm l) ∧
      let work := fun t => unwrapOneTile P.tau P.solver P.job tiles t (oT t) (oS t)
      p = ⟨(missingTiles d tiles.tiles.length).map fun t => match work t with
            | .ok f => [tileUnit t f]
            | .error _ => [],
          (missingTiles d tiles.tiles.length).any fun t => match work t with
            | .ok _ => false
            | .error _ => true⟩
  | _, _ => p = .raise

/-- workflows/emcf/_overlap.py:45-77: the loop up to the first exception. -/
def overlapRun (tau : K) (minPoints : ℤ) (load : Nat → Except PyErr (List (ℤ × ℤ) × List (List K))) :
    List (Nat × Nat) → OverlapState K → OverlapState K × Bool
  | [], s => (s, false)
  | p :: ps, s => match overlapStep id tau minPoints load s p with
    | .ok s' => overlapRun tau minPoints load ps s'
    | .error _ => (s, true)

/-- workflows/emcf/_overlap.py:15-90 `compute_phasediff_deciles`. -/
def Flow.overlapStage (P : Flow K S) : Stage K := fun d p =>
  if d.overlap.isSome then p = .skip
  else match d.readTiles with
    | .error _ => p = .raise
    | .ok tiles =>
      if tiles.tiles.length = 1 then p = .skip
      else
        let load := fun t => do
          let bb ← (tiles.tiles[t]?).elim (.error .indexError) .ok
          let f ← d.readTile t
          pure (loadUwTile f bb)
        let r := overlapRun P.tau P.merger.minOverlapPoints load tiles.getOverlaps ⟨none, none, []⟩
        let pairs := r.1.groups.map Prod.fst
        if r.2 then
          p = ⟨[[if r.1.groups = [] then [] else [.overlap {}] ++ groupsWrites r.1.groups]], true⟩
        else p = ⟨[[overlapUnit ⟨r.1.groups, P.cc tiles.tiles.length pairs, pairs⟩]], false⟩

/-- workflows/emcf/_bulk_offset.py:15-95 `get_bulk_offsets`. -/
def Flow.bulkStage (P : Flow K S) : Stage K := fun d p =>
  if d.offsets.isSome then p = .skip
  else match d.readTiles with
    | .error _ => p = .raise
    | .ok tiles =>
      if tiles.tiles.length = 1 then p = .skip
      else match (do
          let f ← d.readOverlap
          bulkOffsets P.mip P.lstsq P.merger.bulkMethod tiles P.job.coh P.job.thr f) with
        | .ok (some b) => p = ⟨[[offsetsUnit b]], false⟩
        | .ok none => p = .skip
        | .error _ => p = .raise

/-- workflows/emcf/_merge.py:104-107: the rasters of a batch, up to the first exception. -/
def writeRun (tau : K) (shape : Nat × Nat) (ts : List (TileState K)) : List Nat → List (Nat × MergedBand K) × Bool
  | [] => ([], false)
  | i :: l => match writeNumbered tau shape ts i with
    | .error _ => ([], true)
    | .ok x => (x :: (writeRun tau shape ts l).1, (writeRun tau shape ts l).2)

/-- workflows/emcf/_merge.py:80-107: one batch up to the first exception; the state of the tiles
after it, or `none`. -/
def batchRun (tau : K) (env : MergeEnv K) (omap : List (List Nat)) (maxDegree : Nat) (bulk : List (List K))
    (shape : Nat × Nat) (isFile : Nat → Bool) (tiles : List (TileState K)) (batch : List Nat) :
    List (Nat × MergedBand K) × Option (List (TileState K)) :=
  let idx := batch.filter fun i => !isFile i
  if idx = [] then ([], some tiles)
  else match (do
      let tiles ← tiles.zipIdx.mapM fun (p : TileState K × Nat) => prepareTile tau bulk idx p.2 p.1
      adjustTiles env omap maxDegree tiles) with
    | .error _ => ([], none)
    | .ok ts => ((writeRun tau shape ts idx).1, if (writeRun tau shape ts idx).2 then none else some ts)

/-- workflows/emcf/_merge.py:73-107: the batches up to the first exception. -/
def batchesRun (tau : K) (env : MergeEnv K) (omap : List (List Nat)) (maxDegree : Nat) (bulk : List (List K))
    (shape : Nat × Nat) (isFile : Nat → Bool) : List (List Nat) → List (TileState K) →
    List (Nat × MergedBand K) × Bool
  | [], _ => ([], false)
  | b :: bs, ts =>
    let r := batchRun tau env omap maxDegree bulk shape isFile ts b
    match r.2 with
    | none => (r.1, true)
    | some ts' =>
      let q := batchesRun tau env omap maxDegree bulk shape isFile bs ts'
      (r.1 ++ q.1, q.2)

/-- workflows/emcf/_output.py:148-187 `write_single_tile`, up to the first exception. -/
def singleRun (shape : Nat × Nat) : List Nat → TileState K → List (Nat × Band (Option K)) × Bool
  | [], _ => ([], false)
  | i :: l, t => match writeSingleBand shape t i with
    | .error _ => ([], true)
    | .ok (t', b) => ((i, b) :: (singleRun shape l t').1, (singleRun shape l t').2)

/-- workflows/emcf/_merge.py:16-109 `merge_tiles`: the files written, each as a list of writes, and
whether an exception ends the writing; or an exception before the first write. -/
def Flow.mergeWork (P : Flow K S) (d : Disk K) : Except PyErr (List (List (Write K)) × Bool) :=
  if P.merger.method ≠ "dirichlet" then .error .notImplementedError
  else do
    let tiles ← d.readTiles
    let shape := (tiles.shape.1.toNat, tiles.shape.2.toNat)
    let nifgs := P.job.time.links.length
    let isFile := fun i => (d.unw i).isSome
    let ts ← (List.range tiles.tiles.length).mapM fun ii => do
      let f ← d.readTile ii
      pure (TileState.start f)
    if tiles.tiles.length = 1 then do
      let t ← (ts[0]?).elim (.error .keyError) Except.ok
      let r := singleRun shape ((List.range nifgs).filter fun i => !isFile i) t
      pure (r.1.map fun x => singleUnit x.1 x.2, r.2)
    else do
      let olap ← d.readOverlap
      let omap ← overlapMap olap.labels.length olap.overlaps
      let maxDegree ← getMaxDegree ts shape
      let bulk ← d.readOffsets
      if bulk.method ≠ P.merger.bulkMethod then .error .keyError
      else do
        let batches ← mergeBatches P.merger.numParallelIfgs nifgs
        let r := batchesRun P.tau ⟨P.lin, P.simplices, olap⟩ omap maxDegree bulk.offsets shape isFile batches ts
        pure (r.1.map fun x => bandUnit x.1 x.2, r.2)

/-- workflows/emcf/_merge.py:16-109 `merge_tiles`. -/
def Flow.mergeStage (P : Flow K S) : Stage K := fun d p =>
  match P.mergeWork d with
  | .ok r => p = ⟨[r.1], r.2⟩
  | .error _ => p = .raise

/-- workflows/emcf/_cli.py:155-169: the stages in order. -/
def Flow.stages (P : Flow K S) : List (Stage K) :=
  [P.tilesStage, P.unwrapStage, P.overlapStage, P.bulkStage, P.mergeStage]

end

/-! ### Runs -/

/-- Workers execute their lists of actions, interleaved in any way, and may all be stopped at any
point: `true` for a completed execution. -/
inductive Exec {D X : Type} (act : D → X → D) : List (List X) → D → Bool → D → Prop
  | stop (ts : List (List X)) (d : D) : Exec act ts d false d
  | done (ts : List (List X)) (d : D) : (∀ t ∈ ts, t = []) → Exec act ts d true d
  | step {ts : List (List X)} {d d' : D} {b : Bool} (k : Nat) (x : X) (rest : List X) :
      ts[k]? = some (x :: rest) → Exec act (ts.set k rest) (act d x) b d' → Exec act ts d b d'

/-- How a run of the workflow ends: the process was stopped, an exception, or completion. -/
inductive Outcome
  | stopped | raised | completed
  deriving DecidableEq, Repr

/-- A run of the stages one after the other. `act` and `split` say what is done in one step: whole
files (`byFile`) or single writes (`byWrite`). -/
inductive Run {K X : Type} (act : Disk K → X → Disk K) (split : List (List (Write K)) → List X) :
    List (Stage K) → Disk K → Outcome → Disk K → Prop
  | finish (d : Disk K) : Run act split [] d .completed d
  | stopped {s : Stage K} {ss : List (Stage K)} {d d' : Disk K} {p : Plan K} :
      s d p → Exec act (p.tasks.map split) d false d' → Run act split (s :: ss) d .stopped d'
  | raised {s : Stage K} {ss : List (Stage K)} {d d' : Disk K} {p : Plan K} :
      s d p → p.fails = true → Exec act (p.tasks.map split) d true d' → Run act split (s :: ss) d .raised d'
  | next {s : Stage K} {ss : List (Stage K)} {d d' d'' : Disk K} {p : Plan K} {o : Outcome} :
      s d p → p.fails = false → Exec act (p.tasks.map split) d true d' → Run act split ss d' o d'' →
      Run act split (s :: ss) d o d''

/-- Runs that stop only between files (the three rasters of an interferogram count as one). -/
def RunByFile {K : Type} : List (Stage K) → Disk K → Outcome → Disk K → Prop :=
  Run (fun d u => u.foldl Disk.set d) id

/-- Runs that may stop between any two writes. -/
def RunByWrite {K : Type} : List (Stage K) → Disk K → Outcome → Disk K → Prop :=
  Run Disk.set List.flatten

end Spurt
