import Verif.Model.Dirichlet
import Verif.Model.Emcf
import Verif.Model.BulkOffset

/-!
# Merging the tiles (src/spurt/workflows/emcf/_merge.py, _output.py)
-/

namespace Spurt

/-- `a[idx] = v` with a list of indices: for a repeated index the last value stays. -/
def fancySet {ι α : Type} [DecidableEq ι] (a : ι → α) (idx : List ι) (v : List α) : ι → α :=
  (idx.zip v).foldl (fun a p => Function.update a p.1 p.2) a

/-- numpy's treatment of an index into a dimension of length `n`: negative indices count from the
end, indices outside raise `IndexError`. -/
def normIdx (n : Nat) (i : ℤ) : Option Nat :=
  if 0 ≤ i ∧ i < n then some i.toNat else if -(n : ℤ) ≤ i ∧ i < 0 then some (i + n).toNat else none

/-- The pixels addressed by `arr[coords[:, 0], coords[:, 1]]`. -/
def pixelsOf (shape : Nat × Nat) (coords : List (ℤ × ℤ)) : Except PyErr (List (Nat × Nat)) :=
  coords.mapM fun c =>
    match normIdx shape.1 c.1, normIdx shape.2 c.2 with
    | some r, some q => .ok (r, q)
    | _, _ => .error .indexError

section
variable {K : Type} [Field K] [LinearOrder K] [FloorRing K]

/-! ### Adjusting the tiles -/

/-- What the merge step is given: the libraries, the triangulator, the overlap file. -/
structure MergeEnv (K : Type) where
  lin : LinSolver K
  simplices : List (ℤ × ℤ) → List Tri
  overlap : OverlapFile

/-- workflows/emcf/_output.py:98-106 `Tile.graph_laplacian`: the Laplacian of the Delaunay graph of
the tile. -/
def TileState.laplacian (env : MergeEnv K) (t : TileState K) : Except PyErr (SqMat K) := do
  let a ← graphLaplacian (delaunayGraph t.coords.length (env.simplices t.coords)).links
  pure ⟨a.n, fun i j => ((a.val i j : ℤ) : K)⟩

/-- workflows/emcf/_merge.py:137-144: the index lists for tile `ii` and its neighbour `jj`, in this
order. -/
def pairIdx (f : OverlapFile) (ii jj : Nat) : Except PyErr (List Nat × List Nat) :=
  if ii < jj then commonOverlap f ii jj
  else do
    let (j, i) ← commonOverlap f jj ii
    pure (i, j)

/-- workflows/emcf/_merge.py:138-146: one neighbour `jj` in the loop that adds up the overlaps of
tile `ii`. Index lists of different lengths are refused (numpy would also accept a list of length
one for `idx_j`). -/
def overlapSumStep (env : MergeEnv K) (tiles : List (TileState K)) (ii npts : Nat) (data : Arr K)
    (acc : (Nat → Nat) × Arr K) (jj : Nat) : Except PyErr ((Nat → Nat) × Arr K) := do
  let tj ← (tiles[jj]?).elim (.error .keyError) Except.ok
  let (idxI, idxJ) ← pairIdx env.overlap ii jj
  let uj ← tj.uwPhase
  if idxI.any fun p => decide (npts ≤ p ∨ data.cols ≤ p) then .error .indexError
  else if idxJ.any fun p => decide (uj.cols ≤ p) then .error .indexError
  else if idxI.length ≠ idxJ.length ∨ uj.rows ≠ data.rows then .error .valueError
  else
    let c := acc.1
    let s := acc.2
    .ok (fancySet c idxI (idxI.map fun p => c p + 1),
      ⟨s.rows, s.cols, fun k => fancySet (s.val k) idxI
        (List.zipWith (fun p q => s.val k p + uj.val k q) idxI idxJ)⟩)

/-- workflows/emcf/_merge.py:135-146: the number of tiles `c` at every point of tile `ii` and the
sum `s` of their phases. -/
def overlapSums (env : MergeEnv K) (tiles : List (TileState K)) (nbrs : List Nat) (ii npts : Nat)
    (data : Arr K) : Except PyErr ((Nat → Nat) × Arr K) :=
  nbrs.foldlM (overlapSumStep env tiles ii npts data) (fun _ => 1, data)

/-- workflows/emcf/_merge.py:128-164: the correction computed for tile `ii` at one degree of
overlap, or `none` when no point has this degree. -/
def tileCorrection (env : MergeEnv K) (tiles : List (TileState K)) (nbrs : List Nat) (ii degree : Nat)
    (t : TileState K) : Except PyErr (Option (Arr K)) :=
  if t.level ≠ 1 then .error .assertionError
  else do
    let data ← t.uwPhase
    let npts := t.coords.length
    let (c, s) ← overlapSums env tiles nbrs ii npts data
    if ¬ (List.range npts).any fun p => decide (degree ≤ c p) then pure none
    else if data.cols ≠ npts then .error .valueError
    else do
      let lap ← t.laplacian env
      let raw : Arr K := ⟨s.rows, s.cols, fun k p => s.val k p / (c p : K) - data.val k p⟩
      let corr ← dirichletGraph env.lin lap raw (fun p => decide (degree ≤ c p)) true
      pure (some corr)

/-- workflows/emcf/_merge.py:129-166: the body of the loop over the tiles at one degree of overlap.
The tiles are changed one after the other. -/
def correctStep (env : MergeEnv K) (omap : List (List Nat)) (degree : Nat) (ts : List (TileState K)) (ii : Nat) :
    Except PyErr (List (TileState K)) := do
  let t ← (ts[ii]?).elim (.error .keyError) Except.ok
  let nbrs ← (omap[ii]?).elim (.error .keyError) Except.ok
  let corr ← tileCorrection env ts nbrs ii degree t
  match corr with
  | none => pure ts
  | some a => do
    let t' ← t.call (.addCorrection (.arr2 a))
    pure (ts.set ii t')

/-- workflows/emcf/_merge.py:129-166: the loop over the tiles at one degree of overlap. -/
def correctTiles (env : MergeEnv K) (omap : List (List Nat)) (degree : Nat) (tiles : List (TileState K)) :
    Except PyErr (List (TileState K)) :=
  (List.range tiles.length).foldlM (correctStep env omap degree) tiles

/-- workflows/emcf/_merge.py:128-167: one degree of overlap, with the merging of the new
corrections at its end. -/
def adjustRound (env : MergeEnv K) (omap : List (List Nat)) (tiles : List (TileState K)) (degree : Nat) :
    Except PyErr (List (TileState K)) := do
  let ts ← correctTiles env omap degree tiles
  ts.mapM fun t => t.call .compressCorrections

/-- `range(int(max_degree), 1, -1)` (workflows/emcf/_merge.py:128). -/
def degrees (maxDegree : Nat) : List Nat := (List.range (maxDegree + 1)).reverse.filter fun d => decide (1 < d)

/-- workflows/emcf/_merge.py:112-174 `_adjust_tiles` (with `debug_stats=False`). -/
def adjustTiles (env : MergeEnv K) (omap : List (List Nat)) (maxDegree : Nat) (tiles : List (TileState K)) :
    Except PyErr (List (TileState K)) :=
  (degrees maxDegree).foldlM (adjustRound env omap) tiles

/-- workflows/emcf/_merge.py:222-232 `_get_max_degree`; the counter is an 8-bit integer. -/
def getMaxDegree (tiles : List (TileState K)) (shape : Nat × Nat) : Except PyErr Nat := do
  let count ← tiles.foldlM (fun (count : Nat × Nat → Nat) t => do
    let px ← pixelsOf shape t.coords
    pure (fancySet count px (px.map fun p => (count p + 1) % 256))) (fun _ => 0)
  if shape.1 * shape.2 = 0 then .error .valueError
  else pure ((((List.range shape.1).product (List.range shape.2)).map count).foldl max 0)

/-! ### Writing the output -/

/-- The three rasters written for one interferogram. -/
structure MergedBand (K : Type) where
  out : Band (Option K)
  diff : Band (Option K)
  model : Band (Option K)

/-- Accumulators of the averaging loop (workflows/emcf/_output.py:215-218); `none` is the infinite
starting value of `minval` and `maxval`. -/
structure MergeAcc (K : Type) where
  model : Nat × Nat → K
  cnt : Nat × Nat → Nat
  minval : Nat × Nat → Option K
  maxval : Nat × Nat → Option K

/-- One row of an array, checked against the coordinates it is written to. -/
def bandRow (a : Arr K) (ind npts : Nat) : Except PyErr (List K) :=
  if a.rows ≤ ind then .error .indexError
  else if a.cols ≠ npts then .error .valueError
  else .ok ((List.range npts).map fun p => a.val ind p)

/-- workflows/emcf/_output.py:221-231: one tile of the averaging loop. -/
def averageStep (shape : Nat × Nat) (ind : Nat) (acc : MergeAcc K) (t : TileState K) :
    Except PyErr (MergeAcc K) := do
  let px ← pixelsOf shape t.coords
  let u ← t.uwPhase
  let data ← bandRow u ind t.coords.length
  pure { minval := fancySet acc.minval px
           (List.zipWith (fun p d => some ((acc.minval p).elim d (min d))) px data)
         maxval := fancySet acc.maxval px
           (List.zipWith (fun p d => some ((acc.maxval p).elim d (max d))) px data)
         model := fancySet acc.model px (List.zipWith (fun p d => acc.model p + d) px data)
         cnt := fancySet acc.cnt px (px.map fun p => acc.cnt p + 1) }

/-- workflows/emcf/_output.py:240-248: one tile of the output loop. -/
def outputStep (tau : K) (shape : Nat × Nat) (ind : Nat) (model : Nat × Nat → K)
    (arr : Nat × Nat → Option K) (t : TileState K) : Except PyErr (Nat × Nat → Option K) := do
  let px ← pixelsOf shape t.coords
  let r ← t.rawUwPhase
  let raw ← bandRow r ind t.coords.length
  pure (fancySet arr px (List.zipWith (fun p x =>
    some (model p + (x - model p) - tau * (rint ((x - model p) / tau) : ℤ))) px raw))

/-- workflows/emcf/_output.py:190-298 `write_merged_band` when the output file does not exist.
Rounding to single precision and the 16-bit counter are not modelled. -/
def writeMergedBand (tau : K) (shape : Nat × Nat) (tiles : List (TileState K)) (idx : Nat) :
    Except PyErr (MergedBand K) :=
  if tiles.any fun t => decide (idx ∉ t.idx ∨ t.level ≠ 1) then .error .assertionError
  else do
    let last ← tiles.getLast?.elim (.error .runtimeError) Except.ok
    let ind := last.idx.idxOf idx
    let acc ← tiles.foldlM (averageStep shape ind) ⟨fun _ => 0, fun _ => 0, fun _ => none, fun _ => none⟩
    let mean := fun p => acc.model p / (acc.cnt p : K)
    let arr ← tiles.foldlM (outputStep tau shape ind mean) (fun _ => none)
    pure { out := ⟨shape.1, shape.2, fun r c => arr (r, c)⟩
           diff := ⟨shape.1, shape.2, fun r c =>
             if acc.cnt (r, c) < 2 then none
             else (acc.maxval (r, c)).bind fun a => (acc.minval (r, c)).map fun b => a - b⟩
           model := ⟨shape.1, shape.2, fun r c => if acc.cnt (r, c) = 0 then none else some (mean (r, c))⟩ }

/-- workflows/emcf/_output.py:148-187 `write_single_tile`, one band whose file does not exist. -/
def writeSingleBand (shape : Nat × Nat) (t : TileState K) (ii : Nat) :
    Except PyErr (TileState K × Band (Option K)) := do
  let t ← t.call (.resetBandIndex [ii])
  let px ← pixelsOf shape t.coords
  let r ← t.rawUwPhase
  let raw ← bandRow r 0 t.coords.length
  let arr := fancySet (fun _ => none) px (raw.map some)
  pure (t, ⟨shape.1, shape.2, fun r c => arr (r, c)⟩)

/-! ### The merge procedure -/

/-- The batches of interferogram numbers (workflows/emcf/_merge.py:62-77). `np.arange` with step 0
raises `ZeroDivisionError`. -/
def mergeBatches (numParallel : ℤ) (nifgs : Nat) : Except PyErr (List (List Nat)) :=
  let b := min numParallel nifgs
  let bs := if b < 1 then nifgs else b.toNat
  if bs = 0 then .error .zeroDivisionError
  else .ok ((List.range ((nifgs + bs - 1) / bs)).map fun k =>
    (List.range nifgs).filter fun i => decide (k * bs ≤ i ∧ i < k * bs + bs))

/-- workflows/emcf/_merge.py:95-98: prepare one tile for a batch. -/
def prepareTile (tau : K) (bulk : List (List K)) (idx : List Nat) (jj : Nat) (t : TileState K) :
    Except PyErr (TileState K) := do
  let t ← t.call (.resetBandIndex idx)
  let col ← idx.mapM fun i => ((bulk[i]?).bind fun row => row[jj]?).elim (.error .indexError) Except.ok
  let t ← t.call (.addCorrection (.arr1 (col.map fun o => -(tau * o))))
  t.call .incrementCorrection

/-- workflows/emcf/_merge.py:104-107: the rasters of one interferogram with its number. -/
def writeNumbered (tau : K) (shape : Nat × Nat) (tiles : List (TileState K)) (i : Nat) :
    Except PyErr (Nat × MergedBand K) := do
  let m ← writeMergedBand tau shape tiles i
  pure (i, m)

/-- workflows/emcf/_merge.py:80-107: one batch, given the bands whose output file exists. The new
state of the tiles and the rasters written. -/
def mergeBatch (tau : K) (env : MergeEnv K) (omap : List (List Nat)) (maxDegree : Nat)
    (bulk : List (List K)) (shape : Nat × Nat) (isFile : Nat → Bool) (tiles : List (TileState K))
    (batch : List Nat) : Except PyErr (List (TileState K) × List (Nat × MergedBand K)) := do
  let idx := batch.filter fun i => !isFile i
  if idx = [] then pure (tiles, [])
  else do
    let tiles ← tiles.zipIdx.mapM fun p => prepareTile tau bulk idx p.2 p.1
    let tiles ← adjustTiles env omap maxDegree tiles
    let out ← idx.mapM (writeNumbered tau shape tiles)
    pure (tiles, out)

/-- The result of `merge_tiles`: the rasters of a single tile, or those of the merged tiles, by
interferogram number. -/
inductive MergeResult (K : Type)
  | single (out : List (Nat × Band (Option K)))
  | merged (out : List (Nat × MergedBand K))

/-- workflows/emcf/_merge.py:16-109 `merge_tiles`: the rasters written, in order. `isFile i` says
whether the output file of interferogram `i` exists before; different interferograms have
different files (C48). `bulkFile` is the file of bulk offsets. The shape of a tile set is not
negative. -/
def mergeTiles (tau : K) (env : MergeEnv K) (settings : MergerSettings) (tiles : TileSet)
    (files : Nat → Except PyErr (TileFile K)) (bulkFile : BulkFile K) (nifgs : Nat)
    (isFile : Nat → Bool) : Except PyErr (MergeResult K) :=
  if settings.method ≠ "dirichlet" then .error .notImplementedError
  else do
    let shape := (tiles.shape.1.toNat, tiles.shape.2.toNat)
    let ts ← (List.range tiles.tiles.length).mapM fun ii => do
      let f ← files ii
      pure (TileState.start f)
    if tiles.tiles.length = 1 then do
      let t ← (ts[0]?).elim (.error .keyError) Except.ok
      let r ← ((List.range nifgs).filter fun i => !isFile i).foldlM
        (fun (acc : TileState K × List (Nat × Band (Option K))) ii => do
          let (t, b) ← writeSingleBand shape acc.1 ii
          pure (t, acc.2 ++ [(ii, b)])) (t, [])
      pure (.single r.2)
    else do
      let omap ← overlapMap env.overlap.labels.length env.overlap.overlaps
      let maxDegree ← getMaxDegree ts shape
      if bulkFile.method ≠ settings.bulkMethod then .error .keyError
      else do
        let batches ← mergeBatches settings.numParallelIfgs nifgs
        let r ← batches.foldlM
          (fun (acc : List (TileState K) × List (Nat × MergedBand K)) batch => do
            let (ts, out) ← mergeBatch tau env omap maxDegree bulkFile.offsets shape isFile
              acc.1 batch
            pure (ts, acc.2 ++ out)) (ts, [])
        pure (.merged r.2)

end

end Spurt
