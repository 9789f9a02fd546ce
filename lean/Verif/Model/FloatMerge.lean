import Verif.Model.Merge
import Verif.Model.FloatCube

/-!
# Overlap statistics and merging in mixed precision

The functions of Model/Overlap.lean, Model/Tile.lean, Model/Dirichlet.lean and Model/Merge.lean with
the roundings numpy makes: the tile files, the corrections and the rasters are `float32`, the Dirichlet
problems and the bulk offsets are `float64`. `C70_exact_overlap` and `C70_exact_merge` give the functions
without rounding back. Divisions and multiplications of `float32` arrays by the Python number `2 * np.pi`
use its `float32` value.
-/

namespace Spurt

section
variable {K : Type} [Field K] [LinearOrder K] [FloorRing K]

/-! ### Overlap statistics -/

/-- utils/merge.py:79-84 in `float32`: the difference in cycles at one element. -/
def diffCyclesFl (A : FloatArith K) (b1 b2 : NdArray K) (i : List Nat) : K :=
  A.fs (A.fs (b2.get i - b1.get i) / A.tauS)

/-- utils/merge.py:84 in `float32`: the whole-cycle difference at one element, see `cycleDiff`. -/
def cycleDiffFl (A : FloatArith K) (b1 b2 : NdArray K) (i : List Nat) : ℤ := toInt16 (rint (diffCyclesFl A b1 b2 i))

/-- utils/merge.py:87: `np.allclose(diff, nint, atol=0.01)` at one element. numpy evaluates it in
`float64`; `atol` and `rtol` are the `float64` values of 0.01 and 1e-5. See `closeToCycle`. -/
def closeToCycleFl (A : FloatArith K) (atol rtol : K) (b1 b2 : NdArray K) (i : List Nat) : Bool :=
  let n : K := (cycleDiffFl A b1 b2 i : ℤ)
  decide (|A.fd (diffCyclesFl A b1 b2 i - n)| ≤ A.fd (atol + A.fd (rtol * |n|)))

/-- utils/merge.py:49-90 `pairwise_unwrapped_diff_deciles` of `float32` arrays, see `pairwiseDeciles`. The
percentiles of the integers are not rounded. -/
def pairwiseDecilesFl (A : FloatArith K) (atol rtol : K) (b1 b2 : NdArray K) : Except PyErr (List (List ℚ)) :=
  if b1.shape ≠ b2.shape then .error .valueError
  else match b1.shape with
    | [nb, n] =>
      if n < 11 then .error .valueError
      else if ¬ (cart [List.range nb, List.range n]).all (closeToCycleFl A atol rtol b1 b2) then
        .error .assertionError
      else .ok ((List.range nb).map fun r =>
        deciles ((List.range n).map fun c => cycleDiffFl A b1 b2 [r, c]))
    | _ => .error .valueError

/-- workflows/emcf/_overlap.py:93-107 `_load_uw_tile`: the sum is rounded, see `loadUwTile`. -/
def loadUwTileFl (A : FloatArith K) (f : TileFile K) (t : BBox) : List (ℤ × ℤ) × List (List K) :=
  (f.points.map fun p => (p.1 + t.xmin, p.2 + t.ymin),
    List.zipWith (fun row off => row.map fun x => A.fs (x + off)) f.uw f.phaseOffset)

/-- workflows/emcf/_overlap.py:45-77: one tile pair, see `overlapStep`. -/
def overlapStepFl (A : FloatArith K) (atol rtol : K) (wrap : ℤ → ℤ) (minPoints : ℤ)
    (load : Nat → Except PyErr (List (ℤ × ℤ) × List (List K))) (s : OverlapState K)
    (pair : Nat × Nat) : Except PyErr (OverlapState K) := do
  let (t1, pt1, uw1) ← refresh load s.held1 pair.1
  let (t2, pt2, uw2) ← refresh load s.held2 pair.2
  let (c1, c2) ← findCommonPoints wrap pt1 pt2
  if (c1.length : ℤ) < minPoints then
    pure ⟨some (t1, pt1, uw1), some (t2, pt2, uw2), s.groups⟩
  else do
    let stats ← pairwiseDecilesFl A atol rtol (selectColumns uw1 c1) (selectColumns uw2 c2)
    pure ⟨some (t1, pt1, uw1), some (t2, pt2, uw2),
      s.groups ++ [((t1, t2), ⟨c1, c2, stats.map fun r => r.map pyInt⟩)]⟩

/-- workflows/emcf/_overlap.py:15-90 `compute_phasediff_deciles` in mixed precision, see
`phasediffDeciles`. -/
def phasediffDecilesFl (A : FloatArith K) (atol rtol : K) (wrap : ℤ → ℤ) (minPoints : ℤ)
    (connectedComponents : Nat → List (Nat × Nat) → List Nat) (tiles : TileSet)
    (files : Nat → Except PyErr (TileFile K)) : Except PyErr (Option OverlapFile) :=
  if tiles.tiles.length = 1 then .ok none
  else do
    let load := fun t => do
      let bb ← (tiles.tiles[t]?).elim (.error .indexError) .ok
      let f ← files t
      pure (loadUwTileFl A f bb)
    let s ← tiles.getOverlaps.foldlM (overlapStepFl A atol rtol wrap minPoints load) ⟨none, none, []⟩
    let overlaps := s.groups.map Prod.fst
    pure (some ⟨s.groups, connectedComponents tiles.tiles.length overlaps, overlaps⟩)

/-! ### Class `Tile` -/

omit [LinearOrder K] [FloorRing K] in
/-- `a + b` of `float32` arrays with broadcasting, see `Arr.add`. -/
def Arr.addFl (fs : K → K) (a b : Arr K) : Except PyErr (Arr K) := do
  let c ← a.add b
  pure ⟨c.rows, c.cols, fun i j => fs (c.val i j)⟩

omit [LinearOrder K] [FloorRing K] in
/-- workflows/emcf/_output.py:61-68 `init_uw_data`: the sum is rounded, see `readBands`. -/
def readBandsFl (A : FloatArith K) (f : TileFile K) (idx : List Nat) : Except PyErr (Arr K) := do
  let a ← readBands f idx
  pure ⟨a.rows, a.cols, fun i j => A.fs (a.val i j)⟩

omit [LinearOrder K] [FloorRing K] in
/-- workflows/emcf/_output.py:75-81 `get_uw_phase`, `get_corrections_sum`: Python's `sum` starts with 0,
whose addition is exact, so the first rounded sum is that of two corrections. See
`TileState.getUwPhase`. -/
def TileState.getUwPhaseFl (A : FloatArith K) (t : TileState K) (level : Nat) : Except PyErr (Arr K) := do
  let d ← t.uwdata.elim (.error .typeError) .ok
  match t.corrections.take level with
  | [] => pure d
  | c :: cs => do
    let s ← cs.foldlM (Arr.addFl A.fs) c
    Arr.addFl A.fs d s

omit [LinearOrder K] [FloorRing K] in
/-- workflows/emcf/_output.py:88-91 `uw_phase`. -/
def TileState.uwPhaseFl (A : FloatArith K) (t : TileState K) : Except PyErr (Arr K) := t.getUwPhaseFl A t.level

omit [LinearOrder K] [FloorRing K] in
/-- workflows/emcf/_output.py:93-96 `raw_uw_phase`. -/
def TileState.rawUwPhaseFl (A : FloatArith K) (t : TileState K) : Except PyErr (Arr K) := t.getUwPhaseFl A 0

omit [LinearOrder K] [FloorRing K] in
/-- workflows/emcf/_output.py:108-145: one operation of class `Tile`, see `TileState.step`; only reading
the data and merging two corrections compute anything. -/
def TileState.stepFl (A : FloatArith K) (t : TileState K) : TileOp K → TileState K × Option PyErr
  | .resetBandIndex idx =>
    match readBandsFl A t.file idx with
    | .error e => ({ t with idx := idx }, some e)
    | .ok d => ({ t with idx := idx, uwdata := some d, level := 0, corrections := [] }, none)
  | .compressCorrections =>
    match t.corrections with
    | c0 :: c1 :: cs =>
      match c0.addFl A.fs ((c1 :: cs).getLast (by simp)) with
      | .error e => ({ t with corrections := c0 :: (c1 :: cs).dropLast }, some e)
      | .ok s => ({ t with corrections := s :: (c1 :: cs).dropLast },
          if 1 < (s :: (c1 :: cs).dropLast).length then some .runtimeError else none)
    | _ => (t, none)
  | o => t.step o

omit [LinearOrder K] [FloorRing K] in
/-- A call from code that does not catch the exception, see `TileState.call`. -/
def TileState.callFl (A : FloatArith K) (t : TileState K) (o : TileOp K) : Except PyErr (TileState K) :=
  match t.stepFl A o with
  | (t, none) => .ok t
  | (_, some e) => .error e

/-! ### Dirichlet problems -/

/-- utils/merge.py:334 `-amat[:, mask].dot(xf[kk, mask])[~mask]`: scipy adds up the stored entries of a
row in `float64`, column after column. See `freeRhs`. -/
def freeRhsFl (fd : K → K) (a : SqMat K) (mask : Nat → Bool) (xf : Nat → K) : List K :=
  (freeIdx a.n mask).map fun i =>
    -(((List.range a.n).filter fun j => mask j && decide (a.val i j ≠ 0)).foldl
      (fun acc j => fd (acc + fd (a.val i j * xf j))) 0)

/-- utils/merge.py:295-362 `dirichlet_graph` with logging: the right-hand side is `float64`, the answer of
`cg` is stored in a `float32` array. See `dirichletGraph`. -/
def dirichletGraphFl (A : FloatArith K) (lin : LinSolver K) (a : SqMat K) (xf : Arr K) (mask : Nat → Bool) :
    Except PyErr (Arr K) :=
  if a.n ≠ xf.cols then .error .assertionError
  else if ¬ lin.ilu (freeMat a mask) then .error .runtimeError
  else
    .ok ⟨xf.rows, xf.cols, fun kk p =>
      let b := freeRhsFl A.fd a mask (xf.val kk)
      if mask p then xf.val kk p
      else if b.all fun v => decide (v = 0) then 0
      else A.fs ((lin.cg (freeMat a mask) b).getD ((freeIdx a.n mask).idxOf p) 0)⟩

/-! ### Adjusting the tiles -/

/-- workflows/emcf/_merge.py:138-146: one neighbour, added to a `float32` array. See `overlapSumStep`. -/
def overlapSumStepFl (A : FloatArith K) (env : MergeEnv K) (tiles : List (TileState K)) (ii npts : Nat)
    (data : Arr K) (acc : (Nat → Nat) × Arr K) (jj : Nat) : Except PyErr ((Nat → Nat) × Arr K) := do
  let tj ← (tiles[jj]?).elim (.error .keyError) Except.ok
  let (idxI, idxJ) ← pairIdx env.overlap ii jj
  let uj ← tj.uwPhaseFl A
  if idxI.any fun p => decide (npts ≤ p ∨ data.cols ≤ p) then .error .indexError
  else if idxJ.any fun p => decide (uj.cols ≤ p) then .error .indexError
  else if idxI.length ≠ idxJ.length ∨ uj.rows ≠ data.rows then .error .valueError
  else
    let c := acc.1
    let s := acc.2
    .ok (fancySet c idxI (idxI.map fun p => c p + 1),
      ⟨s.rows, s.cols, fun k => fancySet (s.val k) idxI
        (List.zipWith (fun p q => A.fs (s.val k p + uj.val k q)) idxI idxJ)⟩)

/-- workflows/emcf/_merge.py:135-146, see `overlapSums`. -/
def overlapSumsFl (A : FloatArith K) (env : MergeEnv K) (tiles : List (TileState K)) (nbrs : List Nat)
    (ii npts : Nat) (data : Arr K) : Except PyErr ((Nat → Nat) × Arr K) :=
  nbrs.foldlM (overlapSumStepFl A env tiles ii npts data) (fun _ => 1, data)

/-- workflows/emcf/_merge.py:128-164: the average and the correction are `float32`, see
`tileCorrection`. -/
def tileCorrectionFl (A : FloatArith K) (env : MergeEnv K) (tiles : List (TileState K)) (nbrs : List Nat)
    (ii degree : Nat) (t : TileState K) : Except PyErr (Option (Arr K)) :=
  if t.level ≠ 1 then .error .assertionError
  else do
    let data ← t.uwPhaseFl A
    let npts := t.coords.length
    let (c, s) ← overlapSumsFl A env tiles nbrs ii npts data
    if ¬ (List.range npts).any fun p => decide (degree ≤ c p) then pure none
    else if data.cols ≠ npts then .error .valueError
    else do
      let lap ← t.laplacian env
      let raw : Arr K := ⟨s.rows, s.cols, fun k p => A.fs (A.fs (s.val k p / (c p : K)) - data.val k p)⟩
      let corr ← dirichletGraphFl A env.lin lap raw (fun p => decide (degree ≤ c p))
      pure (some corr)

/-- workflows/emcf/_merge.py:129-166, see `correctStep`. -/
def correctStepFl (A : FloatArith K) (env : MergeEnv K) (omap : List (List Nat)) (degree : Nat)
    (ts : List (TileState K)) (ii : Nat) : Except PyErr (List (TileState K)) := do
  let t ← (ts[ii]?).elim (.error .keyError) Except.ok
  let nbrs ← (omap[ii]?).elim (.error .keyError) Except.ok
  let corr ← tileCorrectionFl A env ts nbrs ii degree t
  match corr with
  | none => pure ts
  | some a => do
    let t' ← t.callFl A (.addCorrection (.arr2 a))
    pure (ts.set ii t')

/-- workflows/emcf/_merge.py:128-167: one degree of overlap, see `adjustRound`. -/
def adjustRoundFl (A : FloatArith K) (env : MergeEnv K) (omap : List (List Nat)) (tiles : List (TileState K))
    (degree : Nat) : Except PyErr (List (TileState K)) := do
  let ts ← (List.range tiles.length).foldlM (correctStepFl A env omap degree) tiles
  ts.mapM fun t => t.callFl A .compressCorrections

/-- workflows/emcf/_merge.py:112-174 `_adjust_tiles`, see `adjustTiles`. -/
def adjustTilesFl (A : FloatArith K) (env : MergeEnv K) (omap : List (List Nat)) (maxDegree : Nat)
    (tiles : List (TileState K)) : Except PyErr (List (TileState K)) :=
  (degrees maxDegree).foldlM (adjustRoundFl A env omap) tiles

/-! ### Writing the output -/

/-- workflows/emcf/_output.py:221-231: one tile of the averaging loop, see `averageStep`. -/
def averageStepFl (A : FloatArith K) (shape : Nat × Nat) (ind : Nat) (acc : MergeAcc K) (t : TileState K) :
    Except PyErr (MergeAcc K) := do
  let px ← pixelsOf shape t.coords
  let u ← t.uwPhaseFl A
  let data ← bandRow u ind t.coords.length
  pure { minval := fancySet acc.minval px
           (List.zipWith (fun p d => some ((acc.minval p).elim d (min d))) px data)
         maxval := fancySet acc.maxval px
           (List.zipWith (fun p d => some ((acc.maxval p).elim d (max d))) px data)
         model := fancySet acc.model px (List.zipWith (fun p d => A.fs (acc.model p + d)) px data)
         cnt := fancySet acc.cnt px (px.map fun p => acc.cnt p + 1) }

/-- workflows/emcf/_output.py:245-248: the value `x` of a tile wrapped around the model `m`. -/
def wrapAround (A : FloatArith K) (m x : K) : K :=
  let d := A.fs (x - m)
  A.fs (A.fs (m + d) - A.fs (A.tauS * (rint (A.fs (d / A.tauS)) : ℤ)))

/-- workflows/emcf/_output.py:240-248: one tile of the output loop, see `outputStep`. -/
def outputStepFl (A : FloatArith K) (shape : Nat × Nat) (ind : Nat) (model : Nat × Nat → K)
    (arr : Nat × Nat → Option K) (t : TileState K) : Except PyErr (Nat × Nat → Option K) := do
  let px ← pixelsOf shape t.coords
  let r ← t.rawUwPhaseFl A
  let raw ← bandRow r ind t.coords.length
  pure (fancySet arr px (List.zipWith (fun p x => some (wrapAround A (model p) x)) px raw))

/-- workflows/emcf/_output.py:190-298 `write_merged_band`, see `writeMergedBand`. -/
def writeMergedBandFl (A : FloatArith K) (shape : Nat × Nat) (tiles : List (TileState K)) (idx : Nat) :
    Except PyErr (MergedBand K) :=
  if tiles.any fun t => decide (idx ∉ t.idx ∨ t.level ≠ 1) then .error .assertionError
  else do
    let last ← tiles.getLast?.elim (.error .runtimeError) Except.ok
    let ind := last.idx.idxOf idx
    let acc ← tiles.foldlM (averageStepFl A shape ind) ⟨fun _ => 0, fun _ => 0, fun _ => none, fun _ => none⟩
    let mean := fun p => A.fs (acc.model p / (acc.cnt p : K))
    let arr ← tiles.foldlM (outputStepFl A shape ind mean) (fun _ => none)
    pure { out := ⟨shape.1, shape.2, fun r c => arr (r, c)⟩
           diff := ⟨shape.1, shape.2, fun r c =>
             if acc.cnt (r, c) < 2 then none
             else (acc.maxval (r, c)).bind fun a => (acc.minval (r, c)).map fun b => A.fs (a - b)⟩
           model := ⟨shape.1, shape.2, fun r c => if acc.cnt (r, c) = 0 then none else some (mean (r, c))⟩ }

/-- workflows/emcf/_output.py:148-187 `write_single_tile`, one band, see `writeSingleBand`. -/
def writeSingleBandFl (A : FloatArith K) (shape : Nat × Nat) (t : TileState K) (ii : Nat) :
    Except PyErr (TileState K × Band (Option K)) := do
  let t ← t.callFl A (.resetBandIndex [ii])
  let px ← pixelsOf shape t.coords
  let r ← t.rawUwPhaseFl A
  let raw ← bandRow r 0 t.coords.length
  let arr := fancySet (fun _ => none) px (raw.map some)
  pure (t, ⟨shape.1, shape.2, fun r c => arr (r, c)⟩)

/-! ### The merge procedure -/

/-- workflows/emcf/_merge.py:95-98: prepare one tile for a batch; `np.float32(-2 * np.pi * offsets)`. See
`prepareTile`. -/
def prepareTileFl (A : FloatArith K) (bulk : List (List K)) (idx : List Nat) (jj : Nat) (t : TileState K) :
    Except PyErr (TileState K) := do
  let t ← t.callFl A (.resetBandIndex idx)
  let col ← idx.mapM fun i => ((bulk[i]?).bind fun row => row[jj]?).elim (.error .indexError) Except.ok
  let t ← t.callFl A (.addCorrection (.arr1 (col.map fun o => A.fs (A.fd (-(A.tau * o))))))
  t.callFl A .incrementCorrection

/-- workflows/emcf/_merge.py:104-107: the rasters of one interferogram with its number. -/
def writeNumberedFl (A : FloatArith K) (shape : Nat × Nat) (tiles : List (TileState K)) (i : Nat) :
    Except PyErr (Nat × MergedBand K) := do
  let m ← writeMergedBandFl A shape tiles i
  pure (i, m)

/-- workflows/emcf/_merge.py:80-107: one batch, see `mergeBatch`. -/
def mergeBatchFl (A : FloatArith K) (env : MergeEnv K) (omap : List (List Nat)) (maxDegree : Nat)
    (bulk : List (List K)) (shape : Nat × Nat) (isFile : Nat → Bool) (tiles : List (TileState K))
    (batch : List Nat) : Except PyErr (List (TileState K) × List (Nat × MergedBand K)) := do
  let idx := batch.filter fun i => !isFile i
  if idx = [] then pure (tiles, [])
  else do
    let tiles ← tiles.zipIdx.mapM fun p => prepareTileFl A bulk idx p.2 p.1
    let tiles ← adjustTilesFl A env omap maxDegree tiles
    let out ← idx.mapM (writeNumberedFl A shape tiles)
    pure (tiles, out)

/-- workflows/emcf/_merge.py:16-109 `merge_tiles` in mixed precision, see `mergeTiles`. -/
def mergeTilesFl (A : FloatArith K) (env : MergeEnv K) (settings : MergerSettings) (tiles : TileSet)
    (files : Nat → Except PyErr (TileFile K)) (bulkFile : BulkFile K) (nifgs : Nat)
    (isFile : Nat → Bool) : Except PyErr (MergeResult K) :=
  if settings.method ≠ "dirichlet" then .error .notImplementedError
  else do
    let shape := (tiles.shape.1.toNat, tiles.shape.2.toNat)
    let ts ← (List.range tiles.tiles.length).mapM fun ii => do
      let f ← files ii
      pure (TileState.start f)
    if tiles.tiles.length = 1 then do
      let t ← (ts[0]?).elim (.error .keyError) Except.ok
      let r ← ((List.range nifgs).filter fun i => !isFile i).foldlM
        (fun (acc : TileState K × List (Nat × Band (Option K))) ii => do
          let (t, b) ← writeSingleBandFl A shape acc.1 ii
          pure (t, acc.2 ++ [(ii, b)])) (t, [])
      pure (.single r.2)
    else do
      let omap ← overlapMap env.overlap.labels.length env.overlap.overlaps
      let maxDegree ← getMaxDegree ts shape
      if bulkFile.method ≠ settings.bulkMethod then .error .keyError
      else do
        let batches ← mergeBatches settings.numParallelIfgs nifgs
        let r ← batches.foldlM
          (fun (acc : List (TileState K) × List (Nat × MergedBand K)) batch => do
            let (ts, out) ← mergeBatchFl A env omap maxDegree bulkFile.offsets shape isFile
              acc.1 batch
            pure (ts, acc.2 ++ out)) (ts, [])
        pure (.merged r.2)

end

end Spurt
