import Verif.Model.Overlap

/-!
# Bulk offsets between tiles (src/spurt/workflows/emcf/_bulk_offset.py, utils/merge.py)
-/

namespace Spurt

/-- `np.argmax` of a list: the first position of the largest value; `ValueError` when empty. -/
def argmax (l : List Nat) : Except PyErr Nat :=
  match l with
  | [] => .error .valueError
  | _ => .ok (l.idxOf (l.foldl max 0))

/-- The integer programme built by `_solve_int_offsets` (workflows/emcf/_bulk_offset.py:173-208):
integer variables `n` (one per tile, between -int32max and int32max) and `pf`, `nf` (one per
overlap, between 0 and int32max), a constraint per overlap, the tiles fixed to 0, and the sum of
all `pf` and `nf` to be minimised. -/
structure OffsetMip where
  npts : Nat
  cons : List ((Nat × Nat) × ℤ)
  fixed : List Nat
  deriving DecidableEq, Repr

/-- Values of the variables of an `OffsetMip`. -/
structure MipValues where
  n : List ℤ
  pf : List ℤ
  nf : List ℤ
  deriving DecidableEq, Repr

/-- The external integer solver: `none` when the status is not OPTIMAL. -/
abbrev MipSolver := OffsetMip → Option MipValues

/-- workflows/emcf/_bulk_offset.py:195-201: the tile with the most valid pixels of every
connected component. -/
def largestTiles (labels counts : List Nat) : Except PyErr (List Nat) :=
  if labels = [] then .error .valueError
  else (List.range (labels.foldl max 0 + 1)).mapM fun ii => do
    let conn := (List.range labels.length).filter fun t => decide (labels[t]? = some ii)
    let cs ← conn.mapM fun t => (counts[t]?).elim (.error .indexError) Except.ok
    let k ← argmax cs
    (conn[k]?).elim (.error .indexError) .ok

/-- workflows/emcf/_bulk_offset.py:143-222 `_solve_int_offsets`: the cycles per tile and the
value of the objective. The lists `olaps` and `off` have the same length. -/
def solveIntOffsets (solver : MipSolver) (olaps : List (Nat × Nat)) (labels : List Nat)
    (off : List ℤ) (counts : List Nat) : Except PyErr (List ℤ × ℤ) :=
  if ¬ (olaps.all fun p => decide (p.1 < labels.length ∧ p.2 < labels.length)) then .error .indexError
  else do
    let fixed ← largestTiles labels counts
    match solver ⟨labels.length, olaps.zip off, fixed⟩ with
    | none => .error .runtimeError
    | some v => pure (v.n, v.pf.sum + v.nf.sum)

section
variable {K : Type} [Field K] [LinearOrder K]

/-- The external `numpy.linalg.lstsq` on a matrix and a matrix of right-hand sides. -/
abbrev Lstsq (K : Type) := List (List K) → List (List K) → List (List K)

/-- A dense matrix product as in `amat.dot(x)`, `ncols` being the number of columns of `x`. -/
def matDot (a x : List (List K)) (ncols : Nat) : List (List K) :=
  a.map fun row => (List.range ncols).map fun b =>
    (List.zipWith (fun v xr => v * xr.getD b 0) row x).sum

/-- utils/merge.py:93-130 `l2_min` for a dense matrix and the two-dimensional right-hand side the
workflow passes: the minimiser and the residual `b - A x`. The early return for a matrix of size
zero, where `np.zeros` has one dimension only, is not reachable from `get_bulk_offsets`. -/
def l2Min (lstsq : Lstsq K) (amat b : List (List K)) (ncols : Nat) :
    Except PyErr (List (List K) × List (List K)) :=
  if amat.length ≠ b.length then .error .assertionError
  else
    let x := lstsq amat b
    .ok (x, List.zipWith (List.zipWith (· - ·)) b (matDot amat x ncols))

/-- workflows/emcf/_bulk_offset.py:125-131: the matrix with -1 and 1 at the two tiles of each
overlap. -/
def overlapMatrix (olaps : List (Nat × Nat)) (ntiles : Nat) : List (List K) :=
  olaps.map fun p => ((List.replicate ntiles (0 : K)).set p.1 (-1)).set p.2 1

/-- workflows/emcf/_bulk_offset.py:98-140 `_solve_l2_min`: one row of offsets per band, and the
sum of the absolute residuals per band. `off` has one row per overlap. -/
def solveL2Min (lstsq : Lstsq K) (olaps : List (Nat × Nat)) (off : List (List K)) (nbands ntiles : Nat)
    (counts : List Nat) : Except PyErr (List (List K) × List K) :=
  if ¬ (olaps.all fun p => decide (p.1 < ntiles ∧ p.2 < ntiles)) then .error .indexError
  else do
    let (x, res) ← l2Min lstsq (overlapMatrix olaps ntiles) off nbands
    let conn ← argmax counts
    pure ((List.range nbands).map fun b => (List.range ntiles).map fun t =>
        (x.getD t []).getD b 0 - (x.getD conn []).getD b 0,
      (List.range nbands).map fun b => (res.map fun row => |row.getD b 0|).sum)

/-- The bulk offset file: the group name, one row of offsets per band, one residual per band. -/
structure BulkFile (K : Type) where
  method : String
  offsets : List (List K)
  residuals : List K

/-- workflows/emcf/_bulk_offset.py:40-53: the median offsets of the recorded overlaps. -/
def medianOffsets (f : OverlapFile) : Except PyErr (List (List ℤ)) :=
  f.overlaps.mapM fun p =>
    match f.groups.find? fun g => decide (g.1 = p) with
    | none => .error .keyError
    | some g => g.2.stats.mapM fun row => (row[5]?).elim (.error .indexError) .ok

/-- workflows/emcf/_bulk_offset.py:15-95 `get_bulk_offsets` when the offsets file does not exist:
the file written, or `none` for a single tile. `coh`, `thr` are the coherence image and threshold
of the stack. A row of another length than the first one is refused, although numpy would broadcast
a row of length one; the rows written by `compute_phasediff_deciles` all have the same length. The
conversion of the integer results to `int32` is not modelled (C39 shows that the
tile offsets fit). -/
def bulkOffsets {C : Type} [LinearOrder C] (mip : MipSolver) (lstsq : Lstsq K) (method : String)
    (tiles : TileSet) (coh : Band (Option C)) (thr : C) (f : OverlapFile) :
    Except PyErr (Option (BulkFile K)) :=
  if tiles.tiles.length = 1 then .ok none
  else do
    let offsets ← medianOffsets f
    let first ← (offsets[0]?).elim (.error .indexError) Except.ok
    let nbands := first.length
    let counts := tiles.tiles.map fun t => (tilePoints coh thr t).length
    if method = "integer" then do
      let rows ← (List.range nbands).mapM fun ii => do
        let off ← offsets.mapM fun x => (x[ii]?).elim (.error .indexError) Except.ok
        solveIntOffsets mip f.overlaps f.labels off counts
      pure (some ⟨method, rows.map fun r => r.1.map fun v => ((v : ℤ) : K), rows.map fun r => ((r.2 : ℤ) : K)⟩)
    else if method = "L2" then do
      if offsets.any fun x => decide (x.length ≠ nbands) then .error .valueError
      else do
        let r ← solveL2Min lstsq f.overlaps (offsets.map fun x => x.map fun v => ((v : ℤ) : K)) nbands
          tiles.tiles.length counts
        pure (some ⟨method, r.1, r.2⟩)
    else .error .runtimeError

end

end Spurt
