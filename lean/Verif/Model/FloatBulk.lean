import Verif.Model.BulkOffset

/-!
# Bulk offsets in double precision

`workflows/emcf/_bulk_offset.py` and `l2_min` of `utils/merge.py`, see Model/BulkOffset.lean. `fd` rounds to `float64`. The
answer of `numpy.linalg.lstsq` is whatever the parameter `lstsq` gives.
-/

namespace Spurt

section
variable {K : Type} [Field K] [LinearOrder K]

/-- `amat.dot(x)` (utils/merge.py:130) with a rounding after every product and every addition, in the order of the columns;
BLAS may use another order. See `matDot`. -/
def matDotFl (fd : K → K) (a x : List (List K)) (ncols : Nat) : List (List K) :=
  a.map fun row => (List.range ncols).map fun b =>
    (List.zipWith (fun v xr => v * xr.getD b 0) row x).foldl (fun acc v => fd (acc + fd v)) 0

/-- utils/merge.py:93-130 `l2_min` in `float64`, see `l2Min`. -/
def l2MinFl (fd : K → K) (lstsq : Lstsq K) (amat b : List (List K)) (ncols : Nat) :
    Except PyErr (List (List K) × List (List K)) :=
  if amat.length ≠ b.length then .error .assertionError
  else
    let x := lstsq amat b
    .ok (x, List.zipWith (List.zipWith fun v w => fd (v - w)) b (matDotFl fd amat x ncols))

/-- workflows/emcf/_bulk_offset.py:98-140 `_solve_l2_min` in `float64`, see `solveL2Min`; `np.sum` adds up the
overlaps one after the other. -/
def solveL2MinFl (fd : K → K) (lstsq : Lstsq K) (olaps : List (Nat × Nat)) (off : List (List K)) (nbands ntiles : Nat)
    (counts : List Nat) : Except PyErr (List (List K) × List K) :=
  if ¬ (olaps.all fun p => decide (p.1 < ntiles ∧ p.2 < ntiles)) then .error .indexError
  else do
    let (x, res) ← l2MinFl fd lstsq (overlapMatrix olaps ntiles) off nbands
    let conn ← argmax counts
    pure ((List.range nbands).map fun b => (List.range ntiles).map fun t =>
        fd ((x.getD t []).getD b 0 - (x.getD conn []).getD b 0),
      (List.range nbands).map fun b => (res.map fun row => |row.getD b 0|).foldl (fun acc v => fd (acc + v)) 0)

/-- workflows/emcf/_bulk_offset.py:15-95 `get_bulk_offsets` in `float64`, see `bulkOffsets`; the integer method has no
roundings. -/
def bulkOffsetsFl {C : Type} [LinearOrder C] (fd : K → K) (mip : MipSolver) (lstsq : Lstsq K) (method : String)
    (tiles : TileSet) (coh : Band (Option C)) (thr : C) (f : OverlapFile) :
    Except PyErr (Option (BulkFile K)) :=
  if tiles.tiles.length = 1 then .ok none
  else do
    let offsets ← medianOffsets f
    let first ← (offsets[0]?).elim (.error .indexError) Except.ok
    let nbands := first.length
    let counts := tiles.tiles.map fun t => (tilePoints coh thr t).length
    if method = "integer" then do
      let rows ← (List.range nbands).mapM fun ii => do
        let off ← offsets.mapM fun x => (x[ii]?).elim (.error .indexError) Except.ok
        solveIntOffsets mip f.overlaps f.labels off counts
      pure (some ⟨method, rows.map fun r => r.1.map fun v => ((v : ℤ) : K), rows.map fun r => ((r.2 : ℤ) : K)⟩)
    else if method = "L2" then do
      if offsets.any fun x => decide (x.length ≠ nbands) then .error .valueError
      else do
        let r ← solveL2MinFl fd lstsq f.overlaps (offsets.map fun x => x.map fun v => ((v : ℤ) : K)) nbands
          tiles.tiles.length counts
        pure (some ⟨method, r.1, r.2⟩)
    else .error .runtimeError

end

end Spurt
