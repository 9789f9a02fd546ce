import Verif.Model.Io
import Verif.Model.Settings
import Mathlib.Data.List.Sort
import Mathlib.Data.List.Dedup

/-!
# Tile overlaps (src/spurt/utils/merge.py, workflows/emcf/_overlap.py)
-/

namespace Spurt

/-! ### Common points -/

/-- Signed 32-bit wrap-around of numpy's `int32` arithmetic. -/
def wrap32 (x : ℤ) : ℤ := (x + 2147483648) % 4294967296 - 2147483648

/-- `np.intersect1d(a, b, return_indices=True)[1:]`: for every common value, in increasing
order, the index of its first occurrence in `a` and in `b`. -/
def intersect1d (a b : List ℤ) : List Nat × List Nat :=
  let common := (a.dedup.filter fun v => decide (v ∈ b)).mergeSort (· ≤ ·)
  (common.map a.idxOf, common.map b.idxOf)

/-- utils/merge.py:17-46 `find_common_points`. `wrap` is the identity for unbounded integers
and `wrap32` for the 32-bit arrays the workflow passes. `np.min` of an empty array raises
`ValueError`, like the explicit checks. Since no coordinate is negative when the maximum is
taken, the maximum over a list starts from 0. -/
def findCommonPoints (wrap : ℤ → ℤ) (c1 c2 : List (ℤ × ℤ)) : Except PyErr (List Nat × List Nat) :=
  if c1 = [] ∨ c1.any fun p => decide (p.1 < 0 ∨ p.2 < 0) then .error .valueError
  else if c2 = [] ∨ c2.any fun p => decide (p.1 < 0 ∨ p.2 < 0) then .error .valueError
  else
    let m := wrap (1 + max ((c1.map Prod.snd).foldl max 0) ((c2.map Prod.snd).foldl max 0))
    let flat := fun p : ℤ × ℤ => wrap (wrap (p.1 * m) + p.2)
    .ok (intersect1d (c1.map flat) (c2.map flat))

/-! ### Statistics of the differences -/

/-- `.astype(np.int16)` of an integer (wrap-around outside the range). -/
def toInt16 (x : ℤ) : ℤ := (x + 32768) % 65536 - 32768

/-- One value of `np.percentile` (linear interpolation) of the sorted list `s` at `q` percent. Simplified:
the value is not rounded, and the difference of the two neighbouring entries is not wrapped to 16 bits
(the code passes an `int16` array, and numpy subtracts in the type of the array), so the model agrees with
the code where neighbouring entries of the sorted list are at most 32767 apart. -/
def percentileSorted (s : List ℤ) (q : ℚ) : ℚ :=
  let v := q / 100 * ((s.length : ℚ) - 1)
  let lo := ⌊v⌋
  let a : ℚ := (s.getD lo.toNat 0 : ℤ)
  let b : ℚ := (s.getD (min (lo.toNat + 1) (s.length - 1)) 0 : ℤ)
  a + (b - a) * (v - lo)

/-- utils/merge.py:89-90: `np.percentile(row, np.linspace(0.0, 100.0, 11))`. -/
def deciles (row : List ℤ) : List ℚ :=
  let s := row.mergeSort (· ≤ ·)
  (List.range 11).map fun (k : ℕ) => percentileSorted s (10 * k)

section
variable {K : Type} [Field K] [LinearOrder K] [FloorRing K]

/-- utils/merge.py:79-84: the whole-cycle difference at one element. -/
def cycleDiff (tau : K) (b1 b2 : NdArray K) (i : List Nat) : ℤ :=
  toInt16 (rint ((b2.get i - b1.get i) / tau))

/-- utils/merge.py:87: `np.allclose(diff, nint, atol=0.01)` at one element (`rtol` is 1e-5). -/
def closeToCycle (tau : K) (b1 b2 : NdArray K) (i : List Nat) : Bool :=
  let n : K := (cycleDiff tau b1 b2 i : ℤ)
  decide (|(b2.get i - b1.get i) / tau - n| ≤ 1 / 100 + 1 / 100000 * |n|)

/-- utils/merge.py:49-90 `pairwise_unwrapped_diff_deciles`: one row of 11 values per band. The
difference is not rounded to single precision. -/
def pairwiseDeciles (tau : K) (b1 b2 : NdArray K) : Except PyErr (List (List ℚ)) :=
  if b1.shape ≠ b2.shape then .error .valueError
  else match b1.shape with
    | [nb, n] =>
      if n < 11 then .error .valueError
      else if ¬ (cart [List.range nb, List.range n]).all (closeToCycle tau b1 b2) then
        .error .assertionError
      else .ok ((List.range nb).map fun r =>
        deciles ((List.range n).map fun c => cycleDiff tau b1 b2 [r, c]))
    | _ => .error .valueError

/-! ### Overlaps of the tiles of a tile set -/

/-- The contents of a tile file (workflows/emcf/_unwrap.py:110-121 `_dump_tile_to_h5`). -/
structure TileFile (K : Type) where
  uw : List (List K)
  points : List (ℤ × ℤ)
  tile : BBox
  phaseOffset : List K

/-- workflows/emcf/_overlap.py:93-107 `_load_uw_tile`. -/
def loadUwTile (f : TileFile K) (t : BBox) : List (ℤ × ℤ) × List (List K) :=
  (f.points.map fun p => (p.1 + t.xmin, p.2 + t.ymin),
    List.zipWith (fun row off => row.map (· + off)) f.uw f.phaseOffset)

/-- `uw[:, c]` as a 2-D array. -/
def selectColumns (uw : List (List K)) (c : List Nat) : NdArray K :=
  { shape := [uw.length, c.length]
    get := fun i => match i with
      | [r, k] => (uw.getD r []).getD (c.getD k 0) 0
      | _ => 0 }

/-- One group of the overlap file. -/
structure OverlapGroup where
  c1 : List Nat
  c2 : List Nat
  stats : List (List ℤ)
  deriving DecidableEq, Repr

/-- The overlap file: the groups in the order they were created, named by their tile pair. -/
structure OverlapFile where
  groups : List ((Nat × Nat) × OverlapGroup)
  labels : List Nat
  overlaps : List (Nat × Nat)
  deriving DecidableEq, Repr

/-- The tile held in memory by the loop: its number and its data (`none` for the number -1). -/
abbrev Held (K : Type) := Option (Nat × (List (ℤ × ℤ) × List (List K)))

/-- workflows/emcf/_overlap.py:47-50 and 52-55: reload only when the tile number changes. -/
def refresh (load : Nat → Except PyErr (List (ℤ × ℤ) × List (List K))) (held : Held K) (t : Nat) :
    Except PyErr (Nat × (List (ℤ × ℤ) × List (List K))) :=
  match held with
  | none => do
    let d ← load t
    pure (t, d)
  | some (u, d) =>
    if t ≠ u then do
      let d ← load t
      pure (t, d)
    else pure (u, d)

/-- State of the loop of `compute_phasediff_deciles`. -/
structure OverlapState (K : Type) where
  held1 : Held K
  held2 : Held K
  groups : List ((Nat × Nat) × OverlapGroup)

/-- workflows/emcf/_overlap.py:45-77: one tile pair. -/
def overlapStep (wrap : ℤ → ℤ) (tau : K) (minPoints : ℤ)
    (load : Nat → Except PyErr (List (ℤ × ℤ) × List (List K))) (s : OverlapState K)
    (pair : Nat × Nat) : Except PyErr (OverlapState K) := do
  let (t1, pt1, uw1) ← refresh load s.held1 pair.1
  let (t2, pt2, uw2) ← refresh load s.held2 pair.2
  let (c1, c2) ← findCommonPoints wrap pt1 pt2
  if (c1.length : ℤ) < minPoints then
    pure ⟨some (t1, pt1, uw1), some (t2, pt2, uw2), s.groups⟩
  else do
    let stats ← pairwiseDeciles tau (selectColumns uw1 c1) (selectColumns uw2 c2)
    pure ⟨some (t1, pt1, uw1), some (t2, pt2, uw2),
      s.groups ++ [((t1, t2), ⟨c1, c2, stats.map fun r => r.map pyInt⟩)]⟩

/-- workflows/emcf/_overlap.py:15-90 `compute_phasediff_deciles` when the overlap file does not
exist: the file written, or `none` for a single tile. `connectedComponents` is scipy's, given
the number of tiles and the edges. `files` is the tile file of each tile. -/
def phasediffDeciles (wrap : ℤ → ℤ) (tau : K) (minPoints : ℤ)
    (connectedComponents : Nat → List (Nat × Nat) → List Nat) (tiles : TileSet)
    (files : Nat → Except PyErr (TileFile K)) : Except PyErr (Option OverlapFile) :=
  if tiles.tiles.length = 1 then .ok none
  else do
    let load := fun t => do
      let bb ← (tiles.tiles[t]?).elim (.error .indexError) .ok
      let f ← files t
      pure (loadUwTile f bb)
    let s ← tiles.getOverlaps.foldlM (overlapStep wrap tau minPoints load) ⟨none, none, []⟩
    let overlaps := s.groups.map Prod.fst
    pure (some ⟨s.groups, connectedComponents tiles.tiles.length overlaps, overlaps⟩)

end

/-- workflows/emcf/_merge.py:180-205 `_get_overlap_map`: for every tile the list of tiles it
overlaps with. -/
def overlapMap (npts : Nat) (olaps : List (Nat × Nat)) : Except PyErr (List (List Nat)) :=
  olaps.foldlM (fun m edge =>
    if edge.1 < npts ∧ edge.2 < npts then
      let m := m.set edge.1 (m.getD edge.1 [] ++ [edge.2])
      .ok (m.set edge.2 (m.getD edge.2 [] ++ [edge.1]))
    else .error .keyError) (List.replicate npts [])

/-- workflows/emcf/_merge.py:208-219 `_get_common_overlap`: the stored index lists of a pair. -/
def commonOverlap (f : OverlapFile) (ii jj : Nat) : Except PyErr (List Nat × List Nat) :=
  match f.groups.find? fun g => decide (g.1 = (ii, jj)) with
  | some g => .ok (g.2.c1, g.2.c2)
  | none => .error .keyError

end Spurt
