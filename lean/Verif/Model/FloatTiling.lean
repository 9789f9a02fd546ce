import Verif.Model.Tiling

/-!
# Planning the tiles in floating point (utils/_tiling.py, workflows/emcf/_tiling.py)

The functions of Model/Tiling.lean on floating-point numbers: `fl` rounds the result of an operation,
`sq` is the rounded square root `np.sqrt`. Converting a floating-point number to `int` and rounding it to
a whole number are exact.
-/

namespace Spurt

/-- `int(np.sqrt(max_tiles))` (utils/_tiling.py:172, 227). -/
def tilesPerDimFl (sq : ℚ → ℚ) (maxTiles : ℤ) : ℤ := pyInt (sq (maxTiles : ℚ))

/-- utils/_tiling.py:259-271 `_get_splits`, see `getSplits`: `int(len(z) / m)`, the midpoints
`(end_val + beg_val) / 2`, and `np.diff`. -/
def getSplitsFl (fl : ℚ → ℚ) (z : List ℚ) (m : Nat) (bound : ℚ × ℚ) : Except PyErr (List ℚ × List ℚ) :=
  let n := (pyInt (fl ((z.length : ℚ) / (m : ℚ)))).toNat
  if n = 0 then .error .zeroDivisionError
  else
    let cuts := bound.1 :: ((List.range (m - 1)).map fun k =>
      fl (fl (z.getD (k * n + n - 1) 0 + z.getD ((k + 1) * n) 0) / 2)) ++ [bound.2]
    .ok (cuts, List.zipWith (fun a b => fl (b - a)) cuts cuts.tail)

/-- utils/_tiling.py:286-328 `split_rectangle`, see `splitRectangle`. -/
def splitRectangleFl {F : Type} (fl : ℚ → ℚ) (sc : Scoring ℚ F) :
    Nat → List (ℚ × ℚ) → (ℚ × ℚ) × (ℚ × ℚ) → Nat → Except PyErr (List ((ℚ × ℚ) × (ℚ × ℚ)))
  | 0, _, _, _ => .error .nonTermination
  | fuel + 1, points, bounds, m =>
    if m = 1 then .ok [bounds]
    else if points = [] then .error .valueError
    else do
      let xs := points.map Prod.fst
      let ys := points.map Prod.snd
      let (cutsX, lensX) ← getSplitsFl fl (xs.mergeSort (· ≤ ·)) m bounds.1
      let (cutsY, lensY) ← getSplitsFl fl (ys.mergeSort (· ≤ ·)) m bounds.2
      let (xi, xsc) ← findBestSplit sc lensX lensY m
      let (yi, ysc) ← findBestSplit sc lensY lensX m
      if sc.le xsc ysc then
        let cut := cutsX.getD xi 0
        let l ← splitRectangleFl fl sc fuel (points.filter fun p => p.1 ≤ cut)
          ((bounds.1.1, cut), bounds.2) xi
        let r ← splitRectangleFl fl sc fuel (points.filter fun p => ¬ p.1 ≤ cut)
          ((cut, bounds.1.2), bounds.2) (m - xi)
        pure (l ++ r)
      else
        let cut := cutsY.getD yi 0
        let l ← splitRectangleFl fl sc fuel (points.filter fun p => p.2 ≤ cut)
          (bounds.1, (bounds.2.1, cut)) yi
        let r ← splitRectangleFl fl sc fuel (points.filter fun p => ¬ p.2 ≤ cut)
          (bounds.1, (cut, bounds.2.2)) (m - yi)
        pure (l ++ r)

/-- utils/_tiling.py:196-248 `create_tiles_density`, see `createTilesDensity`. -/
def createTilesDensityFl {F : Type} (fl sq : ℚ → ℚ) (sc : Scoring ℚ F) (points : List (ℤ × ℤ)) (shape : ℤ × ℤ)
    (maxTiles : ℤ) : Except PyErr TileSet :=
  if shape.1 ≤ 0 ∧ shape.2 ≤ 0 then .error .valueError
  else if maxTiles ≤ 0 then .error .valueError
  else
    let k := (tilesPerDimFl sq maxTiles).toNat
    let m := k * k
    if m = 1 then .ok (singleTile shape)
    else do
      let splits ← splitRectangleFl fl sc m (points.map fun p => ((p.1 : ℚ), (p.2 : ℚ)))
        (((0 : ℚ), ((shape.1 : ℤ) : ℚ)), ((0 : ℚ), ((shape.2 : ℤ) : ℚ))) m
      pure ⟨shape, splits.map (splitToTile shape)⟩

/-- utils/_tiling.py:152-193 `create_tiles_regular`, see `createTilesRegular`. -/
def createTilesRegularFl (fl sq : ℚ → ℚ) (shape : ℤ × ℤ) (maxTiles : ℤ) : Except PyErr TileSet :=
  if shape.1 ≤ 0 ∧ shape.2 ≤ 0 then .error .valueError
  else if maxTiles ≤ 0 then .error .valueError
  else
    let k := (tilesPerDimFl sq maxTiles).toNat
    if k = 1 then .ok (singleTile shape)
    else
      let row := fun i => pyInt (ogridAt fl shape.1 k i)
      let col := fun j => pyInt (ogridAt fl shape.2 k j)
      .ok ⟨shape, (List.range k).flatMap fun ii => (List.range k).map fun jj =>
        ⟨row ii, col jj, row (ii + 1), col (jj + 1)⟩⟩

/-- workflows/emcf/_tiling.py:50-51, see `targetTiles`. -/
def targetTilesFl (fl sq : ℚ → ℚ) (npts : Nat) (s : TilerSettings) : ℤ :=
  let n := rint (sq (fl ((npts : ℚ) / (s.targetPointsPerTile : ℚ))))
  min (max 1 (n * n)) s.maxTiles

/-- workflows/emcf/_tiling.py:29-61: the tiles `get_tiles` writes, see `makeTiles`. -/
def makeTilesFl {F : Type} (fl sq : ℚ → ℚ) (sc : Scoring ℚ F) (useTiles : Bool)
    (s : TilerSettings) (ncols : Nat) (arr : List (List Bool)) : Except PyErr TileSet := do
  let shape : ℤ × ℤ := (arr.length, ncols)
  let tileset ←
    if ¬ useTiles then pure (singleTile shape)
    else do
      let pts := nonzero arr
      let skip := (max 1 (pyInt (fl ((pts.length : ℚ) / (s.targetPointsForGeneration : ℚ))))).toNat
      createTilesDensityFl fl sq sc (everyNth skip pts) shape (targetTilesFl fl sq pts.length s)
  if tileset.tiles.length > 1 ∧ s.dilationFactor > 0 then
    pure (tileset.dilate fl s.dilationFactor)
  else pure tileset

end Spurt
