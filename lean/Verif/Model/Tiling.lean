import Verif.Model.Basic
import Verif.Model.Settings
import Mathlib.Data.Nat.Sqrt
import Mathlib.Analysis.Real.Sqrt
import Mathlib.Data.Int.Log

/-!
# Tiles (src/spurt/utils/_tiling.py, src/spurt/workflows/emcf/_tiling.py)
-/

namespace Spurt

/-- utils/_tiling.py:19-32 `BBox`. -/
structure BBox where
  xmin : ℤ
  ymin : ℤ
  xmax : ℤ
  ymax : ℤ
  deriving DecidableEq, Repr

/-- utils/_tiling.py:34-40 `BBox.from_shapely_bounds`. -/
def BBox.fromBounds (b : List ℤ) : Except PyErr BBox :=
  match b with
  | [x0, y0, x1, y1] => .ok ⟨x0, y0, x1, y1⟩
  | _ => .error .valueError

/-- utils/_tiling.py:42-49 `BBox.intersects`. -/
def BBox.intersects (s b : BBox) : Bool :=
  !(decide (s.xmax < b.xmin) || decide (s.xmin > b.xmax) || decide (s.ymin > b.ymax) ||
    decide (s.ymax < b.ymin))

/-- utils/_tiling.py:51-53 `BBox.tolist`. -/
def BBox.tolist (b : BBox) : List ℤ := [b.xmin, b.ymin, b.xmax, b.ymax]

/-- Python's `range(n)[start:stop]`: the indices that a slice of step one selects on an
axis of `n` elements; a negative bound counts from the end, then both are clipped. -/
def pySlice (n : Nat) (start stop : ℤ) : List Nat :=
  let clip := fun (v : ℤ) => min (max (if v < 0 then v + n else v) 0) n
  let a := (clip start).toNat
  List.range' a ((clip stop).toNat - a)

/-- utils/_tiling.py:55-58 `BBox.space`: the pixels `arr[box.space]` selects of an image of
the given shape, in row-major order. -/
def BBox.pixels (b : BBox) (shape : Nat × Nat) : List (Nat × Nat) :=
  (pySlice shape.1 b.xmin b.xmax).flatMap fun r =>
    (pySlice shape.2 b.ymin b.ymax).map fun c => (r, c)

/-- utils/_tiling.py:60-63 `BBox.count`. -/
def BBox.count (b : BBox) : ℤ := (b.xmax - b.xmin) * (b.ymax - b.ymin)

/-- utils/_tiling.py:66-87 `TileSet`. -/
structure TileSet where
  shape : ℤ × ℤ
  tiles : List BBox
  deriving DecidableEq, Repr

/-- The JSON values that occur in tiles.json. -/
inductive Json
  | num (n : ℤ)
  | arr (l : List Json)
  | obj (fields : List (String × Json))

/-- `jdict[key]`: the last field of that name wins; `KeyError` if there is none and
`TypeError` if the value is not an object. -/
def Json.get (j : Json) (key : String) : Except PyErr Json :=
  match j with
  | .obj fs => match fs.reverse.lookup key with
    | some v => .ok v
    | none => .error .keyError
  | _ => .error .typeError

/-- The elements of a JSON array; iterating over a number is a `TypeError` (an object would
be iterated over its keys, which then fails in `from_shapely_bounds` or `tt["bounds"]`). -/
def Json.elems (j : Json) : Except PyErr (List Json) :=
  match j with
  | .arr l => .ok l
  | _ => .error .typeError

/-- A JSON number. Python would accept other values here; `to_json` writes none. -/
def Json.int (j : Json) : Except PyErr ℤ :=
  match j with
  | .num n => .ok n
  | _ => .error .typeError

/-- utils/_tiling.py:102-113 `TileSet.to_json`, up to the text produced by `json.dumps`
(that `json.load` inverts it is not modelled). -/
def TileSet.toJson (t : TileSet) : Json :=
  .obj [("shape", .arr [.num t.shape.1, .num t.shape.2]),
        ("tiles", .arr (t.tiles.map fun tt => .obj [("bounds", .arr (tt.tolist.map .num))]))]

/-- utils/_tiling.py:97-98: one element of `jdict["tiles"]`. -/
def BBox.ofJson (tt : Json) : Except PyErr BBox := do
  BBox.fromBounds (← (← (← tt.get "bounds").elems).mapM Json.int)

/-- utils/_tiling.py:89-100 `TileSet.from_json`; the shape comes back as a list of two. -/
def TileSet.fromJson (j : Json) : Except PyErr TileSet := do
  let shape ← (← (← j.get "shape").elems).mapM Json.int
  let tiles ← (← (← j.get "tiles").elems).mapM BBox.ofJson
  match shape with
  | [a, b] => .ok ⟨(a, b), tiles⟩
  | _ => .error .valueError

/-- utils/_tiling.py:115-118 `TileSet.single_tile`. -/
def singleTile (shape : ℤ × ℤ) : TileSet := ⟨shape, [⟨0, 0, shape.1, shape.2⟩]⟩

/-- utils/_tiling.py:120-131 `TileSet.get_overlaps`. -/
def TileSet.getOverlaps (t : TileSet) : List (Nat × Nat) :=
  (List.range (t.tiles.length - 1)).flatMap fun ii =>
    ((List.range' (ii + 1) (t.tiles.length - (ii + 1))).filter fun jj =>
      (t.tiles.getD ii ⟨0, 0, 0, 0⟩).intersects (t.tiles.getD jj ⟨0, 0, 0, 0⟩)).map fun jj => (ii, jj)

section
variable {K : Type} [Field K] [LinearOrder K] [FloorRing K]

/-- Python's `int(x)` of a float: truncation towards zero. -/
def pyInt (x : K) : ℤ := if 0 ≤ x then ⌊x⌋ else ⌈x⌉

/-- utils/_tiling.py:139-147, one tile of `dilate`. `fl` is the rounding of the floating
point multiplication and addition (`id` for exact arithmetic). -/
def BBox.dilate (fl : K → K) (shape : ℤ × ℤ) (factor : K) (tt : BBox) : BBox :=
  let rdiff : K := ((tt.xmax - tt.xmin : ℤ) : K)
  let cdiff : K := ((tt.ymax - tt.ymin : ℤ) : K)
  ⟨pyInt (max 0 (fl ((tt.xmin : K) - fl (factor * rdiff)))),
   pyInt (max 0 (fl ((tt.ymin : K) - fl (factor * cdiff)))),
   pyInt (min (shape.1 : K) (fl ((tt.xmax : K) + fl (factor * rdiff)))),
   pyInt (min (shape.2 : K) (fl ((tt.ymax : K) + fl (factor * cdiff))))⟩

/-- utils/_tiling.py:133-149 `TileSet.dilate`. -/
def TileSet.dilate (fl : K → K) (t : TileSet) (factor : K) : TileSet :=
  ⟨t.shape, t.tiles.map fun tt => tt.dilate fl t.shape factor⟩

/-- `np.ogrid[0 : stop : 1j*(k+1)][i]` (utils/_tiling.py:179-180): numpy computes
`arange(k+1) * step + 0` with `step = stop / float(k)`; `fl` is the rounding of the
division and of the product. -/
def ogridAt (fl : K → K) (stop : ℤ) (k i : Nat) : K := fl ((i : K) * fl ((stop : K) / (k : K)))

/-- utils/_tiling.py:152-193 `create_tiles_regular`. `int(np.sqrt(n))` is the integer square
root (for `n` below `2^52`, where the rounding of `sqrt` cannot reach the next integer). -/
def createTilesRegular (fl : K → K) (shape : ℤ × ℤ) (maxTiles : ℤ) : Except PyErr TileSet :=
  if shape.1 ≤ 0 ∧ shape.2 ≤ 0 then .error .valueError
  else if maxTiles ≤ 0 then .error .valueError
  else
    let k := Nat.sqrt maxTiles.toNat
    if k = 1 then .ok (singleTile shape)
    else
      let row := fun i => pyInt (ogridAt fl shape.1 k i)
      let col := fun j => pyInt (ogridAt fl shape.2 k j)
      .ok ⟨shape, (List.range k).flatMap fun ii => (List.range k).map fun jj =>
        ⟨row ii, col jj, row (ii + 1), col (jj + 1)⟩⟩

/-- utils/_tiling.py:259-271 `_get_splits` for sorted `z`: cuts and their differences.
`int(len(z)/m) = 0` makes `np.arange` fail (zero step). -/
def getSplits (z : List K) (m : Nat) (bound : K × K) : Except PyErr (List K × List K) :=
  let n := z.length / m
  if n = 0 then .error .zeroDivisionError
  else
    let cuts := bound.1 :: ((List.range (m - 1)).map fun k =>
      (z.getD (k * n + n - 1) 0 + z.getD ((k + 1) * n) 0) / 2) ++ [bound.2]
    .ok (cuts, List.zipWith (fun a b => b - a) cuts cuts.tail)

/-- What `split_rectangle` uses to choose a cut: the score of `_score_rectangle`
(utils/_tiling.py:251-256), the sum of two scores, `np.argmin` and `<=` on scores. The
scores are floating-point numbers, possibly infinite or NaN, so all four are left open:
whatever they do, the properties below hold. -/
structure Scoring (K F : Type) where
  score : List K → List K → Nat → F
  add : F → F → F
  argmin : List F → Nat
  le : F → F → Bool

/-- utils/_tiling.py:274-283 `_find_best_split`. `np.argmin` of an empty array raises. -/
def findBestSplit {F : Type} (sc : Scoring K F) (lensC lensO : List K) (m : Nat) :
    Except PyErr (Nat × F) :=
  let scores := (List.range' 1 (lensC.length - 1)).map fun i =>
    sc.add (sc.score (lensC.take i) lensO i) (sc.score (lensC.drop i) lensO (m - i))
  if scores = [] then .error .valueError
  else match scores[sc.argmin scores]? with
    | some s => .ok (sc.argmin scores + 1, s)
    | none => .error .indexError

/-- utils/_tiling.py:286-328 `split_rectangle`. The recursion is bounded by `fuel`, which is
proved to be enough when it is at least `m`. No points: `list(zip(*points))` cannot be
unpacked. -/
def splitRectangle {F : Type} (sc : Scoring K F) :
    Nat → List (K × K) → (K × K) × (K × K) → Nat → Except PyErr (List ((K × K) × (K × K)))
  | 0, _, _, _ => .error .nonTermination
  | fuel + 1, points, bounds, m =>
    if m = 1 then .ok [bounds]
    else if points = [] then .error .valueError
    else do
      let xs := points.map Prod.fst
      let ys := points.map Prod.snd
      let (cutsX, lensX) ← getSplits (xs.mergeSort (· ≤ ·)) m bounds.1
      let (cutsY, lensY) ← getSplits (ys.mergeSort (· ≤ ·)) m bounds.2
      let (xi, xsc) ← findBestSplit sc lensX lensY m
      let (yi, ysc) ← findBestSplit sc lensY lensX m
      if sc.le xsc ysc then
        let cut := cutsX.getD xi 0
        let l ← splitRectangle sc fuel (points.filter fun p => p.1 ≤ cut)
          ((bounds.1.1, cut), bounds.2) xi
        let r ← splitRectangle sc fuel (points.filter fun p => ¬ p.1 ≤ cut)
          ((cut, bounds.1.2), bounds.2) (m - xi)
        pure (l ++ r)
      else
        let cut := cutsY.getD yi 0
        let l ← splitRectangle sc fuel (points.filter fun p => p.2 ≤ cut)
          (bounds.1, (bounds.2.1, cut)) yi
        let r ← splitRectangle sc fuel (points.filter fun p => ¬ p.2 ≤ cut)
          (bounds.1, (cut, bounds.2.2)) (m - yi)
        pure (l ++ r)

/-- utils/_tiling.py:238-246: one rectangle becomes a tile. -/
def splitToTile (shape : ℤ × ℤ) (s : (K × K) × (K × K)) : BBox :=
  ⟨pyInt (max 0 s.1.1), pyInt (max 0 s.2.1), pyInt (min (shape.1 : K) s.1.2),
   pyInt (min (shape.2 : K) s.2.2)⟩

/-- utils/_tiling.py:196-248 `create_tiles_density` for an N×2 integer array of points
(pixel coordinates; midpoints of integers are exact in double precision). -/
def createTilesDensity {F : Type} (sc : Scoring K F) (points : List (ℤ × ℤ)) (shape : ℤ × ℤ)
    (maxTiles : ℤ) : Except PyErr TileSet :=
  if shape.1 ≤ 0 ∧ shape.2 ≤ 0 then .error .valueError
  else if maxTiles ≤ 0 then .error .valueError
  else
    let k := Nat.sqrt maxTiles.toNat
    let m := k * k
    if m = 1 then .ok (singleTile shape)
    else do
      let splits ← splitRectangle sc m (points.map fun p => ((p.1 : K), (p.2 : K)))
        (((0 : K), ((shape.1 : ℤ) : K)), ((0 : K), ((shape.2 : ℤ) : K))) m
      pure ⟨shape, splits.map (splitToTile shape)⟩

end

/-- Rounding to double precision (IEEE 754 binary64, round half to even), for numbers that
neither overflow nor underflow: 53 significant bits. -/
def flDouble (x : ℚ) : ℚ :=
  let ulp : ℚ := (2 : ℚ) ^ (Int.log 2 |x| - 52)
  (rint (x / ulp) : ℚ) * ulp

/-- `a[::skip]` for `skip ≥ 1`. -/
def everyNth {α : Type*} (skip : Nat) (l : List α) : List α :=
  (List.range ((l.length + skip - 1) / skip)).filterMap fun i => l[i * skip]?

/-- workflows/emcf/_tiling.py:50-51: the number of tiles asked for. `np.sqrt` in exact real
arithmetic. -/
noncomputable def targetTiles (npts : Nat) (s : TilerSettings) : ℤ :=
  let n := rint (Real.sqrt ((npts : ℝ) / (s.targetPointsPerTile : ℝ)))
  min (max 1 (n * n)) s.maxTiles

/-- `np.column_stack(np.nonzero(arr))` (workflows/emcf/_tiling.py:41): the coordinates of
the true pixels in row-major order. -/
def nonzero (arr : List (List Bool)) : List (ℤ × ℤ) :=
  arr.zipIdx.flatMap fun rk => rk.1.zipIdx.filterMap fun ck =>
    if ck.1 then some ((rk.2 : ℤ), (ck.2 : ℤ)) else none

/-- workflows/emcf/_tiling.py:29-61: the tiles `get_tiles` writes, from the thresholded
coherence of an image of shape `(arr.length, ncols)`. The scores of the cuts are those of
`Scoring`; dilation is in the rounding `fl`. -/
noncomputable def makeTiles {F : Type} (sc : Scoring ℚ F) (fl : ℚ → ℚ) (useTiles : Bool)
    (s : TilerSettings) (ncols : Nat) (arr : List (List Bool)) : Except PyErr TileSet := do
  let shape : ℤ × ℤ := (arr.length, ncols)
  let tileset ←
    if ¬ useTiles then pure (singleTile shape)
    else do
      let pts := nonzero arr
      let skip := max 1 (pts.length / s.targetPointsForGeneration.toNat)
      createTilesDensity sc (everyNth skip pts) shape (targetTiles pts.length s)
  if tileset.tiles.length > 1 ∧ s.dilationFactor > 0 then
    pure (tileset.dilate fl s.dilationFactor)
  else pure tileset

end Spurt

namespace Spurt

/-- workflows/emcf/_tiling.py:12-65 `get_tiles` as seen through the file tiles.json: an
existing file is left alone. -/
noncomputable def getTilesFile {F : Type} (sc : Scoring ℚ F) (fl : ℚ → ℚ) (useTiles : Bool)
    (s : TilerSettings) (ncols : Nat) (arr : List (List Bool)) (file : Option Json) :
    Except PyErr Json :=
  match file with
  | some j => .ok j
  | none => do
    let t ← makeTiles sc fl useTiles s ncols arr
    pure t.toJson

end Spurt
