import Verif.Model.Tiling
import Mathlib.Data.String.Basic

/-!
# Inputs (src/spurt/io/_three_d.py, _raster.py, _slc_stack.py)
-/

namespace Spurt

/-- A numpy array: its shape and its elements by multi-index. -/
structure NdArray (α : Type) where
  shape : List Nat
  get : List Nat → α

/-- The multi-indices with the given index list on each axis, last axis fastest (C order). -/
def cart : List (List Nat) → List (List Nat)
  | [] => [[]]
  | ax :: rest => ax.flatMap fun i => (cart rest).map fun t => i :: t

/-- `np.ravel(data[ind])` where `ind` selects the given indices on each axis. -/
def NdArray.ravelAt {α : Type} (a : NdArray α) (axes : List (List Nat)) : List α :=
  (cart axes).map a.get

/-- Python's `shape[i]` of a tuple; a negative index counts from the end. -/
def pyItem {α : Type} (l : List α) (i : ℤ) : Except PyErr α :=
  let j := if i < 0 then i + l.length else i
  if j < 0 then .error .indexError
  else match l[j.toNat]? with
    | some v => .ok v
    | none => .error .indexError

/-- io/_three_d.py:16-56 `Reg3DInput`. -/
structure Reg3DInput (α : Type) where
  data : NdArray α
  timeDim : ℤ

/-- io/_three_d.py:24-56 `Reg3DInput.__init__`. -/
def Reg3DInput.new {α : Type} (data : NdArray α) (timeDim : ℤ) : Except PyErr (Reg3DInput α) :=
  if data.shape.length ≠ 3 then .error .valueError
  else if timeDim ≥ data.shape.length then .error .valueError
  else .ok ⟨data, timeDim⟩

/-- io/_three_d.py:70-73 `Reg3DInput.time_dim`. -/
def Reg3DInput.time_dim {α : Type} (x : Reg3DInput α) : Nat := if x.timeDim > 0 then 1 else 0

/-- io/_three_d.py:75-78 `Reg3DInput.space_dim`. -/
def Reg3DInput.space_dim {α : Type} (x : Reg3DInput α) : Nat := if x.timeDim = 0 then 1 else 0

/-- io/_three_d.py:80-84 `Reg3DInput._space_shape`. -/
def Reg3DInput.spaceShape {α : Type} (x : Reg3DInput α) : List Nat :=
  (x.data.shape.zipIdx.filter fun p => decide ((p.2 : ℤ) ≠ x.timeDim)).map Prod.fst

/-- io/_three_d.py:86-88 `Reg3DInput._space_size`. -/
def Reg3DInput.spaceSize {α : Type} (x : Reg3DInput α) : Nat := x.spaceShape.prod

/-- io/_three_d.py:90-92 `Reg3DInput._time_size`. -/
def Reg3DInput.timeSize {α : Type} (x : Reg3DInput α) : Except PyErr Nat :=
  pyItem x.data.shape x.timeDim

/-- io/_three_d.py:94-99 `Reg3DInput.shape`. -/
def Reg3DInput.shape {α : Type} (x : Reg3DInput α) : Except PyErr (List Nat) := do
  let t ← x.timeSize
  if x.time_dim ≠ 0 then pure [x.spaceSize, t] else pure [t, x.spaceSize]

/-- io/_three_d.py:101-107 `Reg3DInput.xcoords`. -/
def Reg3DInput.xcoords {α : Type} (x : Reg3DInput α) : List Nat :=
  (List.range x.data.shape.prod).map fun k => k % x.spaceShape.getD 1 1

/-- io/_three_d.py:109-115 `Reg3DInput.ycoords`. -/
def Reg3DInput.ycoords {α : Type} (x : Reg3DInput α) : List Nat :=
  (List.range x.data.shape.prod).map fun k => k / x.spaceShape.getD 1 1

/-- io/_three_d.py:117-126 `Reg3DInput.get_time_slice`. -/
def Reg3DInput.getTimeSlice {α : Type} (x : Reg3DInput α) (key : ℤ) : List α :=
  x.data.ravelAt (x.data.shape.zipIdx.map fun p =>
    if (p.2 : ℤ) ≠ x.timeDim then List.range p.1 else pySlice p.1 key (key + 1))

/-- `np.unravel_index(key, shape)` in C order; `ValueError` when the key is out of range. -/
def unravelIndex (key : Nat) (shape : List Nat) : Except PyErr (List Nat) :=
  if key < shape.prod then .ok (go key shape) else .error .valueError
where
  /-- Mixed-radix digits, most significant first. -/
  go : Nat → List Nat → List Nat
  | _, [] => []
  | k, _ :: rest => k / rest.prod :: go (k % rest.prod) rest

/-- Python's `list.insert(i, v)`: a negative position counts from the end, then clipped. -/
def pyInsert {α : Type} (l : List α) (i : ℤ) (v : α) : List α :=
  let j := (min (max (if i < 0 then i + l.length else i) 0) l.length).toNat
  l.take j ++ v :: l.drop j

/-- io/_three_d.py:128-138 `Reg3DInput.get_spatial_slice`. The full slice is inserted at the
time axis, and takes the length of the axis it lands on; further axes (possible only with a
negative time axis) would be taken whole. -/
def Reg3DInput.getSpatialSlice {α : Type} (x : Reg3DInput α) (key : Nat) : Except PyErr (List α) := do
  let pos ← unravelIndex key x.spaceShape
  let ind : List (Option Nat) := pyInsert (pos.map some) x.timeDim none
  if ind.length > x.data.shape.length then .error .indexError
  else
    let axes := (x.data.shape.zip ind).map fun p =>
      match p.2 with
      | none => List.range p.1
      | some v => pySlice p.1 v (v + 1)
    pure (x.data.ravelAt axes)

/-- io/_three_d.py:141-198 `Irreg3DInput`. -/
structure Irreg3DInput (α β : Type) where
  data : NdArray α
  xy : NdArray β
  timeDim : ℤ

/-- io/_three_d.py:148-198 `Irreg3DInput.__init__`. -/
def Irreg3DInput.new {α β : Type} (data : NdArray α) (xy : NdArray β) (timeDim : ℤ) :
    Except PyErr (Irreg3DInput α β) :=
  if data.shape.length ≠ 2 then .error .valueError
  else if xy.shape.length ≠ 2 then .error .valueError
  else if timeDim ≥ data.shape.length then .error .valueError
  else do
    let n ← pyItem xy.shape 0
    let m ← pyItem data.shape (1 - timeDim)
    if n ≠ m then .error .valueError
    else pure ⟨data, xy, timeDim⟩

/-- io/_three_d.py:216-218 `Irreg3DInput.space_dim`. -/
def Irreg3DInput.space_dim {α β : Type} (x : Irreg3DInput α β) : ℤ := 1 - x.timeDim

/-- io/_three_d.py:228-230 `Irreg3DInput.shape`. -/
def Irreg3DInput.shape {α β : Type} (x : Irreg3DInput α β) : List Nat := x.data.shape

/-- io/_three_d.py:232-235 `Irreg3DInput.xcoords` (as the flat list of an N×1 array). -/
def Irreg3DInput.xcoords {α β : Type} (x : Irreg3DInput α β) : List β :=
  x.xy.ravelAt [List.range (x.xy.shape.getD 0 0), pySlice (x.xy.shape.getD 1 0) 0 1]

/-- io/_three_d.py:237-240 `Irreg3DInput.ycoords`. -/
def Irreg3DInput.ycoords {α β : Type} (x : Irreg3DInput α β) : List β :=
  x.xy.ravelAt [List.range (x.xy.shape.getD 0 0), pySlice (x.xy.shape.getD 1 0) 1 2]

/-- io/_three_d.py:242-256 `Irreg3DInput.get_time_slice`. -/
def Irreg3DInput.getTimeSlice {α β : Type} (x : Irreg3DInput α β) (key : ℤ) : List α :=
  x.data.ravelAt (x.data.shape.zipIdx.map fun p =>
    if (p.2 : ℤ) ≠ x.timeDim then List.range p.1 else pySlice p.1 key (key + 1))

/-- io/_three_d.py:258-272 `Irreg3DInput.get_spatial_slice`. -/
def Irreg3DInput.getSpatialSlice {α β : Type} (x : Irreg3DInput α β) (key : ℤ) : List α :=
  x.data.ravelAt (x.data.shape.zipIdx.map fun p =>
    if (p.2 : ℤ) ≠ x.space_dim then List.range p.1 else pySlice p.1 key (key + 1))

/-! ### Rasters -/

/-- io/_raster.py:44-92 `Raster.__init__`: what is opened, or the error. `openDataset` is
`rasterio.open(fp, mode=mode, driver=driver)`, giving the number of bands. -/
def rasterOpen (openDataset : Except PyErr Nat) (mode : String) (band : ℤ) :
    Except PyErr (String × ℤ) :=
  if mode ∈ ["w", "w+"] then .error .valueError
  else if mode ∉ ["r", "r+"] then .error .valueError
  else do
    let nbands ← openDataset
    if ¬ (1 ≤ band ∧ band ≤ (nbands : ℤ)) then .error .indexError
    else pure (mode, band)

/-- A Python dict from option names to values. -/
abbrev Options (V : Type) := String → Option V

/-- `kwargs[key] = value` when the value is not `None`. -/
def Options.setSome {V : Type} (d : Options V) (key : String) (v : Option V) : Options V :=
  match v with
  | some x => fun k => if k = key then some x else d k
  | none => d

/-- `a | b` on dicts: the right operand wins. -/
def Options.merge {V : Type} (a b : Options V) : Options V := fun k => (b k).orElse fun _ => a k

/-- The explicit arguments of `Raster.create` (io/_raster.py:95-108), `none` for `None`. -/
structure CreateArgs (V : Type) where
  width : Option V := none
  height : Option V := none
  dtype : Option V := none
  driver : Option V := none
  crs : Option V := none
  transform : Option V := none
  nodata : Option V := none

/-- io/_raster.py:156-176 `Raster.create`: the options given to
`rasterio.open(fp, mode="w+", **kwargs)`. `one` is the value 1; `like` is the profile of the
reference raster. The conversion `np.dtype(dtype)` is not modelled. -/
def rasterCreate {V : Type} (one : V) (args : CreateArgs V) (like : Option (Options V))
    (kwargs : Options V) : Options V :=
  let kw := like.elim kwargs fun p => Options.merge p kwargs
  let kw := kw.setSome "width" args.width
  let kw := kw.setSome "height" args.height
  let kw := kw.setSome "dtype" args.dtype
  let kw := kw.setSome "driver" args.driver
  let kw := kw.setSome "crs" args.crs
  let kw := kw.setSome "transform" args.transform
  let kw := kw.setSome "nodata" args.nodata
  kw.setSome "count" (some one)

/-! ### SLC stacks -/

/-- Python's `s.split("_")`, on characters. -/
def splitUnderscore : List Char → List (List Char)
  | [] => [[]]
  | c :: cs =>
    if c = '_' then [] :: splitUnderscore cs
    else match splitUnderscore cs with
      | [] => [[c]]
      | w :: ws => (c :: w) :: ws

/-- A `dict` that is only added to: its items in insertion order. -/
abbrev SlcFiles := List (String × Option String)

/-- io/_slc_stack.py:56-57: `sorted(slc_files)`. -/
def stackDates (files : SlcFiles) : List String := (files.map Prod.fst).mergeSort (· ≤ ·)

/-- io/_slc_stack.py:64-116 `SLCStackReader.from_phase_linked_directory`: the `slc_files`
from the names of the files in the folder. Values are file names instead of absolute paths. -/
def fromPhaseLinkedDirectory (folder : List String) : Except PyErr SlcFiles :=
  if "temporal_coherence.tif" ∉ folder then .error .valueError
  else
    let slclist := (folder.filter fun n => ".int.tif".toList.isSuffixOf n.toList).mergeSort (· ≤ ·)
    match slclist with
    | [] => .error .indexError
    | first :: _ => do
      let w ← pyItem (splitUnderscore first.toList) 0
      let firstDate := String.ofList (w.take 8)
      slclist.foldlM (fun (acc : SlcFiles) slc => do
        if ¬ firstDate.toList.isPrefixOf slc.toList then .error .valueError
        else do
          let w ← pyItem (splitUnderscore slc.toList) 1
          let acq := String.ofList (w.take 8)
          if acq ∈ acc.map Prod.fst then .error .valueError
          else pure (acc ++ [(acq, some slc)])) [(firstDate, none)]

/-- io/_slc_stack.py:119-159 `SLCStackReader.from_slc_directory`. -/
def fromSlcDirectory (folder : List String) : Except PyErr SlcFiles :=
  if "inv_amp_dispersion.tif" ∉ folder then .error .valueError
  else
    let slclist := (folder.filter fun n => ".slc.tif".toList.isSuffixOf n.toList).mergeSort (· ≤ ·)
    slclist.foldlM (fun (acc : SlcFiles) slc => do
      let w ← pyItem (splitUnderscore slc.toList) 0
      let acq := String.ofList (w.take 8)
      if acq ∈ acc.map Prod.fst then .error .valueError
      else pure (acc ++ [(acq, some slc)])) []

section
variable {K : Type} [LinearOrder K]

/-- A raster band; `none` is NaN. -/
structure Band (V : Type) where
  rows : Nat
  cols : Nat
  val : Nat → Nat → V

/-- `Raster.__getitem__` (io/_raster.py:290-292) for the slices of a tile inside the raster:
the window as a list of rows. -/
def Band.window {V : Type} (b : Band V) (t : BBox) : List (List V) :=
  (pySlice b.rows t.xmin t.xmax).map fun r => (pySlice b.cols t.ymin t.ymax).map fun c => b.val r c

/-- `coh > threshold`; comparisons with NaN are false. -/
def aboveThreshold (thr : K) (v : Option K) : Bool :=
  match v with
  | some x => decide (thr < x)
  | none => false

/-- `np.column_stack(np.where(msk))` / `np.nonzero`: row-major positions of the true
entries. -/
def whereTrue (m : List (List Bool)) : List (Nat × Nat) :=
  m.zipIdx.flatMap fun rk => rk.1.zipIdx.filterMap fun ck => if ck.1 then some (rk.2, ck.2) else none

/-- Boolean mask selection `a[msk]`: the selected entries in row-major order. -/
def maskSelect {V : Type} (a : List (List V)) (m : List (List Bool)) : List V :=
  (List.zipWith (fun ra rm => (ra.zip rm).filterMap fun p => if p.2 then some p.1 else none) a m).flatten

/-- io/_slc_stack.py:176-202 `SLCStackReader.read_tile`: coordinates and one row per date.
`files d` is the raster of date `d`, `none` for the reference epoch; `one` is the value 1. -/
def readTile {C : Type} (coh : Band (Option K)) (thr : K) (dates : List String)
    (files : String → Option (Band C)) (one : C) (tile : BBox) :
    List (Nat × Nat) × List (List C) :=
  let msk := (coh.window tile).map fun r => r.map (aboveThreshold thr)
  let xy := whereTrue msk
  (xy, dates.map fun d => match files d with
    | none => xy.map fun _ => one
    | some b => maskSelect (b.window tile) msk)

/-- workflows/emcf/_unwrap.py:78-83: the points of the spatial graph of a tile. -/
def tilePoints (coh : Band (Option K)) (thr : K) (tile : BBox) : List (Nat × Nat) :=
  whereTrue ((coh.window tile).map fun r => r.map (aboveThreshold thr))

/-- io/_slc_stack.py:170-174 `SLCStackReader.get_valid_count`. -/
def validCount (coh : Band (Option K)) (thr : K) : Nat :=
  (((coh.window ⟨0, 0, coh.rows, coh.cols⟩).flatten).filter (aboveThreshold thr)).length

end

end Spurt
