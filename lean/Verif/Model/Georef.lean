import Verif.Model.Io

/-!
# The options of the rasters the merge stage writes

`workflows/emcf/_merge.py` chooses the raster whose georeferencing the output takes over, `workflows/emcf/_output.py` creates
the outputs. The pixels are in Model/Merge.lean.
-/

namespace Spurt

/-- The values of creation options: numbers, texts, flags, NaN, and what else is in the profile of a raster (the CRS, the
transform). -/
inductive OptVal (G : Type) where
  | num (n : Nat)
  | text (s : String)
  | flag (b : Bool)
  | nan
  | geo (g : G)
  deriving DecidableEq

/-- workflows/emcf/_merge.py:43 `stack.slc_files[dates[-1]]`, where `dates` are the sorted keys (io/_slc_stack.py:57): the
file of the last date, `none` for the reference epoch of a phase-linked stack. -/
def likeFile (files : SlcFiles) : Except PyErr (Option String) :=
  match (stackDates files).getLast? with
  | none => .error .indexError
  | some d => (files.lookup d).elim (.error .keyError) .ok

/-- workflows/emcf/_output.py:159, 173-185 (`write_single_tile`) and 251-298 (`write_merged_band`, the same for its three
rasters): the options of an output raster. `openLike` opens a raster for reading and gives its profile
(`dataset.profile`). -/
def outputOptions {G : Type} (openLike : String → Except PyErr (Options (OptVal G))) (like : Option String)
    (shape : Nat × Nat) : Except PyErr (Options (OptVal G)) := do
  let profile ← like.elim (.ok none) fun f => (openLike f).map some
  pure (rasterCreate (.num 1)
    { width := some (.num shape.2), height := some (.num shape.1), dtype := some (.text "float32"), nodata := some .nan,
      driver := some (.text "GTiff") }
    profile
    (fun k => if k = "tiled" then some (.flag true) else if k = "blockxsize" then some (.num 512)
      else if k = "blockysize" then some (.num 512) else if k = "compress" then some (.text "DEFLATE") else none))

end Spurt
