import Verif.Model.Settings

/-!
# File and group names (src/spurt/workflows/emcf/_settings.py, _output.py)

Names are strings. `Path(folder) / name` is modelled as `folder ++ "/" ++ name`, that is,
for a folder in the normal form `pathlib` prints (the normalisation itself is not modelled).
-/

namespace Spurt

/-- workflows/emcf/_settings.py:90-106 `GeneralSettings`. -/
structure GeneralSettings where
  useTiles : Bool := true
  intermediateFolder : String := "emcf_tmp"
  outputFolder : String := "emcf"

/-- Python's format `f"{num:02d}"` of a non-negative integer: at least two digits, padded
with a zero on the left. -/
def fmt02 (n : Nat) : String := if n < 10 then "0" ++ n.repr else n.repr

/-- `Path(folder) / name`. -/
def joinPath (folder name : String) : String := folder ++ "/" ++ name

/-- workflows/emcf/_settings.py:108-110 `GeneralSettings.tiles_jsonname`. -/
def GeneralSettings.tilesJsonname (g : GeneralSettings) : String :=
  joinPath g.intermediateFolder "tiles.json"

/-- workflows/emcf/_settings.py:112-114 `GeneralSettings.tile_filename`. -/
def GeneralSettings.tileFilename (g : GeneralSettings) (num : Nat) : String :=
  joinPath g.intermediateFolder ("uw_tile_" ++ fmt02 num ++ ".h5")

/-- workflows/emcf/_settings.py:116-118 `GeneralSettings.overlap_filename`. -/
def GeneralSettings.overlapFilename (g : GeneralSettings) : String :=
  joinPath g.intermediateFolder "overlaps.h5"

/-- workflows/emcf/_settings.py:120-121 `GeneralSettings.overlap_groupname`. -/
def overlapGroupname (ii jj : Nat) : String := fmt02 ii ++ "_" ++ fmt02 jj

/-- workflows/emcf/_settings.py:123-125 `GeneralSettings.offsets_filename`. -/
def GeneralSettings.offsetsFilename (g : GeneralSettings) : String :=
  joinPath g.intermediateFolder "bulk_offsets.h5"

/-- workflows/emcf/_settings.py:127-128 `GeneralSettings.unw_filename`. -/
def GeneralSettings.unwFilename (g : GeneralSettings) (d1 d2 : String) : String :=
  joinPath g.outputFolder (d1 ++ "_" ++ d2 ++ ".unw.tif")

/-- Python's `str.replace(old, new)` on characters, for a non-empty `old`: left to right,
non-overlapping; `skip` characters of the current match remain to be passed over. -/
def pyReplaceGo (old new : List Char) : Nat → List Char → List Char
  | _, [] => []
  | k + 1, _ :: cs => pyReplaceGo old new k cs
  | 0, c :: cs =>
    if old ≠ [] ∧ old.isPrefixOf (c :: cs) then new ++ pyReplaceGo old new (old.length - 1) cs
    else c :: pyReplaceGo old new 0 cs

/-- Python's `str.replace(old, new)`. -/
def pyReplace (old new s : List Char) : List Char := pyReplaceGo old new 0 s

/-- workflows/emcf/_output.py:270 and 286: the names of the diff and model rasters,
`str(fname).replace(".tif", "_diff.tif")` and the same with `_model.tif`. -/
def derivedName (fname suffix : String) : String :=
  String.ofList (pyReplace ".tif".toList (suffix ++ ".tif").toList fname.toList)

/-- workflows/emcf/_output.py:270. -/
def diffName (fname : String) : String := derivedName fname "_diff"

/-- workflows/emcf/_output.py:286. -/
def modelName (fname : String) : String := derivedName fname "_model"

/-- workflows/emcf/_merge.py:37-41: the output names of the interferograms, in order. -/
def outputNames (g : GeneralSettings) (dates : List String) (links : List (Nat × Nat)) :
    List String :=
  links.map fun l => g.unwFilename (dates.getD l.1 "") (dates.getD l.2 "")

end Spurt
