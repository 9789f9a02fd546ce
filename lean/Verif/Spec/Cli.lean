import Verif.Model.Cli

/-! # Specification of the command line: the documented options and the ways to write them -/

namespace Spurt.Spec

/-- The documented names of the options. -/
def options : List (String × CliKey) :=
  [("-i", .inputdir), ("--inputdir", .inputdir), ("-o", .outputdir), ("--outputdir", .outputdir), ("--tempdir", .tempdir),
   ("-w", .tWorkers), ("--t-workers", .tWorkers), ("--s-workers", .sWorkers), ("-b", .batchsize), ("--batchsize", .batchsize),
   ("-c", .coh), ("--coh", .coh), ("--t-cost-type", .tCostType), ("--t-cost-scale", .tCostScale),
   ("--pts-per-tile", .ptsPerTile), ("--max-tiles", .maxTiles), ("--merge-parallel-ifgs", .mergeParallelIfgs),
   ("--unwrap-parallel-tiles", .unwrapParallelTiles), ("--singletile", .singletile), ("--log-file", .logFile)]

/-- All names that can follow a dash, those that end the program included. -/
def optionNames : List String := ["-h", "--help", "--version"] ++ options.map Prod.fst

/-- `s` begins with `p`. -/
def Begins (p s : String) : Prop := p.toList <+: s.toList

/-- `o` is a name of the option `k`, or a beginning, with both dashes, of one of its names and of no other name. -/
def Names (o : String) (k : CliKey) : Prop :=
  (o, k) ∈ options ∨
  Begins "--" o ∧ ∃ name, (name, k) ∈ options ∧ Begins o name ∧ ∀ name' ∈ optionNames, Begins o name' → name' = name

/-- A dash followed by digits, or by digits with a point somewhere before the last one. -/
def IsNegativeNumber (w : String) : Prop :=
  ∃ a : List Char, (∀ c ∈ a, c.isDigit = true) ∧
    (a ≠ [] ∧ w.toList = '-' :: a ∨ ∃ b : List Char, b ≠ [] ∧ (∀ c ∈ b, c.isDigit = true) ∧ w.toList = '-' :: (a ++ '.' :: b))

/-- A word read as a value: it has no dash in front, or nothing but a dash, or it is a negative number or has a space and
begins like no option. -/
def IsValue (w : String) : Prop :=
  ¬ Begins "-" w ∨ w = "-" ∨
  (IsNegativeNumber w ∨ ' ' ∈ w.toList) ∧
    ∀ name ∈ optionNames, w ≠ name ∧ ¬ (name.length = 2 ∧ Begins name w) ∧
      ∀ p rest : String, '=' ∉ p.toList → (w = p ∨ w = p ++ "=" ++ rest) → Begins "--" p → ¬ Begins p name

/-- The ways to write an option: its name and its value apart, with an equals sign, attached to a name of one letter, and
without a value. -/
inductive Spelled : List String → CliKey → Option String → Prop
  | apart (o v : String) (k : CliKey) : Names o k → IsValue v → Spelled [o, v] k (some v)
  | equals (o v : String) (k : CliKey) : Names o k → Spelled [o ++ "=" ++ v] k (some v)
  | attached (o v : String) (k : CliKey) : (o, k) ∈ options → o.length = 2 → v ≠ "" → ¬ Begins "=" v → Spelled [o ++ v] k (some v)
  | alone (o : String) (k : CliKey) : Names o k → Spelled [o] k none

/-- The value an option gives, if what is given has the documented type: folders and files are text, the coherence is a float,
the cost type one of three words, the flag takes no value and the other options are integers. -/
def given {K : Type} (cv : PyConv K) (k : CliKey) (ov : Option String) : Option (CliValue K) :=
  if k = .singletile then if ov = none then some (.flag true) else none
  else ov.bind fun v =>
    if k ∈ [.inputdir, .outputdir, .tempdir, .logFile] then some (.str v)
    else if k = .coh then (cv.float v).map .num
    else if k = .tCostType then if v = "constant" ∨ v = "distance" ∨ v = "centroid" then some (.str v) else none
    else (cv.int v).map .int

end Spurt.Spec
