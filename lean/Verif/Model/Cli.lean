import Verif.Model.Workflow
import Verif.Model.Names
import Verif.Model.Cost

/-!
# The command line (src/spurt/workflows/emcf/_cli.py)
-/

namespace Spurt

/-- The destinations of the options, workflows/emcf/_cli.py:23-106. -/
inductive CliKey
  | inputdir | outputdir | tempdir | tWorkers | sWorkers | batchsize | coh | tCostType | tCostScale
  | ptsPerTile | maxTiles | mergeParallelIfgs | unwrapParallelTiles | singletile | logFile
  deriving DecidableEq, Repr

/-- A value in the parsed namespace: `None`, a string, an integer, a float or a flag. -/
inductive CliValue (K : Type)
  | none
  | str (s : String)
  | int (z : ℤ)
  | num (q : K)
  | flag (b : Bool)

/-- The namespace of `argparse`. -/
abbrev Namespace (K : Type) := CliKey → CliValue K

section
variable {K S : Type} [Field K]

/-- The defaults, workflows/emcf/_cli.py:23-106. -/
def cliDefault : Namespace K
  | .inputdir => .none
  | .outputdir => .str "./emcf"
  | .tempdir => .str "./emcf_tmp"
  | .tWorkers => .int 0
  | .sWorkers => .int 1
  | .batchsize => .int 150000
  | .coh => .num (6 / 10)
  | .tCostType => .str "constant"
  | .tCostScale => .int 100
  | .ptsPerTile => .int 800000
  | .maxTiles => .int 49
  | .mergeParallelIfgs => .int 1
  | .unwrapParallelTiles => .int 1
  | .singletile => .flag false
  | .logFile => .none

/-- The option strings in the order of definition, workflows/emcf/_cli.py:18-106. `none` for `--help` (made by `argparse`) and
`--version`, which end the program. -/
def cliOptions : List (String × Option CliKey) :=
  [("-h", none), ("--help", none), ("--version", none), ("-i", some .inputdir), ("--inputdir", some .inputdir),
   ("-o", some .outputdir), ("--outputdir", some .outputdir), ("--tempdir", some .tempdir), ("-w", some .tWorkers),
   ("--t-workers", some .tWorkers), ("--s-workers", some .sWorkers), ("-b", some .batchsize), ("--batchsize", some .batchsize),
   ("-c", some .coh), ("--coh", some .coh), ("--t-cost-type", some .tCostType), ("--t-cost-scale", some .tCostScale),
   ("--pts-per-tile", some .ptsPerTile), ("--max-tiles", some .maxTiles), ("--merge-parallel-ifgs", some .mergeParallelIfgs),
   ("--unwrap-parallel-tiles", some .unwrapParallelTiles), ("--singletile", some .singletile), ("--log-file", some .logFile)]

/-- Python's conversions of strings, `none` where they raise: `int` and `float`. -/
structure PyConv (K : Type) where
  int : String → Option ℤ
  float : String → Option K

/-- A word of the command line as `argparse` reads it: a value, or an option with the value that is part of the word, if
any. -/
inductive CliTok
  | value (s : String)
  | opt (k : CliKey) (explicit : Option String)
  deriving DecidableEq, Repr

/-- `s.split("=", 1)` if `s` has an equals sign. -/
def splitEq : List Char → Option (List Char × List Char)
  | [] => none
  | '=' :: cs => some ([], cs)
  | c :: cs => (splitEq cs).map fun r => (c :: r.1, r.2)

/-- `argparse`: `^-\d+$|^-\d*\.\d+$`, with ASCII digits. -/
def negativeNumber : List Char → Bool
  | '-' :: cs =>
    (decide (cs ≠ []) && cs.all Char.isDigit) ||
    match cs.dropWhile Char.isDigit with
    | '.' :: ds => decide (ds ≠ []) && ds.all Char.isDigit
    | _ => false
  | _ => false

/-- `argparse` `_get_option_tuples`: the options a word that is none itself may stand for. After two dashes the options it is a
prefix of, up to an equals sign; after one dash the option of its first two letters, the rest being the value, and the
options it is a prefix of. -/
def optionTuples (w : List Char) : List (Option CliKey × Option String) :=
  match w with
  | '-' :: '-' :: _ =>
    match splitEq w with
    | some (p, v) => cliOptions.filterMap fun o => if p.isPrefixOf o.1.toList then some (o.2, some (String.ofList v)) else none
    | none => cliOptions.filterMap fun o => if w.isPrefixOf o.1.toList then some (o.2, none) else none
  | _ => cliOptions.filterMap fun o =>
      if o.1.toList = w.take 2 then some (o.2, some (String.ofList (w.drop 2)))
      else if w.isPrefixOf o.1.toList then some (o.2, none) else none

/-- `argparse` `_parse_optional`: `none` where the program ends: `--help`, `--version`, an unknown option and a prefix of
several options. The separator `--` is not modelled: here it ends the program. -/
def classify (w : String) : Option CliTok :=
  if w.toList.head? ≠ some '-' then some (.value w)
  else match cliOptions.lookup w with
    | some k => k.map fun k => .opt k none
    | none =>
      if w = "-" then some (.value w)
      else match (splitEq w.toList).bind fun r => (cliOptions.lookup (String.ofList r.1)).map fun k => (k, r.2) with
        | some (k, v) => k.map fun k => .opt k (some (String.ofList v))
        | none =>
          match optionTuples w.toList with
          | [] => if negativeNumber w.toList || decide (' ' ∈ w.toList) then some (.value w) else none
          | [(k, v)] => k.map fun k => .opt k v
          | _ => none

/-- `type=` and `choices=` of the options, workflows/emcf/_cli.py:23-106. -/
def cliConvert (cv : PyConv K) : CliKey → String → Option (CliValue K)
  | .inputdir, v => some (.str v)
  | .outputdir, v => some (.str v)
  | .tempdir, v => some (.str v)
  | .logFile, v => some (.str v)
  | .coh, v => (cv.float v).map .num
  | .tCostType, v => if v ∈ ["constant", "distance", "centroid"] then some (.str v) else none
  | .singletile, _ => none
  | _, v => (cv.int v).map .int

/-- `argparse` `consume_optional` for the words of a command line; there are no positional arguments. -/
def parseToks (cv : PyConv K) : List CliTok → Namespace K → Option (Namespace K)
  | [], ns => some ns
  | .opt .singletile none :: rest, ns => parseToks cv rest (Function.update ns .singletile (.flag true))
  | .opt k (some v) :: rest, ns => match cliConvert cv k v with
    | none => none
    | some x => parseToks cv rest (Function.update ns k x)
  | .opt k none :: .value v :: rest, ns => match cliConvert cv k v with
    | none => none
    | some x => parseToks cv rest (Function.update ns k x)
  | _, _ => none

/-- `parser.parse_args`, workflows/emcf/_cli.py:110: `none` where `argparse` ends the program, with status 2 or, after
`--help` or `--version`, 0. All words are read first. -/
def parseArgs (cv : PyConv K) (args : List String) (ns : Namespace K) : Option (Namespace K) :=
  (args.mapM classify).bind fun toks => parseToks cv toks ns

/-- `parser.parse_args` with the check of the required option, workflows/emcf/_cli.py:24-29 and 109. -/
def cliParse (cv : PyConv K) (args : List String) : Option (Namespace K) :=
  match parseArgs cv args cliDefault with
  | none => none
  | some ns => match ns .inputdir with
    | .none => none
    | _ => some ns

/-- `parsed_args.name` for a string option. -/
def Namespace.strOf (ns : Namespace K) (k : CliKey) : String := match ns k with
  | .str s => s
  | _ => ""

/-- `parsed_args.name` for an integer option. -/
def Namespace.intOf (ns : Namespace K) (k : CliKey) : ℤ := match ns k with
  | .int z => z
  | _ => 0

/-- `parsed_args.name` for a float option. -/
def Namespace.numOf (ns : Namespace K) (k : CliKey) : K := match ns k with
  | .num q => q
  | _ => 0

/-- `parsed_args.name` for a flag. -/
def Namespace.flagOf (ns : Namespace K) (k : CliKey) : Bool := match ns k with
  | .flag b => b
  | _ => false

/-- workflows/emcf/_cli.py:123-128 `GeneralSettings(...)`. -/
def cliGeneral (ns : Namespace K) : GeneralSettings where
  useTiles := !ns.flagOf .singletile
  intermediateFolder := ns.strOf .tempdir
  outputFolder := ns.strOf .outputdir

/-- workflows/emcf/_cli.py:130-134 `TilerSettings(...)`. -/
def cliTiler (ns : Namespace K) : TilerSettings where
  targetPointsPerTile := ns.intOf .ptsPerTile
  maxTiles := ns.intOf .maxTiles

/-- workflows/emcf/_cli.py:136-144 `SolverSettings(...)`. -/
def cliSolver (ns : Namespace K) : SolverSettings where
  tWorkerCount := ns.intOf .tWorkers
  sWorkerCount := ns.intOf .sWorkers
  linksPerBatch := ns.intOf .batchsize
  numParallelTiles := ns.intOf .unwrapParallelTiles
  tCostScale := ns.intOf .tCostScale
  tCostType := ns.strOf .tCostType

/-- workflows/emcf/_cli.py:146-149 `MergerSettings(...)`. -/
def cliMerger (ns : Namespace K) : MergerSettings where
  numParallelIfgs := ns.intOf .mergeParallelIfgs

/-- A folder with a stack: its file names, the coherence raster and the phases of the rasters by name. -/
structure CliFolder (K : Type) where
  names : List String
  coh : Band (Option K)
  image : String → Band K

/-- The libraries used by the workflow, and 2π. -/
structure CliLibs (K S : Type) where
  tau : K
  sc : Scoring ℚ S
  fl : ℚ → ℚ
  solver : FlowSolver
  cc : Nat → List (Nat × Nat) → List Nat
  mip : MipSolver
  lstsq : Lstsq K
  lin : LinSolver K
  simplices : List (ℤ × ℤ) → List Tri
  cpuCount : ℤ

/-- The points of a tile for scipy. -/
def tileCoords (pts : List (Nat × Nat)) : List (ℤ × ℤ) := pts.map fun p => ((p.1 : ℤ), (p.2 : ℤ))

/-- What the stages get (workflows/emcf/_cli.py:117-169) when the stack has the files `files` and the temporal graph
is `time`. The link costs are those of Model/Cost.lean on the graphs (workflows/emcf/_solver.py:141-158 and 231-248). -/
noncomputable def cliFlowOf (libs : CliLibs K S) (folder : CliFolder K) (ns : Namespace K) (files : SlcFiles) (time : PlanarGraph) :
    Flow K S :=
  let slv := cliSolver ns
  let spatial := fun pts : List (Nat × Nat) => delaunayGraph pts.length (libs.simplices (tileCoords pts))
  let real := fun pts : List (Nat × Nat) => pts.map fun p => ((p.1 : ℝ), (p.2 : ℝ))
  { tau := libs.tau, sc := libs.sc, fl := libs.fl, useTiles := (cliGeneral ns).useTiles, tiler := cliTiler ns,
    solver := libs.solver, cc := libs.cc, mip := libs.mip, lstsq := libs.lstsq, merger := cliMerger ns,
    lin := libs.lin, simplices := libs.simplices,
    job := { coh := folder.coh, thr := ns.numOf .coh, dates := stackDates files,
             phase := fun d => ((files.find? fun f => decide (f.1 = d)).bind Prod.snd).map folder.image,
             time := time, settings := slv, cpuCount := libs.cpuCount,
             simplices := fun pts => libs.simplices (tileCoords pts),
             tDist := distanceCosts (hop3Points files.length) time.links (slv.tCostScale : ℝ),
             tCent := do
               let m ← ormcf time
               centroidCosts (hop3Points files.length) time.cycles m.dual (slv.tCostScale : ℝ),
             sDist := fun pts => distanceCosts (real pts) (spatial pts).links (slv.sCostScale : ℝ),
             sCent := fun pts => do
               let m ← ormcf (spatial pts)
               centroidCosts (real pts) (spatial pts).cycles m.dual (slv.sCostScale : ℝ) } }

/-- workflows/emcf/_cli.py:117-152: the stack, the settings and the temporal graph, in the order in which they
are made. `mkdir` says whether a folder exists or can be made (workflows/emcf/_settings.py:130-137). -/
noncomputable def cliFlow (libs : CliLibs K S) (mkdir : String → Bool) (input : String → CliFolder K) (ns : Namespace K) :
    Except PyErr (Flow K S) := do
  let folder := input (ns.strOf .inputdir)
  let files ← fromPhaseLinkedDirectory folder.names
  if ¬ mkdir (cliGeneral ns).outputFolder then .error .fileNotFound
  else if ¬ mkdir (cliGeneral ns).intermediateFolder then .error .fileNotFound
  else do
    (cliTiler ns).check
    (cliSolver ns).check
    (cliMerger ns).check
    let time ← hop3Graph files.length
    pure (cliFlowOf libs folder ns files time)

/-- How a call of the program ends. -/
inductive CliEnd
  | usage | ended (o : Outcome)
  deriving DecidableEq, Repr

/-- workflows/emcf/_cli.py:16-171 `main`: from the folder state `d` a call with the words `args` may end as `e`
in state `d'`. A wrong command line or a setup that raises leaves the files alone (besides making folders). -/
def CliRun [LinearOrder K] [FloorRing K] (cv : PyConv K) (libs : CliLibs K S) (mkdir : String → Bool)
    (input : String → CliFolder K) (args : List String) (d : Disk K) (e : CliEnd) (d' : Disk K) : Prop :=
  match cliParse cv args with
  | none => e = CliEnd.usage ∧ d' = d
  | some ns => match cliFlow libs mkdir input ns with
    | .error _ => e = CliEnd.ended .raised ∧ d' = d
    | .ok P => ∃ o, e = CliEnd.ended o ∧ RunByWrite P.stages d o d'

end

end Spurt
