# Formal model of isce-framework/spurt in Lean 4 — design

## Layout

* `lean/Verif/Model/*.lean` — the model: executable definitions, each with a
  comment citing the file and lines of `/repo` it models and every simplification.
* `lean/Verif/Spec/*.lean` — small specifications (what the English property says),
  written without the model's helpers wherever possible.
* `lean/Verif/Lemmas/*.lean` — helper lemmas.
* `lean/Verif/Props/*.lean` — the property theorems (`C01_…`, `C02_…`), each with a
  non-vacuity example next to it.
* `MANIFEST.json` maps properties to theorems; `seeded/LOG.jsonl` records the
  mutation experiments.

## Modelling conventions

* **Phases.** A phase is an element of an arbitrary linearly ordered field `K` with a
  floor (`FloorRing`); one cycle (`2*np.pi`) is an arbitrary positive `tau : K`.
  Instances: `ℝ` with `2π` (the intended reading) and `ℚ` with `tau = 1` (used to run
  the model in the examples). Complex input is represented by its `np.angle`; Model/Complex.lean models the complex branches and C89 shows that this is right.
  `np.round`/`np.rint` are modelled exactly as round-half-to-even (`rint`).
* **Floating point**: arithmetic is exact, except in C26, where the truth of the property
  depends on double rounding (an IEEE-754 double rounding function on `ℚ` is defined and a
  concrete failure is proved), in C67, where the unwrapping of points and gradients is
  modelled with an arbitrary rounding after every operation, in C69, where `unwrap_cube` is modelled in mixed precision, in C70, where overlap statistics and merge are, and in C71, where the whole chain is.
* **Integers** are unbounded except in C54 (32-bit wrap-around).
* **Exceptions are values**: `Except PyErr α`, with the Python class of the exception.
* **Arrays** are lists, or functions on indices together with an explicit length;
  indexing outside the array is guarded by the error the code would raise.
* **External code is a parameter**: the OR-tools min-cost-flow solver, the OR-tools
  integer solver, least squares, conjugate gradients, `optimize.brute`, Delaunay,
  the file system. What is assumed about it is a hypothesis of the theorem (e.g.
  “the solver returns an optimal feasible flow”) and is listed in the trusted base.
* **Parallelism**: `imap_unordered` / `as_completed` deliver the tasks' results in an
  arbitrary permutation; theorems quantify over all permutations.
* **Loops** are folds or structural recursion; the BFS `while` loop takes fuel and a
  theorem shows the fuel is never exhausted.

## Properties

| id | what is modelled | how it is proved |
|----|------------------|------------------|
| C01 | `order_points` | case split |
| C02 | `_create_links` (set of ordered sides, sorted) | membership/sortedness of sort+dedup |
| C03 | `Hop3Graph.__init__`, `_create_cycles_and_links` | sides of the cycle table are the hop pairs (arith.); count via an explicit sorted list |
| C04 | same + `boundary` | counting directed traversals of a side in the cycle table, for symbolic n |
| C05 | `Reg2DGraph` | same with ravelled indices |
| C06 | `_prepare_dual` (insertion-ordered dict) | fold invariant: dict entry = list of occurrences |
| C07 | `phase_diff`, `np.round` | floor arithmetic |
| C08 | `compute_residues`, `…_from_gradients`, `solve_mcf` check | telescoping sum around a cycle |
| C09 | same | re-indexing of a double sum through C06; oddness of `rint` |
| C10 | `solve_mcf`, `residues_to_flows` with solver parameter | conservation at each dual node, sign algebra |
| C11 | same, cost vectors | cost of a link flow = cheapest arc flow; exchange argument |
| C12 | `flood_fill` BFS | loop invariant |
| C13 | same | loop invariant + reachability; fuel bound |
| C14 | `unwrap_one` | C08+C10+C13; cycles of Hop3/Reg2D generate all closed walks |
| C15 | same | zero residues ⇒ zero flows ⇒ C13 |
| C16 | `residues_to_flows_many` | permutation invariance of indexed writes |
| C17 | `get_cpu_count`, worker defaults | arithmetic; the spatial stage violates it (refuted, partial) |
| C18 | `distance_costs`, `centroid_costs` (norm a parameter; exact on the collinear Hop3 points) | monotonicity of `rint`; explicit centroids |
| C19 | batch loop of `unwrap_gradients_in_time` | loop invariant: prefix processed |
| C20 | same with residues in time | C10 transported to the temporal graph |
| C21 | `unwrap_cube`, tile offset | congruence along BFS paths |
| C22 | dispatch in `unwrap_cube` | decision logic, 3n-6 ≠ n |
| C23 | `unwrap_gradients_in_space` | permutation invariance |
| C24 | `BBox` | integer arithmetic |
| C25 | `get_overlaps` | list induction |
| C26 | `create_tiles_regular` | exact arithmetic: partition proved; doubles: refuted for shape 61, 49 tiles (partial) |
| C27 | `create_tiles_density`, `split_rectangle` (score a parameter) | induction on the tile count: rectangles partition the bounds |
| C28 | `dilate` | floor monotonicity |
| C29 | JSON value tree | decode∘encode = id |
| C30 | tile counts, `get_tiles` | `Nat.sqrt` |
| C31–C33 | `Reg3DInput`, `Irreg3DInput` | index arithmetic; C32 refuted for length, partial |
| C34 | `Raster` | decision logic, dict merge |
| C35 | directory scan | fold invariant |
| C36 | `read_tile` | filter/enumerate lemma |
| C37 | `find_common_points`, `np.intersect1d` | injectivity of flattening |
| C38 | deciles, `np.percentile` linear, its `int16` subtraction and its `float64` roundings | order statistics; the rounding is monotone and keeps half integers, so extremes and median are exact; error bounds for the rest |
| C39 | MIP as an optimisation problem | any optimum |
| C40 | least squares as an optimisation problem | any minimiser |
| C41 | `Tile` state machine | invariant over operations |
| C42 | `dirichlet*` with solver parameter | discrete maximum principle |
| C43 | `graph_laplacian` | finite sums |
| C44 | `write_merged_band` | fold invariants over tiles |
| C45 | `_adjust_tiles`, batching | permutation / per-band independence |
| C46 | merge end to end | composition |
| C47 | settings | decision logic |
| C48 | names (`:02d`) | injectivity of decimal printing |
| C49 | workflow over a file map | stage invariants |
| C50 | same, crashes between any two writes | refuted for every completing workflow (a created file counts as done: unreadable file stops the workflow for good, truncated raster is kept); partial: recovery after deleting the incomplete files |
| C51 | `estimate_model_many` with numpy broadcasting of weights, worker count, completion order | induction over the gathered results; 2-D weights refuted (partial) |
| C52 | coherence over ℝ/ℂ | norm inequality, strict convexity for the converse, `HasFDerivAt` for the Jacobian |
| C53 | overlap map | fold invariant |
| C54 | 32-bit variant of C37 | refuted by witness; safe-range theorem (partial) |
| C55 | tile worker as composition of reader, triangulation, solver and dump | composition of C16, C21, C36, C53 |
| C56 | `_adjust_tiles` + `write_merged_band` | fixed values of the last level (C42) |
| C57 | overlap statistics, bulk offsets and merge composed | composition of C38, C39/C40, C46 |
| C58 | `enable_logging` branches of the solvers | refuted by witness for `l2_min_cg`; partial otherwise |
| C59 | `estimate_model` over a contract for `scipy.optimize.brute` | from C52 and the contract |
| C60 | `Flow.stages` on several tiles | refuted where no overlap is recorded or has fewer than 11 pixels; elsewhere the stages are shown to return one after the other |
| C61 | the whole workflow (`Flow.stages`), rasters on disk | reference state of a completed run (C49), then C55, C56 for several tiles, C44 for one |
| C62 | `unwrap_cube` and `_unwrap_one_tile` on phases unaliased along links | residues vanish, hence zero flows and flood fill of the true gradient (C15) in time and space, any solver |
| C63 | the whole workflow on an unaliased stack | C62 per tile, C57 for the merge, C61 for the rasters, C60 for completion |
| C64 | get_bulk_offsets on tile files with local errors | the median of the differences is the majority value (C38), then the integer solution is that of the error-free case |
| C65 | l2_min and l2_min_cg for dense matrices of any shape, one right-hand side | normal equations are solvable (rank of AᵀA) and characterise minimisers; two minimisers have the same misfit |
| C66 | `main`: argument parsing (values apart, `--opt=value`, `-w4`, shortened names), settings, stack reader, temporal graph, all stages | induction on the argument list; C35, C47, C03 for acceptance; C61 and C63 composed with the names and phases of the stack |
| C67 | `phase_diff`, `compute_residues`, `flood_fill`, `unwrap_one` with a rounding after every operation | error bounds per operation; invariant of the breadth-first loop with the depth of each point; whole numbers pinned down because the total error is below a cycle; cheapest flows bounded by the flows that undo the wrapping; numbers for IEEE doubles |
| C68 | `unwrap_one`, `unwrap_gradients_in_time/_in_space`, `unwrap_cube` with the costs of the settings | a competing solution cancels the residues (closure below half a cycle), so C11 compares the flows; the flows are the cycles of the result because it is congruent and within the tolerance of flood fill |
| C69 | `unwrap_cube` with `float32` wrapped differences, gradients and residue sums and `float64` cycles and flood fill | error bounds per operation; the sums around a cycle are within half a cycle of the exact whole number, so the residues are the exact ones; whole numbers of `float32` and `float64` cycles are separated; flood fill as in C67; numbers for IEEE singles and doubles |
| C70 | overlap statistics, `Tile`, `_adjust_tiles`, `dirichlet_graph`, `write_merged_band`, `write_single_tile`, `merge_tiles` with `float32` tiles and `float64` right-hand sides | maximum principle on the graph bounds the answers of the Dirichlet problems by the boundary error; the error of the adjusted tiles at most triples per degree of overlap; as it stays below half a cycle, wrapping the tile around the model removes it; the overlap statistics of near tiles are those of the exact tiles; numbers for IEEE singles and doubles |
| C71 | the stages in mixed precision, one after the other (`Model/FloatWorkflow.lean`) | C69 gives tile files near the true phases; these meet the hypotheses of C70; the mask graph of the points of a tile gives the room on the depth; numbers for IEEE singles and doubles; without rounding the stages reduce to those of C49 |
| C72 | `dirichlet_graph` with a `cg` that stops by scipy's rule (`Spec.CgConverges`) | the energy of the error is the error times the residual (quadratic form of the Laplacian); along a shortest walk to a fixed point, which uses every link once, Cauchy–Schwarz bounds the error by the energy (`Props/DirichletError.lean`); `C72_cg_within` derives the accuracy that C70 and C71 assume |
| C73 | `unwrap_cube` as in C69, on large grids | singles are multiples of a power of two, so the difference less a cycle is a single (`Lemmas/FloatGrid.lean`): one rounding per wrapped difference; Itoh: the gradients are differences of one stored field, so only the cycles of `tauS` against `tau` and the flood fill accumulate; the tolerance of the closure check is compared with these (`Props/FloatLarge.lean`), numbers in `Props/FloatLargeNumpy.lean`; `Props/FloatLargeRecovery.lean` carries this through the tile files and the merge |
| C74 | `distance_costs`, `centroid_costs` in floating point (`Model/FloatCost.lean`), over the rationals with a rounded square root | `S/√n` is an odd half or at least `1/(30 S²)` away from every odd half, because `4S² - q²n` is a whole number (`half_gap`); the rounding errors are smaller. Ties need a whole distance, which doubles compute exactly — except for means of three points (`C74_centroid_tie_refuted`) |
| C75 | `get_tiles`, `create_tiles_density`, `create_tiles_regular`, `split_rectangle` in floating point (`Model/FloatTiling.lean`) | the same argument for `√(n/t)`; quotients of whole numbers below 2^53 do not round up to the next one; cuts are half-integers, on which doubles are exact (induction over the splits) |
| C76 | `_solve_l2_min`, `l2_min` in `float64` (`Model/FloatBulk.lean`) | rounding the real offsets down after a random shift does not increase the expected disagreement (`Lemmas/Averaging.lean`), so an integer assignment has a residual at most that of any real one (`Props/BulkResiduals.lean`); forward error of the residual sum and of the differences (`Lemmas/FloatBulk.lean`, `Props/FloatBulk.lean`); the offsets within `β` of whole cycles go into C70, C71 and C73 (`Lemmas/FloatBulkFile.lean`) |
| C77 | the choice of the reference raster in `merge_tiles`, the options of `Raster.create` in `_output.py` (`Model/Georef.lean`) | the last of the sorted keys is the maximum; from C34 and C35 |
| C78 | `neg_temporal_coherence`, `estimate_model`, `estimate_model_many` in double precision (`Model/FloatLinks.lean`) | rounding error of each part of the sum of phasors; the search minimises the computed function; a coherence near 1 bounds every misfit |
| C79 | `unwrapCube`/`unwrapOne`/`unwrapOneTile` and the whole workflow, run on two stacks that differ by a phase per pixel, a phase per acquisition and whole cycles | the gradients that reach the flow solver are equal (`spaceGrad_congr`, `phaseDiff_congr`), so is everything after them; for the workflow, transported along the runs with `ref_of_run` and `resume_*` |
| C80 | the whole workflow on two stacks that agree on the coherent pixels | `readTile` only reads coherent pixels, so the stages are the same functions |
| C81 | the whole workflow with other numbers of workers, batches and parallel tiles | `unwrapOneTile_schedule`, `C45_batching` and the resume theorems |
| C82 | `unwrapOneTile` and `Flow.stages` on two stacks that agree inside a tile | the points and phases read are equal, the rest is a function of them |
| C83 | `Flow.stages` in folders left by calls with other stacks | refuted: every stage finds its files and has nothing to do; the rest from the resume theorems |
| C84 | tile files, `phasediffDeciles`, `bulkOffsets` with "L2", `mergeTiles` and the whole workflow, run on two stacks that differ by a phase per acquisition, a phase per pixel and whole cycles | medians move by whole cycles (`median_shift`); the least-squares answer on a connected overlap graph is unique up to the first tile (`l2_shift`); the raw corrections and the harmonic continuation are unchanged (`bandAdjust_moved`), so the rasters move by one constant (`raster_shift`) |
| C85 | Two runs of overlap statistics, bulk offsets and merge over the same tiles, on tile files with different interferograms, one of which is shared at positions `b` and `b'` (`SameBand`) | deciles, medians, offsets and corrections of the shared one are compared stage by stage; for L2 the normal equations of a connected overlap graph fix the offsets once the first tile is the reference. In mixed precision the same stages are compared for arbitrary roundings (`C85_bulk_float`, `C85_merge_float`). |
| C86 | `phasediffDeciles`, `bulkOffsets` and `mergeTiles` on two sets of tile files that agree at all pixels of two or more tiles (`SameShared`) | medians are taken over shared pixels only; the raw correction of a point no neighbour covers is 0, so the Dirichlet data, and with them all corrections, are equal by induction over the degrees (`bandAdjust_shared`); the rasters are compared pixel by pixel (`raster_same_at`). The mixed-precision pipeline is compared in the same way (`C86_overlap_float`, `C86_merge_float`) |
| C87 | `unwrapCube`/`unwrapCubeFl` with both kinds of input | the gradients of every link in every interferogram agree (`phaseDiff_congr`), then `inTime_iff`/`inTimeFl_iff` for both kinds; the fixed point from C21 (the result is congruent to the input) |
| C88 | `unwrapOne`, `unwrapCube`, `unwrapOneTile`, `bulkOffsets`, `mergeTiles` and the workflow on data of the opposite sign, with the libraries answering mirrored problems by mirrored answers (`mirrorSolver`, `mirrorMip`, `mirrorLstsq`, `mirrorLin`) | oddness of every step: `rint`, `phase_diff`, residues, the flow problem (forward and backward arcs exchanged), flood fill, medians, truncation, both offset solvers, the Dirichlet system, averages and the rounding to the model; two independent optimal solvers by mutual optimality; the floating-point twins (`unwrapOneFl`, `unwrapCubeFl`, `unwrapOneTileFl`, `bulkOffsetsFl`, `mergeTilesFl`, `workflowFl`) bit for bit, for roundings with `fl (-x) = - fl x`; numpy's roundings are instances |
| C89 | the complex branches of `phase_diff`, `compute_residues`, `flood_fill`, `unwrap_one`, `unwrap_cube`, `read_tile` and the tile worker over ℂ (Model/Complex.lean) | they equal the model on `Complex.arg` of the data; C14, C21, C61, C63, C79 and C88 over ℝ with `2π`; phases of a complex number differ by whole cycles; in numpy's numbers (`C89_numpy_recovers`) C73 applies to the computed angles plus the true cycles, and `2π` differs from its double by less than 1e-12 |
| C90 | rasters of the completed workflow (as C61, C63, C71, C89) | acquisition phases telescope along a loop, whole cycles add up; spec `Walk`, `alongWalk`; witness that the closure need not be zero |
| C91 | tile worker, single-tile writer, bulk offsets and merge (as C55, C57, C63) | the flood fill starts with 0 at the first pixel and the offset stored is the wrapped interferogram there; the bulk offset of the largest tile is 0; in numpy's numbers the flood fill's first value and its float32 copy are exactly 0, so with one tile the pixel is bit for bit `phase_diff`'s, and with more it is within 1/200 rad |
| C92 | `unwrapCube`, `unwrapOneTile`, `phasediffDeciles`, `bulkOffsets`, `mergeTiles` and the whole workflow, run on two stacks that differ by a field per acquisition | the gradients change by the differences of the field (`phaseDiff_moved`), so residues around every cycle, in time and in space, stay the same (`circulation_grad`), and with them the flows; the flood fill is simulated step by step (`ffLoop_rel`); the differences of two tiles at a shared pixel do not change, hence the overlap file is the same (`C92_overlaps`) and so are the medians and the bulk offsets (`C92_bulk`); whether a correction can be computed depends on the pixels only (`adjustOk_points`), so the second run completes (`C92_completes`); the raw corrections do not change (`rawCorr_moved`, now for a field), hence the harmonic continuation |
| C93 | `readTile`, `tilePoints`, `unwrapOneTile` for two stacks of different sizes and two boxes with the same content, and the whole workflow on a crop | both windows are read as one list counted from the corner of the box (`window_shift`), so the mask, the coordinates - which are local to the tile - and the columns are the same (`mask_content`, `readTile_content`), and with them everything computed from them; the crop is then a run with one tile whose file is known (`single_raster`, `C61_result`) |
| C94 | `unwrapOne`, `unwrapCube`, `unwrapOneTile` and the whole workflow against an arbitrary phase field congruent to the data | a cheapest solution differs from any other by at most twice the price of the other (`price_sub`, from C68); the true field competes in time with its aliased cycles, and in space with the errors left by the step in time, which gives the factor four (`two_steps`, `aliasing_core`). With no aliasing it is C62. Every level between two joined pixels is crossed by a link, so the error of a pixel is at most the sum over the links (`rise_le`). The spread of errors over several tiles by the merge is not bounded here |
| C95 | two runs of the whole workflow with different settings on one unaliased stack | both rasters are the true interferogram plus a number of cycles (C63); if the reference pixels coincide, both carry the wrapped interferogram there (C91), which fixes the number. The hypotheses of C63 are bundled in `Spec.UnaliasedRun`; the example runs the same stack with four tiles and with one; both also in numpy's numbers (C73, C91 in numpy) |

## Trusted base

* Lean's kernel, and the axioms `propext`, `Classical.choice`, `Quot.sound` (a theorem uses a subset of
  these three; none of our own, no compiled evaluation; `decide +kernel` is checked by the kernel).
* The reading of the Python source into `lean/Verif/Model`, cited there line by line.
* What is assumed about code outside the repository. Each assumption is a parameter, or a hypothesis
  of the theorems that need it, and is shown to be satisfiable:

| outside code | in the model | assumption (where needed) |
|---|---|---|
| `scipy.spatial.Delaunay` | its triangles are input | `PlanarContract`: the triangles and the convex hull tile the plane (every link has a cycle on both sides or the outside) — for residues that sum to zero and C10/C11 |
| OR-tools `SimpleMinCostFlow` | `FlowSolver` | `SolverSound` (an optimal status comes with a feasible flow); for C11 also optimality |
| OR-tools `pywraplp` integer program | `MipSolver` | feasibility and optimality of the values reported as optimal (C40) |
| `np.linalg.lstsq` | `Lstsq` | `Spec.LeastSquares` (C40, C42); within a distance of one and bounded, `Spec.LstsqNear` (C76), `Spec.ConsistentLstsq` (C70, C71, C73) |
| `scipy.sparse.linalg.cg` + `spilu` | `LinSolver` | `Spec.ExactSolver`, only for C42 and C65; `Spec.CgWithin` (absolute error), only for C70 and C71; `Spec.CgConverges` (stopping rule), only for C72; otherwise arbitrary answers and non-zero `info` |
| `scipy.optimize.brute` | `Brute` | `Spec.BruteOk` (C59, C78 and the witness of C51) |
| libm and numpy's `float64` sums and products in `links/` | `LinkArith` | `Spec.LinkArithOk`: error bounds (C78) |
| `np.percentile`, `median`, `argsort`, `unique`, `intersect1d`, `digitize`, `where` … | defined in the model | exact arithmetic instead of floats |
| h5py, rasterio, json, the file system | `Disk`, `Write`, `Json`, `Band` | a file is created empty, its datasets become visible one by one in program order; only `Disk` files matter; a raster is `none` until it is closed |
| `multiprocessing`, `ProcessPoolExecutor` | arbitrary permutations; in the workflow arbitrary interleavings of the writes of all tasks | `fork` workers are deterministic functions of their input |

### Modelled

`utils/`: all of `_tiling.py` (bounding boxes, tile sets, JSON, regular and density tilings, dilation,
overlaps), `merge.py` (common points, deciles, `l2_min`, `l2_min_cg`, `dirichlet`, `dirichlet_graph`),
`_cpu.py`. `graph/`: Delaunay (from the triangles), Hop3, Reg2D, Laplacian, ordering of points.
`mcf/`: `utils.py` (phase differences, flood fill, dual edges, residues, costs) and `_ortools.py`
(residues, flow problem, unwrapping one and many). `links/`: coherence, Jacobian, grid search.
`io/`: 3-D readers, raster creation options, stack discovery, tile reading and masks. `workflows/emcf`: settings,
file names, solver (both stages, cube; also in mixed precision), `unwrap_tiles`, overlaps, bulk offsets, merge (`Tile`,
`_adjust_tiles`, writing; also in mixed precision), and the command-line workflow as a relation over folders, schedules, crash
points and exceptions.

### Not modelled

Floating point (except C17, C38, C26, C67, C69–C71, C73–C76, C78 and C85–C91 and C95), dtypes (except C54 and the `int16` statistics), log messages, progress
output, memory and time; of argument parsing the separator `--` and the exit status; what rasterio makes of the options of a raster (C77); the content of
`Raster` I/O of other drivers; `graph` protocol classes and plotting; signals and partial
writes below the level of one h5 dataset or one raster.

### Findings

Properties that are false of the code are stated and refuted (`_refuted` theorems): C07 (ties at half a
cycle), C17 (spatial worker count 0 with one CPU), C20 (closure of interferograms after spatial unwrapping), C26
(tile bounds in doubles), C31 (negative axis), C32 (coordinates of axes), C48 (".tif" in the folder
name), C50 (crash after a file was created), C51 (2-D weights), C54 (`int32` overflow), C58
(`enable_logging` of `l2_min_cg`), C60 (no or small overlaps, `dilation_factor = 0`), C83 (files of another
stack in the folders are taken over without a check). Smaller observations made while modelling:

* `create_tiles_*` rejects a bad shape only if both dimensions are wrong (`and`).
* `_get_max_degree` counts in `uint8` and wraps at 256 tiles over one pixel.
* `min_overlap_points < 11` lets `pairwise_unwrapped_diff_deciles` raise inside the overlap stage; the
  exception leaves a partial overlap file that later runs take as complete.
* With no recorded overlap `get_bulk_offsets` raises `IndexError` (C60).
* `_solve_l2_min` fixes only the globally largest tile; other components float.
* The statistics of overlaps are stored as `int16` and truncate. `np.percentile` is also called on an `int16` array,
  and numpy subtracts neighbouring entries in that type (Model/Percentile16.lean). `C38_int16` shows that the wrap-around
  changes nothing where the differences of a row are at most 32767 cycles apart, `C38_int16_bound_needed` that it does beyond.
  In `float64` (`C38_double`) the extremes and the median, the only statistic later stages use, are exact. The others are within 1/100
  (`C38_double_near`), and truncation may then store one cycle less: 63 zeros and 28 ones have 70th percentile 1, stored as 0
  (`C38_double_truncated_refuted`).
* `centroid_costs` on triangles: in a tie (means 8 pixels apart with the default scale) the rounding of the means decides
  between the two nearest costs (`C74_centroid_tie_refuted`).
* A phase-linked stack whose reference date is the latest has no file for `dates[-1]`: the output rasters have no CRS and no transform
  (`C77_reference_last_refuted`).
* Docstrings of the costs say `1 + d/scale`; the code computes `1 + scale/d`.
* `Reg2DGraph` rejects grids with one row or column; boxes that touch at an edge "intersect".
* `MergerSettings` validates neither `min_overlap_points` nor `num_parallel_ifgs`; `SolverSettings`
  rejects `num_parallel_tiles = 0` although its docstring allows it.
* `graph_laplacian` has one row per point up to the largest linked one: isolated trailing points drop out.
* `compress_corrections` loses a correction if the shapes do not broadcast.
* `merge_tiles` with no interferogram raises (`np.arange` with step 0).
* `estimate_model_many` returns parameters by `(ndim, ninputs)`; the protocol documents the transpose.
* `l2_min` and `l2_min_cg` return `b - A x`, documented as `A x - b`; for a matrix without columns they return the
  residual 0. `l2_min_cg` on a symmetric semidefinite matrix solves `A x = b`, which may have no solution (C65).
* `GeneralSettings` makes its folders without `parents=True`: a nested output folder raises `FileNotFoundError` (C66).
* `flood_fill` compares values with an absolute tolerance of 1e-3 radians: the closure check is safe only while the
  roundings along the depth of the graph stay below it (C67). `EMCFSolver` passes it gradients rounded to
  `float32`, whose error is about 1e-6 for gradients of 16 radians: the margin is used up after some hundreds of links in
  the worst case (C73 proves it safe up to 550 rows plus columns of a grid for any data, 2000 for unaliased data).
