{"id": "C01", "title": "order_points is a canonical form for undirected links", "statement": "order_points(p) returns the same two numbers with the lower first; swapping the inputs or applying it twice does not change the result, and two pairs get the same result exactly when they are the same unordered pair.", "quantifier": "every pair of point indices", "why_tests_cant": "there are infinitely many pairs; every link table, dual edge and dictionary key in the package relies on the canonical form", "anchors": ["src/spurt/graph/utils.py:order_points"]}
{"id": "C02", "title": "Links of a triangulation are exactly the triangle sides", "statement": "For any list of triangles handed over by the triangulation, DelaunayGraph.links is strictly increasing in lexicographic order (hence has no duplicates), every row is a (lower, higher) side of some triangle, and every side of every triangle appears.", "quantifier": "every list of triangles, of any length", "why_tests_cant": "tests look at one quadrilateral; the statement is over all triangulations", "anchors": ["src/spurt/graph/_delaunay.py:DelaunayGraph._create_links"]}
{"id": "C03", "title": "Hop3Graph connects exactly the acquisitions at most three steps apart", "statement": "For every n >= 4, Hop3Graph(n).links is the sorted list of all pairs i < j < n with j - i <= 3, has 3n-6 rows (so the constructor's assertion can never fire), and for n < 4 the constructor raises ValueError.", "quantifier": "every number of acquisitions n", "why_tests_cant": "the test fixes n = 5; the link table must be right for every stack length", "anchors": ["src/spurt/graph/_hop3.py:Hop3Graph"]}
{"id": "C04", "title": "Hop3Graph satisfies the planar-graph contract", "statement": "For every n >= 4, Hop3Graph(n) has 2n-5 cycles of length 3 whose sides are all links; every link is traversed at most once in each direction and at least once overall; the links traversed only once are exactly those reported by boundary; Euler's formula holds; therefore ORMCFSolver(Hop3Graph(n)) can be constructed.", "quantifier": "every n >= 4", "why_tests_cant": "orientation errors at the two ends of the chain depend on n and a test of one n cannot exclude them", "anchors": ["src/spurt/graph/_hop3.py:Hop3Graph._create_cycles_and_links", "src/spurt/graph/_interface.py:PlanarGraphInterface", "src/spurt/mcf/_ortools.py:ORMCFSolver._prepare_dual"]}
{"id": "C05", "title": "Reg2DGraph is the 4-neighbour grid and satisfies the planar-graph contract", "statement": "For every shape with both sides >= 2, Reg2DGraph(shape).links are exactly the horizontally or vertically adjacent pixel pairs, without duplicates and lower index first; there is one length-4 cycle per unit square; every link is traversed at most once per direction and at least once overall; boundary lists exactly the links traversed once; the declared array sizes are exactly filled. A one-row or one-column grid is rejected by ORMCFSolver.", "quantifier": "every shape (rows, columns)", "why_tests_cant": "tests fix one shape", "anchors": ["src/spurt/graph/_delaunay.py:Reg2DGraph"]}
{"id": "C06", "title": "ORMCFSolver builds the right dual graph, and only for supported graphs", "statement": "Constructing ORMCFSolver(graph) for a graph with distinct links succeeds exactly when every cycle side is a link and every link lies on one or two cycles; then row i of dual_edges holds the 1-based numbers of the cycles through link i (0 for the missing second one) and dual_edge_dir holds +1 / -1 according to whether the cycle walks the link from lower to higher index, and 0 for the ground. Otherwise it raises.", "quantifier": "every planar graph object, i.e. every list of links and cycles", "why_tests_cant": "depends on the whole graph; tests only construct a few", "anchors": ["src/spurt/mcf/_ortools.py:ORMCFSolver._prepare_dual", "src/spurt/mcf/utils.py:sign_nonzero"]}
{"id": "C07", "title": "phase_diff wraps correctly", "statement": "phase_diff(z0, z1, model) differs from z1 - z0 by a whole number of cycles and lies within half a cycle of model; with model 0 it is antisymmetric in its arguments, is a fixed point of wrapping, and except at exact half-cycle ties adding whole cycles to either argument does not change it.", "quantifier": "all real z0, z1, model", "why_tests_cant": "real-valued inputs, including exact ties, cannot be enumerated", "anchors": ["src/spurt/mcf/utils.py:phase_diff"]}
{"id": "C08", "title": "Residues are exact integers and balanced", "statement": "compute_residues returns ncycles+1 integers that sum to zero; for every cycle the wrapped differences around it sum to exactly the residue times 2*pi (the rounding never discards anything). compute_residues_from_gradients also always sums to zero. A wrong-sized input raises ValueError. Hence residues produced by the package never trigger the 'MCF unbalanced' error.", "quantifier": "every graph and every phase vector", "why_tests_cant": "universal over data and graphs", "anchors": ["src/spurt/mcf/_ortools.py:ORMCFSolver.compute_residues", "src/spurt/mcf/_ortools.py:ORMCFSolver.compute_residues_from_gradients", "src/spurt/mcf/_ortools.py:solve_mcf"]}
{"id": "C09", "title": "Residues from points and from wrapped gradients agree", "statement": "For a supported graph and any phase vector, compute_residues(data) equals compute_residues_from_gradients(phase_diff along the links).", "quantifier": "every supported planar graph, every phase vector", "why_tests_cant": "the test checks one random triangulation", "anchors": ["src/spurt/mcf/_ortools.py:ORMCFSolver.compute_residues", "src/spurt/mcf/_ortools.py:ORMCFSolver.compute_residues_from_gradients"]}
{"id": "C10", "title": "Flows returned by the solver cancel the residues", "statement": "Whenever residues_to_flows returns (with a sound flow solver), adding the flows to the link gradients makes the sum around every cycle lose exactly its residue: the signed sum of flows around each cycle is minus the residue. Residues that do not sum to zero raise ValueError.", "quantifier": "every supported planar graph, every residue vector, every feasible answer of the flow solver", "why_tests_cant": "sign errors can hide on specific orientations; must hold for every feasible flow", "anchors": ["src/spurt/mcf/_ortools.py:solve_mcf", "src/spurt/mcf/_ortools.py:ORMCFSolver.residues_to_flows"]}
{"id": "C11", "title": "Returned flows are cheapest, with cost/revcost applied in the documented direction", "statement": "With nonnegative costs and an optimal flow solver, no other integer link correction that cancels the same residues (and respects the capacity) has smaller total cost, where a positive unit on a link costs `cost` and a negative unit costs `revcost` (default: cost).", "quantifier": "every supported graph, residues, cost vectors and competing corrections", "why_tests_cant": "optimality quantifies over all competitors", "anchors": ["src/spurt/mcf/_ortools.py:solve_mcf"]}
{"id": "C12", "title": "flood_fill: what a successful return guarantees", "statement": "If flood_fill returns, every point was reached, every link satisfies |out[b]-out[a]-(gradient+2*pi*flow)| <= 1e-3, the first point is 0 in gradient mode and equals the input in points mode, and in points mode every output differs from the input by a whole number of cycles.", "quantifier": "all data, links, integer flows and both modes", "why_tests_cant": "BFS order and closure depend on the whole graph", "anchors": ["src/spurt/mcf/utils.py:flood_fill"]}
{"id": "C13", "title": "flood_fill: when it succeeds and when it refuses", "statement": "If the link gradients plus flows are the differences of some potential and the graph is connected, flood_fill returns exactly that potential shifted to the reference; if the graph is not connected it raises; if some closed walk has closure error it cannot silently return values whose link errors exceed the tolerance; mismatched sizes or an unknown mode raise ValueError; it always terminates.", "quantifier": "all link graphs, data, flows", "why_tests_cant": "termination and completeness over all graphs", "anchors": ["src/spurt/mcf/utils.py:flood_fill"]}
{"id": "C14", "title": "unwrap_one never fails on wrapped data and returns the input modulo 2*pi", "statement": "For Hop3Graph and Reg2DGraph (and any graph meeting the planar contract whose cycles generate all closed walks), and any wrapped phase vector, unwrap_one with a complete and sound flow solver returns; each output equals the input plus a whole number of cycles; differences along each link equal the wrapped difference plus 2*pi times the returned flow; the first point is unchanged.", "quantifier": "every graph size, every wrapped phase vector, every cost vector", "why_tests_cant": "end-to-end over all data", "anchors": ["src/spurt/mcf/_ortools.py:ORMCFSolver.unwrap_one"]}
{"id": "C15", "title": "Unaliased data is recovered exactly (Itoh)", "statement": "If neighbouring true phases differ by less than half a cycle along every link, unwrapping the wrapped data gives zero flows and returns the true phase up to one global whole number of cycles.", "quantifier": "every supported graph and every true phase field without aliasing", "why_tests_cant": "universal over phase fields", "anchors": ["src/spurt/mcf/_ortools.py:ORMCFSolver.unwrap_one", "src/spurt/mcf/utils.py:flood_fill"]}
{"id": "C16", "title": "Batch flow solving does not depend on workers, chunking or completion order", "statement": "residues_to_flows_many returns, row by row, what residues_to_flows returns for that row, whatever the worker count, chunk size and order in which results arrive; it raises exactly when some row would raise or the row width is wrong.", "quantifier": "every residue matrix, worker count and completion order", "why_tests_cant": "schedules cannot be enumerated by tests", "anchors": ["src/spurt/mcf/_ortools.py:ORMCFSolver.residues_to_flows_many", "src/spurt/mcf/_ortools.py:wrap_solve_mcf"]}
{"id": "C17", "title": "Worker counts are always usable", "statement": "get_cpu_count returns at least 1 (the rounded-up cgroup quota when one is set and readable, otherwise cpu_count()); a non-positive or missing worker count is replaced by a count of at least 1 in residues_to_flows_many, estimate_model_many and the spatial unwrapping stage.", "quantifier": "every cgroup quota/period/readability and CPU count", "why_tests_cant": "depends on the host; a test runs on one host", "anchors": ["src/spurt/utils/_cpu.py:get_cpu_count", "src/spurt/mcf/_ortools.py:ORMCFSolver.residues_to_flows_many", "src/spurt/workflows/emcf/_solver.py:EMCFSolver.unwrap_gradients_in_space", "src/spurt/links/_grid_search.py:GridSearchLinearModel.estimate_model_many"]}
{"id": "C18", "title": "Built-in link costs are valid MCF costs", "statement": "distance_costs gives every link an integer cost >= 1 that never increases with distance; centroid_costs gives 0 to boundary links and an integer >= 1 to interior links whose two cycle centroids differ; for Hop3Graph the centroids of neighbouring cycles always differ, so both cost types are well defined for every stack length.", "quantifier": "all point sets, graphs and positive scales", "why_tests_cant": "universal over geometry", "anchors": ["src/spurt/mcf/utils.py:distance_costs", "src/spurt/mcf/utils.py:centroid_costs"]}
{"id": "C19", "title": "Temporal unwrapping does not depend on the batch size", "statement": "unwrap_gradients_in_time gives the same gradients for every links_per_batch > 0: each spatial link is processed exactly once and with only its own data.", "quantifier": "every number of links, every batch size, every data cube", "why_tests_cant": "off-by-one errors appear for particular size/batch combinations", "anchors": ["src/spurt/workflows/emcf/_solver.py:EMCFSolver.unwrap_gradients_in_time"]}
{"id": "C20", "title": "Temporally unwrapped gradients close in time and stay congruent to the data", "statement": "For every spatial link, the gradients returned by unwrap_gradients_in_time differ from the wrapped (double) difference by a whole number of cycles and, for SLC input and for interferograms that are differences of acquisition phases up to whole cycles, sum to exactly zero around every cycle of the temporal graph; for arbitrary interferograms the sum around a cycle is within half a cycle.", "quantifier": "all data cubes, temporal graphs and spatial links", "why_tests_cant": "universal over data", "anchors": ["src/spurt/workflows/emcf/_solver.py:EMCFSolver.unwrap_gradients_in_time", "src/spurt/workflows/emcf/_solver.py:EMCFSolver._ifg_spatial_gradients_from_slc"]}
{"id": "C21", "title": "unwrap_cube and the stored tile are congruent to the wrapped interferograms", "statement": "unwrap_cube returns for every stack of wrapped SLC phases (complete, optimal flow solver, constant temporal cost). Every interferogram it returns is zero at the first pixel and differs from the wrapped interferogram referenced to the first pixel by whole cycles at every pixel; after adding the stored phase_offset it differs from the wrapped interferogram itself by whole cycles, so two tiles always differ by whole cycles on common pixels.", "quantifier": "all SLC stacks, all graphs meeting the contract, all tiles", "why_tests_cant": "end-to-end over all data", "anchors": ["src/spurt/workflows/emcf/_solver.py:EMCFSolver.unwrap_cube", "src/spurt/workflows/emcf/_unwrap.py:_unwrap_one_tile", "src/spurt/workflows/emcf/_overlap.py:_load_uw_tile"]}
{"id": "C22", "title": "unwrap_cube interprets its input unambiguously", "statement": "An input with nepochs rows is treated as SLCs, one with nifgs rows as interferograms, anything else (or a time axis other than 0) raises; for Hop3Graph the two row counts never coincide, so the interpretation is unambiguous for every stack.", "quantifier": "every stack length and input shape", "why_tests_cant": "universal over sizes", "anchors": ["src/spurt/workflows/emcf/_solver.py:EMCFSolver.unwrap_cube"]}
{"id": "C23", "title": "Spatial unwrapping does not depend on completion order", "statement": "unwrap_gradients_in_space places each interferogram's result in its own row for every order in which the worker futures complete, and equals processing the interferograms one after the other.", "quantifier": "every completion order", "why_tests_cant": "schedules cannot be enumerated", "anchors": ["src/spurt/workflows/emcf/_solver.py:EMCFSolver.unwrap_gradients_in_space", "src/spurt/workflows/emcf/_solver.py:_unwrap_ifg_in_space"]}
{"id": "C24", "title": "BBox.intersects is the closed-rectangle intersection test", "statement": "intersects is symmetric and, for boxes with min <= max, true exactly when some point lies in both closed rectangles; so two tiles sharing a pixel always intersect. count is the number of pixels selected by space, and tolist/from_shapely_bounds are inverse; wrong-length bounds raise.", "quantifier": "all integer boxes", "why_tests_cant": "infinitely many boxes", "anchors": ["src/spurt/utils/_tiling.py:BBox"]}
{"id": "C25", "title": "get_overlaps lists every intersecting pair once", "statement": "TileSet.get_overlaps returns, in lexicographic order and without repetition, exactly the pairs i < j of tile indices whose boxes intersect.", "quantifier": "every tile set", "why_tests_cant": "universal over tile sets", "anchors": ["src/spurt/utils/_tiling.py:TileSet.get_overlaps"]}
{"id": "C26", "title": "create_tiles_regular partitions the image", "statement": "For every positive shape and max_tiles >= 1 every pixel of the image lies in exactly one tile and the tiles lie inside the image; a non-positive max_tiles, or a shape with both sides non-positive, raises.", "quantifier": "every shape and max_tiles", "why_tests_cant": "rounding of tile edges depends on the exact sizes", "anchors": ["src/spurt/utils/_tiling.py:create_tiles_regular"]}
{"id": "C27", "title": "create_tiles_density partitions the image", "statement": "For every point set inside the image, whenever create_tiles_density returns, the number of tiles is the requested perfect square and every pixel of the image lies in exactly one tile, whatever the density of the points and whichever cuts score best.", "quantifier": "every point set, shape and tile count", "why_tests_cant": "recursive cuts over arbitrary point sets", "anchors": ["src/spurt/utils/_tiling.py:create_tiles_density", "src/spurt/utils/_tiling.py:split_rectangle"]}
{"id": "C28", "title": "dilate only grows tiles and stays inside the image", "statement": "For factor >= 0 each dilated tile contains the original, stays inside the image, keeps its index, and grows monotonically with the factor; so coverage is preserved.", "quantifier": "all tile sets inside the image, all factors >= 0", "why_tests_cant": "real-valued factor and truncation", "anchors": ["src/spurt/utils/_tiling.py:TileSet.dilate"]}
{"id": "C29", "title": "Tile sets survive the JSON round trip", "statement": "TileSet.from_json(to_json(t)) gives the same shape and the same boxes in the same order.", "quantifier": "every tile set", "why_tests_cant": "universal over tile sets", "anchors": ["src/spurt/utils/_tiling.py:TileSet.to_json", "src/spurt/utils/_tiling.py:TileSet.from_json"]}
{"id": "C30", "title": "The number of tiles never exceeds max_tiles", "statement": "create_tiles_regular and create_tiles_density return k*k tiles with k the integer square root of max_tiles; get_tiles writes a tile set with at least 1 and at most TilerSettings.max_tiles tiles, a perfect square, and never replaces an existing tiles file.", "quantifier": "every number of points and every accepted setting", "why_tests_cant": "universal over settings", "anchors": ["src/spurt/utils/_tiling.py:create_tiles_regular", "src/spurt/utils/_tiling.py:create_tiles_density", "src/spurt/workflows/emcf/_tiling.py:get_tiles"]}
{"id": "C31", "title": "Reg3DInput: time and space slices view the same cube", "statement": "For every cube and time axis 0, 1 or 2, shape is consistent with time_dim/space_dim, get_time_slice(t)[s] equals get_spatial_slice(s)[t] and both equal the cube element at time t and flattened position s; non-3D data or time_dim >= 3 raise.", "quantifier": "all cubes, axes and indices", "why_tests_cant": "index arithmetic over all shapes", "anchors": ["src/spurt/io/_three_d.py:Reg3DInput"]}
{"id": "C32", "title": "Reg3DInput: coordinates describe the spatial points", "statement": "xcoords and ycoords have one entry per spatial point, and entry s is the column / row of flattened position s.", "quantifier": "all cubes and axes", "why_tests_cant": "index arithmetic over all shapes", "anchors": ["src/spurt/io/_three_d.py:Reg3DInput.xcoords", "src/spurt/io/_three_d.py:Reg3DInput.ycoords"]}
{"id": "C33", "title": "Irreg3DInput accepts exactly consistent data and slices it consistently", "statement": "Construction succeeds exactly for 2D data, 2D coordinates, time axis 0 or 1 and one coordinate row per spatial column; then get_time_slice(t)[s] = get_spatial_slice(s)[t] = the stored value.", "quantifier": "all arrays and axes", "why_tests_cant": "universal over shapes", "anchors": ["src/spurt/io/_three_d.py:Irreg3DInput"]}
{"id": "C34", "title": "Raster opening and creation obey their argument rules", "statement": "Raster() opens only modes r and r+ and only band indices 1..count; Raster.create always creates exactly one band, explicit arguments override extra keyword options, which override the profile of `like`.", "quantifier": "all argument combinations", "why_tests_cant": "combinatorial argument space", "anchors": ["src/spurt/io/_raster.py:Raster.__init__", "src/spurt/io/_raster.py:Raster.create"]}
{"id": "C35", "title": "Scanning an SLC folder yields one entry per acquisition, in date order, or an error", "statement": "from_phase_linked_directory succeeds exactly when there is at least one *.int.tif file, the coherence file exists, every file starts with the date of the first file in sorted order and has a second date after an underscore, and the second dates are distinct and differ from the first; then dates is strictly increasing, contains the reference date and each second date once, and only the reference date has no file. from_slc_directory accepts exactly distinct dates.", "quantifier": "every directory listing", "why_tests_cant": "universal over file names", "anchors": ["src/spurt/io/_slc_stack.py:SLCStackReader.from_phase_linked_directory", "src/spurt/io/_slc_stack.py:SLCStackReader.from_slc_directory"]}
{"id": "C36", "title": "read_tile columns line up with the graph points of the tile", "statement": "For every tile, read_tile returns one column per pixel with coherence strictly above the threshold, in row-major order, the same pixels in the same order as the points used to build the spatial graph of that tile (so the assertion in the tile worker cannot fire); column k of date d is the SLC value at pixel k, and 1 for the reference date.", "quantifier": "all rasters, thresholds and tiles", "why_tests_cant": "universal over rasters", "anchors": ["src/spurt/io/_slc_stack.py:SLCStackReader.read_tile", "src/spurt/workflows/emcf/_unwrap.py:_unwrap_one_tile"]}
{"id": "C37", "title": "find_common_points finds exactly the common pixels", "statement": "For non-negative point sets the returned index arrays have equal length, pair up equal coordinates, contain every common coordinate exactly once, in row-major order; negative coordinates raise.", "quantifier": "all pairs of integer point sets", "why_tests_cant": "flattening collisions depend on the coordinates", "anchors": ["src/spurt/utils/merge.py:find_common_points"]}
{"id": "C38", "title": "Overlap statistics are ordered, bounded and exact for constant offsets", "statement": "pairwise_unwrapped_diff_deciles accepts exactly equal-shaped 2D arrays with at least 11 columns whose differences are whole cycles (within tolerance); its 11 values per band are nondecreasing, the first is the smallest and the last the largest cycle difference, the sixth is the median; if all pixels differ by k cycles all 11 values are k. In double precision the extremes, the median and constant rows stay exact and the other values are within 1/100 (rows of up to 2^30 pixels). (Rows whose differences are more than 32767 cycles apart are excluded: np.percentile subtracts neighbours in int16.)", "quantifier": "all pairs of arrays", "why_tests_cant": "order statistics over all inputs", "anchors": ["src/spurt/utils/merge.py:pairwise_unwrapped_diff_deciles"]}
{"id": "C39", "title": "Integer bulk offsets reproduce consistent tile offsets", "statement": "With an optimal integer solver: if the observed pairwise offsets come from per-tile integers, the reported residual is 0 and the solution reproduces every pairwise offset and equals the per-tile integers relative to the largest tile of each connected component, which gets 0; conversely residual 0 means the offsets are consistent.", "quantifier": "all overlap graphs, offsets and optimal solver answers", "why_tests_cant": "universal over graphs and optimal solutions", "anchors": ["src/spurt/workflows/emcf/_bulk_offset.py:_solve_int_offsets"]}
{"id": "C40", "title": "Least-squares bulk offsets reproduce consistent tile offsets", "statement": "With any exact least-squares solution: consistent offsets give zero residual and all pairwise offsets are reproduced; the largest tile gets offset 0; on a connected overlap graph the answer is unique.", "quantifier": "all overlap graphs, offsets and least-squares solutions", "why_tests_cant": "universal over graphs and minimisers", "anchors": ["src/spurt/workflows/emcf/_bulk_offset.py:_solve_l2_min", "src/spurt/utils/merge.py:l2_min"]}
{"id": "C41", "title": "Tile correction bookkeeping never loses or double-counts a correction", "statement": "For every sequence of Tile operations, uw_phase is the raw phase plus the sum of the corrections up to the current level, raw_uw_phase is unaffected by corrections, reset_band_index forgets all corrections, and compress_corrections keeps the total; in the merge procedure compress never raises.", "quantifier": "every operation history", "why_tests_cant": "histories are unbounded", "anchors": ["src/spurt/workflows/emcf/_output.py:Tile", "src/spurt/workflows/emcf/_merge.py:_adjust_tiles"]}
{"id": "C42", "title": "Dirichlet solutions honour the fixed values and have no extrema elsewhere", "statement": "dirichlet and dirichlet_graph return exactly the fixed values on the mask whatever the inner solver does; with an exact inner solver and a Laplacian of a connected graph, every other value lies between the smallest and the largest fixed value, and the solution is unique.", "quantifier": "all graphs, masks, fixed values, inner solvers", "why_tests_cant": "universal over graphs and data", "anchors": ["src/spurt/utils/merge.py:dirichlet", "src/spurt/utils/merge.py:dirichlet_graph"]}
{"id": "C43", "title": "graph_laplacian is the graph Laplacian", "statement": "For links between distinct points the matrix is symmetric, has zero row sums, the degree of each point on the diagonal and minus the number of links off it; its quadratic form is the sum of squared link differences, and on a connected graph it vanishes only on constants.", "quantifier": "every link list", "why_tests_cant": "universal over graphs", "anchors": ["src/spurt/graph/utils.py:graph_laplacian"]}
{"id": "C44", "title": "Merged output is congruent to the tile phases and close to the merge model", "statement": "In the raster written by write_merged_band, a pixel in no tile is NaN, every other pixel differs from the raw phase of a tile containing it by whole cycles, lies within half a cycle of the model (the mean of the corrected tiles at that pixel, which lies between their minimum and maximum), and diff is the spread where two or more tiles overlap and NaN elsewhere.", "quantifier": "all tile sets, coordinates and phases", "why_tests_cant": "universal over data", "anchors": ["src/spurt/workflows/emcf/_output.py:write_merged_band", "src/spurt/workflows/emcf/_output.py:write_single_tile"]}
{"id": "C45", "title": "Merging does not depend on tile order within a level nor on batching of interferograms", "statement": "Within one overlap degree the corrections of the tiles do not depend on the order in which tiles are processed, and the merged bands are the same for every num_parallel_ifgs and for every subset of bands already written by an earlier run.", "quantifier": "every tile order, batch size and set of existing outputs", "why_tests_cant": "schedules and histories", "anchors": ["src/spurt/workflows/emcf/_merge.py:merge_tiles", "src/spurt/workflows/emcf/_merge.py:_adjust_tiles"]}
{"id": "C46", "title": "Tiles that differ by whole cycles merge seamlessly", "statement": "If every tile equals one common phase field plus its own whole number of cycles and the bulk offsets reproduce these numbers, then the merged raster equals the common field plus one constant number of cycles on every covered pixel, and the diff raster is 0 on overlaps.", "quantifier": "all phase fields, tile sets, cycle numbers", "why_tests_cant": "end-to-end over all data", "anchors": ["src/spurt/workflows/emcf/_merge.py:merge_tiles", "src/spurt/workflows/emcf/_output.py:write_merged_band"]}
{"id": "C47", "title": "Settings objects reject exactly the invalid values", "statement": "SolverSettings, TilerSettings and MergerSettings can be constructed exactly for: known cost types, at least one link per batch, positive cost scales, at least one parallel tile, and with two or more parallel tiles explicit positive worker counts; at least one tile, non-negative dilation and positive point targets; bulk method integer or L2 and merge method dirichlet. Everything else raises ValueError.", "quantifier": "all settings values", "why_tests_cant": "unbounded value space", "anchors": ["src/spurt/workflows/emcf/_settings.py"]}
{"id": "C48", "title": "Intermediate and output names never collide", "statement": "Different tile numbers give different tile file names, different tile pairs give different overlap group names, different date pairs give different output names, and tile files never coincide with the other intermediate files.", "quantifier": "all tile numbers, pairs and dates", "why_tests_cant": "formatting of unbounded integers", "anchors": ["src/spurt/workflows/emcf/_settings.py:GeneralSettings"]}
{"id": "C49", "title": "Re-running the workflow never overwrites results and resumes correctly between completed files", "statement": "Running the EMCF stages again, however the run ends, leaves every existing intermediate and output file unchanged (the _diff and _model companions of an interferogram count as present when its .unw.tif is); running a completed workflow is a no-op; and a run that starts from any subset of the files of a completed run (for example after any number of interruptions between files) never raises and ends in exactly the files of the completed run, for every completion order of its worker pools.", "quantifier": "every interruption point between complete files, every set of already present files, every schedule", "why_tests_cant": "crash points and histories", "anchors": ["src/spurt/workflows/emcf/_cli.py:main", "src/spurt/workflows/emcf/_tiling.py:get_tiles", "src/spurt/workflows/emcf/_unwrap.py:unwrap_tiles", "src/spurt/workflows/emcf/_overlap.py:compute_phasediff_deciles", "src/spurt/workflows/emcf/_bulk_offset.py:get_bulk_offsets", "src/spurt/workflows/emcf/_merge.py:merge_tiles"]}
{"id": "C50", "title": "The workflow recovers from a crash at any write", "statement": "If the process dies at any point of writing its files, running the workflow again completes with the same results as an uninterrupted run.", "quantifier": "every crash point inside a stage", "why_tests_cant": "crash points cannot be enumerated by unit tests", "anchors": ["src/spurt/workflows/emcf/_overlap.py:compute_phasediff_deciles", "src/spurt/workflows/emcf/_output.py:write_merged_band", "src/spurt/workflows/emcf/_unwrap.py:_dump_tile_to_h5"]}
{"id": "C51", "title": "Batch model estimation equals column-wise estimation, with per-column weights", "statement": "estimate_model_many returns for each column what estimate_model returns for that column with that column's weights (common scalar / 1D weights, or a 2D weight array of the data's shape), for every worker count and completion order.", "quantifier": "all data, weights, worker counts and schedules", "why_tests_cant": "schedules and shapes", "anchors": ["src/spurt/links/_grid_search.py:GridSearchLinearModel.estimate_model_many"]}
{"id": "C52", "title": "Temporal coherence lies in [0,1] and its Jacobian is its gradient", "statement": "For non-negative weights summing to 1 the temporal coherence is between 0 and 1, equals 1 on a perfect fit, is unchanged by adding whole cycles or a common constant to the data; neg_temporal_coherence_with_jacobian returns the same value and its true gradient wherever the coherence is non-zero.", "quantifier": "all matrices, parameters, data and weights", "why_tests_cant": "calculus over the reals", "anchors": ["src/spurt/links/_common.py"]}
{"id": "C53", "title": "The overlap map is the symmetric adjacency of the recorded overlaps", "statement": "In the map used by the merge, tile j is listed for tile i exactly as often as {i, j} was recorded as an overlap; every tile has an entry; only pairs with at least min_overlap_points common pixels are recorded.", "quantifier": "all overlap lists", "why_tests_cant": "universal over overlap lists", "anchors": ["src/spurt/workflows/emcf/_merge.py:_get_overlap_map", "src/spurt/workflows/emcf/_overlap.py:compute_phasediff_deciles"]}
{"id": "C54", "title": "find_common_points is safe in the 32-bit arithmetic the workflow uses", "statement": "With 32-bit integer coordinates, as stored in the tile files, find_common_points still returns exactly the common pixels.", "quantifier": "all point sets with 32-bit coordinates", "why_tests_cant": "overflow only occurs for very large rasters", "anchors": ["src/spurt/utils/merge.py:find_common_points", "src/spurt/workflows/emcf/_overlap.py:_load_uw_tile"]}
{"id": "C55", "title": "Tile files contain the coherent pixels of the tile and phases congruent to the stack", "statement": "When a tile is unwrapped, its file lists exactly the pixels of the tile whose temporal coherence exceeds the threshold, each once in row-major order, and stored phase plus stored offset equals the wrapped interferogram computed from the input SLC stack plus whole cycles, at every pixel and interferogram, for every schedule of the worker pools; two tiles therefore agree up to whole cycles at common pixels, and the overlap stage accepts the files.", "quantifier": "all stacks, tiles, temporal graphs, sound flow solvers and pool schedules", "why_tests_cant": "universal over inputs and schedules", "anchors": ["src/spurt/workflows/emcf/_unwrap.py:_unwrap_one_tile", "src/spurt/workflows/emcf/_overlap.py:compute_phasediff_deciles", "src/spurt/workflows/emcf/_solver.py:Solver"]}
{"id": "C56", "title": "After adjustment overlapping tiles agree wherever their overlaps are recorded", "statement": "At every pixel all of whose covering tiles pairwise have a recorded overlap, the adjusted tiles take one common value, so the diff raster is 0 there; and every valid pixel of a merged raster is congruent to the wrapped interferogram of the input stack.", "quantifier": "all tile sets, phases, inner solvers", "why_tests_cant": "universal over data and solver answers", "anchors": ["src/spurt/workflows/emcf/_merge.py:_adjust_tiles", "src/spurt/workflows/emcf/_output.py:write_merged_band"]}
{"id": "C57", "title": "End to end, a phase field cut into tiles is merged back", "statement": "If each tile file holds one common phase field plus its own whole number of cycles and the recorded overlaps connect the tiles, then overlap statistics, bulk offsets and merge together return that field plus one constant number of cycles.", "quantifier": "all phase fields, tile sets, cycle numbers, solver answers", "why_tests_cant": "composition of three stages over all data", "anchors": ["src/spurt/workflows/emcf/_overlap.py:compute_phasediff_deciles", "src/spurt/workflows/emcf/_bulk_offset.py:get_bulk_offsets", "src/spurt/workflows/emcf/_merge.py:merge_tiles"]}
{"id": "C58", "title": "Logging does not change results", "statement": "dirichlet, dirichlet_graph and l2_min_cg return the same results with and without enable_logging.", "quantifier": "all matrices, right-hand sides and solver answers", "why_tests_cant": "universal over inputs", "anchors": ["src/spurt/utils/merge.py:l2_min_cg", "src/spurt/utils/merge.py:dirichlet", "src/spurt/utils/merge.py:dirichlet_graph"]}
{"id": "C59", "title": "Grid search returns a best fit", "statement": "estimate_model returns the temporal coherence of the parameters it returns; no grid point has a larger coherence; it is in [0,1] for normalised weights; and if some grid point fits the data up to whole cycles and a common constant, so do the returned parameters, with coherence 1.", "quantifier": "all matrices, grids, data, weights and optimiser answers meeting the contract of scipy.optimize.brute", "why_tests_cant": "universal over data and optimiser answers", "anchors": ["src/spurt/links/_grid_search.py:GridSearchLinearModel.estimate_model", "src/spurt/links/_grid_search.py:solve"]}
{"id": "C60", "title": "A well-posed job completes, whichever tiles overlap", "statement": "With accepted settings, a connected image whose tiles can all be unwrapped, and libraries that answer, a run of the workflow from an empty folder completes: no choice of dilation_factor, min_overlap_points or tile layout makes it raise.", "quantifier": "all stacks, tilings, settings and solver answers", "why_tests_cant": "composition of all stages over all data and settings", "anchors": ["src/spurt/workflows/emcf/_cli.py:main", "src/spurt/workflows/emcf/_overlap.py:compute_phasediff_deciles", "src/spurt/workflows/emcf/_bulk_offset.py:get_bulk_offsets", "src/spurt/workflows/emcf/_settings.py:MergerSettings", "src/spurt/workflows/emcf/_settings.py:TilerSettings"]}
{"id": "C61", "title": "The rasters of a completed workflow are congruent to the input interferograms", "statement": "After a run of the workflow from an empty folder has completed, with or without interruptions on the way, each interferogram has a raster of the size of the image; it has a value exactly at the pixels of the image whose coherence exceeds the threshold, and that value differs from the wrapped interferogram formed from the input stack by a whole number of cycles.", "quantifier": "all stacks, coherence rasters, settings, tilings, solver answers, completion orders and interruption histories", "why_tests_cant": "composition of all stages over all data and schedules", "anchors": ["src/spurt/workflows/emcf/_cli.py:main", "src/spurt/workflows/emcf/_unwrap.py:unwrap_tiles", "src/spurt/workflows/emcf/_merge.py:merge_tiles", "src/spurt/workflows/emcf/_output.py:write_merged_band"]}
{"id": "C62", "title": "An unaliased stack is unwrapped exactly", "statement": "If the true phase changes by less than half a cycle along every link of the spatial graph in every interferogram, unwrap_cube, and the unwrapping of a tile, return it exactly up to one number of cycles per interferogram, for SLC and interferogram input, whatever the flow solver answers and in whatever order the pools complete.", "quantifier": "all phase fields, graphs, batch sizes, costs, schedules, solver answers", "why_tests_cant": "universal over data and schedules", "anchors": ["src/spurt/workflows/emcf/_solver.py:Solver.unwrap_cube", "src/spurt/mcf/_interface.py:MCFSolverInterface.unwrap_one", "src/spurt/workflows/emcf/_unwrap.py:_unwrap_one_tile"]}
{"id": "C63", "title": "The workflow recovers an unaliased stack", "statement": "If the true phase is unaliased on every tile, the overlaps with at least min_overlap_points (at least 11) common pixels join the tiles, and the libraries answer, then a run of the workflow from an empty folder completes, and after any completed run the raster of each interferogram is the true interferogram plus one number of cycles at every coherent pixel and has no value elsewhere.", "quantifier": "all stacks, coherence rasters, tilings, schedules and solver answers", "why_tests_cant": "composition of all stages over all data and schedules", "anchors": ["src/spurt/workflows/emcf/_cli.py:main", "src/spurt/workflows/emcf/_unwrap.py:unwrap_tiles", "src/spurt/workflows/emcf/_bulk_offset.py:get_bulk_offsets", "src/spurt/workflows/emcf/_merge.py:merge_tiles", "src/spurt/workflows/emcf/_output.py:write_merged_band"]}
{"id": "C64", "title": "Bulk offsets survive local unwrapping errors", "statement": "If at more than half of the pixels common to any two tiles with a recorded overlap the tiles differ by the right whole number of cycles, while the other pixels may be wrong by any number of cycles, the bulk offsets computed by the workflow align the tiles as if there were no errors.", "quantifier": "all tile files, overlaps, error patterns and solver answers", "why_tests_cant": "universal over error patterns", "anchors": ["src/spurt/workflows/emcf/_bulk_offset.py:get_bulk_offsets", "src/spurt/workflows/emcf/_overlap.py:compute_phasediff_deciles", "src/spurt/utils/merge.py:pairwise_unwrapped_diff_deciles"]}
{"id": "C65", "title": "l2_min and l2_min_cg return least-squares solutions", "statement": "For every matrix shape, l2_min, and l2_min_cg on a matrix that is not symmetric or is symmetric and positive definite, return a vector with one value per column minimising the norm of A x - b, together with b - A x; both report the same residual, which is orthogonal to the columns; and they return for every right-hand side with one value per row.", "quantifier": "all matrices, right-hand sides and solver answers meeting the library contracts", "why_tests_cant": "universal over matrices and answers", "anchors": ["src/spurt/utils/merge.py:l2_min", "src/spurt/utils/merge.py:l2_min_cg"]}
{"id": "C66", "title": "The command line does what its options say", "statement": "main accepts options in any order, written apart from their value, with an equals sign, attached to a one-letter name or as an unambiguous beginning of the name, and nothing else; the last value of a repeated option wins, options not given have the documented defaults, and each option reaches the setting it is documented for; the setup succeeds exactly for a folder with a coherence raster and at least three interferograms from one first date, folders that can be made and options in range. When a call on empty folders has completed, the output folder has, for any two dates at most three acquisitions apart, a raster FIRST_SECOND.unw.tif which has a value exactly where the coherence exceeds the threshold given, the phase difference of the two dates plus whole cycles; for an unaliased stack the call completes and the raster is the true phase difference plus one constant number of cycles.", "quantifier": "all command lines, input folders, images, solver answers and schedules", "why_tests_cant": "universal over command lines, folder contents and data", "anchors": ["src/spurt/workflows/emcf/_cli.py:main", "src/spurt/workflows/emcf/_settings.py:GeneralSettings", "src/spurt/io/_slc_stack.py:SLCStackReader.from_phase_linked_directory", "src/spurt/graph/_hop3.py:Hop3Graph"]}
{"id": "C67", "title": "Rounding does not spoil the unwrapping of points and gradients", "statement": "In floating-point arithmetic phase_diff, compute_residues, flood_fill and unwrap_one keep their promises: a wrapped difference is the difference less a whole number of cycles up to three roundings; the residues are exact; when flood_fill returns, its result is the input plus whole cycles that differ along every link by exactly the flow and the cycles removed by wrapping, up to six roundings per link walked; closed flows are never refused because of rounding as long as the roundings along the depth of the graph stay within the tolerance; an unaliased phase is recovered whatever the solver. In double precision this covers every time series of up to 2048 acquisitions and every unaliased grid of up to 65536 rows plus columns.", "quantifier": "all roundings with a bounded error, all graphs, phases, gradients, flows and solvers within the stated room", "why_tests_cant": "universal over roundings, inputs and graph sizes; accumulated rounding depends on the whole path", "anchors": ["src/spurt/mcf/utils.py:phase_diff", "src/spurt/mcf/utils.py:flood_fill", "src/spurt/mcf/_ortools.py:ORMCFSolver.compute_residues", "src/spurt/mcf/_ortools.py:ORMCFSolver.unwrap_one"]}
{"id": "C68", "title": "Unwrapping adds the cheapest whole cycles", "statement": "Among all point values that differ from the wrapped data by whole cycles, unwrap_one returns values that need the cheapest cycles on top of the wrapped differences along the links: cost for a cycle up, revcost for a cycle down. unwrap_gradients_in_time adds, for every spatial link, the cheapest whole cycles that make the wrapped gradients close around the temporal cycles, at the costs selected by t_cost_type (1 per link, by length, or by distance of centroids); unwrap_gradients_in_space integrates the gradients of every interferogram with the cheapest whole cycles, at the costs selected by s_cost_type; unwrap_cube does both. An unknown cost type raises.", "quantifier": "all graphs meeting the planar contract, data, costs, settings, optimal flow solvers, schedules, and all competing solutions with at most 2^31-1 cycles per link", "why_tests_cant": "the set of competing solutions is infinite", "anchors": ["src/spurt/mcf/_ortools.py:ORMCFSolver.unwrap_one", "src/spurt/workflows/emcf/_solver.py:EMCFSolver.unwrap_gradients_in_time", "src/spurt/workflows/emcf/_solver.py:EMCFSolver.unwrap_gradients_in_space", "src/spurt/workflows/emcf/_solver.py:EMCFSolver.unwrap_cube"]}
{"id": "C69", "title": "Mixed precision does not spoil the unwrapping of a stack", "statement": "unwrap_cube works on float32 phases with float64 cycles, and keeps its promises there: when it returns, every value is the phase of the interferogram relative to the first point plus whole cycles, up to a stated number of roundings per link walked; for SLC input and a sound and complete flow solver it returns as long as the accumulated rounding is within the tolerance of the closure check and the flows are bounded, and the flows of a least-cost solver are bounded; an unaliased stack (SLC or interferograms, with errors in the data) is recovered whatever the solver. With IEEE singles and doubles: any stack on a grid of up to 180 rows plus columns whose gradients stay a hundredth of a radian below half a cycle is recovered to a thousandth of a radian plus twice the error of the data; with at most two cycles per link in time and ten in space every SLC stack on a grid of up to 140 rows plus columns is unwrapped to two thousandths of a radian.", "quantifier": "all roundings with a bounded error, all planar graphs, data, costs, schedules and flow solvers within the stated room", "why_tests_cant": "universal over roundings, inputs, schedules and graph sizes; accumulated rounding depends on the whole path", "anchors": ["src/spurt/workflows/emcf/_solver.py:EMCFSolver.unwrap_cube", "src/spurt/workflows/emcf/_solver.py:EMCFSolver.unwrap_gradients_in_time", "src/spurt/workflows/emcf/_solver.py:EMCFSolver.unwrap_gradients_in_space", "src/spurt/mcf/_ortools.py:ORMCFSolver.compute_residues_from_gradients", "src/spurt/mcf/utils.py:phase_diff", "src/spurt/mcf/utils.py:flood_fill"]}
{"id": "C70", "title": "Mixed precision does not spoil the merge", "statement": "The tile files, corrections and rasters are float32, the bulk offsets and Dirichlet problems float64. If the tiles hold fields that differ by whole cycles, up to a stated error, the overlap statistics are exact, the bulk offsets (by either method) are the differences in cycles, with residual 0 for the integer method, the three stages complete, and every covered pixel of the merged raster is the field plus the cycles of one common tile, up to the error of the tile files and a stated number of roundings, independent of the errors of the inner solver. For any tiles congruent to a field, the merged raster is congruent to it and within half a cycle of the model raster, up to roundings. The outcome does not depend on num_parallel_ifgs nor on the files that exist; a single tile is written with one rounding. Without rounding these are the exact results.", "quantifier": "all roundings with a bounded error, all tile sets, triangulations, tile files, fields, inner solvers, bulk offsets within the stated room", "why_tests_cant": "universal over roundings, data, tilings and solver errors; errors accumulate over the degrees of overlap", "anchors": ["src/spurt/utils/merge.py:pairwise_unwrapped_diff_deciles", "src/spurt/utils/merge.py:dirichlet_graph", "src/spurt/workflows/emcf/_overlap.py:compute_phasediff_deciles", "src/spurt/workflows/emcf/_merge.py:merge_tiles", "src/spurt/workflows/emcf/_merge.py:_adjust_tiles", "src/spurt/workflows/emcf/_output.py:write_merged_band", "src/spurt/workflows/emcf/_output.py:write_single_tile", "src/spurt/workflows/emcf/_output.py:Tile"]}
{"id": "C71", "title": "The workflow in numpy's precision recovers an unaliased stack", "statement": "The chain of tiling, unwrapping, overlaps, bulk offsets by either method and Dirichlet merge is run in numpy's numbers: float32 phases, tiles, corrections and rasters, float64 in flood fill, overlap check and solvers. If the true phase of the stack is unaliased on every tile with a small margin, the overlaps join the tiles and no pixel is in more than four tiles, the run completes whatever the flow solver answers and however the workers are scheduled, and writes one raster per interferogram, of the size of the image: every pixel of sufficient coherence has the true interferogram plus one common number of cycles to within a five-hundredth of a radian, every other pixel has no value. For any stack, when a run completes, with at most two cycles per link in time and ten in space and phases of up to 20000 radians, every raster value at a pixel of sufficient coherence is the phase difference of the two acquisitions plus whole cycles to within three hundredths of a radian, whatever the bulk offsets and linear solves. Without rounding the chain is the workflow of the stages.", "quantifier": "all stacks, coherence masks, tilings, triangulations, schedules, flow solvers, and inner linear solvers with bounded error", "why_tests_cant": "universal over data, rounding, schedules and solvers; a run accumulates errors over every link, tile and degree of overlap", "anchors": ["src/spurt/workflows/emcf/_cli.py:main", "src/spurt/workflows/emcf/_unwrap.py:_unwrap_one_tile", "src/spurt/workflows/emcf/_overlap.py:compute_phasediff_deciles", "src/spurt/workflows/emcf/_bulk_offset.py:get_bulk_offsets", "src/spurt/workflows/emcf/_merge.py:merge_tiles"]}
{"id": "C72", "title": "The tolerance of the inner solver bounds the error of the interpolated corrections", "statement": "If cg stops by scipy's rule (residual norm at most max(rtol*norm(b), atol)), dirichlet_graph on a graph Laplacian returns values whose defect from the mean over the neighbours is at most max(rtol*C*X, atol), that differ from the exact interpolation by at most H*s*max(rtol*C*X, atol) and that leave the range of the fixed values by no more than that, where C counts links between fixed and free points, X bounds the fixed values, H links lead from every free point to a fixed one and there are at most s*s free points.", "quantifier": "all graphs, masks, fixed values, tolerances and inner solvers that stop by that rule", "why_tests_cant": "universal over graphs, data and the unspecified answer of an iterative solver", "anchors": ["src/spurt/utils/merge.py:dirichlet_graph", "src/spurt/graph/utils.py:graph_laplacian"]}
{"id": "C73", "title": "Mixed precision does not spoil the unwrapping of a large image", "statement": "phase_diff of two float32 phases of np.angle makes a single rounding: taking off the cycle is exact; and adding no cycles to a stored gradient leaves it as it is. Therefore an unaliased stack on a grid of up to 2000 rows plus columns is recovered by unwrap_cube, whatever the flow solver, to within 1.1 thousandths of a radian plus twice the error of the data; and every SLC stack on a grid of up to 550 rows plus columns, with at most two cycles per link in time and ten in space, is unwrapped without the closure check refusing, to within 2.5 thousandths of a radian. On an unaliased stack every flow is zero, on a grid of any size. The whole workflow (tiles, overlaps, bulk offsets by either method, Dirichlet merge) in these numbers recovers an unaliased stack of up to 1000 radians on tiles in which no point is more than 2000 links from the first to within three thousandths of a radian.", "quantifier": "all data, costs, schedules and flow solvers on grids of the stated size", "why_tests_cant": "universal over inputs, schedules and roundings; accumulated rounding depends on the whole path", "anchors": ["src/spurt/workflows/emcf/_solver.py:EMCFSolver.unwrap_cube", "src/spurt/mcf/utils.py:phase_diff", "src/spurt/mcf/utils.py:flood_fill", "src/spurt/mcf/_ortools.py:ORMCFSolver.compute_residues_from_gradients"]}
{"id": "C74", "title": "Rounding does not change the link costs", "statement": "distance_costs and centroid_costs, computed in double precision for points with whole coordinates (pixels, acquisition numbers) and a whole scale such as the default 100, return a whole number nearest to 1 + scale/d for every inner link, where d is the exact distance of the points or of the means of the two cycles. For distance_costs, for centroid_costs on regular grids and for both on a Hop3Graph with the default scale the result (costs or exception) is exactly the one of exact arithmetic; for centroid_costs on triangles it can differ only in a tie, by one.", "quantifier": "every list of points with whole coordinates up to 2^25 (2^23 for grids, 2^15 for triangles), every list of links, cycles and dual edges, every whole scale up to 2^14 (2^12, 100), every rounding with 53 binary digits, in particular IEEE doubles", "why_tests_cant": "A cost depends on whether a rounded quotient falls on the right side of a half; a test sees a handful of distances out of 2^53 and cannot show that no pair of pixels comes close enough to a half for the rounding to matter.", "anchors": ["src/spurt/mcf/utils.py:distance_costs", "src/spurt/mcf/utils.py:centroid_costs", "src/spurt/graph/_hop3.py:Hop3Graph"]}
{"id": "C75", "title": "Rounding does not change the number or the plan of the tiles", "statement": "The number of tiles asked for by get_tiles (int(np.rint(np.sqrt(len(pts) / target)))), the subsampling step, the tiles per dimension int(np.sqrt(max_tiles)) and the cuts of split_rectangle, computed in double precision, are those of exact arithmetic. So the tiles written are exactly the planned ones: a square number between 1 and max_tiles, inside the image and covering it.", "quantifier": "every image of up to 2^46 pixels and every mask, all settings that TilerSettings accepts with target_points_per_tile up to 2^46 and max_tiles up to 2^51, any scores of the cuts, every rounding with 53 binary digits", "why_tests_cant": "A square root or quotient that is rounded up to the next whole number changes the number of tiles; whether this can happen depends on numbers next to squares and halves of which tests try only a few.", "anchors": ["src/spurt/workflows/emcf/_tiling.py:get_tiles", "src/spurt/utils/_tiling.py:create_tiles_density", "src/spurt/utils/_tiling.py:create_tiles_regular", "src/spurt/utils/_tiling.py:split_rectangle"]}
{"id": "C76", "title": "The reported bulk-offset residual tells consistent offsets from inconsistent ones", "statement": "The residual get_bulk_offsets reports per interferogram with the default least-squares method is 0 when the observed offsets are differences of whole numbers per tile and at least 1 when they are not, and the integer method never reports a larger one. In double precision, with a least-squares routine accurate to a hundred-thousandth of a cycle, up to 1000 tiles and 5000 overlaps, it is below one half exactly when the offsets are consistent; the offsets of consistent tiles are then right to within twice the accuracy of the routine plus one rounding, and the merge (C70) and the whole workflow (C71, C73) give the same guarantees as with the integer method.", "quantifier": "every overlap graph, every table of whole offsets, every bound on the rounding error and every answer of the least-squares routine within its accuracy", "why_tests_cant": "The statement quantifies over every overlap graph and offset table; the lower bound 1 is a fact about the optimum over all per-tile values, and rounding errors accumulate with the number of overlaps.", "anchors": ["src/spurt/workflows/emcf/_bulk_offset.py:get_bulk_offsets,_solve_l2_min", "src/spurt/utils/merge.py:l2_min"]}
{"id": "C77", "title": "Output rasters carry the georeferencing of the latest acquisition", "statement": "Every raster the merge stage creates (unwrapped, _diff, _model, and those of a single tile) has the size of the tile set, one float32 band, NaN for no data, and is a tiled DEFLATE GeoTIFF; all other options, the CRS and the transform among them, are those of the file with the latest date of the stack. A stack without SLC files raises. With a phase-linked stack whose reference date is later than all others the rasters get no georeferencing.", "quantifier": "every folder listing, every profile of the input rasters and every tile set", "why_tests_cant": "Universal over folder contents and raster profiles; which file is the reference depends on the order of all dates in the folder.", "anchors": ["src/spurt/workflows/emcf/_merge.py:merge_tiles", "src/spurt/workflows/emcf/_output.py:write_single_tile,write_merged_band", "src/spurt/io/_raster.py:Raster.create", "src/spurt/io/_slc_stack.py:SLCStackReader"]}
{"id": "C78", "title": "Link models are nearly optimal in double precision", "statement": "In double precision, neg_temporal_coherence is minus the temporal coherence up to W*(m + 4 + (n + 2)*R)/2^50, where m is the number of observations, n that of parameters, W the total of the weights and R the largest phase in radians. So the coherence estimate_model returns is that of the returned parameters up to this error, no grid point beats it by more, and if a grid point fits the data up to whole cycles and a constant, the returned coherence is 1 up to this error and every observation is fitted up to whole cycles, a constant and a bounded misfit. estimate_model_many gives for each column what estimate_model gives, for every worker count and completion order.", "quantifier": "every matrix, data, weights (scalar, 1-D or default; 2-D for the value of neg_temporal_coherence), every grid, every order of summation and every libm meeting the error bounds", "why_tests_cant": "Rounding errors depend on every input and on the order in which numpy adds up; tests see a few of them on one machine.", "anchors": ["src/spurt/links/_common.py:neg_temporal_coherence", "src/spurt/links/_grid_search.py:GridSearchLinearModel,solve"]}
{"id": "C79", "title": "The reference phase and the wrapping of the input do not matter", "statement": "Give the same stack with respect to another reference (add one phase per pixel to all acquisitions) and add any whole number of cycles to any sample: the workflow, from an empty folder or from any part of an earlier run's files, completes with exactly the same output files. Adding in addition one phase per acquisition leaves the flows, the points and the unwrapped phases of every tile file unchanged and shifts each stored interferogram offset by the difference of the phases of its two acquisitions up to whole cycles; with one tile every output raster moves by one constant of that form. For a single field, adding one phase and whole cycles changes neither the flows nor whether unwrap_one returns, and moves the result by what was added to the first point; in particular an unwrapped result given back to unwrap_one comes back unchanged. Phase differences of exactly half a cycle, whose rounding is a convention, are excluded.", "quantifier": "every stack, reference phase, added cycles, tiling, schedule and interruption", "why_tests_cant": "universal over inputs; the rounding of every wrapped gradient of every link must be shown equivariant", "anchors": ["src/spurt/workflows/emcf/_unwrap.py:unwrap_tiles", "src/spurt/workflows/emcf/_solver.py:EMCFSolver.unwrap_cube", "src/spurt/mcf/utils.py:phase_diff", "src/spurt/mcf/_ortools.py:ORMCFSolver.unwrap_one"]}
{"id": "C80", "title": "Incoherent pixels have no influence on the result", "statement": "Two calls that differ only in the phases of pixels below the coherence threshold, in the coherence values or in the threshold, so that the same pixels pass, have exactly the same runs: same tiles, tile files, corrections, rasters and errors, wherever they start and stop.", "quantifier": "every stack, pair of calls, schedule and interruption", "why_tests_cant": "universal over the values in the masked area and over schedules", "anchors": ["src/spurt/io/_slc_stack.py:SLCStackReader.read_tile", "src/spurt/workflows/emcf/_unwrap.py:unwrap_tiles", "src/spurt/workflows/emcf/_tiling.py:get_tiles"]}
{"id": "C81", "title": "The degree of parallelism has no influence on the result", "statement": "With any positive numbers of workers, links per batch, tiles and interferograms in parallel, no run from the files of another run (complete or partial) raises, and every run that completes leaves exactly the files a sequential run leaves; the numbers may be changed at every restart of an interrupted workflow.", "quantifier": "every stack, setting of the degree of parallelism, schedule and history of restarts", "why_tests_cant": "schedules and restart histories cannot be enumerated", "anchors": ["src/spurt/workflows/emcf/_solver.py:EMCFSolver.unwrap_cube", "src/spurt/workflows/emcf/_merge.py:merge_tiles", "src/spurt/workflows/emcf/_settings.py:SolverSettings", "src/spurt/utils/_cpu.py:get_cpu_count"]}
{"id": "C82", "title": "The file of a tile depends only on the data inside the tile", "statement": "Two stacks with the same tiles, settings and processing that agree on which pixels of a tile are coherent and on the phases of those pixels give the same file for that tile, or the same exception, whatever they hold in the rest of the image; two completed runs of the whole workflow with the same tiles leave the same file of that tile.", "quantifier": "every pair of stacks, tile, schedule and pair of completed runs", "why_tests_cant": "the rest of the image is arbitrary", "anchors": ["src/spurt/workflows/emcf/_unwrap.py:_unwrap_one_tile", "src/spurt/io/_slc_stack.py:SLCStackReader.read_tile", "src/spurt/workflows/emcf/_output.py:write_single_tile"]}
{"id": "C83", "title": "A completed run leaves the results of its own input", "statement": "Whatever files earlier runs left in the intermediate and output folders, a run that completes leaves the results of its own input stack.", "quantifier": "every stack and history of earlier runs with this or other stacks", "why_tests_cant": "histories of runs cannot be enumerated", "anchors": ["src/spurt/workflows/emcf/_tiling.py:get_tiles", "src/spurt/workflows/emcf/_unwrap.py:unwrap_tiles", "src/spurt/workflows/emcf/_overlap.py:compute_phasediff_deciles", "src/spurt/workflows/emcf/_bulk_offset.py:get_bulk_offsets", "src/spurt/workflows/emcf/_merge.py:merge_tiles"]}
{"id": "C84", "title": "Adding a phase per acquisition moves every merged interferogram by one constant", "statement": "Take two completed calls over several tiles with the default (least-squares) bulk method whose stacks differ by one phase per acquisition, one phase per pixel and whole cycles anywhere. If the recorded overlaps connect the tiles and the medians of the cycle differences of overlapping tiles are whole numbers, then each interferogram of the second call is that of the first plus the difference of the phases of its two acquisitions plus one whole number of cycles, the same at every pixel; the spread raster is unchanged. Differences of exactly half a cycle, whose rounding is a convention, are excluded.", "quantifier": "every stack, phase per acquisition and pixel, added cycles, tiling and schedule", "why_tests_cant": "universal over inputs; medians, least-squares offsets and the harmonic correction of every tile must be shown equivariant", "anchors": ["src/spurt/workflows/emcf/_overlap.py:compute_phasediff_deciles", "src/spurt/workflows/emcf/_bulk_offset.py:get_bulk_offsets", "src/spurt/workflows/emcf/_merge.py:merge_tiles", "src/spurt/workflows/emcf/_output.py:write_merged_band"]}
{"id": "C85", "title": "Interferograms are merged one by one", "statement": "Once the tiles are unwrapped, an interferogram is merged from its own bands in the tile files alone: its bulk offsets, the corrections of its tiles and the three rasters written for it do not depend on which other interferograms the tile files hold, how many there are, in which order, or how they are batched. For the L2 bulk offsets, whose library call solves all interferograms at once, this needs a library that returns minimisers and recorded overlaps that connect the tiles.", "quantifier": "every pair of sets of tile files over the same tiles, of any sizes, which share an interferogram at any positions; every batch size, skip history, solver; both bulk methods", "why_tests_cant": "An unbounded number of other interferograms, positions and batches has to be compared, and the overlap statistics, the bulk solver and the merge loop all work on arrays over all interferograms, where one wrong axis or index mixes bands only for some shapes.", "anchors": ["src/spurt/workflows/emcf/_overlap.py: compute_phasediff_deciles", "src/spurt/workflows/emcf/_bulk_offset.py: get_bulk_offsets", "src/spurt/workflows/emcf/_merge.py: merge_tiles, _adjust_tiles", "src/spurt/workflows/emcf/_output.py: write_merged_band"]}
{"id": "C86", "title": "What only one tile covers stays there in the merge", "statement": "The merge of the tiles is controlled by the pixels that tiles share: if the phases of the tile files change, in whatever way, at pixels that only one tile covers - an unwrapping error inside a tile, say - then the overlaps, the bulk offsets, the corrections of all tiles and the rasters at all other pixels stay as they are, and at a changed pixel the merged phase and the model change by exactly what the tile changed by.", "quantifier": "every pair of sets of tile files over the same tiles that agree at the shared pixels; both bulk methods and all library answers; every pixel, interferogram, batch size", "why_tests_cant": "That no error spreads has to hold for every place and size of the change, through the statistics, two global solvers and an interpolation over the whole tile; a test sees a few changes.", "anchors": ["src/spurt/workflows/emcf/_overlap.py: compute_phasediff_deciles", "src/spurt/workflows/emcf/_bulk_offset.py: get_bulk_offsets", "src/spurt/workflows/emcf/_merge.py: merge_tiles, _adjust_tiles", "src/spurt/workflows/emcf/_output.py: write_merged_band"]}
{"id": "C87", "title": "Acquisitions or interferograms: the same result, and a result given back is returned unchanged", "statement": "unwrap_cube accepts a stack of acquisitions or the stack of their interferograms. If the interferograms are those of the acquisitions, wrapped in any way and with any phase added to each, one call returns exactly when the other does, and returns the same array. In floating point, whatever the rounding, this holds bit by bit for the interferograms formed by phase_diff. The array returned for either, given to unwrap_cube as interferograms, is returned unchanged. Phase differences of exactly half a cycle are excluded in exact arithmetic.", "quantifier": "every temporal and spatial graph, stack, wrapping, cost setting, batch size and schedule of both calls", "why_tests_cant": "two code paths must agree for every stack; tests compare a few", "anchors": ["src/spurt/workflows/emcf/_solver.py:EMCFSolver.unwrap_cube", "src/spurt/workflows/emcf/_solver.py:EMCFSolver.unwrap_gradients_in_time", "src/spurt/workflows/emcf/_solver.py:EMCFSolver._ifg_spatial_gradients_from_slc", "src/spurt/mcf/utils.py:phase_diff"]}
{"id": "C88", "title": "Phases of the opposite sign unwrap to the result of the opposite sign", "statement": "Negating every input phase (the conjugate stack, or the interferograms taken in the other order) negates the result: unwrap_one (with the costs of the two directions exchanged), unwrap_cube, a tile file, the bulk offsets of both methods, the merged and the model rasters; the spread raster, the recorded overlaps and the residuals stay the same. The external libraries answer a problem of the opposite sign with the answer of the opposite sign; for any two optimal flow solvers, the corrections of an interferogram and of its negative cost the same. In numpy's floating-point numbers the same holds between completed runs, bit for bit; on an unaliased stack both runs complete.", "quantifier": "every graph, stack, cost, number of tiles, bulk method, schedule and library meeting its contract", "why_tests_cant": "a sign convention hidden in one rounding or truncation shows up only on particular values; tests compare a few stacks", "anchors": ["src/spurt/mcf/_ortools.py:ORMCFSolver.unwrap_one", "src/spurt/mcf/utils.py:phase_diff", "src/spurt/workflows/emcf/_solver.py:EMCFSolver.unwrap_cube", "src/spurt/workflows/emcf/_unwrap.py:unwrap_tiles", "src/spurt/workflows/emcf/_bulk_offset.py:get_bulk_offsets", "src/spurt/workflows/emcf/_merge.py:merge_tiles", "src/spurt/workflows/emcf/_output.py:write_merged_band"]}
{"id": "C89", "title": "Complex samples enter through their phase only, and the result is a phase of the complex interferograms", "statement": "phase_diff of complex numbers is a phase of z1*conj(z0) within half a cycle of the model. unwrap_one, unwrap_cube and the tile worker give for complex input what they give for its angles; multiplying samples by positive factors changes nothing, a complex factor per acquisition and per pixel does not change the unwrapped cube of acquisitions, conjugating gives the opposite sign. What unwrap_one, unwrap_cube (with the phase offset) and the finished workflow return, put back on the unit circle, is the complex interferogram; if the samples have phases that change by less than half a cycle along the links of each tile, the rasters are those phases up to one number of cycles.", "quantifier": "all graphs with the planar contract, all complex data, solvers, schedules, tilings", "why_tests_cant": "amplitudes, factors and phases range over the complex numbers", "anchors": ["src/spurt/mcf/utils.py:phase_diff", "src/spurt/mcf/utils.py:flood_fill", "src/spurt/mcf/_ortools.py:ORMCFSolver.unwrap_one", "src/spurt/workflows/emcf/_solver.py:EMCFSolver.unwrap_cube", "src/spurt/io/_slc_stack.py:SLCStackReader.read_tile", "src/spurt/workflows/emcf/_unwrap.py:_unwrap_one_tile"]}
{"id": "C90", "title": "Around a loop of interferograms the result closes to whole cycles", "statement": "After a completed run all output rasters have values at the same pixels, those above the coherence threshold, and at each of them the values of the interferograms around any closed loop, those taken backwards with a minus sign, add up to a whole number of cycles (in numpy's numbers to within 3/100 of a radian per interferogram). On an unaliased stack this number is the same at all pixels. It need not be zero.", "quantifier": "all stacks, all loops, all pixels, all schedules", "why_tests_cant": "all data, all loops of any length and all pixels; a test sees some", "anchors": ["src/spurt/workflows/emcf/_cli.py:main", "src/spurt/workflows/emcf/_output.py:write_merged_band", "src/spurt/workflows/emcf/_output.py:write_single_tile"]}
{"id": "C91", "title": "The result refers to the first pixel of the largest tile", "statement": "In every tile file the first pixel of sufficient coherence (row by row) carries, in every interferogram, the wrapped interferogram itself. So does the first such pixel of every output raster when there is one tile. With several tiles and an unaliased stack it is the first such pixel of the tile with the most pixels of sufficient coherence (the first of them in a tie).", "quantifier": "all stacks, tilings and schedules", "why_tests_cant": "the reference must not depend on data, schedule or tiling; a test sees some", "anchors": ["src/spurt/workflows/emcf/_unwrap.py:_unwrap_one_tile", "src/spurt/workflows/emcf/_bulk_offset.py:get_bulk_offsets", "src/spurt/mcf/utils.py:flood_fill"]}
{"id": "C92", "title": "A change of the data that flips no wrapping decision passes through unchanged", "statement": "Change the phases of the acquisitions by any amount, different from pixel to pixel, such that in every interferogram the wrapped difference along every link of the triangulation of every tile, and the wrapped phase of the first pixel of every tile, stays strictly within half a cycle. Then unwrap_cube and every tile file change by exactly the change of the interferogram, whatever corrections the flow solver has made; with one tile the workflow completes again and the output rasters change by exactly that. With several tiles the workflow completes again too; the overlap file and the bulk offsets are the same (both bulk methods), the spread raster is the same, the model raster changes by exactly the change of the interferogram, and so does the unwrapped raster wherever it is not exactly half a cycle off the model.", "quantifier": "all stacks (aliased or not), all changes, all tilings, schedules, cost types and solvers", "why_tests_cant": "the changes range over all small perturbations at all pixels; a test sees some", "anchors": ["src/spurt/workflows/emcf/_solver.py:EMCFSolver.unwrap_cube", "src/spurt/workflows/emcf/_unwrap.py:_unwrap_one_tile", "src/spurt/workflows/emcf/_overlap.py:compute_phasediff_deciles", "src/spurt/workflows/emcf/_merge.py:merge_tiles", "src/spurt/workflows/emcf/_cli.py:main"]}
{"id": "C93", "title": "A tile is unwrapped the same wherever it lies, and like a crop of the image", "statement": "Two boxes of the same size in two stacks that hold the same data, counted from the corner of the box, give the same tile file except for the recorded box - or the same exception - whatever surrounds the boxes, wherever they lie and however large the images are. So if a completed run is followed by a run without tiles on the stack cropped to the box of one tile, that run completes and every raster holds exactly the phases stored for the tile at the coherent pixels and no value elsewhere.", "quantifier": "all stacks, boxes, positions, tilings, surroundings, schedules and solvers", "why_tests_cant": "a test compares one crop; an absolute coordinate that leaks into a graph, a cost or an index shows only for some positions", "anchors": ["src/spurt/workflows/emcf/_unwrap.py:_unwrap_one_tile", "src/spurt/io/_slc_stack.py:SLCStackReader.read_tile", "src/spurt/workflows/emcf/_output.py:write_single_tile", "src/spurt/workflows/emcf/_cli.py:main"]}
{"id": "C94", "title": "Unwrapping errors are bounded by the aliasing of the true phase", "statement": "Whatever the true phases of the acquisitions are - any field that differs from the data by whole cycles - the unwrapped interferograms change along every link of the triangulation by the true change plus a whole number of cycles. Summed over all links and interferograms, and weighted with the link costs in time and in space, these wrong cycles are at most four times the cycles by which the true interferograms alias along the links (0 for a change of less than half a cycle, 1 for less than three halves, ...); with positive costs, so is the number of wrong jumps. This holds for unwrap_cube with acquisitions and with interferograms, for every tile file of a completed run, and for the rasters of a run with one tile; for unwrap_one the factor is two, between the cheaper and the dearer direction of each link.", "quantifier": "all true phase fields (with at most 10^9 weighted aliased cycles per link), graphs meeting the planar contract, costs, optimal flow solvers, batch sizes and schedules", "why_tests_cant": "the bound compares the result with every phase field congruent to the data; a test knows one, and mostly without aliasing", "anchors": ["src/spurt/mcf/_ortools.py:ORMCFSolver.unwrap_one", "src/spurt/workflows/emcf/_solver.py:EMCFSolver.unwrap_cube", "src/spurt/workflows/emcf/_unwrap.py:_unwrap_one_tile", "src/spurt/workflows/emcf/_output.py:write_single_tile"]}
{"id": "C95", "title": "On an unaliased stack no setting influences the result", "statement": "Run the workflow twice on a stack whose true phases change by less than half a cycle along the links of every tile, each time with other settings: with tiles or without, other tile sizes and dilation, another coherence threshold or coherence image, another time graph, other costs, batch sizes, pool sizes, schedules, bulk methods, merge settings and flow solvers. For every interferogram that both time graphs contain the two rasters differ by one whole number of cycles, at all pixels that are coherent for both; so they do if acquisitions are added, left out or reordered. If the largest tiles of both runs begin at the same pixel, the rasters are equal there. In numpy's numbers both runs complete and the same holds to within 6/1000 of a radian.", "quantifier": "all unaliased stacks and all pairs of settings, solvers and schedules", "why_tests_cant": "the claim ranges over all pairs of configurations; a test compares a few", "anchors": ["src/spurt/workflows/emcf/_cli.py:main", "src/spurt/workflows/emcf/_settings.py:SolverSettings", "src/spurt/workflows/emcf/_settings.py:GeneralSettings", "src/spurt/workflows/emcf/_unwrap.py:unwrap_tiles", "src/spurt/workflows/emcf/_merge.py:merge_tiles"]}
