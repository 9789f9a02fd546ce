{
 "claims": [
  {
   "property": "C01",
   "status": "proved",
   "theorems": [
    "Spurt.C01_order_points_canonical"
   ],
   "note": ""
  },
  {
   "property": "C02",
   "status": "proved",
   "theorems": [
    "Spurt.C02_delaunay_links"
   ],
   "note": "scipy's simplices are the input"
  },
  {
   "property": "C03",
   "status": "proved",
   "theorems": [
    "Spurt.C03_hop3_links"
   ],
   "note": ""
  },
  {
   "property": "C04",
   "status": "proved",
   "theorems": [
    "Spurt.C04_hop3_planar",
    "Spurt.C04_hop3_solver"
   ],
   "note": ""
  },
  {
   "property": "C05",
   "status": "proved",
   "theorems": [
    "Spurt.C05_reg2d_planar",
    "Spurt.C05_reg2d_points",
    "Spurt.C05_reg2d_solver"
   ],
   "note": ""
  },
  {
   "property": "C06",
   "status": "proved",
   "theorems": [
    "Spurt.C06_dual_graph",
    "Spurt.C06_unordered_link_rejected",
    "Spurt.C06_contract_accepted"
   ],
   "note": "int32/int8 storage of the dual tables is not modelled"
  },
  {
   "property": "C07",
   "status": "proved",
   "theorems": [
    "Spurt.C07_phase_diff_wraps",
    "Spurt.C07_phase_diff_antisymmetric",
    "Spurt.C07_phase_diff_idempotent",
    "Spurt.C07_phase_diff_cycle_invariant",
    "Spurt.C07_phase_diff_tie_refuted"
   ],
   "note": "exact arithmetic; the exception at half-cycle ties is shown to be real (C07_phase_diff_tie_refuted)"
  },
  {
   "property": "C08",
   "status": "proved",
   "theorems": [
    "Spurt.C08_residues_exact",
    "Spurt.C08_gradient_residues_balanced",
    "Spurt.C08_never_unbalanced"
   ],
   "note": "exact arithmetic"
  },
  {
   "property": "C09",
   "status": "proved",
   "theorems": [
    "Spurt.C09_residues_agree"
   ],
   "note": "exact arithmetic (the code accumulates in float32)"
  },
  {
   "property": "C10",
   "status": "proved",
   "theorems": [
    "Spurt.C10_unbalanced_raises",
    "Spurt.C10_flows_cancel"
   ],
   "note": "OR-tools is a parameter assumed to return feasible flows"
  },
  {
   "property": "C11",
   "status": "proved",
   "theorems": [
    "Spurt.C11_flows_cheapest"
   ],
   "note": "OR-tools is a parameter assumed to return optimal flows"
  },
  {
   "property": "C12",
   "status": "proved",
   "theorems": [
    "Spurt.C12_flood_fill_guarantee"
   ],
   "note": ""
  },
  {
   "property": "C13",
   "status": "proved",
   "theorems": [
    "Spurt.C13_flood_fill_recovers",
    "Spurt.C13_flood_fill_rejects",
    "Spurt.C13_flood_fill_terminates",
    "Spurt.C13_closure_error_detected"
   ],
   "note": ""
  },
  {
   "property": "C14",
   "status": "proved",
   "theorems": [
    "Spurt.C14_unwrap_one",
    "Spurt.C14_unwrap_one_hop3",
    "Spurt.C14_unwrap_one_reg2d"
   ],
   "note": ""
  },
  {
   "property": "C15",
   "status": "proved",
   "theorems": [
    "Spurt.C15_itoh"
   ],
   "note": ""
  },
  {
   "property": "C16",
   "status": "proved",
   "theorems": [
    "Spurt.C16_many",
    "Spurt.C16_schedule_independent"
   ],
   "note": ""
  },
  {
   "property": "C17",
   "status": "partial",
   "theorems": [
    "Spurt.C17_cpu_count",
    "Spurt.C17_pool_workers",
    "Spurt.C17_spatial_workers_partial",
    "Spurt.C17_spatial_workers_refuted",
    "Spurt.C17_cpu_count_double"
   ],
   "note": "proved for get_cpu_count, residues_to_flows_many and estimate_model_many; the spatial stage uses get_cpu_count()-1, which is 0 on a one-CPU host (C17_spatial_workers_refuted), so only the partial theorem holds there; in double precision C17_cpu_count_double"
  },
  {
   "property": "C18",
   "status": "proved",
   "theorems": [
    "Spurt.C18_distance_value",
    "Spurt.C18_distance_costs",
    "Spurt.C18_centroid_costs",
    "Spurt.C18_hop3_costs",
    "Spurt.C18_distance_nearest",
    "Spurt.C18_centroid_nearest"
   ],
   "note": "exact real arithmetic"
  },
  {
   "property": "C19",
   "status": "proved",
   "theorems": [
    "Spurt.C19_batch_independent",
    "Spurt.C19_own_data"
   ],
   "note": ""
  },
  {
   "property": "C20",
   "status": "proved",
   "theorems": [
    "Spurt.C20_slc_closure",
    "Spurt.C20_ifg_closure",
    "Spurt.C20_ifg_exact_closure_refuted"
   ],
   "note": "exact arithmetic; for interferograms with a genuine closure phase exact closure is false (C20_ifg_exact_closure_refuted), the half-cycle bound is proved"
  },
  {
   "property": "C21",
   "status": "proved",
   "theorems": [
    "Spurt.C21_hop3_distance_returns",
    "Spurt.C21_slc_congruent",
    "Spurt.C21_ifg_congruent",
    "Spurt.C21_tiles_differ_by_cycles",
    "Spurt.C21_hop3_reg2d_returns",
    "Spurt.C21_cube_returns_costs",
    "Spurt.C21_cube_returns"
   ],
   "note": "exact arithmetic; OR-tools is a parameter assumed sound (and optimal and complete for the 'returns' part)"
  },
  {
   "property": "C22",
   "status": "proved",
   "theorems": [
    "Spurt.C22_input_kind",
    "Spurt.C22_hop3_unambiguous"
   ],
   "note": ""
  },
  {
   "property": "C23",
   "status": "proved",
   "theorems": [
    "Spurt.C23_rows",
    "Spurt.C23_order_independent"
   ],
   "note": ""
  },
  {
   "property": "C24",
   "status": "proved",
   "theorems": [
    "Spurt.C24_intersects",
    "Spurt.C24_shared_pixel",
    "Spurt.C24_touching",
    "Spurt.C24_count",
    "Spurt.C24_bounds"
   ],
   "note": ""
  },
  {
   "property": "C25",
   "status": "proved",
   "theorems": [
    "Spurt.C25_overlaps",
    "Spurt.C25_shared_pixel"
   ],
   "note": ""
  },
  {
   "property": "C26",
   "status": "partial",
   "theorems": [
    "Spurt.C26_regular_partition",
    "Spurt.C26_regular_raises",
    "Spurt.C26_double_partial",
    "Spurt.C26_double_refuted"
   ],
   "note": "proved in exact arithmetic, and in double precision for every pixel outside the last row and column (C26_double_partial); in double precision the property is false: C26_double_refuted exhibits a shape and tile count whose last row belongs to no tile"
  },
  {
   "property": "C27",
   "status": "proved",
   "theorems": [
    "Spurt.C27_density_partition",
    "Spurt.C27_density_terminates",
    "Spurt.C27_density_rejects",
    "Spurt.C27_density_returns"
   ],
   "note": "scores of the cuts are arbitrary; midpoints of integers are exact in double precision"
  },
  {
   "property": "C28",
   "status": "proved",
   "theorems": [
    "Spurt.C28_dilate",
    "Spurt.C28_coverage"
   ],
   "note": "for every rounding that is monotone and exact on integers, incl. doubles"
  },
  {
   "property": "C29",
   "status": "proved",
   "theorems": [
    "Spurt.C29_json",
    "Spurt.C29_bad_bounds"
   ],
   "note": "json text serialisation is not modelled"
  },
  {
   "property": "C30",
   "status": "proved",
   "theorems": [
    "Spurt.C30_regular_count",
    "Spurt.C30_make_tiles",
    "Spurt.C30_keeps_file",
    "Spurt.C30_file_reads_back",
    "Spurt.C30_no_points"
   ],
   "note": "sqrt in the tile target is exact real arithmetic"
  },
  {
   "property": "C31",
   "status": "proved",
   "theorems": [
    "Spurt.C31_slices",
    "Spurt.C31_raises",
    "Spurt.C31_negative_axis_refuted"
   ],
   "note": "for time axes 0, 1, 2; a negative time axis is accepted by the constructor and slices inconsistently (C31_negative_axis_refuted)"
  },
  {
   "property": "C32",
   "status": "partial",
   "theorems": [
    "Spurt.C32_coords_partial",
    "Spurt.C32_coords_refuted",
    "Spurt.C32_single_image"
   ],
   "note": "entries are the column/row of the flattened position (C32_coords_partial), but the arrays have one entry per cube element, not per spatial point, unless there is one image (C32_coords_refuted, C32_single_image)"
  },
  {
   "property": "C33",
   "status": "proved",
   "theorems": [
    "Spurt.C33_accepts",
    "Spurt.C33_slices"
   ],
   "note": ""
  },
  {
   "property": "C34",
   "status": "proved",
   "theorems": [
    "Spurt.C34_open",
    "Spurt.C34_create"
   ],
   "note": "rasterio is not modelled beyond the options passed to it; np.dtype conversion not modelled"
  },
  {
   "property": "C35",
   "status": "proved",
   "theorems": [
    "Spurt.C35_phase_linked",
    "Spurt.C35_slc_directory",
    "Spurt.C35_date_order"
   ],
   "note": "file names as strings; glob is the filter by suffix; values are names instead of absolute paths"
  },
  {
   "property": "C36",
   "status": "proved",
   "theorems": [
    "Spurt.C36_read_tile",
    "Spurt.C36_valid_count"
   ],
   "note": ""
  },
  {
   "property": "C37",
   "status": "proved",
   "theorems": [
    "Spurt.C37_common_points"
   ],
   "note": "unbounded integers; see C54 for 32-bit"
  },
  {
   "property": "C38",
   "status": "proved",
   "theorems": [
    "Spurt.C38_order",
    "Spurt.C38_constant",
    "Spurt.C38_majority",
    "Spurt.C38_accepts",
    "Spurt.C38_errors",
    "Spurt.C38_int16",
    "Spurt.C38_int16_pairwise",
    "Spurt.C38_int16_bound_needed",
    "Spurt.C38_double",
    "Spurt.C38_double_constant",
    "Spurt.C38_double_majority",
    "Spurt.C38_double_near",
    "Spurt.C38_double_truncated_refuted"
   ],
   "note": "exact arithmetic (the float32 rounding of the difference is not modelled); np.allclose with rtol 1e-5, int16 range included; also the median is k as soon as more than half of the pixels differ by k cycles; C38_int16* relate the int16 subtraction inside np.percentile to the unbounded integers of the other theorems, C38_int16_bound_needed shows that rows spread over more than 32767 cycles must be excluded; C38_double* are in float64: extremes, median and constant rows are exact, the rest is within 1/100 and after truncation at most one off, which happens (C38_double_truncated_refuted; those values are not used by later stages)"
  },
  {
   "property": "C39",
   "status": "proved",
   "theorems": [
    "Spurt.C39_least_disagreement",
    "Spurt.C39_zero_residual",
    "Spurt.C39_consistent",
    "Spurt.C39_returns"
   ],
   "note": "for every solver that answers with feasible values of least objective; one band; existence of such solvers is shown"
  },
  {
   "property": "C40",
   "status": "proved",
   "theorems": [
    "Spurt.C40_least_squares",
    "Spurt.C40_consistent",
    "Spurt.C40_unique"
   ],
   "note": "for every exact least-squares solution in exact arithmetic; only the globally largest tile is set to 0, so the claim about tile values is for tiles joined to it by overlaps"
  },
  {
   "property": "C41",
   "status": "proved",
   "theorems": [
    "Spurt.C41_total",
    "Spurt.C41_raw_phase",
    "Spurt.C41_levels",
    "Spurt.C41_merge_protocol"
   ],
   "note": "every history of Tile operations; the merge round protocol never raises"
  },
  {
   "property": "C42",
   "status": "proved",
   "theorems": [
    "Spurt.C42_fixed",
    "Spurt.C42_mean_value",
    "Spurt.C42_range",
    "Spurt.C42_unique",
    "Spurt.C42_zero",
    "Spurt.C42_dirichlet_fixed",
    "Spurt.C42_dirichlet_residual"
   ],
   "note": "any solver for the fixed values; exact inner solver for range, mean value, uniqueness"
  },
  {
   "property": "C43",
   "status": "proved",
   "theorems": [
    "Spurt.C43_returns",
    "Spurt.C43_size",
    "Spurt.C43_entries",
    "Spurt.C43_symmetric",
    "Spurt.C43_quadratic_form",
    "Spurt.C43_kernel"
   ],
   "note": ""
  },
  {
   "property": "C44",
   "status": "proved",
   "theorems": [
    "Spurt.C44_uncovered",
    "Spurt.C44_model",
    "Spurt.C44_diff",
    "Spurt.C44_output",
    "Spurt.C44_congruent",
    "Spurt.C44_single",
    "Spurt.C44_pixels",
    "Spurt.C44_merged_coords",
    "Spurt.C44_single_coords"
   ],
   "note": "exact arithmetic; NaN is none; rasterio writes are the returned rasters"
  },
  {
   "property": "C45",
   "status": "proved",
   "theorems": [
    "Spurt.C45_batching",
    "Spurt.C45_order",
    "Spurt.C45_adjust_order"
   ],
   "note": "Exact arithmetic; the triangulation and the sparse solvers are parameters. Non-vacuity: cut_example."
  },
  {
   "property": "C46",
   "status": "proved",
   "theorems": [
    "Spurt.C46_seamless"
   ],
   "note": "Exact arithmetic; the sparse solvers need not be exact. Non-vacuity: cut_example."
  },
  {
   "property": "C47",
   "status": "proved",
   "theorems": [
    "Spurt.C47_solver",
    "Spurt.C47_tiler",
    "Spurt.C47_merger"
   ],
   "note": "the docstring's num_parallel_tiles=0 ('all tiles') is rejected by the code; NaN scales are not modelled"
  },
  {
   "property": "C48",
   "status": "proved",
   "theorems": [
    "Spurt.C48_tile_names",
    "Spurt.C48_group_names",
    "Spurt.C48_unw_names",
    "Spurt.C48_kinds_distinct",
    "Spurt.C48_outputs_distinct",
    "Spurt.C48_derived_names",
    "Spurt.C48_derived_distinct",
    "Spurt.C48_derived_folder_refuted"
   ],
   "note": "holds for the names; a folder whose path contains '.tif' makes the derived diff/model names differ from the intended ones (C48_derived_folder_refuted)"
  },
  {
   "property": "C49",
   "status": "proved",
   "theorems": [
    "Spurt.C49_resume",
    "Spurt.C49_same_result",
    "Spurt.C49_interruptions",
    "Spurt.C49_idempotent",
    "Spurt.C49_single_tile",
    "Spurt.C49_never_overwrites"
   ],
   "note": "Existing files are never overwritten, whatever the schedule, crash point and outcome (C49_never_overwrites, no hypothesis). From any subset of the files of a completed run, runs do not raise, interrupted runs (between files; the three rasters of an interferogram count as one) leave a subset again, completed runs leave exactly the same files (C49_resume, C49_interruptions); completed runs agree (C49_same_result) and running again changes nothing (C49_idempotent)."
  },
  {
   "property": "C50",
   "status": "partial",
   "theorems": [
    "Spurt.C50_damaged_refuted",
    "Spurt.C50_raster_kept_refuted",
    "Spurt.C50_refuted",
    "Spurt.C50_truncated_refuted",
    "Spurt.C50_companion_refuted",
    "Spurt.C50_cleaned_up_partial"
   ],
   "note": "False as stated, for every workflow that completes at all (C50_refuted, C50_truncated_refuted, C50_companion_refuted): a crash right after a file was created leaves a file that later runs take as done; then either no later run ever completes (C50_damaged_refuted) or a run completes with a truncated raster that is never repaired (C50_raster_kept_refuted). What holds, C50_cleaned_up_partial: after deleting incomplete files by hand the next completed run equals the uninterrupted one. Missing: that the workflow recovers by itself, which it does not."
  },
  {
   "property": "C51",
   "status": "partial",
   "theorems": [
    "Spurt.C51_columns_partial",
    "Spurt.C51_shapes",
    "Spurt.C51_weights_sequential_refuted",
    "Spurt.C51_weights_parallel_refuted",
    "Spurt.C51_refuted"
   ],
   "note": "C51_columns_partial: scalar, 1-D and default weights, all worker counts and completion orders, results and exceptions; C51_shapes: wrong sizes rejected. For 2-D weights of the documented shape the property is false: the code that selects a column is placed after a raise, so one worker raises ValueError (C51_weights_sequential_refuted) and more workers silently use wrong weights when there are as many links as observations (C51_weights_parallel_refuted, C51_refuted)."
  },
  {
   "property": "C52",
   "status": "proved",
   "theorems": [
    "Spurt.C52_single_weight",
    "Spurt.C52_single_datum",
    "Spurt.C52_mismatch",
    "Spurt.C52_value",
    "Spurt.C52_range",
    "Spurt.C52_invariant",
    "Spurt.C52_perfect",
    "Spurt.C52_perfect_only",
    "Spurt.C52_jacobian"
   ],
   "note": "Value, range, invariance, perfect fit (both directions), and the Jacobian is the Fréchet derivative wherever the coherence is not zero. Over ℝ; weights scalar or 1-D."
  },
  {
   "property": "C53",
   "status": "proved",
   "theorems": [
    "Spurt.C53_map",
    "Spurt.C53_recorded",
    "Spurt.C53_returns"
   ],
   "note": "scipy's connected_components is a parameter"
  },
  {
   "property": "C54",
   "status": "partial",
   "theorems": [
    "Spurt.C54_int32_refuted",
    "Spurt.C54_int32_partial"
   ],
   "note": "false for images of 2^31 pixels or more (C54_int32_refuted); proved below that size"
  },
  {
   "property": "C55",
   "status": "proved",
   "theorems": [
    "Spurt.C55_tile_file",
    "Spurt.C55_common_pixels",
    "Spurt.C55_overlap_returns",
    "Spurt.C55_tile_returns"
   ],
   "note": "C55_tile_returns assumes constant costs, wrapped input phases and a connected triangulation without holes; C55_overlap_returns assumes a minimum overlap of at least 11 points"
  },
  {
   "property": "C56",
   "status": "proved",
   "theorems": [
    "Spurt.C56_stack",
    "Spurt.C56_agree",
    "Spurt.C56_congruent"
   ],
   "note": "Exact arithmetic. C56_agree is for fewer than 256 tiles: the overlap counter of the code is a uint8 and wraps at 256. Non-vacuity: cut_example and the example after it."
  },
  {
   "property": "C57",
   "status": "proved",
   "theorems": [
    "Spurt.C57_end_to_end",
    "Spurt.C57_returns"
   ],
   "note": "Exact arithmetic; the integer programme, least squares and connected component libraries are parameters with their contracts as hypotheses. Non-vacuity: cut_example."
  },
  {
   "property": "C58",
   "status": "partial",
   "theorems": [
    "Spurt.C58_logging_partial",
    "Spurt.C58_logging_graph_partial",
    "Spurt.C58_logging_refuted"
   ],
   "note": "false in general: C58_logging_refuted shows l2_min_cg with logging and no maxiter raises on a symmetric system; proved with maxiter given, for dirichlet, and for dirichlet_graph with an exact solver"
  },
  {
   "property": "C59",
   "status": "proved",
   "theorems": [
    "Spurt.C59_best",
    "Spurt.C59_default_weights",
    "Spurt.C59_perfect",
    "Spurt.C59_model",
    "Spurt.C59_forward"
   ],
   "note": "Under the contract Spec.BruteOk of scipy.optimize.brute (value at the returned point, not above any grid point)."
  },
  {
   "property": "C60",
   "status": "partial",
   "theorems": [
    "Spurt.C60_no_overlap_refuted",
    "Spurt.C60_no_dilation_refuted",
    "Spurt.C60_few_points_refuted",
    "Spurt.C60_completes_partial"
   ],
   "note": "False in general: no run completes when there are several tiles and no two share min_overlap_points coherent pixels (C60_no_overlap_refuted), in particular always with the accepted dilation_factor=0 (C60_no_dilation_refuted), and when two tiles share at least min_overlap_points but fewer than 11 pixels (C60_few_points_refuted). Outside these cases the run completes (C60_completes_partial; one tile: C49_single_tile). Missing: the false cases. Non-vacuity: Whole.example_recovers and the examples after it."
  },
  {
   "property": "C61",
   "status": "proved",
   "theorems": [
    "Spurt.C61_result",
    "Spurt.C61_resumed"
   ],
   "note": "C61_result (one run, any schedule) and C61_resumed (after any interrupted runs), in exact arithmetic, under GoodFlow (solver and library contracts, well-formed job)."
  },
  {
   "property": "C62",
   "status": "proved",
   "theorems": [
    "Spurt.C62_slc_itoh",
    "Spurt.C62_ifg_itoh",
    "Spurt.C62_tile_itoh"
   ],
   "note": "Exact arithmetic; no assumption on the flow solver. Non-vacuity: Whole.example_recovers."
  },
  {
   "property": "C63",
   "status": "proved",
   "theorems": [
    "Spurt.C63_recovers",
    "Spurt.C63_completes"
   ],
   "note": "C63_completes and C63_recovers. Exact arithmetic; the true phases stay within 16383 cycles (int16 medians). Non-vacuity: Whole.example_recovers (four tiles, wrapped input, incoherent column)."
  },
  {
   "property": "C64",
   "status": "proved",
   "theorems": [
    "Spurt.C64_bulk_majority"
   ],
   "note": "a strict majority of right pixels per recorded overlap fixes the medians and hence the bulk offsets"
  },
  {
   "property": "C65",
   "status": "proved",
   "theorems": [
    "Spurt.C65_empty",
    "Spurt.C65_l2_min_cg",
    "Spurt.C65_l2_min",
    "Spurt.C65_same_residual",
    "Spurt.C65_returns",
    "Spurt.C65_no_columns_refuted",
    "Spurt.C65_semidefinite_refuted"
   ],
   "note": "lstsq and cg enter by their contracts; the residual is wrong for matrices without columns (C65_no_columns_refuted) and symmetric semidefinite matrices are excluded, as in the documentation (C65_semidefinite_refuted)"
  },
  {
   "property": "C66",
   "status": "proved",
   "theorems": [
    "Spurt.C66_options",
    "Spurt.C66_only_options",
    "Spurt.C66_input_required",
    "Spurt.C66_accepted",
    "Spurt.C66_settings",
    "Spurt.C66_defaults",
    "Spurt.C66_rejected",
    "Spurt.C66_result",
    "Spurt.C66_recovers"
   ],
   "note": "options apart, with an equals sign, attached to one letter and shortened; the separator -- and the exit status are not modelled; Python's int and float are parameters; scipy, ortools and numpy enter by their contracts"
  },
  {
   "property": "C67",
   "status": "proved",
   "theorems": [
    "Spurt.C67_exact",
    "Spurt.C67_phase_diff",
    "Spurt.C67_residues",
    "Spurt.C67_points_guarantee",
    "Spurt.C67_points_returns",
    "Spurt.C67_gradients_guarantee",
    "Spurt.C67_gradients_returns",
    "Spurt.C67_unwrap_one",
    "Spurt.C67_itoh",
    "Spurt.C67_unwrap_one_wrapped",
    "Spurt.C67_double_hop3",
    "Spurt.C67_double_grid"
   ],
   "note": "real input; a rounding is any function with a bounded error on numbers up to a bound, so overflow, underflow and NaN are outside; all operations in one precision (float32 gradients enter as inputs with an error)"
  },
  {
   "property": "C68",
   "status": "proved",
   "theorems": [
    "Spurt.C68_unwrap_one",
    "Spurt.C68_space",
    "Spurt.C68_time_slc",
    "Spurt.C68_time_ifg",
    "Spurt.C68_unknown_cost",
    "Spurt.C68_cube_slc",
    "Spurt.C68_cube_ifg"
   ],
   "note": "ortools enters by its contract: answers are cheapest feasible flows; exact arithmetic; C68_cube_slc for SLC input, C68_cube_ifg for interferogram input"
  },
  {
   "property": "C69",
   "status": "proved",
   "theorems": [
    "Spurt.C69_exact",
    "Spurt.C69_wraps",
    "Spurt.C69_guarantee",
    "Spurt.C69_returns",
    "Spurt.C69_itoh",
    "Spurt.C69_no_flows",
    "Spurt.C69_flows_within",
    "Spurt.C69_wraps_relative",
    "Spurt.C69_single_itoh",
    "Spurt.C69_single_returns",
    "Spurt.C69_single_any"
   ],
   "note": "the rounding functions are parameters with a bounded error; instantiated with IEEE binary32/binary64 rounding without overflow and underflow; numpy's complex-to-angle conversion is not modelled"
  },
  {
   "property": "C70",
   "status": "proved",
   "theorems": [
    "Spurt.C70_congruent",
    "Spurt.C70_exact_overlap",
    "Spurt.C70_exact_merge",
    "Spurt.C70_single",
    "Spurt.C70_batching",
    "Spurt.C70_overlap",
    "Spurt.C70_merge",
    "Spurt.C70_end_to_end",
    "Spurt.C70_returns",
    "Spurt.C70_numpy",
    "Spurt.C70_size"
   ],
   "note": "the rounding functions are parameters with a bounded error; instantiated with IEEE binary32/binary64 rounding without overflow and underflow; the inner cg solver is a parameter with an absolute error; L2 bulk offsets: numpy.linalg.lstsq is a parameter with an absolute error (C76)"
  },
  {
   "property": "C71",
   "status": "proved",
   "theorems": [
    "Spurt.C71_recovers",
    "Spurt.C71_tile_exact",
    "Spurt.C71_tile_file",
    "Spurt.C71_tile_itoh",
    "Spurt.C71_no_flows",
    "Spurt.C71_congruent_of",
    "Spurt.C71_congruent",
    "Spurt.C71_exact_workflow"
   ],
   "note": "Rounding as in C70 (every operation rounded to IEEE single or double, unbounded exponent range); bulk offsets by either method, lstsq with an absolute error (C76); conjugate gradients with an absolute error of at most 1/1000; at most four tiles per pixel."
  },
  {
   "property": "C72",
   "status": "proved",
   "theorems": [
    "Spurt.C72_posteriori",
    "Spurt.C72_mean_value",
    "Spurt.C72_error",
    "Spurt.C72_range",
    "Spurt.C72_cg_within"
   ],
   "note": "Exact arithmetic outside cg; scipy's stopping rule is a hypothesis (info > 0 after maxiter=100 iterations is ignored by the code and then nothing is claimed). C72_cg_within turns the rule into the accuracy C70 and C71 ask for."
  },
  {
   "property": "C73",
   "status": "proved",
   "theorems": [
    "Spurt.C73_itoh",
    "Spurt.C73_returns",
    "Spurt.C73_no_flows",
    "Spurt.C73_adds_nothing",
    "Spurt.C73_wraps_once",
    "Spurt.C73_single_itoh",
    "Spurt.C73_single_no_flows",
    "Spurt.C73_single_returns",
    "Spurt.C73_tile_itoh",
    "Spurt.C73_recovers"
   ],
   "note": "Rounding is modelled as exact rounding to IEEE singles and doubles (Model/Float.lean); the flow solver is any (Itoh) or sound and complete (SLC data with bounded flows)."
  },
  {
   "property": "C74",
   "status": "proved",
   "theorems": [
    "Spurt.C74_distance",
    "Spurt.C74_centroid_grid",
    "Spurt.C74_centroid",
    "Spurt.C74_doubles",
    "Spurt.C74_centroid_tie_refuted",
    "Spurt.C74_hop3"
   ],
   "note": "fl and sq are any rounding and rounded square root with 53 digits; C74_doubles shows that IEEE doubles are. A fused multiply-add in the norm is not modelled (it makes no difference for whole coordinates). C74_centroid_tie_refuted: a tie on triangles where doubles give 13 instead of the even 14."
  },
  {
   "property": "C75",
   "status": "proved",
   "theorems": [
    "Spurt.C75_regular",
    "Spurt.C75_density",
    "Spurt.C75_target",
    "Spurt.C75_same_tiles",
    "Spurt.C75_tiles"
   ],
   "note": "The scores of the cuts (utils/_tiling.py:251-256) are arbitrary, the same in both computations; the rounding of the dilation is that of C30."
  },
  {
   "property": "C76",
   "status": "proved",
   "theorems": [
    "Spurt.C76_l2_residual",
    "Spurt.C76_integer_le_l2",
    "Spurt.C76_double_offsets",
    "Spurt.C76_double_residual",
    "Spurt.C76_numpy_residual"
   ],
   "note": "numpy.linalg.lstsq is a parameter whose answer is within a given distance of an exact least-squares solution and bounded (C40 has it exact); the order of the sums in amat.dot is that of the columns."
  },
  {
   "property": "C77",
   "status": "proved",
   "theorems": [
    "Spurt.C77_slc_directory",
    "Spurt.C77_phase_linked",
    "Spurt.C77_options",
    "Spurt.C77_georeferenced",
    "Spurt.C77_reference_last_refuted"
   ],
   "note": "rasterio itself is outside: what open(mode='w+') makes of the options is not modelled. The statement is false for phase-linked stacks whose reference date is the latest (C77_reference_last_refuted)."
  },
  {
   "property": "C78",
   "status": "proved",
   "theorems": [
    "Spurt.C78_value",
    "Spurt.C78_value_matrix",
    "Spurt.C78_best",
    "Spurt.C78_perfect",
    "Spurt.C78_many"
   ],
   "note": "Under Spec.LinkArithOk (correctly rounded basic operations without over- or underflow, cos/sin/hypot within two ulps, the usual bound for sums and inner products; met by doubleArith) and Spec.BruteOk. The grid points are taken exactly."
  },
  {
   "property": "C79",
   "status": "proved",
   "theorems": [
    "Spurt.C79_cube_slc",
    "Spurt.C79_cube_ifg",
    "Spurt.C79_unwrap_one",
    "Spurt.C79_again",
    "Spurt.C79_tile",
    "Spurt.C79_reference",
    "Spurt.C79_single_tile"
   ],
   "note": "Exact arithmetic; the solver of the flow problems, of the overlaps and of least squares are the same in both runs. Whole workflow for references per pixel (C79_reference); per-acquisition phases for cubes, tile files and the workflow with one tile. Half-cycle ties excluded by hypothesis."
  },
  {
   "property": "C80",
   "status": "proved",
   "theorems": [
    "Spurt.C80_masked"
   ],
   "note": "Exact arithmetic model of the whole workflow; equality of the sets of runs."
  },
  {
   "property": "C81",
   "status": "proved",
   "theorems": [
    "Spurt.C81_parallel",
    "Spurt.C81_switching"
   ],
   "note": "Exact arithmetic model of the whole workflow; C81_switching allows the numbers to change at every restart."
  },
  {
   "property": "C82",
   "status": "proved",
   "theorems": [
    "Spurt.C82_tile",
    "Spurt.C82_workflow"
   ],
   "note": "Exact arithmetic model; the Delaunay triangulation and the solvers are parameters (functions of the points of the tile)."
  },
  {
   "property": "C83",
   "status": "partial",
   "theorems": [
    "Spurt.C83_own_result_partial",
    "Spurt.C83_stale_refuted",
    "Spurt.C83_refuted"
   ],
   "note": "False in general: after a completed run, a call with any other stack with as many interferograms completes and leaves all files of the first (C83_stale_refuted; C83_refuted is a pair of stacks whose own results differ). True when the folders hold only files of this stack or of stacks with the same results (C83_own_result_partial). Missing: the false case."
  },
  {
   "property": "C84",
   "status": "proved",
   "theorems": [
    "Spurt.C84_bulk",
    "Spurt.C84_merge",
    "Spurt.C84_workflow"
   ],
   "note": "Exact arithmetic and an exact least-squares library; same libraries in both runs; bulk method L2 only. C84_bulk (overlaps, medians, offsets), C84_merge (corrections, rasters), C84_workflow (whole runs)."
  },
  {
   "property": "C85",
   "status": "proved",
   "theorems": [
    "Spurt.C85_bulk_integer",
    "Spurt.C85_bulk_l2",
    "Spurt.C85_merge",
    "Spurt.C85_merging",
    "Spurt.C85_bulk_float",
    "Spurt.C85_merge_float"
   ],
   "note": "C85_bulk_integer and C85_bulk_l2: equal bulk offsets from two sets of tile files that share the interferogram; C85_merge: equal rasters from equal bands and offsets, whatever the other bands, batches and skipped files; C85_merging: the three steps in a row. C85_bulk_float (integer method) and C85_merge_float: the same in mixed precision, to the bit, whatever the roundings. The L2 method in exact arithmetic: it needs minimisers and connected overlaps."
  },
  {
   "property": "C86",
   "status": "proved",
   "theorems": [
    "Spurt.C86_overlap_float",
    "Spurt.C86_merge_float",
    "Spurt.C86_bulk",
    "Spurt.C86_merge",
    "Spurt.C86_local"
   ],
   "note": "C86_bulk: same overlaps and bulk offsets; C86_merge: same rasters wherever the tile files agree, and moved by the difference at pixels of a single tile; C86_local: the three stages in a row. C86_overlap_float and C86_merge_float: in mixed precision, whatever the roundings, overlap statistics, bulk offsets and every raster value where the files agree are the same to the bit. The libraries are deterministic."
  },
  {
   "property": "C87",
   "status": "proved",
   "theorems": [
    "Spurt.C87_kinds",
    "Spurt.C87_again_ifg",
    "Spurt.C87_again_slc",
    "Spurt.C87_kinds_float"
   ],
   "note": "C87_kinds (equivalence, exact arithmetic, no half-cycle ties), C87_kinds_float (any rounding, interferograms formed by phase_diff), C87_again_slc / C87_again_ifg (fixed point)."
  },
  {
   "property": "C88",
   "status": "proved",
   "theorems": [
    "Spurt.C88_float_one",
    "Spurt.C88_float_cube",
    "Spurt.C88_float_tile",
    "Spurt.C88_float_merge",
    "Spurt.C88_float_bulk",
    "Spurt.C88_float_workflow",
    "Spurt.C88_numpy_workflow",
    "Spurt.C88_numpy_unaliased",
    "Spurt.C88_one",
    "Spurt.C88_cube",
    "Spurt.C88_tile",
    "Spurt.C88_bulk",
    "Spurt.C88_merge",
    "Spurt.C88_libraries",
    "Spurt.C88_workflow",
    "Spurt.C88_cost"
   ],
   "note": "C88_one, C88_cube, C88_tile (equivalences), C88_bulk, C88_merge, C88_workflow (two completed runs, any number of tiles, both bulk methods; the int16 range of recorded cycle counts is not symmetric, so completion of both is assumed); C88_cost (any two optimal flow solvers); C88_libraries (the mirrored libraries meet the same contracts); C88_float_one, C88_float_cube, C88_float_tile, C88_float_bulk, C88_float_merge, C88_float_workflow (mixed precision, any roundings that commute with the sign, bit for bit); C88_numpy_workflow (float32 and float64), C88_numpy_unaliased (both runs complete on an unaliased stack)."
  },
  {
   "property": "C89",
   "status": "proved",
   "theorems": [
    "Spurt.C89_phase_diff",
    "Spurt.C89_phase_diff_only",
    "Spurt.C89_phase_diff_angle",
    "Spurt.C89_unwrap_one",
    "Spurt.C89_cube_slc",
    "Spurt.C89_cube_ifg",
    "Spurt.C89_amplitude",
    "Spurt.C89_factors",
    "Spurt.C89_conjugate",
    "Spurt.C89_tile",
    "Spurt.C89_result",
    "Spurt.C89_true_phase",
    "Spurt.C89_recovers",
    "Spurt.C89_hop3_reg2d",
    "Spurt.C89_numpy_recovers"
   ],
   "note": "exact arithmetic over the complex numbers, np.angle is Complex.arg; C89_numpy_recovers: float32/float64 after np.angle, angles accurate to 1/50000; factors: if no double difference along the links lies on the negative real axis; conjugate: if no sample lies on the negative real axis, with the mirrored flow solver of C88"
  },
  {
   "property": "C90",
   "status": "proved",
   "theorems": [
    "Spurt.C90_closure",
    "Spurt.C90_constant",
    "Spurt.C90_numpy",
    "Spurt.C90_numpy_constant",
    "Spurt.C90_zero_refuted"
   ],
   "note": "C90_closure: exact arithmetic, any data, any completed run; C90_constant: unaliased stack, constant closure; C90_numpy, C90_numpy_constant: the same in float32/float64, the latter from complex samples; C90_zero_refuted: the closure need not be zero"
  },
  {
   "property": "C91",
   "status": "proved",
   "theorems": [
    "Spurt.C91_tile",
    "Spurt.C91_single",
    "Spurt.C91_tiles",
    "Spurt.C91_rounding_tile",
    "Spurt.C91_numpy_single",
    "Spurt.C91_numpy_tiles"
   ],
   "note": "C91_tile and C91_single: any data; C91_tiles: unaliased stack, any number of tiles, both bulk methods; exact arithmetic. C91_rounding_tile, C91_numpy_single: float32/float64, any data, bit for bit; C91_numpy_tiles: within 1/200 rad on an unaliased stack"
  },
  {
   "property": "C92",
   "status": "proved",
   "theorems": [
    "Spurt.C92_cube",
    "Spurt.C92_tile",
    "Spurt.C92_bulk",
    "Spurt.C92_merge",
    "Spurt.C92_single_tile",
    "Spurt.C92_workflow",
    "Spurt.C92_overlaps",
    "Spurt.C92_completes"
   ],
   "note": "unwrap_cube, tile file, overlap file and bulk offsets, merge, and the workflow with one and with several tiles; the second run is shown to complete. Real numbers, not numpy's."
  },
  {
   "property": "C93",
   "status": "proved",
   "theorems": [
    "Spurt.C93_tile",
    "Spurt.C93_crop"
   ],
   "note": "tile file and whole workflow. The triangulation and the link costs are functions of the coordinates in the tile, which is what the code passes."
  },
  {
   "property": "C94",
   "status": "proved",
   "theorems": [
    "Spurt.C94_cube_slc",
    "Spurt.C94_unwrap_one",
    "Spurt.C94_cube_ifg",
    "Spurt.C94_run",
    "Spurt.C94_rasters",
    "Spurt.C94_count",
    "Spurt.C94_tile",
    "Spurt.C94_values"
   ],
   "note": "unwrap_one, unwrap_cube (both inputs), tile files and one-tile rasters, on real numbers, for an optimal flow solver. Merged rasters of several tiles are not bounded."
  },
  {
   "property": "C95",
   "status": "proved",
   "theorems": [
    "Spurt.C95_stacks",
    "Spurt.C95_settings",
    "Spurt.C95_reference",
    "Spurt.C95_numpy",
    "Spurt.C95_numpy_reference"
   ],
   "note": "Whole workflow. The thresholds, time graphs, tilings, costs, solvers, bulk methods, schedules of the two runs are independent."
  }
 ]
}