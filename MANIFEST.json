{
 "claims": [
  {
   "property": "C01",
   "status": "proved",
   "theorems": [
    "Colloids.C01_one_to_one",
    "Colloids.C01_total"
   ],
   "note": "All histories; C01_total shows every well-formed candidate history is accepted."
  },
  {
   "property": "C02",
   "status": "proved",
   "theorems": [
    "Colloids.C02_stable_greedy"
   ],
   "note": "Distances are any linear order (doubles without NaN)."
  },
  {
   "property": "C03",
   "status": "proved",
   "theorems": [
    "Colloids.C03_index_inverse",
    "Colloids.C03_contiguous",
    "Colloids.C03_summaries",
    "Colloids.C03_trajToPos_posToTraj",
    "Colloids.C03_value_round_trip"
   ],
   "note": "Needs fewer than 2^64 frames."
  },
  {
   "property": "C04",
   "status": "partial",
   "theorems": [
    "Colloids.C04_round_trip",
    "Colloids.C04_empty_trajectory_is_ub",
    "Colloids.C04_trailing_tab_duplicates"
   ],
   "note": "Proved for every list of non-empty trajectories with numbers below 2^64. An empty trajectory cannot be written: the writer reads steps[0] (C04_empty_trajectory_is_ub). Signs in the input are not modelled."
  },
  {
   "property": "C05",
   "status": "partial",
   "theorems": [
    "Colloids.C05_queries_partial",
    "Colloids.C05_pushBack",
    "Colloids.C05_subtraj",
    "Colloids.C05_empty_counterexample",
    "Colloids.C05_empty_positive"
   ],
   "note": "Holds for every trajectory with at least one step and for empty ones starting after time 0. False for an empty trajectory starting at time 0 (C05_empty_counterexample)."
  },
  {
   "property": "C06",
   "status": "proved",
   "theorems": [
    "Colloids.C06_bijection",
    "Colloids.C06_total",
    "Colloids.C06_greedy"
   ],
   "note": "Both kinds of add_Frame calls, in any order. Distances are any linear order (doubles without NaN)."
  },
  {
   "property": "C07",
   "status": "partial",
   "theorems": [
    "Colloids.C07_rejected_unchanged",
    "Colloids.C07_explicit_partial",
    "Colloids.C07_links_partial",
    "Colloids.C07_skip_counterexample",
    "Colloids.C07_empty_counterexample",
    "Colloids.C07_from_counterexample"
   ],
   "note": "Rejection is atomic from any state (C07_rejected_unchanged) and the exact outcome of every call is characterised. The claim is false in three cases the code does not check, each proved: explicit new numbers not starting at size(), any explicit frame on an index without trajectories, inexistent old position in the links."
  },
  {
   "property": "C08",
   "status": "partial",
   "theorems": [
    "Colloids.C08_span_counterexample",
    "Colloids.C08_span_partial",
    "Colloids.C08_read"
   ],
   "note": "span() is wrong exactly at t1 = get_finish() (C08_span_counterexample); everything else is proved."
  },
  {
   "property": "C09",
   "status": "proved",
   "theorems": [
    "Colloids.C09_partition",
    "Colloids.C09_components",
    "Colloids.C09_all",
    "Colloids.C09_range_needed",
    "Colloids.C09_symmetry_needed"
   ],
   "note": "Symmetry of the neighbour relation is a hypothesis of the component statement (C09_symmetry_needed shows it is necessary); the partition needs none. Population indices must be inside the neighbour list (C09_range_needed)."
  },
  {
   "property": "C10",
   "status": "proved",
   "theorems": [
    "Colloids.C10_unordered",
    "Colloids.C10_order",
    "Colloids.C10_set",
    "Colloids.C10_roundtrip",
    "Colloids.C10_file_roundtrip",
    "Colloids.C10_file_ending"
   ],
   "note": "Text round trip proved for single bonds and for whole files; numbers below 2^64."
  },
  {
   "property": "C11",
   "status": "proved",
   "theorems": [
    "Colloids.C11_bonds",
    "Colloids.C11_ngb_roundtrip",
    "Colloids.C11_bond_roundtrip",
    "Colloids.C11_hypotheses_needed"
   ],
   "note": "Both round trips. Hypotheses (symmetric, irreflexive, sorted, in range) shown necessary by C11_hypotheses_needed."
  },
  {
   "property": "C12",
   "status": "proved",
   "theorems": [
    "Colloids.C12_insertions",
    "Colloids.C12_code",
    "Colloids.C12_step"
   ],
   "note": "For every insertion sequence, every valid heuristic, and instantiated for the modelled heuristics of the code (C12_code). Exact arithmetic instead of double."
  },
  {
   "property": "C13",
   "status": "partial",
   "theorems": [
    "Colloids.C13_index_sound",
    "Colloids.C13_index_complete_partial",
    "Colloids.C13_index_of_boxes",
    "Colloids.C13_brute_uninitialised",
    "Colloids.C13_brute_partial",
    "Colloids.C13_overlapping",
    "Colloids.C13_enclosing_sound",
    "Colloids.C13_enclosing_partial",
    "Colloids.C13_enclosing_interior",
    "Colloids.C13_enclosing_counterexample"
   ],
   "note": "Overlap queries are exact. Enclosing queries are exact unless an item has zero extent along an axis and touches the boundary of the query there, in which case it can be missed (C13_enclosing_counterexample): the code tests nodes with a strict overlap."
  },
  {
   "property": "C14",
   "status": "partial",
   "theorems": [
    "Colloids.C14_structure",
    "Colloids.C14_code",
    "Colloids.C14_nested_partial",
    "Colloids.C14_nested_counterexample"
   ],
   "note": "Balance, fan-out, and containment of all items are proved for every history. Nesting of the boxes of nodes is proved for insertions and removals; translations break it (C14_nested_counterexample)."
  },
  {
   "property": "C15",
   "status": "partial",
   "theorems": [
    "Colloids.C15_remove",
    "Colloids.C15_remove_exact",
    "Colloids.C15_bounded_area_partial"
   ],
   "note": "Remove is proved exact for any acceptor; RemoveBoundedArea shares the boundary problem of C13 for items of zero extent. RemoveItem is not modelled (RStarRemoveSpecificLeaf assigns a member in a const method and does not compile)."
  },
  {
   "property": "C16",
   "status": "proved",
   "theorems": [
    "Colloids.C16_index",
    "Colloids.C16_brute_partial",
    "Colloids.C16_brute_box_counterexample",
    "Colloids.C16_content",
    "Colloids.C16_queries"
   ],
   "note": "Content, size, overall box and both kinds of queries."
  },
  {
   "property": "C17",
   "status": "partial",
   "theorems": [
    "Colloids.C17_tight_partial",
    "Colloids.C17_counterexample",
    "Colloids.C17_removal_counterexample"
   ],
   "note": "True for at most 32 items, or when each axis has a positive upper edge. False otherwise (C17_counterexample: reset() uses the smallest positive double) and after removals (C17_removal_counterexample)."
  },
  {
   "property": "C18",
   "status": "partial",
   "theorems": [
    "Colloids.C18_sound",
    "Colloids.C18_exact_partial",
    "Colloids.C18_points_partial",
    "Colloids.C18_flat_counterexample",
    "Colloids.C18_empty"
   ],
   "note": "Exact for boxes of positive extent and for points strictly inside. False for flat systems of points: nothing is returned (C18_flat_counterexample). Throws on an empty index (C18_empty)."
  },
  {
   "property": "C19",
   "status": "proved",
   "theorems": [
    "Colloids.C19_position",
    "Colloids.C19_particle",
    "Colloids.C19_by_distance"
   ],
   "note": "Exact for all ranges and any set indexed by makeRTreeIndex or cut and updated by push_back and +=; points strictly inside the query box are always found by the index, so that the boundary defect of C13 does not matter."
  },
  {
   "property": "C20",
   "status": "proved",
   "theorems": [
    "Colloids.C20_exact",
    "Colloids.C20_symmetric"
   ],
   "note": "Exactness, order, symmetry and irreflexivity."
  },
  {
   "property": "C21",
   "status": "proved",
   "theorems": [
    "Colloids.C21_nearest",
    "Colloids.C21_diverges"
   ],
   "note": "Termination needs an Archimedean field; returns the first of the nearest particles. C21_diverges: never returns on an empty set or with a range that is not positive."
  },
  {
   "property": "C22",
   "status": "proved",
   "theorems": [
    "Colloids.C22_cut"
   ],
   "note": "The result has the default radius (noted in DESIGN.md)."
  },
  {
   "property": "C23",
   "status": "proved",
   "theorems": [
    "Colloids.C23_remove",
    "Colloids.C23_no_index"
   ],
   "note": ""
  },
  {
   "property": "C24",
   "status": "proved",
   "theorems": [
    "Colloids.C24_translate"
   ],
   "note": ""
  },
  {
   "property": "C25",
   "status": "partial",
   "theorems": [
    "Colloids.C25_stale_counterexample",
    "Colloids.C25_reindexed_partial",
    "Colloids.C25_box"
   ],
   "note": "The full statement is false: the index is not rescaled (C25_stale_counterexample). Exactness is back after makeRTreeIndex; the box is only right when its lower corner is the origin."
  },
  {
   "property": "C26",
   "status": "proved",
   "theorems": [
    "Colloids.C26_minimal_image"
   ],
   "note": "For all pairs of points of the closed box."
  },
  {
   "property": "C27",
   "status": "proved",
   "theorems": [
    "Colloids.C27_symmetric",
    "Colloids.C27_images",
    "Colloids.C27_zero"
   ],
   "note": ""
  },
  {
   "property": "C28",
   "status": "partial",
   "theorems": [
    "Colloids.C28_sound",
    "Colloids.C28_complete_partial",
    "Colloids.C28_face_counterexample",
    "Colloids.C28_boundary_counterexample"
   ],
   "note": "Sound, and complete for images strictly inside the query. False on faces: C28_face_counterexample and C28_boundary_counterexample."
  },
  {
   "property": "C29",
   "status": "partial",
   "theorems": [
    "Colloids.C29_uninitialised",
    "Colloids.C29_query_partial",
    "Colloids.C29_complete_partial",
    "Colloids.C29_same_start_partial",
    "Colloids.C29_unsound",
    "Colloids.C29_out_of_bounds"
   ],
   "note": "As coded the index reads an uninitialised pointer at the first insertion (C29_uninitialised); supposing it null, queries are complete but return too much (C29_unsound) and read out of bounds when every item starts before the query (C29_out_of_bounds)."
  },
  {
   "property": "C30",
   "status": "partial",
   "theorems": [
    "Colloids.DynField.C30_window_mean_partial",
    "Colloids.DynField.C30_no_averaging",
    "Colloids.DynField.C30_short_series_never_divided"
   ],
   "note": "Exact windowed mean for any addition and division when the series is longer than the half window; otherwise the code never divides (C30_short_series_never_divided)."
  },
  {
   "property": "C31",
   "status": "partial",
   "theorems": [
    "Colloids.Center.C31_tree",
    "Colloids.Center.C31_brute_force",
    "Colloids.Center.C31_tree_eq_brute_force",
    "Colloids.Center.C31_small_tolerance",
    "Colloids.Center.C31_large_tolerance",
    "Colloids.Center.C31_tolerance_counterexample",
    "Colloids.Center.C31_half"
   ],
   "note": "Exact greedy selection for the conflict relation of the code; equal to brute force at tolerance 1; half overlap exact. For tolerances below 1 the relation is a box, above 1 it divides: C31_tolerance_counterexample, C31_large_tolerance."
  },
  {
   "property": "C32",
   "status": "proved",
   "theorems": [
    "Colloids.Recon.C32_clusters",
    "Colloids.Recon.C32_links"
   ],
   "note": "Any history of frames; links follow the greedy rule on distances below max_dist."
  },
  {
   "property": "C33",
   "status": "proved",
   "theorems": [
    "Colloids.Recon.C33_split",
    "Colloids.Recon.C33_conserves"
   ],
   "note": ""
  },
  {
   "property": "C34",
   "status": "partial",
   "theorems": [
    "Colloids.Recon.C34_tree",
    "Colloids.Recon.C34_brute_force",
    "Colloids.Recon.C34_agree_partial",
    "Colloids.Recon.C34_counterexample"
   ],
   "note": "Each version is exact for its own criterion; they agree when the criteria coincide; C34_counterexample with the default arguments."
  },
  {
   "property": "C35",
   "status": "proved",
   "theorems": [
    "Colloids.Boo.C35_binary",
    "Colloids.Boo.C35_file"
   ],
   "note": ""
  },
  {
   "property": "C36",
   "status": "proved",
   "theorems": [
    "Colloids.Boo.C36_own_slot",
    "Colloids.Boo.C36_tables",
    "Colloids.Boo.C36_negative",
    "Colloids.Boo.C36_degree_bound"
   ],
   "note": ""
  },
  {
   "property": "C37",
   "status": "partial",
   "theorems": [
    "Colloids.Boo.C37_reads",
    "Colloids.Boo.C37_sum_norm",
    "Colloids.Boo.C37_null",
    "Colloids.Boo.C37_hermitian_partial",
    "Colloids.Boo.C37_symmetric",
    "Colloids.Boo.C37_self",
    "Colloids.Boo.C37_self_counterexample",
    "Colloids.Boo.C37_normed",
    "Colloids.Boo.C37_normed_self_partial",
    "Colloids.Boo.C37_Ql"
   ],
   "note": "innerProduct multiplies the m=0 coefficients without conjugation: symmetric, Hermitian and bounded when the m=0 coefficients are real (as spherical harmonics are); C37_self is an equivalence and C37_self_counterexample shows the failure otherwise."
  },
  {
   "property": "C38",
   "status": "proved",
   "theorems": [
    "Colloids.Boo.C38_in_range",
    "Colloids.Boo.C38_same_slot",
    "Colloids.Boo.C38_cover"
   ],
   "note": ""
  },
  {
   "property": "C39",
   "status": "partial",
   "theorems": [
    "Colloids.Files.C39_names",
    "Colloids.Files.C39_original",
    "Colloids.Files.C39_distinct",
    "Colloids.Files.C39_no_digits",
    "Colloids.Files.C39_rejected",
    "Colloids.Files.C39_ends_with_digits_counterexample",
    "Colloids.Files.C39_percent_counterexample",
    "Colloids.Files.C39_postfix_partial",
    "Colloids.Files.C39_zero_in_token_counterexample",
    "Colloids.Files.C39_extension_partial",
    "Colloids.Files.C39_postfix_extension_partial",
    "Colloids.Files.C39_no_extension_counterexample",
    "Colloids.Files.C39_dot_in_head_counterexample",
    "Colloids.Files.C39_head",
    "Colloids.Files.C39_get0th",
    "Colloids.Files.C39_get0th_token_counterexample"
   ],
   "note": "Names, distinctness, original name, rejection, head, get0th proved for every well formed name. Postfix and extension need conditions that the counterexamples show to be necessary: C39_zero_in_token_counterexample, C39_no_extension_counterexample, C39_dot_in_head_counterexample, C39_ends_with_digits_counterexample, C39_percent_counterexample, C39_get0th_token_counterexample."
  },
  {
   "property": "C40",
   "status": "partial",
   "theorems": [
    "Colloids.Dat.C40_round_trip_partial",
    "Colloids.Dat.C40_box_counterexample",
    "Colloids.Dat.C40_truncated",
    "Colloids.Dat.C40_grv",
    "Colloids.Dat.C40_missing",
    "Colloids.Dat.C40_loadBoo"
   ],
   "note": "Round trip up to the rounding of printed numbers for boxes with a null lower corner; C40_box_counterexample otherwise."
  },
  {
   "property": "C41",
   "status": "partial",
   "theorems": [
    "Colloids.Dyn.C41_removeDrift_partial",
    "Colloids.Dyn.C41_index_partial",
    "Colloids.Dyn.C41_same_frame",
    "Colloids.Dyn.C41_idempotent",
    "Colloids.Dyn.C41_alone",
    "Colloids.Dyn.C41_single_counterexample",
    "Colloids.Dyn.C41_getDrift_counterexample"
   ],
   "note": "Proved without temporal index, when every pair of consecutive frames is spanned by no trajectory or by at least two; C41_single_counterexample: a single spanning trajectory is not corrected; C41_getDrift_counterexample: getDrift(t0,t1) ignores t1. With an index: C41_index_partial, for the trajectories the index answers."
  },
  {
   "property": "C42",
   "status": "partial",
   "theorems": [
    "Colloids.Dyn.C42_msd",
    "Colloids.Dyn.C42_starts",
    "Colloids.Dyn.C42_empty",
    "Colloids.Dyn.C42_too_long",
    "Colloids.Dyn.C42_spanning_partial",
    "Colloids.Dyn.C42_pooled_partial",
    "Colloids.Dyn.C42_window_counterexample"
   ],
   "note": "getMSD with a selection: exact (C42_msd for all starts, C42_starts for t3 starts). getMSD(t0,t1,t2): C42_spanning_partial, C42_pooled_partial; C42_window_counterexample: the starts used are t0 to t2-1, not t0 to t0+t2, none if t2<=t0."
  },
  {
   "property": "C43",
   "status": "partial",
   "theorems": [
    "Colloids.Dyn.C43_spanning_partial",
    "Colloids.Dyn.C43_out_of_range",
    "Colloids.Dyn.C43_index_counterexample"
   ],
   "note": "Without a temporal index: exactly the spanning trajectories. C43_index_counterexample: with a temporal index the answer is what the index answers, see C18."
  },
  {
   "property": "C44",
   "status": "proved",
   "theorems": [
    "Colloids.Dyn.C44_lost",
    "Colloids.Dyn.C44_count"
   ],
   "note": ""
  },
  {
   "property": "C45",
   "status": "partial",
   "theorems": [
    "Colloids.Dyn.C45_cages_partial",
    "Colloids.Dyn.C45_last_counterexample"
   ],
   "note": "Termination, consecutive and disjoint cages that are not empty: proved for any radius that is not null. The last position of each trajectory that is cut is lost and the inverse index is then wrong: last clause of C45_cages_partial and C45_last_counterexample, which also shows that the resolution is not a minimum duration."
  },
  {
   "property": "C46",
   "status": "partial",
   "theorems": [
    "Colloids.Octave.C46_two_dimensions",
    "Colloids.Octave.C46_round",
    "Colloids.Octave.C46_ratio_below_one",
    "Colloids.Octave.C46_one_dimension_partial",
    "Colloids.Octave.C46_one_dimension_counterexample",
    "Colloids.Octave.C46_three_dimensions_partial"
   ],
   "note": "Proved in two dimensions for every image (C46_two_dimensions); in one dimension when all the sizes are at least 2, false below (C46_one_dimension_counterexample); in three dimensions for volumes deep enough for the window (see C47)."
  },
  {
   "property": "C47",
   "status": "partial",
   "theorems": [
    "Colloids.Octave.C47_window_partial",
    "Colloids.Octave.C47_small_size_counterexample",
    "Colloids.Octave.C47_thin_counterexample"
   ],
   "note": "Proved when the size of the first layer is at least 3 and the volume has at least 3 more planes; false otherwise: C47_small_size_counterexample and C47_thin_counterexample."
  },
  {
   "property": "C48",
   "status": "partial",
   "theorems": [
    "Colloids.Octave.C48_downscale_volume",
    "Colloids.Octave.C48_block_mean_volume",
    "Colloids.Octave.C48_upscale_line_partial",
    "Colloids.Octave.C48_line_end_counterexample",
    "Colloids.Octave.C48_sizes",
    "Colloids.Octave.C48_downscale",
    "Colloids.Octave.C48_downscale_line",
    "Colloids.Octave.C48_block_mean",
    "Colloids.Octave.C48_upscale_partial",
    "Colloids.Octave.C48_border_counterexample",
    "Colloids.Octave.C48_upscale_volume_counterexample",
    "Colloids.Octave.C48_count",
    "Colloids.Octave.C48_coordinates"
   ],
   "note": "Sizes, downscaling, block means (one, two, three dimensions), coordinates: proved. Upscaling in one and two dimensions is right but for the last pixel, row and column, left black (C48_line_end_counterexample, C48_border_counterexample); in three dimensions all the odd columns are black (C48_upscale_volume_counterexample)."
  },
  {
   "property": "C49",
   "status": "partial",
   "theorems": [
    "Colloids.Lif.C49_dimensions",
    "Colloids.Lif.C49_pixels",
    "Colloids.Lif.C49_large_counterexample",
    "Colloids.Lif.C49_range",
    "Colloids.Lif.C49_frame",
    "Colloids.Lif.C49_all_frames",
    "Colloids.Lif.C49_slices",
    "Colloids.Lif.C49_plane",
    "Colloids.Lif.C49_slice_range_counterexample",
    "Colloids.Lif.C49_failure_counterexample",
    "Colloids.Lif.C49_resolution_counterexample",
    "Colloids.Lif.C49_xzy_counterexample",
    "Colloids.Lif.C49_inside",
    "Colloids.Lif.C49_wrap_counterexample"
   ],
   "note": "Proved for stacks of 8 bits with less than 2^31 pixels, X first then Y then Z. False: slice number not checked (C49_slice_range_counterexample), no recovery after a failed read (C49_failure_counterexample), 16 bits (C49_resolution_counterexample), large stacks (C49_large_counterexample), xzy scans (C49_xzy_counterexample), sizes that wrap (C49_wrap_counterexample)."
  },
  {
   "property": "C50",
   "status": "proved",
   "theorems": [
    "Colloids.Rdf.C50_whole",
    "Colloids.Rdf.C50_bins",
    "Colloids.Rdf.C50_rdf",
    "Colloids.Rdf.C50_no_bins_counterexample",
    "Colloids.Rdf.C50_bad_selection"
   ],
   "note": "Sequential execution and exact arithmetic; at least one bin (C50_no_bins_counterexample shows the undefined behaviour otherwise)."
  },
  {
   "property": "C51",
   "status": "partial",
   "theorems": [
    "Colloids.C51_inside_partial",
    "Colloids.C51_counterexample",
    "Colloids.C51_empty"
   ],
   "note": "Exact if some coordinate is non negative on each axis; C51_counterexample otherwise; undefined on an empty set."
  },
  {
   "property": "C52",
   "status": "proved",
   "theorems": [
    "Colloids.C52_position",
    "Colloids.C52_ngb_list",
    "Colloids.C52_nearest"
   ],
   "note": ""
  },
  {
   "property": "C53",
   "status": "partial",
   "theorems": [
    "Colloids.Recon.C53_actual_cuts",
    "Colloids.Recon.C53_uniform_partial",
    "Colloids.Recon.C53_counterexample"
   ],
   "note": "The gradient is computed from the first and third centers only: C53_actual_cuts describes what is done, C53_counterexample is the disagreement."
  },
  {
   "property": "C54",
   "status": "partial",
   "theorems": [
    "Colloids.Recon.C54_blobs_partial",
    "Colloids.Recon.C54_end",
    "Colloids.Recon.C54_depth",
    "Colloids.Recon.C54_signal"
   ],
   "note": "C54_end: undefined behaviour for a blob exactly at the end; C54_depth: the last frame is not shifted."
  },
  {
   "property": "C55",
   "status": "partial",
   "theorems": [
    "Colloids.Boo.C55_real",
    "Colloids.Boo.C55_bounded",
    "Colloids.Boo.C55_getWl_partial",
    "Colloids.Boo.C55_getWl_counterexample"
   ],
   "note": "getInvarients is real and bounded by 1. C55_getWl_partial gives the exact difference between getWl and getInvarients; C55_getWl_counterexample shows that it is not null."
  },
  {
   "property": "C56",
   "status": "proved",
   "theorems": [
    "Colloids.Boo.C56_wigner",
    "Colloids.Boo.C56_orthogonality"
   ],
   "note": "Against the Racah formula."
  },
  {
   "property": "C57",
   "status": "partial",
   "theorems": [
    "Colloids.Boo.C57_getBOO",
    "Colloids.Boo.C57_getBOOs_partial",
    "Colloids.Boo.C57_isolated_counterexample",
    "Colloids.Boo.C57_reuse_counterexample",
    "Colloids.Boo.C57_surface",
    "Colloids.Boo.C57_surface_bonds",
    "Colloids.Boo.C57_coarse_grain",
    "Colloids.Boo.C57_selection",
    "Colloids.Boo.C57_coarse_grain_selection"
   ],
   "note": "getBOOs: C57_isolated_counterexample (0/0 for isolated particles) and C57_reuse_counterexample (adds to what the array contained). The other functions are proved."
  },
  {
   "property": "C58",
   "status": "partial",
   "theorems": [
    "Colloids.Boo.C58_qlm_partial",
    "Colloids.Boo.C58_qlm_overrun",
    "Colloids.Boo.C58_q6m_counterexample",
    "Colloids.Boo.C58_q6m_partial",
    "Colloids.Boo.C58_string_counterexample"
   ],
   "note": "C58_q6m_counterexample: load_q6m reads past the end on every file of exportQ6m with as many particles; C58_qlm_overrun; C58_string_counterexample."
  },
  {
   "property": "C59",
   "status": "partial",
   "theorems": [
    "Colloids.Rdf.C59_remove_outside",
    "Colloids.Rdf.C59_unsorted_counterexample"
   ],
   "note": "Proved for selections in increasing order, as selectInside gives; C59_unsorted_counterexample otherwise."
  },
  {
   "property": "C60",
   "status": "partial",
   "theorems": [
    "Colloids.Rdf.C60_density_no_index",
    "Colloids.Rdf.C60_density_index_partial",
    "Colloids.Rdf.C60_flat_counterexample",
    "Colloids.Rdf.C60_empty_counterexample"
   ],
   "note": "Without an index: exact. With an index the box contains the particles but may be larger, see C17."
  },
  {
   "property": "C61",
   "status": "partial",
   "theorems": [
    "Colloids.Dyn.C61_velocities",
    "Colloids.Dyn.C61_zero_counterexample",
    "Colloids.Dyn.C61_sd_counterexample"
   ],
   "note": "velocities: exact for half intervals larger than 0; C61_zero_counterexample: 0/0 for a null half interval; C61_sd_counterexample: getSD(t,h) is not the squared displacement."
  },
  {
   "property": "C62",
   "status": "partial",
   "theorems": [
    "Colloids.Dyn.C62_one_lag_partial",
    "Colloids.Dyn.C62_lag_counterexample",
    "Colloids.Dyn.C62_differ_counterexample",
    "Colloids.Dyn.C62_nonGaussian_counterexample",
    "Colloids.Dyn.C62_twice_counterexample"
   ],
   "note": "C62_one_lag_partial only: for longer windows all lags hold the value of the largest lag (C62_lag_counterexample, C62_nonGaussian_counterexample), get_MSD_NGP and getMSD disagree (C62_differ_counterexample) and with t3 the result is divided twice (C62_twice_counterexample)."
  },
  {
   "property": "C63",
   "status": "partial",
   "theorems": [
    "Colloids.Dyn.C63_self_partial",
    "Colloids.Dyn.C63_greedy_counterexample",
    "Colloids.Dyn.C63_offset_counterexample",
    "Colloids.Dyn.C63_collective_partial",
    "Colloids.Dyn.C63_static_counterexample"
   ],
   "note": "getSelfISF: exact for t3>0; C63_greedy_counterexample: undefined behaviour for the default t3=0. getISF: exact value in C63_collective_partial from time 0; C63_offset_counterexample: undefined behaviour from other times; C63_static_counterexample: not normalised."
  },
  {
   "property": "C64",
   "status": "proved",
   "theorems": [
    "Colloids.Dyn.C64_link",
    "Colloids.Dyn.C64_no_frame"
   ],
   "note": "Every heuristic of the R* tree; frames without an index or with an index of the points."
  },
  {
   "property": "C65",
   "status": "partial",
   "theorems": [
    "Colloids.Dyn.C65_origin_counterexample"
   ],
   "note": "False: C65_origin_counterexample."
  },
  {
   "property": "C66",
   "status": "partial",
   "theorems": [
    "Colloids.Dyn.C66_blocks_partial",
    "Colloids.Dyn.C66_sliding_partial",
    "Colloids.Dyn.C66_too_long",
    "Colloids.Dyn.C66_repeated_counterexample",
    "Colloids.Dyn.C66_missing"
   ],
   "note": "Proved for selections without repetition; C66_repeated_counterexample otherwise."
  },
  {
   "property": "C67",
   "status": "proved",
   "theorems": [
    "Colloids.Dyn.C67_bounds",
    "Colloids.Dyn.C67_maxBox",
    "Colloids.Dyn.C67_maxSimultaneous"
   ],
   "note": ""
  },
  {
   "property": "C68",
   "status": "partial",
   "theorems": [
    "Colloids.Dyn.C68_file_partial",
    "Colloids.Dyn.C68_offset_counterexample"
   ],
   "note": "Proved for all the frames but the last `offset` ones, which keep the same translation: C68_offset_counterexample."
  },
  {
   "property": "C69",
   "status": "partial",
   "theorems": [
    "Colloids.Octave.C69_line_exact",
    "Colloids.Octave.C69_line_inside_partial",
    "Colloids.Octave.C69_line_nan_counterexample",
    "Colloids.Octave.C69_line_scale_counterexample",
    "Colloids.Octave.C69_line_far_counterexample",
    "Colloids.Octave.C69_exact",
    "Colloids.Octave.C69_inside_partial",
    "Colloids.Octave.C69_unbounded_counterexample",
    "Colloids.Octave.C69_scale",
    "Colloids.Octave.C69_scale_nan_counterexample",
    "Colloids.Octave.C69_scale_exact",
    "Colloids.Octave.C69_three_dimensions",
    "Colloids.Octave.C69_exact_three"
   ],
   "note": "Three dimensions: bounds proved unless the quotient is not a number. Two dimensions: scale within half a layer or not a number (C69_scale_nan_counterexample), position exact on parabolas and inside the pixel when it is a maximum of the Gaussian layer, but unbounded in general (C69_unbounded_counterexample). One dimension: exact on parabolas, inside the pixel at a maximum of the Gaussian layer; not a number on a flat signal (C69_line_nan_counterexample), far away otherwise (C69_line_far_counterexample), and the scale carries a correction that moves an exact maximum (C69_line_scale_counterexample)."
  },
  {
   "property": "C70",
   "status": "partial",
   "theorems": [
    "Colloids.Octave.C70_line",
    "Colloids.Octave.C70_line_constant",
    "Colloids.Octave.C70_volume_partial",
    "Colloids.Octave.C70_volume_wide_counterexample",
    "Colloids.Octave.C70_square_partial",
    "Colloids.Octave.C70_constant",
    "Colloids.Octave.C70_wide_counterexample",
    "Colloids.Octave.C70_response",
    "Colloids.Octave.C70_negative"
   ],
   "note": "Proved for lines, for square images and for volumes with as many rows as columns (there, pixels outside count as zero); false with more columns than rows (C70_wide_counterexample, C70_volume_wide_counterexample). The kernels of OpenCV are parameters."
  },
  {
   "property": "C71",
   "status": "partial",
   "theorems": [
    "Colloids.Octave.C71_blur_partial",
    "Colloids.Octave.C71_remainder_counterexample"
   ],
   "note": "Proved when the number of threads divides the number of columns; false otherwise (C71_remainder_counterexample)."
  },
  {
   "property": "C72",
   "status": "proved",
   "theorems": [
    "Colloids.Octave.C72_scale",
    "Colloids.Octave.C72_radius"
   ],
   "note": ""
  },
  {
   "property": "C73",
   "status": "partial",
   "theorems": [
    "Colloids.Octave.C73_octave0_counterexample"
   ],
   "note": "False: C73_octave0_counterexample, the places differ by a quarter of a pixel."
  },
  {
   "property": "C74",
   "status": "partial",
   "theorems": [
    "Colloids.Lif.C74_blocks",
    "Colloids.Lif.C74_too_many",
    "Colloids.Lif.C74_wrong_code",
    "Colloids.Lif.C74_truncated_counterexample",
    "Colloids.Lif.C74_data_cut"
   ],
   "note": "Round trip proved for all well-formed files. Files cut in the data are refused; cut elsewhere they are not (C74_truncated_counterexample). XML parsing is a parameter."
  },
  {
   "property": "C75",
   "status": "partial",
   "theorems": [
    "Colloids.Lif.C75_new_partial",
    "Colloids.Lif.C75_overrun_counterexample",
    "Colloids.Lif.C75_old",
    "Colloids.Lif.C75_unit_counterexample"
   ],
   "note": "False: more numbers than declared (C75_overrun_counterexample), units (C75_unit_counterexample). The conversion of text to numbers is not modelled."
  },
  {
   "property": "C76",
   "status": "partial",
   "theorems": [
    "Colloids.Lif.C76_new",
    "Colloids.Lif.C76_slices_partial",
    "Colloids.Lif.C76_time_counterexample",
    "Colloids.Lif.C76_end",
    "Colloids.Lif.C76_next",
    "Colloids.Lif.C76_square",
    "Colloids.Lif.C76_rectangular_counterexample",
    "Colloids.Lif.C76_channels_counterexample",
    "Colloids.Lif.C76_line_counterexample"
   ],
   "note": "False: time step 0 is always read (C76_time_counterexample), non-square slices are scrambled (C76_rectangular_counterexample), two channels overrun the buffer (C76_channels_counterexample), line scans (C76_line_counterexample)."
  },
  {
   "property": "C77",
   "status": "proved",
   "theorems": [
    "Colloids.Deconv.C77_convolve",
    "Colloids.Deconv.C77_wrong_axis"
   ],
   "note": "For any operation on lines; sizes are positive and the image is continuous, as the code asserts."
  },
  {
   "property": "C78",
   "status": "proved",
   "theorems": [
    "Colloids.Deconv.C78_filter",
    "Colloids.Deconv.C78_unique",
    "Colloids.Deconv.C78_identity",
    "Colloids.Deconv.C78_twice",
    "Colloids.Deconv.C78_short",
    "Colloids.Deconv.C78_image"
   ],
   "note": "Over the reals; FFTW is replaced by the sums it computes. C78_unique: the coefficients determine the line. C78_short: a shorter kernel is read out of range."
  },
  {
   "property": "C79",
   "status": "partial",
   "theorems": [
    "Colloids.Deconv.C79_spectrum",
    "Colloids.Deconv.C79_common",
    "Colloids.Deconv.C79_convolved",
    "Colloids.Deconv.C79_kernel",
    "Colloids.Deconv.C79_deconvolved",
    "Colloids.Deconv.C79_hanning",
    "Colloids.Deconv.C79_hanning_counterexample"
   ],
   "note": "Over the reals, without windowing in the spectra. The window of a single point is not a number (C79_hanning_counterexample)."
  },
  {
   "property": "C80",
   "status": "proved",
   "theorems": [
    "Colloids.Volume.C80_sphere"
   ],
   "note": "Exact arithmetic; bounds outside of the range of int are not modelled."
  },
  {
   "property": "C81",
   "status": "partial",
   "theorems": [
    "Colloids.Volume.C81_mean_partial",
    "Colloids.Volume.C81_float_counterexample"
   ],
   "note": "Proved for integer pixels. False for floating point pixels: C81_float_counterexample."
  },
  {
   "property": "C82",
   "status": "proved",
   "theorems": [
    "Colloids.Boo.C82_total",
    "Colloids.Boo.C82_half_turn",
    "Colloids.Boo.C82_axis_fixed",
    "Colloids.Boo.C82_linear",
    "Colloids.Boo.C82_cluster",
    "Colloids.Boo.C82_involution",
    "Colloids.Boo.C82_product",
    "Colloids.Boo.C82_norm",
    "Colloids.Boo.C82_axis",
    "Colloids.Boo.C82_null_axis"
   ],
   "note": "Over the reals, boost spherical harmonics replaced by their definition (Rodrigues formula). For tensors of which the coefficients m=0 are real, as all the sums of bonds, and any set of bonds."
  },
  {
   "property": "C83",
   "status": "proved",
   "theorems": [
    "Colloids.Boo.C83_direction",
    "Colloids.Boo.C83_null_bond",
    "Colloids.Boo.C83_addition",
    "Colloids.Boo.C83_unit",
    "Colloids.Boo.C83_normed",
    "Colloids.Boo.C83_bounded",
    "Colloids.Boo.C83_isnull"
   ],
   "note": "Over the reals; `norm + 1.0 == 1.0` is modelled by norm = 0."
  },
  {
   "property": "C84",
   "status": "partial",
   "theorems": [
    "Colloids.Boo.C84_actual",
    "Colloids.Boo.C84_mirror_partial",
    "Colloids.Boo.C84_azimuth_lost_counterexample",
    "Colloids.Boo.C84_isometry",
    "Colloids.Boo.C84_mirror_counterexample"
   ],
   "note": "reflect forgets the azimuth of the normal (C84_actual, C84_azimuth_lost_counterexample): right only for normals with y = 0 and x z <= 0 (C84_mirror_partial), wrong otherwise (C84_mirror_counterexample)."
  },
  {
   "property": "C85",
   "status": "proved",
   "theorems": [
    "Colloids.Boo.C85_flip",
    "Colloids.Boo.C85_alone",
    "Colloids.Boo.C85_twin"
   ],
   "note": "Without periodicity. Null means that the first coefficient is exactly zero."
  },
  {
   "property": "C86",
   "status": "proved",
   "theorems": [
    "Colloids.Structure.C86_1551",
    "Colloids.Structure.C86_is_ring",
    "Colloids.Structure.C86_two_rings_counterexample"
   ],
   "note": "C86_two_rings_counterexample: is_ring accepts two separated triangles, which does not matter for lists of five."
  },
  {
   "property": "C87",
   "status": "proved",
   "theorems": [
    "Colloids.Structure.C87_2331",
    "Colloids.Structure.C87_disjoint"
   ],
   "note": "Neighbour lists sorted, symmetric and without self, as makeNgbList makes them (C20)."
  },
  {
   "property": "C88",
   "status": "partial",
   "theorems": [
    "Colloids.Structure.C88_second_shell_partial",
    "Colloids.Structure.C88_missing_counterexample"
   ],
   "note": "Linked pairs without common neighbour are missing (C88_missing_counterexample); right when each bond has a common neighbour."
  },
  {
   "property": "C89",
   "status": "partial",
   "theorems": [
    "Colloids.Structure.C89_sp5c",
    "Colloids.Structure.C89_1551_partial",
    "Colloids.Structure.C89_no_ring_counterexample"
   ],
   "note": "What is appended is characterised exactly (C89_sp5c), and contains all 1551 pairs, but the ring is not tested: C89_no_ring_counterexample."
  },
  {
   "property": "C90",
   "status": "proved",
   "theorems": [
    "Colloids.DynClusters.C90_members",
    "Colloids.DynClusters.C90_exist",
    "Colloids.DynClusters.C90_no_time_step"
   ],
   "note": "Neighbour lists symmetric and inside the frame, as makeNgbList makes them; population of existing trajectories."
  },
  {
   "property": "C91",
   "status": "partial",
   "theorems": [
    "Colloids.DynClusters.C91_one_to_one",
    "Colloids.DynClusters.C91_linking_partial",
    "Colloids.DynClusters.C91_unchanged",
    "Colloids.DynClusters.C91_most_common_counterexample"
   ],
   "note": "C91_most_common_counterexample: the most similar cluster is followed, not the one with the most common members as the comment says. The rest is proved. Distances are exact quotients, not doubles."
  },
  {
   "property": "C92",
   "status": "partial",
   "theorems": [
    "Colloids.DynClusters.C92_appends",
    "Colloids.DynClusters.C92_fresh_partial",
    "Colloids.DynClusters.C92_twice_counterexample"
   ],
   "note": "The former clusters stay and the new ones are added after them: C92_appends, C92_twice_counterexample. Right on an object without cluster."
  },
  {
   "property": "C93",
   "status": "proved",
   "theorems": [
    "Colloids.DynClusters.C93_bounds",
    "Colloids.DynClusters.C93_missing",
    "Colloids.DynClusters.C93_empty",
    "Colloids.DynClusters.C93_largest",
    "Colloids.DynClusters.C93_assigned"
   ],
   "note": ""
  },
  {
   "property": "C94",
   "status": "proved",
   "theorems": [
    "Colloids.DynClusters.C94_save"
   ],
   "note": "The reader that the format calls for is part of the statement (readFile); the library has none."
  },
  {
   "property": "C95",
   "status": "partial",
   "theorems": [
    "Colloids.Tracker.C95_fill",
    "Colloids.Tracker.C95_copy",
    "Colloids.Tracker.C95_unpad",
    "Colloids.Tracker.C95_slices",
    "Colloids.Tracker.C95_mean_counterexample"
   ],
   "note": "C95_fill, C95_copy, C95_unpad and C95_slices are complete. C95_mean_counterexample: the mean kept by fillImage starts from an uninitialised sum, and SerieTracker divides it twice in two dimensions."
  },
  {
   "property": "C96",
   "status": "partial",
   "theorems": [
    "Colloids.Tracker.C96_low_partial",
    "Colloids.Tracker.C96_band_partial",
    "Colloids.Tracker.C96_octant",
    "Colloids.Tracker.C96_mean_removed",
    "Colloids.Tracker.C96_refused",
    "Colloids.Tracker.C96_odd_counterexample",
    "Colloids.Tracker.C96_three_counterexample"
   ],
   "note": "C96_low_partial and C96_band_partial for first two dimensions even or 1; C96_octant for all dimensions in the first octant. C96_odd_counterexample: for odd dimensions of 5 or more the frequency -1 gets the value of 0; C96_three_counterexample: for 3 the last index is never written."
  },
  {
   "property": "C97",
   "status": "partial",
   "theorems": [
    "Colloids.Tracker.C97_sound",
    "Colloids.Tracker.C97_complete_partial",
    "Colloids.Tracker.C97_separated",
    "Colloids.Tracker.C97_plateau_counterexample"
   ],
   "note": "C97_complete_partial: strict maxima towards the pixels before. C97_plateau_counterexample: two marks on a plateau of three pixels, none on another. Exact values instead of floats."
  },
  {
   "property": "C98",
   "status": "partial",
   "theorems": [
    "Colloids.Tracker.C98_centroid",
    "Colloids.Tracker.C98_border_counterexample",
    "Colloids.Tracker.C98_newton",
    "Colloids.Tracker.C98_parabola",
    "Colloids.Tracker.C98_far_counterexample",
    "Colloids.Tracker.C98_nan_counterexample"
   ],
   "note": "C98_border_counterexample: dimensions of 5 to 12 pixels are read out of bounds; C98_far_counterexample: the shift has no bound; C98_nan_counterexample: it can be not a number. C98_centroid, C98_newton, C98_parabola are complete, with exact values instead of floats."
  },
  {
   "property": "C99",
   "status": "partial",
   "theorems": [
    "Colloids.Tracker.C99_threshold",
    "Colloids.Tracker.C99_valley_partial",
    "Colloids.Tracker.C99_hang_counterexample",
    "Colloids.Tracker.C99_undefined_counterexample"
   ],
   "note": "C99_valley_partial if no class before the main peak is empty. C99_hang_counterexample: the loop does not end for some histograms with an empty class; C99_undefined_counterexample: undefined for no center or equal intensities."
  },
  {
   "property": "C100",
   "status": "partial",
   "theorems": [
    "Colloids.Tracker.C100_fits",
    "Colloids.Tracker.C100_centers",
    "Colloids.Tracker.C100_intensity_partial",
    "Colloids.Tracker.C100_previous_counterexample"
   ],
   "note": "C100_intensity_partial: the pixel that contains the center after truncation. C100_previous_counterexample: a center at s with k-1 <= s < k for the pixel k gets the intensity of the pixel k-1."
  },
  {
   "property": "C101",
   "status": "partial",
   "theorems": [
    "Colloids.Tracker.C101_neighbourhood",
    "Colloids.Tracker.C101_sphere",
    "Colloids.Tracker.C101_even_counterexample"
   ],
   "note": "For rmax a whole number. C101_even_counterexample: with a fractional part of 1/2 or more the size is even and the block copied is larger than the array."
  },
  {
   "property": "C102",
   "status": "partial",
   "theorems": [
    "Colloids.Tracker.C102_pixels",
    "Colloids.Tracker.C102_border_counterexample",
    "Colloids.Tracker.C102_profile",
    "Colloids.Tracker.C102_mean_partial",
    "Colloids.Tracker.C102_first_counterexample",
    "Colloids.Tracker.C102_class_counterexample",
    "Colloids.Tracker.C102_radius",
    "Colloids.Tracker.C102_margin_counterexample"
   ],
   "note": "C102_pixels, C102_profile and C102_radius are exact for what is computed; the smoothing by FFTW is a parameter, numbers are real. C102_mean_partial: the mean is right if exactly one pixel is in the first class (C102_first_counterexample otherwise). C102_border_counterexample: pixels after the end of the image are counted as black; C102_class_counterexample and C102_margin_counterexample: out of bounds."
  },
  {
   "property": "C103",
   "status": "partial",
   "theorems": [
    "Colloids.Tracker.C103_names",
    "Colloids.Tracker.C103_time",
    "Colloids.Tracker.C103_depth",
    "Colloids.Tracker.C103_single",
    "Colloids.Tracker.C103_refused",
    "Colloids.Tracker.C103_original",
    "Colloids.Tracker.C103_distinct",
    "Colloids.Tracker.C103_end_counterexample",
    "Colloids.Tracker.C103_between_counterexample",
    "Colloids.Tracker.C103_order_counterexample",
    "Colloids.Tracker.C103_word_counterexample"
   ],
   "note": "C103_end_counterexample, C103_between_counterexample, C103_order_counterexample and C103_word_counterexample: names without extension, with text between the two numbers, with the time before the depth, or with a word that starts with _t. Reading of the images (CImg) is not modelled."
  },
  {
   "property": "C104",
   "status": "partial",
   "theorems": [
    "Colloids.Tracker.C104_dims",
    "Colloids.Tracker.C104_sequence",
    "Colloids.Tracker.C104_walk",
    "Colloids.Tracker.C104_refused",
    "Colloids.Tracker.C104_jump",
    "Colloids.Tracker.C104_channels_counterexample",
    "Colloids.Tracker.C104_end_counterexample",
    "Colloids.Tracker.C104_param_counterexample",
    "Colloids.Tracker.C104_length_counterexample",
    "Colloids.Tracker.C104_dims_counterexample"
   ],
   "note": "C104_sequence for series of one channel with either nothing or at least a time step after them in the file. C104_channels_counterexample: with several channels operator++ goes to the next bytes of the same time step; C104_end_counterexample: reads after the end of the file; C104_param_counterexample: the threshold set after a dereference; C104_length_counterexample: SerieTracker never sets its length. The tracking is a parameter."
  },
  {
   "property": "C105",
   "status": "proved",
   "theorems": [
    "Colloids.Mains.C105_rings",
    "Colloids.Mains.C105_self_counterexample"
   ],
   "note": "C105_rings for sets of bonds between different particles. C105_self_counterexample: loadBonds accepts bonds of a particle with itself and then an open chain is taken for a ring. Reading and writing of the files are those of C10."
  },
  {
   "property": "C106",
   "status": "partial",
   "theorems": [
    "Colloids.Mains.C106_bondLength_partial",
    "Colloids.Mains.C106_firstMinimum_partial",
    "Colloids.Mains.C106_far_counterexample",
    "Colloids.Mains.C106_hang_counterexample",
    "Colloids.Mains.C106_bonds_counterexample",
    "Colloids.Mains.C106_reload"
   ],
   "note": "C106_bondLength_partial: the lowest bin after the highest one, C106_firstMinimum_partial when it is the first minimum. C106_far_counterexample: another later bin may be lower; C106_hang_counterexample: never ends if a bin after the highest one is empty; C106_bonds_counterexample: bonds uses 0. Exact values instead of doubles."
  },
  {
   "property": "C107",
   "status": "partial",
   "theorems": [
    "Colloids.Mains.C107_mean",
    "Colloids.Mains.C107_totalRdf_partial",
    "Colloids.Mains.C107_average_counterexample"
   ],
   "note": "C107_mean for linkboo and all_bonds. C107_totalRdf_partial, C107_average_counterexample: totalRdf divides the sum of N frames by N+1."
  },
  {
   "property": "C108",
   "status": "partial",
   "theorems": [
    "Colloids.Mains.C108_volumes",
    "Colloids.Mains.C108_hang_counterexample",
    "Colloids.Mains.C108_ends_partial"
   ],
   "note": "C108_volumes when the program ends; C108_ends_partial: it ends exactly when one can go from each particle to a bulk cell through neighbours; C108_hang_counterexample otherwise. Voro++ gives the cells and volumes (hypothesis CellsOk: sorted, symmetric)."
  },
  {
   "property": "C109",
   "status": "partial",
   "theorems": [
    "Colloids.Mains.C109_outsides_partial",
    "Colloids.Mains.C109_secondInside",
    "Colloids.Mains.C109_empty_counterexample",
    "Colloids.Mains.C109_bonds_partial",
    "Colloids.Mains.C109_walls_counterexample"
   ],
   "note": "C109_outsides_partial and C109_secondInside if no cell is without neighbour (C109_empty_counterexample: undefined otherwise). C109_bonds_partial without walls; C109_walls_counterexample: walls are printed as bonds."
  },
  {
   "property": "C110",
   "status": "partial",
   "theorems": [
    "Colloids.Mains.C110_lost_partial",
    "Colloids.Mains.C110_refused",
    "Colloids.Mains.C110_empty_counterexample",
    "Colloids.Mains.C110_negative_counterexample"
   ],
   "note": "C110_lost_partial for files with at least a bond; C110_refused. C110_empty_counterexample: an empty file of bonds is undefined behaviour. C110_negative_counterexample: -1 is not refused."
  },
  {
   "property": "C111",
   "status": "partial",
   "theorems": [
    "Colloids.Mains.C111_post_partial",
    "Colloids.Mains.C111_lost_counterexample",
    "Colloids.Mains.C111_interval_counterexample",
    "Colloids.Mains.C111_around_partial"
   ],
   "note": "C111_post_partial and C111_around_partial: what is written is the number of neighbours gained; C111_lost_counterexample: it is the number lost iff the number of neighbours is the same. C111_interval_counterexample: an interval longer than the film is undefined."
  },
  {
   "property": "C112",
   "status": "partial",
   "theorems": [
    "Colloids.Mains.C112_relaxation_partial",
    "Colloids.Mains.C112_never_counterexample",
    "Colloids.Mains.C112_noise_counterexample"
   ],
   "note": "C112_relaxation_partial for a correlation that decreases from above 1/e. C112_never_counterexample: 2^64-1 otherwise. C112_noise_counterexample: a last value above 1/e."
  },
  {
   "property": "C113",
   "status": "partial",
   "theorems": [
    "Colloids.Mains.C113_count_partial",
    "Colloids.Mains.C113_end_counterexample",
    "Colloids.Mains.C113_frequency_partial",
    "Colloids.Mains.C113_short_counterexample"
   ],
   "note": "C113_count_partial: the count is that of the ends of cages in the interval, C113_frequency_partial what it is divided by. C113_end_counterexample: the end of the trajectory counts as a jump. C113_short_counterexample: division by zero for an interval shorter than 2."
  },
  {
   "property": "C114",
   "status": "partial",
   "theorems": [
    "Colloids.Mains.C114_phi_partial",
    "Colloids.Mains.C114_phi_counterexample"
   ],
   "note": "C114_phi_partial, C114_phi_counterexample: 3/4 of it, since 4/3 is an integer division. The average over time and the reading of the files are not modelled."
  },
  {
   "property": "C115",
   "status": "partial",
   "theorems": [
    "Colloids.Rdf.C115_angles_partial",
    "Colloids.Rdf.C115_fraction_counterexample",
    "Colloids.Rdf.C115_opposite_counterexample"
   ],
   "note": "C115_angles_partial: a degree is non null iff two neighbours make this angle, value 2/((nb-1)(nb-2)). C115_fraction_counterexample: the sum is less than 1 with 4 neighbours or more. C115_opposite_counterexample: two opposite neighbours write out of the array."
  },
  {
   "property": "C116",
   "status": "partial",
   "theorems": [
    "Colloids.Rdf.C116_gl_partial",
    "Colloids.Rdf.C116_degree_counterexample",
    "Colloids.Rdf.C116_g6",
    "Colloids.Rdf.C116_no_bins_counterexample"
   ],
   "note": "C116_gl_partial: 4 pi/13 times the mean product, C116_g6: right for degree 6. C116_degree_counterexample: wrong factor for the other degrees. C116_no_bins_counterexample: no bins is undefined behaviour."
  },
  {
   "property": "C117",
   "status": "partial",
   "theorems": [
    "Colloids.Vtk.C117_vtk_partial",
    "Colloids.Vtk.C117_name_counterexample",
    "Colloids.Vtk.C117_size_counterexample",
    "Colloids.Vtk.C117_neighbours"
   ],
   "note": "C117_vtk_partial when the title has no newline, the names are words and the fields have one value per particle; C117_neighbours for the overloads without bonds. C117_name_counterexample, C117_size_counterexample: unreadable files otherwise."
  },
  {
   "property": "C118",
   "status": "partial",
   "theorems": [
    "Colloids.Octave.C118_seam_2D_partial",
    "Colloids.Octave.C118_seam_1D_partial",
    "Colloids.Octave.C118_equal_counterexample",
    "Colloids.Octave.C118_swapped_counterexample",
    "Colloids.Octave.C118_3D_counterexample"
   ],
   "note": "C118_seam_2D_partial and C118_seam_1D_partial when called on the larger octave. C118_equal_counterexample: equal depths remain twice. C118_swapped_counterexample: called on the smaller octave it is undefined behaviour. C118_3D_counterexample: in three dimensions it is undefined behaviour. MultiscaleFinder::initialize_binary does not call it (commented out)."
  },
  {
   "property": "C119",
   "status": "partial",
   "theorems": [
    "Colloids.Octave.C119_kernel_partial",
    "Colloids.Octave.C119_history_counterexample"
   ],
   "note": "C119_kernel_partial: within 0.01, hence 1% from a radius of one pixel on. C119_history_counterexample: for smaller radii the error is larger and depends on the calls before."
  },
  {
   "property": "C120",
   "status": "proved",
   "theorems": [
    "Colloids.Octave.C120_blur",
    "Colloids.Octave.C120_radius",
    "Colloids.Octave.C120_size",
    "Colloids.Octave.C120_back"
   ],
   "note": "C120_blur, C120_radius, C120_size, C120_back, over the real numbers."
  },
  {
   "property": "C121",
   "status": "partial",
   "theorems": [
    "Colloids.Octave.C121_gaussians_partial",
    "Colloids.Octave.C121_differences_counterexample",
    "Colloids.Octave.C121_large_counterexample"
   ],
   "note": "C121_gaussians_partial under 2^31 voxels. C121_differences_counterexample: the layers of differences are after the end of the memory. C121_large_counterexample: undefined behaviour from 2^31 voxels on."
  },
  {
   "property": "C122",
   "status": "partial",
   "theorems": [
    "Colloids.Octave.C122_fill_2D",
    "Colloids.Octave.C122_fill_3D_partial",
    "Colloids.Octave.C122_planes_counterexample"
   ],
   "note": "C122_fill_2D; C122_fill_3D_partial. C122_planes_counterexample: the number of planes is not checked before the memory is written."
  },
  {
   "property": "C123",
   "status": "partial",
   "theorems": [
    "Colloids.Octave.C123_isotropic_partial",
    "Colloids.Octave.C123_half_counterexample",
    "Colloids.Octave.C123_deconv_counterexample",
    "Colloids.Octave.C123_kernel"
   ],
   "note": "C123_isotropic_partial without options, C123_kernel. C123_half_counterexample: the option doubles the radius. C123_deconv_counterexample: with deconvolution the ratio is ignored."
  },
  {
   "property": "C124",
   "status": "partial",
   "theorems": [
    "Colloids.Dyn.C124_along_partial",
    "Colloids.Dyn.C124_mean_partial",
    "Colloids.Dyn.C124_empty_start_counterexample",
    "Colloids.Dyn.C124_window_counterexample",
    "Colloids.Dyn.C124_greedy_counterexample"
   ],
   "note": "C124_along_partial and C124_mean_partial when each start has a trajectory; the last lag is never given. C124_empty_start_counterexample: one start without trajectory makes all the values undefined. C124_window_counterexample: t2 <= t0. C124_greedy_counterexample: undefined behaviour with t2 = 0."
  },
  {
   "property": "C125",
   "status": "partial",
   "theorems": [
    "Colloids.Dyn.C125_makeDynamics_counterexample",
    "Colloids.Dyn.C125_export_counterexample"
   ],
   "note": "Only the negation holds. C125_makeDynamics_counterexample: undefined behaviour for any sets; C125_export_counterexample for all the trajectories of a film. What the functions it calls give is in C63 and C64."
  },
  {
   "property": "C126",
   "status": "partial",
   "theorems": [
    "Colloids.Dyn.C126_text",
    "Colloids.Dyn.C126_names_partial",
    "Colloids.Dyn.C126_reopen_partial",
    "Colloids.Dyn.C126_directories_counterexample",
    "Colloids.Dyn.C126_drift_counterexample"
   ],
   "note": "C126_text: what is written is read back. C126_names_partial and C126_reopen_partial when there is no slash after the token. C126_directories_counterexample: time steps in different folders. C126_drift_counterexample: removed displacements are not saved."
  },
  {
   "property": "C127",
   "status": "partial",
   "theorems": [
    "Colloids.C127_spanning",
    "Colloids.C127_inside",
    "Colloids.C127_enclosed_partial",
    "Colloids.C127_enclosed_counterexample",
    "Colloids.C127_slice_partial",
    "Colloids.C127_slice_counterexample",
    "Colloids.C127_order_counterexample"
   ],
   "note": "C127_spanning and C127_inside for any index that answers its queries exactly. C127_enclosed_partial, C127_slice_partial; C127_enclosed_counterexample (objects that do not last all the time are forgotten), C127_slice_counterexample (a particle whose trajectory leaves the box is missed), C127_order_counterexample (not sorted)."
  },
  {
   "property": "C128",
   "status": "partial",
   "theorems": [
    "Colloids.Dyn.C128_boo",
    "Colloids.Dyn.C128_sboo_partial",
    "Colloids.Dyn.C128_outside_counterexample",
    "Colloids.Dyn.C128_twice_counterexample"
   ],
   "note": "C128_boo. C128_sboo_partial when the bond order of all neighbours is computed and no trajectory is given twice. C128_outside_counterexample: undefined behaviour when a neighbour is not on a selected trajectory. C128_twice_counterexample."
  },
  {
   "property": "C129",
   "status": "partial",
   "theorems": [
    "Colloids.Mains.C129_rows",
    "Colloids.Mains.C129_unit_partial",
    "Colloids.Mains.C129_radius_counterexample",
    "Colloids.Mains.C129_coarse_selection",
    "Colloids.Mains.C129_own_counterexample"
   ],
   "note": "C129_rows gives the pairs counted in each row, in bins of width 2*range/nbins. C129_unit_partial: this is the announced unit if the radius is 1; C129_radius_counterexample for any other radius. C129_coarse_selection: the particles kept in mode 1. C129_own_counterexample: the tensor of the particle itself is not tested."
  },
  {
   "property": "C130",
   "status": "partial",
   "theorems": [
    "Colloids.Mains.C130_tensors",
    "Colloids.Mains.C130_coarse_partial",
    "Colloids.Mains.C130_first",
    "Colloids.Mains.C130_rerun_partial",
    "Colloids.Mains.C130_thin_counterexample",
    "Colloids.Mains.C130_stale_counterexample",
    "Colloids.Mains.C130_null_counterexample",
    "Colloids.Mains.C130_names_partial",
    "Colloids.Mains.C130_directory_counterexample"
   ],
   "note": "C130_tensors, C130_first: what is computed, and that the bonds are written and read back. C130_coarse_partial if all neighbours are selected, C130_null_counterexample otherwise. C130_rerun_partial for samples wider than 2.6 diameters; C130_thin_counterexample: the second run differs from the first in a thin sample. C130_stale_counterexample: the bonds of another radius are kept. C130_names_partial, C130_directory_counterexample."
  },
  {
   "property": "C131",
   "status": "partial",
   "theorems": [
    "Colloids.Mains.C131_voro",
    "Colloids.Mains.C131_unsorted_counterexample",
    "Colloids.Mains.C131_flat_counterexample",
    "Colloids.Mains.C131_margin_counterexample"
   ],
   "note": "C131_voro with the lists of outsides. Without them the margin is half the bond length (C131_margin_counterexample), and a sample in a plane gets no tensor (C131_flat_counterexample). C131_unsorted_counterexample: the lists must be sorted."
  },
  {
   "property": "C132",
   "status": "partial",
   "theorems": [
    "Colloids.Mains.C132_mean_partial",
    "Colloids.Mains.C132_box",
    "Colloids.Mains.C132_sizes",
    "Colloids.Mains.C132_short_counterexample",
    "Colloids.Mains.C132_origin_counterexample"
   ],
   "note": "C132_mean_partial: the mean, if the particle is never at the origin and the film is longer than half the interval. C132_box, C132_sizes without the first condition. C132_origin_counterexample: a position at the origin is left out. C132_short_counterexample: in a film not longer than half the interval, sums are written. An interval of tau frames means 2*(tau/2)+1 frames."
  },
  {
   "property": "C133",
   "status": "proved",
   "theorems": [
    "Colloids.Mains.C133_values",
    "Colloids.Mains.C133_counts",
    "Colloids.Mains.C133_total",
    "Colloids.Mains.C133_symmetric",
    "Colloids.Mains.C133_twin"
   ],
   "note": "Without periodic boundaries. Bounds hold when both tensors are not null at degree 6; otherwise the value is not a number, as stated in C133_values. C133_symmetric is for tensors whose coefficients of order 0 are real, as those of all sets of bonds."
  },
  {
   "property": "C134",
   "status": "partial",
   "theorems": [
    "Colloids.Parallel.C134_sequential",
    "Colloids.Parallel.C134_bounds_partial",
    "Colloids.Parallel.C134_lost_counterexample",
    "Colloids.Parallel.C134_single"
   ],
   "note": "Loads and stores of a bin are supposed atomic, the least that can go wrong. C134_sequential: one thread gives the model of C50. C134_bounds_partial: a bin never counts too many pairs, nor zero if there is one. C134_single: exact when a single particle of the selection has pairs in the bin. C134_lost_counterexample: with two threads a bin can keep the pairs of a single particle."
  },
  {
   "property": "C135",
   "status": "partial",
   "theorems": [
    "Colloids.Parallel.C135_drift_sequential",
    "Colloids.Parallel.C135_drift_counterexample",
    "Colloids.Parallel.C135_drift_bounds_partial",
    "Colloids.Parallel.C135_msd_bounds_partial",
    "Colloids.Parallel.C135_msd_counterexample",
    "Colloids.Parallel.C135_msd_sequential",
    "Colloids.Parallel.C135_msd_single",
    "Colloids.Parallel.C135_ngp_sequential",
    "Colloids.Parallel.C135_ngp_counterexample"
   ],
   "note": "C135_drift_sequential, C135_msd_sequential, C135_ngp_sequential: one thread gives the sequential models. C135_drift_bounds_partial, C135_msd_bounds_partial: bounds for any interleaving. C135_msd_single: getMSD with a single start, as called by getMSD(t0,t1,t2), is exact. C135_drift_counterexample, C135_msd_counterexample: all the terms but one can be lost. C135_ngp_counterexample: the mean square displacement of get_MSD_NGP can come out multiplied by the number of intervals, when increments of the divisor are lost."
  },
  {
   "property": "C136",
   "status": "proved",
   "theorems": [
    "Colloids.Parallel.C136_deterministic",
    "Colloids.Parallel.C136_table",
    "Colloids.Parallel.C136_shift",
    "Colloids.Parallel.C136_bin",
    "Colloids.Parallel.C136_divide",
    "Colloids.Parallel.C136_normalise"
   ],
   "note": "C136_deterministic for any loop with disjoint cells; C136_shift, C136_bin, C136_divide, C136_table, C136_normalise are loops of the code."
  },
  {
   "property": "C137",
   "status": "partial",
   "theorems": [
    "Colloids.Parallel.C137_protected",
    "Colloids.Parallel.C137_wrong_file_counterexample",
    "Colloids.Parallel.C137_exception_counterexample"
   ],
   "note": "C137_protected: exact with a critical section (cage2vtk does not use it, traj2vtk does) or a copy of the series in each thread (firstprivate). C137_wrong_file_counterexample, C137_exception_counterexample: the series that are shared without protection (cgVolSerie, bondSerie, outsideSerie and secondOutsideSerie in cgVoro, qlmSerie in linkboo, velSerie in cage2vtk) can give the name of another step, or throw. Each call of boost::format is supposed atomic."
  },
  {
   "property": "C138",
   "status": "partial",
   "theorems": [
    "Colloids.Parallel.C138_perm",
    "Colloids.Parallel.C138_sequential",
    "Colloids.Parallel.C138_order_counterexample"
   ],
   "note": "C138_perm: each list holds all the centers that are found, as many times as they are found. C138_sequential: one thread gives them in order. C138_order_counterexample: the two lists can be in different orders."
  },
  {
   "property": "C139",
   "status": "partial",
   "theorems": [
    "Colloids.Mains.C139_msd_partial",
    "Colloids.Mains.C139_msd_refused",
    "Colloids.Mains.C139_msd_average_counterexample",
    "Colloids.Mains.C139_msd_negative_counterexample",
    "Colloids.Mains.C139_msd_reversed_counterexample",
    "Colloids.Mains.C139_isf_partial",
    "Colloids.Mains.C139_isf_greedy_counterexample",
    "Colloids.Mains.C139_dynamics_counterexample",
    "Colloids.Mains.C139_dynamics_other"
   ],
   "note": "C139_msd_partial, C139_isf_partial: exact for intervals in order, in the film, not longer than the longest trajectory (for ISF with av larger than start, and trajectories for each start). C139_msd_refused: out of the film is refused. C139_msd_average_counterexample: av not larger than start gives no numbers. C139_msd_negative_counterexample, C139_msd_reversed_counterexample: some bad arguments pass the test and memory is read out of bounds. C139_isf_greedy_counterexample: ISF with av = 0 is undefined. C139_dynamics_counterexample: dynamics is undefined in its three modes; C139_dynamics_other: another mode does nothing."
  },
  {
   "property": "C140",
   "status": "proved",
   "theorems": [
    "Colloids.Mains.C140_drift"
   ],
   "note": "For a film with at least one frame. Numbers before printing."
  },
  {
   "property": "C141",
   "status": "partial",
   "theorems": [
    "Colloids.Mains.C141_bond_files",
    "Colloids.Mains.C141_no_bond_file",
    "Colloids.Mains.C141_range_counterexample",
    "Colloids.Mains.C141_written_bonds_counterexample"
   ],
   "note": "C141_bond_files: when all the files of bonds exist. C141_no_bond_file: when one is missing all are ignored, the range is 1.3 diameters and one file of bonds is written, that of the last frame. C141_range_counterexample: the range of the command line is not used. C141_written_bonds_counterexample: the file of bonds can be empty whatever the bonds of the other frames."
  },
  {
   "property": "C142",
   "status": "partial",
   "theorems": [
    "Colloids.Mains.C142_series_partial",
    "Colloids.Mains.C142_single_partial",
    "Colloids.Mains.C142_apart",
    "Colloids.Mains.C142_again",
    "Colloids.Mains.C142_missing",
    "Colloids.Mains.C142_no_minSep_counterexample",
    "Colloids.Mains.C142_rounding_counterexample"
   ],
   "note": "C142_series_partial, C142_single_partial: for coordinates that printing does not change, and names whose token is found once. C142_apart, C142_again, C142_missing. C142_no_minSep_counterexample: without --minSep the program does not refuse and uses a separation that is not initialised. C142_rounding_counterexample: particles that are far enough can be printed at the same place."
  },
  {
   "property": "C143",
   "status": "partial",
   "theorems": [
    "Colloids.Mains.C143_vtk_partial",
    "Colloids.Mains.C143_w4_counterexample",
    "Colloids.Mains.C143_one_argument_counterexample",
    "Colloids.Mains.C143_no_token_counterexample"
   ],
   "note": "C143_vtk_partial: names, points, bonds, Q4, Q6 as expected; the fields W4 and W6 contain the third and fourth columns. C143_w4_counterexample: these are q8 and q10, not w4 and w6. C143_one_argument_counterexample: the documented syntax is refused. C143_no_token_counterexample: a name without _t stops the program."
  },
  {
   "property": "C144",
   "status": "partial",
   "theorems": [
    "Colloids.Mains.C144_linker_partial",
    "Colloids.Mains.C144_displacements_partial",
    "Colloids.Mains.C144_arguments_counterexample",
    "Colloids.Mains.C144_missing",
    "Colloids.Mains.C144_displacements_counterexample"
   ],
   "note": "C144_linker_partial: without file of displacements, for file names whose token is found once and at most 2^64 particles; times are compared after printing. C144_displacements_partial: with it, when it has a line for each frame. C144_missing. C144_displacements_counterexample: the displacements are not saved, so the reopened trajectories can jump by more than a diameter. C144_arguments_counterexample: with 4 arguments, which the test accepts, a null pointer is read."
  },
  {
   "property": "C145",
   "status": "partial",
   "theorems": [
    "Colloids.Mains.C145_rdf_partial",
    "Colloids.Mains.C145_periodic_rdf_partial",
    "Colloids.Mains.C145_periodic_counterexample",
    "Colloids.Mains.C145_missing",
    "Colloids.Mains.C145_empty",
    "Colloids.Mains.C145_no_bins_counterexample"
   ],
   "note": "C145_rdf_partial, C145_periodic_rdf_partial: exact rows, in exact arithmetic, for a selection that is not empty, and coordinates not all negative along an axis. C145_periodic_counterexample: periodic_rdf leaves out the particles near the edges as centers, so that pairs across the boundary can be missing. C145_missing, C145_empty. C145_no_bins_counterexample: with 0 bins memory is written out of bounds."
  },
  {
   "property": "C146",
   "status": "partial",
   "theorems": [
    "Colloids.Mains.C146_files_partial",
    "Colloids.Mains.C146_image",
    "Colloids.Mains.C146_kernel_partial",
    "Colloids.Mains.C146_dimensions",
    "Colloids.Mains.C146_bad_kernel",
    "Colloids.Mains.C146_optional_kernel_counterexample",
    "Colloids.Mains.C146_small_counterexample",
    "Colloids.Mains.C146_negative_start_counterexample",
    "Colloids.Mains.C146_stale_counterexample",
    "Colloids.Mains.C146_ratio_counterexample"
   ],
   "note": "C146_files_partial: without deconvolution, for images of at least 10 voxels along each axis and radii that are not negative; exact arithmetic. C146_kernel_partial: options 1 then 2, when printing does not change the kernel. C146_image, C146_dimensions, C146_bad_kernel. C146_stale_counterexample: a time step without centers keeps the file of a former run. C146_negative_start_counterexample: nothing is done, with success. C146_optional_kernel_counterexample: option 1 refuses to run without a file for the kernel, though it is documented as optional. C146_small_counterexample: for thin images the kernel is ignored silently. C146_ratio_counterexample: without a voxel size along X the ratio is a division by zero."
  },
  {
   "property": "C147",
   "status": "partial",
   "theorems": [
    "Colloids.Mains.C147_first_run_partial",
    "Colloids.Mains.C147_known_distribution_partial",
    "Colloids.Mains.C147_second_run_partial",
    "Colloids.Mains.C147_after_linker",
    "Colloids.Mains.C147_small_counterexample",
    "Colloids.Mains.C147_empty_frame_counterexample",
    "Colloids.Mains.C147_no_trajectories",
    "Colloids.Mains.C147_missing",
    "Colloids.Mains.C147_no_frames_counterexample",
    "Colloids.Mains.C147_bonds",
    "Colloids.Mains.C147_bonds_counterexample"
   ],
   "note": "C147_first_run_partial, C147_known_distribution_partial, C147_second_run_partial: in exact arithmetic, also for the numbers of the file of the distribution (200 rows), for file names whose token is found once, at most 2^64 particles, and, in the first run, frames with a particle inside the sample. The minimum is the lowest bin from the highest one on. C147_after_linker, C147_no_trajectories, C147_missing, C147_bonds. C147_small_counterexample: for a sample smaller than 29.85 in the unit of the files all_bonds never ends. C147_empty_frame_counterexample: an empty frame before the last one stops the program with an exception of the index. C147_no_frames_counterexample: without frames the last one is read. C147_bonds_counterexample: bonds without length writes no bonds."
  },
  {
   "property": "C148",
   "status": "partial",
   "theorems": [
    "Colloids.Py.Linker.C148_tables_partial",
    "Colloids.Py.Linker.C148_link_partial",
    "Colloids.Py.Linker.C148_update_partial",
    "Colloids.Py.Linker.C148_reload",
    "Colloids.Py.Linker.C148_save",
    "Colloids.Py.Linker.C148_weave_counterexample",
    "Colloids.Py.Linker.C148_nothing_counterexample",
    "Colloids.Py.Linker.C148_older_counterexample",
    "Colloids.Py.Linker.C148_numbers_counterexample"
   ],
   "note": "C148_tables_partial: when links start in the last frame, the trajectories given to update exist in one of the two frames before the last, and loaded frames number new trajectories in order. C148_link_partial: with the module weave. C148_update_partial: when a link is left. C148_reload, C148_save. C148_weave_counterexample: the import of weave is commented out, so that addFrame always fails with at least one link. C148_nothing_counterexample: update raises an IndexError when no link is left. C148_older_counterexample: a trajectory lost earlier is continued as if it had been lost two frames ago. C148_numbers_counterexample: loadFrame accepts any number for a new trajectory."
  },
  {
   "property": "C149",
   "status": "partial",
   "theorems": [
    "Colloids.Py.Periodic.C149_periodify",
    "Colloids.Py.Periodic.C149_symmetric",
    "Colloids.Py.Periodic.C149_dist_partial",
    "Colloids.Py.Periodic.C149_assign_counterexample",
    "Colloids.Py.Periodic.C149_no_period_counterexample",
    "Colloids.Py.Periodic.C149_displ_partial",
    "Colloids.Py.Periodic.C149_box_counterexample"
   ],
   "note": "C149_periodify, C149_symmetric. C149_dist_partial, C149_displ_partial: when no coordinate decreases by more than half the box; exact arithmetic. C149_assign_counterexample: \"d =+ period\" assigns the period: for any larger decrease the difference is a whole period. C149_no_period_counterexample: periodic_dist never ends without a period. C149_box_counterexample: remove_drift does not bring the positions back into the box."
  },
  {
   "property": "C150",
   "status": "partial",
   "theorems": [
    "Colloids.Py.Average.C150_all_intervals",
    "Colloids.Py.Average.C150_window",
    "Colloids.Py.Average.C150_extra_counterexample",
    "Colloids.Py.Average.C150_overlap_partial",
    "Colloids.Py.Average.C150_last_lag_counterexample",
    "Colloids.Py.Average.C150_overlap_all_partial",
    "Colloids.Py.Average.C150_shape_counterexample",
    "Colloids.Py.Average.C150_correlation_partial",
    "Colloids.Py.Average.C150_correlation_window",
    "Colloids.Py.Average.C150_zero_lag_counterexample"
   ],
   "note": "C150_all_intervals, C150_window, C150_correlation_window. C150_overlap_partial: lags but the last. C150_overlap_all_partial: counts and totals are shifted. C150_correlation_partial: lags from 1 on. The displacements and the correlation of one window are parameters; exact arithmetic. C150_extra_counterexample: msd has one value too many with av=0. C150_last_lag_counterexample: overlap is 0 at the last lag. C150_shape_counterexample: the two arrays have different lengths with av=0. C150_zero_lag_counterexample: with av=0, the correlation of numbers of modulus 1 is (T-1)/T at lag 0."
  },
  {
   "property": "C151",
   "status": "proved",
   "theorems": [
    "Colloids.Py.Periodic.C151_periodic_rdf"
   ],
   "note": "C151_periodic_rdf: in exact arithmetic."
  },
  {
   "property": "C152",
   "status": "partial",
   "theorems": [
    "Colloids.Py.Periodic.C152_shell_partial",
    "Colloids.Py.Periodic.C152_length_counterexample",
    "Colloids.Py.Periodic.C152_twice_counterexample"
   ],
   "note": "C152_shell_partial: between 3 and maxNvec vectors, closed under cyclic permutations, with a length between nk-1 and nk. C152_length_counterexample: the square root is truncated before it is tested, so that lengths differ from nk. C152_twice_counterexample: vectors are repeated."
  },
  {
   "property": "C153",
   "status": "partial",
   "theorems": [
    "Colloids.Mains.C153_path",
    "Colloids.Mains.C153_lif",
    "Colloids.Mains.C153_only",
    "Colloids.Mains.C153_images_partial",
    "Colloids.Mains.C153_images_counterexample",
    "Colloids.Mains.C153_radii_partial",
    "Colloids.Mains.C153_radii_last_counterexample",
    "Colloids.Mains.C153_chain_partial",
    "Colloids.Mains.C153_configuration_partial",
    "Colloids.Mains.C153_first_run_counterexample"
   ],
   "note": "C153_lif and C153_only (mode LIF, one channel), C153_path. C153_radii_partial and C153_chain_partial: if at least one more image follows the series in the file. C153_images_partial: if the memory that is not initialised holds the number of time steps, and the images of one more time step exist. C153_configuration_partial: if the directory .colloids exists. The tracker and the measure of radii are parameters; exact arithmetic for the chain. C153_radii_last_counterexample: the radii of the last series of a file read after its end. C153_images_counterexample: a series of images is never tracked to its end without an error. C153_first_run_counterexample: the first run fails."
  },
  {
   "property": "C154",
   "status": "partial",
   "theorems": [
    "Colloids.Py.Bonds.C154_bonds",
    "Colloids.Py.Bonds.C154_lengths",
    "Colloids.Py.Bonds.C154_list",
    "Colloids.Py.Bonds.C154_list_outside",
    "Colloids.Py.Bonds.C154_array",
    "Colloids.Py.Bonds.C154_array_outside",
    "Colloids.Py.Bonds.C154_neighbours",
    "Colloids.Py.Bonds.C154_back",
    "Colloids.Py.Bonds.C154_round_trip",
    "Colloids.Py.Bonds.C154_sorted_counterexample"
   ],
   "note": "Exact arithmetic; the KD-tree and the order of a set are parameters. C154_bonds, C154_lengths, C154_list, C154_list_outside, C154_array, C154_array_outside, C154_neighbours, C154_back, C154_round_trip. C154_sorted_counterexample: the bonds of ngbN2bonds are not sorted as documented."
  },
  {
   "property": "C155",
   "status": "partial",
   "theorems": [
    "Colloids.Py.Bonds.C155_nearest_partial",
    "Colloids.Py.Bonds.C155_self_counterexample",
    "Colloids.Py.Bonds.C155_corner_counterexample",
    "Colloids.Py.Bonds.C155_line_counterexample",
    "Colloids.Py.Bonds.C155_edge_counterexample"
   ],
   "note": "C155_nearest_partial: the N nearest including the particle itself, compared to the largest difference of coordinates with the lower corner; particles on or under the lower corner excluded. C155_self_counterexample: each particle is its own first neighbour. C155_corner_counterexample and C155_line_counterexample: a particle on the lower corner makes the call fail. C155_edge_counterexample: the upper edge is not used."
  },
  {
   "property": "C156",
   "status": "partial",
   "theorems": [
    "Colloids.Py.Bonds.C156_apart",
    "Colloids.Py.Bonds.C156_half_apart",
    "Colloids.Py.Bonds.C156_early_partial",
    "Colloids.Py.Bonds.C156_early_counterexample",
    "Colloids.Py.Bonds.C156_half_counterexample"
   ],
   "note": "C156_apart and C156_half_apart: what is kept is apart. C156_early_partial: exact when all the radii are the same, particles that touch being taken as overlapping. C156_early_counterexample and C156_half_counterexample: particles that overlap nothing are removed, even the first one, because the distance is computed as zero."
  },
  {
   "property": "C157",
   "status": "proved",
   "theorems": [
    "Colloids.Py.Bonds.C157_counts",
    "Colloids.Py.Bonds.C157_lengths",
    "Colloids.Py.Bonds.C157_total"
   ],
   "note": "C157_counts, C157_total, C157_lengths: exact arithmetic; the search is a parameter."
  },
  {
   "property": "C158",
   "status": "partial",
   "theorems": [
    "Colloids.Py.Grid.C158_cells",
    "Colloids.Py.Grid.C158_inside",
    "Colloids.Py.Grid.C158_pairs",
    "Colloids.Py.Grid.C158_complete",
    "Colloids.Py.Grid.C158_near",
    "Colloids.Py.Grid.C158_face_counterexample"
   ],
   "note": "C158_cells, C158_inside, C158_pairs, C158_complete, C158_near, for points in the box, upper faces excluded. np.unique1d is understood as np.unique. C158_face_counterexample: a point on an upper face is put in a cell that is elsewhere."
  },
  {
   "property": "C159",
   "status": "partial",
   "theorems": [
    "Colloids.PyLif.C159_offsets",
    "Colloids.PyLif.C159_series",
    "Colloids.PyLif.C159_headers",
    "Colloids.PyLif.C159_same_as_cpp",
    "Colloids.PyLif.C159_empty_counterexample",
    "Colloids.PyLif.C159_order_counterexample",
    "Colloids.PyLif.C159_cut_counterexample",
    "Colloids.PyLif.C159_diverge_counterexample",
    "Colloids.PyLif.C159_wrong_code"
   ],
   "note": "Bytes are a list; the XML parser is a parameter. C159_offsets, C159_series, C159_same_as_cpp, C159_wrong_code. C159_empty_counterexample: a series without pixels makes getSeries fail. C159_order_counterexample: blocks are matched by order only. C159_cut_counterexample: a block cut short is accepted. C159_diverge_counterexample: a missing star makes the reader loop forever."
  },
  {
   "property": "C160",
   "status": "partial",
   "theorems": [
    "Colloids.PyLif.C160_first_partial",
    "Colloids.PyLif.C160_twice_counterexample",
    "Colloids.PyLif.C160_reader_counterexample",
    "Colloids.PyLif.C160_missing",
    "Colloids.PyLif.C160_time_lapse"
   ],
   "note": "C160_first_partial: right at the first call, on a header used by itself. C160_twice_counterexample: no time stamp at the second call. C160_reader_counterexample: none at all through a reader. C160_missing, C160_time_lapse."
  },
  {
   "property": "C161",
   "status": "partial",
   "theorems": [
    "Colloids.PyLif.C161_frame_partial",
    "Colloids.PyLif.C161_xzy_counterexample",
    "Colloids.PyLif.C161_range",
    "Colloids.PyLif.C161_memories",
    "Colloids.PyLif.C161_number",
    "Colloids.PyLif.C161_negative_counterexample",
    "Colloids.PyLif.C161_enum_partial",
    "Colloids.PyLif.C161_channels_counterexample",
    "Colloids.PyLif.C161_by_slice_counterexample",
    "Colloids.PyLif.C161_slice",
    "Colloids.PyLif.C161_slice_refused",
    "Colloids.PyLif.C161_slice_counterexample"
   ],
   "note": "C161_frame_partial and C161_slice: dimensions stored in the order X, Y, Z. C161_enum_partial: a single channel. C161_range, C161_slice_refused. C161_xzy_counterexample and C161_slice_counterexample: other orders are misread. C161_channels_counterexample: enumByFrame with several channels gives other pixels than getFrame. C161_by_slice_counterexample: enumBySlice always fails in python 3. C161_negative_counterexample: a negative time reads bytes before the series."
  },
  {
   "property": "C162",
   "status": "partial",
   "theorems": [
    "Colloids.PyLif.C162_choose_partial",
    "Colloids.PyLif.C162_last_counterexample",
    "Colloids.PyLif.C162_channel_partial",
    "Colloids.PyLif.C162_channel_counterexample",
    "Colloids.PyLif.C162_preview_partial",
    "Colloids.PyLif.C162_preview_counterexample"
   ],
   "note": "C162_choose_partial, C162_channel_partial, C162_preview_partial. C162_last_counterexample: the number of series is accepted as an answer. C162_channel_counterexample: a single channel is asked for. C162_preview_counterexample: any text is true, \"0\" included."
  },
  {
   "property": "C163",
   "status": "partial",
   "theorems": [
    "Colloids.Py.Exp.C163_read",
    "Colloids.Py.Exp.C163_same_as_cpp",
    "Colloids.Py.Exp.C163_cut_counterexample",
    "Colloids.Py.Exp.C163_empty_counterexample",
    "Colloids.Py.Exp.C163_names"
   ],
   "note": "C163_read, C163_same_as_cpp, C163_names (head and token without percent sign, .dat files). C163_cut_counterexample: without a last end of line, the last digit is dropped. C163_empty_counterexample: the number of trajectories of an empty file."
  },
  {
   "property": "C164",
   "status": "partial",
   "theorems": [
    "Colloids.Py.Exp.C164_p2tr_partial",
    "Colloids.Py.Exp.C164_same_as_cpp",
    "Colloids.Py.Exp.C164_unlinked_counterexample",
    "Colloids.Py.Exp.C164_refused"
   ],
   "note": "C164_p2tr_partial, C164_same_as_cpp, C164_refused. C164_unlinked_counterexample: a position in no trajectory is said to be in the first one."
  },
  {
   "property": "C165",
   "status": "partial",
   "theorems": [
    "Colloids.Py.Exp.C165_drift",
    "Colloids.Py.Exp.C165_load_all_partial",
    "Colloids.Py.Exp.C165_offset_counterexample"
   ],
   "note": "C165_load_all_partial: first time 0 and all the positions in a trajectory. C165_offset_counterexample: with another first time load_all always fails. C165_drift holds in general, in exact arithmetic."
  },
  {
   "property": "C166",
   "status": "partial",
   "theorems": [
    "Colloids.Py.Exp.C166_density",
    "Colloids.Py.Exp.C166_slab_default_counterexample",
    "Colloids.Py.Exp.C166_slab_counterexample",
    "Colloids.Py.Vol.C166_single_counterexample"
   ],
   "note": "C166_density: arrays with two dimensions. C166_single_counterexample: a file of one particle counts as three. C166_slab_default_counterexample: without lower margin the slab always fails. C166_slab_counterexample: with a lower margin the particles under the slab are counted."
  },
  {
   "property": "C167",
   "status": "partial",
   "theorems": [
    "Colloids.Py.Exp.C167_excess",
    "Colloids.Py.Exp.C167_msd_partial",
    "Colloids.Py.Exp.C167_drift_counterexample"
   ],
   "note": "C167_excess gives the exact result in general; C167_msd_partial: right when the drift is the same along the three axes. C167_drift_counterexample: not null for any other drift."
  },
  {
   "property": "C168",
   "status": "partial",
   "theorems": [
    "Colloids.Py.Txp.C168_window",
    "Colloids.Py.Txp.C168_select_partial",
    "Colloids.Py.Txp.C168_offset_counterexample",
    "Colloids.Py.Txp.C168_mixed_counterexample"
   ],
   "note": "C168_window, C168_select_partial: first time 0. C168_offset_counterexample: with another first time the constructor without window always fails. C168_mixed_counterexample: with a window it reads the positions of other particles."
  },
  {
   "property": "C169",
   "status": "partial",
   "theorems": [
    "Colloids.Py.Txp.C169_drift",
    "Colloids.Py.Txp.C169_constructor_partial"
   ],
   "note": "C169_drift holds in general, in exact arithmetic; C169_constructor_partial: the constructor, for an experiment that begins at time 0."
  },
  {
   "property": "C170",
   "status": "partial",
   "theorems": [
    "Colloids.Py.Txp.C170_all_intervals",
    "Colloids.Py.Txp.C170_window",
    "Colloids.Py.Txp.C170_last_counterexample",
    "Colloids.Py.Txp.C170_short_counterexample",
    "Colloids.Py.Txp.C170_export_counterexample",
    "Colloids.Py.Txp.C170_export_isf_counterexample",
    "Colloids.Py.Txp.C170_nongaussian_all",
    "Colloids.Py.Txp.C170_nongaussian_window"
   ],
   "note": "C170_all_intervals, C170_window, C170_nongaussian_all, C170_nongaussian_window. C170_last_counterexample: the last lag is never given. C170_short_counterexample: the lags that are missing are given as 0. C170_export_counterexample, C170_export_isf_counterexample: the exports always fail."
  },
  {
   "property": "C171",
   "status": "partial",
   "theorems": [
    "Colloids.Py.Broken.C171_broken",
    "Colloids.Py.Broken.C171_none_counterexample",
    "Colloids.Py.Broken.C171_window_partial",
    "Colloids.Py.Broken.C171_isolated_counterexample",
    "Colloids.Py.Broken.C171_single_counterexample",
    "Colloids.Py.Broken.C171_start_counterexample"
   ],
   "note": "C171_broken: when both times have bonds. C171_none_counterexample: a time without bonds. C171_window_partial: load_bonds for a window from the time 0. C171_isolated_counterexample, C171_single_counterexample: exceptions. C171_start_counterexample: for a window that begins later the bonds are those of other trajectories."
  },
  {
   "property": "C172",
   "status": "partial",
   "theorems": [
    "Colloids.Py.Broken.C172_reform_partial",
    "Colloids.Py.Broken.C172_closer_partial",
    "Colloids.Py.Broken.C172_equal_counterexample",
    "Colloids.Py.Broken.C172_apart_counterexample",
    "Colloids.Py.Broken.C172_empty_counterexample",
    "Colloids.Py.Broken.C172_offset_counterexample"
   ],
   "note": "C172_reform_partial, C172_closer_partial: first time 0, bonds at all times, and with \"at least L, not infinite\" instead of \"larger than L\"; the search of shortest paths is a parameter with a specification that is met; the last lines in python 2. C172_equal_counterexample, C172_apart_counterexample, C172_empty_counterexample, C172_offset_counterexample."
  },
  {
   "property": "C173",
   "status": "partial",
   "theorems": [
    "Colloids.Py.Broken.C173_around_partial",
    "Colloids.Py.Broken.C173_later_counterexample",
    "Colloids.Py.Broken.C173_twice_counterexample"
   ],
   "note": "C173_around_partial: when the members of the bonds of interest exist at that time. C173_later_counterexample: a trajectory that begins later. C173_twice_counterexample: a bond is given twice."
  },
  {
   "property": "C174",
   "status": "partial",
   "theorems": [
    "Colloids.Py.Peak.C174_peaks_partial",
    "Colloids.Py.Peak.C174_decreasing",
    "Colloids.Py.Peak.C174_flat_counterexample",
    "Colloids.Py.Peak.C174_empty"
   ],
   "note": "C174_peaks_partial, C174_decreasing: when the two last values are different; C174_empty. C174_flat_counterexample: never ends when they are equal."
  },
  {
   "property": "C175",
   "status": "partial",
   "theorems": [
    "Colloids.Py.PyBoo.C175_mean",
    "Colloids.Py.PyBoo.C175_neighbours_partial",
    "Colloids.Py.PyBoo.C175_single_partial",
    "Colloids.Py.PyBoo.C175_odd_counterexample",
    "Colloids.Py.PyBoo.C175_outside",
    "Colloids.Py.PyBoo.C175_angles",
    "Colloids.Py.PyBoo.C175_formula",
    "Colloids.Py.PyBoo.C175_parity",
    "Colloids.Py.PyBoo.C175_direction"
   ],
   "note": "C175_angles, C175_formula, C175_direction, C175_parity: spherical harmonics in Cartesian coordinates, any degree. C175_mean: any degree and periods. C175_neighbours_partial, C175_single_partial: even degrees. C175_odd_counterexample: for every odd degree one end of a bond gets the opposite. C175_outside."
  },
  {
   "property": "C176",
   "status": "partial",
   "theorems": [
    "Colloids.Py.PyBoo.C176_mask",
    "Colloids.Py.PyBoo.C176_mean_partial",
    "Colloids.Py.PyBoo.C176_documented",
    "Colloids.Py.PyBoo.C176_itself_counterexample",
    "Colloids.Py.PyBoo.C176_twice_counterexample"
   ],
   "note": "C176_mask. C176_mean_partial: the mean over the neighbours only. C176_documented: equal to the documented mean only if the coefficients of the particle are already the mean of its neighbours. C176_itself_counterexample, C176_twice_counterexample: two bonded particles exchange their coefficients."
  },
  {
   "property": "C177",
   "status": "proved",
   "theorems": [
    "Colloids.Py.PyBoo.C177_orders",
    "Colloids.Py.PyBoo.C177_product",
    "Colloids.Py.PyBoo.C177_ql",
    "Colloids.Py.PyBoo.C177_norm",
    "Colloids.Py.PyBoo.C177_symmetric",
    "Colloids.Py.PyBoo.C177_bounded",
    "Colloids.Py.PyBoo.C177_outside"
   ],
   "note": ""
  },
  {
   "property": "C178",
   "status": "partial",
   "theorems": [
    "Colloids.Py.PyBoo.C178_w3j",
    "Colloids.Py.PyBoo.C178_symmetric",
    "Colloids.Py.PyBoo.C178_wl",
    "Colloids.Py.PyBoo.C178_odd_counterexample",
    "Colloids.Py.PyBoo.C178_wl_odd_counterexample",
    "Colloids.Py.PyBoo.C178_outside"
   ],
   "note": "C178_w3j, C178_symmetric, C178_wl: even degrees at most 10. C178_odd_counterexample, C178_wl_odd_counterexample: an odd degree takes the symbols of another one without warning. C178_outside: a degree larger than 11 reads outside of the table."
  },
  {
   "property": "C179",
   "status": "proved",
   "theorems": [
    "Colloids.Py.PyBoo.C179_bond",
    "Colloids.Py.PyBoo.C179_ql",
    "Colloids.Py.PyBoo.C179_product",
    "Colloids.Py.PyBoo.C179_wl",
    "Colloids.Py.PyBoo.C179_real",
    "Colloids.Py.PyBoo.C179_addition",
    "Colloids.Py.PyBoo.C179_unit",
    "Colloids.Py.PyBoo.C179_bounded",
    "Colloids.Py.PyBoo.C179_isometry"
   ],
   "note": "C179_bond, C179_ql, C179_product, C179_wl, C179_real, C179_addition, C179_unit, C179_bounded, C179_isometry."
  },
  {
   "property": "C180",
   "status": "partial",
   "theorems": [
    "Colloids.Py.PyBoo.C180_bins_partial",
    "Colloids.Py.PyBoo.C180_edge_counterexample",
    "Colloids.Py.PyBoo.C180_bounded",
    "Colloids.Py.PyBoo.C180_lengths"
   ],
   "note": "C180_bins_partial: when no pair is exactly at maxdist; C180_bounded, C180_lengths. C180_edge_counterexample: the function fails whenever there is such a pair. The search of neighbours is a parameter with a specification that is met."
  },
  {
   "property": "C181",
   "status": "proved",
   "theorems": [
    "Colloids.Py.Phase.C181_log",
    "Colloids.Py.Phase.C181_close_packing",
    "Colloids.Py.Phase.C181_fraction",
    "Colloids.Py.Phase.C181_osmotic",
    "Colloids.Py.Phase.C181_variable"
   ],
   "note": "C181_log (within 4e-14 of the argument), C181_fraction, C181_osmotic, C181_close_packing, C181_variable. qR2q is not modelled."
  },
  {
   "property": "C182",
   "status": "partial",
   "theorems": [
    "Colloids.Py.Phase.C182_derivatives",
    "Colloids.Py.Phase.C182_reference",
    "Colloids.Py.Phase.C182_insertion_partial",
    "Colloids.Py.Phase.C182_insertion_counterexample",
    "Colloids.Py.Phase.C182_free",
    "Colloids.Py.Phase.C182_xp2th",
    "Colloids.Py.Phase.C182_gibbs_duhem",
    "Colloids.Py.Phase.C182_dilute"
   ],
   "note": "C182_derivatives, C182_free, C182_xp2th, C182_gibbs_duhem, C182_dilute hold. C182_insertion_partial says what alpha is; C182_insertion_counterexample: the coefficient C is q^3 and not 3 q^3, so that alpha is not the scaled particle value for any f, q > 0 (C182_reference checks the reference)."
  },
  {
   "property": "C183",
   "status": "partial",
   "theorems": [
    "Colloids.Py.Phase.C183_poly1d",
    "Colloids.Py.Phase.C183_compressibility",
    "Colloids.Py.Phase.C183_derivatives",
    "Colloids.Py.Phase.C183_leFevre",
    "Colloids.Py.Phase.C183_ideal_gas",
    "Colloids.Py.Phase.C183_liu",
    "Colloids.Py.Phase.C183_numeric",
    "Colloids.Py.Phase.C183_hall_counterexample",
    "Colloids.Py.Phase.C183_increasing"
   ],
   "note": "C183_poly1d, C183_compressibility, C183_derivatives, C183_leFevre, C183_liu, C183_numeric, C183_increasing, C183_ideal_gas. C183_hall_counterexample: Z and pv_0 of the crystal are two equations of state."
  },
  {
   "property": "C184",
   "status": "partial",
   "theorems": [
    "Colloids.Py.Phase.C184_second",
    "Colloids.Py.Phase.C184_kolafa_counterexample",
    "Colloids.Py.Phase.C184_liu_toint",
    "Colloids.Py.Phase.C184_gibbs_duhem",
    "Colloids.Py.Phase.C184_close",
    "Colloids.Py.Phase.C184_variables"
   ],
   "note": "C184_gibbs_duhem (all classes but LeFevre, whose decimal coefficients are rounded), C184_second, C184_liu_toint, C184_close, C184_variables. C184_kolafa_counterexample: the chemical potential of Kolafa has a third too much."
  },
  {
   "property": "C185",
   "status": "partial",
   "theorems": [
    "Colloids.Py.Phase.C185_critical",
    "Colloids.Py.Phase.C185_critical_point",
    "Colloids.Py.Phase.C185_exists",
    "Colloids.Py.Phase.C185_spinodal",
    "Colloids.Py.Phase.C185_spinodal_sides",
    "Colloids.Py.Phase.C185_binodal",
    "Colloids.Py.Phase.C185_trivial_counterexample"
   ],
   "note": "C185_critical, C185_critical_point, C185_exists, C185_spinodal, C185_spinodal_sides, C185_binodal. C185_trivial_counterexample: two equal packings are always a root of the equations of the binodal. The solvers are parameters."
  },
  {
   "property": "C186",
   "status": "partial",
   "theorems": [
    "Colloids.Py.Phase.C186_coexistence",
    "Colloids.Py.Phase.C186_constant",
    "Colloids.Py.Phase.C186_hard_spheres_counterexample",
    "Colloids.Py.Phase.C186_all",
    "Colloids.Py.Phase.C186_triple",
    "Colloids.Py.Phase.C186_end_point"
   ],
   "note": "C186_coexistence, C186_constant, C186_all, C186_triple, C186_end_point. C186_hard_spheres_counterexample: at f_HSf and f_HSs the pressures differ. The solvers are parameters."
  },
  {
   "property": "C187",
   "status": "partial",
   "theorems": [
    "Colloids.Py.Phase.C187_linspace",
    "Colloids.Py.Phase.C187_gas_liquid",
    "Colloids.Py.Phase.C187_unsorted_counterexample",
    "Colloids.Py.Phase.C187_lines",
    "Colloids.Py.Phase.C187_generate",
    "Colloids.Py.Phase.C187_twice_counterexample"
   ],
   "note": "C187_linspace, C187_gas_liquid, C187_lines, C187_generate. C187_unsorted_counterexample: with a maximum below the critical pressure; C187_twice_counterexample: two lines at zero osmotic pressure. The default pressures of all_coexistence are not modelled."
  },
  {
   "property": "C188",
   "status": "partial",
   "theorems": [
    "Colloids.Py.Track.C188_scales",
    "Colloids.Py.Track.C188_center",
    "Colloids.Py.Track.C188_distance_counterexample",
    "Colloids.Py.Track.C188_derivatives",
    "Colloids.Py.Track.C188_response"
   ],
   "note": "C188_scales, C188_center, C188_derivatives, C188_response. C188_distance_counterexample: at a distance G is twice the blur of the ball, for all radii, blurs and distances. The reference is the three dimensional integral of the Gaussian over the ball."
  },
  {
   "property": "C189",
   "status": "proved",
   "theorems": [
    "Colloids.Py.Track.C189_newton",
    "Colloids.Py.Track.C189_fixed",
    "Colloids.Py.Track.C189_isolated",
    "Colloids.Py.Track.C189_same",
    "Colloids.Py.Track.C189_errors"
   ],
   "note": "C189_newton, C189_fixed, C189_isolated, C189_same, C189_errors. The solver of sparse systems is a parameter that solves regular systems."
  },
  {
   "property": "C190",
   "status": "partial",
   "theorems": [
    "Colloids.Py.Track.C190_solves_partial",
    "Colloids.Py.Track.C190_isolated",
    "Colloids.Py.Track.C190_default",
    "Colloids.Py.Track.C190_errors",
    "Colloids.Py.Track.C190_neighbour_counterexample"
   ],
   "note": "C190_isolated, C190_default, C190_errors. C190_solves_partial says what is solved: neighbours are counted twice. C190_neighbour_counterexample: two balls at a distance."
  },
  {
   "property": "C191",
   "status": "partial",
   "theorems": [
    "Colloids.Py.Track.C191_spheres",
    "Colloids.Py.Track.C191_errors",
    "Colloids.Py.Track.C191_rods_partial",
    "Colloids.Py.Track.C191_rods_counterexample"
   ],
   "note": "C191_spheres, C191_errors. C191_rods_partial: when the lower end of the rod is an integer. C191_rods_counterexample: otherwise the rod goes one voxel too far down."
  },
  {
   "property": "C192",
   "status": "partial",
   "theorems": [
    "Colloids.Py.Track.C192_split",
    "Colloids.Py.Track.C192_zero_radius_counterexample",
    "Colloids.Py.Track.C192_label"
   ],
   "note": "C192_split (positive radius), C192_label (labelling of connected voxels as a parameter with a specification that is met). C192_zero_radius_counterexample: with a null radius the split never ends."
  },
  {
   "property": "C193",
   "status": "partial",
   "theorems": [
    "Colloids.Py.Track.C193_peaks",
    "Colloids.Py.Track.C193_edges",
    "Colloids.Py.Track.C193_edge_counterexample",
    "Colloids.Py.Track.C193_line",
    "Colloids.Py.Track.C193_exchange_counterexample"
   ],
   "note": "C193_peaks, C193_edges, C193_line (one dimension). C193_edge_counterexample: the limit of elongation depends on the orientation. C193_exchange_counterexample: in two dimensions the corrections along the two axes are exchanged for every parabolic blob."
  },
  {
   "property": "C194",
   "status": "partial",
   "theorems": [
    "Colloids.Py.Track.C194_minima",
    "Colloids.Py.Track.C194_zero_size_counterexample",
    "Colloids.Py.Track.C194_subpix",
    "Colloids.Py.Track.C194_layers",
    "Colloids.Py.Track.C194_radius"
   ],
   "note": "C194_minima, C194_subpix, C194_layers, C194_radius. C194_zero_size_counterexample: a size rounded to 0 removes all the blobs. Two dimensional images; first_layer and the sub-pixel method 0 are not modelled."
  },
  {
   "property": "C195",
   "status": "partial",
   "theorems": [
    "Colloids.Py.Track.C195_shapes",
    "Colloids.Py.Track.C195_overlap",
    "Colloids.Py.Track.C195_inside",
    "Colloids.Py.Track.C195_empty_counterexample",
    "Colloids.Py.Track.C195_k_counterexample",
    "Colloids.Py.Track.C195_position_counterexample"
   ],
   "note": "C195_shapes, C195_overlap, C195_inside: any dimension. C195_k_counterexample: the octave of the image ignores k. C195_position_counterexample: octave -1 is shifted by a quarter of a pixel. C195_empty_counterexample: small images without octave -1 are an exception. Deconvolution is not modelled."
  },
  {
   "property": "C196",
   "status": "proved",
   "theorems": [
    "Colloids.Py.Micro.C196_logderive",
    "Colloids.Py.Micro.C196_power",
    "Colloids.Py.Micro.C196_viscous",
    "Colloids.Py.Micro.C196_elastic",
    "Colloids.Py.Micro.C196_second_order",
    "Colloids.Py.Micro.C196_refused"
   ],
   "note": "C196_logderive, C196_power, C196_viscous, C196_elastic, C196_second_order, C196_refused. np.polyfit is a parameter that finds the parabola of least weighted squares (fits_exists shows that there is one). Real numbers."
  },
  {
   "property": "C197",
   "status": "partial",
   "theorems": [
    "Colloids.Py.Micro.C197_default",
    "Colloids.Py.Micro.C197_index_counterexample",
    "Colloids.Py.Micro.C197_unit_counterexample",
    "Colloids.Py.Micro.C197_single_counterexample"
   ],
   "note": "C197_default. C197_index_counterexample: maxtime, in seconds, is compared with ranks and a large one is an IndexError. C197_unit_counterexample: it bounds the number of steps, not the time. C197_single_counterexample: a single lag is an error."
  },
  {
   "property": "C198",
   "status": "partial",
   "theorems": [
    "Colloids.Py.PhaseCor.C198_peak",
    "Colloids.Py.PhaseCor.C198_stripes_counterexample",
    "Colloids.Py.PhaseCor.C198_both",
    "Colloids.Py.PhaseCor.C198_confidence",
    "Colloids.Py.PhaseCor.C198_displacement"
   ],
   "note": "C198_peak, C198_displacement, C198_both, C198_confidence: exact discrete Fourier transforms. C198_stripes_counterexample: images with a zero in their spectrum (stripes) give not-a-number everywhere and a displacement of zero."
  },
  {
   "property": "C199",
   "status": "partial",
   "theorems": [
    "Colloids.Py.PhaseCor.C199_windows",
    "Colloids.Py.PhaseCor.C199_small",
    "Colloids.Py.PhaseCor.C199_transposed_counterexample",
    "Colloids.Py.PhaseCor.C199_coordinates",
    "Colloids.Py.PhaseCor.C199_reversed_counterexample"
   ],
   "note": "C199_windows, C199_coordinates, C199_small. C199_reversed_counterexample: y goes from the last line to the first while windows go from the first to the last. C199_transposed_counterexample: a transposed array is read as if it was not."
  },
  {
   "property": "C200",
   "status": "partial",
   "theorems": [
    "Colloids.Py.Ddm.C200_spectre",
    "Colloids.Py.Ddm.C200_translation",
    "Colloids.Py.Ddm.C200_moved",
    "Colloids.Py.Ddm.C200_couples",
    "Colloids.Py.Ddm.C200_navmax_counterexample",
    "Colloids.Py.Ddm.C200_average",
    "Colloids.Py.Ddm.C200_intervals",
    "Colloids.Py.Ddm.C200_single_counterexample"
   ],
   "note": "C200_spectre, C200_translation, C200_moved, C200_couples, C200_average, C200_intervals: exact Fourier transform. C200_navmax_counterexample: between navmax and twice as many couples, more than navmax are used. C200_single_counterexample: one image gives the interval 1 and an average that is not a number."
  },
  {
   "property": "C201",
   "status": "proved",
   "theorems": [
    "Colloids.Py.Ddm.C201_mean",
    "Colloids.Py.Ddm.C201_isotropic",
    "Colloids.Py.Ddm.C201_lost",
    "Colloids.Py.Ddm.C201_ddm",
    "Colloids.Py.Ddm.C201_static"
   ],
   "note": "C201_mean, C201_isotropic, C201_lost, C201_ddm, C201_static. Real numbers; python 2 division of the shape."
  },
  {
   "property": "C202",
   "status": "partial",
   "theorems": [
    "Colloids.Py.Voro.C202_bonds",
    "Colloids.Py.Voro.C202_refused",
    "Colloids.Py.Voro.C202_second",
    "Colloids.Py.Voro.C202_outside_counterexample"
   ],
   "note": "C202_bonds, C202_refused, C202_second. C202_outside_counterexample: a particle that touches a wall and comes after all the bonded ones is an IndexError. np.unique is a parameter with a specification that is met."
  },
  {
   "property": "C203",
   "status": "proved",
   "theorems": [
    "Colloids.Py.Voro.C203_mean"
   ],
   "note": "C203_mean: any ordered field; the call of voro++ is not modelled."
  },
  {
   "property": "C204",
   "status": "partial",
   "theorems": [
    "Colloids.Py.Vtk.C204_last",
    "Colloids.Py.Vtk.C204_chain_partial",
    "Colloids.Py.Vtk.C204_repeat_counterexample",
    "Colloids.Py.Vtk.C204_dilate",
    "Colloids.Py.Vtk.C204_dilate_counterexample"
   ],
   "note": "C204_last and C204_dilate say what the code does; C204_chain_partial: the mean over neighbours if each particle is at most once first and once second in the bonds. C204_repeat_counterexample: otherwise the average of a constant field is lower than the constant. C204_dilate_counterexample: the last bond wins, and a particle without bond gets zero."
  },
  {
   "property": "C205",
   "status": "partial",
   "theorems": [
    "Colloids.Py.Vtk.C205_last",
    "Colloids.Py.Vtk.C205_mean_partial",
    "Colloids.Py.Vtk.C205_abscissa_counterexample",
    "Colloids.Py.Vtk.C205_limit_counterexample",
    "Colloids.Py.Vtk.C205_repeat_counterexample"
   ],
   "note": "C205_last says what the code does; C205_mean_partial: the mean over pairs if no point has two neighbours in a bin. C205_repeat_counterexample: otherwise pairs are lost. C205_abscissa_counterexample: the first column is not the distance. C205_limit_counterexample: a pair exactly at maxDist is an IndexError. The tree is a parameter with a specification."
  },
  {
   "property": "C206",
   "status": "partial",
   "theorems": [
    "Colloids.Py.Vtk.C206_roundtrip_partial",
    "Colloids.Py.Vtk.C206_cells_counterexample",
    "Colloids.Py.Vtk.C206_cells_as_points_counterexample",
    "Colloids.Py.Vtk.C206_empty_counterexample"
   ],
   "note": "C206_roundtrip_partial: without field on the bonds. C206_cells_counterexample and C206_cells_as_points_counterexample: fields on the bonds are not loaded, or taken for fields on the points. C206_empty_counterexample: a scalar field on no point makes a file that cannot be loaded. Digits lost by %g are not modelled."
  },
  {
   "property": "C207",
   "status": "partial",
   "theorems": [
    "Colloids.Py.Life.C207_pairs",
    "Colloids.Py.Life.C207_single_counterexample",
    "Colloids.Py.Life.C207_life_partial",
    "Colloids.Py.Life.C207_zero_counterexample",
    "Colloids.Py.Life.C207_last"
   ],
   "note": "C207_last proves bond_last in full, for all sequences of bonds. C207_life_partial: bond_life when times begin at 1 or later. C207_zero_counterexample: at time 0 the sparse matrix does not store the first time. C207_single_counterexample: a time with a single bond is an error. C207_pairs relates the pairs to the files."
  },
  {
   "property": "C208",
   "status": "partial",
   "theorems": [
    "Colloids.Py.Life.C208_slab",
    "Colloids.Py.Life.C208_slab_not_all",
    "Colloids.Py.Life.C208_slab_partial",
    "Colloids.Py.Life.C208_all_times_counterexample",
    "Colloids.Py.Life.C208_jump_counterexample",
    "Colloids.Py.Life.C208_subset",
    "Colloids.Py.Life.C208_null",
    "Colloids.Py.Life.C208_null_partial",
    "Colloids.Py.Life.C208_negative_counterexample",
    "Colloids.Py.Life.C208_offset_counterexample"
   ],
   "note": "C208_slab and C208_slab_not_all say what is kept; C208_slab_partial: right when no trajectory crosses the limits; C208_all_times_counterexample, C208_jump_counterexample. C208_null says what is kept by exclude_null; C208_null_partial: right for fields without negative value and times from 0; C208_negative_counterexample, C208_offset_counterexample."
  },
  {
   "property": "C209",
   "status": "partial",
   "theorems": [
    "Colloids.Py.Life.C209_correlation",
    "Colloids.Py.Life.C209_one_counterexample",
    "Colloids.Py.Life.C209_zero_counterexample",
    "Colloids.Py.Life.C209_last_counterexample",
    "Colloids.Py.Life.C209_first"
   ],
   "note": "C209_correlation gives the result for all data: the mean over the first av-1 starts only. C209_first: it is 1 at the origin. C209_one_counterexample: not a number for av=1. C209_zero_counterexample: av=0 is an error. C209_last_counterexample: the last start is ignored."
  },
  {
   "property": "C210",
   "status": "partial",
   "theorems": [
    "Colloids.Py.Life.C210_dilate",
    "Colloids.Py.Life.C210_own_counterexample",
    "Colloids.Py.Life.C210_isolated_counterexample",
    "Colloids.Py.Life.C210_average",
    "Colloids.Py.Life.C210_bounds"
   ],
   "note": "C210_dilate and C210_average for graphs without isolated particle; C210_bounds. C210_own_counterexample: dilate ignores the value of the particle itself. C210_isolated_counterexample: an isolated particle is an error."
  },
  {
   "property": "C211",
   "status": "partial",
   "theorems": [
    "Colloids.Py.StatHist.C211_decimate",
    "Colloids.Py.StatHist.C211_total",
    "Colloids.Py.StatHist.C211_last_counterexample",
    "Colloids.Py.StatHist.C211_alias_counterexample",
    "Colloids.Py.StatHist.C211_histogram",
    "Colloids.Py.StatHist.C211_mean",
    "Colloids.Py.StatHist.C211_bins",
    "Colloids.Py.StatHist.C211_map_partial",
    "Colloids.Py.StatHist.C211_mark_counterexample"
   ],
   "note": "C211_decimate and C211_total prove the joining of bins in full; C211_histogram, C211_mean, C211_bins prove meanMap1D with given edges; C211_map_partial for values that are not negative. C211_last_counterexample: the last bin may be below the threshold. C211_alias_counterexample: the array of the caller is changed. C211_mark_counterexample: -1 is also a mean."
  },
  {
   "property": "C212",
   "status": "partial",
   "theorems": [
    "Colloids.Py.StatHist.C212_shift",
    "Colloids.Py.StatHist.C212_constant_counterexample",
    "Colloids.Py.StatHist.C212_self",
    "Colloids.Py.StatHist.C212_qlm_counterexample"
   ],
   "note": "C212_shift, C212_self for real values. C212_constant_counterexample: not a number for constant values. C212_qlm_counterexample: correlate_qlm never gives a number."
  },
  {
   "property": "C213",
   "status": "partial",
   "theorems": [
    "Colloids.Py.StatHist.C213_2d_counterexample",
    "Colloids.Py.StatHist.C213_dists_partial",
    "Colloids.Py.StatHist.C213_dists_counterexample",
    "Colloids.Py.StatHist.C213_flat_counterexample",
    "Colloids.Py.StatHist.C213_get",
    "Colloids.Py.StatHist.C213_double_counterexample",
    "Colloids.Py.StatHist.C213_image",
    "Colloids.Py.StatHist.C213_white"
   ],
   "note": "C213_image, C213_white prove ImageStructureFactor after the Fourier transform. C213_dists_partial: right distances when the last two dimensions are the same; C213_dists_counterexample, C213_flat_counterexample otherwise. C213_get proves what get_S returns after any calls; C213_double_counterexample: it is not a mean. C213_2d_counterexample: StructureFactor2D always fails."
  },
  {
   "property": "C214",
   "status": "partial",
   "theorems": [
    "Colloids.Py.Follow.C214_bonds_partial",
    "Colloids.Py.Follow.C214_clusters_partial",
    "Colloids.Py.Follow.C214_outside_counterexample",
    "Colloids.Py.Follow.C214_single_counterexample",
    "Colloids.Py.Follow.C214_time_counterexample"
   ],
   "note": "C214_bonds_partial and C214_clusters_partial: when each node is not after all bonded positions and there are two bonds or more; the components of networkx are a parameter with a specification (isComponents_exists). C214_outside_counterexample, C214_single_counterexample. C214_time_counterexample: get_time_clusters always fails."
  },
  {
   "property": "C215",
   "status": "partial",
   "theorems": [
    "Colloids.Py.Follow.C215_crea_dest",
    "Colloids.Py.Follow.C215_length_partial",
    "Colloids.Py.Follow.C215_hole_counterexample",
    "Colloids.Py.Follow.C215_offset_counterexample"
   ],
   "note": "C215_crea_dest in full. C215_length_partial: when each position is on one trajectory and times begin at 0. C215_hole_counterexample: a position without trajectory. C215_offset_counterexample: times that do not begin at 0."
  },
  {
   "property": "C216",
   "status": "partial",
   "theorems": [
    "Colloids.Mains.C216_columns_partial",
    "Colloids.Mains.C216_again",
    "Colloids.Mains.C216_interval_counterexample",
    "Colloids.Mains.C216_first_partial",
    "Colloids.Mains.C216_missing_counterexample",
    "Colloids.Mains.C216_hole_counterexample"
   ],
   "note": "C216_first_partial: a film without results and without volumes, an interval neither below 2 nor longer than twice the film. C216_columns_partial: the averages alone. C216_again: same arguments. C216_interval_counterexample: another interval changes nothing. C216_missing_counterexample: the table of a missing file is that of the previous frame. C216_hole_counterexample: null velocities. Exact numbers in files."
  },
  {
   "property": "C217",
   "status": "partial",
   "theorems": [
    "Colloids.Mains.C217_span_partial",
    "Colloids.Mains.C217_span_counterexample",
    "Colloids.Mains.C217_columns_counterexample",
    "Colloids.Mains.C217_eight_counterexample"
   ],
   "note": "C217_span_partial: when no cage lasts all the film; C217_span_counterexample: otherwise undefined. C217_columns_counterexample: each particle gets the values of the particle of twice its number. C217_eight_counterexample: files of eight columns overflow the table."
  },
  {
   "property": "C218",
   "status": "partial",
   "theorems": [
    "Colloids.Py.Pairs.C218_links",
    "Colloids.Py.Pairs.C218_range_counterexample",
    "Colloids.Py.Pairs.C218_size_counterexample"
   ],
   "note": "C218_links in full for the limit of the code, maxdist times the sum of the radii (real arithmetic; parameters and heuristics of the tree valid). C218_range_counterexample: with unit radii pairs up to twice maxdist are linked. C218_size_counterexample: get_links_size adds a squared length to a length. weave is not imported and the shape of the result is not an integer in python 3."
  },
  {
   "property": "C219",
   "status": "proved",
   "theorems": [
    "Colloids.Py.Pairs.C219_srdf",
    "Colloids.Py.Pairs.C219_planar",
    "Colloids.Py.Pairs.C219_slice",
    "Colloids.Py.Pairs.C219_correlation"
   ],
   "note": "C219_srdf, C219_planar, C219_slice, C219_correlation: exact count for each bin, in real arithmetic, parameters and heuristics of the tree valid, positive radii for get_srdf, angle between 0 and pi for get_planar_rdf."
  },
  {
   "property": "C220",
   "status": "partial",
   "theorems": [
    "Colloids.Py.Pairs.C220_value_partial",
    "Colloids.Py.Pairs.C220_sign",
    "Colloids.Py.Pairs.C220_volume_counterexample"
   ],
   "note": "C220_value_partial: sum over the bins without the volume of the shells. C220_sign in full. C220_volume_counterexample: with bins half as long the value doubles."
  },
  {
   "property": "C221",
   "status": "proved",
   "theorems": [
    "Colloids.Py.Sq.C221_value",
    "Colloids.Py.Sq.C221_periodic",
    "Colloids.Py.Sq.C221_one"
   ],
   "note": "C221_value, C221_periodic, C221_one, for maxNvec a positive multiple of 3. The vectors themselves are those of C152."
  },
  {
   "property": "C222",
   "status": "partial",
   "theorems": [
    "Colloids.Py.Sq.C222_vectors_partial",
    "Colloids.Py.Sq.C222_outer_counterexample",
    "Colloids.Py.Sq.C222_value",
    "Colloids.Py.Sq.C222_periodic",
    "Colloids.Py.Sq.C222_axis_counterexample",
    "Colloids.Py.Sq.C222_small_counterexample"
   ],
   "note": "C222_vectors_partial, C222_value, C222_periodic: boxes whose longest side is at least 1. C222_outer_counterexample: a vector longer than the bin. C222_axis_counterexample: from bin maxNvec - 1 on, in a cube, the axis that comes first is ignored. C222_small_counterexample: flat box of sides less than 1, cache read out of bounds."
  },
  {
   "property": "C223",
   "status": "partial",
   "theorems": [
    "Colloids.Py.Sq.C223_factor_partial",
    "Colloids.Py.Sq.C223_hann_counterexample",
    "Colloids.Py.Sq.C223_unseen_counterexample",
    "Colloids.Py.Sq.C223_distance",
    "Colloids.Py.Sq.C223_pairs_partial",
    "Colloids.Py.Sq.C223_order_counterexample"
   ],
   "note": "C223_factor_partial: sign, one particle. C223_hann_counterexample, C223_unseen_counterexample: the window is that of Hann displaced by a quarter of the box. C223_distance in full. C223_pairs_partial: sum of the weight of the first particle of each pair. C223_order_counterexample: the order matters."
  },
  {
   "property": "C224",
   "status": "partial",
   "theorems": [
    "Colloids.Py.Pbox.C224_correl_partial",
    "Colloids.Py.Pbox.C224_binary_partial",
    "Colloids.Py.Pbox.C224_crossing_counterexample"
   ],
   "note": "C224_correl_partial, C224_binary_partial: pairs where no coordinate of the first is below that of the second by more than half the box, box of positive side. C224_crossing_counterexample: two particles that are close through a face are counted once or not at all instead of twice."
  },
  {
   "property": "C225",
   "status": "partial",
   "theorems": [
    "Colloids.Py.Pbox.C225_rdf_partial",
    "Colloids.Py.Pbox.C225_binary_partial",
    "Colloids.Py.Pbox.C225_sep_counterexample"
   ],
   "note": "C225_rdf_partial: distances to the point (p,p,p), not to particle p, and only for particles not above it by more than half the box. C225_binary_partial: same condition, sep at most the number of particles. C225_sep_counterexample: a larger sep reads out of the array."
  },
  {
   "property": "C226",
   "status": "partial",
   "theorems": [
    "Colloids.Py.Pbox.C226_nearest_partial",
    "Colloids.Py.Pbox.C226_crossing_counterexample",
    "Colloids.Py.Pbox.C226_refused"
   ],
   "note": "C226_nearest_partial: rows of the particles that no other exceeds by more than half the box along an axis. C226_crossing_counterexample: the lower one of two neighbours through a face does not have the other. C226_refused in full."
  },
  {
   "property": "C227",
   "status": "partial",
   "theorems": [
    "Colloids.Py.Pbox.C227_xbonds_partial",
    "Colloids.Py.Pbox.C227_single_counterexample"
   ],
   "note": "C227_xbonds_partial: two bonds or more. C227_single_counterexample: less than two bonds are refused."
  },
  {
   "property": "C228",
   "status": "partial",
   "theorems": [
    "Colloids.Py.Pbox.C228_all_partial",
    "Colloids.Py.Pbox.C228_first_partial",
    "Colloids.Py.Pbox.C228_ends_counterexample",
    "Colloids.Py.Pbox.C228_refused"
   ],
   "note": "C228_all_partial, C228_first_partial: all intervals but the ends. C228_ends_counterexample: -1 for a zero interval, and a last value that is not a number when av is 0. C228_refused in full. The displacements are a parameter (see C149)."
  },
  {
   "property": "C229",
   "status": "partial",
   "theorems": [
    "Colloids.Py.Brown.C229_last_partial",
    "Colloids.Py.Brown.C229_pairs_partial",
    "Colloids.Py.Brown.C229_repeated_counterexample",
    "Colloids.Py.Brown.C229_limit_counterexample"
   ],
   "note": "C229_last_partial: each particle gives at most one pair to each bin, the last one the tree finds; no neighbour exactly at rmax. C229_pairs_partial: the sums are over all pairs when no particle has two neighbours in a bin. C229_repeated_counterexample: two neighbours in the same bin count as one. C229_limit_counterexample: a neighbour at rmax is an error. Tree, logarithm and square root as exact parameters."
  },
  {
   "property": "C230",
   "status": "partial",
   "theorems": [
    "Colloids.Py.Brown.C230_components",
    "Colloids.Py.Brown.C230_contribution",
    "Colloids.Py.Brown.C230_axis_counterexample",
    "Colloids.Py.Brown.C230_spoiled_counterexample",
    "Colloids.Py.Brown.C230_error",
    "Colloids.Py.Brown.C230_spread_counterexample"
   ],
   "note": "C230_components, C230_contribution: pairs that are not along the last axis. C230_axis_counterexample, C230_spoiled_counterexample: a pair along the last axis makes the transverse sums of the bin nan. C230_error in full. C230_spread_counterexample: the errors do not decrease with the number of pairs."
  },
  {
   "property": "C231",
   "status": "partial",
   "theorems": [
    "Colloids.DynExport.C231_rows_partial",
    "Colloids.DynExport.C231_first_counterexample",
    "Colloids.DynExport.C231_names",
    "Colloids.DynExport.C231_names_counterexample",
    "Colloids.DynExport.C231_empty_counterexample"
   ],
   "note": "C231_rows_partial: the rows of the lags from 1 on. C231_first_counterexample: there is no end of line after the names, so that the row of lag 0 is part of the comment and lost. C231_names in full. C231_names_counterexample, C231_empty_counterexample: less names than sets, or no set, read out of range. The digits of the numbers are not modelled. The values are given: makeDynamics itself is undefined (C125)."
  },
  {
   "property": "C232",
   "status": "partial",
   "theorems": [
    "Colloids.Py.LinkSave.C232_film_partial",
    "Colloids.Py.LinkSave.C232_empty_partial",
    "Colloids.Py.LinkSave.C232_single_counterexample",
    "Colloids.Py.LinkSave.C232_short_counterexample",
    "Colloids.Py.LinkSave.C232_weave_counterexample"
   ],
   "note": "C232_film_partial: weave available and two particles or more in each frame. C232_empty_partial: an empty last frame is left out. C232_single_counterexample: a film of one particle has three trajectories. C232_short_counterexample: a frame of less than two particles is an error. C232_weave_counterexample: without weave the first link is an error."
  },
  {
   "property": "C233",
   "status": "partial",
   "theorems": [
    "Colloids.Py.Vol.C233_density_partial",
    "Colloids.Py.Vol.C233_single_counterexample"
   ],
   "note": "C233_density_partial: two positions or more in the file, some trajectory, and a box that is not flat. C233_single_counterexample: one trajectory gives a division by zero."
  },
  {
   "property": "C234",
   "status": "partial",
   "theorems": [
    "Colloids.Py.Vol.C234_fraction_partial",
    "Colloids.Py.Vol.C234_single_counterexample"
   ],
   "note": "C234_fraction_partial: two particles or more in each frame, boxes that are not all flat. C234_single_counterexample: the volume of a frame of one particle is a difference of its coordinates."
  },
  {
   "property": "C235",
   "status": "partial",
   "theorems": [
    "Colloids.Py.Vol.C235_tau_partial",
    "Colloids.Py.Vol.C235_program_partial",
    "Colloids.Py.Vol.C235_short_counterexample"
   ],
   "note": "C235_tau_partial, C235_program_partial: films of three frames or more; the lag 0 is never found as its row is lost (C231). C235_short_counterexample: a film of two frames is an error. The values in the file are given: makeDynamics itself is undefined (C125), so that get_tau needs a file that exists already."
  },
  {
   "property": "C236",
   "status": "partial",
   "theorems": [
    "Colloids.Py.Pisf.C236_images_partial",
    "Colloids.Py.Pisf.C236_values",
    "Colloids.Py.Pisf.C236_images_counterexample"
   ],
   "note": "C236_values in full for av>0. C236_images_partial: when the floor of L/radius is even. C236_images_counterexample: when it is odd the sign changes with the image, as the wave number is a multiple of pi/L and not of 2pi/L."
  },
  {
   "property": "C237",
   "status": "partial",
   "theorems": [
    "Colloids.Py.Local.C237_half_partial",
    "Colloids.Py.Local.C237_half_counterexample",
    "Colloids.Py.Local.C237_singular"
   ],
   "note": "C237_half_partial: the displacement is half of the right one, and the difference of values 4^(n-1) times the right one, in any dimension n, further than 2 pixels from the borders. C237_half_counterexample: the stationary point is never reached. C237_singular in full."
  },
  {
   "property": "C238",
   "status": "proved",
   "theorems": [
    "Colloids.Py.Local.C238_ratio",
    "Colloids.Py.Local.C238_saddle",
    "Colloids.Py.Local.C238_valley"
   ],
   "note": "C238_ratio, C238_saddle, C238_valley. Further than 2 pixels from the borders; exact arithmetic."
  },
  {
   "property": "C239",
   "status": "partial",
   "theorems": [
    "Colloids.Py.Local.C239_pixels",
    "Colloids.Py.Local.C239_square_partial",
    "Colloids.Py.Local.C239_mixed_counterexample"
   ],
   "note": "C239_pixels gives what any image becomes. C239_square_partial: square images. C239_mixed_counterexample: any other image is mixed."
  },
  {
   "property": "C240",
   "status": "partial",
   "theorems": [
    "Colloids.Py.Blob.C240_sound",
    "Colloids.Py.Blob.C240_kept",
    "Colloids.Py.Blob.C240_half_counterexample"
   ],
   "note": "C240_sound and C240_kept for any displacements, given the minima; errors of singular matrices excluded. C240_half_counterexample: on a polynomial of degree 2 the center is half way between the pixel and the minimum (see C237)."
  },
  {
   "property": "C241",
   "status": "partial",
   "theorems": [
    "Colloids.Py.Blob.C241_radius",
    "Colloids.Py.Blob.C241_shift_counterexample",
    "Colloids.Py.Blob.C241_head_counterexample"
   ],
   "note": "C241_radius in full. C241_shift_counterexample: positions from the doubled image are a quarter of pixel too far on both axes. C241_head_counterexample: the head says 256 by 256 for any slice."
  },
  {
   "property": "C242",
   "status": "partial",
   "theorems": [
    "Colloids.Py.GridVtk.C242_roundtrip_partial",
    "Colloids.Py.GridVtk.C242_plane_counterexample",
    "Colloids.Py.GridVtk.C242_four_counterexample",
    "Colloids.Py.GridVtk.C242_type_counterexample"
   ],
   "note": "C242_roundtrip_partial: arrays of three dimensions and types in dtypes, sizes of types of 64 bits Linux. C242_plane_counterexample: two dimensions are refused. C242_four_counterexample: four dimensions make an inconsistent file. C242_type_counterexample: other types are refused."
  },
  {
   "property": "C243",
   "status": "partial",
   "theorems": [
    "Colloids.Py.Bar.C243_bar_partial",
    "Colloids.Py.Bar.C243_late_counterexample",
    "Colloids.Py.Bar.C243_wide_counterexample",
    "Colloids.Py.Bar.C243_fails_counterexample"
   ],
   "note": "C243_bar_partial: up to the total number of iterations. C243_late_counterexample: each printed bar is one iteration late. C243_wide_counterexample: wider bars from 102 percent. C243_fails_counterexample: no bar without IPython (animate_noipython does not exist), division by zero for no iterations."
  },
  {
   "property": "C244",
   "status": "partial",
   "theorems": [
    "Colloids.Mains.C244_cells_partial",
    "Colloids.Mains.C244_empty_counterexample",
    "Colloids.Mains.C244_outside_counterexample"
   ],
   "note": "C244_cells_partial: at least one cell, numbers of particles. C244_empty_counterexample: without cell a variable is used without value. C244_outside_counterexample: other numbers are written out of the arrays."
  },
  {
   "property": "C245",
   "status": "partial",
   "theorems": [
    "Colloids.Mains.Cloud.C245_read_partial",
    "Colloids.Mains.Cloud.C245_surf_counterexample",
    "Colloids.Mains.Cloud.C245_head_counterexample"
   ],
   "note": "C245_read_partial: all the files but _surf.cloud. C245_surf_counterexample: the head of _surf.cloud is lost (written to a closed file), so that each particle gets the invariants of the next one. C245_head_counterexample: four names for eight columns in the files of boo_flip."
  },
  {
   "property": "C246",
   "status": "partial",
   "theorems": [
    "Colloids.Mains.BooNames.C246_beside_partial",
    "Colloids.Mains.BooNames.C246_directory_counterexample",
    "Colloids.Mains.BooNames.C246_token_counterexample"
   ],
   "note": "C246_beside_partial: names with _t after the last slash and an extension. C246_directory_counterexample: _t in a directory only. C246_token_counterexample: no _t."
  },
  {
   "property": "C247",
   "status": "partial",
   "theorems": [
    "Colloids.Py.VoroFile.C247_volume_partial",
    "Colloids.Py.VoroFile.C247_missing_counterexample",
    "Colloids.Py.VoroFile.C247_faces_counterexample"
   ],
   "note": "C247_volume_partial: at least two particles; the volumes are those of the printed cells in the order of the numbers. C247_missing_counterexample: after a cell that is not printed each particle gets the volume of the next one. C247_faces_counterexample: volume raises for one particle, faces always (an array formatted by %g)."
  },
  {
   "property": "C248",
   "status": "partial",
   "theorems": [
    "Colloids.Py.VoroFile.C248_network_partial",
    "Colloids.Py.VoroFile.C248_last_counterexample"
   ],
   "note": "C248_network_partial: cells of different particles, at least one bond, no particle at a wall after the last bonded one. C248_last_counterexample: otherwise IndexError and nothing is saved. Rounding of the numbers given to voro++ is not modelled."
  },
  {
   "property": "C249",
   "status": "partial",
   "theorems": [
    "Colloids.Mains.BooSerie.C249_files_partial",
    "Colloids.Mains.BooSerie.C249_zeros_counterexample",
    "Colloids.Mains.BooSerie.C249_extension_counterexample"
   ],
   "note": "C249_files_partial: names with a number, without %, where digits of the last number are the time; the file given as example is treated exactly if its number has no leading zero and is below the span. C249_zeros_counterexample: never with leading zeros. C249_extension_counterexample: a digit in the extension is taken for the time."
  },
  {
   "property": "C250",
   "status": "partial",
   "theorems": [
    "Colloids.Py.Color.C250_channels",
    "Colloids.Py.Color.C250_sides_partial",
    "Colloids.Py.Color.C250_continuous_partial",
    "Colloids.Py.Color.C250_ends",
    "Colloids.Py.Color.C250_distance",
    "Colloids.Py.Color.C250_one_counterexample"
   ],
   "note": "C250_channels, C250_ends: channels and coordinates of all values. C250_sides_partial and C250_continuous_partial: values below 1. C250_one_counterexample: the value 1 has the color of 0. C250_distance: distance to black."
  },
  {
   "property": "C251",
   "status": "partial",
   "theorems": [
    "Colloids.Py.Piles.C251_cuts",
    "Colloids.Py.Piles.C251_pieces_partial",
    "Colloids.Py.Piles.C251_first_counterexample",
    "Colloids.Py.Piles.C251_overlap",
    "Colloids.Py.Piles.C251_nearest_partial",
    "Colloids.Py.Piles.C251_beyond_counterexample"
   ],
   "note": "C251_pieces_partial: cuts inside the piles. C251_first_counterexample: a cut at the first slice and the loop never ends. C251_overlap: for any blobs. C251_nearest_partial and C251_beyond_counterexample: a blob rounded two slices or more beyond the last one is an IndexError. Curvature, blobs and gradient are given. C251_cuts: the pieces are the slices between the cuts."
  },
  {
   "property": "C252",
   "status": "partial",
   "theorems": [
    "Colloids.Py.Radius.C252_neighbourhood",
    "Colloids.Py.Radius.C252_distance",
    "Colloids.Py.Radius.C252_profile_partial",
    "Colloids.Py.Radius.C252_byte_counterexample"
   ],
   "note": "C252_neighbourhood: one dimension. C252_distance: the distances before they are stored. C252_profile_partial: square distances that a byte holds. C252_byte_counterexample: others are truncated modulo 256, so that far pixels count as near ones. The filter and the minimum that give the radius are not modelled."
  },
  {
   "property": "C253",
   "status": "partial",
   "theorems": [
    "Colloids.Py.LifDispl.C253_peak",
    "Colloids.Py.LifDispl.C253_square_partial",
    "Colloids.Py.LifDispl.C253_rectangle_counterexample",
    "Colloids.Py.LifDispl.C253_window_counterexample"
   ],
   "note": "C253_peak: the maximum of the correlation is at the displacement for all images, and elsewhere only if the image has this symmetry. C253_square_partial: square images of an even size without translational symmetry. C253_rectangle_counterexample: lines are compared to the number of columns. C253_window_counterexample: a window is an error for images that are not square. Odd numbers of columns are not modelled."
  },
  {
   "property": "C254",
   "status": "partial",
   "theorems": [
    "Colloids.Py.LoadPiles.C254_clusters_partial",
    "Colloids.Py.LoadPiles.C254_end_counterexample",
    "Colloids.Py.LoadPiles.C254_few_counterexample",
    "Colloids.Py.LoadPiles.C254_offset_counterexample",
    "Colloids.Py.LoadPiles.C254_position"
   ],
   "note": "C254_clusters_partial: slices numbered from 0 with two centers or more, piles within the slices. C254_end_counterexample: otherwise the pile is cut. C254_few_counterexample: a slice with one center or none. C254_offset_counterexample: the offset is not used. C254_position: a position beyond its slice is an error."
  },
  {
   "property": "C255",
   "status": "partial",
   "theorems": [
    "Colloids.Py.ClusterSize.C255_size_partial",
    "Colloids.Py.ClusterSize.C255_beyond_counterexample"
   ],
   "note": "C255_size_partial: bonds between points. C255_beyond_counterexample: others are an IndexError. The connected components are given by their specification."
  },
  {
   "property": "C256",
   "status": "partial",
   "theorems": [
    "Colloids.Py.Droplet.C256_terminated",
    "Colloids.Py.Droplet.C256_starting_partial",
    "Colloids.Py.Droplet.C256_first_counterexample"
   ],
   "note": "C256_terminated: the trajectories that end, exactly, for all linkers. C256_starting_partial: all the positions that start but the one of the first new trajectory. C256_first_counterexample: this one is always missed, and if it is alone nothing is found. The search of neighbours between them is not modelled."
  },
  {
   "property": "C257",
   "status": "partial",
   "theorems": [
    "Colloids.Py.Pov.C257_read_partial",
    "Colloids.Py.Pov.C257_tuple_counterexample",
    "Colloids.Py.Pov.C257_append_counterexample"
   ],
   "note": "C257_read_partial: a reader of lines and braces gives the tree back, for all trees of plain texts without keywords that are tuples of one number. C257_tuple_counterexample: these are a TypeError. C257_append_counterexample: what is appended to an item made without options is in all such items; the classes of povray have tuples to which nothing is appended. The texts of numbers are given."
  },
  {
   "property": "C258",
   "status": "partial",
   "theorems": [
    "Colloids.Py.ImSeries.C258_names_partial",
    "Colloids.Py.ImSeries.C258_assert",
    "Colloids.Py.ImSeries.C258_frames_partial",
    "Colloids.Py.ImSeries.C258_first_counterexample",
    "Colloids.Py.ImSeries.C258_last_counterexample",
    "Colloids.Py.ImSeries.C258_percent_counterexample"
   ],
   "note": "C258_names_partial: number after the last underscore, no percent sign. C258_assert: the assertion fails exactly without underscore. C258_frames_partial: the images from number 0 to the first gap. C258_first_counterexample: nothing of a series that begins at 1. C258_last_counterexample: with another underscore after the number, the image that is given is not in its series. C258_percent_counterexample: a percent sign before the underscore is an error. What is done with the images is not modelled."
  },
  {
   "property": "C259",
   "status": "partial",
   "theorems": [
    "Colloids.Py.Envelope.C259_peaks",
    "Colloids.Py.Envelope.C259_found_partial",
    "Colloids.Py.Envelope.C259_symmetric_counterexample"
   ],
   "note": "C259_peaks: what is given is a maximum or the index before one. C259_found_partial: a peak above two values on each side is found if and only if its two neighbours differ. C259_symmetric_counterexample: it is missed otherwise. The smoothing is given."
  },
  {
   "property": "C260",
   "status": "partial",
   "theorems": [
    "Colloids.Py.Nb.C260_numbers_partial",
    "Colloids.Py.Nb.C260_single_counterexample",
    "Colloids.Py.Nb.C260_stale_counterexample"
   ],
   "note": "C260_numbers_partial: first call, and other calls for several frames. C260_single_counterexample: for a single frame the second call gives a number that cannot be iterated. C260_stale_counterexample: the numbers are not updated when the files change."
  },
  {
   "property": "C261",
   "status": "partial",
   "theorems": [
    "Colloids.Py.CloudSets.C261_names_partial",
    "Colloids.Py.CloudSets.C261_token_counterexample",
    "Colloids.Py.CloudSets.C261_inside",
    "Colloids.Py.CloudSets.C261_sets_partial",
    "Colloids.Py.CloudSets.C261_threshold_counterexample",
    "Colloids.Py.CloudSets.C261_w4_counterexample"
   ],
   "note": "C261_inside: the particles that are kept, exactly. C261_names_partial and C261_token_counterexample: names where `_t` occurs once, and the error otherwise. C261_sets_partial and C261_threshold_counterexample: order parameters that are not the thresholds 0.25 and 0.35, and those that are in no subset. C261_w4_counterexample: crystals with a null w4 are neither FCC nor HCP. The histograms are not modelled."
  },
  {
   "property": "C262",
   "status": "partial",
   "theorems": [
    "Colloids.Py.VtkImage.C262_getVTK_partial",
    "Colloids.Py.VtkImage.C262_flat_counterexample",
    "Colloids.Py.VtkImage.C262_script_partial",
    "Colloids.Py.VtkImage.C262_square_partial",
    "Colloids.Py.VtkImage.C262_order_counterexample"
   ],
   "note": "C262_getVTK_partial: series of three dimensions. C262_flat_counterexample: getVTK is an error for images of two dimensions. C262_script_partial: as many slices as columns, one channel, frames one after the other. C262_square_partial: the same for square images. C262_order_counterexample: with fewer slices than columns the points are not where the pixels are. The title, the line SPACING and the choice of the series are not modelled."
  },
  {
   "property": "C263",
   "status": "partial",
   "theorems": [
    "Colloids.Py.Ageing.C263_intervals_partial",
    "Colloids.Py.Ageing.C263_arguments",
    "Colloids.Py.Ageing.C263_refused_counterexample",
    "Colloids.Py.Ageing.C263_auto_counterexample",
    "Colloids.Py.Ageing.C263_files"
   ],
   "note": "C263_intervals_partial: the intervals, exactly; in order for averages of at most 50. C263_arguments: the program reads the intervals it is given. C263_refused_counterexample: the program, as modelled for C139, refuses the first one of any film of more than 50 frames. C263_auto_counterexample: auto_ageing forgets its arguments. C263_files: different intervals have different files. Negative steps and get_plot_string are not modelled."
  },
  {
   "property": "C264",
   "status": "partial",
   "theorems": [
    "Colloids.Py.Commands.C264_linkboo",
    "Colloids.Py.Commands.C264_totalRdf",
    "Colloids.Py.Commands.C264_g6",
    "Colloids.Py.Commands.C264_dynamics",
    "Colloids.Py.Commands.C264_link_partial",
    "Colloids.Py.Commands.C264_link_counterexample",
    "Colloids.Py.Commands.C264_cut_counterexample",
    "Colloids.Py.Commands.C264_boo_counterexample"
   ],
   "note": "C264_linkboo, C264_totalRdf, C264_g6 and C264_dynamics: what these programs read is right. C264_link_partial: the files, token, radius and time step are right, the frames only if their number is the one of the first frame. C264_link_counterexample: otherwise, no frame at all from frame 0. C264_cut_counterexample and C264_boo_counterexample: the programs refuse any command. The conversion of real numbers to texts and back is not modelled; arguments do not begin with a dash."
  },
  {
   "property": "C265",
   "status": "partial",
   "theorems": [
    "Colloids.Py.Guess.C265_dt_partial",
    "Colloids.Py.Guess.C265_seconds_partial",
    "Colloids.Py.Guess.C265_word_counterexample",
    "Colloids.Py.Guess.C265_size_partial",
    "Colloids.Py.Guess.C265_mixed_counterexample"
   ],
   "note": "C265_size_partial: the other files have another beginning or no .dat in their name, frames from 0, token without digit. C265_mixed_counterexample: a file of another series whose name begins by the head, and the experiment cannot be opened. C265_dt_partial and C265_seconds_partial: no digit before the time. C265_word_counterexample: a number before a word that begins by s is taken for seconds. Heads with special characters of regular expressions are not modelled."
  },
  {
   "property": "C266",
   "status": "partial",
   "theorems": [
    "Colloids.Py.G6Mean.C266_mean_partial",
    "Colloids.Py.G6Mean.C266_nan_counterexample",
    "Colloids.Py.G6Mean.C266_ratio",
    "Colloids.Py.G6Mean.C266_sum_counterexample",
    "Colloids.Py.G6Mean.C266_stale_counterexample",
    "Colloids.Py.G6Mean.C266_disk_partial",
    "Colloids.Py.G6Mean.C266_range_counterexample"
   ],
   "note": "C266_mean_partial: the mean of the columns of the files if all values are numbers and the files are computed by the call; C266_disk_partial: and if they exist. C266_range_counterexample: then the range asked for is ignored. C266_ratio: the second column divided by the third one is the mean of the products on all pairs of all frames. C266_sum_counterexample: the second column alone is this mean times the number of pairs, since the program does not divide. C266_nan_counterexample: a value that is not a number counts as zero. C266_stale_counterexample: files of another number of lines are an error. Infinite values, the rounding of the text files and a missing program are not modelled."
  },
  {
   "property": "C267",
   "status": "partial",
   "theorems": [
    "Colloids.Py.EnvTotal.C267_kept",
    "Colloids.Py.EnvTotal.C267_sound",
    "Colloids.Py.EnvTotal.C267_complete_partial",
    "Colloids.Py.EnvTotal.C267_empty_counterexample",
    "Colloids.Py.EnvTotal.C267_maxima"
   ],
   "note": "C267_maxima: what a local maximum is. C267_sound: all that is kept is a positive maximum, not before the largest value. C267_kept: what is lost, exactly: as many maxima as there are places before the largest value that are not maxima. C267_complete_partial: nothing is lost if there is no such place. C267_empty_counterexample: nothing is kept if there are not more maxima than places before the largest value. The Gaussian filter is any function, and the exponential is replaced by a tolerance."
  }
 ]
}