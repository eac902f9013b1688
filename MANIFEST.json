{
 "claims": [
  {
   "property": "C01",
   "status": "partial",
   "theorems": [
    "Verif.Matching.solve_simultaneous_matching",
    "Verif.Matching.tracking_links_one_to_one",
    "Verif.Matching.solve_simultaneous_infinite_cost_wrong",
    "Verif.Matching.solve_simultaneous_infinite_cost_raises"
   ],
   "note": "Proved for all finite costs; refuted (witness) for infinite unmasked costs. nan costs not modelled."
  },
  {
   "property": "C02",
   "status": "proved",
   "theorems": [
    "Verif.Matching.solve_simultaneous_stable",
    "Verif.Matching.solve_simultaneous_maximal",
    "Verif.Matching.solve_simultaneous_unique"
   ],
   "note": ""
  },
  {
   "property": "C03",
   "status": "proved",
   "theorems": [
    "Verif.Matching.solve_first_multiple",
    "Verif.Matching.solve_first_single",
    "Verif.Matching.solve_first_empty_raises"
   ],
   "note": ""
  },
  {
   "property": "C04",
   "status": "proved",
   "theorems": [
    "Verif.Matching.post_process_link_spec",
    "Verif.Matching.tracking_chelton_one_to_one"
   ],
   "note": ""
  },
  {
   "property": "C05",
   "status": "proved",
   "theorems": [
    "Verif.Compare.get_group_partition",
    "Verif.Compare.get_group_partition_second",
    "Verif.Compare.get_group_spec",
    "Verif.Compare.getGroup_snd",
    "Verif.Compare.nomatch_iff",
    "Verif.Compare.single_iff",
    "Verif.Compare.multi_iff"
   ],
   "note": "Scores are rationals; nan scores not modelled."
  },
  {
   "property": "C06",
   "status": "proved",
   "theorems": [
    "Verif.Tracking.ids_distinct",
    "Verif.Tracking.new_id_never_used_before",
    "Verif.Tracking.id_kept_iff",
    "Verif.Tracking.ids_below_counter",
    "Verif.Tracking.track_total",
    "Verif.Tracking.defaultTracking_oneToOne"
   ],
   "note": "Identifiers unbounded (code: u4)."
  },
  {
   "property": "C07",
   "status": "proved",
   "theorems": [
    "Verif.Tracking.merge_each_once",
    "Verif.Tracking.merge_rows",
    "Verif.Tracking.merge_cost",
    "Verif.Tracking.count_is_extent",
    "Verif.Tracking.blocks_partition",
    "Verif.Tracking.columns_spec"
   ],
   "note": "Counts unbounded (code: u2)."
  },
  {
   "property": "C08",
   "status": "partial",
   "theorems": [
    "Verif.Tracking.longer_than_spec",
    "Verif.Tracking.longer_than_consistent",
    "Verif.Tracking.shorter_than_spec_partial",
    "Verif.Tracking.shorter_than_raises"
   ],
   "note": "longer_than proved; shorter_than raises on an empty selection (witness)."
  },
  {
   "property": "C09",
   "status": "proved",
   "theorems": [
    "Verif.Tracking.unused_spec",
    "Verif.Tracking.default_run",
    "Verif.Tracking.unused_single_raises"
   ],
   "note": "At least two datasets; a single dataset raises."
  },
  {
   "property": "C10",
   "status": "proved",
   "theorems": [
    "Verif.Tracking.gap_bounded",
    "Verif.Tracking.virtual_observations_exact"
   ],
   "note": ""
  },
  {
   "property": "C11",
   "status": "partial",
   "theorems": [
    "Verif.Tracking.resume_eq_track_partial",
    "Verif.Tracking.save_three_datasets_raises",
    "Verif.Tracking.resume_two_datasets_raises",
    "Verif.Tracking.resume_empty_table_raises"
   ],
   "note": "Equality proved whenever the state can be saved and loaded; three situations where it cannot are proved as witnesses."
  },
  {
   "property": "C12",
   "status": "proved",
   "theorems": [
    "Verif.Group.group_translator_components",
    "Verif.Group.group_translator_label",
    "Verif.Group.group_translator_order",
    "Verif.Group.group_translator_index_error"
   ],
   "note": ""
  },
  {
   "property": "C13",
   "status": "proved",
   "theorems": [
    "Verif.Group.get_group_array_components"
   ],
   "note": ""
  },
  {
   "property": "C14",
   "status": "proved",
   "theorems": [
    "Verif.Segments.dissociate_components",
    "Verif.Segments.tagSegment_inv",
    "Verif.Segments.conn_iff_linked"
   ],
   "note": "Recursion depth unbounded (Python raises RecursionError on very deep graphs)."
  },
  {
   "property": "C15",
   "status": "proved",
   "theorems": [
    "Verif.Segments.relative_order_is_distance",
    "Verif.Segments.relatives_spec",
    "Verif.Segments.relatives_large_order_wrong"
   ],
   "note": "segment_relative_order: one network with sorted segments; relatives: order below 65535 (beyond, everything is selected: witness). Recursion depth unbounded."
  },
  {
   "property": "C16",
   "status": "proved",
   "theorems": [
    "Verif.Links.extract_with_mask_links",
    "Verif.Links.extract_with_slice_links",
    "Verif.Links.IsTake.valid",
    "Verif.Links.extract_mask_wrong_length"
   ],
   "note": ""
  },
  {
   "property": "C17",
   "status": "proved",
   "theorems": [
    "Verif.Links.sort_links",
    "Verif.Links.sort_sorted",
    "Verif.Links.argsort_perm"
   ],
   "note": "The order of records of numpy is a parameter."
  },
  {
   "property": "C18",
   "status": "partial",
   "theorems": [
    "Verif.Links.remove_once_spec",
    "Verif.Links.remove_once_no_dangling",
    "Verif.Links.remove_dead_end_valid",
    "Verif.Links.recursive_forgets_mask",
    "Verif.Links.remove_dead_end_empty_raises"
   ],
   "note": "One pass: exact selection and no dangling link; any number of passes: valid links. Refuted by witness: the recursive call forgets the mask; an empty network raises. The function returns None, which its two callers (network.py:1679, appli/network.py:149) use as a network."
  },
  {
   "property": "C19",
   "status": "partial",
   "theorems": [
    "Verif.Links.find_link_forward",
    "Verif.Links.find_link_backward",
    "Verif.Links.find_link_both_sound_partial",
    "Verif.Links.find_link_both_single",
    "Verif.Links.find_link_both_incomplete"
   ],
   "note": "One direction: exact. Both directions: exact for one observation when time increases along links; for several observations sound but not complete (witness)."
  },
  {
   "property": "C20",
   "status": "proved",
   "theorems": [
    "Verif.Segmentation.set_tracks_spec",
    "Verif.Segmentation.split_network_spec",
    "Verif.Segmentation.from_split_network_spec",
    "Verif.Segmentation.getNext_spec",
    "Verif.Segmentation.getPrev_spec"
   ],
   "note": "For datasets sorted by group with each group in order of time; overlaps are an arbitrary non negative function with exact arithmetic. Numbers, uniqueness per step, best links, both-way links inside segments and termination are proved; also for the network built from the segments."
  },
  {
   "property": "C21",
   "status": "partial",
   "theorems": [
    "Verif.Buffer.buffer_transparent",
    "Verif.Buffer.second_instance_same_contour",
    "Verif.Buffer.second_instance_wrong_contour",
    "Verif.Buffer.second_instance_size",
    "Verif.Buffer.negative_size_raises"
   ],
   "note": "Proved for one instance and for later instances with the same contour; refuted by witness for a second network of the process which asks for the other contour (singleton ignores its parameters)."
  },
  {
   "property": "C22",
   "status": "proved",
   "theorems": [
    "Verif.Tracks.track_index_exact",
    "Verif.Tracks.count_by_track_spec",
    "Verif.Tracks.track_index_empty_raises",
    "Verif.Tracks.track_index_not_contiguous_wrong"
   ],
   "note": "Contiguous tracks (the layout of the files); without it the index is proved wrong by a witness."
  },
  {
   "property": "C23",
   "status": "partial",
   "theorems": [
    "Verif.Tracks.extract_full_path",
    "Verif.Tracks.extract_remove_incomplete",
    "Verif.Tracks.extract_plain",
    "Verif.Tracks.compress_spec",
    "Verif.Tracks.compress_track_partial",
    "Verif.Tracks.compress_written_wrong",
    "Verif.Tracks.extract_full_path_empty_raises"
   ],
   "note": "full_path and remove_incomplete proved. compress_id gives the attribute track 1..k; refuted: the field which is written keeps the old numbers, for all datasets."
  },
  {
   "property": "C24",
   "status": "partial",
   "theorems": [
    "Verif.Tracks.distance_to_next_partial",
    "Verif.Tracks.distance_to_next_start_at_one_wrong",
    "Verif.Tracks.distance_to_next_gap_wrong",
    "Verif.Tracks.distance_to_next_single_raises"
   ],
   "note": "Proved when track numbers are 0..n-1 without holes; refuted by witnesses for numbers starting at 1, with holes, and for a single observation."
  },
  {
   "property": "C25",
   "status": "proved",
   "theorems": [
    "Verif.Tracks.normalize_longitude_spec"
   ],
   "note": "Exact arithmetic."
  },
  {
   "property": "C26",
   "status": "partial",
   "theorems": [
    "Verif.Tracks.concatenate_spec_partial",
    "Verif.Tracks.concatenate_empty_raises"
   ],
   "note": "Non-empty datasets; an empty dataset raises."
  },
  {
   "property": "C27",
   "status": "proved",
   "theorems": [
    "Verif.Index.build_index_spec",
    "Verif.Index.build_index_empty",
    "Verif.Index.build_index_unsorted_wrong"
   ],
   "note": "Sorted non-empty input; empty raises and unsorted is wrong (witnesses)."
  },
  {
   "property": "C28",
   "status": "partial",
   "theorems": [
    "Verif.Missing.missing_indices_spec",
    "Verif.Missing.insert_virtual_partial",
    "Verif.Missing.insert_virtual_track_lost",
    "Verif.Missing.insert_virtual_forgets_virtual",
    "Verif.Missing.missing_between_segments",
    "Verif.Missing.insert_virtual_raises"
   ],
   "note": "Positions, dates and interpolated fields proved; refuted by witnesses: track number of the inserted rows, earlier virtual flags, gaps between segments of a network."
  },
  {
   "property": "C29",
   "status": "partial",
   "theorems": [
    "Verif.Smooth.median_filter_spec",
    "Verif.Smooth.median_is_middle",
    "Verif.Smooth.median_filter_between",
    "Verif.Smooth.median_filter_negative",
    "Verif.Smooth.loess_formula",
    "Verif.Smooth.loess_between",
    "Verif.Smooth.loess_ignores_ends"
   ],
   "note": "Median filter proved exactly; loess filter: exact formula and bounds proved, but it never uses the first and the last row of the dataset as neighbours (witness)."
  },
  {
   "property": "C30",
   "status": "partial",
   "theorems": [
    "Verif.Filters.merge_filters_partial",
    "Verif.Filters.merge_filters_order",
    "Verif.Filters.merge_two_slices",
    "Verif.Filters.two_slices_wrong",
    "Verif.Filters.slice_step_one",
    "Verif.Filters.slice_reverse",
    "Verif.Filters.negative_index_wrong"
   ],
   "note": "Proved unless the last two restricting filters are both slices (the code gives their union: proved, with witness) or one observation is named by two different indices (-1 and n-1) in two index arrays (witness)."
  },
  {
   "property": "C31",
   "status": "partial",
   "theorems": [
    "Verif.Bins.iter_on_default",
    "Verif.Bins.iter_on_sorted_partial",
    "Verif.Bins.iter_on_monotone_partial",
    "Verif.Bins.nothing_between_raises",
    "Verif.Bins.monotone_below_wrong",
    "Verif.Bins.monotone_above_raises",
    "Verif.Bins.unsigned_unsorted_wrong"
   ],
   "note": "Proved for the default bounds (any signed or float data), for non monotonous data with a value between the bounds, and for monotonous data inside of the bounds. Refuted by witnesses: monotonous data with values outside of the bounds (wrong group or IndexError), unsigned unsorted data (wrong groups), no value between the bounds (raises, for all such data)."
  },
  {
   "property": "C32",
   "status": "partial",
   "theorems": [
    "Verif.Bins.align_on_common",
    "Verif.Bins.align_on_data",
    "Verif.Bins.align_on_all_ref_partial",
    "Verif.Bins.align_on_all_ref_exact",
    "Verif.Bins.all_ref_drops_end",
    "Verif.Bins.all_ref_drops_end_same_bins",
    "Verif.Bins.all_ref_slice_raises",
    "Verif.Bins.other_empty_raises"
   ],
   "note": "Common bins: proved whenever iter_on is right on both datasets and the other one is not empty. all_ref: proved when the reference is not monotonous and does not go beyond the other dataset; otherwise bins are dropped or the code raises (witnesses)."
  },
  {
   "property": "C33",
   "status": "partial",
   "theorems": [
    "Verif.Boxes.grid_box_stat_shifted",
    "Verif.Boxes.grid_box_stat_never_right",
    "Verif.Boxes.grid_box_stat_empty",
    "Verif.Boxes.cell_box",
    "Verif.Boxes.cell_circular"
   ],
   "note": "Refuted for every non empty dataset: each statistic is stored in the next non empty cell, the last one is lost, the first non empty cell stays masked. The exact behaviour is proved."
  },
  {
   "property": "C34",
   "status": "proved",
   "theorems": [
    "Verif.Boxes.grid_count_cell",
    "Verif.Boxes.grid_count_sum",
    "Verif.Boxes.cell_unique",
    "Verif.Boxes.wrap_spec"
   ],
   "note": "Counts by centre; exact arithmetic; histogram2d as documented by numpy. The counts by contour (center=False) are not covered here."
  },
  {
   "property": "C35",
   "status": "proved",
   "theorems": [
    "Verif.Poly.winding_separated",
    "Verif.Poly.winding_outside_box",
    "Verif.Poly.winding_shift",
    "Verif.Poly.winding_padding",
    "Verif.Poly.winding_rotate",
    "Verif.Poly.winding_reverse",
    "Verif.Poly.winding_inside",
    "Verif.Poly.winding_convex"
   ],
   "note": "More than stated: 0 for every point outside of the convex hull; not 0 for every point strictly on the left of all edges; exact for convex polygons."
  },
  {
   "property": "C36",
   "status": "partial",
   "theorems": [
    "Verif.Poly.poly_indexs_partial",
    "Verif.Poly.inside_poly_partial",
    "Verif.Poly.poly_indexs_no_point",
    "Verif.Poly.poly_indexs_wide_wrong"
   ],
   "note": "Proved for contours narrower than 180 degrees which are not reduced to one position, at least one point, any sorting function. Refuted by witness for wider contours; no point raises."
  },
  {
   "property": "C37",
   "status": "proved",
   "theorems": [
    "Verif.Poly.visvalingam_spec",
    "Verif.Poly.visvalingam_closed"
   ],
   "note": "For sizes of at least 3 and arrays of at least 2 points; the heap is represented by its sorted content."
  },
  {
   "property": "C38",
   "status": "partial",
   "theorems": [
    "Verif.Poly.reduce_size_partial",
    "Verif.Poly.reduce_size_exact",
    "Verif.Poly.reduce_size_winding",
    "Verif.Poly.reduce_size_constant"
   ],
   "note": "Proved for every contour with two different positions. Refuted for every constant contour (the index leaves the array), although the comment of the code names this case."
  },
  {
   "property": "C39",
   "status": "proved",
   "theorems": [
    "Verif.Poly.convex_hull_spec",
    "Verif.Poly.convex_hull_subsequence",
    "Verif.Poly.argmin_spec"
   ],
   "note": ""
  },
  {
   "property": "C40",
   "status": "proved",
   "theorems": [
    "Verif.Lines.wrap_spec",
    "Verif.Lines.wrap_all_spec",
    "Verif.Lines.wrap_unique",
    "Verif.Lines.wrap_cut_eq",
    "Verif.Lines.wrap_cut_spec",
    "Verif.Lines.wrap_cut_points",
    "Verif.Lines.wrap_cut_not_contiguous"
   ],
   "note": "With cut the added points are outside of the interval on purpose (at most one turn). The segments are preserved for steps of at most 360 degrees (witness beyond); an empty array with cut fails."
  },
  {
   "property": "C41",
   "status": "partial",
   "theorems": [
    "Verif.Lines.flatten_partial",
    "Verif.Lines.flatten_writes_outside",
    "Verif.Lines.flatten_empty",
    "Verif.Lines.flatten_split",
    "Verif.Lines.split_line_spec",
    "Verif.Lines.split_line_recovers"
   ],
   "note": "Contents and round trip proved. Refuted: flatten_line_matrix writes one element after its output for every non empty matrix. split_line never writes outside."
  },
  {
   "property": "C42",
   "status": "partial",
   "theorems": [
    "Verif.Lines.simplify_partial",
    "Verif.Lines.simplify_sublist",
    "Verif.Lines.Simplified.separated",
    "Verif.Lines.Simplified.kept_if_far",
    "Verif.Lines.simplify_last_only",
    "Verif.Lines.simplify_line_vanishes"
   ],
   "note": "Selection rule proved exactly. Refuted: a line near the last kept point of the previous line vanishes (witness), a single point at the end is lost (all such arrays)."
  },
  {
   "property": "C43",
   "status": "partial",
   "theorems": [
    "Verif.Lines.window_index_spec",
    "Verif.Lines.window_index_partial",
    "Verif.Lines.window_reads_outside",
    "Verif.Lines.window_lower_excluded"
   ],
   "note": "Windows open below and closed above, exact for all sorted nodes whatever is read after them. Refuted: the code reads after the nodes (characterised exactly)."
  },
  {
   "property": "C44",
   "status": "partial",
   "theorems": [
    "Verif.Advect.advect_alone",
    "Verif.Advect.advectRk4_alone",
    "Verif.Advect.advectT_alone",
    "Verif.Advect.advectTRk4_alone",
    "Verif.Advect.clear_circular",
    "Verif.Advect.advect_add",
    "Verif.Advect.advectRk4_add",
    "Verif.Advect.moveP_spec",
    "Verif.Advect.run_alone",
    "Verif.Advect.sentinel_wrong"
   ],
   "note": "Each function on many particles is the same function on each particle alone, for all particles which do not start in the cell of the initial key of the cache; on circular grids without condition. Refuted for a particle which starts in that cell (far outside of the grid): it is moved instead of lost (witness)."
  },
  {
   "property": "C45",
   "status": "partial",
   "theorems": [
    "Verif.Advect.look_partial",
    "Verif.Advect.advect_lost_iff_partial",
    "Verif.Advect.look_none",
    "Verif.Advect.inCell_of_cellOf",
    "Verif.Advect.getQuad_eq",
    "Verif.Advect.interp_between",
    "Verif.Advect.weights_range",
    "Verif.Advect.circular_of_turn",
    "Verif.Advect.not_circular",
    "Verif.Advect.south_wrong",
    "Verif.Advect.south_reads_outside"
   ],
   "note": "Exact for all positions which are not at the south of the grid. Refuted at the south: negative indices of lines count from the north (witness), or are outside of the array."
  },
  {
   "property": "C46",
   "status": "proved",
   "theorems": [
    "Verif.Stencil.stencil_exact",
    "Verif.Stencil.cell_exact",
    "Verif.Stencil.cell_one_side",
    "Verif.Stencil.stencil_vertical",
    "Verif.Stencil.finite_exact",
    "Verif.Stencil.finite_border",
    "Verif.Stencil.bufAt_spec"
   ],
   "note": "Exact rationals, the factor from degrees to metres is a parameter. cell_exact also gives the order near masked cells: twice the number of clear neighbours on both sides. At least 4 columns."
  },
  {
   "property": "C47",
   "status": "partial",
   "theorems": [
    "Verif.Stencil.stencil_masked_partial",
    "Verif.Stencil.line_masked_iff",
    "Verif.Stencil.bufAt_spec",
    "Verif.Stencil.border_uses_old_values",
    "Verif.Stencil.last_column_wrong",
    "Verif.Stencil.both_masked_used"
   ],
   "note": "Proved for cells with the whole stencil in the domain (or circular) and not between two masked cells. Refuted: the cells outside of the domain are taken as not masked, with values left in the variables; between two masked cells the masked values are used."
  },
  {
   "property": "C48",
   "status": "proved",
   "theorems": [
    "Verif.PixelPath.pixelPath_spec",
    "Verif.PixelPath.path_shape",
    "Verif.PixelPath.dx_shortest",
    "Verif.PixelPath.trunc_step",
    "Verif.PixelPath.arange_eq"
   ],
   "note": "Exact rationals for the slope. Also: shortest way around, no raise, all columns in the grid."
  },
  {
   "property": "C49",
   "status": "proved",
   "theorems": [
    "Verif.Detection.eddies_disjoint",
    "Verif.Detection.identify_inv",
    "Verif.Detection.step_inv",
    "Verif.Detection.eddies_valid",
    "Verif.Detection.contour_used_once",
    "Verif.Detection.search_outcome",
    "Verif.Detection.identify_outcome",
    "Verif.Detection.hasMasked_iff",
    "Verif.Detection.hasValue_iff"
   ],
   "note": "Contours, fits and amplitudes are arbitrary parameters. Also: every contour which passes the tests at its turn gives an eddy (identify_outcome)."
  },
  {
   "property": "C50",
   "status": "proved",
   "theorems": [
    "Verif.Detection.get_uavg_spec",
    "Verif.Detection.uavgLoop_spec",
    "Verif.Detection.iterFrom_spec",
    "Verif.Detection.get_corrected"
   ],
   "note": "The mean speed, the search of the nested contour and the test of inclusion are parameters. Contours of at most pixel_min pixels are scanned but never selected."
  },
  {
   "property": "C51",
   "status": "partial",
   "theorems": [
    "Verif.Advect.turn_partial",
    "Verif.Advect.weights_partial",
    "Verif.Advect.weights_between",
    "Verif.Advect.generator_spec",
    "Verif.Advect.start_between_wrong",
    "Verif.Advect.long_turn_wrong"
   ],
   "note": "Proved when t_init is the time of a grid and a turn divides all intervals of the grids. Refuted: a start between two grids gives a weight of 3/2; a turn longer than an interval gives negative weights (witnesses)."
  },
  {
   "property": "C52",
   "status": "proved",
   "theorems": [
    "Verif.Advect.filament_spec",
    "Verif.Advect.filament_zero"
   ],
   "note": "filament_size >= 1; the advection is a parameter."
  },
  {
   "property": "C53",
   "status": "partial",
   "theorems": [
    "Verif.Amplitude.below_accepts_iff",
    "Verif.Amplitude.below_exact_partial",
    "Verif.Amplitude.above_eq_below_neg",
    "Verif.Amplitude.below_value",
    "Verif.Amplitude.below_masked",
    "Verif.Amplitude.below_deepest_partial",
    "Verif.Amplitude.retained_iff",
    "Verif.Amplitude.extrema_spec",
    "Verif.Amplitude.isExtremum_iff",
    "Verif.Amplitude.separate_spec",
    "Verif.Amplitude.detect_spec",
    "Verif.Amplitude.component_plateau",
    "Verif.Amplitude.centre_column",
    "Verif.Amplitude.barycentre_wrong",
    "Verif.Amplitude.acceptance_wrong",
    "Verif.Amplitude.below_rejects",
    "Verif.Amplitude.above_rejects",
    "Verif.Amplitude.below_tolerates"
   ],
   "note": "Symmetry and exact acceptance proved. Refuted: a plateau is replaced by its barycentre, which may be no extremum; then the amplitude is wrong and a contour with two significant extrema is accepted with mle=1 (witnesses)."
  },
  {
   "property": "C54",
   "status": "partial",
   "theorems": [
    "Verif.Identify.identify_in_partial",
    "Verif.Identify.targetLoop_spec",
    "Verif.Identify.sameItem_iff",
    "Verif.Identify.identifyGroup_good",
    "Verif.Identify.sizes_groups",
    "Verif.Identify.identify_in_drops",
    "Verif.Identify.identify_in_raises",
    "Verif.Identify.sortPos_isOrder"
   ],
   "note": "Network mode. Exact, injective and maximal linking proved for all datasets whose sizes are not in increasing order. Refuted: networks larger than every network of the other dataset are dropped; increasing sizes raise when a size is missing."
  },
  {
   "property": "C55",
   "status": "partial",
   "theorems": [
    "Verif.Targets.get_targets_spec",
    "Verif.Targets.TopTwo.decreasing",
    "Verif.Targets.share_two",
    "Verif.Targets.countLoop_spec",
    "Verif.Targets.countLoop_outside",
    "Verif.Targets.step_targets_spec",
    "Verif.Targets.get_matrix_partial",
    "Verif.Targets.get_matrix_int_wrong",
    "Verif.Targets.merge_result_spec"
   ],
   "note": "get_targets and get_matrix with float arrays proved. Refuted for the integer arrays given by segment_coherence_backward/forward: the two targets may be swapped."
  },
  {
   "property": "C56",
   "status": "partial",
   "theorems": [
    "Verif.Tracks.add_distance_raises"
   ],
   "note": "Refuted: the function raises for every dataset of at least two observations."
  },
  {
   "property": "C57",
   "status": "partial",
   "theorems": [
    "Verif.Tracks.extract_ids_spec",
    "Verif.Tracks.extract_ids_out_of_range"
   ],
   "note": "Proved for numbers up to the largest track number; a larger one writes outside of the lookup array."
  },
  {
   "property": "C58",
   "status": "proved",
   "theorems": [
    "Verif.Tracks.extract_with_length_spec"
   ],
   "note": ""
  },
  {
   "property": "C59",
   "status": "partial",
   "theorems": [
    "Verif.Tracks.toward_direction_partial",
    "Verif.Tracks.toward_west_delta_empty",
    "Verif.Tracks.toward_single_raises"
   ],
   "note": "West with a delta selects nothing (witness)."
  },
  {
   "property": "C60",
   "status": "partial",
   "theorems": [
    "Verif.Missing.fix_links_partial",
    "Verif.Missing.links_not_shifted"
   ],
   "note": "Links around virtual rows proved; the links of the other rows are not renumbered (witness)."
  },
  {
   "property": "C61",
   "status": "proved",
   "theorems": [
    "Verif.Boxes.grid_stat_mean"
   ],
   "note": "Exact arithmetic; histogram2d as documented by numpy."
  },
  {
   "property": "C62",
   "status": "partial",
   "theorems": [
    "Verif.Poly.convex_hull_spec",
    "Verif.Poly.convex_hull_wrong"
   ],
   "note": "Proved: each kept edge has all later vertices strictly on its left. Refuted by witness (a simple anticlockwise pentagon): the first vertex is not tested, the result is not convex and does not enclose the polygon."
  },
  {
   "property": "C63",
   "status": "proved",
   "theorems": [
    "Verif.Lines.iter_window_spec",
    "Verif.Lines.window_nodes_spec"
   ],
   "note": "The sorting function is a parameter."
  },
  {
   "property": "C64",
   "status": "partial",
   "theorems": [
    "Verif.Detection.nearest_none_iff",
    "Verif.Detection.nearest_partial",
    "Verif.Detection.nearest_wrong",
    "Verif.Detection.inBox_iff",
    "Verif.Detection.dist_spec"
   ],
   "note": "None exactly when there is no candidate; nearest candidate when the first contour of the level is a candidate or a candidate is nearer than its first vertex. Otherwise the first contour of the level is returned though its box does not contain the point (witness)."
  },
  {
   "property": "C65",
   "status": "proved",
   "theorems": [
    "Verif.Advect.rk4_order",
    "Verif.Advect.interp_affine",
    "Verif.Advect.interp2_affine",
    "Verif.Advect.euler_step",
    "Verif.Advect.rk4_time"
   ],
   "note": "Grids which are not circular."
  },
  {
   "property": "C66",
   "status": "partial",
   "theorems": [
    "Verif.Pixels.pixels_regional_partial",
    "Verif.Pixels.pixels_circular_partial",
    "Verif.Pixels.west_wrong",
    "Verif.Pixels.south_wrong",
    "Verif.Pixels.turn_wrong"
   ],
   "note": "Proved for contours in the turn of a regional grid, and for contours narrower than half a turn which start in the turn of a circular grid or cross its limit, above the first line. Refuted elsewhere: contour beyond the western bound of a regional grid, on the first line, or in another turn."
  },
  {
   "property": "C67",
   "status": "partial",
   "theorems": [
    "Verif.Pixels.grid_count_partial",
    "Verif.Pixels.fits_exact",
    "Verif.Pixels.countIn_spec",
    "Verif.Pixels.meanIn_spec"
   ],
   "note": "Proved for all sets of eddies which fit the grid (any turn of longitudes on a circular grid); a constant contour leaves the array, contours on the first line or outside of a regional grid are refuted under C66."
  },
  {
   "property": "C68",
   "status": "partial",
   "theorems": [
    "Verif.Events.birth_partial",
    "Verif.Events.death_partial",
    "Verif.Events.remove_trash_partial",
    "Verif.Events.trash_iff",
    "Verif.Events.birth_wrong"
   ],
   "note": "Proved for all networks whose network 0 is the trash, or whose first segment has a link. Refuted: a dataset without trash whose first segment has no link loses the birth and the death of this segment."
  },
  {
   "property": "C69",
   "status": "partial",
   "theorems": [
    "Verif.Events.merging_triplets",
    "Verif.Events.splitting_triplets",
    "Verif.Events.merging_index",
    "Verif.Events.splitting_index",
    "Verif.Events.extract_event_partial",
    "Verif.Events.triplet_wrong"
   ],
   "note": "Exact for all valid networks. Refuted: when the target of a merging has no past, the observation given as the one before it is the last one of the file."
  },
  {
   "property": "C70",
   "status": "partial",
   "theorems": [
    "Verif.Events.close_event_partial",
    "Verif.Events.mask_follow_spec",
    "Verif.Events.followLoop_spec",
    "Verif.Events.mask_follow_ints",
    "Verif.Events.close_wrong"
   ],
   "note": "Exact for all networks where targets of mergings have a past and sources of splittings a future; otherwise the last observation of the file is selected (witness)."
  },
  {
   "property": "C71",
   "status": "partial",
   "theorems": [
    "Verif.Events.new_numbering_spec",
    "Verif.Events.numbering_segment_spec",
    "Verif.Events.numbering_network_partial",
    "Verif.Events.Renumbers.same",
    "Verif.Events.numbering_stale"
   ],
   "note": "Numbers exact for all sorted networks. Refuted: the index of the networks is not reset by numbering_network, a network read after it is then a wrong one (witness)."
  },
  {
   "property": "C72",
   "status": "partial",
   "theorems": [
    "Verif.Events.close_links_partial",
    "Verif.Events.close_single_partial",
    "Verif.Events.close_none",
    "Verif.Events.close_events_wrong",
    "Verif.Events.close_events_partial"
   ],
   "note": "Links: all networks. Segments: networks whose close events are not chained (any number). Refuted for two chained events: two observations of a segment at the same date (witness)."
  },
  {
   "property": "C73",
   "status": "partial",
   "theorems": [
    "Verif.Events.swap_event_partial",
    "Verif.Events.swap_single_partial",
    "Verif.Events.swap_wrong",
    "Verif.Events.swap_events_partial",
    "Verif.Events.swap_dates_partial"
   ],
   "note": "Exact, and the dates of each segment stay distinct, in all networks whose swaps share no segment (any number of events). Refuted: two events with the same source put three segments in one (witness); the links are never updated."
  },
  {
   "property": "C74",
   "status": "partial",
   "theorems": [
    "Verif.Match.match_partial",
    "Verif.Match.match_positive_partial",
    "Verif.Match.box_test_partial",
    "Verif.Match.wrap_vertice_partial",
    "Verif.Match.common_point_compared",
    "Verif.Match.meet_unique",
    "Verif.Match.score_spec",
    "Verif.Match.score_range",
    "Verif.Match.score_symm",
    "Verif.Match.score_one",
    "Verif.Match.close_center_spec",
    "Verif.Match.box_wide_wrong",
    "Verif.Match.match_default"
   ],
   "note": "Exact for contours whose widths are together less than 180 degrees; areas of polygons (library Polygon) are parameters. Refuted: wider contours are missed, and the default cmin=0 gives couples of eddies whose boxes meet without overlap. Centres: exact for all."
  },
  {
   "property": "C75",
   "status": "partial",
   "theorems": [
    "Verif.Match.close_tracks_partial",
    "Verif.Match.closeRows_spec",
    "Verif.Match.reReference_spec",
    "Verif.Match.matchRows_within",
    "Verif.Match.close_tracks_raises",
    "Verif.Match.close_tracks_wrong"
   ],
   "note": "Exact count of the couples given by match for all groups of dates. Refuted: match is called with cmin=0, couples without overlap are counted; the function raises when there is no common date."
  },
  {
   "property": "C76",
   "status": "partial",
   "theorems": [
    "Verif.Poly.poly_area_partial",
    "Verif.Poly.area_translate",
    "Verif.Poly.area_scale",
    "Verif.Poly.area_rotate",
    "Verif.Poly.area_reverse",
    "Verif.Poly.area_convex",
    "Verif.Poly.area_open_wrong"
   ],
   "note": "All closed contours. Refuted for contours which are not closed (witness)."
  },
  {
   "property": "C77",
   "status": "partial",
   "theorems": [
    "Verif.Match.contain_partial",
    "Verif.Match.contain_turn",
    "Verif.Match.contain_convex",
    "Verif.Match.contain_notch_wrong",
    "Verif.Match.contain_wide_wrong"
   ],
   "note": "Vertices: exact for contours whose widths are together less than 180 degrees; edges too when the outer contour is convex. Refuted: an edge of the inner contour may leave an outer contour with a notch; a contour of more than 180 degrees."
  },
  {
   "property": "C78",
   "status": "partial",
   "theorems": [
    "Verif.Poly.meshed_particles_partial",
    "Verif.Poly.mesh_common",
    "Verif.Poly.walk_fuel",
    "Verif.Poly.mesh_point_undefined"
   ],
   "note": "All contours with two different vertices, all positive steps. A contour reduced to a point leaves the array of vertices."
  },
  {
   "property": "C79",
   "status": "partial",
   "theorems": [
    "Verif.Interp.bilinear_pointwise",
    "Verif.Interp.node_partial",
    "Verif.Interp.bilinear_exact",
    "Verif.Interp.bilinear_range",
    "Verif.Interp.defined_iff",
    "Verif.Interp.bilinear_turn",
    "Verif.Interp.bilinear_seam",
    "Verif.Interp.circular_of_global",
    "Verif.Interp.last_row_wrong",
    "Verif.Interp.circular_wrong"
   ],
   "note": "All regular grids, masks and lists of points. Refuted: there is no value on the last row and the last column of a grid, and the test of a global grid is not modulo 360 (witnesses)."
  },
  {
   "property": "C80",
   "status": "partial",
   "theorems": [
    "Verif.Interp.nearest_partial",
    "Verif.Interp.nearest_global_partial",
    "Verif.Interp.rint_nearest",
    "Verif.Interp.axis_nearest",
    "Verif.Interp.nearest_masked_wrong"
   ],
   "note": "All regular grids and points. Refuted: the mask is not used, the value under the mask is given."
  },
  {
   "property": "C81",
   "status": "partial",
   "theorems": [
    "Verif.Convolve.convolve_partial",
    "Verif.Convolve.filterLat_spec",
    "Verif.Convolve.filter_constant",
    "Verif.Convolve.filter_range",
    "Verif.Convolve.filter_linear",
    "Verif.Convolve.filter_turn",
    "Verif.Convolve.filter_local",
    "Verif.Convolve.one_longitude_raises",
    "Verif.Convolve.wide_raises",
    "Verif.Convolve.even_latitudes_wrong"
   ],
   "note": "All grids, masks and weights, kernels with odd sizes of at least three longitudes; the values of the kernels are parameters. Refuted: kernels of one longitude and kernels wider than a circular grid raise, an even number of latitudes is not centred."
  },
  {
   "property": "C82",
   "status": "proved",
   "theorems": [
    "Verif.Convolve.finalize_spec",
    "Verif.Convolve.finalize_raises"
   ],
   "note": "All half kernels; a kernel of zeros raises."
  },
  {
   "property": "C83",
   "status": "proved",
   "theorems": [
    "Verif.Runs.count_consecutive_spec",
    "Verif.Runs.cumsum_run",
    "Verif.Runs.cumsum_sorted"
   ],
   "note": "All inputs."
  },
  {
   "property": "C84",
   "status": "partial",
   "theorems": [
    "Verif.Extract.insert_partial",
    "Verif.Extract.append_spec",
    "Verif.Extract.period_spec",
    "Verif.Extract.plus_changes",
    "Verif.Extract.insert_outside_wrong",
    "Verif.Extract.period_stale_wrong"
   ],
   "note": "All datasets and all indices from -(size+1) to size. Refuted: an index after the end can lose the inserted row, + changes its first operand, the period is kept after an insertion."
  },
  {
   "property": "C85",
   "status": "partial",
   "theorems": [
    "Verif.Extract.area_partial",
    "Verif.Extract.sub_sample_spec",
    "Verif.Extract.first_obs_partial",
    "Verif.Extract.last_obs_partial",
    "Verif.Extract.area_wide_wrong",
    "Verif.Extract.age_wrong"
   ],
   "note": "Boxes of at most 360 degrees; ages which start at 0. Refuted: wider boxes lose their west limit, first_obs and last_obs miss trajectories whose age does not start at 0."
  },
  {
   "property": "C86",
   "status": "partial",
   "theorems": [
    "Verif.Extract.contains_partial",
    "Verif.Extract.mask_from_polygons_partial",
    "Verif.Extract.mask_raises"
   ],
   "note": "Exact for contours of C36, with the exact condition under which mask_from_polygons gives a result. Refuted: it raises when all observations are in the first polygons."
  },
  {
   "property": "C87",
   "status": "partial",
   "theorems": [
    "Verif.Store.store_partial",
    "Verif.Store.store_outside",
    "Verif.Store.code_stable",
    "Verif.Store.store_twice",
    "Verif.Store.store_mono",
    "Verif.Store.variables_partial",
    "Verif.Store.raw_netcdf",
    "Verif.Store.raw_zarr_partial",
    "Verif.Store.undelta_delta",
    "Verif.Store.wrapCast_casts",
    "Verif.Store.west_contour_wrong",
    "Verif.Store.west_contour_value",
    "Verif.Store.before_1950_wrong",
    "Verif.Store.raw_zarr_rounding_wrong"
   ],
   "note": "All values in the range of the type of the variable, all casts. Refuted: contour longitudes west of -147.68 and dates before 1950 are not given back; the raw codes of zarr lose one step for any rounding toward 0. Fill values of netCDF and the precision of floats are not modelled."
  },
  {
   "property": "C88",
   "status": "partial",
   "theorems": [
    "Verif.Store.rows_netcdf_partial",
    "Verif.Store.rows_zarr_partial",
    "Verif.Store.copyBlock_spec",
    "Verif.Store.copyLoop_spec",
    "Verif.Store.array_attr_partial",
    "Verif.Store.sign_partial",
    "Verif.Store.inverse_spec",
    "Verif.Store.names_spec",
    "Verif.Store.step_wrong",
    "Verif.Store.step_zarr_wrong",
    "Verif.Store.no_array_wrong",
    "Verif.Store.sign_wrong"
   ],
   "note": "All slices without step, all buffers, all names. Refuted: steps of slices, zarr files of datasets without arrays, files without rows."
  },
  {
   "property": "C89",
   "status": "partial",
   "theorems": [
    "Verif.Fields.mem_elements",
    "Verif.Fields.elements_nodup",
    "Verif.Fields.add_fields_partial",
    "Verif.Fields.remove_fields_spec",
    "Verif.Fields.copy_spec",
    "Verif.Fields.concatenate_partial",
    "Verif.Fields.concatenate_wrong",
    "Verif.Fields.coherence_wrong",
    "Verif.Fields.add_after_remove_wrong",
    "Verif.Fields.add_array_wrong"
   ],
   "note": "All datasets, for all orders of sets. Refuted: concatenate puts latitudes in longitudes for datasets loaded with other include_vars; a dataset after remove_fields is not coherent and add_fields raises; array fields are not added to a dataset without arrays."
  },
  {
   "property": "C90",
   "status": "proved",
   "theorems": [
    "Verif.Grouping.next_index_spec",
    "Verif.Grouping.build_dataset_spec"
   ],
   "note": "All files and group arrays. The fields copied are opaque."
  },
  {
   "property": "C91",
   "status": "partial",
   "theorems": [
    "Verif.Grouping.mem_results",
    "Verif.Grouping.mem_comparePair",
    "Verif.Grouping.results_valid",
    "Verif.Grouping.group_observations_partial",
    "Verif.Grouping.network_partial"
   ],
   "note": "All windows, thresholds and areas, for contours narrower than 180 degrees (C36, box test)."
  },
  {
   "property": "C92",
   "status": "partial",
   "theorems": [
    "Verif.Select.networks_partial",
    "Verif.Select.network_partial",
    "Verif.Select.network_size_spec",
    "Verif.Select.nb_network_spec",
    "Verif.Select.absent_wrong",
    "Verif.Select.numbering_wrong"
   ],
   "note": "All datasets sorted by network whose index is fresh, all numbers from the first to the last network. Refuted: a number below the first network gives another network; the index is stale after numbering_network."
  },
  {
   "property": "C93",
   "status": "partial",
   "theorems": [
    "Verif.Select.track_groups",
    "Verif.Select.longer_than_spec",
    "Verif.Select.longer_than_empty",
    "Verif.Select.keep_by_date_spec",
    "Verif.Select.keep_by_date_partial",
    "Verif.Select.mask_period_partial",
    "Verif.Select.by_date_wrong",
    "Verif.Select.period_wrong"
   ],
   "note": "All sorted datasets with rows. Refuted: an empty dataset raises; a track with a hole at date + nb_days is lost though it lasted longer; the period in memory is stale after an insertion."
  },
  {
   "property": "C94",
   "status": "proved",
   "theorems": [
    "Verif.Select.normalize_longitude_spec",
    "Verif.Select.unique_segment_spec",
    "Verif.Select.first_lt"
   ],
   "note": "All datasets sorted by network with a fresh index; all datasets with rows for the numbers of segments."
  },
  {
   "property": "C95",
   "status": "partial",
   "theorems": [
    "Verif.Particles.particles_spec",
    "Verif.Particles.particle_candidate_partial",
    "Verif.Particles.coherence_forward_partial",
    "Verif.Particles.coherence_backward_partial",
    "Verif.Particles.fill_coherence_spec",
    "Verif.Particles.atlas_partial",
    "Verif.Particles.window_rows_spec",
    "Verif.Particles.atlas_last_wrong",
    "Verif.Particles.zero_days",
    "Verif.Particles.coherence_single_wrong"
   ],
   "note": "All datasets with regular contours, all meshes and durations; the movement of a particle is any partial function. Refuted: the last date of particle_candidate_atlas has no target; zero day raises; a dataset whose period is exactly n_days raises (division by zero in the message of progress); order of targets with the same integer percentage (C55)."
  },
  {
   "property": "C96",
   "status": "proved",
   "theorems": [
    "Verif.Sphere.distance_spec",
    "Verif.Sphere.distance_period",
    "Verif.Sphere.distance_comm",
    "Verif.Sphere.distance_nonneg",
    "Verif.Sphere.distance_le",
    "Verif.Sphere.distance_triangle",
    "Verif.Sphere.distance_eq_zero",
    "Verif.Sphere.distance_meridian",
    "Verif.Sphere.aVal_nonneg",
    "Verif.Sphere.aVal_le_one",
    "Verif.Sphere.onSphere_period"
   ],
   "note": "Exact reals instead of floats."
  },
  {
   "property": "C97",
   "status": "partial",
   "theorems": [
    "Verif.Sphere.grid_cell_spec",
    "Verif.Sphere.foldLon_spec",
    "Verif.Sphere.isGap_unique",
    "Verif.Sphere.grid_cell_far_partial",
    "Verif.Sphere.mask_function_partial",
    "Verif.Sphere.grid_cell_pole_wrong"
   ],
   "note": "Exact reals; all positions up to 80 degrees of latitude. Refuted: near a pole, positions at less than 125 km with more than 20 degrees between the longitudes are nan."
  },
  {
   "property": "C98",
   "status": "proved",
   "theorems": [
    "Verif.Sphere.local_round_trip",
    "Verif.Sphere.local_round_trip_near",
    "Verif.Sphere.coordinates_round_trip",
    "Verif.Sphere.coordinates_to_local_distance"
   ],
   "note": "Exact reals, positions which are not poles."
  },
  {
   "property": "C99",
   "status": "proved",
   "theorems": [
    "Verif.Circle.fit_circle_spec",
    "Verif.Circle.fit_circle'_spec",
    "Verif.Circle.fit_circle_agree",
    "Verif.Circle.fit_circle_exact",
    "Verif.Circle.fit_circle_similarity",
    "Verif.Circle.lstsq_exists"
   ],
   "note": "Exact reals; lstsq of numpy is a parameter which gives a least squares solution (lstsq_exists: there is one for all inputs)."
  },
  {
   "property": "C100",
   "status": "partial",
   "theorems": [
    "Verif.Circle.shape_error_partial",
    "Verif.Circle.shape_error_inside",
    "Verif.Circle.shape_error_similarity",
    "Verif.Circle.shape_error_centre_wrong",
    "Verif.Circle.shape_error_square_wrong"
   ],
   "note": "What the code computes for all contours without vertex at the centre, and the documented value for contours inside of the disc. Refuted: a square around the disc gives 100 instead of 100 * (4 - pi) / pi; a vertex at the centre raises."
  },
  {
   "property": "C101",
   "status": "proved",
   "theorems": [
    "Verif.Circle.fit_circle_path_spec",
    "Verif.Circle.fit_circle_path_dot",
    "Verif.Circle.coordinatesToLocal_period"
   ],
   "note": "Exact reals; lstsq is a parameter."
  },
  {
   "property": "C102",
   "status": "partial",
   "theorems": [
    "Verif.Ellipse.fit_ellipse_conic_partial",
    "Verif.Ellipse.fit_ellipse_vertices",
    "Verif.Ellipse.fit_ellipse_exact_partial",
    "Verif.Ellipse.fit_ellipse_aligned_wrong"
   ],
   "note": "Exact reals; lstsq is a parameter; ellipses whose equation has a cross term and which do not go through the origin. Refuted: an ellipse with axes along the coordinates (a circle for example) divides by zero."
  },
  {
   "property": "C103",
   "status": "proved",
   "theorems": [
    "Verif.Resample.resample_length",
    "Verif.Resample.resample_spec",
    "Verif.Resample.resample_ends",
    "Verif.Resample.length_true",
    "Verif.Resample.build_circle_spec",
    "Verif.Resample.build_circle_angle"
   ],
   "note": "Exact reals. Distances of less than one millimetre between two vertices count as one millimetre, as in the code."
  },
  {
   "property": "C104",
   "status": "partial",
   "theorems": [
    "Verif.Trackers.area_tracking_partial",
    "Verif.Trackers.area_limit",
    "Verif.Trackers.maskCmin_spec",
    "Verif.Trackers.scoreAt_iou"
   ],
   "note": "All datasets whose contours are narrower than 180 degrees together (C74); areas of the library Polygon are parameters with the inequalities of areas."
  },
  {
   "property": "C105",
   "status": "partial",
   "theorems": [
    "Verif.Trackers.default_tracking_partial",
    "Verif.Trackers.default_mask_iff",
    "Verif.Trackers.change_self",
    "Verif.Trackers.change_order"
   ],
   "note": "Exact reals, all datasets with non null amplitudes and radii up to 80 degrees of latitude (C97)."
  },
  {
   "property": "C106",
   "status": "proved",
   "theorems": [
    "Verif.Trackers.major_axis_spec",
    "Verif.Trackers.major_axis_monotone",
    "Verif.Trackers.major_axis_equal",
    "Verif.Trackers.gap_spec",
    "Verif.Trackers.ellipse_spec"
   ],
   "note": "Exact rationals, positive minor axis, lat2 < lat1."
  },
  {
   "property": "C107",
   "status": "proved",
   "theorems": [
    "Verif.Trackers.ratio_spec",
    "Verif.Trackers.ends_spec",
    "Verif.Trackers.ends_turn",
    "Verif.Trackers.comparable_comm",
    "Verif.Trackers.across_ground_spec",
    "Verif.Trackers.chelton_mask_spec",
    "Verif.Trackers.chelton_tracking_spec",
    "Verif.Trackers.ratio_zero_wrong"
   ],
   "note": "All datasets with rows, positive amplitudes and radii. Exact rationals for positions and exact reals for distances. The values of the grid of ground are a function of the pixels. A null amplitude raises (ratio_zero_wrong), an empty dataset too (C03)."
  },
  {
   "property": "C108",
   "status": "partial",
   "theorems": [
    "Verif.Trackers.common_area_partial",
    "Verif.Trackers.common_area_turn_wrong"
   ],
   "note": "All contours whose first vertices are in the same half turn, positive areas. Refuted: contours around 0 and around 360 have no common area."
  },
  {
   "property": "C109",
   "status": "partial",
   "theorems": [
    "Verif.Coords.bounds_regular_partial",
    "Verif.Coords.centre_middle",
    "Verif.Coords.pixels_partition",
    "Verif.Coords.setup_regular",
    "Verif.Coords.extent_regular",
    "Verif.Coords.bounds_spec",
    "Verif.Coords.centre_inside_iff",
    "Verif.Coords.bounds_irregular_wrong"
   ],
   "note": "All axes with a constant step, by centres or corners; exact condition for the other axes. Refuted: irregular centres (0, 1, 4) are accepted with an empty pixel and centres out of their pixels. Exact rationals."
  },
  {
   "property": "C110",
   "status": "partial",
   "theorems": [
    "Verif.Coords.circular_sound",
    "Verif.Coords.circular_global_partial",
    "Verif.Coords.circular_corner_wrong",
    "Verif.Coords.circular_turn_wrong"
   ],
   "note": "Soundness for all axes, completeness for exact global grids by centres. Refuted: no global grid by corners is circular; the answer depends on the origin near 0."
  },
  {
   "property": "C111",
   "status": "partial",
   "theorems": [
    "Verif.Coords.column_nearest",
    "Verif.Coords.column_half_partial",
    "Verif.Coords.column_wrong"
   ],
   "note": "First half of each pixel. Refuted for the second half: the next column."
  },
  {
   "property": "C112",
   "status": "proved",
   "theorems": [
    "Verif.Coords.drawn_global",
    "Verif.Coords.drawn_regional_wrong"
   ],
   "note": "All global grids with a constant step, all references. drawn_regional_wrong: regional grids across the reference, which the claim does not cover, are drawn with bounds out of order."
  },
  {
   "property": "C113",
   "status": "partial",
   "theorems": [
    "Verif.Collect.interp_linear_partial",
    "Verif.Collect.interp_date_partial",
    "Verif.Collect.interp_wrong",
    "Verif.Collect.interp_date_wrong",
    "Verif.Collect.interp_step_wrong"
   ],
   "note": "Daily grids at times from 0 where the two days have values. Refuted: last date, masked next day, negative times, other steps of time."
  },
  {
   "property": "C114",
   "status": "partial",
   "theorems": [
    "Verif.Collect.path_partial",
    "Verif.Collect.path_times_iff"
   ],
   "note": "Positions and times of all rows but the first time. Refuted: the first time is in days, the others in seconds; right only from the time 0."
  },
  {
   "property": "C115",
   "status": "proved",
   "theorems": [
    "Verif.Collect.uv_spec"
   ],
   "note": "Exact reals, latitudes strictly between the poles, one cell; derivatives of heights are C46."
  },
  {
   "property": "C116",
   "status": "partial",
   "theorems": [
    "Verif.Collect.regrid_spec",
    "Verif.Collect.regrid_self_partial",
    "Verif.Collect.clean_land_spec",
    "Verif.Collect.regrid_self_wrong"
   ],
   "note": "Place of each value for all grids; unchanged values but the last line and column, which are hidden (refuted, see C79)."
  },
  {
   "property": "C117",
   "status": "partial",
   "theorems": [
    "Verif.Seam.join_partial",
    "Verif.Seam.join_complete",
    "Verif.Seam.Solved.closed",
    "Verif.Seam.join_lost_wrong"
   ],
   "note": "All collections: closed chains, each segment at most once, other paths untouched. Nothing is lost when each segment has exactly one continuation and one predecessor (join_complete). Refuted otherwise: the segments of a contour which does not close are removed, also with keep_unclose. The limits are at exactly one turn, rationals."
  },
  {
   "property": "C118",
   "status": "partial",
   "theorems": [
    "Verif.Seam.label_partial",
    "Verif.Seam.label_last",
    "Verif.Seam.label_cyclonic_wrong",
    "Verif.Seam.label_cyclonic_height",
    "Verif.Seam.label_twice",
    "Verif.Seam.label_twice_wrong"
   ],
   "note": "Anticyclonic eddies, all levels but the last (left as it was). Refuted for cyclonic eddies, where the height read is the one of two levels below, and for two calls, the second one clears the first. Inside is a winding number not zero (see C35)."
  },
  {
   "property": "C119",
   "status": "proved",
   "theorems": [
    "Verif.Seam.keep_iff",
    "Verif.Seam.keep_closed",
    "Verif.Seam.keep_unclose_iff",
    "Verif.Seam.solved_kept"
   ],
   "note": "Exact equivalence for all paths, the distance compared by its square."
  },
  {
   "property": "C120",
   "status": "partial",
   "theorems": [
    "Verif.Around.on_following_spec",
    "Verif.Around.around_event_spec",
    "Verif.Around.Run.rows",
    "Verif.Around.Run.unique",
    "Verif.Around.percentile_rank",
    "Verif.Around.percentile_between",
    "Verif.Around.any_step_wrong"
   ],
   "note": "Steps of one day or more and at most one target of a segment by row. Refuted for shorter steps: the array has window places."
  },
  {
   "property": "C121",
   "status": "partial",
   "theorems": [
    "Verif.Stats.index_list_iff",
    "Verif.Stats.index_one_iff",
    "Verif.Stats.index_slice_partial",
    "Verif.Stats.index_slice_beyond",
    "Verif.Stats.index_reverse",
    "Verif.Stats.index_mask",
    "Verif.Stats.index_slice_wrong",
    "Verif.Stats.index_mask_wrong"
   ],
   "note": "Exact for positions, slices up to the end and reverse. Refuted for slices beyond the end and for masks: an error, or copies of one row."
  },
  {
   "property": "C122",
   "status": "proved",
   "theorems": [
    "Verif.Stats.hist_plain",
    "Verif.Stats.hist_mean",
    "Verif.Stats.hist_percent",
    "Verif.Stats.hist_nb_mean",
    "Verif.Stats.bins_stat_default",
    "Verif.Stats.bins_stat_given",
    "Verif.Stats.bins_stat_empty"
   ],
   "note": "Increasing bins, exact rationals; the last bound is in the last bin. hist with nb and mean is refused by numpy (integer division in place)."
  },
  {
   "property": "C123",
   "status": "proved",
   "theorems": [
    "Verif.Stats.raw_resample_spec",
    "Verif.Stats.raw_resample_ends",
    "Verif.Stats.raw_resample_same",
    "Verif.Stats.raw_resample_between",
    "Verif.Stats.raw_resample_one"
   ],
   "note": "Exact rationals, numpy.interp is modelled; one value is refused."
  },
  {
   "property": "C124",
   "status": "partial",
   "theorems": [
    "Verif.App.browse_spec_partial",
    "Verif.App.browse_none_iff",
    "Verif.App.Listing.date_at",
    "Verif.App.one_by_date_wrong",
    "Verif.App.of_names_wrong"
   ],
   "note": "Files whose dates are found in the names. Refuted: several files of one date are accepted (step zero) and a file without date in its name keeps a date from uninitialised memory."
  },
  {
   "property": "C125",
   "status": "partial",
   "theorems": [
    "Verif.App.application_partition_partial",
    "Verif.App.application_some_iff",
    "Verif.App.trackFile_count",
    "Verif.App.trackFile_length",
    "Verif.App.ends_wrong"
   ],
   "note": "The partition is exact when the application ends. Refuted: it raises when no track is short, after the tracking."
  },
  {
   "property": "C126",
   "status": "proved",
   "theorems": [
    "Verif.Ring.circle_contour_spec",
    "Verif.Ring.circle_contour_none",
    "Verif.Ring.ring_circle"
   ],
   "note": "Exact reals, latitudes inside of 90 degrees, radius less than half the Earth."
  },
  {
   "property": "C127",
   "status": "partial",
   "theorems": [
    "Verif.Geos.add_uv_balance",
    "Verif.Geos.add_uv_exact",
    "Verif.Geos.add_uv_masked",
    "Verif.Geos.add_uv_infinite",
    "Verif.Geos.add_uv_shift",
    "Verif.Geos.documented_wrong"
   ],
   "note": "The balance holds everywhere but on the equator (inf); the slopes are exact where the whole stencil is in the grid and in the data (see C46, C47 for the others). The documentation has both signs wrong."
  },
  {
   "property": "C128",
   "status": "partial",
   "theorems": [
    "Verif.GridFile.grid_fresh",
    "Verif.GridFile.grid_cached",
    "Verif.GridFile.grid_other",
    "Verif.GridFile.reduced_wrong"
   ],
   "note": "Exact for the first call on each variable. Refuted for the next ones: the indexes of the call are ignored. Slices inside of the dimensions."
  },
  {
   "property": "C129",
   "status": "proved",
   "theorems": [
    "Verif.GridFile.high_low_spec",
    "Verif.GridFile.filters_other",
    "Verif.GridFile.band_spec"
   ],
   "note": "The low part is a parameter (see the convolution for its values)."
  },
  {
   "property": "C130",
   "status": "partial",
   "theorems": [
    "Verif.GridFile.write_read_partial",
    "Verif.GridFile.grid_ready",
    "Verif.GridFile.addGrid_ready",
    "Verif.GridFile.copy_ready",
    "Verif.GridFile.openFile_clean",
    "Verif.GridFile.all_written_wrong",
    "Verif.GridFile.copy_written_wrong"
   ],
   "note": "Variables read before their copy, with the coordinates as last dimensions. Refuted: a grid of add_grid under a new name is not written, and the copy of a variable not read before is written with exchanged axes."
  },
  {
   "property": "C131",
   "status": "partial",
   "theorems": [
    "Verif.Kernels.kernel_spec",
    "Verif.Kernels.kernel_none_iff",
    "Verif.Kernels.kernel_centred_partial",
    "Verif.Kernels.loess_centred_partial",
    "Verif.Kernels.lanczos_centred_partial",
    "Verif.Kernels.bessel_centred_partial",
    "Verif.Kernels.loess_none_iff",
    "Verif.Kernels.lanczos_none_iff",
    "Verif.Kernels.shape_spec",
    "Verif.Kernels.checkOrder_spec",
    "Verif.Kernels.south_wrong"
   ],
   "note": "Centred when the kernel does not pass the south pole; there the number of rows can be even and each weight is used for the row above its own (witness)."
  },
  {
   "property": "C132",
   "status": "partial",
   "theorems": [
    "Verif.Kernels.loess_weights_partial",
    "Verif.Kernels.reach_latitude",
    "Verif.Kernels.negative_wrong",
    "Verif.Kernels.longitudes_wrong"
   ],
   "note": "Holds at the order 1 for the weights and the rows. Refuted: negative weights from the order 2, and the number of longitudes is the one of a plane."
  },
  {
   "property": "C133",
   "status": "partial",
   "theorems": [
    "Verif.Subset.subset_partial",
    "Verif.Subset.stored_seconds",
    "Verif.Subset.length_wrong",
    "Verif.Subset.length_drops",
    "Verif.Subset.period_wrong",
    "Verif.Subset.period_drops",
    "Verif.Subset.dead_end_wrong",
    "Verif.Subset.trash_ignored",
    "Verif.Subset.trash_wrong"
   ],
   "note": "Exact for a file which stores days, without remove_dead_end and remove_trash. Refuted: the raw dates of the files of the library are seconds, so the bounds in days are compared with seconds; remove_dead_end always raises; remove_trash is ignored."
  },
  {
   "property": "C134",
   "status": "proved",
   "theorems": [
    "Verif.Whole.unit_independent",
    "Verif.Whole.reference_independent",
    "Verif.Whole.run_aff",
    "Verif.Whole.identify_aff"
   ],
   "note": "For all factors; the lines of matplotlib and the percentiles of numpy are assumed to follow the heights (structure Follows), heights below the fill value 2e10."
  },
  {
   "property": "C135",
   "status": "proved",
   "theorems": [
    "Verif.Whole.levels_spec",
    "Verif.Whole.levelsOf_covers"
   ],
   "note": ""
  },
  {
   "property": "C136",
   "status": "partial",
   "theorems": [
    "Verif.Whole.search_neg",
    "Verif.Whole.symmetry_partial",
    "Verif.Whole.symmetry_wrong"
   ],
   "note": "Each search is symmetric and the opposite field gives the opposite of the two searches in the other order; the whole is refuted: anticyclones are searched first and reserve their pixels (witness: a dome with a crater)."
  },
  {
   "property": "C137",
   "status": "proved",
   "theorems": [
    "Verif.Whole.normalized_spec",
    "Verif.Whole.normalized_rigid"
   ],
   "note": ""
  },
  {
   "property": "C138",
   "status": "partial",
   "theorems": [
    "Verif.Names.read_back_partial",
    "Verif.Names.name_partial",
    "Verif.Names.read_back_wrong",
    "Verif.Names.directory_wrong"
   ],
   "note": "Exactly when the flag is not used or the name ends with .nc or .zarr. Refuted: a store without extension is read as netcdf, .nc is replaced in the names of directories."
  },
  {
   "property": "C139",
   "status": "partial",
   "theorems": [
    "Verif.Names.close_network_partial",
    "Verif.Names.close_network_links",
    "Verif.Names.close_network_raises"
   ],
   "note": "Holds for dates as integers with a common date; with dates in days range() of floats always raises."
  },
  {
   "property": "C140",
   "status": "partial",
   "theorems": [
    "Verif.Tools.groups_share",
    "Verif.Tools.shares_rows",
    "Verif.Tools.quick_compare_partial",
    "Verif.Tools.other_file",
    "Verif.Tools.outside_untouched",
    "Verif.Tools.counts_sum",
    "Verif.Tools.areas_sum",
    "Verif.Tools.names_wrong"
   ],
   "note": "For names which do not give the same directory. Refuted for names which differ only by / and _: the last one overwrites the files."
  },
  {
   "property": "C141",
   "status": "partial",
   "theorems": [
    "Verif.Tools.merge_partial",
    "Verif.Tools.tracks_wrong",
    "Verif.Tools.rotation_wrong"
   ],
   "note": "With track among the variables and files which are not empty; the rotation with its option. Refuted without track (one trajectory by file) and without the option (rotation of the first file only)."
  },
  {
   "property": "C142",
   "status": "partial",
   "theorems": [
    "Verif.Unregular.nearest_spec",
    "Verif.Unregular.pixels_box",
    "Verif.Unregular.pixels_none_iff",
    "Verif.Unregular.pixels_exact_partial",
    "Verif.Unregular.border_wrong",
    "Verif.Unregular.fold_wrong"
   ],
   "note": "Exact on grids with rows and columns, for contours whose box is in the grid. Refuted near the last row (read out of the array) and on folded grids. The tree of scipy is a parameter which gives a nearest node."
  },
  {
   "property": "C143",
   "status": "partial",
   "theorems": [
    "Verif.Unregular.cells_partial",
    "Verif.Unregular.zGrid_mean",
    "Verif.Unregular.centres_eq",
    "Verif.Unregular.centres_get",
    "Verif.Unregular.place_spec",
    "Verif.Unregular.back_between",
    "Verif.Unregular.low_filter_between",
    "Verif.Unregular.back_affine",
    "Verif.Unregular.north_wrong"
   ],
   "note": "Bounds, means and affine fields proved; every value is in a cell unless it is near 89 degrees of latitude (refuted: north_wrong). The filter of the regular grid is a parameter which averages."
  },
  {
   "property": "C144",
   "status": "proved",
   "theorems": [
    "Verif.Speed.speed_mean_eq",
    "Verif.Speed.speed_mean_closed",
    "Verif.Speed.speed_mean_between",
    "Verif.Speed.speed_mean_none_iff",
    "Verif.Speed.speed_mean_scaled",
    "Verif.Speed.speed_mean_turn",
    "Verif.Speed.speed_unregular_between"
   ],
   "note": "For exact rational positions; the vertices are those of the resampled contour (C103); the second vertex is not in the cell of the initial marks (hypothesis Near)."
  },
  {
   "property": "C145",
   "status": "partial",
   "theorems": [
    "Verif.Speed.uavg_nan_partial",
    "Verif.Speed.uavg_nan",
    "Verif.Speed.uavg_nan_wrong",
    "Verif.Speed.uavg_unit",
    "Verif.Speed.uavg_same"
   ],
   "note": "When the original contour has a mean speed. Refuted otherwise: the original contour, without speed, is then always selected."
  },
  {
   "property": "C146",
   "status": "partial",
   "theorems": [
    "Verif.GridFile.tiles_spec",
    "Verif.GridFile.tiles_grid_partial",
    "Verif.GridFile.tiles_index_wrong",
    "Verif.GridFile.tiles_changed_wrong",
    "Verif.GridFile.tiles_eq"
   ],
   "note": "For a handler opened without index nor mask of nan and a variable which was not changed. Refuted otherwise: the file is read again, with the first element of the other dimensions."
  },
  {
   "property": "C147",
   "status": "proved",
   "theorems": [
    "Verif.Circle.equal_area_spec",
    "Verif.Circle.equal_area_dot",
    "Verif.Circle.equal_area_shift",
    "Verif.Circle.equal_area_start",
    "Verif.Circle.equal_area_back"
   ],
   "note": "Real numbers instead of floats."
  },
  {
   "property": "C148",
   "status": "partial",
   "theorems": [
    "Verif.Bins.groups_spec",
    "Verif.Bins.map_same_partial",
    "Verif.Bins.map_list_partial",
    "Verif.Bins.map_dict_partial",
    "Verif.Bins.mean_by_segment_partial",
    "Verif.Bins.mean_integer_wrong",
    "Verif.Bins.map_unsorted_wrong"
   ],
   "note": "For networks whose numbers are sorted. Refuted: a mean over a field of integers is truncated; numbers which are not sorted mix the observations."
  },
  {
   "property": "C149",
   "status": "partial",
   "theorems": [
    "Verif.GridFile.memory_partial",
    "Verif.GridFile.reset_count",
    "Verif.GridFile.reset_direct",
    "Verif.GridFile.memory_wrong",
    "Verif.GridFile.iter_wrong"
   ],
   "note": "For the variables read from files and all sequences of operations. Refuted: velocities computed when loading are lost after a cleaning (KeyError), an iteration on the collection does not load again the released grids."
  },
  {
   "property": "C150",
   "status": "partial",
   "theorems": [
    "Verif.Particles.windows_forward",
    "Verif.Particles.windows_backward",
    "Verif.Particles.days_spec",
    "Verif.Particles.forward_days",
    "Verif.Particles.backward_days",
    "Verif.Particles.treated_dates",
    "Verif.Particles.shifts_spec",
    "Verif.Particles.shifts_oldest",
    "Verif.Particles.shift_unsorted_wrong",
    "Verif.Particles.shift_empty"
   ],
   "note": "The windows of grids are proved in full, for all datasets and durations. Refuted: shift_files releases the first grid of the list, which is not the oldest when the list is not sorted."
  },
  {
   "property": "C151",
   "status": "partial",
   "theorems": [
    "Verif.Events.marks_partial",
    "Verif.Events.marks_wrong"
   ],
   "note": "For all files of one network. Refuted: with several networks, the rows of segments of same number are mixed and events are not drawn."
  },
  {
   "property": "C152",
   "status": "partial",
   "theorems": [
    "Verif.Particles.analysis_partial",
    "Verif.Particles.dead_end_wrong",
    "Verif.Particles.mode_wrong",
    "Verif.Particles.documented_wrong"
   ],
   "note": "For known modes and without removal of dead ends; the methods called are parameters. Refuted: remove_dead_end>0 always raises; an unknown mode gives an empty result."
  },
  {
   "property": "C153",
   "status": "proved",
   "theorems": [
    "Verif.Tracking.virtual_on_way",
    "Verif.Tracking.source_total",
    "Verif.Tracking.virtual_position",
    "Verif.Tracking.source_real",
    "Verif.Tracking.proposed_turn",
    "Verif.Tracking.proposed_area",
    "Verif.Tracking.virtual_contour",
    "Verif.Tracking.gap_source"
   ],
   "note": "For all datasets and one-to-one associations. gap_source shows a case where A is a proposed position."
  },
  {
   "property": "C154",
   "status": "partial",
   "theorems": [
    "Verif.Smooth.smooth_between",
    "Verif.Smooth.smooth_local",
    "Verif.Smooth.smooth_add",
    "Verif.Smooth.network_filter_between",
    "Verif.Smooth.network_filter_move",
    "Verif.Smooth.turn_wrong"
   ],
   "note": "Everything but the limit of longitudes, for all widths. Refuted: a segment which crosses the limit of longitudes is smoothed to the other side of the Earth."
  },
  {
   "property": "C155",
   "status": "partial",
   "theorems": [
    "Verif.Spectrum.lat_between",
    "Verif.Spectrum.lat_mean",
    "Verif.Spectrum.lon_between",
    "Verif.Spectrum.lon_freq",
    "Verif.Spectrum.lon_mean",
    "Verif.Spectrum.ratio_partial",
    "Verif.Spectrum.scaling_wrong"
   ],
   "note": "welch of scipy is a parameter. Refuted: with scaling=spectrum the reference is computed with scaling=density, a grid relative to itself does not give one."
  },
  {
   "property": "C156",
   "status": "partial",
   "theorems": [
    "Verif.Tracking.names_partial",
    "Verif.Tracking.fileName_const",
    "Verif.Tracking.names_wrong",
    "Verif.Tracking.loaded_join_raises"
   ],
   "note": "Only the number of datasets is kept. Refuted for all files: each name is written 'In memory file'; EddyFinalTracking then reads a file of this name, and two loaded tables cannot be merged."
  },
  {
   "property": "C157",
   "status": "partial",
   "theorems": [
    "Verif.Tracking.join_partial",
    "Verif.Tracking.join_save_partial",
    "Verif.Tracking.join_number_wrong",
    "Verif.Tracking.join_reuse_wrong",
    "Verif.Tracking.join_link_wrong",
    "Verif.Tracking.join_end_wrong",
    "Verif.Tracking.join_virtual_wrong"
   ],
   "note": "Links and tracks: for trackings without virtual observations which share at least two datasets. Refuted: the next number can be the one of an ended track (then reused), nb_link_max is not updated so that save raises, a junction on the first dataset of the second tracking uses its last table, tracks lost before the junction are not resumed."
  },
  {
   "property": "C158",
   "status": "partial",
   "theorems": [
    "Verif.Tracks.direction_partial",
    "Verif.Tracks.inWay_spec",
    "Verif.Tracks.goes_exclusive",
    "Verif.Tracks.goes_some",
    "Verif.Tracks.goes_irrefl",
    "Verif.Tracks.direction_single_zero",
    "Verif.Tracks.direction_single_raises",
    "Verif.Tracks.direction_empty_raises"
   ],
   "note": "For sorted datasets of two observations or more. Refuted: a dataset of one observation of a track whose number is not zero, and an empty one, raise."
  },
  {
   "property": "C159",
   "status": "partial",
   "theorems": [
    "Verif.Tracks.box_partial",
    "Verif.Tracks.box_covers",
    "Verif.Tracks.insertionArgsort_stable",
    "Verif.Tracks.box_turn_wrong"
   ],
   "note": "For all datasets and positive resolutions, the sort of numpy being any stable one. Refuted: two positions which are the same after a turn of longitude are in different boxes."
  },
  {
   "property": "C160",
   "status": "partial",
   "theorems": [
    "Verif.Tracks.subsetter_partial",
    "Verif.Tracks.select_partial",
    "Verif.Tracks.select_total",
    "Verif.Tracks.full_path_both_wrong",
    "Verif.Tracks.length_cut_wrong",
    "Verif.Tracks.raw_period_wrong",
    "Verif.Tracks.resubset_wrong",
    "Verif.Tracks.direction_cut",
    "Verif.Tracks.empty_direction_raises"
   ],
   "note": "Whole command for files sorted by track, identifiers up to the largest one and areas of at most 360 degrees. Refuted: --full_path with a period and an area keeps tracks without an observation selected by both; lengths are those before the period; without --no_raw_mode the bounds are not days; a file written with --sort_time gives other rows when subset again; an empty selection raises with --direction."
  },
  {
   "property": "C161",
   "status": "partial",
   "theorems": [
    "Verif.Tracks.get_azimuth_spec",
    "Verif.Tracks.azimuth_partial",
    "Verif.Tracks.heads_unique",
    "Verif.Tracks.azimuth_wrong",
    "Verif.Tracks.poleward_partial",
    "Verif.Tracks.poleward_east_wrong",
    "Verif.Tracks.azimuth_equator",
    "Verif.Tracks.south_east_wrong"
   ],
   "note": "One value by track; the value is the bearing plus 90 degrees, so it never is the bearing; the sign is right for all tracks toward the west and does not depend on the latitudes for tracks toward the east."
  },
  {
   "property": "C162",
   "status": "partial",
   "theorems": [
    "Verif.Tracks.iter_track_partial",
    "Verif.Tracks.track_slice_spec",
    "Verif.Tracks.iter_track_all",
    "Verif.Tracks.nb_tracks_spec",
    "Verif.Tracks.lifetime_partial",
    "Verif.Tracks.age_partial",
    "Verif.Tracks.iter_empty_raises",
    "Verif.Tracks.lifetime_order_wrong",
    "Verif.Tracks.age_single_nan",
    "Verif.Tracks.age_part_wrong"
   ],
   "note": "For non-empty datasets where the tracks are contiguous (sorted for lifetime and age). Refuted: empty datasets raise, lifetime when tracks are not by increasing number, age of tracks of one observation or of parts of tracks."
  },
  {
   "property": "C163",
   "status": "partial",
   "theorems": [
    "Verif.Fields.load_partial",
    "Verif.Fields.load_all",
    "Verif.Fields.removed_wrong",
    "Verif.Fields.included_wrong",
    "Verif.Fields.included_unknown_raises"
   ],
   "note": "For readable files: names known, columns of the size of the file. Refuted: fields which the class always has are there, full of zeros, though they are removed or not asked; an unknown name raises."
  },
  {
   "property": "C164",
   "status": "partial",
   "theorems": [
    "Verif.Pixels.interp_grid_partial",
    "Verif.Pixels.interp_grid_select",
    "Verif.Pixels.interp_grid_select_raises",
    "Verif.Pixels.interp_grid_turn",
    "Verif.Pixels.inside_pixels",
    "Verif.Pixels.statIn_expected",
    "Verif.Pixels.max_masked_wrong",
    "Verif.Pixels.max_empty_wrong"
   ],
   "note": "For contours placed in the grid. Refuted: max and min use the values under the mask, and give -1e40 and 1e40 without pixel."
  },
  {
   "property": "C165",
   "status": "partial",
   "theorems": [
    "Verif.Segments.nb_segment_spec",
    "Verif.Segments.segment_size_spec",
    "Verif.Segments.network_segment_size_spec",
    "Verif.Segments.network_segment_size_of_partial",
    "Verif.Segments.extract_segment_partial",
    "Verif.Segments.extract_segment_raises",
    "Verif.Segments.nb_segment_empty",
    "Verif.Segments.nb_segment_order_wrong",
    "Verif.Segments.network_segment_absent_wrong"
   ],
   "note": "For datasets in order (networks increasing, rows of a segment next to each other). Refuted: extract_segment raises with its default parameters, an empty dataset raises, a segment in two parts is counted twice, a number before the first network gives another network."
  },
  {
   "property": "C166",
   "status": "partial",
   "theorems": [
    "Verif.Store.translate_partial",
    "Verif.Store.rotation_file",
    "Verif.Store.value_kept",
    "Verif.Store.translate_unraw_value",
    "Verif.Store.raw_scale_wrong",
    "Verif.Store.unknown_raises",
    "Verif.Store.no_sample_raises"
   ],
   "note": "For files packed as this version does, in exact arithmetic. Refuted: without --unraw a netcdf packed with other scales changes its values; a variable which is not known raises; a netcdf without contours gives a zarr which cannot be read."
  },
  {
   "property": "C167",
   "status": "partial",
   "theorems": [
    "Verif.Fields.equal_iff",
    "Verif.Fields.equal_raw_iff",
    "Verif.Fields.equal_copy_partial",
    "Verif.Fields.astype_spec",
    "Verif.Fields.astype_back",
    "Verif.Fields.nan_wrong",
    "Verif.Fields.field_order_wrong"
   ],
   "note": "Equality for all datasets of a class. Refuted: a dataset which holds nan is not equal to itself, nor datasets with the same fields in another order."
  },
  {
   "property": "C168",
   "status": "partial",
   "theorems": [
    "Verif.Tracking.final_partial",
    "Verif.Tracking.no_short_raises",
    "Verif.Tracking.no_long_wrong",
    "Verif.Tracking.final_filled_partial",
    "Verif.Tracking.time_zero_wrong",
    "Verif.Tracking.seam_wrong"
   ],
   "note": "When there are short and long tracks. Refuted: without short track it raises, without long track the long file holds the short tracks too; an observation of day 0 is taken as a virtual one; the virtual observations between 359 and 2 degrees are at 240 and 121."
  },
  {
   "property": "C169",
   "status": "partial",
   "theorems": [
    "Verif.Dates.identify_time_partial",
    "Verif.Dates.minutes_wrong",
    "Verif.Dates.hour_wrong"
   ],
   "note": "Round trip of the three formats for all dates. Refuted: a string with hours and minutes only is read with other minutes and seconds; with hours only, another day."
  },
  {
   "property": "C170",
   "status": "partial",
   "theorems": [
    "Verif.Segments.find_segments_relative_partial",
    "Verif.Segments.stopped_wrong"
   ],
   "note": "For datasets in order, stopped in the network of obs. Refuted: with stopped in another network, a segment with the same number in the network of obs is used, or it raises."
  },
  {
   "property": "C171",
   "status": "partial",
   "theorems": [
    "Verif.App.eddy_id_partial",
    "Verif.App.unregular_raises",
    "Verif.App.one_none_wrong",
    "Verif.App.name_wrong"
   ],
   "note": "For regular grids and ideal filters. Refuted: --unregular raises with the default cut, one None among u and v raises, heights named u are replaced by the velocity."
  },
  {
   "property": "C172",
   "status": "partial",
   "theorems": [
    "Verif.Identify.run_compare_partial",
    "Verif.Identify.holds_self",
    "Verif.Identify.run_compare_le",
    "Verif.Identify.alone_wrong",
    "Verif.Identify.all_alone_raises"
   ],
   "note": "When sizes decrease somewhere, for the statistics on networks (segments are not modelled). Refuted: networks of one observation are never found, and a file which has no other raises."
  },
  {
   "property": "C173",
   "status": "partial",
   "theorems": [
    "Verif.Boxes.count_grid_range_partial",
    "Verif.Boxes.last_step_lost",
    "Verif.Boxes.global_range_wrong"
   ],
   "note": "Between start and the last edge below stop. Refuted for each range: arange leaves out stop, the last step of the range is in no cell (179..180 degrees for a grid of the Earth)."
  },
  {
   "property": "C174",
   "status": "partial",
   "theorems": [
    "Verif.Links.extract_light_partial",
    "Verif.Links.light_links_wrong",
    "Verif.Links.light_one_link_wrong",
    "Verif.Links.light_unknown_raises",
    "Verif.Links.light_not_asked"
   ],
   "note": "When both links are asked. Refuted: without them each observation is linked with the first one; with one of them the numbers are those of the whole network; another field raises."
  },
  {
   "property": "C175",
   "status": "partial",
   "theorems": [
    "Verif.Anim.show_partial",
    "Verif.Anim.show_first_day_wrong",
    "Verif.Anim.mp4_last_day_wrong",
    "Verif.Anim.gap_width_wrong",
    "Verif.Anim.left_partial",
    "Verif.Anim.left_no_color_raises",
    "Verif.Anim.left_gap_wrong"
   ],
   "note": "When each day has an observation. Refuted: the first day is never shown, nor the last one in a film; after days without observation contours older than keep_step stay with a negative width, and the left key removes contours of another day; without field of color it raises."
  },
  {
   "property": "C176",
   "status": "partial",
   "theorems": [
    "Verif.Gui.period_partial",
    "Verif.Gui.period_wrong",
    "Verif.Gui.home_end",
    "Verif.Gui.up_down",
    "Verif.Gui.day_leaves_period",
    "Verif.Gui.indexs_spec",
    "Verif.Gui.med_wrong",
    "Verif.Gui.endPan_spec",
    "Verif.Gui.touch_partial",
    "Verif.Gui.touch_wrong",
    "Verif.Gui.labels_all",
    "Verif.Gui.labels_spec"
   ],
   "note": "Refuted: datasets which end before 1950 give a period which ends in 1950, keys leave the period, longitudes are not taken on the circle, the eddy under the mouse is another one when contours have not 50 points."
  },
  {
   "property": "C177",
   "status": "partial",
   "theorems": [
    "Verif.Segmentation.median_most",
    "Verif.Segmentation.split_dates_partial",
    "Verif.Segmentation.split_dates_kept",
    "Verif.Segmentation.dates_early_wrong",
    "Verif.Segmentation.window_days_wrong",
    "Verif.Segmentation.around_1950_wrong",
    "Verif.Segmentation.irregular_wrong"
   ],
   "note": "For a regular sampling. Refuted: the field time is early by the remainder of the dates modulo the step, the window is a number of steps, dates around 1950 and irregular dates share a step."
  },
  {
   "property": "C178",
   "status": "partial",
   "theorems": [
    "Verif.PathCache.cache_partial",
    "Verif.PathCache.two_grids_wrong",
    "Verif.PathCache.vertices_changed_wrong",
    "Verif.PathCache.unknown_method"
   ],
   "note": "With one grid. Refuted: with a second grid the pixels are those of the first one, with new vertices the circle is the one of the former ones."
  },
  {
   "property": "C179",
   "status": "partial",
   "theorems": [
    "Verif.Dates.datetime64_partial",
    "Verif.Dates.shownDay_partial",
    "Verif.Dates.days_order",
    "Verif.Dates.before_1970_wrong",
    "Verif.Dates.period_partial",
    "Verif.Dates.period_empty",
    "Verif.Dates.period_kept_wrong"
   ],
   "note": "From 1970 (1950 for titles and attributes) or at midnight. Refuted: before, with hours, the day is the next one; period is kept when times are modified."
  },
  {
   "property": "C180",
   "status": "partial",
   "theorems": [
    "Verif.Options.options_partial",
    "Verif.Options.unraw_wrong",
    "Verif.Options.null_key_wrong",
    "Verif.Options.null_out_wrong"
   ],
   "note": "Without empty key in the file. Refuted: --unraw does the opposite of its help; an empty key is not the default value."
  },
  {
   "property": "C181",
   "status": "partial",
   "theorems": [
    "Verif.Tracking.packed_final_partial",
    "Verif.Tracking.virtual_contour_wrong",
    "Verif.Tracking.contour_kept",
    "Verif.Tracking.raw_not_nearest"
   ],
   "note": "For the values, when no observation is at the time 0. Refuted: the contours of virtual observations are points at 180E (packed) or 0E on the equator; packed values are not the nearest ones."
  },
  {
   "property": "C182",
   "status": "partial",
   "theorems": [
    "Verif.Store.load_netcdf_units",
    "Verif.Store.load_zarr_units",
    "Verif.Store.load_own_units",
    "Verif.Store.load_no_unit",
    "Verif.Store.load_other_dimension",
    "Verif.Store.load_unknown",
    "Verif.Store.raw_units_wrong",
    "Verif.Store.dates_wrong"
   ],
   "note": "Proved for known units of the same dimension, netcdf values and zarr values raw or not; another dimension raises. Refuted: raw numbers of a netcdf are taken without their unit nor packing; with a unit which pint does not know the values are taken as they are, so dates from another origin than 1950 are wrong."
  },
  {
   "property": "C183",
   "status": "partial",
   "theorems": [
    "Verif.Ring.add_circle_partial",
    "Verif.Ring.add_circle_fields",
    "Verif.Ring.adds_circles_wrong"
   ],
   "note": "For files without arrays and files with the two contours. Refuted: in a file with arrays the missing contours are not added."
  },
  {
   "property": "C184",
   "status": "partial",
   "theorems": [
    "Verif.GridFile.Mem.from_heights_partial",
    "Verif.GridFile.Mem.first_call",
    "Verif.GridFile.Mem.kept_velocities",
    "Verif.GridFile.Mem.all_calls",
    "Verif.GridFile.Mem.changed_lost",
    "Verif.GridFile.Mem.second_field_wrong",
    "Verif.GridFile.Mem.filtered_wrong"
   ],
   "note": "For the first call and heights not changed in memory. Refuted: with velocities in memory they are used whatever the heights asked, and all calls on a grid give those of the first heights; heights changed in memory (filters) are lost by the call."
  },
  {
   "property": "C185",
   "status": "partial",
   "theorems": [
    "Verif.Tracks.mask_reuse_partial",
    "Verif.Tracks.mask_after",
    "Verif.Tracks.extract_rejected",
    "Verif.Tracks.mask_reuse_wrong"
   ],
   "note": "When none or all of the calls have full_path and reject_virtual. Refuted for mixed calls: these two options remove the virtual observations from the mask of the caller."
  },
  {
   "property": "C186",
   "status": "partial",
   "theorems": [
    "Verif.Lines.filled_shape_partial",
    "Verif.Lines.filled_vertices",
    "Verif.Lines.filled_shape_wrong",
    "Verif.Lines.filled_colours",
    "Verif.Lines.filled_bounds",
    "Verif.Lines.filled_none_iff"
   ],
   "note": "Colours proved; shapes for the contours which do not cross the limit of the map. Refuted for the others, which are drawn through the whole map; equal values have no colour."
  },
  {
   "property": "C187",
   "status": "partial",
   "theorems": [
    "Verif.Events.timeline_partial",
    "Verif.Events.event_lines",
    "Verif.Events.scatter_partial",
    "Verif.Events.timeline_wrong",
    "Verif.Events.timeline_array_raises",
    "Verif.Events.scatter_wrong",
    "Verif.Events.scatter_factor",
    "Verif.Events.scatter_integer_wrong"
   ],
   "note": "Heights and lines proved for numbers of segments, named variables and, with the mean, arrays. Refuted: an array with method all raises at a splitting; in scatter_timeline without yfield the points are multiplied by yfactor, not the lines, and means of integers are cut."
  },
  {
   "property": "C188",
   "status": "partial",
   "theorems": [
    "Verif.Events.edges_partial",
    "Verif.Events.one_network",
    "Verif.Events.edges_none",
    "Verif.Events.edges_no_cycle",
    "Verif.Events.edges_wrong"
   ],
   "note": "For one network and when consecutive segments have different numbers. Refuted: the last segment of a network and the first one of the next network with the same number have the same colour."
  },
  {
   "property": "C189",
   "status": "partial",
   "theorems": [
    "Verif.Store.warns_iff",
    "Verif.Store.warns_older_partial",
    "Verif.Store.older_warned",
    "Verif.Store.own_files",
    "Verif.Store.no_version",
    "Verif.Store.warns_wrong"
   ],
   "note": "For final releases; older files are always reported. Refuted: a pre-release or development version reports its own files."
  },
  {
   "property": "C190",
   "status": "partial",
   "theorems": [
    "Verif.Tracks.report_distances_partial",
    "Verif.Tracks.report_sizes",
    "Verif.Tracks.report_lifetimes_partial",
    "Verif.Tracks.distances_wrong",
    "Verif.Tracks.lifetimes_long",
    "Verif.Tracks.lifetimes_wrong"
   ],
   "note": "Sizes for all datasets; distances when no number is missing, lifetimes when no track is longer than 10000 observations. Refuted: with a missing number a step is taken as an end of track; a longer track is in no class."
  },
  {
   "property": "C191",
   "status": "partial",
   "theorems": [
    "Verif.Lines.tracks_paths_partial",
    "Verif.Lines.network_paths_partial",
    "Verif.Lines.paths_wrong",
    "Verif.Lines.paths_wrong_unwrapped"
   ],
   "note": "When the longitudes of consecutive observations are at most 180 degrees apart as numbers. Refuted: a track which goes from 359 to 1 is drawn through the whole map, whatever the map."
  },
  {
   "property": "C192",
   "status": "partial",
   "theorems": [
    "Verif.Lines.display_partial",
    "Verif.Lines.contour_line_spec",
    "Verif.Lines.display_writes_outside"
   ],
   "note": "The lines for all contours. Refuted: flatten_line_matrix writes one cell after the end of its array as soon as there is an eddy (C41)."
  },
  {
   "property": "C193",
   "status": "proved",
   "theorems": [
    "Verif.Matching.obs_best",
    "Verif.Matching.tracking_order",
    "Verif.Matching.tracking_local",
    "Verif.Matching.tracking_reverse",
    "Verif.Matching.tracking_order_ties",
    "Verif.Trackers.default_links",
    "Verif.Trackers.default_tracking_local"
   ],
   "note": "For any mask and cost which work couple by couple; applied to the default tracker up to 80 degrees of latitude. With equal costs the first row wins (tracking_order_ties), which the statement excludes."
  },
  {
   "property": "C194",
   "status": "proved",
   "theorems": [
    "Verif.Links.extract_extract",
    "Verif.Links.extract_comm",
    "Verif.Links.extract_all"
   ],
   "note": "For valid links (those of every network built or extracted, C16)."
  },
  {
   "property": "C195",
   "status": "proved",
   "theorems": [
    "Verif.Trackers.default_turn",
    "Verif.Trackers.chelton_turn",
    "Verif.Trackers.area_turn"
   ],
   "note": "Default and Chelton trackers without restriction, the area tracker for contours together narrower than 180 degrees, as in the statement."
  },
  {
   "property": "C196",
   "status": "proved",
   "theorems": [
    "Verif.Trackers.match_symm",
    "Verif.Trackers.match_symm_p1"
   ],
   "note": "Areas are abstract: symmetric, coherent, and not changed by a turn. match_symm_p1 shows why p1_area is excluded."
  },
  {
   "property": "C197",
   "status": "proved",
   "theorems": [
    "Verif.Tracks.concat_steps"
   ],
   "note": "Datasets without observation raise (C26)."
  },
  {
   "property": "C198",
   "status": "partial",
   "theorems": [
    "Verif.Tracks.merge_partial",
    "Verif.Tracks.sorted_last",
    "Verif.Tracks.merge_wrong",
    "Verif.Tracks.merge_empty"
   ],
   "note": "Proved when the last row of the first dataset has the greatest number, in particular in the order of tracks. Refuted otherwise: merge takes the last number instead of the greatest."
  },
  {
   "property": "C199",
   "status": "proved",
   "theorems": [
    "Verif.Segmentation.split_append",
    "Verif.Segmentation.split_shift",
    "Verif.Segmentation.split_dates_shift",
    "Verif.Segmentation.split_step_of_file"
   ],
   "note": "The time step is an argument in the statement: split_step_of_file shows that the one computed from the dates (C177) is the median of the whole file, so it is not a matter of one network."
  },
  {
   "property": "C200",
   "status": "proved",
   "theorems": [
    "Verif.Tracks.length_length",
    "Verif.Tracks.length_comm",
    "Verif.Tracks.length_twice",
    "Verif.Tracks.normalize_twice",
    "Verif.Tracks.normalize_select",
    "Verif.Tracks.length_normalize"
   ],
   "note": "For datasets in the order of tracks."
  },
  {
   "property": "C201",
   "status": "proved",
   "theorems": [
    "Verif.Advect.advect_turn",
    "Verif.Advect.advectRk4_turn",
    "Verif.Advect.advectT_turn",
    "Verif.Advect.advectTRk4_turn"
   ],
   "note": "Exact rationals; no hypothesis on the particles."
  },
  {
   "property": "C202",
   "status": "proved",
   "theorems": [
    "Verif.Advect.advect_steady",
    "Verif.Advect.advectRk4_steady",
    "Verif.Advect.advect_uniform",
    "Verif.Advect.there_and_back"
   ],
   "note": "Particles are not in the cell which stands for the empty cache (C44); always so on a circular grid."
  },
  {
   "property": "C203",
   "status": "proved",
   "theorems": [
    "Verif.Circle.fit_writing",
    "Verif.Circle.error_writing",
    "Verif.Circle.full_writing",
    "Verif.Circle.path_writing",
    "Verif.Circle.path_shift"
   ],
   "note": "Exact reals; the least squares of numpy are those of C99. Contours which are not flat."
  },
  {
   "property": "C204",
   "status": "proved",
   "theorems": [
    "Verif.Trackers.area_tracking_local",
    "Verif.Trackers.area_tracking_alone"
   ],
   "note": "No hypothesis on the shapes nor on the areas; distinct costs, as equal ones are decided by the order of the rows."
  },
  {
   "property": "C205",
   "status": "proved",
   "theorems": [
    "Verif.Boxes.count_append",
    "Verif.Boxes.maps_same",
    "Verif.Boxes.stat_append",
    "Verif.Pixels.contour_count_append",
    "Verif.Pixels.contour_count_same"
   ],
   "note": "Exact rationals: the sums of the code are of 64-bit floats for the means."
  },
  {
   "property": "C206",
   "status": "proved",
   "theorems": [
    "Verif.Grouping.networks_grow",
    "Verif.Grouping.networks_longer",
    "Verif.Grouping.networks_part",
    "Verif.Grouping.networks_reverse"
   ],
   "note": "For narrow contours, as in C91."
  },
  {
   "property": "C207",
   "status": "proved",
   "theorems": [
    "Verif.Events.Renumbers.unique",
    "Verif.Events.Renumbers.trans",
    "Verif.Events.new_numbering_again",
    "Verif.Events.numbering_segment_again",
    "Verif.Links.take_all",
    "Verif.Links.sort_again"
   ],
   "note": "The order is one of the fields other than the links: the links themselves are renumbered by the sort."
  },
  {
   "property": "C208",
   "status": "proved",
   "theorems": [
    "Verif.Tracking.track_rel",
    "Verif.Tracking.tracks_rel",
    "Verif.Trackers.default_run_turn",
    "Verif.Trackers.chelton_run_turn",
    "Verif.Trackers.area_run_turn"
   ],
   "note": "Exact numbers: the packing of positions in files is C87. An exception of the tracker is raised by the same steps (C195)."
  },
  {
   "property": "C209",
   "status": "proved",
   "theorems": [
    "Verif.Trackers.links_seen",
    "Verif.Trackers.default_run_seen",
    "Verif.Trackers.seen_then"
   ],
   "note": "Exact reals."
  },
  {
   "property": "C210",
   "status": "proved",
   "theorems": [
    "Verif.Missing.insert_remove",
    "Verif.Missing.insert_remove_real",
    "Verif.Missing.insert_units"
   ],
   "note": "Exact rationals, as C28."
  },
  {
   "property": "C211",
   "status": "proved",
   "theorems": [
    "Verif.Stats.hist_perm",
    "Verif.Stats.bins_stat_perm",
    "Verif.Stats.hist_append",
    "Verif.Stats.hist_mean_append",
    "Verif.Stats.sums_scale",
    "Verif.Stats.bins_finer"
   ],
   "note": "Exact rationals, as C122."
  },
  {
   "property": "C212",
   "status": "proved",
   "theorems": [
    "Verif.Fields.interp_linear",
    "Verif.Fields.interp_offset",
    "Verif.Fields.collection_linear",
    "Verif.Fields.stencil_linear",
    "Verif.Fields.finite_linear",
    "Verif.Fields.velocities_linear"
   ],
   "note": "Exact rationals. The variables of compute_stencil which are not set in a line are combined too; C226 is for separate calls, and border_combine_wrong shows that at the borders this condition is needed."
  },
  {
   "property": "C213",
   "status": "proved",
   "theorems": [
    "Verif.Tracking.Region.track_region",
    "Verif.Tracking.Region.same_track",
    "Verif.Tracking.Region.numbers_filled"
   ],
   "note": "The tracker is a parameter; that the trackers link locally between two dates is C193 and C204."
  },
  {
   "property": "C214",
   "status": "proved",
   "theorems": [
    "Verif.Trackers.default_local_at",
    "Verif.Trackers.default_region",
    "Verif.Trackers.area_local_at",
    "Verif.Trackers.area_region"
   ],
   "note": "Exact reals for the default tracker, areas as a parameter for the tracker by area, as C193, C204 and C213."
  },
  {
   "property": "C215",
   "status": "proved",
   "theorems": [
    "Verif.Trackers.chelton_links",
    "Verif.Trackers.chelton_order",
    "Verif.Trackers.chelton_local_at",
    "Verif.Trackers.chelton_region",
    "Verif.Trackers.chelton_empty_wrong",
    "Verif.Matching.chelton_exact"
   ],
   "note": "Exact reals for distances, as C107. chelton_empty_wrong is the exception of the statement."
  },
  {
   "property": "C216",
   "status": "proved",
   "theorems": [
    "Verif.Tracking.Order.track_order",
    "Verif.Trackers.default_free",
    "Verif.Trackers.default_order",
    "Verif.Trackers.area_free",
    "Verif.Trackers.area_order",
    "Verif.Trackers.chelton_free",
    "Verif.Trackers.chelton_track_order",
    "Verif.Trackers.area_ties_wrong"
   ],
   "note": "Exact costs, as C193, C204, C215. area_ties_wrong shows that the condition on ties is needed."
  },
  {
   "property": "C217",
   "status": "proved",
   "theorems": [
    "Verif.Tracking.Order.merge_order",
    "Verif.Tracking.Order.sizes_order",
    "Verif.Trackers.default_merge_order",
    "Verif.Trackers.area_merge_order",
    "Verif.Trackers.chelton_merge_order",
    "Verif.Trackers.area_merge_ties_wrong"
   ],
   "note": "Exact costs, as C216. area_merge_ties_wrong shows that the condition on ties is needed."
  },
  {
   "property": "C218",
   "status": "proved",
   "theorems": [
    "Verif.Tracking.Order.final_order",
    "Verif.Trackers.default_final_order",
    "Verif.Trackers.area_final_order",
    "Verif.Trackers.chelton_final_order",
    "Verif.Trackers.area_final_ties_wrong"
   ],
   "note": "The files before the interpolation of the rows of lost observations (C168). Exact costs, as C216. area_final_ties_wrong shows that the condition on ties is needed."
  },
  {
   "property": "C219",
   "status": "proved",
   "theorems": [
    "Verif.Tracking.Order.filled_order",
    "Verif.Tracking.Order.time_zero_order_wrong",
    "Verif.Trackers.default_filled_order",
    "Verif.Trackers.area_filled_order",
    "Verif.Trackers.chelton_filled_order"
   ],
   "note": "Exact values; contours are not interpolated (C168). time_zero_order_wrong shows that the condition on the time is needed."
  },
  {
   "property": "C220",
   "status": "proved",
   "theorems": [
    "Verif.Spectrum.spectrum_field",
    "Verif.Spectrum.spectrum_distance",
    "Verif.Spectrum.reference_field",
    "Verif.Spectrum.reference_distance",
    "Verif.Spectrum.reference_spectrum",
    "Verif.Spectrum.reference_spectrum_wrong"
   ],
   "note": "What scipy's welch does with other units (Quadratic, Density) is a hypothesis, met by powerWelch. Exact values; frequencies instead of wavelengths."
  },
  {
   "property": "C221",
   "status": "proved",
   "theorems": [
    "Verif.Spectrum.spectrum_lines",
    "Verif.Spectrum.spectrum_columns",
    "Verif.Spectrum.reference_lines"
   ],
   "note": "Exact values: the sums of floats may differ by rounding. What scipy's welch gives (Sampled) is a hypothesis, met by powerWelch."
  },
  {
   "property": "C222",
   "status": "proved",
   "theorems": [
    "Verif.Smooth.median_units",
    "Verif.Smooth.loess_units",
    "Verif.Smooth.median_reversed",
    "Verif.Smooth.loess_reversed",
    "Verif.Smooth.position_units",
    "Verif.Smooth.position_reversed",
    "Verif.Smooth.network_units"
   ],
   "note": "Exact rationals. Longitudes are shifted without wrapping (C154 shows what happens at the limit of longitudes)."
  },
  {
   "property": "C223",
   "status": "proved",
   "theorems": [
    "Verif.Stats.resample_units",
    "Verif.Stats.resample_reversed"
   ],
   "note": "Exact rationals, numpy.interp is modelled."
  },
  {
   "property": "C224",
   "status": "proved",
   "theorems": [
    "Verif.Stencil.stencil_mirror",
    "Verif.Stencil.stencil_turned",
    "Verif.Stencil.finite_mirror",
    "Verif.Stencil.border_mirror_wrong"
   ],
   "note": "Exact rationals, one line of the grid with its factor of distance. border_mirror_wrong shows that the borders of grids which are not circular are not symmetric."
  },
  {
   "property": "C225",
   "status": "proved",
   "theorems": [
    "Verif.Geos.add_uv_east_west",
    "Verif.Geos.add_uv_south",
    "Verif.Geos.add_uv_turned"
   ],
   "note": "Exact rationals; the sines and cosines of the latitudes are inputs, the other hemisphere has the same cosines and the opposite sines."
  },
  {
   "property": "C226",
   "status": "proved",
   "theorems": [
    "Verif.Geos.line_combine",
    "Verif.Geos.add_uv_combine",
    "Verif.Geos.combine_masks_needed",
    "Verif.Geos.border_combine_wrong"
   ],
   "note": "Exact rationals, cells whose stencil is in the domain. combine_masks_needed shows that the same mask is needed, border_combine_wrong that the cells must not be at the border."
  }
 ]
}