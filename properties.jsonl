{"id": "C01", "title": "Frame-to-frame association is one-to-one and drawn from the candidates", "statement": "Whatever cost matrix with masked (forbidden) entries is given, solve_simultaneous returns pairs (i, j) in which no row i and no column j occurs twice, and every returned pair is an unmasked entry of the matrix.", "quantifier": "all matrix shapes, all mask patterns, all finite costs", "why_tests_cant": "The number of mask patterns is exponential in the matrix size and conflicts chain through rows and columns; samples only exercise a few chain shapes.", "anchors": ["src/py_eddy_tracker/observations/observation.py:1405-1464 solve_simultaneous"]}
{"id": "C02", "title": "Frame-to-frame association is greedy-stable and maximal", "statement": "Every candidate pair that solve_simultaneous does not return shares its row or its column with a returned pair whose cost is not larger; in particular no further candidate can be added to the result.", "quantifier": "all matrix shapes, mask patterns and finite costs", "why_tests_cant": "Optimality claims compare the output with every rejected candidate of every matrix.", "anchors": ["src/py_eddy_tracker/observations/observation.py:1405-1464 solve_simultaneous", "src/py_eddy_tracker/observations/observation.py:2636-2650 sum_row_column"]}
{"id": "C03", "title": "First-come association keeps the cheapest candidate of each observation", "statement": "With multiple_link=True solve_first links each observation that has a candidate to exactly one, a cheapest one; with multiple_link=False the result is one-to-one and rows are served in order: a candidate is lost only if its target is taken by an earlier row or its row has a link that is not more expensive.", "quantifier": "all matrices, masks and both values of multiple_link", "why_tests_cant": "Tie handling and contested columns depend on global matrix content.", "anchors": ["src/py_eddy_tracker/observations/observation.py:1467-1514 solve_first"]}
{"id": "C04", "title": "Chelton tracker resolves shared targets by amplitude", "statement": "After post_process_link every target that had at least one link has exactly one, the retained source has the largest amplitude among the sources linked to it, and the result is one-to-one when the incoming sources are distinct.", "quantifier": "all link lists and amplitude arrays", "why_tests_cant": "Arbitrary sharing patterns.", "anchors": ["src/py_eddy_tracker/featured_tracking/old_tracker_reference.py:56-76 CheltonTracker.solve_function/post_process_link"]}
{"id": "C05", "title": "Comparison groups partition each dataset", "statement": "In the EddyQuickCompare grouping, every observation of each dataset falls in exactly one of nomatch / low / intermediate / high / multi_match when low <= high, and every multi_match observation in exactly one of parent / twin / complex.", "quantifier": "all link lists, scores and thresholds low <= high", "why_tests_cant": "Exhaustive and disjoint classification over all bipartite link graphs.", "anchors": ["src/py_eddy_tracker/appli/eddies.py:384-449 get_group"]}
{"id": "C06", "title": "Track identifiers are unique per time step and never recycled", "statement": "During tracking, the identifiers attached to the links of one time step are pairwise distinct, and an identifier issued to a new track was never used at any earlier step.", "quantifier": "all histories of detected/linked observations, with or without virtual extension", "why_tests_cant": "The invariant spans arbitrarily long histories.", "anchors": ["src/py_eddy_tracker/tracking.py:215-288 store_correspondance/id_generator", "src/py_eddy_tracker/tracking.py:365-403 track"]}
{"id": "C07", "title": "Merged tracks contain each linked observation exactly once, in time order", "statement": "The table produced by Correspondances.merge has as many rows as the per-track counts, each track occupies a contiguous block, the blocks are disjoint and cover the table, and inside a block row k is the k-th observation of the track in time.", "quantifier": "all correspondence histories", "why_tests_cant": "Index arithmetic over all histories; off-by-one would only appear on specific link chains.", "anchors": ["src/py_eddy_tracker/tracking.py:567-587 prepare_merging", "src/py_eddy_tracker/tracking.py:632-722 merge"]}
{"id": "C08", "title": "longer_than / shorter_than split the tracks exactly by size", "statement": "longer_than keeps exactly the tracks having at least size_min observations, shorter_than exactly those having fewer than size_max, with every link of a kept track preserved in order and identifiers renumbered injectively; a call with no qualifying track must not fail.", "quantifier": "all correspondence histories and thresholds", "why_tests_cant": "Thresholds against all histories; the empty selection is easy to miss.", "anchors": ["src/py_eddy_tracker/tracking.py:589-630 longer_than/shorter_than", "src/py_eddy_tracker/appli/eddies.py:299-381 track"]}
{"id": "C09", "title": "Used and unused observations partition each dataset", "statement": "get_unused_data returns exactly the observations of each time step that occur in no correspondence, so tracked and untracked observations partition every dataset.", "quantifier": "all histories and dataset sizes", "why_tests_cant": "Set equality across two adjacent link tables for each step.", "anchors": ["src/py_eddy_tracker/tracking.py:724-755 get_unused_data"]}
{"id": "C10", "title": "Virtual continuation is bounded", "statement": "An eddy that is no longer detected is continued virtually for at most nb_virtual consecutive steps and never resumes with the same identifier after a longer gap.", "quantifier": "all histories and all nb_virtual", "why_tests_cant": "Bound over arbitrarily long histories.", "anchors": ["src/py_eddy_tracker/tracking.py:290-333 recense_dead_id_to_extend", "src/py_eddy_tracker/tracking.py:215-278 store_correspondance"]}
{"id": "C11", "title": "Resuming from a saved correspondence equals an uninterrupted run", "statement": "Saving correspondences after any prefix of the datasets, loading them and tracking the remaining datasets yields the same links, identifiers and counts as tracking all datasets at once.", "quantifier": "all histories and all cut points", "why_tests_cant": "Cut point x history; the state has to be complete.", "anchors": ["src/py_eddy_tracker/tracking.py:335-363 load_state", "src/py_eddy_tracker/tracking.py:405-558 to_netcdf/from_netcdf"]}
{"id": "C12", "title": "Group translation computes connected components", "statement": "group_translator(nb, pairs) gives two elements the same label if and only if they are connected through the given pairs, whatever the order of the pairs.", "quantifier": "all nb and all pair sequences", "why_tests_cant": "Equivalence closure of arbitrary pair sequences; tests use four sequences.", "anchors": ["src/py_eddy_tracker/observations/network.py:2006-2023 group_translator", "tests/test_network.py"]}
{"id": "C13", "title": "Network building groups observations exactly by connectivity", "statement": "Labels returned by Network group building are equal and non-zero exactly for observations connected by a chain of overlaps, and zero exactly for observations without any overlap.", "quantifier": "all sequences of overlap pairs in processing order", "why_tests_cant": "The incremental union with later translation must be right for every order.", "anchors": ["src/py_eddy_tracker/observations/network.py:1969-2003 get_group_array", "src/py_eddy_tracker/observations/network.py:2204-2210 apply_replace"]}
{"id": "C14", "title": "dissociate_network / tag_segment yield connected components", "statement": "tag_segment gives two segments the same tag iff they are connected through the segment connexions; every segment gets a tag and tags are consecutive from 1.", "quantifier": "all finite connexion maps", "why_tests_cant": "DFS over all graphs.", "anchors": ["src/py_eddy_tracker/observations/network.py:1356-1399 __tag_segment/tag_segment", "src/py_eddy_tracker/observations/network.py:1225-1233 dissociate_network", "src/py_eddy_tracker/observations/network.py:528-563 connexions"]}
{"id": "C15", "title": "Relative order is the graph distance", "statement": "segment_relative_order gives each segment the minimal number of segment-to-segment links from the starting segment, and -1 exactly when unreachable; relatives(order) keeps exactly the segments within that distance.", "quantifier": "all graphs, start segments and orders", "why_tests_cant": "Shortest-path claims over all graphs.", "anchors": ["src/py_eddy_tracker/observations/network.py:566-594 __close_segment/segment_relative_order", "src/py_eddy_tracker/observations/network.py:596-656 relatives"]}
{"id": "C16", "title": "Extraction preserves the network links", "statement": "After extract_with_mask, each kept observation's next_obs / previous_obs points to the image of its former target when that target was kept and is -1 otherwise; no pointer dangles.", "quantifier": "all networks and masks", "why_tests_cant": "Every pointer of every mask.", "anchors": ["src/py_eddy_tracker/observations/network.py:1605-1637 extract_with_mask"]}
{"id": "C17", "title": "Sorting a network preserves the link graph", "statement": "sort reorders the observations and rewrites next/previous indices so that the graph of observations is unchanged up to the permutation.", "quantifier": "all networks, all sort permutations", "why_tests_cant": "Requires inverse-permutation reasoning for arbitrary permutations.", "anchors": ["src/py_eddy_tracker/observations/network.py:409-427 sort"]}
{"id": "C18", "title": "remove_dead_end leaves no dangling pointer and removes only dead ends", "statement": "remove_dead_end keeps exactly the observations of segments that are long enough, or have at least two neighbours, or are protected by the mask; the result is a network with no pointer to a removed observation; recursion reapplies the same protection.", "quantifier": "all networks, thresholds, recursion depths and masks", "why_tests_cant": "The recursion changes the network each round.", "anchors": ["src/py_eddy_tracker/observations/network.py:1455-1497 remove_dead_end", "src/py_eddy_tracker/observations/network.py:1679 analysis_coherence", "src/py_eddy_tracker/appli/network.py:149 subset_network"]}
{"id": "C19", "title": "find_link returns exactly the reachable observations", "statement": "find_link with forward and/or backward returns every observation reachable from the selected ones in the requested directions, and no other.", "quantifier": "all networks, starting sets and direction flags", "why_tests_cant": "Reachability over all graphs.", "anchors": ["src/py_eddy_tracker/observations/network.py:433-526 find_link", "src/py_eddy_tracker/observations/network.py:2301-2318 mask_follow_obs"]}
{"id": "C20", "title": "Segmentation gives every observation one segment with at most one observation per time", "statement": "After split_network / set_tracks every observation carries a segment number >= 1, each segment has at most one observation per time step, and chaining always terminates.", "quantifier": "all groups of observations", "why_tests_cant": "Tail stealing makes segment shapes history dependent.", "anchors": ["src/py_eddy_tracker/observations/tracking.py:607-793 split_network/set_tracks/follow_obs/get_previous_obs/get_next_obs"]}
{"id": "C21", "title": "The dataset buffer is transparent", "statement": "Loading contours through the Network buffer returns the same data as loading from file, whatever the sequence of requests and evictions, and the buffer never holds more than buffersize + 1 datasets.", "quantifier": "all request sequences and buffer sizes", "why_tests_cant": "Cache histories are unbounded.", "anchors": ["src/py_eddy_tracker/observations/network.py:40-82 Buffer"]}
{"id": "C22", "title": "Track index slices are exact", "statement": "For a dataset sorted by track, index_from_track and nb_obs_by_track give for each track id the exact contiguous slice of its observations; ids without observation have an empty slice.", "quantifier": "all sorted track arrays", "why_tests_cant": "All gaps / boundary patterns of ids.", "anchors": ["src/py_eddy_tracker/observations/tracking.py:297-330 compute_index/count_by_track", "src/py_eddy_tracker/observations/tracking.py:797-812"]}
{"id": "C23", "title": "extract_with_mask(full_path) keeps whole tracks", "statement": "extract_with_mask with full_path keeps exactly the observations of tracks touched by the mask; with remove_incomplete exactly those of tracks entirely inside it; compress_id renumbers the kept tracks 1..k preserving order.", "quantifier": "all sorted track arrays and masks", "why_tests_cant": "All masks.", "anchors": ["src/py_eddy_tracker/observations/tracking.py:465-514 extract_with_mask"]}
{"id": "C24", "title": "distance_to_next is zero only at track ends", "statement": "distance_to_next gives for each observation the distance to the next observation of the same track and zero exactly at the last observation of each track, for any track numbering.", "quantifier": "all sorted track arrays (ids compact or not, starting at 0 or not)", "why_tests_cant": "The error appears only for specific numberings.", "anchors": ["src/py_eddy_tracker/observations/tracking.py:156-171 distance_to_next"]}
{"id": "C25", "title": "Longitude normalisation keeps tracks continuous modulo 360", "statement": "normalize_longitude leaves every longitude congruent modulo 360, puts all observations of a track within 180 degrees of its first observation and every contour point within 180 degrees of its centre.", "quantifier": "all real longitudes and track arrays", "why_tests_cant": "Real-valued domain.", "anchors": ["src/py_eddy_tracker/observations/tracking.py:173-199 normalize_longitude"]}
{"id": "C26", "title": "Concatenation keeps trajectories apart", "statement": "Concatenating tracked datasets never merges two trajectories of different inputs and never splits one: identifiers of different inputs are disjoint and within one input equal iff they were equal.", "quantifier": "all lists of tracked datasets", "why_tests_cant": "All numberings, including empty inputs.", "anchors": ["src/py_eddy_tracker/observations/tracking.py:316-327 concatenate"]}
{"id": "C27", "title": "Group index is a faithful inverse", "statement": "build_index on a nondecreasing array returns for every group value in range the exact half-open slice where that value occurs.", "quantifier": "all nondecreasing integer arrays", "why_tests_cant": "All gap/boundary patterns.", "anchors": ["src/py_eddy_tracker/generic.py:66-92 build_index"]}
{"id": "C28", "title": "Missing-step insertion fills gaps exactly", "statement": "For tracks with regular time step dt, get_missing_indices inserts exactly as many rows as there are missing steps, at positions such that after insertion each track has consecutive steps, and inserts nothing elsewhere.", "quantifier": "all time/track arrays with gaps multiple of dt", "why_tests_cant": "All gap patterns.", "anchors": ["src/py_eddy_tracker/observations/groups.py:15-67 get_missing_indices", "src/py_eddy_tracker/observations/groups.py:305-328 insert_virtual"]}
{"id": "C29", "title": "Loess/median smoothing stays within the window of the track", "statement": "track_loess_filter and track_median_filter output at each observation a value between the minimum and maximum of the values of the same track within the half-window, and use every observation of that window.", "quantifier": "all sorted tracks, positions, values and windows", "why_tests_cant": "Window pointers move incrementally; misplacement depends on history.", "anchors": ["src/py_eddy_tracker/observations/tracking.py:820-892 track_loess_filter/track_median_filter"]}
{"id": "C30", "title": "merge_filters is a conjunction", "statement": "merge_filters of any filters (index arrays, masks, slices, callables, None) selects exactly the observations selected by every filter.", "quantifier": "all filter lists and dataset sizes", "why_tests_cant": "Pairwise combination table times all contents.", "anchors": ["src/py_eddy_tracker/observations/observation.py:1965-2049 __merge_filters__/merge_filters"]}
{"id": "C31", "title": "iter_on visits every in-range observation once, in its bin", "statement": "iter_on(x, bins) yields for each bin exactly the observations whose value lies in the bin; values outside all bins are in no yielded group.", "quantifier": "all value arrays (ordered or not) and bin edges", "why_tests_cant": "Two code paths depending on order of data.", "anchors": ["src/py_eddy_tracker/observations/observation.py:579-630 iter_on"]}
{"id": "C32", "title": "align_on pairs the bins of two datasets", "statement": "align_on yields, for each bin present in both datasets (or for each bin of the reference with all_ref), the exact groups of both datasets, without dropping or duplicating a bin.", "quantifier": "all pairs of datasets", "why_tests_cant": "Merge-join over all pairs of bin sequences.", "anchors": ["src/py_eddy_tracker/observations/observation.py:632-663 align_on"]}
{"id": "C33", "title": "grid_box_stat stores each box statistic in its own cell", "statement": "For data grouped by cell, each cell of the output holds the statistic of the values of that cell and every non-empty cell is filled.", "quantifier": "all groupings and value arrays", "why_tests_cant": "Boundary handling of the last group.", "anchors": ["src/py_eddy_tracker/observations/observation.py:2512-2560 grid_box_stat"]}
{"id": "C34", "title": "Counting on a grid conserves the number of observations", "statement": "grid_count with center adds exactly one to exactly one cell for each observation inside the bins; the sum of the grid is the number of observations inside.", "quantifier": "all positions and bins", "why_tests_cant": "All positions including bin edges.", "anchors": ["src/py_eddy_tracker/observations/observation.py:2219 grid_count", "src/py_eddy_tracker/observations/observation.py:2459-2508 grid_count_pixel_in"]}
{"id": "C35", "title": "A point outside the bounding box has winding number zero", "statement": "winding_number_poly returns 0 for every point strictly outside the bounding box of the polygon and its value does not depend on translation or on the repetition of the closing vertex.", "quantifier": "all polygons and points over an ordered field", "why_tests_cant": "Continuous domain, all polygon shapes.", "anchors": ["src/py_eddy_tracker/poly.py:198-229 winding_number_poly", "src/py_eddy_tracker/poly.py:17-47 is_left"]}
{"id": "C36", "title": "poly_indexs equals the brute-force containment search", "statement": "poly_indexs returns for each point the index of a contour containing it (the first one), or -1 when none contains it.", "quantifier": "all point sets and contour sets", "why_tests_cant": "Box pre-selection, grouping and wrap interplay.", "anchors": ["src/py_eddy_tracker/poly.py:882-959 group_obs/box_index/box_indexes/poly_indexs"]}
{"id": "C37", "title": "Polygon reduction keeps a subset of vertices of the requested size", "statement": "visvalingam(x, y, n) returns n points, each a vertex of the input in the original order with the last equal to the first, and it removes at each step a vertex of least triangle area.", "quantifier": "all closed polygons with more than n vertices", "why_tests_cant": "Heap with lazy deletion; invariants over all removal histories.", "anchors": ["src/py_eddy_tracker/poly.py:748-856 tri_area2/visvalingam"]}
{"id": "C38", "title": "reduce_size removes only padding", "statement": "reduce_size removes exactly the trailing repeated vertices of a padded closed contour and never fails.", "quantifier": "all contours, including degenerate ones", "why_tests_cant": "Degenerate constant contours.", "anchors": ["src/py_eddy_tracker/poly.py:860-878 reduce_size"]}
{"id": "C39", "title": "Convex hull construction terminates and returns vertices of the polygon", "statement": "get_convex_hull terminates on every closed polygon and its vertices form a subsequence of the input vertices starting and ending at the same vertex.", "quantifier": "all closed polygons", "why_tests_cant": "Termination.", "anchors": ["src/py_eddy_tracker/poly.py:120-194 convex/get_convex_hull"]}
{"id": "C40", "title": "wrap_longitude puts longitudes in the reference interval", "statement": "wrap_longitude(x, y, ref) returns longitudes congruent modulo 360 in [ref, ref+360); with cut=True a segment crossing the boundary is split by a nan separator and the points stay the same modulo 360.", "quantifier": "all contours and references", "why_tests_cant": "Real-valued; crossing patterns unbounded.", "anchors": ["src/py_eddy_tracker/generic.py:445-499 wrap_longitude"]}
{"id": "C41", "title": "flatten_line_matrix and split_line are inverse", "statement": "flatten_line_matrix concatenates all non-empty lines separated by single nans without writing outside its output; split_line recovers the lines.", "quantifier": "all matrices of lines", "why_tests_cant": "Memory safety of compiled code cannot be seen by value tests.", "anchors": ["src/py_eddy_tracker/generic.py:331-355 flatten_line_matrix", "src/py_eddy_tracker/generic.py:417-441 split_line"]}
{"id": "C42", "title": "simplify keeps at least one point per line and respects the precision", "statement": "simplify returns a subsequence of the input in which consecutive kept points of a line are separated by more than the precision, keeping the first point of each line; a non-empty line never vanishes.", "quantifier": "all contours with nan separators and precisions", "why_tests_cant": "All nan placements.", "anchors": ["src/py_eddy_tracker/generic.py:359-413 simplify"]}
{"id": "C43", "title": "window_index gives the exact window around each node", "statement": "For sorted x and x0, window_index returns for each node the exact slice of x within half_window, without reading outside the arrays.", "quantifier": "all sorted arrays and half windows", "why_tests_cant": "Memory safety plus exactness for all inputs.", "anchors": ["src/py_eddy_tracker/generic.py:619-656 window_index"]}
{"id": "C44", "title": "Advected particles do not influence each other", "statement": "The trajectory computed for one particle by advect / advect_t (Euler or RK4) depends only on its own position and the field: the interpolation cache shared between particles is unobservable.", "quantifier": "all fields, particle lists, orders", "why_tests_cant": "Cache hits depend on adjacency of all particles in the list.", "anchors": ["src/py_eddy_tracker/dataset/grid.py:2109-2251 advect_rk4/advect", "src/py_eddy_tracker/dataset/grid.py:2639-2891 advect_t/advect_t_rk4/get_uv_quad/interp_uv"]}
{"id": "C45", "title": "Particles outside the grid are lost, not teleported", "statement": "A particle whose position is outside the velocity grid gets nan and stays masked; velocity is never read from a cell that does not surround it.", "quantifier": "all positions and grids", "why_tests_cant": "Negative indices wrap silently.", "anchors": ["src/py_eddy_tracker/dataset/grid.py:2691-2742 get_uv_quad/get_grid_indices"]}
{"id": "C46", "title": "Finite differences are exact on polynomials", "statement": "compute_stencil with half width w differentiates polynomials of degree at most 2w exactly at interior unmasked cells, to the east-west orientation used by the library.", "quantifier": "all polynomials and grids", "why_tests_cant": "Universally quantified over fields.", "anchors": ["src/py_eddy_tracker/dataset/grid.py:2902-3013 compute_stencil", "src/py_eddy_tracker/dataset/grid.py:1673-1703 compute_finite_difference"]}
{"id": "C47", "title": "Finite differences never use masked or out-of-domain cells", "statement": "The value returned by compute_stencil at an unmasked output cell depends only on unmasked cells inside the domain.", "quantifier": "all fields, masks, circular or not", "why_tests_cant": "Non-interference property: needs all pairs of fields that agree on unmasked cells.", "anchors": ["src/py_eddy_tracker/dataset/grid.py:2902-3013 compute_stencil"]}
{"id": "C48", "title": "Pixel path is a connected path between its endpoints", "statement": "compute_pixel_path returns for each segment a path that starts at the first pixel, ends at the last one, has max(|dx|,|dy|)+1 pixels and whose consecutive pixels are neighbours.", "quantifier": "all pairs of pixels and grid sizes", "why_tests_cant": "All integer pairs.", "anchors": ["src/py_eddy_tracker/dataset/grid.py:2255-2320 compute_pixel_path"]}
{"id": "C49", "title": "Detected eddies do not overlap", "statement": "Two eddies returned by one eddy_identification call, whatever their signs, have disjoint sets of interior pixels, and no eddy contains an originally masked pixel.", "quantifier": "all contour sets and acceptance tests", "why_tests_cant": "Invariant over the processing order of all contours.", "anchors": ["src/py_eddy_tracker/dataset/grid.py:627-980 eddy_identification", "src/py_eddy_tracker/dataset/grid.py:2324-2336 has_masked_value/has_value"]}
{"id": "C50", "title": "The speed contour maximises the average speed", "statement": "get_uavg returns a contour whose mean speed is the maximum over the effective contour and the scanned nested contours of more than pixel_min pixels, when they all have a mean speed, and the returned level is that of the returned contour.", "quantifier": "all contour stacks", "why_tests_cant": "Index arithmetic over both scanning directions.", "anchors": ["src/py_eddy_tracker/dataset/grid.py:982-1043 get_uavg"]}
{"id": "C51", "title": "Time interpolation of a grid collection stays between bracketing grids", "statement": "GridCollection.advect interpolates velocities linearly between the two grids that bracket the current time (weights between 0 and 1).", "quantifier": "all start times, steps and grid times", "why_tests_cant": "Loop over arbitrary times.", "anchors": ["src/py_eddy_tracker/dataset/grid.py:2520-2613 GridCollection.advect/get_next_time_step/get_previous_time_step"]}
{"id": "C52", "title": "Filament history is a ring buffer of past positions", "statement": "In filament output slot k of each particle holds its position k outputs ago, with blocks separated by nan.", "quantifier": "all numbers of steps, particles and filament lengths", "why_tests_cant": "Histories.", "anchors": ["src/py_eddy_tracker/dataset/grid.py:2065-2105 filament", "src/py_eddy_tracker/dataset/grid.py:2437-2511 GridCollection.filament"]}
{"id": "C53", "title": "Amplitude acceptance is exact and sign symmetric", "statement": "all_pixels_below_h0 accepts exactly when all interior pixels are below the contour level with an admissible number of local extrema; all_pixels_above_h0 gives the mirrored verdict on the negated field.", "quantifier": "all fields, levels, limits", "why_tests_cant": "Quantifies over all fields.", "anchors": ["src/py_eddy_tracker/eddy_feature.py:111-201 Amplitude.all_pixels_below_h0/all_pixels_above_h0"]}
{"id": "C54", "title": "Position identification is an injective exact match", "statement": "identify_in / same_position links two networks only when they have exactly the same observations (time, longitude, latitude), never links one network of the other dataset twice, and leaves a network alone only when every equal network is already linked; every network of at least size_min observations is in the result.", "quantifier": "all pairs of datasets of networks, in any order of networks and observations", "why_tests_cant": "All duplicates patterns.", "anchors": ["src/py_eddy_tracker/observations/network.py:1272-1353 identify_in", "src/py_eddy_tracker/observations/network.py:2263-2297 same_position"]}
{"id": "C55", "title": "Best-two target statistics are the top two counts", "statement": "get_targets / get_matrix report for each observation the two targets with the largest particle percentages in decreasing order.", "quantifier": "all particle assignment arrays", "why_tests_cant": "All count distributions.", "anchors": ["src/py_eddy_tracker/observations/groups.py:184-267 get_targets/get_matrix"]}
{"id": "C56", "title": "add_distance stores the distances", "statement": "After add_distance the dataset has a distance_next field which holds distance_to_next() and every other field is unchanged.", "quantifier": "all track datasets", "why_tests_cant": "For all datasets, including those without the field.", "anchors": ["src/py_eddy_tracker/observations/tracking.py:148-154 add_distance"]}
{"id": "C57", "title": "extract_ids keeps exactly the listed tracks", "statement": "extract_ids returns, in their original order, exactly the observations whose track number is in the list, for any list of numbers.", "quantifier": "all datasets and all lists of numbers", "why_tests_cant": "Numba lookups without bounds checks; all lists.", "anchors": ["src/py_eddy_tracker/observations/tracking.py:295-298 extract_ids", "src/py_eddy_tracker/observations/tracking.py:362-364 get_mask_from_id", "src/py_eddy_tracker/observations/tracking.py:814-817 compute_mask_from_id"]}
{"id": "C58", "title": "extract_with_length keeps exactly the tracks whose length is in the bounds", "statement": "extract_with_length((a, b)) keeps whole tracks, exactly those with at least a and at most b observations, a bound -1 meaning no bound; at least one of them must be given.", "quantifier": "all datasets and bounds", "why_tests_cant": "All track lengths and bounds.", "anchors": ["src/py_eddy_tracker/observations/tracking.py:414-436 extract_with_length"]}
{"id": "C59", "title": "extract_toward_direction keeps exactly the tracks whose net displacement has the sign and size asked", "statement": "extract_toward_direction(west, delta_lon) keeps whole tracks, exactly those whose last longitude is west (or east) of the first one, by more than delta_lon when given.", "quantifier": "all datasets, both directions, all deltas", "why_tests_cant": "Sign conventions over all tracks.", "anchors": ["src/py_eddy_tracker/observations/tracking.py:366-385 extract_toward_direction"]}
{"id": "C60", "title": "Inserting virtual observations keeps the links of a network", "statement": "After insert_virtual on a network, next_obs and previous_obs of every observation designate the rows that hold its neighbours in the new numbering.", "quantifier": "all networks with gaps", "why_tests_cant": "All gap patterns and numberings.", "anchors": ["src/py_eddy_tracker/observations/groups.py:305-328 insert_virtual", "src/py_eddy_tracker/observations/network.py:86-103 fix_next_previous_obs"]}
{"id": "C61", "title": "grid_stat holds the mean of each cell", "statement": "The method grid_stat masks exactly the cells without observation, and each other cell holds the mean of the values of the observations whose position is in the cell.", "quantifier": "all datasets, values and bins", "why_tests_cant": "All positions, including those on the edges of the cells and beyond 360 degrees.", "anchors": ["src/py_eddy_tracker/observations/observation.py:2322-2365 grid_stat"]}
{"id": "C62", "title": "The convex hull is convex and encloses the polygon", "statement": "For a polygon without crossing edges described anticlockwise, get_convex_hull returns a convex polygon and every vertex of the input is on the left of (or on) each of its edges.", "quantifier": "all simple anticlockwise polygons", "why_tests_cant": "Continuous domain, all polygon shapes.", "anchors": ["src/py_eddy_tracker/poly.py:146-194 get_convex_hull"]}
{"id": "C63", "title": "iter_on with a moving window yields exactly the observations of each window", "statement": "iter_on(x, window=w, bins=nodes) with nodes in increasing order yields one group for each node, with the bounds node - w and node + w, and the group contains exactly the observations with node - w < value <= node + w, each once.", "quantifier": "all values, nodes in increasing order and half windows w >= 0", "why_tests_cant": "All values and overlaps of windows; the code reads after the end of the nodes.", "anchors": ["src/py_eddy_tracker/observations/observation.py:579-595 iter_on", "src/py_eddy_tracker/generic.py:619-656 window_index"]}
{"id": "C64", "title": "The contour found around a point is the nearest one", "statement": "get_index_nearest_path_bbox_contain_point returns None exactly when no contour of the level has a box that contains the point (longitudes modulo 360), and otherwise the contour that holds, among the contours whose box contains the point, the vertex nearest to the point.", "quantifier": "all levels, contours and points", "why_tests_cant": "All positions on the circle of longitudes; the search starts from a reference that may belong to a contour that is not a candidate.", "anchors": ["src/py_eddy_tracker/eddy_feature.py:538-571 get_index_nearest_path_bbox_contain_point", "src/py_eddy_tracker/eddy_feature.py:728-794 index_from_nearest_path_with_pt_in_bbox_"]}
{"id": "C65", "title": "The Runge-Kutta scheme is of order four", "statement": "With rk4=True, one step of advection in a steady field whose velocity is an affine function of the position moves a particle which is not lost, with its intermediate positions not south of the grid, to the Taylor polynomial of order four of the exact trajectory, whatever the cells crossed by the intermediate positions; with two layers in time the velocity used is exact for currents affine in space and in time, and in a current uniform in space and affine in time one step moves the particle by the velocity at the middle of the step.", "quantifier": "all affine velocity fields, positions and time steps", "why_tests_cant": "Continuous domain; a wrong coefficient of the scheme gives results that look the same on short tests.", "anchors": ["src/py_eddy_tracker/dataset/grid.py:2109-2186 advect_rk4", "src/py_eddy_tracker/dataset/grid.py:2768-2891 advect_t_rk4"]}
{"id": "C66", "title": "get_pixels_in returns exactly the pixels whose centre is in the contour", "statement": "RegularGridDataset.get_pixels_in(contour) returns each pixel of the grid whose centre has a non null winding number in the contour once, and no other pixel; on a circular grid, the longitudes are taken modulo 360.", "quantifier": "all regular grids and closed contours", "why_tests_cant": "All positions of contours, including those across the limits of the grid, and all windows computed by rounding.", "anchors": ["src/py_eddy_tracker/dataset/grid.py:1271-1288 get_pixels_in", "src/py_eddy_tracker/poly.py:707-745 get_pixel_in_regular", "src/py_eddy_tracker/generic.py:577-601 bbox_indice_regular"]}
{"id": "C67", "title": "grid_count gives the number of contours which contain each pixel", "statement": "grid_count(bins, intern, center=False) holds in each pixel the number of eddies whose contour, taken around the centre of the eddy, contains the centre of the pixel; the mean of a grid in a contour is the mean of its pixels which are not masked.", "quantifier": "all sets of eddies, contours in any turn of longitudes and grids", "why_tests_cant": "All positions, overlaps and turns of longitudes.", "anchors": ["src/py_eddy_tracker/observations/observation.py:2219-2273 grid_count", "src/py_eddy_tracker/observations/observation.py:2459-2508 grid_count_pixel_in", "src/py_eddy_tracker/observations/observation.py:2564-2614 grid_stat"]}
{"id": "C68", "title": "Births and deaths are exactly the ends of segments without link", "statement": "On a network whose network 0 is the trash (observations without link), birth_event gives exactly the first observations of the segments out of the trash which come from no observation, death_event exactly the last observations which go to no observation, and remove_trash removes exactly the trash.", "quantifier": "all networks with or without trash", "why_tests_cant": "All layouts of networks, segments and links; the test of the trash looks only at the first segment.", "anchors": ["src/py_eddy_tracker/observations/network.py:1128-1144 birth_event", "src/py_eddy_tracker/observations/network.py:1138-1144 death_event", "src/py_eddy_tracker/observations/network.py:1407-1423 first_is_trash, remove_trash"]}
{"id": "C69", "title": "Merging and splitting events are exactly the linked ends of segments", "statement": "merging_event(triplet=True) gives exactly one triplet for each segment whose last observation is linked to another observation: this observation, the target and the observation before the target, ordered by time of the target; splitting_event is its mirror; the version without triplet gives each target once.", "quantifier": "all networks and links", "why_tests_cant": "All link structures, including links toward an observation without past or future.", "anchors": ["src/py_eddy_tracker/observations/network.py:1148-1223 merging_event, splitting_event", "src/py_eddy_tracker/observations/network.py:1105-1119 extract_event"]}
{"id": "C70", "title": "mask_obs_close_event selects exactly the observations near the events", "statement": "mask_obs_close_event(merging, spliting, dt) selects exactly the observations which are reached along the links from a side of an event in less than dt days, and terminates.", "quantifier": "all networks with links along time, all events and durations", "why_tests_cant": "All paths of links of any length.", "anchors": ["src/py_eddy_tracker/observations/network.py:1874-1894 mask_obs_close_event", "src/py_eddy_tracker/observations/network.py:2301-2318 mask_follow_obs"]}
{"id": "C71", "title": "The new numbering is without gap and keeps the groups", "statement": "After numbering_segment(start), inside each network two observations have the same number exactly when they had the same number before, the order of the numbers is kept, and the numbers are start, start + 1, ... without gap; the same for numbering_network, and a network read by its new number gives its observations.", "quantifier": "all networks and starts", "why_tests_cant": "All layouts of numbers and gaps; the index of the networks may be cached before.", "anchors": ["src/py_eddy_tracker/observations/network.py:712-723 numbering_segment, numbering_network", "src/py_eddy_tracker/observations/network.py:2228-2236 new_numbering", "src/py_eddy_tracker/observations/network.py:180-184 index_network"]}
{"id": "C72", "title": "correct_close_events exchanges only the ends of segments which split and merge again", "statement": "correct_close_events(nb_days_max) changes the previous observation of an observation only toward the last observation of a segment linked to it; when a segment A splits from B and B merges into A in less than nb_days_max, the end of A becomes the end of B, A merges into B, and nothing else changes; no two observations of a segment have the same date after.", "quantifier": "all networks, any number and chaining of events", "why_tests_cant": "Chains of events, where the correction of one changes the segments seen by the next.", "anchors": ["src/py_eddy_tracker/observations/network.py:337-407 correct_close_events"]}
{"id": "C73", "title": "swap_track exchanges the short end of a segment and the long segment which splits from it", "statement": "swap_track exchanges the numbers of the end of a main segment and of a secondary segment exactly when the durations, the cost and the absence of future ask for it; no two observations of a segment have the same date after, and the links still go from an observation to the next one of its segment.", "quantifier": "all networks, any number of events on a segment", "why_tests_cant": "Several events on the same segment.", "anchors": ["src/py_eddy_tracker/observations/network.py:1896-1936 swap_track"]}
{"id": "C74", "title": "match gives exactly the couples of eddies which overlap", "statement": "match(other, cmin) gives each couple of eddies at most once, exactly the couples whose contours, moved by some whole turns, overlap with a score of at least cmin; the score is the ratio of the areas asked by the options, between 0 and 1, and symmetric without p1_area; match(method='close_center', delta) gives exactly the couples whose centres are at less than delta on the circle of longitudes.", "quantifier": "all datasets, contours, turns and options", "why_tests_cant": "All relative turns of the longitudes, contours across the limit of the turn, all options.", "anchors": ["src/py_eddy_tracker/observations/observation.py:1180-1235 match", "src/py_eddy_tracker/poly.py:262-289 close_center", "src/py_eddy_tracker/poly.py:314-350 bbox_intersection", "src/py_eddy_tracker/poly.py:391-407 get_wrap_vertice", "src/py_eddy_tracker/poly.py:437-500 vertice_overlap"]}
{"id": "C75", "title": "close_tracks keeps exactly the trajectories which meet the dataset often enough", "statement": "close_tracks(other, nb_obs_min) keeps exactly the trajectories of other with at least nb_obs_min couples of overlapping eddies at common dates.", "quantifier": "all pairs of datasets", "why_tests_cant": "All layouts of dates (slices or lists of rows) and all matchings.", "anchors": ["src/py_eddy_tracker/observations/tracking.py:555-577 close_tracks", "src/py_eddy_tracker/observations/observation.py:1237-1249 re_reference_index"]}
{"id": "C76", "title": "poly_area is the area enclosed by the contour", "statement": "For a closed contour poly_area is half the absolute value of the sum of the triangles of its edges seen from any point; it does not change with the position, the first vertex or the direction; it is multiplied by s^2 by a dilation; for a convex contour it is the sum of the areas of the triangles of an inner point.", "quantifier": "all contours", "why_tests_cant": "All numbers and positions of vertices.", "anchors": ["src/py_eddy_tracker/poly.py:72-99 poly_area_vertice, poly_area"]}
{"id": "C77", "title": "poly_contain_poly tells exactly whether a contour is in another one", "statement": "poly_contain_poly(out, in) is true exactly when, moved by some whole turns, the contour in is inside of the contour out.", "quantifier": "all pairs of contours", "why_tests_cant": "All shapes, and all turns of the longitudes.", "anchors": ["src/py_eddy_tracker/poly.py:50-70 poly_contain_poly"]}
{"id": "C78", "title": "create_meshed_particles gives exactly the points of the mesh inside the contours", "statement": "create_meshed_particles(lons, lats, step) gives exactly the multiples of the step in both coordinates which are inside each contour, each one once, with the row of the contour.", "quantifier": "all lists of contours and steps", "why_tests_cant": "All contours and steps, points on the border of the boxes.", "anchors": ["src/py_eddy_tracker/poly.py:292-310 create_meshed_particles", "src/py_eddy_tracker/observations/observation.py:2431-2443 create_particles"]}
{"id": "C79", "title": "The bilinear interpolation gives back the grid and stays in its range", "statement": "interp (bilinear) of a regular grid gives the value of the grid on each node, gives back exactly a field bilinear in the coordinates, stays between the four corners, has a value exactly in the cells without masked corner, does not depend on the other points asked and, on a global grid, does not change with a whole turn and joins the last longitude to the first.", "quantifier": "all grids, masks and lists of points", "why_tests_cant": "All positions and orders of points: the function keeps the cell of the point before; both ends of the turn.", "anchors": ["src/py_eddy_tracker/generic.py:238-300 interp2d_bilinear", "src/py_eddy_tracker/generic.py:184-201 interp2d_geo"]}
{"id": "C80", "title": "The nearest interpolation gives the value of the nearest node", "statement": "interp (nearest) gives the value of the nearest node of the grid (modulo 360 degrees on a global grid), and no value out of the grid or when this node is masked.", "quantifier": "all grids, masks and points", "why_tests_cant": "All positions, the turn of the longitudes.", "anchors": ["src/py_eddy_tracker/generic.py:205-234 interp2d_nearest"]}
{"id": "C81", "title": "The filter of a grid is the weighted mean of the valid pixels around each pixel", "statement": "convolve_filter_with_dynamic_kernel gives at each pixel the mean of the valid pixels under the kernel centred on it, with the weights of the kernel of the latitude, around the turn on a circular grid; masked pixels have no influence and stay masked. It gives back a constant field, is linear, stays in the range of the field for positive weights and commutes with turns of the grid.", "quantifier": "all grids, masks and kernels", "why_tests_cant": "All masks and kernels, borders and turn.", "anchors": ["src/py_eddy_tracker/dataset/grid.py:1439-1532 convolve_filter_with_dynamic_kernel"]}
{"id": "C82", "title": "finalize_kernel gives a centred symmetric kernel without loss of weights", "statement": "The kernel has an odd number of longitudes, is symmetric around its centre and keeps every weight of the half kernel which is not 0.", "quantifier": "all half kernels", "why_tests_cant": "All positions of the zeros.", "anchors": ["src/py_eddy_tracker/dataset/grid.py:1375-1386 finalize_kernel"]}
{"id": "C83", "title": "Counts of consecutive flags and sums by track restart where they should", "statement": "count_consecutive gives at each row the number of consecutive true flags which end there; cumsum_by_track gives at each row of a sorted dataset the sum of the field over the rows of its track up to it.", "quantifier": "all masks, fields and tracks", "why_tests_cant": "All patterns of flags and of tracks.", "anchors": ["src/py_eddy_tracker/generic.py:30-46 count_consecutive", "src/py_eddy_tracker/generic.py:161-180 cumsum_by_track"]}
{"id": "C84", "title": "insert_observations puts the rows at the index and keeps all the others", "statement": "insert_observations(other, index) gives the rows before the index, the rows of other, and the rows after, for all indices; append and + put the rows at the end, + does not change its operands, and the period is the one of the rows.", "quantifier": "all datasets and indices", "why_tests_cant": "All sizes and indices, negative ones, empty datasets, orders of calls.", "anchors": ["src/py_eddy_tracker/observations/observation.py:665-684 insert_observations", "src/py_eddy_tracker/observations/observation.py:686-691 append, __add__", "src/py_eddy_tracker/observations/observation.py:2408-2430 period, nb_days"]}
{"id": "C85", "title": "Selections by area, date and age keep exactly the rows asked", "statement": "extract_with_area keeps exactly the rows strictly in the box for some turn of the longitudes; time_sub_sample exactly the rows at t0 plus a whole number of steps; first_obs and last_obs exactly the first and the last row of each trajectory; the order is kept.", "quantifier": "all datasets, boxes, dates and steps", "why_tests_cant": "All turns of the longitudes and layouts of trajectories.", "anchors": ["src/py_eddy_tracker/observations/observation.py:1827-1848 extract_with_area", "src/py_eddy_tracker/observations/observation.py:1855-1863 time_sub_sample", "src/py_eddy_tracker/observations/observation.py:2154-2175 first_obs, last_obs"]}
{"id": "C86", "title": "Points are given to the contours which contain them", "statement": "contains gives for each point the row of the first contour which contains it, -1 if there is none or if the point is not defined; mask_from_polygons is true exactly for the observations in at least one of the polygons.", "quantifier": "all points, contours and polygons", "why_tests_cant": "All sets of points: the functions work on the points which remain, which can be none.", "anchors": ["src/py_eddy_tracker/observations/observation.py:2188-2204 contains", "src/py_eddy_tracker/observations/observation.py:1807-1825 mask_from_polygons"]}
{"id": "C87", "title": "A file gives back the values of a dataset up to half a step of the packing", "statement": "Dates, amplitudes, speeds, radii and contours written in a netcdf or zarr file are given back with an error of at most half the scale factor, their order is kept, and a file which is loaded and written again (with or without raw_data) holds exactly the same values.", "quantifier": "all values, all packed variables, all casts of the machine", "why_tests_cant": "All values of real numbers, all the integers of each type, overflow of the type and of the delta filter.", "anchors": ["src/py_eddy_tracker/__init__.py:123-683 VAR_DESCR", "src/py_eddy_tracker/observations/observation.py:1617-1786 create_variable, create_variable_zarr", "src/py_eddy_tracker/observations/observation.py:889-930 copy_data_to_zarr"]}
{"id": "C88", "title": "Loading a file gives the rows, the rotation and the fields which were asked", "statement": "load_file with indexs gives exactly the rows of the slice, for each buffer size; the rotation of the dataset is the one written; each variable of a file goes in the field it comes from.", "quantifier": "all files, slices, buffer sizes and names", "why_tests_cant": "All slices and buffer sizes: the rows are copied by blocks.", "anchors": ["src/py_eddy_tracker/observations/observation.py:734-930 load_from_zarr, copy_data_to_zarr", "src/py_eddy_tracker/observations/observation.py:932-1045 load_from_netcdf", "src/py_eddy_tracker/observations/observation.py:1548-1616 to_zarr, to_netcdf", "src/py_eddy_tracker/observations/tracking.py:225-227 set_global_attr_netcdf", "src/py_eddy_tracker/__init__.py:695-699 VAR_DESCR_inv"]}
{"id": "C89", "title": "Adding, removing, copying and concatenating fields keep the values under their names", "statement": "add_fields keeps each value and adds the asked fields with 0; remove_fields keeps the values of the fields which stay; copy gives an equal dataset; concatenate gives for each field the values of the datasets one after another.", "quantifier": "all datasets, fields, classes of datasets and orders of sets", "why_tests_cant": "All sets of fields, whose order depends on the machine; all sequences of calls.", "anchors": ["src/py_eddy_tracker/observations/observation.py:419-461 remove_fields, add_fields", "src/py_eddy_tracker/observations/observation.py:494-545 dtype, elements, coherence, concatenate", "src/py_eddy_tracker/observations/observation.py:698-717 copy"]}
{"id": "C90", "title": "The files of a grouping become one dataset sorted by network, without loss", "statement": "build_dataset gives each observation of the files exactly once, with the number of its group, sorted by group, in the order of the files inside a group.", "quantifier": "all files, all group arrays", "why_tests_cant": "All sizes and orders of groups: each observation is written at the next free position of its group.", "anchors": ["src/py_eddy_tracker/observations/network.py:2072-2100 build_dataset", "src/py_eddy_tracker/observations/network.py:2192-2200 get_next_index"]}
{"id": "C91", "title": "Networks are the connected components of the overlap between near dates", "statement": "group_observations puts two observations in the same group exactly when a chain of observations of files at most window files apart whose contours overlap enough joins them; with build_dataset the rows of a network are exactly a component.", "quantifier": "all files, windows, minimal overlaps and areas", "why_tests_cant": "All sets of contours and windows, all chains of overlaps.", "anchors": ["src/py_eddy_tracker/observations/network.py:2025-2070 group_observations", "src/py_eddy_tracker/observations/network.py:2072-2100 build_dataset", "src/py_eddy_tracker/observations/network.py:1968-2023 get_group_array, group_translator"]}
{"id": "C92", "title": "The networks asked by number are the networks given", "statement": "networks(ids) and network(id) keep exactly the rows of these networks, in order; network_size and nb_network count the rows and the networks.", "quantifier": "all datasets sorted by network, all numbers", "why_tests_cant": "All numbers with holes, all orders of calls: the index is kept in memory.", "anchors": ["src/py_eddy_tracker/observations/network.py:2245-2259 generate_mask_from_ids", "src/py_eddy_tracker/observations/network.py:1238-1263 network, networks_mask, networks, nb_network", "src/py_eddy_tracker/observations/network.py:216-254 network_size, network_slice", "src/py_eddy_tracker/observations/network.py:179-185 index_network", "src/py_eddy_tracker/observations/network.py:718-722 numbering_network"]}
{"id": "C93", "title": "Selections by duration and by date keep exactly what they say", "statement": "longer_than keeps the networks of at least nb_day_min and at most nb_day_max days; keep_tracks_by_date the tracks which exist at a date and lasted nb_days after it; extract_with_period the rows of a period, from the dates or from the ends of the dataset.", "quantifier": "all datasets, durations, dates and periods", "why_tests_cant": "All sequences of dates, holes included.", "anchors": ["src/py_eddy_tracker/observations/network.py:278-304 longer_than, mask_longer_than", "src/py_eddy_tracker/observations/groups.py:330-351 keep_tracks_by_date", "src/py_eddy_tracker/observations/network.py:1519-1553 get_mask_with_period, extract_with_period", "src/py_eddy_tracker/observations/tracking.py:245-268 extract_with_period"]}
{"id": "C94", "title": "Longitudes of a network are near its first observation and unique segment numbers are invertible", "statement": "normalize_longitude moves longitudes by whole turns only, every observation of a network within 180 degrees of the first, contours within 180 degrees of their centre; unique_segment_to_id gives back the network and the segment of a number of segment_track_array.", "quantifier": "all datasets sorted by network, all real longitudes", "why_tests_cant": "All longitudes, all numbers of networks with holes.", "anchors": ["src/py_eddy_tracker/observations/network.py:685-710 normalize_longitude", "src/py_eddy_tracker/observations/network.py:228-234 unique_segment_to_id"]}
{"id": "C95", "title": "The targets of the particles of an eddy are the eddies which got most of them", "statement": "particle_candidate, segment_coherence_forward, segment_coherence_backward and particle_candidate_atlas give for each row of each date the two rows of the other date whose contours got most of the particles meshed in its contour, with their percentages, in row numbers of the whole dataset; no target for the other rows.", "quantifier": "all datasets, meshes, durations and movements of particles", "why_tests_cant": "All datasets and all movements of particles: composition of the mesh, the advection, the search of contours, the counts and the row numbers on a loop of dates.", "anchors": ["src/py_eddy_tracker/observations/groups.py:70-180 advect, particle_candidate_step, particle_candidate", "src/py_eddy_tracker/observations/groups.py:352-477 particle_candidate_atlas, fill_coherence, merge_particle_result", "src/py_eddy_tracker/observations/network.py:1722-1874 segment_coherence_backward, segment_coherence_forward"]}
{"id": "C96", "title": "The distance between two positions is the great-circle distance", "statement": "distance gives the length of the great-circle arc between the two positions on a sphere of 6370997 m: symmetric, the same for longitudes of other turns, at most half a turn of the sphere, triangle inequality, zero only for the same point.", "quantifier": "all real longitudes and latitudes", "why_tests_cant": "All pairs and triples of positions, antimeridian, poles and antipodes included.", "anchors": ["src/py_eddy_tracker/generic.py:139-157 distance"]}
{"id": "C97", "title": "The matrix of distances is blank only for positions too far to be associated", "statement": "distance_grid gives the great-circle distance in km, or nan; a couple with nan is at more than 125 km, so that the mask of the association keeps exactly the couples at less than 125 km.", "quantifier": "all real longitudes and latitudes", "why_tests_cant": "All pairs of positions: longitudes of any turn, all latitudes.", "anchors": ["src/py_eddy_tracker/generic.py:95-136 distance_grid", "src/py_eddy_tracker/observations/observation.py:1288-1289 mask_function"]}
{"id": "C98", "title": "Local coordinates keep the distance to the origin and are invertible", "statement": "coordinates_to_local gives a vector whose length is the distance to the origin; local_to_coordinates gives back the position (modulo a turn of longitude), and the other way round for vectors shorter than half a turn.", "quantifier": "all origins and positions which are not poles", "why_tests_cant": "All origins, positions and turns of longitude.", "anchors": ["src/py_eddy_tracker/generic.py:502-531 coordinates_to_local", "src/py_eddy_tracker/generic.py:533-558 local_to_coordinates"]}
{"id": "C99", "title": "The fitted circle is the best one", "statement": "fit_circle and fit_circle_ give a circle which minimises the sum of the squared powers of the vertices; both agree for contours which are not on a line, give back the circle of vertices on a circle, and move with the contour.", "quantifier": "all closed contours with two distinct vertices", "why_tests_cant": "All contours: the minimum is over all circles.", "anchors": ["src/py_eddy_tracker/poly.py:529-570 fit_circle", "src/py_eddy_tracker/poly.py:613-667 fit_circle_"]}
{"id": "C100", "title": "The shape error is the area of deviation of the contour from the circle", "statement": "shape_error gives 100 * (area of the deviations of the polygon from the circle) / (area of the circle), independent of the position, the orientation and the size.", "quantifier": "all closed contours and circles", "why_tests_cant": "All contours and circles.", "anchors": ["src/py_eddy_tracker/poly.py:672-703 shape_error"]}
{"id": "C101", "title": "The fit of a contour in longitude and latitude is the fit around its mean position", "statement": "_fit_circle_path gives the best circle of the local coordinates around the mean vertex, the longitude of its centre within half a turn of the mean longitude, and nan for contours reduced to a dot only.", "quantifier": "all contours", "why_tests_cant": "All contours, antimeridian included.", "anchors": ["src/py_eddy_tracker/dataset/grid.py:166-183 _fit_circle_path"]}
{"id": "C102", "title": "The fitted ellipse goes through vertices which are on an ellipse", "statement": "fit_ellipse gives the centre, semi axes and angle of the ellipse on which all vertices are.", "quantifier": "all contours on an ellipse", "why_tests_cant": "All ellipses: every orientation, position and size.", "anchors": ["src/py_eddy_tracker/poly.py:575-610 fit_ellipse"]}
{"id": "C103", "title": "Resampled contours follow the contour with regular steps", "statement": "uniform_resample gives the asked number of vertices, each on the polyline of the contour, at equal distances along it, with the same ends; build_circle gives a closed contour of 50 points on the circle.", "quantifier": "all contours of at least two vertices, all sizes", "why_tests_cant": "All contours, vertices given twice included, all sizes.", "anchors": ["src/py_eddy_tracker/generic.py:303-327 uniform_resample", "src/py_eddy_tracker/generic.py:603-615 build_circle"]}
{"id": "C104", "title": "The tracker by area links the contours which overlap most, above the limit", "statement": "AreaTracker.tracking gives one-to-one links; each joins two contours whose similarity is above cmin, with the cost 1 - similarity; a couple above cmin which is not linked loses to a link of the same observation at least as similar.", "quantifier": "all datasets, all limits, all turns of longitude", "why_tests_cant": "All sets of contours and conflicts between them.", "anchors": ["src/py_eddy_tracker/featured_tracking/area_tracker.py:37-49 tracking", "src/py_eddy_tracker/featured_tracking/area_tracker.py:69-75 mask_cmin", "src/py_eddy_tracker/observations/observation.py:1199-1234 match"]}
{"id": "C105", "title": "The default tracker links observations at less than 125 km with the least change", "statement": "EddiesObservations.tracking gives one-to-one links between observations at less than 125 km; a couple at less than 125 km which is not linked loses to a link of the same observation with a smaller or equal cost (relative changes of amplitude and radius, distance).", "quantifier": "all datasets with non null amplitudes and radii", "why_tests_cant": "All sets of positions on the sphere and all conflicts.", "anchors": ["src/py_eddy_tracker/observations/observation.py:1524-1545 tracking", "src/py_eddy_tracker/observations/observation.py:1288-1289 mask_function", "src/py_eddy_tracker/observations/observation.py:1292-1318 cost_function"]}
{"id": "C106", "title": "The search area of the tracker of Chelton is the documented ellipse", "statement": "The major axis is cmax at low latitudes, cmin at high latitudes, linear between, never growing poleward; the mask accepts exactly the positions in the ellipse which reaches major degrees west and minor degrees east, in any turn of longitude.", "quantifier": "all positions, all axes", "why_tests_cant": "All positions and turns of longitude.", "anchors": ["src/py_eddy_tracker/observations/observation.py:1380-1398 basic_formula_ellipse_major_axis", "src/py_eddy_tracker/observations/observation.py:106-138 shifted_ellipsoid_degrees_mask2"]}
{"id": "C107", "title": "The tracker of Chelton links the nearest comparable eddy which is not behind land", "statement": "CheltonTracker.tracking gives one-to-one links; each joins an observation to its nearest candidate: in the ellipse, amplitude and radius within a factor 2.5, no pixel of ground on the path; an observation without link lost its target to one of at least the same amplitude.", "quantifier": "all datasets with positive amplitudes and radii", "why_tests_cant": "All positions, sizes, coasts and conflicts.", "anchors": ["src/py_eddy_tracker/featured_tracking/old_tracker_reference.py:17-42 cost_function, mask_function", "src/py_eddy_tracker/featured_tracking/old_tracker_reference.py:44-54 across_ground", "src/py_eddy_tracker/featured_tracking/old_tracker_reference.py:56-76 solve_function, post_process_link", "src/py_eddy_tracker/featured_tracking/old_tracker_reference.py:80-105 check_ratio"]}
{"id": "C108", "title": "The cost of the common area does not depend on the turn of longitudes", "statement": "cost_function_common_area gives 1 - common area / smallest area, masked when nothing is common, for contours in any turn.", "quantifier": "all contours", "why_tests_cant": "All contours on both sides of the limit of longitudes.", "anchors": ["src/py_eddy_tracker/observations/observation.py:1252-1286 cost_function_common_area"]}
{"id": "C109", "title": "The pixels of a grid cover the axis and hold their centres", "statement": "The bounds computed from the centres (or the centres from the corners) describe pixels without hole or overlap, each with its centre in it, in the middle for a constant step; the step is the mean gap; a grid whose coordinates do not increase is refused.", "quantifier": "all axes of at least two values", "why_tests_cant": "All axes, regular or not.", "anchors": ["src/py_eddy_tracker/dataset/grid.py:430-441 c_to_bounds", "src/py_eddy_tracker/dataset/grid.py:443-473 setup_coordinates", "src/py_eddy_tracker/dataset/grid.py:1215-1229 setup_coordinates", "src/py_eddy_tracker/dataset/grid.py:618-625 bounds"]}
{"id": "C110", "title": "A grid is circular exactly when it makes the turn of the Earth", "statement": "is_circular answers True when the pixels cover whole turns (up to 0.0001 degree), whatever the first longitude and the description by centres or corners.", "quantifier": "all axes", "why_tests_cant": "All origins, steps and descriptions.", "anchors": ["src/py_eddy_tracker/dataset/grid.py:1330-1336 is_circular", "src/py_eddy_tracker/dataset/grid.py:443-473 setup_coordinates"]}
{"id": "C111", "title": "The column of a longitude is the one of the pixel which holds it", "statement": "nearest_grd_indice gives the indices of the pixel which holds the position.", "quantifier": "all grids with a constant step, all positions", "why_tests_cant": "All positions in all pixels.", "anchors": ["src/py_eddy_tracker/generic.py:559-573 nearest_grd_indice", "src/py_eddy_tracker/dataset/grid.py:1289-1296 nearest_grd_indice", "src/py_eddy_tracker/dataset/grid.py:2264-2269 compute_pixel_path"]}
{"id": "C112", "title": "A global grid drawn from a reference shows each column once, at its place", "statement": "display with ref draws from the first centre after the reference all columns once, in order, each pixel at its longitudes up to whole turns.", "quantifier": "all global grids, all references", "why_tests_cant": "All references and origins.", "anchors": ["src/py_eddy_tracker/dataset/grid.py:1924-1946 display"]}
{"id": "C113", "title": "The interpolation of a collection is linear in time", "statement": "GridCollection.interp gives at a date of the collection the value of the grid of this date, and between two dates the linear interpolation.", "quantifier": "all collections, times and positions", "why_tests_cant": "All times, masks and steps of time.", "anchors": ["src/py_eddy_tracker/dataset/grid.py:2393-2415 GridCollection.interp", "src/py_eddy_tracker/dataset/grid.py:2430-2435 __getitem__"]}
{"id": "C114", "title": "A path gives the positions of the advection at regular times", "statement": "GridCollection.path gives nb_time + 1 rows: the start, then the positions after each turn; the times follow each other by nb_step * time_step seconds.", "quantifier": "all collections, all particles, all numbers of turns", "why_tests_cant": "All starts and lengths.", "anchors": ["src/py_eddy_tracker/dataset/grid.py:2615-2635 GridCollection.path", "src/py_eddy_tracker/dataset/grid.py:2520-2595 GridCollection.advect"]}
{"id": "C115", "title": "The steps of the advection move particles by velocity times duration", "statement": "The u and v of uv_for_advection, in degrees, move on the sphere by velocity * time_step * factor metres, backward by the opposite, hidden where one of the fields is hidden.", "quantifier": "all velocities, latitudes between the poles, durations, factors", "why_tests_cant": "All latitudes and velocities.", "anchors": ["src/py_eddy_tracker/dataset/grid.py:2009-2042 uv_for_advection"]}
{"id": "C116", "title": "A grid put on another keeps each value at its place", "statement": "regrid gives at each pixel the interpolation of the other grid at its centre; on the same coordinates nothing changes; clean_land hides exactly the pixels whose nearest pixel of the file of lands is land, with those already hidden.", "quantifier": "all grids", "why_tests_cant": "All shapes and coordinates.", "anchors": ["src/py_eddy_tracker/dataset/grid.py:1968-1988 regrid", "src/py_eddy_tracker/dataset/grid.py:1322-1328 clean_land", "src/py_eddy_tracker/dataset/grid.py:1992-2007 interp"]}
{"id": "C117", "title": "Contours cut by the limit of longitudes are put together", "statement": "With wrap_x, the segments of a contour cut by the first meridian are joined in closed contours: each joined contour is a chain of segments moved by whole turns, every segment is in one contour at most, the paths away from the limit are untouched and nothing is lost.", "quantifier": "all collections of paths of at least two vertices", "why_tests_cant": "All numbers of segments, orders and latitudes of crossings.", "anchors": ["src/py_eddy_tracker/eddy_feature.py:322-336 get_next, check_closing", "src/py_eddy_tracker/eddy_feature.py:338-405 find_wrapcut_path_and_join"]}
{"id": "C118", "title": "A contour is labelled exactly when it contains several eddies of the next level", "statement": "After label_contour_unused_which_contain_eddies, contain_eddies is True exactly for the unused contours which hold the centres of several eddies whose outer contour is the next level towards the extremums, for both signs; the labels of a sign stay after the call for the other.", "quantifier": "all levels, contours and eddies", "why_tests_cant": "All positions and heights.", "anchors": ["src/py_eddy_tracker/eddy_feature.py:690-724 label_contour_unused_which_contain_eddies"]}
{"id": "C119", "title": "The contours kept are exactly the closed and not flat ones", "statement": "Without keep_unclose the contours kept are the paths of four vertices or more whose ends are at 0.01 or less and whose box is at least 1e-8 wide and high, with the last vertex put on the first one; with keep_unclose the open paths are kept unchanged.", "quantifier": "all paths", "why_tests_cant": "All paths.", "anchors": ["src/py_eddy_tracker/eddy_feature.py:444-470 __init__"]}
{"id": "C120", "title": "The statistics around an event use the coherence of the followed segment only", "statement": "The values of an event are the percentile of the percents of the observations of the segment met along the links at less than window days of the event, towards the observations of the other segment; nan when they are fewer than nb_min or absent.", "quantifier": "all networks, events, windows and percentiles", "why_tests_cant": "All networks and coherences.", "anchors": ["src/py_eddy_tracker/observations/network.py:2104-2134 get_percentile_on_following_obs", "src/py_eddy_tracker/observations/network.py:2138-2188 get_percentile_around_event"]}
{"id": "C121", "title": "Index gives the asked rows and reverse the other ones", "statement": "index(l) gives the observations at the positions, the slice or the mask, in order and one time for each position; with reverse=True the observations which are not named, in order.", "quantifier": "all datasets and indexes", "why_tests_cant": "All indexes.", "anchors": ["src/py_eddy_tracker/observations/observation.py:719-731 index", "src/py_eddy_tracker/generic.py:50-62 reverse_index"]}
{"id": "C122", "title": "Statistics by bins count and average the rows of each bin", "statement": "hist and bins_stat give for each bin the number, the sum or the mean of the variable on the selected rows of the bin, nan for a mean without row, percents whose sum is 100; the default bins hold every selected row and x are the middles.", "quantifier": "all datasets, bins and masks", "why_tests_cant": "All values and bins.", "anchors": ["src/py_eddy_tracker/observations/observation.py:285-306 hist", "src/py_eddy_tracker/observations/observation.py:2051-2076 bins_stat"]}
{"id": "C123", "title": "The resampled profile follows the original one", "statement": "raw_resample gives fixed_size values at equal steps along the piecewise linear profile, keeps the ends, is the identity for the same size and stays between the values of the profile.", "quantifier": "all profiles and sizes of two or more", "why_tests_cant": "All profiles and sizes.", "anchors": ["src/py_eddy_tracker/dataset/grid.py:78-84 raw_resample"]}
{"id": "C124", "title": "The list of files is in order of date at one constant step", "statement": "browse_dataset_in gives the files with their dates in increasing order, at one constant step of time, between the asked dates, one of sub_sampling_step; it raises for files at several steps.", "quantifier": "all lists of files, patterns and bounds", "why_tests_cant": "All lists of names.", "anchors": ["src/py_eddy_tracker/appli/eddies.py:226-296 browse_dataset_in"]}
{"id": "C125", "title": "EddyTracking puts every observation in exactly one file", "statement": "The application of tracking puts each observation of the files in exactly one of the three outputs, untracked, short or long, and nothing else; the tracks of short have less than nb_obs_min observations and the ones of long nb_obs_min or more.", "quantifier": "all lists of files, parameters and matchings", "why_tests_cant": "All runs of the tracking.", "anchors": ["src/py_eddy_tracker/appli/eddies.py:299-381 track"]}
{"id": "C126", "title": "circle_contour draws circles around the centres", "statement": "After circle_contour each contour has its vertices at equal steps of angle and at the distance radius times factor from the centre along the sphere, and its last vertex is its first one; with only_virtual the other observations are not changed.", "quantifier": "all datasets, factors and sizes of contours", "why_tests_cant": "All centres and radii.", "anchors": ["src/py_eddy_tracker/observations/observation.py:468-491 circle_contour"]}
{"id": "C127", "title": "The velocities of add_uv are geostrophic", "statement": "At each cell with a height, out of the equator, f v = g dh/dx and f u = -g dh/dy: the flow follows the level lines, with the high heights at the right in the north; exact for polynomial heights inside the grid; adding a constant to the heights changes nothing.", "quantifier": "all fields of heights, masks and half widths of stencil", "why_tests_cant": "All fields.", "anchors": ["src/py_eddy_tracker/dataset/grid.py:1844-1906 add_uv", "src/py_eddy_tracker/dataset/grid.py:1705-1788 compute_stencil", "src/py_eddy_tracker/dataset/grid.py:2902-3013"]}
{"id": "C128", "title": "A variable of a grid is read with the right axes and indexes", "statement": "grid(name, indexs) gives the longitudes as first axis and the latitudes as second one, whatever the order of the dimensions in the file, at the asked indexes.", "quantifier": "all files, names and indexes", "why_tests_cant": "All orders of dimensions and sequences of calls.", "anchors": ["src/py_eddy_tracker/dataset/grid.py:519-566 grid", "src/py_eddy_tracker/dataset/grid.py:342-366 load_general_features"]}
{"id": "C129", "title": "The high and low filtered fields add to the initial field", "statement": "high_filter and low_filter (and the bessel and lanczos ones) give two parts whose sum is the field where it is valid, masked where the field or its low part are masked, and change no other variable; the band filter removes the second low part from the first.", "quantifier": "all fields and kernels", "why_tests_cant": "All fields and masks.", "anchors": ["src/py_eddy_tracker/dataset/grid.py:599-615 high_filter, low_filter", "src/py_eddy_tracker/dataset/grid.py:1534-1604"]}
{"id": "C130", "title": "A grid which is written and read again is the same", "statement": "The file of write holds the variables of the handler with their dimensions; a new handler on this file gives the same arrays, also after copies and filters.", "quantifier": "all handlers and variables", "why_tests_cant": "All orders of dimensions.", "anchors": ["src/py_eddy_tracker/dataset/grid.py:368-402 write", "src/py_eddy_tracker/dataset/grid.py:493-508 copy", "src/py_eddy_tracker/dataset/grid.py:510-517 add_grid"]}
{"id": "C131", "title": "The kernels of the filters are centred on the pixel", "statement": "The kernels of lanczos, loess and bessel have an odd number of rows and columns, the weight of each cell is the formula of the filter at its distance on the sphere from the pixel, and the pixel is at the centre; a grid too coarse for the wave length is refused.", "quantifier": "all grids, latitudes, wave lengths and orders", "why_tests_cant": "All latitudes and wave lengths.", "anchors": ["src/py_eddy_tracker/dataset/grid.py:1338-1379 check_order, get_step_in_km, estimate_kernel_shape, finalize_kernel", "src/py_eddy_tracker/dataset/grid.py:1388-1431 kernel_lanczos, kernel_loess, kernel_bessel"]}
{"id": "C132", "title": "The weights of the loess kernel are a local regression", "statement": "The weights of kernel_loess are in [0, 1], 1 at the pixel, and decrease with the distance; no cell within the wave length is missed.", "quantifier": "all grids, latitudes, wave lengths and orders", "why_tests_cant": "All latitudes and wave lengths.", "anchors": ["src/py_eddy_tracker/dataset/grid.py:1401-1417 kernel_loess"]}
{"id": "C133", "title": "EddyNetworkSubSetter writes what its options describe", "statement": "The observations written are those of the networks asked, whose number of days is in the bounds asked, and whose date is in the period asked; they keep the order of the file, and their links are those of the file, -1 toward observations which are not written.", "quantifier": "all files of networks and options", "why_tests_cant": "All files and combinations of options.", "anchors": ["src/py_eddy_tracker/appli/network.py:108-152 subset_network", "src/py_eddy_tracker/observations/network.py:277-285 longer_than", "src/py_eddy_tracker/observations/network.py:1251-1256 networks", "src/py_eddy_tracker/observations/network.py:1455-1553 remove_dead_end, extract_with_period"]}
{"id": "C134", "title": "The eddies do not depend on the unit or the reference of the heights", "statement": "With heights k times larger in a unit k times smaller (centimetres instead of metres), eddy_identification gives the same eddies, with the same amplitudes and levels in metres; with a whole number of steps added to the heights it gives the same eddies with levels higher by the same number of steps.", "quantifier": "all grids, masks, units, steps and precisions", "why_tests_cant": "All fields and units.", "anchors": ["src/py_eddy_tracker/dataset/grid.py:627-980 eddy_identification", "src/py_eddy_tracker/dataset/grid.py:1057-1075 get_amplitude", "src/py_eddy_tracker/eddy_feature.py:78-330 Amplitude"]}
{"id": "C135", "title": "The levels of the contours cover the heights", "statement": "The levels used by eddy_identification are consecutive multiples of the step, and every height is between two consecutive levels, except the heights out of the percentiles when the whole range is more than twice as wide as the one of the percentiles.", "quantifier": "all grids, masks and steps", "why_tests_cant": "All fields.", "anchors": ["src/py_eddy_tracker/dataset/grid.py:704-728 eddy_identification"]}
{"id": "C136", "title": "Cyclones and anticyclones are identified in the same way", "statement": "eddy_identification on the opposite heights gives the same eddies with the opposite sign.", "quantifier": "all grids and heights", "why_tests_cant": "All fields.", "anchors": ["src/py_eddy_tracker/dataset/grid.py:751-934 eddy_identification"]}
{"id": "C137", "title": "The longitudes of the eddies are normalised with their contours", "statement": "After eddy_identification the longitude of each eddy is in [0, 360[, each vertex of its contours is at less than half a turn of it and at a whole number of turns of where it was, and a contour which is around its centre is moved as a whole.", "quantifier": "all longitudes and contours", "why_tests_cant": "All longitudes.", "anchors": ["src/py_eddy_tracker/dataset/grid.py:949-955 eddy_identification"]}
{"id": "C138", "title": "load_file reads what write_file wrote", "statement": "The file written by write_file is the one asked, with the extension of its format, and load_file reads it with the format in which it was written.", "quantifier": "all names and formats", "why_tests_cant": "All names.", "anchors": ["src/py_eddy_tracker/observations/observation.py:748-783 load_file", "src/py_eddy_tracker/observations/observation.py:1759-1786 write_file"]}
{"id": "C139", "title": "close_network gives the networks which are close", "statement": "close_network gives all the observations of the networks of the other atlas which have at least nb_obs_min couples with the first one, in order and with their links, and no other.", "quantifier": "all atlases and functions of match", "why_tests_cant": "All atlases.", "anchors": ["src/py_eddy_tracker/observations/network.py:661-683 close_network", "src/py_eddy_tracker/observations/network.py:245-253 network_slice"]}
{"id": "C140", "title": "EddyQuickCompare shares each dataset between its files", "statement": "After EddyQuickCompare with an output path, the five files nomatch, low, intermediate, high and multi_match of each compared dataset (and of the reference) hold together every observation of the dataset exactly once, the numbers and areas displayed for these groups add up to the ones of the dataset, and the files out of the output path are unchanged.", "quantifier": "all datasets, names, couples of match and limits", "why_tests_cant": "All names and datasets.", "anchors": ["src/py_eddy_tracker/appli/eddies.py:384-450 get_group", "src/py_eddy_tracker/appli/eddies.py:452-466 run_compare", "src/py_eddy_tracker/appli/eddies.py:525-582 quick_compare"]}
{"id": "C141", "title": "MergeEddies keeps the trajectories of the files", "statement": "The file written by MergeEddies has the rows of the files given one after another, two rows are of the same trajectory exactly when they were of the same trajectory of the same file, and the rotation of each row can be known.", "quantifier": "all files and options", "why_tests_cant": "All files.", "anchors": ["src/py_eddy_tracker/appli/eddies.py:45-71 merge_eddies", "src/py_eddy_tracker/observations/observation.py:528-545 concatenate", "src/py_eddy_tracker/observations/tracking.py:219-223 elements", "src/py_eddy_tracker/observations/tracking.py:315-330 concatenate"]}
{"id": "C142", "title": "The pixels of an unregular grid in a contour are found", "statement": "UnRegularGridDataset.get_pixels_in gives exactly the nodes of the grid which are in the contour.", "quantifier": "all grids of two dimensions and contours", "why_tests_cant": "All grids and contours.", "anchors": ["src/py_eddy_tracker/dataset/grid.py:187-209 get_pixel_in_unregular", "src/py_eddy_tracker/dataset/grid.py:1103-1142 bbox_indice, get_pixels_in, nearest_grd_indice"]}
{"id": "C143", "title": "The low pass of an unregular grid is an average of its values", "statement": "UnRegularGridDataset._low_filter gives at each node a value between the least and the greatest value of the grid, each cell of the intermediate grid is the mean of the values which are in it, every value is in one cell, and the values read back at the nodes are exact for affine fields.", "quantifier": "all nodes, values, steps and averaging filters", "why_tests_cant": "All fields and grids.", "anchors": ["src/py_eddy_tracker/dataset/grid.py:1144-1185 _low_filter"]}
{"id": "C144", "title": "The mean speed of a contour is the mean of the speeds at its vertices", "statement": "speed_coef_mean gives the mean of the speeds interpolated at the vertices of the resampled contour, each vertex of the closed contour counted once and those without speed left out: it lies between the least and the greatest speed of the grid, is nan only when no vertex has a speed, follows the unit of the speeds, and does not change when the contour is moved by whole turns on a global grid or starts at another vertex.", "quantifier": "all grids, speeds and contours", "why_tests_cant": "All grids and contours.", "anchors": ["src/py_eddy_tracker/dataset/grid.py:125-135 mean_on_regular_contour", "src/py_eddy_tracker/dataset/grid.py:1187-1194 UnRegularGridDataset.speed_coef_mean", "src/py_eddy_tracker/dataset/grid.py:1908-1919 RegularGridDataset.speed_coef_mean"]}
{"id": "C145", "title": "The contour of maximal speed is found with missing speeds", "statement": "get_uavg selects the contour of greatest mean speed among the original one and the inner ones with more pixels than the minimum, contours whose mean speed is nan being left out, and the choice does not depend on the unit of the speeds.", "quantifier": "all sequences of contours, speeds and numbers of pixels", "why_tests_cant": "All sequences, with nan anywhere.", "anchors": ["src/py_eddy_tracker/dataset/grid.py:982-1043 get_uavg"]}
{"id": "C146", "title": "grid_tiles is the part of grid of the tile", "statement": "grid_tiles(varname, slice_x, slice_y) gives the values of grid(varname) at the columns and rows of the two slices.", "quantifier": "all handlers, variables and slices", "why_tests_cant": "All files and orders of dimensions.", "anchors": ["src/py_eddy_tracker/dataset/grid.py:568-597 grid_tiles", "src/py_eddy_tracker/dataset/grid.py:517-566 grid"]}
{"id": "C147", "title": "The circle of equal area has the area of the contour", "statement": "_circle_from_equal_area gives the mean position of the vertices and the radius of the circle whose area is the one of the contour in local coordinates; the answer is nan only for a contour reduced to a dot, and does not change with the sense of the contour or with its first vertex; the centre follows the contour along a parallel and the radius is the same.", "quantifier": "all closed contours", "why_tests_cant": "All contours.", "anchors": ["src/py_eddy_tracker/dataset/grid.py:149-163 _circle_from_equal_area"]}
{"id": "C148", "title": "The values mapped by segment or by network are those of the group", "statement": "map_segment and map_network apply the function to the observations of each segment or network, once by group: with same=True each observation gets the value the function gives to its rank in its own group, otherwise the answer has one value by group in the order of the groups, or a dictionary from the numbers of groups to the values; mean_by_segment gives to each observation the mean of the field over its segment.", "quantifier": "all networks, functions and fields", "why_tests_cant": "All networks and functions.", "anchors": ["src/py_eddy_tracker/observations/network.py:922-924 mean_by_segment", "src/py_eddy_tracker/observations/network.py:926-944 map_segment", "src/py_eddy_tracker/observations/network.py:946-990 map_network"]}
{"id": "C149", "title": "Cleaning the memory of a collection of grids changes no answer", "statement": "Reading a variable of a grid of a GridCollection gives the same values whatever was read, visited or cleaned before: reset_grids only releases memory and the released grids are loaded again when they are used; after reset_grids at most the allowed number of grids stay loaded.", "quantifier": "all collections and all sequences of operations", "why_tests_cant": "All sequences of readings, visits and cleanings.", "anchors": ["src/py_eddy_tracker/dataset/grid.py:311-314 populate", "src/py_eddy_tracker/dataset/grid.py:316-327 clean", "src/py_eddy_tracker/dataset/grid.py:2347-2373 from_netcdf_list", "src/py_eddy_tracker/dataset/grid.py:2417-2435 GridCollection.__getitem__", "src/py_eddy_tracker/dataset/grid.py:2513-2518 reset_grids", "src/py_eddy_tracker/dataset/grid.py:2597-2613 get_next_time_step"]}
{"id": "C150", "title": "The coherence reads the grids of the days of its particles", "statement": "segment_coherence_forward and segment_coherence_backward have, at each date treated, the grids of exactly the days over which the particles of this date are moved: the date and the n_days following or preceding ones, in the order of time, whatever the date; shift_files loads one day and releases the oldest one, the number of grids kept being constant.", "quantifier": "all datasets, numbers of days and functions of names", "why_tests_cant": "All periods and durations.", "anchors": ["src/py_eddy_tracker/observations/network.py:1756-1777 segment_coherence_backward", "src/py_eddy_tracker/observations/network.py:1828-1853 segment_coherence_forward", "src/py_eddy_tracker/dataset/grid.py:2382-2391 shift_files", "src/py_eddy_tracker/observations/groups.py:70-90 particle_candidate_step"]}
{"id": "C151", "title": "The marks of events are the merging and splitting observations", "statement": "event_timeline and event_map mark a merging at the last observation of each segment which continues in an other one and a splitting at the first observation of each segment which comes from an other one, and nothing else; each mark is linked to the observation it points to.", "quantifier": "all networks", "why_tests_cant": "All networks.", "anchors": ["src/py_eddy_tracker/observations/network.py:833-920 event_timeline", "src/py_eddy_tracker/observations/network.py:1023-1056 event_map"]}
{"id": "C152", "title": "analysis_coherence is the steps asked followed by the directions asked", "statement": "analysis_coherence applies the cleaning steps asked in their order, numbers the segments, then gives the results of segment_coherence_forward and segment_coherence_backward, those asked by the mode, on the network prepared; with an output and both directions it writes this network and these results; an unknown mode is refused.", "quantifier": "all networks, modes and parameters", "why_tests_cant": "All networks and combinations of parameters.", "anchors": ["src/py_eddy_tracker/observations/network.py:1639-1720 analysis_coherence", "src/py_eddy_tracker/observations/network.py:1455-1497 remove_dead_end"]}
{"id": "C153", "title": "A lost eddy is searched further along its way", "statement": "While an eddy is lost, the virtual observation proposed g datasets after its last observation B is at B + g.AB, where A is its position one dataset before B: the observation if there is one, else the position which was proposed for it; whole turns of longitude do not matter and the contour used by the AreaTracker stays the one of the last observation.", "quantifier": "all datasets, one-to-one associations and numbers of virtual observations", "why_tests_cant": "All sequences of datasets.", "anchors": ["src/py_eddy_tracker/observations/observation.py:1128-1178 propagate", "src/py_eddy_tracker/tracking.py:290-333 recense_dead_id_to_extend", "src/py_eddy_tracker/featured_tracking/area_tracker.py:51-65 propagate"]}
{"id": "C154", "title": "The smoothed positions stay along the segment", "statement": "position_filter replaces each position by a value between those of the observations of the same trajectory or segment which are near in time, whatever the other observations; moving all the longitudes of the observations near in time moves the smoothed one as much; a segment which crosses the limit of longitudes stays where it was.", "quantifier": "all trajectories and networks, all widths of filters", "why_tests_cant": "All networks and widths.", "anchors": ["src/py_eddy_tracker/observations/tracking.py:457-463 position_filter", "src/py_eddy_tracker/observations/network.py:734-740 position_filter", "src/py_eddy_tracker/observations/network.py:742-758 loess_filter, median_filter"]}
{"id": "C155", "title": "The spectra of a grid are the means of the spectra of its lines and columns", "statement": "spectrum_lonlat gives the mean of the spectra of the columns without missing value of the area, and the mean of the spectra of its lines without missing value, each one read by linear interpolation at common frequencies which go from zero to the least of the largest frequencies; no value is extrapolated; with a reference, the spectra are divided by those of the reference computed in the same way, so that a grid relative to itself gives one.", "quantifier": "all grids, areas and scalings", "why_tests_cant": "All grids.", "anchors": ["src/py_eddy_tracker/dataset/grid.py:1606-1671 spectrum_lonlat"]}
{"id": "C156", "title": "The file of correspondences keeps the names of the datasets", "statement": "A correspondence table saved then loaded has the datasets it was made from, so that EddyFinalTracking can read their observations and EddyMergeCorrespondances can find the junction of two tables.", "quantifier": "all lists of datasets", "why_tests_cant": "All lists of names.", "anchors": ["src/py_eddy_tracker/tracking.py:405-489 to_netcdf", "src/py_eddy_tracker/tracking.py:514-558 from_netcdf", "src/scripts/EddyFinalTracking:40-60", "src/scripts/EddyMergeCorrespondances:38-44"]}
{"id": "C157", "title": "Merging two trackings which overlap is the tracking of all the datasets", "statement": "merge_correspondance of the tables of two trackings, the second one beginning before the end of the first one, gives the links and the tracks of the tracking of all the datasets, up to the numbers of the tracks, those of the first tracking being kept; the number kept for the next track is new, and the result can be saved or merged again.", "quantifier": "all lists of datasets and one-to-one associations", "why_tests_cant": "All trackings and overlaps.", "anchors": ["src/py_eddy_tracker/tracking.py:182-213 merge_correspondance", "src/py_eddy_tracker/tracking.py:280-282 append", "src/py_eddy_tracker/tracking.py:491-496 save", "src/scripts/EddyMergeCorrespondances:38-44"]}
{"id": "C158", "title": "extract_in_direction keeps the tracks which go in the direction asked", "statement": "extract_in_direction(d, value) keeps, with all their observations, exactly the tracks whose last position is in the direction d from the first one by more than value degrees, the difference of longitude being taken by the shortest way; a dataset of one observation or without observation gives an answer too.", "quantifier": "all datasets, directions and values", "why_tests_cant": "All tracks and positions.", "anchors": ["src/py_eddy_tracker/observations/tracking.py:397-412 extract_in_direction"]}
{"id": "C159", "title": "extract_first_obs_in_box keeps the first observation of each track in each box", "statement": "extract_first_obs_in_box(res) keeps, in their order, exactly the observations before which their track has no observation in the same box of res degrees; each box crossed by a track keeps one observation of it; whole turns of longitude do not matter.", "quantifier": "all datasets and resolutions", "why_tests_cant": "All tracks and resolutions.", "anchors": ["src/py_eddy_tracker/observations/tracking.py:387-395 extract_first_obs_in_box"]}
{"id": "C160", "title": "EddySubSetter writes the observations which its help describes", "statement": "The observations written are those of the tracks asked by number and by length, which meet the period and the area according to --full_path, --remove_incomplete and --reject_virtual, then those of the tracks which go in the direction asked, then the first ones in each box, in the order of the file or sorted by time; nothing is written, and nothing raises, when nothing stays; bounds of period are days; the file written can be subset again.", "quantifier": "all files and options of the command", "why_tests_cant": "All combinations of options and all files.", "anchors": ["src/scripts/EddySubSetter:102-168", "src/py_eddy_tracker/observations/tracking.py:245-268 extract_with_period", "src/py_eddy_tracker/observations/tracking.py:465-514 extract_with_mask", "src/py_eddy_tracker/observations/observation.py:1827-1848 extract_with_area"]}
{"id": "C161", "title": "get_azimuth gives the bearing of each track", "statement": "get_azimuth gives one value by track, from its first and its last observations: the bearing in degrees of the great circle between them; with equatorward=True it is positive when the track goes poleward and negative when it goes equatorward.", "quantifier": "all tracks and positions on the sphere", "why_tests_cant": "All pairs of positions.", "anchors": ["src/py_eddy_tracker/observations/tracking.py:270-293 get_azimuth"]}
{"id": "C162", "title": "Iterating on the tracks, their number, lifetime and age", "statement": "iter_track gives each track once, by increasing number and with all its observations; track_slice selects the observations of one track; nb_tracks is the number of distinct tracks; lifetime is the number of observations of the track of each observation; age is between 0 and 100, 0 on the first and 100 on the last observation of each track.", "quantifier": "all datasets", "why_tests_cant": "All numberings and sizes of tracks.", "anchors": ["src/py_eddy_tracker/observations/tracking.py:71-82 track_slice, iter_track", "src/py_eddy_tracker/observations/tracking.py:104-114 nb_tracks", "src/py_eddy_tracker/observations/tracking.py:352-360 lifetime, age"]}
{"id": "C163", "title": "Loading a file gives the variables asked and no other", "statement": "load_from_netcdf(remove_vars, include_vars) gives a dataset whose fields are those of the variables asked, with the values of the file and one row by observation of the file; variables which are not asked are not in the dataset; a name of include_vars which the file does not hold is ignored or reported without giving values.", "quantifier": "all files and lists of variables", "why_tests_cant": "All sets of variables, classes and files.", "anchors": ["src/py_eddy_tracker/observations/observation.py:932-1045 load_from_netcdf", "src/py_eddy_tracker/observations/observation.py:1047-1053 build_var_list"]}
{"id": "C164", "title": "interp_grid gives the statistic of the grid in each contour", "statement": "interp_grid(grid, name, method) gives for each eddy, in order, the number, the mean, the maximum or the minimum of the values of the grid which are not masked at the pixels whose centre is in the contour, nan without such a pixel; the turn of the longitudes of the eddy and of its contour does not matter; with indices it gives the same values for the eddies selected.", "quantifier": "all sets of eddies, contours, grids, masks and selections", "why_tests_cant": "All contours, masks and turns of longitudes.", "anchors": ["src/py_eddy_tracker/observations/observation.py:2361-2405 interp_grid", "src/py_eddy_tracker/observations/observation.py:2563-2614 grid_stat"]}
{"id": "C165", "title": "The numbers of segments count the segments", "statement": "nb_segment is the number of different segments of all networks; segment_size is the number of observations of each of them; network_segment_size is the number of different segments of each network, and sums to nb_segment; extract_segment keeps exactly the observations of the segments asked.", "quantifier": "all datasets of networks", "why_tests_cant": "All numbers of networks, segments and observations.", "anchors": ["src/py_eddy_tracker/observations/network.py:193-194 segment_size", "src/py_eddy_tracker/observations/network.py:204-214 network_segment_size", "src/py_eddy_tracker/observations/network.py:1265-1270 nb_segment", "src/py_eddy_tracker/observations/network.py:1499-1517 extract_segment"]}
{"id": "C166", "title": "EddyTranslate keeps the content of a file", "statement": "The file written by EddyTranslate, from netcdf or zarr to netcdf or zarr, with or without --unraw, holds the same variables with the same values, the same rotation and number of samples, and can be read again.", "quantifier": "all files, both formats and both modes", "why_tests_cant": "All files and packings.", "anchors": ["src/scripts/EddyTranslate:25-57", "src/py_eddy_tracker/observations/observation.py:1548-1660 to_zarr, to_netcdf, create_variable"]}
{"id": "C167", "title": "Two datasets are equal when they hold the same observations", "statement": "a == b is true exactly when both datasets have the same rotation, fields, number of observations and values; a dataset is equal to its copy; astype keeps the observations, the rotation and the values of the fields of both classes.", "quantifier": "all datasets and classes", "why_tests_cant": "All fields and values.", "anchors": ["src/py_eddy_tracker/observations/observation.py:247-252 __eq__", "src/py_eddy_tracker/observations/network.py:270-277 astype", "src/py_eddy_tracker/observations/observation.py:698-717 copy"]}
{"id": "C168", "title": "EddyFinalTracking writes each observation in exactly one file", "statement": "The files of EddyFinalTracking (observations without track, short tracks, long tracks) hold together each observation of the datasets exactly once; each track of the long file has at least the number of observations asked, each track of the short file has fewer; the virtual observations are flagged and lie on the line between the observations before and after in their track.", "quantifier": "all datasets, histories of correspondences and limits", "why_tests_cant": "All histories of tracking, with or without virtual observations, and all limits.", "anchors": ["src/scripts/EddyFinalTracking:49-86", "src/py_eddy_tracker/tracking.py:133-148 _copy", "src/py_eddy_tracker/tracking.py:632-722 merge"]}
{"id": "C169", "title": "identify_time reads the date which was written", "statement": "identify_time gives the date of a string written as YYYYMMDD, YYYYMMDDHHMMSS or YYYYMMDDTHHMMSS, for each valid date; a string which is not written so raises and never gives another date.", "quantifier": "all dates and all strings", "why_tests_cant": "All dates of the calendar and strings of digits.", "anchors": ["src/py_eddy_tracker/__init__.py:111-121 identify_time"]}
{"id": "C170", "title": "find_segments_relative gives the segments near an observation", "statement": "find_segments_relative(obs, stopped, order) gives the observations of the network of obs whose segment is linked to the segment of obs, or to the segment of stopped, by at most order events.", "quantifier": "all datasets of networks, observations and orders", "why_tests_cant": "All graphs of segments and orders.", "anchors": ["src/py_eddy_tracker/observations/network.py:137-160 find_segments_relative"]}
{"id": "C171", "title": "EddyId keeps the wavelengths asked", "statement": "EddyId with cut wavelengths (low, high) searches eddies in the height whose wavelengths are between both limits, with the velocities of the file, or those of the height before the filter when there are no velocities in the file; all combinations of options are usable.", "quantifier": "all files, names of variables and options", "why_tests_cant": "All combinations of options and fields.", "anchors": ["src/py_eddy_tracker/appli/grid.py:58-186 eddy_id, identification"]}
{"id": "C172", "title": "The comparison of networks counts the networks which are in both files", "statement": "EddyNetworkQuickCompare gives for another file the number of networks of the reference which it holds, with the same observations in any order, and their number of observations; for the reference itself, or a file which holds all its networks, it gives all networks and all observations; it never gives more.", "quantifier": "all files of networks", "why_tests_cant": "All files, orders of networks and of observations.", "anchors": ["src/py_eddy_tracker/appli/network.py:213-280 run_compare", "src/py_eddy_tracker/observations/network.py:307-375 identify_in"]}
{"id": "C173", "title": "The grids of counts and means cover the range asked", "statement": "grid_count and grid_stat with the range (start, stop, step) of each axis count each observation whose longitude, taken in the turn which begins at start, and whose latitude are between start and stop; the sum of the grid of counts is the number of these observations.", "quantifier": "all ranges and lists of observations", "why_tests_cant": "All ranges, steps and positions.", "anchors": ["src/py_eddy_tracker/observations/observation.py:2219-2256 grid_count", "src/py_eddy_tracker/observations/observation.py:2323-2365 grid_stat"]}
{"id": "C174", "title": "The light extraction keeps the links of a network", "statement": "extract_light_with_mask keeps the observations of the mask in their order, with their time, their contours and the fields asked; the links of the result join the same observations as in the network, and are absent when the other observation is not extracted.", "quantifier": "all networks with valid links, masks and lists of fields", "why_tests_cant": "All masks, networks and lists of fields.", "anchors": ["src/py_eddy_tracker/observations/network.py:1555-1601 extract_light_with_mask"]}
{"id": "C175", "title": "The animation shows each day with its tail", "statement": "EddyAnim draws one figure for each day of the period; the figure of a day shows exactly the observations of this day and of the keep_step days before it, with a width which decreases with the age from 2.5 to 0; the left key goes back to the figure of the day before.", "quantifier": "all atlases, periods, numbers of steps and sequences of days", "why_tests_cant": "All atlases, with or without days without observation, and sequences of keys.", "anchors": ["src/py_eddy_tracker/appli/gui.py:24-257 Anim", "src/py_eddy_tracker/appli/gui.py:336-342 anim"]}
{"id": "C176", "title": "The graphic interface shows the eddies of the day in the map", "statement": "The period of GUIEddy goes from the first day of the datasets to the last one; keys move the day by 1 or 5 days or to the ends of the period, opposite keys cancel each other and the day stays in the period; the map shows exactly the eddies of the day inside its limits, of which the 50 oldest ones at least are labelled; its limits keep their centre, contain the former ones and have the shape of the axis; a vertex under the mouse leads to the eddy of its contour.", "quantifier": "all datasets, sequences of keys, limits, shapes and contours", "why_tests_cant": "All sequences of events, sizes of contours and limits of the map.", "anchors": ["src/py_eddy_tracker/gui.py:35-57 end_pan", "src/py_eddy_tracker/gui.py:92-129 set_initial_values, indexs, med", "src/py_eddy_tracker/gui.py:239-248 update", "src/py_eddy_tracker/gui.py:272-281 keyboard", "src/py_eddy_tracker/gui.py:320-326 move"]}
{"id": "C177", "title": "Networks are split on the dates of their observations", "statement": "After split_network a segment has at most one observation by date, each observation is linked forward with the best candidate of the first date with an overlap in the next window days, and the field time is the date of the observation.", "quantifier": "all networks, dates and windows", "why_tests_cant": "All lists of dates, periods of sampling and overlaps.", "anchors": ["src/py_eddy_tracker/observations/tracking.py:607-656 split_network"]}
{"id": "C178", "title": "The values kept by a contour are those which would be computed", "statement": "pixels_in, bbox_slice, pixels_index, nb_pixel and fit_circle of a contour give, whatever the calls made before, what they would compute for its vertices and the grid.", "quantifier": "all contours, grids and sequences of calls", "why_tests_cant": "All sequences of calls.", "anchors": ["src/py_eddy_tracker/dataset/grid.py:138-147 fit_circle_path", "src/py_eddy_tracker/dataset/grid.py:204-236 pixels_in, bbox_slice, pixels_index, nb_pixel"]}
{"id": "C179", "title": "The day of an observation is the day of its grid", "statement": "time_datetime64, the titles of the interfaces and the attributes of files give for each observation the day of the grid where it was detected, and keep the order of dates; period gives the first and the last date of the dataset.", "quantifier": "all dates and datasets", "why_tests_cant": "All dates, hours and datasets.", "anchors": ["src/py_eddy_tracker/dataset/grid.py:951", "src/py_eddy_tracker/observations/observation.py:1851-1853 time_datetime64", "src/py_eddy_tracker/observations/observation.py:2409-2421 period", "src/py_eddy_tracker/gui.py:197", "src/py_eddy_tracker/appli/gui.py:207", "src/py_eddy_tracker/observations/tracking.py:240-241"]}
{"id": "C180", "title": "The options of EddyTracking reach the tracking", "statement": "EddyTracking runs when the configuration file gives the pattern of the files; an option of the command line replaces the key of the file, which replaces the default value; the folder of the results is created when it does not exist; --unraw reads the values without scale and offset.", "quantifier": "all command lines and configuration files", "why_tests_cant": "All combinations of absent, empty and present keys and options.", "anchors": ["src/py_eddy_tracker/appli/eddies.py:151-223 eddies_tracking"]}
{"id": "C181", "title": "Virtual observations are between their neighbours in the files", "statement": "In the files of EddyTracking and EddyFinalTracking, with packed values (default) or not, each observation keeps its packed values and contours, and each virtual observation has values at less than a step of the packing from the line between the observations before and after it in the track, and a contour at its position.", "quantifier": "all sequences of datasets, trackings, packings and values", "why_tests_cant": "All tracks, lengths of gaps, scales and values.", "anchors": ["src/py_eddy_tracker/appli/eddies.py:350-372", "src/scripts/EddyFinalTracking:75-83", "src/py_eddy_tracker/observations/groups.py:280-303 filled_by_interpolation", "src/py_eddy_tracker/observations/observation.py:1651-1666"]}
{"id": "C182", "title": "Loaded values are in the units of the library", "statement": "load_file gives the quantities of the file, in their order, in the unit which the library uses for each variable, for any unit of the file of the same dimension, for netcdf and zarr, raw or not; it refuses a unit of another dimension.", "quantifier": "all files, units and packings", "why_tests_cant": "All pairs of units, packings and values.", "anchors": ["src/py_eddy_tracker/observations/observation.py:1055-1080 compare_units", "src/py_eddy_tracker/observations/observation.py:856-930 load_from_zarr, copy_data_to_zarr", "src/py_eddy_tracker/observations/observation.py:1007-1032 load_from_netcdf"]}
{"id": "C183", "title": "EddyAddCircle puts circles in every file", "statement": "The file written by eddies_add_circle holds the observations of the file read with their centres and radii, and its effective and speed contours are the circles of these radii around the centres, added or in place of the former contours.", "quantifier": "all files, centres and radii", "why_tests_cant": "All files with or without arrays.", "anchors": ["src/py_eddy_tracker/appli/eddies.py:25-42 eddies_add_circle", "src/py_eddy_tracker/observations/observation.py:442-461 add_fields", "src/py_eddy_tracker/observations/observation.py:468-491 circle_contour"]}
{"id": "C184", "title": "The advection uses the velocities of the heights asked", "statement": "uv_for_advection(h_name) gives the velocities of the heights h_name as they are read before the call, whatever the calls made before, and changes nothing of what is read from the grid.", "quantifier": "all grids, names of heights and sequences of calls", "why_tests_cant": "All sequences of calls and of changes of the fields.", "anchors": ["src/py_eddy_tracker/dataset/grid.py:2009-2042 uv_for_advection", "src/py_eddy_tracker/dataset/grid.py:519-566 grid", "src/py_eddy_tracker/dataset/grid.py:1844-1906 add_uv"]}
{"id": "C185", "title": "A mask can be used for several extractions", "statement": "extract_with_mask does not change the mask of the caller: successive extractions with the same mask give what each would give alone.", "quantifier": "all datasets, masks and sequences of options", "why_tests_cant": "All sequences of calls.", "anchors": ["src/py_eddy_tracker/observations/tracking.py:465-514 extract_with_mask"]}
{"id": "C186", "title": "Filled contours have the shape of the contours and the colour of their value", "statement": "filled and display_color draw one polygon by eddy, with the shape of its contour moved by whole turns into the map asked, and a colour whose rank follows the value of the eddy, from the first colour for the least value to the last one for the greatest.", "quantifier": "all datasets, references, values, bounds and numbers of colours", "why_tests_cant": "All contours and values.", "anchors": ["src/py_eddy_tracker/observations/observation.py:1908-1963 filled", "src/py_eddy_tracker/observations/observation.py:2086-2116 display_color", "src/py_eddy_tracker/generic.py:494-499 wrap_longitude"]}
{"id": "C187", "title": "Timelines of networks put observations and events at their heights", "statement": "display_timeline draws each observation of a network at the height of its segment (its number, its value times the factor, or the mean of its segment times the factor) and joins the ends of segments to the observations they merge with or split from, both ends at their heights; the lines of events of scatter_timeline end on its points.", "quantifier": "all networks, variables, arrays, methods and factors", "why_tests_cant": "All networks, options and values.", "anchors": ["src/py_eddy_tracker/observations/network.py:760-831 display_timeline", "src/py_eddy_tracker/observations/network.py:833-920 event_timeline", "src/py_eddy_tracker/observations/network.py:992-1021 scatter_timeline", "src/py_eddy_tracker/observations/network.py:725-732 only_one_network"]}
{"id": "C188", "title": "Edges of scattered observations have the colour of their segment", "statement": "scatter with edgecolor_cycle gives to each observation the colour of the number of its segment, the colours of the cycle being used in turn from one segment to the next.", "quantifier": "all networks and cycles of colours", "why_tests_cant": "All sequences of segments.", "anchors": ["src/py_eddy_tracker/observations/network.py:1058-1103 scatter"]}
{"id": "C189", "title": "Files of older versions are reported, and they only", "statement": "Loading a file warns exactly when the file has no version or when its version is older, by its major and minor parts, than the one of the software; a file written by the software itself is never reported.", "quantifier": "all versions of the software and of files", "why_tests_cant": "All versions.", "anchors": ["src/py_eddy_tracker/observations/observation.py:80-102 _check_versions"]}
{"id": "C190", "title": "The summary of tracks gives the numbers of the tracks", "statement": "The summary printed for tracks gives the lengths of the shortest and the longest tracks, the distances between the consecutive observations of tracks, the lengths of the paths, one by track, and the shares of the tracks and of the observations by class of lifetime.", "quantifier": "all datasets sorted by track", "why_tests_cant": "All datasets and distances.", "anchors": ["src/py_eddy_tracker/observations/tracking.py:116-146 __repr__", "src/py_eddy_tracker/generic.py:161-180 cumsum_by_track"]}
{"id": "C191", "title": "Paths drawn on a map are the paths of the tracks", "statement": "plot draws exactly the steps between consecutive observations of a track (of a segment for networks), each by the short way and at its place modulo 360 degrees, every observation being in the map asked; networks have one line by segment, with the colours in turn.", "quantifier": "all datasets, references of longitude and colours", "why_tests_cant": "All positions and maps.", "anchors": ["src/py_eddy_tracker/observations/tracking.py:588-605 plot", "src/py_eddy_tracker/observations/network.py:1425-1453 plot", "src/py_eddy_tracker/generic.py:444-499 wrap_longitude"]}
{"id": "C192", "title": "Contours drawn on a map are those of the eddies", "statement": "display draws the speed contours then the effective ones (the ones asked by extern_only and intern_only): exactly the edges between consecutive vertices of a contour, never one between two eddies, each at its place modulo 360 degrees and every vertex in the map asked; the effective contours are dashed unless a style is given and there is one label.", "quantifier": "all contours whose consecutive vertices are at most 180 degrees apart, all maps and options", "why_tests_cant": "All contours and maps.", "anchors": ["src/py_eddy_tracker/observations/observation.py:2118-2152 display", "src/py_eddy_tracker/generic.py:331-355 flatten_line_matrix", "src/py_eddy_tracker/generic.py:444-499 wrap_longitude"]}
{"id": "C193", "title": "Links between two dates do not depend on the rows nor on the rest of the ocean", "statement": "When no two couples of near observations have the same cost, the couples linked by tracking do not depend on the order of the observations in the two datasets, do not change when everything outside of a region is removed, provided that no eddy of the region is near an eddy outside, and are the same from the second dataset to the first.", "quantifier": "all datasets, masks and costs without equal costs, all orders and regions", "why_tests_cant": "All orders of observations and all regions.", "anchors": ["src/py_eddy_tracker/observations/observation.py:1524-1546 tracking", "src/py_eddy_tracker/observations/observation.py:1404-1464 solve_simultaneous", "src/py_eddy_tracker/observations/observation.py:1287-1318 mask_function, cost_function"]}
{"id": "C194", "title": "Extractions of a network one after the other", "statement": "To extract a part of an extraction of a network is to extract at once the observations which are in both selections: same observations, same previous and next links; two selections give the same network in both orders and the extraction of everything is the network itself.", "quantifier": "all networks with valid links and all masks", "why_tests_cant": "All networks and couples of masks.", "anchors": ["src/py_eddy_tracker/observations/network.py:1605-1637 extract_with_mask"]}
{"id": "C195", "title": "Links do not depend on the convention of longitudes", "statement": "When the longitude of each observation is changed by any number of turns, which can differ between observations and datasets, tracking gives the same links with the default tracker, the tracker of Chelton and the tracker by area.", "quantifier": "all datasets and turns; the tracker by area for contours which are together narrower than 180 degrees", "why_tests_cant": "All longitudes, any turn for each observation.", "anchors": ["src/py_eddy_tracker/observations/observation.py:1524-1546 tracking", "src/py_eddy_tracker/featured_tracking/area_tracker.py:37-49 cost_function, tracking", "src/py_eddy_tracker/featured_tracking/old_tracker_reference.py:22-76 mask_function"]}
{"id": "C196", "title": "The match of two datasets is the same from both sides", "statement": "other.match(self) gives the couples of self.match(other), exchanged, with the same scores, unless p1_area is asked, which divides by the area of the second contour.", "quantifier": "all datasets of contours which are together narrower than 180 degrees, all cmin, options without p1_area", "why_tests_cant": "All datasets of contours.", "anchors": ["src/py_eddy_tracker/observations/observation.py:1194-1248 match", "src/py_eddy_tracker/poly.py:437-500 vertice_overlap"]}
{"id": "C197", "title": "Tracked datasets are put together by steps or at once", "statement": "To concatenate datasets by groups, then the groups, gives exactly the dataset of all of them at once: same rows, same numbers of tracks.", "quantifier": "all groups of non empty tracked datasets", "why_tests_cant": "All numbers, sizes and groups of datasets.", "anchors": ["src/py_eddy_tracker/observations/tracking.py:316-327 concatenate"]}
{"id": "C198", "title": "Merged datasets keep their tracks apart", "statement": "merge gives the observations of both datasets, each with its numbers of tracks moved by one constant, and no track of one has the number of a track of the other.", "quantifier": "all pairs of datasets with tracks", "why_tests_cant": "All pairs of datasets, any order of the rows.", "anchors": ["src/py_eddy_tracker/observations/observation.py:547-562 merge"]}
{"id": "C199", "title": "The segments of a network depend on this network only", "statement": "With steps of time given, the segments of a dataset of networks are those of each part of it which shares no network with the rest, with the links moved by the place of the part; when all the dates are later by some steps, the segments and the links are the same and the dates are later by the same.", "quantifier": "all datasets sorted by network, overlaps, windows and splits of the dataset between networks", "why_tests_cant": "All numbers and sizes of networks, all overlaps and dates.", "anchors": ["src/py_eddy_tracker/observations/tracking.py:607-656 split_network"]}
{"id": "C200", "title": "Selections of tracks and normalisations of longitudes one after the other", "statement": "Two selections of tracks by length give the tracks in both bounds, in both orders, and a selection done twice changes nothing more; a normalised dataset is left unchanged by normalize_longitude, the normalisation of some tracks is the part of these tracks in the normalised dataset, and selection by length and normalisation can be exchanged.", "quantifier": "all datasets in the order of tracks, all bounds which are accepted", "why_tests_cant": "All tracks, lengths, bounds and longitudes.", "anchors": ["src/py_eddy_tracker/observations/tracking.py:414-436 extract_with_length", "src/py_eddy_tracker/observations/tracking.py:173-199 normalize_longitude"]}
{"id": "C201", "title": "Particles do not depend on the convention of longitudes", "statement": "On a grid around the globe, when the longitude of each particle is changed by any number of turns, which can differ between particles, it goes along the same path, changed by the same turns, and the same particles are lost, with the methods of Euler and RK4, in steady currents and in currents which change with time.", "quantifier": "all grids around the globe, currents, masks, particles, turns and numbers of steps", "why_tests_cant": "All particles and turns, any number of steps.", "anchors": ["src/py_eddy_tracker/dataset/grid.py:2109-2251 advect_rk4, advect", "src/py_eddy_tracker/dataset/grid.py:2639-2891 advect_t, advect_t_rk4"]}
{"id": "C202", "title": "Steady and uniform currents", "statement": "Between two equal layers particles move as in the current of this layer; in a current which is the same everywhere around the globe, n steps move a particle by n times the current, whatever its longitude, and the opposite current brings it back to its start, with both methods.", "quantifier": "all grids, currents, weights of layers and particles; for uniform currents the latitudes of the particle at the start and at the end are in the grid", "why_tests_cant": "All numbers of steps and positions, any number of crossings of the border of the grid.", "anchors": ["src/py_eddy_tracker/dataset/grid.py:2109-2251 advect_rk4, advect", "src/py_eddy_tracker/dataset/grid.py:2639-2891 advect_t, advect_t_rk4"]}
{"id": "C203", "title": "The circle fitted to a contour does not depend on its first vertex, its direction or the turn of its longitudes", "statement": "fit_circle on a closed contour gives the same centre, radius and shape error when the contour starts at another vertex or is described in the other direction; in the same way for the fit of a contour in longitude and latitude, and whole turns of its longitudes move the centre by the same turns and change nothing else.", "quantifier": "all closed contours which are not flat, all rotations and the reversal of the vertices, all numbers of turns", "why_tests_cant": "All numbers and positions of vertices.", "anchors": ["src/py_eddy_tracker/poly.py:529-570 fit_circle", "src/py_eddy_tracker/poly.py:672-703 shape_error", "src/py_eddy_tracker/dataset/grid.py:166-183 fit_circle_path"]}
{"id": "C204", "title": "The links of the tracker by area do not depend on the rows nor on the rest of the ocean", "statement": "The couples of contours linked by AreaTracker, with their costs, are the same for any order of the rows of both dates; in a region such that no contour inside would be linked, alone, with a contour outside, they are the links of the whole ocean which are in the region; a link has the cost which its two contours have alone.", "quantifier": "all contours, areas of any library, limits and regions; the costs of the couples are distinct", "why_tests_cant": "All datasets, orders and regions.", "anchors": ["src/py_eddy_tracker/featured_tracking/area_tracker.py:36-49 tracking", "src/py_eddy_tracker/featured_tracking/area_tracker.py:69-75 mask_cmin", "src/py_eddy_tracker/observations/observation.py:1524-1546 tracking"]}
{"id": "C205", "title": "The maps of several datasets are the sums of their maps", "statement": "grid_count, by centre or by contour, of two datasets put together is the sum of both maps, and grid_stat is the mean of both weighted by the counts, masked where both are; the maps do not depend on the order of the observations nor on the convention of the longitudes of the centres and of each vertex.", "quantifier": "all datasets, contours, bins, orders and turns of longitudes", "why_tests_cant": "All numbers of observations, bins and contours.", "anchors": ["src/py_eddy_tracker/observations/observation.py:2218-2272 grid_count", "src/py_eddy_tracker/observations/observation.py:2322-2365 grid_stat", "src/py_eddy_tracker/observations/observation.py:2450-2508 grid_count_, grid_count_pixel_in"]}
{"id": "C206", "title": "Networks grow with the window and the dates and do not depend on the rest of the ocean", "statement": "Two observations in the same network stay in the same network with a larger window, a lower limit of overlap and more files before and after; with the rows of each file in another order, or in a region such that no row left overlaps a row kept, the networks are the same; and they are the same when the files are given in the opposite order.", "quantifier": "all files of contours, windows, limits and regions; contours narrower than half a turn together; symmetric areas for the direction of time", "why_tests_cant": "All numbers of files and observations, all shapes of networks.", "anchors": ["src/py_eddy_tracker/observations/network.py:2025-2070 group_observations", "src/py_eddy_tracker/observations/network.py:1969-2003 get_group_array"]}
{"id": "C207", "title": "Numbers and orders given again to a network", "statement": "numbering_segment and numbering_network called twice give the numbers of the last call alone, and the same call again changes nothing; the numbering without gap in the same order is unique; a network sorted twice is the network sorted once, with the same links.", "quantifier": "all networks sorted by network and segment for the numbers, all networks with valid links for the order; all first numbers and orders of the fields", "why_tests_cant": "All networks and numbers.", "anchors": ["src/py_eddy_tracker/observations/network.py:409-427 sort", "src/py_eddy_tracker/observations/network.py:712-723 numbering_segment, numbering_network", "src/py_eddy_tracker/observations/network.py:2228-2236 new_numbering"]}
{"id": "C208", "title": "The whole tracking does not depend on the convention of longitudes of the files", "statement": "Two sequences of files whose observations are the same, each of them in any turn of longitude, are tracked in the same way by the default tracker, the tracker of Chelton and the tracker by area: the same tables of links with the same costs, the same numbers of tracks, the same rows in the merged file, and the lost eddies are searched at the same positions modulo 360. More generally the tracking is a function of what the class of tracking reads.", "quantifier": "all sequences of files, numbers of virtual observations and turns; contours narrower than half a turn together for the tracker by area", "why_tests_cant": "All lengths of sequences and of gaps: virtual observations are computed from differences of longitudes.", "anchors": ["src/py_eddy_tracker/tracking.py:365-403 track", "src/py_eddy_tracker/observations/observation.py:1128-1178 propagate", "src/py_eddy_tracker/featured_tracking/area_tracker.py:36-66 AreaTracker", "src/py_eddy_tracker/featured_tracking/old_tracker_reference.py:17-76 CheltonTracker"]}
{"id": "C209", "title": "The default tracking is the same in other units, from another meridian and in the mirror", "statement": "Amplitudes and radii in other units, longitudes from another meridian or to the west, latitudes to the south: the default tracker gives the same links and costs, the same tracks, the same unused observations, and searches the lost eddies at the same places.", "quantifier": "all sequences of files, all non null factors of units, all meridians, both directions of each axis", "why_tests_cant": "All values of the factors and meridians, all sequences.", "anchors": ["src/py_eddy_tracker/tracking.py:365-403 track", "src/py_eddy_tracker/observations/observation.py:1288-1318 mask_function, cost_function", "src/py_eddy_tracker/observations/observation.py:1524-1546 tracking", "src/py_eddy_tracker/generic.py:101-136 distance_grid"]}
{"id": "C210", "title": "Virtual observations inserted then removed, in other units", "statement": "The removal of the virtual rows after insert_virtual gives back the rows of the dataset in their order with their values. The insertion in other units of time, from another date, with fields in other units and from other references is the insertion followed by the same change.", "quantifier": "all datasets whose median step is positive, all positive factors and all references of times, all factors and references of fields", "why_tests_cant": "All lengths of tracks and gaps.", "anchors": ["src/py_eddy_tracker/observations/groups.py:305-328 insert_virtual", "src/py_eddy_tracker/observations/groups.py:15-67 get_missing_indices"]}
{"id": "C211", "title": "Statistics by bins of datasets put together, in another order, with finer bins", "statement": "hist and bins_stat do not depend on the order of the rows. The counts and sums of two datasets put together are the sums of their counts and sums, and the mean of a bin is the mean weighted by the counts. A field in another unit gives sums in this unit. When a bin is cut in two, it holds what the two parts hold and the other bins do not change.", "quantifier": "all bins, datasets and masks", "why_tests_cant": "All values, on the edges of the bins too.", "anchors": ["src/py_eddy_tracker/observations/observation.py:285-306 hist", "src/py_eddy_tracker/observations/observation.py:2051-2076 bins_stat", "src/py_eddy_tracker/generic.py:96-98 hist_numba"]}
{"id": "C212", "title": "Interpolations, derivatives and velocities of a sum of fields", "statement": "For two fields on the same valid pixels, the interpolation (bilinear or nearest, on a grid or between two dates of a collection), the gradients of compute_stencil and of compute_finite_difference, and the velocities of add_uv of a combination of the two fields are the combination of those of each field; they are masked at the same places, and infinite at the same places for velocities.", "quantifier": "all grids, masks, fields, factors, points and widths of the scheme; points not in the cell of the initial marks of the interpolation; variables of compute_stencil which are not set combined as the fields are (C226 is without this condition)", "why_tests_cant": "All fields and factors, near the mask as elsewhere.", "anchors": ["src/py_eddy_tracker/generic.py:184-300 interp2d_geo, interp2d_nearest, interp2d_bilinear", "src/py_eddy_tracker/dataset/grid.py:2393-2415 interp", "src/py_eddy_tracker/dataset/grid.py:2902-3013 compute_stencil", "src/py_eddy_tracker/dataset/grid.py:1673-1703 compute_finite_difference", "src/py_eddy_tracker/dataset/grid.py:1844-1906 add_uv"]}
{"id": "C213", "title": "The tracking of a region does not depend on the rest of the ocean", "statement": "When at each date the tracker links no observation of a region (found or lost) with one outside, and links those of the region as it does alone, the tracking of the files restricted to the region gives the tracks of the whole ocean which are in the region: table by table the same links with the same costs and virtual flags, at the rows of the observations in the restricted files, in tracks with new numbers in the same order, and the same lost eddies are searched.", "quantifier": "all sequences of files, regions, trackers and numbers of virtual observations; lost observations stay in their part of the ocean", "why_tests_cant": "All lengths of sequences: numbers of tracks, rows of lost observations and counters change at each date.", "anchors": ["src/py_eddy_tracker/tracking.py:365-403 track", "src/py_eddy_tracker/tracking.py:215-278 store_correspondance", "src/py_eddy_tracker/tracking.py:290-333 recense_dead_id_to_extend", "src/py_eddy_tracker/observations/observation.py:1128-1178 propagate"]}
{"id": "C214", "title": "The default and area trackers on a region far from the rest of the ocean", "statement": "When a region stays at 125 km or more of the rest of the ocean at each date, the default tracking of the files of the region gives the tracks of the whole ocean which are in the region, as in C213. The same holds for the tracker by area when no contour of the region would be linked with a contour outside if they were alone.", "quantifier": "all sequences of files, regions and numbers of virtual observations; files without repetition, without ties of cost, with positive sizes; lost observations stay in their part of the ocean", "why_tests_cant": "All lengths of sequences and all positions.", "anchors": ["src/py_eddy_tracker/tracking.py:365-403 track", "src/py_eddy_tracker/observations/observation.py:1524-1546 tracking", "src/py_eddy_tracker/observations/observation.py:1128-1178 propagate", "src/py_eddy_tracker/featured_tracking/area_tracker.py:36-65 AreaTracker"]}
{"id": "C215", "title": "The links of the tracker of Chelton depend on the observations around only", "statement": "With rows in both datasets and without ties, the tracker of Chelton links an observation with exactly its nearest possible follower (one with which it would be linked alone), when it has the largest amplitude of the observations with this nearest follower. So the links do not depend on the order of the rows, and in a region of which no observation could follow one outside the links and whole trackings are those of the whole ocean. A date without observation of the region is the exception: the tracking of the region alone raises.", "quantifier": "all grids of the ground, datasets, regions and sequences of files; positive amplitudes and radii; no two possible followers at the same distance, no two possible predecessors of the same amplitude", "why_tests_cant": "All positions and all paths across the ground.", "anchors": ["src/py_eddy_tracker/featured_tracking/old_tracker_reference.py:17-76 CheltonTracker", "src/py_eddy_tracker/observations/observation.py:1467-1546 solve_first, tracking", "src/py_eddy_tracker/dataset/grid.py:2255-2320 compute_pixel_path", "src/py_eddy_tracker/tracking.py:365-403 track"]}
{"id": "C216", "title": "The order of the rows of the files does not change the tracks", "statement": "When the same observations are written in the files in another order, the tracking gives the same tables of links up to the numbers of the tracks: the same couples of observations with the same costs, the same virtual links with the same lengths, gathered in the same tracks (one injective renaming of the numbers for the whole run), and as many tracks. This is proved for all trackers whose links are one-to-one and do not depend on the order of the rows, then for the default tracker, the tracker by area and the tracker of Chelton without ties. With ties the order of the rows can choose the eddy which is followed.", "quantifier": "all sequences of files, orders of the rows of each file, numbers of virtual observations, trackers as above; at each date the observations searched (with the lost ones) and the new ones are distinct and without ties of cost", "why_tests_cant": "All lengths of sequences and all orders, lost observations included.", "anchors": ["src/py_eddy_tracker/tracking.py:215-333 store_correspondance, recense_dead_id_to_extend", "src/py_eddy_tracker/tracking.py:365-403 track", "src/py_eddy_tracker/observations/observation.py:1524-1546 tracking", "src/py_eddy_tracker/featured_tracking/area_tracker.py:36-65 AreaTracker", "src/py_eddy_tracker/featured_tracking/old_tracker_reference.py:17-76 CheltonTracker"]}
{"id": "C217", "title": "The order of the rows of the files does not change the merged dataset of the tracks", "statement": "When the same observations are written in the files in another order, the dataset built from the tracking (prepare_merging, merge) holds the same tracks under other numbers: each track has as many rows, and at each place of the track the row has the same date, the same observation (or is again the row of a lost one) and the same cost. The dataset has as many rows, and as many tracks are at least as long as any limit. This is proved for all trackers whose links are one-to-one and do not depend on the order of the rows, then for the default tracker, the tracker by area and the tracker of Chelton without ties; with ties the merged datasets can differ.", "quantifier": "all sequences of files, orders of the rows of each file, numbers of virtual observations, trackers as above; at each date the observations searched (with the lost ones) and the new ones are distinct and without ties of cost", "why_tests_cant": "All lengths of sequences and all orders, lost observations included.", "anchors": ["src/py_eddy_tracker/tracking.py:567-587 prepare_merging", "src/py_eddy_tracker/tracking.py:632-722 merge", "src/py_eddy_tracker/tracking.py:365-403 track"]}
{"id": "C218", "title": "The order of the rows of the files does not change the three files of the final tracking", "statement": "When the same observations are written in the files in another order, EddyFinalTracking either raises for both orders or writes three files which hold the same: at each date the same observations without track, the same long tracks and the same short tracks (as lists of dates and observations, with the rows of lost observations at the same places), with the numbers of the tracks and the order of the rows as only differences. This is proved for all trackers whose links are one-to-one and do not depend on the order of the rows, then for the default tracker, the tracker by area and the tracker of Chelton without ties; with ties another eddy can be left without track.", "quantifier": "all sequences of files, orders of the rows of each file, minimal lengths, numbers of virtual observations, trackers as above; at each date the observations searched (with the lost ones) and the new ones are distinct and without ties of cost", "why_tests_cant": "All lengths of sequences, all orders and all minimal lengths, lost observations included.", "anchors": ["src/scripts/EddyFinalTracking:49-86", "src/py_eddy_tracker/tracking.py:589-630 longer_than, shorter_than", "src/py_eddy_tracker/tracking.py:632-722 merge", "src/py_eddy_tracker/tracking.py:724-755 get_unused_data"]}
{"id": "C219", "title": "The order of the rows of the files does not change the virtual observations of the final tracking", "statement": "EddyFinalTracking flags the rows of lost observations and interpolates them along the rows of the whole file. When the same observations are written in the files in another order, the long and the short file hold the same tracks after this step: the same flags and the same values of all the fields, virtual observations included. The field time must be nowhere zero (day 0 is 1950-01-01): otherwise real observations are replaced by values taken from the tracks written before and after, which depend on the order of the rows of the files.", "quantifier": "all sequences of files, orders of the rows of each file, minimal lengths, numbers of virtual observations, lists of fields; trackers and conditions of the property on the three files of the final tracking", "why_tests_cant": "All lengths of sequences, all orders, all gaps and all values of the fields.", "anchors": ["src/scripts/EddyFinalTracking:79-83", "src/py_eddy_tracker/observations/groups.py:280-303 filled_by_interpolation", "src/py_eddy_tracker/tracking.py:632-722 merge"]}
{"id": "C220", "title": "The spectra of a grid follow the units of the field and of the distances", "statement": "When the field of a grid is multiplied by a number, spectrum_lonlat gives the same wavelengths and the powers multiplied by the square of this number, and the spectrum relative to a reference in the same units is the same. When the distances are written in another unit, the wavelengths are multiplied by the ratio of the units, as the densities, while the powers of scaling='spectrum' are the same; the relative spectrum is the same for densities. With scaling='spectrum' and a reference, the result depends on the unit of the distances: it is a power divided by a density, because the option is not given to the reference.", "quantifier": "all grids, areas, fields, invalid columns and lines, steps, factors (not zero for the field of relative spectra, positive for distances); all functions welch that are quadratic in the signal and follow the sampling frequency", "why_tests_cant": "All fields, sizes, invalid lines and factors.", "anchors": ["src/py_eddy_tracker/dataset/grid.py:1606-1671 spectrum_lonlat"]}
{"id": "C221", "title": "The order of the lines and of the columns does not change the spectra across them", "statement": "The spectrum along the lines given by spectrum_lonlat, also relative to a reference, does not depend on the order of the lines (latitudes from north to south or from south to north), and the spectrum along the columns does not depend on the order of the columns (longitudes which begin elsewhere): same frequencies and same powers, although the frequencies are built with the number of frequencies of the last line and the bounds are gathered line by line.", "quantifier": "all grids, areas, fields, invalid columns and lines, steps, permutations of the lines or of the columns; all functions welch whose number of frequencies depends on the number of samples and whose frequencies depend on the sampling frequency", "why_tests_cant": "All sizes and all permutations.", "anchors": ["src/py_eddy_tracker/dataset/grid.py:1606-1671 spectrum_lonlat"]}
{"id": "C222", "title": "The smoothed tracks are the same in other units and in the reversed time", "statement": "median_filter, loess_filter and position_filter of tracks commute with other writings of the data: when times are multiplied by a positive number with the half windows (days or hours) and counted from another date, values multiplied by any number and shifted (other units, other meridian, mirror), and tracks numbered otherwise, the smoothed values are the former ones in the new writing. When the rows are taken from the last to the first with the time reversed, the smoothed values are the former ones from the last to the first: no filter delays or advances a track.", "quantifier": "all lengths, times, values, tracks, half windows, factors and shifts; loess in other units for positive half windows; median in the reversed time and position_filter for tracks written in a row in the order of time and half windows which are not negative", "why_tests_cant": "All lengths of tracks, irregular times, ties, even and odd windows, negative factors.", "anchors": ["src/py_eddy_tracker/observations/tracking.py:820-892 track_loess_filter, track_median_filter", "src/py_eddy_tracker/observations/tracking.py:438-463 loess_filter, median_filter, position_filter", "src/py_eddy_tracker/observations/network.py:734-758 position_filter"]}
{"id": "C223", "title": "The resampled profile is the same in other units and in the other direction", "statement": "raw_resample, which gives all profiles of speed the same size, commutes with other writings of a profile: values multiplied by any number and shifted give the resampled values multiplied and shifted, and a profile taken from its last value to its first one gives the resampled profile from its last value to its first one.", "quantifier": "all profiles, sizes, factors and shifts; at least two values and two points for the direction", "why_tests_cant": "All sizes and values.", "anchors": ["src/py_eddy_tracker/dataset/grid.py:78-84 raw_resample"]}
{"id": "C224", "title": "Derivatives in the mirror and from another meridian", "statement": "When the columns of a field are taken from the last one to the first one, compute_stencil gives the opposite derivative at the same place, with the same mask, wherever the stencil is in the domain, and compute_finite_difference does so at every column: no direction is preferred, also near masked cells. On a grid which makes the turn of the Earth, the derivative of compute_stencil does not depend on the column where the grid begins. At the borders of a grid which is not circular compute_stencil is not symmetric: it uses former values on one side and repeats the last one on the other side.", "quantifier": "all lines of at least four values, masks, half widths, factors, first columns, former values of the variables; all schemes of finite differences not longer than the line, with and without wrapping", "why_tests_cant": "All sizes, masks and values.", "anchors": ["src/py_eddy_tracker/dataset/grid.py:2902-3013 compute_stencil", "src/py_eddy_tracker/dataset/grid.py:1673-1703 compute_finite_difference"]}
{"id": "C225", "title": "Geostrophic velocities in the mirror, in the other hemisphere and from another meridian", "statement": "When the longitudes of a field of heights are taken in the other direction, add_uv gives the same u and the opposite v at the same place, masked and infinite at the same places. When the same heights are put in the other hemisphere, at the opposite latitudes, it also gives the same u and the opposite v at the opposite latitude: the same eddy turns in the opposite direction. On a grid which makes the turn of the Earth, the velocities do not depend on the meridian where the grid begins. All of this holds wherever the stencil is in the domain, whatever the variables held before.", "quantifier": "all heights, masks, grids of at least four by four, half widths, geometries, first meridians, former values of the variables; cells whose stencil is in the domain", "why_tests_cant": "All sizes, masks, heights and latitudes.", "anchors": ["src/py_eddy_tracker/dataset/grid.py:1844-1906 add_uv", "src/py_eddy_tracker/dataset/grid.py:2902-3013 compute_stencil"]}
{"id": "C226", "title": "Velocities of sums of heights computed by separate calls", "statement": "C212 relates the variables which compute_stencil leaves unset in the three calls; here the calls are separate and these variables hold anything. On fields with the same mask compute_stencil and add_uv are linear wherever the stencil is in the domain: the geostrophic velocities of an absolute topography are the sums of those of the anomaly and of the mean topography, the velocities of heights times a constant are the velocities times this constant, masked and infinite at the same places, whatever the variables held before. The same mask is needed: near a cell which is masked in one field only, the derivative of the sum is taken on one side and is another number. At the first column of a grid which is not circular it fails: the sum of separate calls differs from the call on the sum by what the variables held.", "quantifier": "all fields with the same mask, factors, grids of at least four by four, half widths, geometries, former values of the variables; cells whose stencil is in the domain", "why_tests_cant": "All sizes, masks, heights and factors.", "anchors": ["src/py_eddy_tracker/dataset/grid.py:1844-1906 add_uv", "src/py_eddy_tracker/dataset/grid.py:2902-3013 compute_stencil"]}
