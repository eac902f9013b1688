# Design of the formal model

Subject: py-eddy-tracker (sources read as text in `/repo/src/py_eddy_tracker`, never run).
Tool: Lean 4.33.0 and single Mathlib modules. Property list: `properties.jsonl`; status: `MANIFEST.json`.

## Trusted base

* Lean's kernel, and the axioms `propext`, `Classical.choice`, `Quot.sound` (at most; checked with `#print axioms`).
  No own axioms, no `sorry`, no `native_decide`, no `bv_decide`.
* The reading of the Python source: every definition cites file and lines, and names its simplifications.
* Floats are exact numbers (`ℚ`, or an arbitrary linear ordered field). Rounding, `nan` arithmetic and
  overflow are out of the model; `nan` is `none` where the code uses it as a marker.
* Integers are unbounded unless stated. numba code has no bounds check: array accesses are modelled by
  explicit `Option` reads / `Except` writes so that an out-of-range access is visible as a value.
* numpy/numba primitives used by the code (fancy indexing, `argsort` stable, `bincount`, `unique`, `where`) are
  replaced by their list counterparts, named in the comments.
* Not modelled: plotting, netCDF/zarr byte format, matplotlib contour tracing, scipy filters, projections,
  sea-level physics, command-line parsing, performance.

## Method

Each topic has `Verif/<Topic>/Model.lean` (or one file) with the functions and their source lines, lemmas, and a
file of property theorems whose statements only use small specification notions (lists, counts, reachability).
When the unchanged code violates a property, the negation is proved on a concrete witness and the part that does
hold is kept as a theorem with the suffix `_partial`.

## Plan per property

| id | modelled | proof |
|----|----------|-------|
| C01-C02 | solve_simultaneous on matrices of optional costs | loop invariant on the submatrix of conflicts |
| C03 | solve_first on rows of optional costs | argmin lemma |
| C04 | post_process_link on link lists | per-target argmax |
| C05 | get_group on link lists | case analysis on link counts |
| C06, C10 | store_correspondance + id generator as a state machine | invariant over histories |
| C07 | prepare_merging + merge index arithmetic | invariant over histories |
| C08, C09 | longer_than, shorter_than, get_unused_data | list lemmas, witness for the empty selection |
| C11 | load_state / to_netcdf as state projection | state equality, witness for loss |
| C12, C13 | group_translator, get_group_array | invariant "label classes = closure of processed pairs" |
| C14, C15 | tag_segment, segment_relative_order on adjacency maps | DFS and relaxation invariants |
| C16-C19 | network pointer functions | list lemmas, reachability invariants, witnesses |
| C20 | set_tracks / follow_obs | invariant on (segment, time) pairs |
| C21 | Buffer | refinement to the file map |
| C22-C26 | TrackEddiesObservations functions | list lemmas, witnesses |
| C27 | build_index | invariant of the scan |
| C28, C29 | get_missing_indices, loess/median windows | list lemmas, convexity |
| C30-C34 | filters, iter_on, align_on, grid_box_stat, grid_count | case tables, merge-join invariant, witnesses |
| C35-C39 | polygon functions | telescoping, heap invariant, termination measure |
| C40-C43 | line functions of generic.py | scans as list recursion, witnesses for out-of-range accesses |
| C44-C45 | advection with cache | cache transparency by simulation; witness for negative rows |
| C46-C47 | compute_stencil | ring identities; witnesses |
| C48 | compute_pixel_path | integer/rational arithmetic |
| C49-C50 | identification fold, get_uavg fold | fold invariants |
| C51-C52 | grid collection time loop, filament ring | loop invariants, witness |
| C53 | Amplitude | symmetry and acceptance |
| C54, C55 | same_position, get_targets | list invariants |
| C56-C59 | add_distance, extract_ids, extract_with_length, extract_toward_direction | list lemmas, witnesses |
| C60 | links after insert_virtual | loop invariant, witness |

## Modules and results

| module | source modelled | properties |
|--------|-----------------|------------|
| `Verif.Matching` | observation.py solve_function/solve_simultaneous/solve_first/post_process_link, tracking loop | C01-C04 |
| `Verif.Compare` | tracking.py-level comparison `get_group` | C05 |
| `Verif.Tracking` | tracking.py `Correspondances` (store, track, prepare_merging, merge, longer/shorter_than, unused, save/load) | C06-C11 |
| `Verif.Network.Group` | network.py group_translator, get_group_array | C12, C13 |
| `Verif.Tracks` | observations/tracking.py index, extraction, normalisation, concatenation, selection by length/direction | C22-C26, C56-C59 |
| `Verif.Index` | generic.py build_index | C27 |
| `Verif.Missing` | groups.py get_missing_indices, insert_virtual, filled_by_interpolation; network.py fix_next_previous_obs | C28, C60 |
| `Verif.Smooth` | observations/tracking.py track_loess_filter, track_median_filter | C29 |
| `Verif.Segments` | network.py segment_track_array, connexions, tag_segment, dissociate_network, segment_relative_order, relatives | C14, C15 |
| `Verif.Links` | network.py extract_with_mask, sort, remove_dead_end, find_link | C16-C19 |
| `Verif.Segmentation` | observations/tracking.py split_network, set_tracks, follow_obs, get_previous_obs, get_next_obs; network.py from_split_network | C20 |
| `Verif.Buffer` | network.py Singleton, Buffer | C21 |
| `Verif.Filters` | observation.py merge_filters, __merge_filters__ | C30 |
| `Verif.Bins` | observation.py numba_digitize, iter_mode_reduce, iter_on (bins), align_on | C31, C32 |
| `Verif.Boxes` | observation.py grid_box_stat, grid_count (centres), grid_stat (method) | C33, C34, C61 |
| `Verif.Poly.{Model,Winding,Hull}` | poly.py is_left, winding_number_poly, reduce_size, convex, get_convex_hull | C35, C38, C39, C62 |
| `Verif.Poly.{Visvalingam,VisvalingamProps}` | poly.py tri_area2, visvalingam (heap = sorted list) | C37 |
| `Verif.Poly.Indexs` | poly.py group_obs, box_index(es), poly_indexs, insidepoly | C36 |
| `Verif.Lines.{Model,Flat}` | generic.py flatten_line_matrix, split_line (positioned writes) | C41 |
| `Verif.Lines.Simplify` | generic.py simplify | C42 |
| `Verif.Lines.Wrap` | generic.py wrap_longitude | C40 |
| `Verif.Lines.Window` | generic.py window_index, observation.py iter_on with window | C43, C63 |
| `Verif.Targets` | groups.py get_targets, get_matrix, merge_particle_result | C55 |
| `Verif.Identify` | network.py same_position, identify_in (networks) | C54 |
| `Verif.Amplitude` | eddy_feature.py Amplitude, detect_local_minima_ | C53 |
| `Verif.Detection.{Model,Props}` | grid.py eddy_identification (loop), get_uavg, has_masked_value, has_value | C49, C50 |
| `Verif.Detection.Nearest` | eddy_feature.py index_from_nearest_path_with_pt_in_bbox_ | C64 |
| `Verif.Advect.{Model,Props}` | grid.py get_grid_indices, get_uv_quad, interp_uv, advect, advect_rk4, advect_t, advect_t_rk4 | C44 |
| `Verif.Advect.Cell` | the cells used, interpolation, order of RK4 | C45, C65 |
| `Verif.Advect.Unsteady` | currents varying in time, wrapped grids | C45, C65 |
| `Verif.Advect.Time` | grid.py GridCollection.advect, get_next_time_step, get_previous_time_step | C51, C44 |
| `Verif.Advect.Filament` | grid.py filament (both classes) | C52 |
| `Verif.Stencil` | grid.py compute_stencil, compute_finite_difference | C46, C47 |
| `Verif.PixelPath` | grid.py compute_pixel_path | C48 |
| `Verif.Pixels.*` | generic.py nearest_grd_indice, bbox_indice_regular; poly.py get_pixel_in_regular, winding_number_grid_in_poly; observation.py grid_count, grid_count_pixel_in, grid_stat (mean) | C66, C67 |
| `Verif.Events.{Model,Lemmas,Props}` | network.py birth_event, death_event, merging_event, splitting_event, first_is_trash, remove_trash, extract_event | C68, C69 |
| `Verif.Events.Follow` | network.py mask_follow_obs, mask_obs_close_event | C70 |
| `Verif.Events.Numbering` | network.py new_numbering, numbering_segment, numbering_network, index_network (cache) | C71 |
| `Verif.Events.Correct` | network.py correct_close_events, swap_track (before the sort) | C72, C73 |
| `Verif.Events.Several` | same model: any number of independent close events, any number of swaps without common segment | C72, C73 |
| `Verif.Match.{Model,Props}` | observation.py match; poly.py close_center, bbox_intersection, get_wrap_vertice, vertice_overlap (areas of polygons are parameters) | C74 |
| `Verif.Match.Close` | observations/tracking.py close_tracks, observation.py re_reference_index | C75 |
| `Verif.Poly.Area` | poly.py poly_area | C76 |
| `Verif.Match.Contain` | poly.py poly_contain_poly | C77 |
| `Verif.Poly.Mesh` | poly.py create_meshed_particles | C78 |
| `Verif.Interp.{Model,Props}` | generic.py interp2d_bilinear, interp2d_nearest, interp2d_geo | C79, C80 |
| `Verif.Convolve.{Model,Props}` | grid.py convolve_filter_with_dynamic_kernel, finalize_kernel (values of the kernels and filter2D of OpenCV away of borders are parameters or taken as a correlation) | C81, C82 |
| `Verif.Runs.Props` | generic.py count_consecutive, cumsum_by_track | C83 |
| `Verif.Extract.{Model,Props}` | observation.py insert_observations, __add__, period, extract_with_area, time_sub_sample, first_obs, last_obs, contains, mask_from_polygons | C84, C85, C86 |
| `Verif.Store.{Model,Props}` | __init__.py VAR_DESCR, VAR_DESCR_inv; observation.py create_variable, create_variable_zarr, load_from_netcdf, load_from_zarr, copy_data_to_zarr, attributes (netCDF4 and zarr are their packing formula; fill values and precision of floats are not modelled) | C87, C88 |
| `Verif.Fields.{Model,Props}` | observation.py elements, coherence, concatenate, copy, add_fields, remove_fields (types are not modelled) | C89 |
| `Verif.Grouping.{Model,Props}` | network.py group_observations, build_dataset, get_next_index (fields copied are opaque, polygon areas of `polygon_overlap` are a parameter) | C90, C91 |
| `Verif.Select.{Model,Props}` | network.py networks, network, network_size, nb_network, longer_than, extract_with_period, normalize_longitude, unique_segment_to_id; groups.py keep_tracks_by_date; tracking.py extract_with_period (one contour field) | C92, C93, C94 |
| `Verif.Particles.{Model,Props}` | groups.py particle_candidate, particle_candidate_step, particle_candidate_atlas, fill_coherence; network.py segment_coherence_backward, segment_coherence_forward (the advection of a particle is a parameter, files of the current are not modelled) | C95 |
| `Verif.Sphere.{Model,Props}` | generic.py distance, distance_grid, coordinates_to_local, local_to_coordinates; observation.py mask_function (exact reals, noncomputable; `arctan2` is the argument of a complex number) | C96, C97, C98 |
| `Verif.Circle.{Model,Props}` | poly.py fit_circle, fit_circle_, poly_area, shape_error; grid.py _fit_circle_path (exact reals; `lstsq` is a parameter, its specification is a hypothesis of the theorems) | C99, C100, C101 |
| `Verif.Ellipse.{Model,Props}` | poly.py fit_ellipse (exact reals; `lstsq` is a parameter; nan of negative square roots not modelled) | C102 |
| `Verif.Resample.{Model,Props}` | generic.py uniform_resample, build_circle (exact reals) | C103 |
| `Verif.Trackers.{Model,Area,Default,Chelton}` | area_tracker.py tracking, mask_cmin; old_tracker_reference.py whole class; observation.py tracking, cost_function, basic_formula_ellipse_major_axis, shifted_ellipsoid_degrees_mask2, cost_function_common_area (composed with the models of C01-C04, C48, C74, C97; costs are not rounded to 32 bits; the grid of ground is a function of the pixels) | C104, C105, C106, C107, C108 |
| `Verif.Coords.{Model,Props}` | grid.py c_to_bounds, setup_coordinates (both classes), bounds, is_circular, nearest_grd_indice, the axis of display (argsort is a sort by the key; keys are distinct where used) | C109, C110, C111, C112 |
| `Verif.Collect.{Model,Props}` | grid.py GridCollection.interp, `__getitem__`, path, uv_for_advection (one cell), regrid, clean_land, with the models of C51 and C79 | C113, C114, C115, C116 |
| `Verif.Seam.{Model,Props,Select}` | eddy_feature.py get_next, check_closing, find_wrapcut_path_and_join, the selection of contours of `__init__`, label_contour_unused_which_contain_eddies (paths are lists of vertices; matplotlib is not modelled) | C117, C118, C119 |
| `Verif.Around.{Model,Props}` | network.py the two kernels of the coherence around events (links with fuel, percentile of numpy in exact rationals) | C120 |
| `Verif.Stats.{Model,Props}` | observation.py index, hist, bins_stat; generic.py reverse_index; grid.py raw_resample (numpy.histogram and numpy.interp in exact rationals; a row is a value, or a pair of the two variables) | C121, C122, C123 |
| `Verif.App.{Model,Props,Files}` | appli/eddies.py browse_dataset_in (names are given with their date or without), the application of tracking on top of `Verif.Tracking` | C124, C125 |
| `Verif.Ring.{Model,Props}` | observation.py circle_contour on top of `Verif.Sphere` (reals) | C126 |
| `Verif.Geos.{Model,Props}` | grid.py add_uv and the method compute_stencil on top of `Verif.Stencil` (π, sines and cosines are parameters); add_uv_lagerloef is not modelled (it calls nearest_grd_indice with tuples, which numba refuses) | C127 |
| `Verif.GridFile.{Model,Props,Write}` | grid.py grid, copy, add_grid, write, high_filter, low_filter, bessel and lanczos filters (arrays are functions of lists of positions; the coordinates as variables, attributes and types are not modelled; netCDF4 writes by broadcasting on the first dimensions) | C128, C129, C130 |
| `Verif.Kernels.{Model,Props,Wrong}` | grid.py check_order, get_step_in_km, estimate_kernel_shape, kernel_lanczos, kernel_loess, kernel_bessel on top of `Verif.Convolve` and `Verif.Sphere` (reals, the Bessel function is a parameter) | C131, C132 |
| `Verif.Subset.{Model,Props}` | appli/network.py subset_network on top of `Verif.Select`, `Verif.Links`, `Verif.Store` (dates are exact numbers, the wrap of unsigned integers is not modelled) | C133 |
| `Verif.Whole.{Model,Scale,Props}` | grid.py eddy_identification as a whole on top of `Verif.Detection` and `Verif.Amplitude`: unit, rounding, range and levels, loop, values in metres, longitudes (lines of matplotlib, percentiles and contours marked by get_uavg are parameters) | C134, C135, C136, C137 |
| `Verif.Names.{Model,Props}` | observation.py write_file, load_file (names and formats), network.py close_network on top of `Verif.Match` and `Verif.Subset` | C138, C139 |
| `Verif.Tools.{Model,Props}` | appli/eddies.py quick_compare, run_compare, the sums of display_compare, merge_eddies on top of `Verif.Compare` and `Verif.Tracks` (couples of match are a parameter, files are lists of rows under names) | C140, C141 |
| `Verif.Unregular.{Model,Props}` | grid.py UnRegularGridDataset: bbox_indice, get_pixels_in, nearest_grd_indice, _low_filter (cKDTree and the filter of the regular grid are parameters, RectBivariateSpline of order 1 is the bilinear interpolation) | C142, C143 |
| `Verif.{Amplitude,Boxes,Compare}.Sharp` | sharper statements on the models above: exact tolerance of the amplitude, box of each cell, exact groups | C53, C33, C05 |
| `Verif.Speed.{Model,Props}` | grid.py mean_on_regular_contour, speed_coef_mean of both classes, get_uavg with nan speeds (vertices of the resampled contour given, nearest nodes of the unregular grid are a parameter) | C144, C145 |
| `Verif.GridFile.Tiles` | grid.py grid_tiles on top of `Verif.GridFile` | C146 |
| `Verif.Circle.EqualArea` | grid.py _circle_from_equal_area, over the reals | C147 |
| `Verif.Bins.Maps` | network.py mean_by_segment, map_segment, map_network (the function is a parameter) | C148 |
| `Verif.GridFile.Memory` | grid.py populate, clean, GridCollection.__getitem__, reset_grids, get_next_time_step, get_previous_time_step, from_netcdf_list, __iter__: what is in memory (values of a file are a parameter) | C149 |
| `Verif.Particles.Window` | grid.py from_netcdf_list, shift_files; network.py loops of segment_coherence_forward and segment_coherence_backward; groups.py particle_candidate_step (days used) | C150 |
| `Verif.Events.Marks` | network.py event_timeline, event_map: positions and observations of the marks (colors and axes are not modelled) | C151 |
| `Verif.Particles.Analysis` | network.py analysis_coherence (methods called are parameters), value of remove_dead_end | C152 |
| `Verif.Tracking.Drift` | observation.py propagate, area_tracker.py propagate: positions of the virtual observations | C153 |
| `Verif.Smooth.Position` | tracking.py position_filter; network.py position_filter, loess_filter, median_filter | C154 |
| `Verif.Spectrum.Model`, `.Props` | grid.py spectrum_lonlat (`welch` is a parameter, frequencies instead of their inverses) | C155 |
| `Verif.Tracking.Joint`, `.JointProps` | tracking.py merge_correspondance, append, conditions of save, names of the datasets in to_netcdf and from_netcdf | C156, C157 |
| `Verif.Tracks.Direction` | observations/tracking.py extract_in_direction | C158 |
| `Verif.Tracks.Box` | observations/tracking.py extract_first_obs_in_box | C159 |
| `Verif.Tracks.SubSetter` | scripts/EddySubSetter, all selections (not the selection of variables) | C160 |
| `Verif.Tracks.Azimuth` | observations/tracking.py get_azimuth (real numbers) | C161 |
| `Verif.Tracks.Iter` | observations/tracking.py track_slice, iter_track, nb_tracks, lifetime, age | C162 |
| `Verif.Fields.Load` | observations/observation.py load_from_netcdf (fields and columns), build_var_list | C163 |
| `Verif.Pixels.Stat` | observations/observation.py interp_grid, grid_stat (count, mean, max, min) | C164 |
| `Verif.Segments.Count` | observations/network.py nb_segment, segment_size, network_segment_size, extract_segment | C165 |
| `Verif.Store.Translate` | scripts/EddyTranslate (units of the file are those of the package) | C166 |
| `Verif.Fields.Equal` | observations/observation.py `__eq__`, dtype; observations/network.py astype | C167 |
| `Verif.Tracking.Final` | scripts/EddyFinalTracking (rows of the three files, flags and interpolated fields) | C168 |
| `Verif.Dates.Identify` | `__init__.py` identify_time, with the regular expressions of strptime and their backtracking | C169 |
| `Verif.Segments.FindRelative` | observations/network.py find_segments_relative on the models of network, relatives and segments | C170 |
| `Verif.App.EddyId` | appli/grid.py eddy_id, identification (fields are abstract, filters are functions) | C171 |
| `Verif.Identify.Compare` | appli/network.py run_compare (statistics on networks) | C172 |
| `Verif.Boxes.Range` | observations/observation.py edges of grid_count and grid_stat (arange) on the model of C34 and C61 | C173 |
| `Verif.Links.Light` | observations/network.py extract_light_with_mask | C174 |
| `Verif.App.Anim` | appli/gui.py Anim (state of the animation and content of each figure; drawing is not modelled) | C175 |
| `Verif.App.Gui` | gui.py GUIAxes.end_pan, GUI (period, day, eddies of the map, labels, eddy under the mouse; paths and drawing are not modelled) | C176 |
| `Verif.Segmentation.Time` | observations/tracking.py split_network: time step, steps of the dates, field time, on the model of C20 | C177 |
| `Verif.App.PathCache` | dataset/grid.py methods added to contours, with their memory (what they compute is a parameter) | C178 |
| `Verif.Dates.Day` | dataset/grid.py date of a detection, observations/observation.py time_datetime64 and period, days of the interfaces | C179 |
| `Verif.App.Options` | appli/eddies.py eddies_tracking (arguments and configuration file; the parsers are not modelled) | C180 |
| `Verif.Tracking.FillRaw` | packed values of virtual observations, on the models of C90 and C168 | C181 |
| `Verif.Store.Units` | observations/observation.py compare_units and its use by load_from_netcdf and copy_data_to_zarr (pint is a parameter) | C182 |
| `Verif.Ring.AddCircle` | appli/eddies.py eddies_add_circle, on the model of C126 | C183 |
| `Verif.GridFile.Heights` | dataset/grid.py uv_for_advection with the memory of the fields (the velocities are a parameter, C127 and C115) | C184 |
| `Verif.Tracks.MaskReuse` | observations/tracking.py extract_with_mask with the array of the caller, on the model of C23 | C185 |
| `Verif.Lines.Filled` | observations/observation.py filled and display_color (the colour map of matplotlib is a table) | C186 |
| `Verif.Events.Timeline` | observations/network.py display_timeline, event_timeline, scatter_timeline, only_one_network, on the groups of C148 | C187 |
| `Verif.Events.Edges` | observations/network.py scatter: the loop on the colours of edges | C188 |
| `Verif.Store.Version` | observations/observation.py _check_versions, with the order of versions of packaging | C189 |
| `Verif.Tracks.Report` | observations/tracking.py __repr__: the arrays of which statistics are printed, on the models of C24, C83 and C122 | C190 |
| `Verif.Lines.Paths` | observations/tracking.py plot and observations/network.py plot, on the models of C40, C41 and C148 | C191 |
| `Verif.Lines.Display` | observations/observation.py display, on the models of C40 and C41 | C192 |
| `Verif.Matching.Local`, `Verif.Trackers.Local` | observations/observation.py tracking for observations of any kind, on the model of C02; the default tracker of C105 | C193 |
| `Verif.Links.Compose` | observations/network.py extract_with_mask applied twice, on the model of C16 | C194 |
| `Verif.Trackers.Turn`, `Verif.Trackers.Symmetry` | the three trackers and match under turns of longitudes and exchange of the datasets, on the models of C74, C104, C105 and C107 | C195, C196 |
| `Verif.Tracks.Steps` | observations/tracking.py concatenate in steps; observations/observation.py merge | C197, C198 |
| `Verif.Segmentation.Local` | observations/tracking.py split_network on parts of a dataset and on later dates, on the models of C20 and C177 | C199 |
| `Verif.Tracks.Compose` | observations/tracking.py extract_with_length and normalize_longitude applied one after the other, on the models of C25 and C58 | C200 |
| `Verif.Advect.Turn` | dataset/grid.py advect, advect_rk4, advect_t, advect_t_rk4 around the globe, with equal layers and in uniform currents, on the model of C44 | C201, C202 |
| `Verif.Circle.Start` | poly.py fit_circle, shape_error; dataset/grid.py fit_circle_path, on other writings of a contour, on the models of C99 to C101 | C203 |
| `Verif.Trackers.AreaLocal` | featured_tracking/area_tracker.py tracking, on reordered datasets and on regions, on the models of C104 and C193 | C204 |
| `Verif.Pixels.Merge` | observations/observation.py grid_count, grid_stat of datasets put together, on the models of C34, C61 and C67 | C205 |
| `Verif.Grouping.Local` | observations/network.py group_observations on other windows, files and regions, on the model of C91 | C206 |
| `Verif.Events.Again` | observations/network.py numbering_segment, numbering_network, sort applied again, on the models of C71 and C17 | C207 |
| `Verif.Tracking.Relate` | tracking.py track on two sequences of related datasets, on the model of C06 | C208 |
| `Verif.Trackers.Run` | the three trackers in the loop of tracking.py track, on the models of C104, C105, C107 and C195 | C208 |
| `Verif.Trackers.Moved` | observations/observation.py mask_function, cost_function, tracking, propagate in another description of the ocean | C209 |
| `Verif.Missing.Again` | observations/groups.py insert_virtual followed by the removal, and in other units, on the model of C28 | C210 |
| `Verif.Stats.Merge` | observations/observation.py hist, bins_stat of datasets put together, on the model of C122 | C211 |
| `Verif.Fields.Linear` | generic.py interp2d_geo, dataset/grid.py interp, compute_stencil, compute_finite_difference, add_uv of combined fields, on the models of C46, C79, C113 and C127 | C212 |
| `Verif.Tracking.Region` | tracking.py track, store_correspondance, recense_dead_id_to_extend on the files of a region, on the model of C06 | C213 |
| `Verif.Trackers.Region` | observations/observation.py tracking, featured_tracking/area_tracker.py, in tracking.py track on the files of a region, on the models of C193, C204 and C213 | C214 |
| `Verif.Matching.Chelton`, `Verif.Trackers.CheltonLocal` | featured_tracking/old_tracker_reference.py on parts of the ocean and in another order, on the model of C107 | C215 |
| `Verif.Tracking.Order`, `Verif.Trackers.Order` | tracking.py track on files whose rows are in another order, for any order-free tracker and for the three trackers of the library | C216 |
| `Verif.Tracking.OrderMerge`, `Verif.Trackers.OrderMerge` | tracking.py prepare_merging, merge after the tracking of files whose rows are in another order | C217 |
| `Verif.Tracking.OrderFinal`, `Verif.Trackers.OrderFinal` | scripts/EddyFinalTracking, tracking.py longer_than, shorter_than, get_unused_data on files whose rows are in another order | C218 |
| `Verif.Tracking.OrderFilled`, `Verif.Trackers.OrderFilled` | scripts/EddyFinalTracking, flags and filled_by_interpolation after the tracking of files whose rows are in another order | C219 |
| `Verif.Spectrum.Units` | dataset/grid.py:1606-1671 spectrum_lonlat with a field or distances in other units | C220 |
| `Verif.Spectrum.Order` | dataset/grid.py:1606-1671 spectrum_lonlat with lines or columns in another order | C221 |
| `Verif.Smooth.Units` | observations/tracking.py:820-892 and 438-463, filters of tracks in other units and in the reversed time | C222 |
| `Verif.Stats.Resample` | dataset/grid.py:78-84 raw_resample in other units and in the other direction | C223 |
| `Verif.Stencil.Mirror` | dataset/grid.py:2902-3013 compute_stencil and 1673-1703 compute_finite_difference in the mirror and from another column | C224 |
| `Verif.Geos.Mirror` | dataset/grid.py:1844-1906 add_uv in the mirror, in the other hemisphere and from another meridian | C225 |
| `Verif.Geos.Sum` | dataset/grid.py:1844-1906 add_uv and 2902-3013 compute_stencil on sums of fields and other units | C226 |

The rows of the plan above without a module here are not done yet.

## Disagreements between the code and the properties (all proved on witnesses)

* C01: `solve_simultaneous` with an infinite unmasked cost links a masked pair or raises.
* C03: `solve_first` raises on an empty matrix.
* C08: `shorter_than` raises when nothing is selected.
* C09: the unused observations of a single dataset cannot be asked for (raises).
* C11: saving after three datasets without link, or resuming a state of two datasets or an empty table, raises.
* C23: `extract_with_mask(full_path=True)` raises on an empty dataset; `new.track = …` of `compress_id` sets an attribute of the object and not the field of the record array.
* C24: `distance_to_next` resets `index_from_track[1:] - 1`: wrong when the numbers start at 1 (the first track number is
  absent, index -1 designates the last element) or have holes; raises for one observation.
* C26: `concatenate` raises when one of the datasets is empty.
* C27: `build_index` raises on an empty array, and is wrong for unsorted groups.
* C28: `insert_virtual` leaves the number 0 in the field `track` of the rows it inserts, erases the existing flags
  `virtual`, inserts rows between two segments of a network, and takes its step from the median of all differences
  (between tracks as well).
* C29: `track_loess_filter` never uses the first and the last row of the dataset as neighbours.
* C56: `add_distance` always raises (assignment of the whole array to the slice `[:1]`) for at least two observations.
* C57: `extract_ids` with a number above the largest track number reads outside of the index arrays.
* C59: `extract_toward_direction(west=True, delta_lon=…)` selects nothing; raises for a missing track number.
* C60: `insert_virtual` does not renumber `next_obs` and `previous_obs`.
* C15: `relatives` with an order of 65535 or more selects everything (distances are `uint16`).
* C18: the recursive call of `remove_dead_end` drops the mask; the function returns `None` although two callers use its
  result as a network; an empty network raises; the cost of an absent link is reset when the last row is removed.
* C19: `find_link` with both directions and several observations misses observations: the rows marked by the forward search
  of one observation stop the backward search of another.
* C21: the buffer is a singleton: the parameters of a second `Network` of the process are ignored, so that it gets the
  contours (inner or outer) and the size of the first one. A negative size raises.
* C30: `merge_filters` of two slices (as the last two filters) is their union; `-1` and `n - 1` are different indices for it.
* C31: on monotonous data, `iter_on` yields the values below the first bound with the bounds `(last, first)`, and raises when a
  value is at or above the last bound; unsigned data (track, segment) which is not sorted is taken for monotonous data, because
  the differences of unsigned integers are never negative; non monotonous data without value between the bounds raises.
* C32: `align_on(all_ref=True)` drops the bins of the reference after the last bin of the other dataset, and raises when the
  reference is monotonous (a slice has no `dtype`); an other dataset without observation in the bins raises.
* C33: `grid_box_stat` stores each statistic in the next non empty cell and never stores the last one; it is wrong for every
  non empty dataset.
* C36: `poly_indexs` never finds the points which are farther than 180° from the western end of a wide contour; raises without
  point.
* C38: `reduce_size` on a contour with a single value (virtual observation) reads outside of the array.
* C62: `get_convex_hull` never tests the first vertex: the result may be not convex and leave vertices outside.
* C41: `flatten_line_matrix` writes one element after the end of its output, for every non empty matrix.
* C42: `simplify` compares the first point of a line with the last kept point of the previous line: a short line near it
  vanishes; two nans in a row may be left; a single point at the end of the array is lost.
* C43: `window_index` reads one element after the nodes when a value is above the lower bound of the last node (the value is not
  used); the lower bound is excluded from the window.
* C54: `identify_in` drops the networks which are larger than every network of the other dataset (the last group of `other` ends
  the loop of `align_on`), and raises when the sizes are already in increasing order and one is missing in the other dataset.
  The mode `segment=True` is not modelled.
* C55: `segment_coherence_backward` and `segment_coherence_forward` give `get_matrix` arrays of 8 bits integers: the stored
  percentage loses its fraction, a smaller percentage with the same integer part then takes the first place (witness: 84 and 83
  particles of 201).
* C53: `detect_local_minima_` replaces a plateau by its barycentre, which may be outside of the plateau (ring): the position and
  the amplitude are then those of a pixel which is no extremum, and a contour with two significant minima is accepted with `mle=1`.
* C64: the search of the nearest contour starts from the distance to the first vertex of the level, whatever the box of its contour:
  when all candidates are farther, this contour is returned though it is not around the point.
* C44: the cache starts with the cell (-100000, -100000) (or -1000000) not masked and velocities of 0: a particle which starts in this
  cell of a grid which is not circular stays where it is instead of being lost.
* C45: a particle at the south of the grid has negative indices of lines, which count from the end: it is moved by the velocities of
  the northern lines.
* C47: `compute_stencil` takes the cells outside of the domain as not masked, with the values which the variables hold (former line,
  or last column); between two masked cells the exclusive or is false and the masked values are used. The guard of
  `compute_finite_difference` (`not isinstance(schema, int) and schema < 1`) never refuses a schema of 0 or less.
* C48: with floats, the slope may put the last pixel before the end of the segment; the model has exact rationals.
* C51: a start between two grids begins with the two next grids (weight above 1); a turn longer than the interval of the grids skips
  grids and gives negative weights; the end of the grids raises. The parameter `mask_particule` is documented as "advect only if mask is
  True", the code moves the particles whose mask is False.
* C66: `nearest_grd_indice` takes longitudes modulo 360 from the first bound, also on grids which are not circular: a contour which
  begins west of the grid gives pixels shifted by a turn (`west_wrong`). `bbox_indice_regular` may give a negative first line, which
  counts from the end in the slice: a contour which reaches the first line gives no pixel (`south_wrong`). On a circular grid a contour
  in another turn which does not cross the limit gives no pixel (`turn_wrong`); `grid_stat` does not unroll its contours.
* C67: the eddies whose contour is constant leave the array in `reduce_size` (C38).
* C68: `first_is_trash` tests the links of the first segment, not the number 0 of its network: a first network of one segment without
  link is taken for the trash.
* C69, C70: a link `-1` of the target of a merging (or of the source of a splitting) is used as an index: the last observation of the
  file takes part in the event.
* C71: `numbering_network` does not reset `_index_network`.
* C72: `correct_close_events` takes the rows of a corrected segment as one slice, `segments_connexion` then forgets the former part of
  the segment; with chained events two observations of a segment get the same date.
* C73: `swap_track` tests each event on the segments of before the swaps: two secondary segments from the same source both take the
  number of the main segment. `next_obs` and `previous_obs` are not updated: `next_obs` of the source goes to another segment.
* C74: `bbox_intersection` moves the west and the east limit of a box separately: when the widths of the two contours are together more
  than 180 degrees, boxes which meet are missed. `match` has `cmin=0` by default and keeps scores `>= cmin`: couples whose boxes meet
  without overlap are given with a score of 0.
* C75: `close_tracks` counts these couples; it raises (`concatenate` of an empty list) when the two datasets have no common date.
* C76: `poly_area` of a contour which is not closed depends on its first vertex.
* C77: `poly_contain_poly` tests only the vertices of the inner contour; with a contour of more than 180 degrees the vertices are moved to
  another turn.
* C79: the bilinear interpolation has no value on the last row and the last column, even on a node; `is_circular` compares two longitudes
  without the turn (1e-9 and 359.999999 are far).
* C80: `interp2d_nearest` does not receive the mask: the value under the mask is given.
* C81: a kernel of one longitude makes the empty slice `d_lon:-d_lon`, a half kernel larger than a circular grid cannot be copied: both raise.
  With an even number of latitudes the kernel is not centred on the pixel.
* C84: `insert_observations` with an index after the end raises, or with one row and one row gives the old row twice. `a + b` changes `a`.
  `period` is read once: it is wrong after an insertion.
* C85: `extract_with_area` with more than 360 degrees does not keep the longitude of the west limit. `first_obs` and `last_obs` look for
  `n == 0`: after a selection which removes the start of a trajectory its first row, or the last row of the one before, is missed.
* C86: `mask_from_polygons` calls `insidepoly` without points when all the observations are already in a polygon: it raises.
* C87: the longitudes of contours are packed in 16 bits with step 0.01 and offset 180: they cover -147.68 to 507.67. A contour at -170 is given
  back at 485.36. Dates are unsigned: before 1950 they are lost. `copy_data_to_zarr` with `raw_data` truncates instead of rounding.
* C88: a step in `indexs` gives wrong rows or raises (netcdf) or is ignored (zarr). A dataset without arrays written in zarr cannot be loaded:
  the attribute `track_array_variables` is written only when it is not 0. A netcdf without rows but with `type_cyc` cannot be loaded.
* C89: `coherence` does not look at `only_variables`: `concatenate` copies by position, which puts latitudes in longitudes. `remove_fields` makes
  python sets: the dataset is no more coherent with others and `add_fields` raises.
* C92: `networks([4])` on networks 5 and 6 gives network 6: the position is negative. `numbering_network` does not reset the index in memory.
* C93: `keep_tracks_by_date` looks for a row at exactly `date + nb_days`: a longer track with a hole there is lost. `longer_than` raises on an
  empty dataset. `close_network` calls `range` on floats and raises for data which are not raw (read, not modelled).
* C95: `particle_candidate_atlas` stops one date too early: with dates 0 and 1 and `dt=1`, the last date which could have a target gets none. `n_days=0` raises. When the period is exactly `n_days` there is one date
  to treat and the message of progress divides by `range_end - range_start - 1 = 0`: the coherence raises.
* C97: `distance_grid` leaves nan beyond 20 degrees of longitude at all latitudes: at 89.75 degrees two positions 21 degrees apart are at less
  than 56 km and are never associated.
* C100: `shape_error` clips the vertices to the circle, not the polygon: for a square around the disc the clipped polygon is the inscribed
  square and the error is 100 %, the documented formula gives 27 %. A vertex at the centre of the circle divides by zero.
* C102: `fit_ellipse` divides by `b`, zero for an ellipse with axes along the coordinates. An ellipse through the origin has no equation of
  the form which is fitted.
* C107: `check_ratio` divides by the amplitude and the radius of the first observation: zero raises.
* C108: `cost_function_common_area` compares the boxes before it puts the contours in the same turn: contours around 0 and around 360 are
  masked ("How does it work on x bound ?" asks its documentation).
* `fixed_ellipsoid_mask` applies the sign minus to booleans, which numpy refuses: read, not modelled.
* C109: `setup_coordinates` says "strictly increasing" and refuses only decreasing bounds: centres 0, 1, 4 give an empty pixel.
* C110: a global grid described by corners (`centered=False`) has one bound missing and is never circular; near the longitude 0 the
  comparison of remainders depends on the origin.
* C111: `nearest_grd_indice` rounds the distance to the first *bound* : in the second half of a pixel the index is the next one.
* C113: `GridCollection.interp` needs the next day even at an exact date, truncates negative times toward zero, and has no other step than a day.
* C114: `GridCollection.path` gives its first time in days and the others in seconds (and nan for the first when `t_init` is given by
  position).
* C116: `regrid` on the same coordinates hides the last line and the last column (C79).
* `add_uv_lagerloef` calls `nearest_grd_indice` (compiled for numbers) with tuples: read, not modelled.
* C117: when the search of a chain fails, `find_wrapcut_path_and_join` drops the origin and the segments used: with `keep_unclose` open
  contours which cross the limit disappear.
* C118: for cyclonic eddies `j` counts from the second level and `cvalues[j - 1]` is two levels below (the last level for the second one).
  The call for one sign clears the labels of the other, the example of the documentation calls both.
* C120: with steps shorter than a day the rows of the window are more than the `window` places of the array, numba writes outside.
* C121: `index` with a slice beyond the end on the last row, or with a mask of one row, gives copies of that row (numpy broadcasts the
  assignment in the new dataset); the other masks and slices beyond the end raise.
* C122: `bins_stat` documents the method "std", which gives the numbers as `None` does.
* C124: `browse_dataset_in` accepts several files of one date (step zero); a file whose name does not match keeps a date from
  uninitialised memory (`empty`); the bounds are applied after `sub_sampling_step`; one bound alone raises.
* C125: the application raises at the end when no track is shorter than `nb_obs_min`, or when the blank period is longer than the files.
* C127: the documentation of `add_uv` has `u = g/f dh/dy` and `v = -g/f dh/dx`, the code has the opposite (the geostrophic ones). On the
  equator the values are infinite and not masked.
* C128: `grid(name, indexs)` ignores `indexs` when the variable was read before.
* C130: `write` drops without a word the variables added by `add_grid` (no description); `copy` of a variable which was not read before
  copies the description before the reading sets `transpose`: the file is refused by netCDF4, or has its axes exchanged on a square grid.
* C131: near the south pole `finalize_kernel` cuts the rows of null weight of one side only: the kernel has an even number of rows and the
  convolution, which takes the half of it as centre, uses each weight for the row above its own.
* C132: `kernel_loess` has `inc_func` which is not used; from the order 2 the cells further than one wave length have negative weights. The
  number of longitudes of a kernel is computed as on a plane: cells on the other side of a pole are missed.
* C133: `subset_network` loads with `raw_data=True`: dates are the integers of the file, seconds, and are compared with `--length` and
  `--period` in days. `remove_dead_end` returns None, so `--remove_dead_end` always raises. `--remove_trash` is never read.
* C136: the anticyclonic search is made first and its eddies mask their pixels for the cyclonic one. A dome with a crater is one
  anticyclone; a bowl with a bump gives the bump alone, and the bowl, whose pixels are partly reserved, is lost.
* C138: `write_file(zarr_flag=True)` replaces every `.nc` of the whole path, directories included; without extension the store is written under a
  name that `load_file` opens as a netcdf file.
* C139: `close_network` uses `range(p0, p1 + 2)` on the period, which is made of floats unless data are raw: TypeError.
* C140: the directory of a dataset is its name with `/` replaced by `_`: `a/b` and `a_b` write in the same directory and the last one wins.
* C141: without `track` in `--include_var` the field is left with zeros and each file becomes one trajectory; without `--add_rotation_variable` the
  rotation written is the one of the first file.
* C142: the slices of `bbox_indice` go one node (or more) beyond the box of the contour, and are not cut at the last row and column; numba reads out of
  the arrays. On a folded grid the nodes inside can be out of the box of the nearest nodes of the vertices.
* C143: the edges of latitude stop before 89 degrees, values north of the last edge are dropped.
* C145: `max_average_speed` is nan when the original contour has no speed, every later comparison `>=` is false, and the original contour stays selected.
* C146: `grid_tiles` reads the file again: it takes the first element of the dimensions other than x and y whatever the indexes of the handler, does not
  mask nan, and ignores the variables which were added or filtered in memory.
* C148: `mean_by_segment` allocates its result with the type of the field: a mean of a field of integers is truncated. `iter_on` takes unsigned numbers
  which are not sorted for sorted ones, so the groups are mixed.
* C149: `clean` empties the dictionary of variables and `populate` reads the file again: a variable computed from `heigth` when the collection was opened
  (`u`, `v`) is not computed again, and reading it raises KeyError after `reset_grids`. `__iter__` gives the grids without loading them again.
* C150: `shift_files` removes the first date and grid of the lists without looking at the dates.
* C151: `iter_on("segment")` takes the numbers of segments of several networks for sorted ones, so the rows of the networks are mixed and an event is not
  drawn (`marks_wrong`).
* C152: `remove_dead_end` works in place and returns `None`, `analysis_coherence` then calls `None.numbering_segment()`.
* C154: the filters average the longitudes as numbers: a segment which crosses the limit of longitudes is smoothed to the other side of the Earth.
* C155: `scaling` is taken out of the options by `pop` and is not given to `ref.spectrum_lonlat`.
* C156: `get_filename` tests `not isinstance(dataset, str) or not isinstance(dataset, bytes)`, which is always true: each name is written
  "In memory file". The tables saved cannot be used by EddyFinalTracking nor by EddyMergeCorrespondances.
* C157: `current_id` is set from the last number of the second tracking; when this one is a track of the junction, `current_id` is its number in the
  first tracking plus one, below the numbers of tracks already ended. `extend` does not update `nb_link_max`. `other[i[0] - 1]` is the last table when
  `i[0]` is zero.
* C158: `i_start` of a number without observation is -1, then `i_stop` is -2, which does not exist in a dataset of one observation.
* C160: each selection is applied to the result of the one before: with `--full_path` a track is kept when one observation is in the period and another one in
  the area; the file sorted by time has no contiguous tracks, which all the selections by track need.
* C161: `arctan2(y, x) + pi / 2` is the bearing plus a quarter of turn: the sign tells poleward from equatorward only for the tracks toward the west.
* C162: `age` uses `observation_number` and the number of observations which stay: after an extraction of a part it can be above 100.
* C163: the fields which a class adds to `elements` after the filter of `only_variables` are always in the dataset, with zeros when they are not loaded.
* C164: the loop of `max` does not test the mask and starts from -1e40; `min` is the opposite of the maximum of the opposite.
* C166: the raw mode copies the codes of a netcdf without reading its `scale_factor`, and writes the one of the package beside them.
* C167: `dtype` compares the order of `list(set(...))`; `array_equal` is false for nan.
* C168: the results `False` of `longer_than` and the exception of `shorter_than` are not handled by the script; `virtual` is `time == 0`.
* C169: `%M%S` of a string with two digits less are read as one digit each.
* C172: `size_min=2` removes the networks of one observation before the comparison, and the display divides by all the networks. The statistics on segments are not modelled.
* C173: `arange(start, stop, step)` is exact in the model; with floats the number of edges may differ by one when `stop - start` is a multiple of the step.
* C174: the six fields of networks always exist in the result, with zeros when they are not copied.
* C175: the loop of `show` draws `now + 1` first, and `arange(*period)` leaves the last day out. matplotlib draws the first frame of a film once more, which is not modelled.
* C176: `data["ind"]` of matplotlib is taken as the number of a vertex of the line.
* C177: dates and their quotients by the step are exact in the model. A dataset with one date has no step (`nan` in the code), the model gives no result.
* C178: exceptions of attributes and of keys are one value.
* C179: an instant is a number of seconds since 1950-01-01; leap seconds do not exist in the dates of python.
* C180: the names of files are strings which are not interpreted.
* C181: the packed value of `raw_data` is the interpolation of integers converted toward zero (assignment of floats in an array of integers).
* C182: units with an offset (temperatures in Celsius) are not modelled; the rounding of packed values is in C87; `data *= factor` on a zarr of integers raises in numpy, the model multiplies.
* C183: the packing of the contours in the file is not modelled here (C87).
* C184: a field is an abstract value; `variables_description` is not modelled.
* C186: a colour is its rank in the table; matplotlib draws the colours under 0 and over 1 with the first and the last one.
* C187: colours, marks and labels are not modelled; the heights are exact.
* C189: the order of packaging is modelled from its documentation (PEP 440), for final right-hand sides only, which is what the code compares with.
* C190: means, medians and the format are not modelled; the lines common with EddiesObservations are the histograms of C122.
* C191: the drawing itself is matplotlib; the arrays given to it are modelled.
* C192: the write after the end of the array is left out of the arrays (`flattenInside`), what it does to the memory is not modelled; the text of labels is abstract.
* C193: follows from the uniqueness of the stable selection (C02); costs are not rounded to 32 bits, which can make equal costs.
* C194: both extractions are shown to be the same selection of rows (`IsTake`), which is unique for distinct rows.
* C195: distances, masks and cells are shown to be the same numbers for each couple; exact reals, no rounding.
* C196: from the characterisation of the couples of C74; the areas of the library of polygons are abstract.
* C198: `merge` reads the last number of track of the first dataset; with an empty first dataset it reads the last one of the second (`merge_empty`).
* C199: each network is shown to be computed on its own rows (`split_core`), so that the runs on both parts can be compared row by row; the overlaps of contours are abstract and given by place in the dataset.
* C201: cells and weights are shown to be periodic; the cache does not matter on a circular grid (C44).
* C202: the uniform current is required at the points of the grid only.
* C204: the statement uses the answer of the tracker on two contours alone, so that nothing is assumed about the geometry; the matrix of costs is shown to be made cell by cell.
* C206: the labels of networks are compared by "same label, not 0", since their values change; rows kept in any order are given by an injection of rows.
* C208: a relation between observations which the class of tracking preserves is preserved by the whole loop (a simulation, proved step by step); the claim is its instance for turns of longitude. A cost is stored through any function of its exact value.
* C213: the row of an observation in the region and the number of a track in the region are both ranks (`below`) among the rows and numbers selected, so that one notion of renaming is carried through the loop. The hypothesis on the tracker is stated on the run of the whole ocean only.
* C213, C214: that lost observations stay in their part of the ocean is asked of the lost observations of the run only (`StaysAt`, inside `LocalRun`).
* C215: the paths across the ground of all couples are computed in one array by the code; `across_exact` shows that the answer of a couple is a function of this couple. `lone` is stated by the tracker itself on two datasets of one row.
* C216: `SameTables` compares what a user sees of each link (`seen`): the two observations, the cost, the virtual flag and length, with the number of the track renamed. The rows of lost observations are not compared, as they are rows of no file. The condition that the links are one-to-one and free of ties is asked at the dates of the run only (`OrderRun`).
* C217: `SameMerged` compares the rows at the same place of a track (`rowSeen`): date and observation, or no observation for a row of a lost eddy, and the cost. The proof goes from `SameTables` (C216) to the invariant of the merging (`MInv`, C07) for both runs.
* C218: `tracksOf` reads the tracks of a file from its columns; the two files are compared as multisets of tracks, and the observations without track as multisets at each date. The interpolation of the rows of lost observations (C168) and the writing of the files are left out.
* C219: `filledTracks` reads the flags and the fields of each track from the columns of the file. The proof uses `Filled` (C168): a virtual observation is on the line between two observations of its own track, so that its values do not depend on the tracks around. Fields are functions of the observation with exact values.
* C220: the units enter by two hypotheses on `welch` (scipy, not modelled): powers quadratic in the signal (`Quadratic`), frequencies that follow the sampling frequency and densities by unit of frequency (`Density`). The proof shows that means, common frequencies, interpolation, invalid lines and ratios keep these scalings. `reference_spectrum_wrong` is a finding on the unchanged code: with `scaling="spectrum"` a relative spectrum depends on the unit of the distances.
* C221: the lists of spectra of the lines (columns) are permutations of each other; means, maxima and minima do not depend on the order, and the number of frequencies of the last line is that of all lines. `Sampled` states what is needed from `welch`.
* C222: `SameWindows` says that windows, weights and tracks are the same for both writings; the loops then follow the same rows. Medians are compared with the middle of the sorted values (reversed for negative factors). In the reversed time the backward loop of the loess filter is the forward loop of the initial rows, and both are sums.
* C223: `interp1` is affine in the values; for the direction, `OnProfile` says which point of the broken line has a given abscissa, this point is unique and is the same on the reversed profile.
* C224: by `bufAt_spec` the buffer of a column holds the cells around it; in the mirror it is the reversed buffer, whose value is the opposite one (`cell_mirror`). `border_mirror_wrong` is a finding on the unchanged code, of the same origin as `border_uses_old_values` (C47).
* C225: from `stencil_mirror` and `stencil_turned` (C224); the opposite sine of the latitude gives the opposite Coriolis factor (`scaled_south`), and inside of the domain the former values are not used (`line_junk`).
* C226: every weight of the stencil is linear (`cell_combine`) and the masks choose the same weights for both fields; `bufAt_spec` gives the buffers of the sum. It strengthens the part of C212 on derivatives, which assumes that the unset variables of the three calls are combined as the fields are; `border_combine_wrong` shows that at the first column this assumption cannot be dropped (same origin as `border_uses_old_values`, C47).
* C127 (tightened): `add_uv_balance` and `add_uv_exact` are stated with the numbers of the Earth written in the specification (9.807 m/s², 6370.997 km, 86164.1 s) and with the half width asked (`Applied`) instead of the constants and of `clamp` of the model: edits of those constants were not seen before.
