{
 "claims": [
  {
   "property": "C01",
   "status": "proved",
   "theorems": [
    "Intp.mesh_indexing_bijection",
    "Intp.mesh_access_in_buffer"
   ],
   "note": ""
  },
  {
   "property": "C02",
   "status": "proved",
   "theorems": [
    "Intp.mesh_iter_indices_inverse"
   ],
   "note": ""
  },
  {
   "property": "C03",
   "status": "proved",
   "theorems": [
    "Intp.mesh_is_map",
    "Intp.mesh_of_list"
   ],
   "note": ""
  },
  {
   "property": "C04",
   "status": "proved",
   "theorems": [
    "Intp.mesh_line_iteration"
   ],
   "note": ""
  },
  {
   "property": "C05",
   "status": "proved",
   "theorems": [
    "Intp.mesh_checked_access"
   ],
   "note": ""
  },
  {
   "property": "C06",
   "status": "proved",
   "theorems": [
    "Intp.band_store"
   ],
   "note": ""
  },
  {
   "property": "C07",
   "status": "proved",
   "theorems": [
    "Intp.ext_band_store",
    "Intp.ext_band_ctor_iff"
   ],
   "note": ""
  },
  {
   "property": "C08",
   "status": "partial",
   "theorems": [
    "Intp.band_mulVec_wrong",
    "Intp.band_mulVec_partial"
   ],
   "note": "The property is false of the code: BandMatrix::operator* uses row-aligned bands on column-aligned storage. Witness proved; for p = q the result is proved to be the transpose product."
  },
  {
   "property": "C09",
   "status": "proved",
   "theorems": [
    "Intp.ext_band_mulVec"
   ],
   "note": ""
  },
  {
   "property": "C10",
   "status": "proved",
   "theorems": [
    "Intp.band_solver_solves",
    "Intp.band_solver_object"
   ],
   "note": ""
  },
  {
   "property": "C11",
   "status": "proved",
   "theorems": [
    "Intp.ext_solver_solves",
    "Intp.ext_solver_object",
    "Intp.ext_solver_wraps_when_small"
   ],
   "note": ""
  },
  {
   "property": "C12",
   "status": "proved",
   "theorems": [
    "Intp.solver_succeeds",
    "Intp.leading_blocks_of_diag_dominant"
   ],
   "note": ""
  },
  {
   "property": "C13",
   "status": "proved",
   "theorems": [
    "Intp.solver_keeps_first_matrix"
   ],
   "note": ""
  },
  {
   "property": "C14",
   "status": "proved",
   "theorems": [
    "Intp.basis_is_cox_de_boor"
   ],
   "note": ""
  },
  {
   "property": "C15",
   "status": "proved",
   "theorems": [
    "Intp.basis_total",
    "Intp.basis_degenerate_segment"
   ],
   "note": ""
  },
  {
   "property": "C16",
   "status": "proved",
   "theorems": [
    "Intp.basis_partition_of_unity"
   ],
   "note": ""
  },
  {
   "property": "C17",
   "status": "proved",
   "theorems": [
    "Intp.knot_search",
    "Intp.knot_search_wraps"
   ],
   "note": ""
  },
  {
   "property": "C18",
   "status": "proved",
   "theorems": [
    "Intp.spline_value",
    "Intp.spline_value_nonperiodic"
   ],
   "note": ""
  },
  {
   "property": "C19",
   "status": "proved",
   "theorems": [
    "Intp.hint_independent"
   ],
   "note": ""
  },
  {
   "property": "C20",
   "status": "proved",
   "theorems": [
    "Intp.derivative_at_is_derivative",
    "Intp.derivative_at_hasDerivAt"
   ],
   "note": ""
  },
  {
   "property": "C21",
   "status": "proved",
   "theorems": [
    "Intp.derivative_order_zero",
    "Intp.derivative_order_exceeds"
   ],
   "note": ""
  },
  {
   "property": "C22",
   "status": "proved",
   "theorems": [
    "Intp.spline_smooth",
    "Intp.derivative_continuous",
    "Intp.pieces_agree_at_knot"
   ],
   "note": ""
  },
  {
   "property": "C23",
   "status": "proved",
   "theorems": [
    "Intp.convex_hull",
    "Intp.convex_hull_bounds"
   ],
   "note": ""
  },
  {
   "property": "C24",
   "status": "proved",
   "theorems": [
    "Intp.local_control"
   ],
   "note": ""
  },
  {
   "property": "C25",
   "status": "proved",
   "theorems": [
    "Intp.evaluation_periodic",
    "Intp.value_periodic",
    "Intp.interpolation_periodic",
    "Intp.interpolation_derivative_periodic"
   ],
   "note": ""
  },
  {
   "property": "C26",
   "status": "proved",
   "theorems": [
    "Intp.out_of_range_extends"
   ],
   "note": ""
  },
  {
   "property": "C27",
   "status": "proved",
   "theorems": [
    "Intp.interpolation_condition",
    "Intp.construct_ok_or_singular",
    "Intp.construct_ok_iff"
   ],
   "note": "A single-point axis of order 0 (where the spacing would be 0/0) is excluded: at least 2 points are required."
  },
  {
   "property": "C31",
   "status": "proved",
   "theorems": [
    "Intp.interpolate_linear"
   ],
   "note": ""
  },
  {
   "property": "C33",
   "status": "proved",
   "theorems": [
    "Intp.dummy_ignored"
   ],
   "note": ""
  },
  {
   "property": "C34",
   "status": "proved",
   "theorems": [
    "Intp.no_dummy_same"
   ],
   "note": ""
  },
  {
   "property": "C35",
   "status": "proved",
   "theorems": [
    "Intp.at_checked",
    "Intp.derivative_at_checked",
    "Intp.at_constructed"
   ],
   "note": ""
  },
  {
   "property": "C36",
   "status": "partial",
   "theorems": [
    "Intp.range_odd_aperiodic_partial",
    "Intp.range_periodic",
    "Intp.range_even_aperiodic",
    "Intp.at_last_point_throws"
   ],
   "note": "False for even orders on non-periodic axes: the upper end of range is always below the last coordinate, so at() throws at the last data point. Proved for odd orders and periodic axes."
  },
  {
   "property": "C37",
   "status": "proved",
   "theorems": [
    "Intp.template_interpolate",
    "Intp.template_reuse"
   ],
   "note": ""
  },
  {
   "property": "C49",
   "status": "proved",
   "theorems": [
    "Intp.hint_valid"
   ],
   "note": ""
  },
  {
   "property": "C51",
   "status": "proved",
   "theorems": [
    "Intp.separable"
   ],
   "note": ""
  },
  {
   "property": "C28",
   "status": "partial",
   "theorems": [
    "Intp.small_periodic_wrong_values",
    "Intp.interpolation_condition"
   ],
   "note": "False: periodic axes with fewer than 2*(order/2)+1 distinct points give wrong values (witness for orders 2 and 3) or a size computation that wraps. For all larger sizes the condition holds (C27)."
  },
  {
   "property": "C30",
   "status": "proved",
   "theorems": [
    "Intp.polynomial_reproduction",
    "Intp.polynomial_reproduction_1d",
    "Intp.constant_reproduction"
   ],
   "note": ""
  },
  {
   "property": "C32",
   "status": "partial",
   "theorems": [
    "Intp.equispaced_same_function_partial",
    "Intp.equispaced_same_knots_partial",
    "Intp.equispaced_knot_zero_differs"
   ],
   "note": "Same function: proved (explicit non-periodic coordinates need order >= 1). Same knots: proved except knot 0 of a periodic axis with at most order distinct points, where it is false (witness); that knot is never read."
  },
  {
   "property": "C48",
   "status": "partial",
   "theorems": [
    "Intp.coords_aperiodic",
    "Intp.coords_aperiodic_overread",
    "Intp.coords_periodic_reads",
    "Intp.coords_periodic_knots_partial",
    "Intp.coords_periodic_knot_zero"
   ],
   "note": "Reads: proved. Knot properties: proved for non-periodic axes; for periodic axes proved except that knot 0 can be out of order (witness)."
  },
  {
   "property": "C50",
   "status": "proved",
   "theorems": [
    "Intp.affine_coordinates"
   ],
   "note": ""
  },
  {
   "property": "C52",
   "status": "partial",
   "theorems": [
    "Intp.default_coordinates",
    "Intp.template_default_coordinates",
    "Intp.template_default_agrees_partial",
    "Intp.template_default_noDummy",
    "Intp.default_coordinates_differ"
   ],
   "note": "False for InterpolationFunctionTemplate1D on periodic axes with INTP_PERIODIC_NO_DUMMY_POINT: spacing (N-1)/N. Proved in all other cases."
  },
  {
   "property": "C43",
   "status": "proved",
   "theorems": [
    "Intp.task_in_one_place",
    "Intp.task_runs_once",
    "Intp.done_grows"
   ],
   "note": ""
  },
  {
   "property": "C44",
   "status": "proved",
   "theorems": [
    "Intp.no_lost_wakeup",
    "Intp.pool_no_deadlock",
    "Intp.all_tasks_run"
   ],
   "note": ""
  },
  {
   "property": "C45",
   "status": "partial",
   "theorems": [
    "Intp.destructor_may_hang",
    "Intp.stop_flag_race",
    "Intp.destructor_terminates_partial"
   ],
   "note": "False: the destructor sets the flag without the mutex, so a worker between evaluating its condition and blocking misses the notification (proved for every number of workers). Proved to terminate when no worker is at that point."
  },
  {
   "property": "C41",
   "status": "proved",
   "theorems": [
    "Intp.block_division",
    "Intp.block_division_unique",
    "Intp.caller_lines_few"
   ],
   "note": "For every number of blocks, so also for a rounded square root."
  },
  {
   "property": "C42",
   "status": "proved",
   "theorems": [
    "Intp.multithread_deterministic",
    "Intp.multithread_no_race",
    "Intp.multithread_complete",
    "Intp.multithread_runs",
    "Intp.multithread_construct",
    "Intp.multithread_exact",
    "Intp.multithread_double"
   ],
   "note": "Interleaving semantics of single element accesses; any number of blocks; for every template that could be constructed, in any arithmetic."
  },
  {
   "property": "C46",
   "status": "proved",
   "theorems": [
    "Intp.stack_allocator_disjoint",
    "Intp.stack_allocator_succeeds_iff",
    "Intp.stack_allocator_restored",
    "Intp.stack_allocator_errors",
    "Intp.stack_allocator_max_size"
   ],
   "note": ""
  },
  {
   "property": "C47",
   "status": "proved",
   "theorems": [
    "Intp.aligned_bytes_exact",
    "Intp.aligned_max_size_largest",
    "Intp.aligned_bytes_wrap"
   ],
   "note": ""
  },
  {
   "property": "C54",
   "status": "proved",
   "theorems": [
    "Intp.stack_allocator_growth_overlaps",
    "Intp.stack_allocator_copies_overlap",
    "Intp.derivative_buffers"
   ],
   "note": ""
  },
  {
   "property": "C39",
   "status": "partial",
   "theorems": [
    "Intp.cell_layout_partial",
    "Intp.cell_layout_error",
    "Intp.cell_layout_oob",
    "Intp.cell_layout_assert",
    "Intp.CellExample.cell_layout_wrong_value"
   ],
   "note": "The claim is false for even orders at coordinates a positive number of periods left of the range of a periodic dimension: out-of-bounds read (cell_layout_oob, every 1D case), failed assertion (cell_layout_assert) or a wrong value (witness). cell_layout_partial proves it at all other coordinates."
  },
  {
   "property": "C40",
   "status": "partial",
   "theorems": [
    "Intp.eval_proxy_partial",
    "Intp.CellExample.eval_proxy_wrong"
   ],
   "note": "The claim is false for even orders if a dimension other than the first is periodic (witness eval_proxy_wrong). eval_proxy_partial proves it for odd orders, and for even orders if no dimension but the first is periodic."
  },
  {
   "property": "C53",
   "status": "proved",
   "theorems": [
    "Intp.pre17_slice_get",
    "Intp.pre17_construct",
    "Intp.pre17_interpolate",
    "Intp.pre17_construct_fn",
    "Intp.pre17_destroy",
    "Intp.pre17_wrapper"
   ],
   "note": "for all valid axes the pre-C++17 constructor gives the same errors, coordinates, base function and solvers as the C++17 one, and the same interpolation of every mesh"
  },
  {
   "property": "C38",
   "status": "partial",
   "theorems": [
    "Intp.template_copy_partial",
    "Intp.pre17_copy_dead",
    "Intp.pre17_copy_destroy",
    "Intp.pre17_assign"
   ],
   "note": "true for C++17 builds; false for every pre-C++17 build: the copy constructor of the solver union copies nothing, so that interpolating with a copied (or moved) template uses a dead union member (proved for all valid axes and data)"
  },
  {
   "property": "C29",
   "status": "proved",
   "theorems": [
    "Intp.aperiodic_minors_pos",
    "Intp.aperiodic_construct_ok",
    "Intp.aperiodic_polynomial"
   ],
   "note": "Total positivity (knot insertion) for every ordered field; all dimensions non-periodic, also mixed uniform and explicit coordinates."
  },
  {
   "property": "C55",
   "status": "partial",
   "theorems": [
    "Intp.periodic_minors_partial",
    "Intp.periodic_construct_ok_partial",
    "Intp.periodic_interpolates_partial"
   ],
   "note": "Proved for uniform periodic axes of every order and for arbitrary coordinates up to order 3, in any mixture with non-periodic axes. Missing: unevenly spaced coordinates with order 4 and more (exact computations on thousands of such axes found no zero pivot)."
  },
  {
   "property": "C56",
   "status": "proved",
   "theorems": [
    "Intp.coords_check",
    "Intp.template_coords_check",
    "Intp.coords_unchecked"
   ],
   "note": "The failure without assertions is shown by a witness."
  },
  {
   "property": "C57",
   "status": "proved",
   "theorems": [
    "Intp.short_data",
    "Intp.dummy_omitted",
    "Intp.long_data"
   ],
   "note": "exact behaviour for data of another shape; long_data is undefined behaviour reachable through the public interface (DESIGN.md section 5)"
  },
  {
   "property": "C58",
   "status": "proved",
   "theorems": [
    "Intp.direct_check",
    "Intp.direct_value",
    "Intp.direct_derivative",
    "Intp.direct_roundtrip",
    "Intp.direct_roundtrip_even"
   ],
   "note": "direct_roundtrip_even shows the rejection for even orders and periodic dimensions"
  },
  {
   "property": "C59",
   "status": "proved",
   "theorems": [
    "Intp.permuted_dimensions"
   ],
   "note": ""
  },
  {
   "property": "C60",
   "status": "proved",
   "theorems": [
    "Intp.slice_at_node",
    "Intp.iterated_interpolation"
   ],
   "note": ""
  },
  {
   "property": "C61",
   "status": "proved",
   "theorems": [
    "Intp.mirror_image",
    "Intp.mirror_image_aperiodic"
   ],
   "note": "In periodic dimensions both constructions are assumed to succeed; see C55 for when they do."
  },
  {
   "property": "C62",
   "status": "proved",
   "theorems": [
    "Intp.pool_solve_deterministic",
    "Intp.pool_solve_safe",
    "Intp.pool_solve_complete",
    "Intp.pool_solve_runs",
    "Intp.pool_solve_construct",
    "Intp.pool_solve_total",
    "Intp.pool_solve_double"
   ],
   "note": "The pool model (C43, C44) and the block programs (C42) run together; other threads may use the pool at any time. Any arithmetic; pool_solve_total is exact arithmetic, pool_solve_double is double."
  },
  {
   "property": "C63",
   "status": "proved",
   "theorems": [
    "Intp.pool_fill_deterministic",
    "Intp.pool_fill_safe",
    "Intp.pool_fill_complete"
   ],
   "note": ""
  },
  {
   "property": "C64",
   "status": "proved",
   "theorems": [
    "Intp.order_one_multilinear",
    "Intp.order_one_bounds",
    "Intp.order_one_succeeds"
   ],
   "note": ""
  },
  {
   "property": "C65",
   "status": "proved",
   "theorems": [
    "Intp.rotated_period",
    "Intp.cyclic_shift"
   ],
   "note": "rotated_period assumes that both constructions succeed; see C55 for when they do."
  },
  {
   "property": "C66",
   "status": "proved",
   "theorems": [
    "Intp.uninitialised_irrelevant_any",
    "Intp.construct_uninitialised_any",
    "Intp.uninitialised_irrelevant",
    "Intp.construct_uninitialised_irrelevant",
    "Intp.uninitialised_double"
   ],
   "note": "Single-threaded build; the parallel builds have arbitrary contents of new memory in C42 and C62."
  },
  {
   "property": "C67",
   "status": "proved",
   "theorems": [
    "Intp.stats_queue",
    "Intp.stats_main",
    "Intp.stats_steals",
    "Intp.stats_final",
    "Intp.stats_note_iff",
    "Intp.stats_lift",
    "Intp.StatsExample.stats_note_wrong",
    "Intp.StatsExample.stats_race"
   ],
   "note": "stats_note_wrong and stats_race are executions in which the printed note is wrong and in which the destructor races with a worker."
  },
  {
   "property": "C68",
   "status": "proved",
   "theorems": [
    "Intp.exact_construct",
    "Intp.exact_evaluate",
    "Intp.exact_cell"
   ],
   "note": ""
  },
  {
   "property": "C69",
   "status": "proved",
   "theorems": [
    "Intp.float_construct",
    "Intp.float_construct_uniform",
    "Intp.double_construct"
   ],
   "note": ""
  },
  {
   "property": "C70",
   "status": "partial",
   "theorems": [
    "Intp.double_coords_outside_band",
    "Intp.float_construct_coords_partial",
    "Intp.double_construct_linear_partial",
    "Intp.double_construct_separated_partial"
   ],
   "note": "False: double_coords_outside_band. Proved for order 1 with all increasing doubles, for every order up to 50 with coordinates separated by more than their rounding, and for every order under an explicit condition on the computed knots."
  },
  {
   "property": "C71",
   "status": "partial",
   "theorems": [
    "Intp.float_evaluate_partial",
    "Intp.float_evaluate_coords",
    "Intp.double_evaluate_partial",
    "Intp.double_hint_overflow"
   ],
   "note": "False for uniform dimensions: the conversion of the hint to size_t is undefined far right of the range (double_hint_overflow). Everything else is proved safe; without uniform dimensions there is no exception."
  },
  {
   "property": "C72",
   "status": "proved",
   "theorems": [
    "Intp.double_round",
    "Intp.double_round_overflow",
    "Intp.double_round_mono",
    "Intp.double_ops",
    "Intp.double_ops_same",
    "Intp.double_fmod",
    "Intp.double_ceil",
    "Intp.double_special"
   ],
   "note": ""
  },
  {
   "property": "C73",
   "status": "proved",
   "theorems": [
    "Intp.rounded_basis",
    "Intp.double_basis"
   ],
   "note": ""
  },
  {
   "property": "C74",
   "status": "proved",
   "theorems": [
    "Intp.rounded_eval",
    "Intp.double_eval",
    "Intp.double_call"
   ],
   "note": ""
  },
  {
   "property": "C75",
   "status": "proved",
   "theorems": [
    "Intp.double_wrap",
    "Intp.double_wrap_outside"
   ],
   "note": ""
  },
  {
   "property": "C76",
   "status": "proved",
   "theorems": [
    "Intp.rounded_band_solver",
    "Intp.rounded_ext_solver"
   ],
   "note": ""
  },
  {
   "property": "C77",
   "status": "proved",
   "theorems": [
    "Intp.double_band_solver",
    "Intp.double_ext_solver"
   ],
   "note": "The absolute term covers underflow. No bound of |L||U| by |A| is claimed."
  },
  {
   "property": "C78",
   "status": "partial",
   "theorems": [
    "Intp.matlab_partial",
    "Intp.matlab_singleton",
    "Intp.matlab_dims",
    "Intp.matlab_check"
   ],
   "note": "False: arrays with a dimension of size 1 before the last one pass the checks and are interpolated as another array (matlab_singleton), more than three dimensions end the program (matlab_dims), and the number of points is not checked against the order (C28). Proved for all other calls."
  },
  {
   "property": "C79",
   "status": "proved",
   "theorems": [
    "Intp.double_interpolates",
    "Intp.double_interpolates_separated",
    "Intp.double_interpolates_positive",
    "Intp.double_interpolates_axes",
    "Intp.double_interpolates_axes_positive"
   ],
   "note": "The control points and the growth of the factors are those of the computed function; no bound of them by the data is claimed (C84 has one for low orders). Periodic dimensions are not covered."
  },
  {
   "property": "C80",
   "status": "proved",
   "theorems": [
    "Intp.double_knots"
   ],
   "note": ""
  },
  {
   "property": "C81",
   "status": "proved",
   "theorems": [
    "Intp.mesh_word",
    "Intp.mesh_word_overflow"
   ],
   "note": ""
  },
  {
   "property": "C82",
   "status": "partial",
   "theorems": [
    "Intp.mesh_line_pointers_partial",
    "Intp.mesh_line_pointers_last",
    "Intp.mesh_end_outside"
   ],
   "note": "False: end(d, idx) is a pointer behind the buffer when all indices before d are the last ones and some index after d is not zero (mesh_end_outside, from the project's own test). Proved in all other cases, in particular for the last dimension, the only one for which the library calls end."
  },
  {
   "property": "C83",
   "status": "partial",
   "theorems": [
    "Intp.nested_no_deadlock_partial",
    "Intp.nested_all_tasks_run_partial",
    "Intp.nested_one_more_partial",
    "Intp.nested_deadlock"
   ],
   "note": "False: with as many tasks waiting for their subtasks as there are workers, all workers may wait forever (nested_deadlock, for every number of workers). Proved when fewer tasks than workers wait: no state without progress as long as one worker is free, although workers keep queued tasks in their own queues while they wait."
  },
  {
   "property": "C84",
   "status": "proved",
   "theorems": [
    "Intp.double_construct_ok",
    "Intp.double_interpolates_small"
   ],
   "note": "Dominance of the collocation matrices with weights at the two ends (margin 1/9) is proved for all numbers of points by moving rows to a dimension with at most ten points. Orders from 4 on are not dominant in this sense; for them C79 bounds the error by the computed factors."
  },
  {
   "property": "C85",
   "status": "proved",
   "theorems": [
    "Intp.double_near_exact",
    "Intp.double_near_small"
   ],
   "note": "The exact function is InterpFn.construct over the rationals, the model of C01-C67. The condition number mu is a hypothesis of double_near_exact in the form: coefficients are at most mu times the largest value they give at the data points; double_near_small assumes nothing about factors, control points or condition."
  },
  {
   "property": "C86",
   "status": "partial",
   "theorems": [
    "Intp.exception_safe_partial",
    "Intp.exception_last_partial",
    "Intp.exception_not_lost",
    "Intp.exception_result",
    "Intp.exception_tasks_left",
    "Intp.exception_use_after_free"
   ],
   "note": "False: the futures do not wait for their tasks, so tasks may run on destroyed meshes (exception_tasks_left, exception_use_after_free). Proved: no exception is lost, a normal return has the single-threaded result, and an exception out of f.get() leaves only later blocks of the same region behind."
  },
  {
   "property": "C87",
   "status": "partial",
   "theorems": [
    "Intp.ctor_reachable",
    "Intp.ctor_thrown",
    "Intp.ctor_terminates_partial",
    "Intp.ctor_may_hang"
   ],
   "note": "False: the constructor may wait forever for a thread that blocks just after the notification (ctor_may_hang, whenever at least one thread had been started). Proved: the states during construction, that nothing is left when the exception leaves the constructor, and termination if no thread is between evaluating its waiting condition and blocking when the flag is set."
  },
  {
   "property": "C88",
   "status": "proved",
   "theorems": [
    "Intp.rounded_derivative",
    "Intp.double_derivative",
    "Intp.double_derivative_call",
    "Intp.steep_of_gaps"
   ],
   "note": "The exact derivative is BSpline.derivativeAt over the rationals, which C20 shows to be the derivative of the spline. Orders above the spline order are included (both results are 0)."
  },
  {
   "property": "C89",
   "status": "proved",
   "theorems": [
    "Intp.double_interpolates_periodic"
   ],
   "note": "The points that repeat the first one of a periodic dimension and coordinates outside the base period are not included; nor are periodic dimensions given by coordinates. FactorsOf bounds the stored factors; FactorsLe.of derives it from a bound of their entries."
  },
  {
   "property": "C90",
   "status": "proved",
   "theorems": [
    "Intp.double_interpolates_periodic_low"
   ],
   "note": "Assumes nothing about factors or control points. LowDim is the condition on order, periodicity and kind of a dimension; the points that repeat the first one of a periodic dimension are not included (as in C89)."
  },
  {
   "property": "C91",
   "status": "partial",
   "theorems": [
    "Intp.cell_construct_any",
    "Intp.cell_derivative_any_partial",
    "Intp.cell_call_safe_partial",
    "Intp.cell_one_any_partial",
    "Intp.cell_double_one_partial",
    "Intp.cell_double_oob"
   ],
   "note": "False for even orders in periodic dimensions when the wrapped coordinate is the end of the range or nan (cell_double_oob: the double next to the start of the range on its left). Proved for odd orders, without periodic dimensions, and otherwise for points that do not wrap to the end (BelowEnd)."
  },
  {
   "property": "C92",
   "status": "proved",
   "theorems": [
    "Intp.derivative_zero_any"
   ],
   "note": ""
  },
  {
   "property": "C93",
   "status": "proved",
   "theorems": [
    "Intp.rounded_cell",
    "Intp.double_cell_eval",
    "Intp.double_cell",
    "Intp.double_cell_call"
   ],
   "note": ""
  },
  {
   "property": "C94",
   "status": "proved",
   "theorems": [
    "Intp.value_map",
    "Intp.value_map_cell",
    "Intp.double_neg"
   ],
   "note": ""
  },
  {
   "property": "C95",
   "status": "proved",
   "theorems": [
    "Intp.vector_components"
   ],
   "note": ""
  },
  {
   "property": "C96",
   "status": "proved",
   "theorems": [
    "Intp.data_independent",
    "Intp.data_independent_cell",
    "Intp.double_divAlike"
   ],
   "note": ""
  },
  {
   "property": "C97",
   "status": "proved",
   "theorems": [
    "Intp.signed_zeros",
    "Intp.S64.signs",
    "Intp.ParamExample.report"
   ],
   "note": "The hypothesis that no number is divided by the negative zero is expressed by a run that reports such divisions; ParamExample.report shows that it is needed. C98 shows that it holds."
  },
  {
   "property": "C98",
   "status": "proved",
   "theorems": [
    "Intp.zeros_eval",
    "Intp.zeros_construct",
    "Intp.construct_plain",
    "Intp.zeros_interpolates_low"
   ],
   "note": "For explicit coordinates the condition is on the knots the code makes from them (RangeOk): an average of tiny coordinates may underflow to the negative zero. zeros_construct asks for pivots that are not zero in the arithmetic with one zero; zeros_interpolates_low has no such hypothesis."
  },
  {
   "property": "C99",
   "status": "proved",
   "theorems": [
    "Intp.interpolation_projection",
    "Intp.interpolation_idempotent"
   ],
   "note": "The spline is the object of a successful construction with its control points replaced."
  },
  {
   "property": "C100",
   "status": "proved",
   "theorems": [
    "Intp.interpolation_stable",
    "Intp.interpolation_bounded",
    "Intp.interpolation_near_best"
   ],
   "note": "The bounds of the inverse of the matrices come from row dominance after scaling with fixed rational weights (RowsInv); they do not depend on the number of points."
  },
  {
   "property": "C101",
   "status": "proved",
   "theorems": [
    "Intp.interpolation_converges",
    "Intp.uniform_rate",
    "Intp.uniform_limit"
   ],
   "note": "Exact arithmetic over the reals. The constants are not sharp."
  },
  {
   "property": "C102",
   "status": "proved",
   "theorems": [
    "Intp.double_near_exact_periodic",
    "Intp.double_near_periodic_low"
   ],
   "note": "Periodic dimensions given by explicit coordinates are not covered. Near the boundary of a period the computed wrapped coordinate may be in the neighbouring period; these points are left out (C75 bounds the error of wrapping there)."
  },
  {
   "property": "C103",
   "status": "proved",
   "theorems": [
    "Intp.exact_field"
   ],
   "note": ""
  },
  {
   "property": "C104",
   "status": "proved",
   "theorems": [
    "Intp.double_accuracy_low"
   ],
   "note": "Orders, axes and points as in C102 (double_near_periodic_low). The constants are not sharp."
  },
  {
   "property": "C105",
   "status": "proved",
   "theorems": [
    "Intp.derivative_converges",
    "Intp.uniform_derivative_rate",
    "Intp.uniform_derivative_limit"
   ],
   "note": "Exact arithmetic over the reals. The constants are not sharp; with several dimensions the power of the distances that the bound gives for mixed derivatives is not sharp either."
  },
  {
   "property": "C106",
   "status": "proved",
   "theorems": [
    "Intp.double_derivative_near",
    "Intp.double_derivative_near_low",
    "Intp.derivative_stable",
    "Intp.double_derivative_accuracy"
   ],
   "note": "Derivative orders below the order of the splines: a derivative of that order jumps at knots, and computed and exact knots differ. Points and axes as in C102. The constants are not sharp."
  },
  {
   "property": "C107",
   "status": "partial",
   "theorems": [
    "Intp.range_type_partial",
    "Intp.range_type_fails",
    "Intp.int_range_partial",
    "Intp.int_range_double_partial",
    "Intp.mixed_range_partial",
    "Intp.int_range_overflow",
    "Intp.mixed_range_wrong",
    "Intp.float_range_wrong",
    "Intp.float_range_partial",
    "Intp.float_range_overflow"
   ],
   "note": "False: the difference of the ends is computed in their own type, so it may overflow (int_range_overflow, float_range_overflow) or be rounded to float (float_range_wrong), and two integer types are converted to their common type, which changes negative numbers (mixed_range_wrong). Proved: ordered integers of one type whose difference fits give the same function, in exact arithmetic and (up to 2^53) in double; so do float ends whose difference is a float, in double."
  },
  {
   "property": "C108",
   "status": "proved",
   "theorems": [
    "Intp.overloads",
    "Intp.overloads_missing",
    "Intp.negative_order"
   ],
   "note": "Exact arithmetic; argument counts above D do not compile and are not modelled."
  },
  {
   "property": "C109",
   "status": "proved",
   "theorems": [
    "Intp.order_zero_nearest",
    "Intp.order_zero_values",
    "Intp.order_zero_succeeds",
    "Intp.order_zero_coords_overread",
    "Intp.order_zero_coords_fail",
    "Intp.order_zero_double_overread",
    "Intp.order_zero_any",
    "Intp.order_zero_double"
   ],
   "note": "Nearest point in exact arithmetic; values among the data in any arithmetic and in double (where 0 and -0 are one value); the failure for explicit coordinates of non-periodic dimensions in any arithmetic."
  },
  {
   "property": "C110",
   "status": "proved",
   "theorems": [
    "Intp.default_no_value",
    "Intp.filled",
    "Intp.interrupted_no_value",
    "Intp.moved_template"
   ],
   "note": "Default layout. The members of a moved-from std::vector being empty is trusted."
  },
  {
   "property": "C111",
   "status": "proved",
   "theorems": [
    "Intp.instance_unique",
    "Intp.instance_built_once",
    "Intp.instance_progress",
    "Intp.instance_library",
    "Intp.instance_construct"
   ],
   "note": "The rules of C++11 for static variables in functions are trusted; that the constructor terminates is C87."
  },
  {
   "property": "C112",
   "status": "partial",
   "theorems": [
    "Intp.trace_partial",
    "Intp.TraceExample.trace_wrong"
   ],
   "note": "False for periodic dimensions: the lines {0, 0} -> 1 and {n-1, n-1} -> 1 are printed for them too (witness trace_wrong: the entry is 3/4). trace_partial proves that tracing has no effect on the result, the claim for non-periodic dimensions of at least two points, and for periodic ones without the first and the last line. Output of the knots is not modelled."
  }
 ]
}