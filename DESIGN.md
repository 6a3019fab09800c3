# Formal model of BSplineInterpolation in Lean 4

Source: `/repo` (12ff54e/BSplineInterpolation, pinned commit), header-only C++ in `src/include`. Lean project: `/verif/lean`
(Lean 4.33.0 + Mathlib). Build with `lake build` in `/verif/lean`.

## 1. Approach

* Every C++ function that carries logic is modelled by a computable Lean function, loop by loop, in the monad `M = Except Err`
  (`Verif/Basic.lean`). Each definition cites the file and lines it models.
* What C++ leaves undefined, and what breaks the numeric contract, is a *distinct outcome* and never totalised away:

  | outcome | meaning |
  |---|---|
  | `oob` | access outside a buffer, iterator moved outside its range |
  | `wrap` | unsigned subtraction below zero |
  | `divZero` | division by zero (IEEE arithmetic would give inf or nan; integer division is UB) |
  | `assertFail` | `INTP_ASSERT` fails (only if assertions are enabled) |
  | `domainError` | `std::domain_error` |
  | `badAlloc` | `std::bad_alloc` of the stack allocator |
  | `deadMember` | use of a union member that is not alive (pre-C++17 `EitherSolver`) |
  | `badCast` | conversion of a floating-point number to `size_t` out of range (only in the model with rounding) |
  | `overflow` | overflow of signed integers (only in `EndTypes.lean`) |
  | `switchSolver` | `INTP_ASSERT` against changing the type of a solver |

* "No undefined behaviour" is therefore part of every theorem that says `= .ok v`.
* Coordinates, knots and matrix entries are elements of an arbitrary linearly ordered field `K` (with floor where `ceil`/`fmod` occur).
  Data and control points are elements of an arbitrary `K`-module `V` (the C++ value type may be vector valued).
* `std::size_t` is `ℕ`; a subtraction that would wrap is the outcome `wrap`.
* The number of dimensions `D`, the order, all sizes, all knots and all data are universally quantified. No theorem has a bound on them
  unless the statement in `properties.jsonl` has it.
* Configuration macros: `Cfg.assertions` (INTP_ENABLE_ASSERTION), `Cfg.noDummy` (INTP_PERIODIC_NO_DUMMY_POINT). `INTP_CELL_LAYOUT`,
  `INTP_MULTITHREAD` and the language standard are modelled by separate functions (`CellLayout.lean`, `MultiThread.lean`, `Pre17.lean`) and
  theorems that compare them with the default ones.
* Concurrency is modelled by transition systems (`ThreadPool.lean`, `MultiThread.lean`); theorems quantify over all executions.
* Specifications (`Verif/Spec/*.lean`) are written in textbook mathematics (Cox-de Boor recursion, `Finset` sums, `Matrix`,
  `Polynomial.derivative`, `iteratedDeriv`) and do not use the model.
* Property theorems are in `Verif/Props/*.lean`, helper lemmas in `Verif/Proofs/*.lean`. Beside each property theorem an `example` shows a
  concrete non-trivial case that meets its hypotheses.

## 2. Properties

| id | claim | status | theorems (namespace `Intp`) |
|----|----|----|----|
| C01 | Mesh indexing is a bijection | proved | `mesh_indexing_bijection`, `mesh_access_in_buffer` |
| C02 | Iterator position and multi-index are inverse | proved | `mesh_iter_indices_inverse` |
| C03 | Mesh behaves as a map from multi-indices to values | proved | `mesh_is_map`, `mesh_of_list` |
| C04 | Dimension-wise iteration visits exactly one line | proved | `mesh_line_iteration` |
| C05 | Checked mesh access rejects exactly the out-of-range indices | proved | `mesh_checked_access` |
| C06 | Band matrix storage is a faithful matrix store | proved | `band_store` |
| C07 | Extended band matrix storage is a faithful matrix store | proved | `ext_band_store`, `ext_band_ctor_iff` |
| C08 | Band matrix times vector is the matrix-vector product | partial | `band_mulVec_wrong`, `band_mulVec_partial` |
| C09 | Extended band matrix times vector is the matrix-vector product | proved | `ext_band_mulVec` |
| C10 | Band solver returns the solution | proved | `band_solver_solves`, `band_solver_object` |
| C11 | Extended band solver returns the solution | proved | `ext_solver_solves`, `ext_solver_object`, `ext_solver_wraps_when_small` |
| C12 | Solver succeeds on strictly diagonally dominant and on leading-block-regular systems | proved | `solver_succeeds`, `leading_blocks_of_diag_dominant` |
| C13 | A solver keeps its first matrix | proved | `solver_keeps_first_matrix` |
| C14 | Basis values are the Cox-de Boor B-spline values | proved | `basis_is_cox_de_boor` |
| C15 | Basis evaluation never divides by zero or leaves the knot vector | proved | `basis_total`, `basis_degenerate_segment` |
| C16 | Basis values form a partition of unity and are non-negative | proved | `basis_partition_of_unity` |
| C17 | Knot search finds the segment, whatever the hint | proved | `knot_search`, `knot_search_wraps` |
| C18 | Spline value is the tensor-product B-spline sum | proved | `spline_value`, `spline_value_nonperiodic` |
| C19 | Evaluation does not depend on the position hint | proved | `hint_independent` |
| C20 | derivative_at is the derivative of operator() | proved | `derivative_at_is_derivative`, `derivative_at_hasDerivAt` |
| C21 | Derivative order edge cases | proved | `derivative_order_zero`, `derivative_order_exceeds` |
| C22 | Spline is order-1 times continuously differentiable across simple knots | proved | `spline_smooth`, `derivative_continuous`, `pieces_agree_at_knot` |
| C23 | Convex hull property | proved | `convex_hull`, `convex_hull_bounds` |
| C24 | Local control | proved | `local_control` |
| C25 | Periodic evaluation is periodic | proved | `evaluation_periodic`, `value_periodic`, `interpolation_periodic`, `interpolation_derivative_periodic` |
| C26 | Out-of-range evaluation extends the end pieces | proved | `out_of_range_extends` |
| C27 | Interpolation condition | proved | `interpolation_condition`, `construct_ok_or_singular`, `construct_ok_iff` |
| C28 | Interpolation condition for small periodic axes | partial | `small_periodic_wrong_values`, `interpolation_condition` |
| C29 | Construction never meets a zero pivot on non-periodic axes | proved | `aperiodic_minors_pos`, `aperiodic_construct_ok`, `aperiodic_polynomial` |
| C30 | Polynomial reproduction | proved | `polynomial_reproduction`, `polynomial_reproduction_1d`, `constant_reproduction` |
| C31 | Interpolation is linear in the data | proved | `interpolate_linear` |
| C32 | Uniform range and explicit equispaced coordinates agree | partial | `equispaced_same_function_partial`, `equispaced_same_knots_partial`, `equispaced_knot_zero_differs` |
| C33 | The dummy end point of a periodic axis is ignored | proved | `dummy_ignored` |
| C34 | NO_DUMMY_POINT is the same interpolation without the redundant point | proved | `no_dummy_same` |
| C35 | Range-checked access | proved | `at_checked`, `derivative_at_checked`, `at_constructed` |
| C36 | range() is the interval spanned by the data coordinates | partial | `range_odd_aperiodic_partial`, `range_periodic`, `range_even_aperiodic`, `at_last_point_throws` |
| C37 | Templates can be reused | proved | `template_interpolate`, `template_reuse` |
| C38 | Copies of a template behave like the original | partial | `template_copy_partial`, `pre17_copy_dead`, `pre17_copy_destroy`, `pre17_assign` |
| C39 | Cell layout does not change results | partial | `cell_layout_partial`, `cell_layout_error`, `cell_layout_oob`, `cell_layout_assert`, `CellExample.cell_layout_wrong_value` |
| C40 | Evaluation proxy equals evaluation | partial | `eval_proxy_partial`, `CellExample.eval_proxy_wrong` |
| C41 | Block division covers every line exactly once | proved | `block_division`, `block_division_unique`, `caller_lines_few` |
| C42 | Multi-threaded solving is deterministic | proved | `multithread_deterministic`, `multithread_no_race`, `multithread_complete`, `multithread_runs`, `multithread_construct`, `multithread_exact`, `multithread_double` |
| C43 | Thread pool runs every task at most once and loses none | proved | `task_in_one_place`, `task_runs_once`, `done_grows` |
| C44 | Thread pool runs every task eventually | proved | `no_lost_wakeup`, `pool_no_deadlock`, `all_tasks_run` |
| C45 | Thread pool destruction terminates | partial | `destructor_may_hang`, `stop_flag_race`, `destructor_terminates_partial` |
| C46 | Stack allocator hands out disjoint blocks | proved | `stack_allocator_disjoint`, `stack_allocator_succeeds_iff`, `stack_allocator_restored`, `stack_allocator_errors`, `stack_allocator_max_size` |
| C47 | Aligned allocator size computation does not overflow | proved | `aligned_bytes_exact`, `aligned_max_size_largest`, `aligned_bytes_wrap` |
| C48 | Explicit coordinates are read exactly once, within bounds | partial | `coords_aperiodic`, `coords_aperiodic_overread`, `coords_periodic_reads`, `coords_periodic_knots_partial`, `coords_periodic_knot_zero` |
| C49 | Position hints are always valid | proved | `hint_valid` |
| C50 | Affine change of coordinate | proved | `affine_coordinates` |
| C51 | Separable data | proved | `separable` |
| C52 | Default coordinates of the 1D convenience classes | partial | `default_coordinates`, `template_default_coordinates`, `template_default_agrees_partial`, `template_default_noDummy`, `default_coordinates_differ` |
| C53 | Pre-C++17 slicing of the band matrix | proved | `pre17_slice_get`, `pre17_construct`, `pre17_interpolate`, `pre17_construct_fn`, `pre17_destroy`, `pre17_wrapper` |
| C54 | Stack allocator outside last-in-first-out use | proved | `stack_allocator_growth_overlaps`, `stack_allocator_copies_overlap`, `derivative_buffers` |
| C55 | Construction never meets a zero pivot on periodic axes | partial | `periodic_minors_partial`, `periodic_construct_ok_partial`, `periodic_interpolates_partial` |
| C56 | Coordinates are checked | proved | `coords_check`, `template_coords_check`, `coords_unchecked` |
| C57 | Data of another shape than the template | proved | `short_data`, `dummy_omitted`, `long_data` |
| C58 | Splines built directly from knots and control points | proved | `direct_check`, `direct_value`, `direct_derivative`, `direct_roundtrip`, `direct_roundtrip_even` |
| C59 | Order of the dimensions | proved | `permuted_dimensions` |
| C60 | Slices and iterated interpolation | proved | `slice_at_node`, `iterated_interpolation` |
| C61 | Mirror image of an axis | proved | `mirror_image`, `mirror_image_aperiodic` |
| C62 | Solving on the thread pool | proved | `pool_solve_deterministic`, `pool_solve_safe`, `pool_solve_complete`, `pool_solve_runs`, `pool_solve_construct`, `pool_solve_total`, `pool_solve_double` |
| C63 | Cell layout filled on the thread pool | proved | `pool_fill_deterministic`, `pool_fill_safe`, `pool_fill_complete` |
| C64 | Order 1 is multilinear interpolation | proved | `order_one_multilinear`, `order_one_bounds`, `order_one_succeeds` |
| C65 | Periodic axes have no distinguished first point | proved | `rotated_period`, `cyclic_shift` |
| C66 | Uninitialised memory does not reach the results | proved | `uninitialised_irrelevant_any`, `construct_uninitialised_any`, `uninitialised_irrelevant`, `construct_uninitialised_irrelevant`, `uninitialised_double` |
| C67 | Statistics of the thread pool | proved | `stats_queue`, `stats_main`, `stats_steals`, `stats_final`, `stats_note_iff`, `stats_lift`, `StatsExample.stats_note_wrong`, `StatsExample.stats_race` |
| C68 | The rounding model and the exact model are one | proved | `exact_construct`, `exact_evaluate`, `exact_cell` |
| C69 | Construction is memory safe whatever the arithmetic | proved | `float_construct`, `float_construct_uniform`, `double_construct` |
| C70 | Explicit coordinates and rounding | partial | `double_coords_outside_band`, `float_construct_coords_partial`, `double_construct_linear_partial`, `double_construct_separated_partial` |
| C71 | Evaluation is safe whatever the arithmetic and the coordinate | partial | `float_evaluate_partial`, `float_evaluate_coords`, `double_evaluate_partial`, `double_hint_overflow` |
| C72 | Arithmetic of double rounds to nearest, ties to even | proved | `double_round`, `double_round_overflow`, `double_round_mono`, `double_ops`, `double_ops_same`, `double_fmod`, `double_ceil`, `double_special` |
| C73 | Basis functions are computed accurately in double | proved | `rounded_basis`, `double_basis` |
| C74 | Splines are evaluated accurately in double | proved | `rounded_eval`, `double_eval`, `double_call` |
| C75 | Periodic coordinates are wrapped accurately in double | proved | `double_wrap`, `double_wrap_outside` |
| C76 | Errors of the solvers stay in proportion to the factors | proved | `rounded_band_solver`, `rounded_ext_solver` |
| C77 | Accuracy of the solvers in double | proved | `double_band_solver`, `double_ext_solver` |
| C78 | The MATLAB interface | partial | `matlab_partial`, `matlab_singleton`, `matlab_dims`, `matlab_check` |
| C79 | Data points are reproduced in double | proved | `double_interpolates`, `double_interpolates_separated`, `double_interpolates_positive`, `double_interpolates_axes`, `double_interpolates_axes_positive` |
| C80 | Knots of explicit coordinates in double | proved | `double_knots` |
| C81 | Meshes in 64-bit arithmetic | proved | `mesh_word`, `mesh_word_overflow` |
| C82 | Pointers formed by line iteration | partial | `mesh_line_pointers_partial`, `mesh_line_pointers_last`, `mesh_end_outside` |
| C83 | Tasks that use the pool they run on | partial | `nested_no_deadlock_partial`, `nested_all_tasks_run_partial`, `nested_one_more_partial`, `nested_deadlock` |
| C84 | Low orders over uniform dimensions in double | proved | `double_construct_ok`, `double_interpolates_small` |
| C85 | Interpolation in double is near exact interpolation everywhere | proved | `double_near_exact`, `double_near_small` |
| C86 | Exceptions in parallel regions | partial | `exception_safe_partial`, `exception_last_partial`, `exception_not_lost`, `exception_result`, `exception_tasks_left`, `exception_use_after_free` |
| C87 | Construction of the thread pool | partial | `ctor_reachable`, `ctor_thrown`, `ctor_terminates_partial`, `ctor_may_hang` |
| C88 | Derivatives are computed accurately | proved | `rounded_derivative`, `double_derivative`, `double_derivative_call`, `steep_of_gaps` |
| C89 | Periodic data points are reproduced in double | proved | `double_interpolates_periodic` |
| C90 | Low orders with periodic dimensions in double | proved | `double_interpolates_periodic_low` |
| C91 | The cell layout with rounding | partial | `cell_construct_any`, `cell_derivative_any_partial`, `cell_call_safe_partial`, `cell_one_any_partial`, `cell_double_one_partial`, `cell_double_oob` |
| C92 | Derivatives of order 0 with rounding | proved | `derivative_zero_any` |
| C93 | Accuracy in the cell layout | proved | `rounded_cell`, `double_cell_eval`, `double_cell`, `double_cell_call` |
| C94 | Maps of values commute with interpolation, bit by bit | proved | `value_map`, `value_map_cell`, `double_neg` |
| C95 | Interpolation of vectors is interpolation of the components | proved | `vector_components` |
| C96 | The data do not steer the computation | proved | `data_independent`, `data_independent_cell`, `double_divAlike` |
| C97 | The signs of zeros | proved | `signed_zeros`, `S64.signs`, `ParamExample.report` |
| C98 | The code does not divide by the negative zero | proved | `zeros_eval`, `zeros_construct`, `construct_plain`, `zeros_interpolates_low` |
| C99 | Interpolation is a projection onto the splines | proved | `interpolation_projection`, `interpolation_idempotent` |
| C100 | Interpolation of low order is stable and nearly best | proved | `interpolation_stable`, `interpolation_bounded`, `interpolation_near_best` |
| C101 | Interpolations of smooth functions converge with the full order | proved | `interpolation_converges`, `uniform_rate`, `uniform_limit` |
| C102 | Interpolation in double with periodic dimensions is near exact interpolation | proved | `double_near_exact_periodic`, `double_near_periodic_low` |
| C103 | Exact arithmetic does not depend on the field | proved | `exact_field` |
| C104 | The function computed in double is near the function that was sampled | proved | `double_accuracy_low` |
| C105 | Derivatives of interpolations of smooth functions converge | proved | `derivative_converges`, `uniform_derivative_rate`, `uniform_derivative_limit` |
| C106 | Derivatives computed in double are near exact ones and near those of the sampled function | proved | `double_derivative_near`, `double_derivative_near_low`, `derivative_stable`, `double_derivative_accuracy` |
| C107 | Ranges given by numbers of another arithmetic type | partial | `range_type_partial`, `range_type_fails`, `int_range_partial`, `int_range_double_partial`, `mixed_range_partial`, `int_range_overflow`, `mixed_range_wrong`, `float_range_wrong`, `float_range_partial`, `float_range_overflow` |
| C108 | Overloads that take separate arguments | proved | `overloads`, `overloads_missing`, `negative_order` |
| C109 | Order 0 is the value at the nearest data point | proved | `order_zero_nearest`, `order_zero_values`, `order_zero_succeeds`, `order_zero_coords_overread`, `order_zero_coords_fail`, `order_zero_double_overread`, `order_zero_any`, `order_zero_double` |
| C110 | Function objects that have not been filled | proved | `default_no_value`, `filled`, `interrupted_no_value`, `moved_template` |
| C111 | One thread pool for the whole program | proved | `instance_unique`, `instance_built_once`, `instance_progress`, `instance_library`, `instance_construct` |
| C112 | The trace of the coefficient matrices | partial | `trace_partial`, `TraceExample.trace_wrong` |


A property marked *partial* is not proved as stated. In every such case but C55 the reason is that the code violates it: the violation is proved
(a concrete witness, or a theorem for a whole class of inputs), and the largest part found true is proved in a theorem with suffix
`_partial`. Section 5 lists the disagreements.

C55 (no zero pivot on periodic axes) is proved for uniform axes of every order (the coefficient matrix is a circulant, positive definite because
its symbol is a polynomial with non-negative coefficients in an averaging operator, `Proofs/PivotU.lean`) and for arbitrary coordinates up to order 3
(diagonal dominance after scaling the columns by knot distances, `Proofs/PivotC.lean`). What is missing is uneven spacing with order 4 and more, where no
scaling makes the matrix dominant. C29 (non-periodic axes) is proved for all orders by total positivity (`Proofs/TotalPos.lean`).

## 3. What is modelled

| source | model | contents |
|---|---|---|
| Mesh.hpp | `Mesh.lean` | index computation, checked access, `dimwise_indices`, `resize`, line iterators and their arithmetic |
| BandMatrix.hpp | `BandMatrix.lean` | both matrix classes: constructors, element access, `operator*` |
| BandLU.hpp | `BandLU.lean` | both solvers: factorisation, substitution on a strided line, `is_computed_` state |
| BSpline.hpp | `BSpline.lean` | `base_spline_value`, `get_knot_iter` (`std::upper_bound` as bisection), `operator()`, `derivative_at`, `load_knots`, `load_ctrlPts`, constructor from knots and control points |
| Interpolation.hpp | `Interpolation.lean` | both `create_knot_vector_`, partial construction, hints, `operator()`, `at`, `derivative`, `derivative_at`, `boundary_check_` |
| InterpolationTemplate.hpp | `InterpolationTemplate.lean` | constructor, `build_solver_`, `solve_for_control_points_`, all `interpolate` overloads, 1D classes |
| InterpolationTemplate.hpp (pre C++17) | `Pre17.lean` | `EitherSolver` union, assembly, slicing conversion, copies, destruction |
| InterpolationTemplate.hpp (INTP_MULTITHREAD) | `MultiThread.lean` | block division, tasks as sequences of memory operations, fork/join per dimension |
| BSpline.hpp, Interpolation.hpp (INTP_CELL_LAYOUT) | `CellLayout.lean` | `generate_cell_layout`, evaluation, derivatives, `pre_calc_coef`, `eval_proxy` |
| InterpolationTemplate.hpp, BSpline.hpp (INTP_MULTITHREAD) | `ForkJoin.lean` | parallel regions of a calling thread running on the pool: solving and cell filling |
| DedicatedThreadPool.hpp | `ThreadPool.lean` | worker loop, queues, stealing, mutex, condition variable with spurious wake-ups, destructor |
| InterpolationTemplate.hpp, BSpline.hpp (INTP_MULTITHREAD) | `Unwind.lean` | exceptions of tasks, of `queue_task` and of the calling thread in a parallel region (C86) |
| InterpolationTemplate.hpp | `Trace.lean` | lines printed by `INTP_TRACE` for the coefficient matrices (C112) |
| DedicatedThreadPool.hpp | `PoolInstance.lean` | `get_instance`: one pool, made by the first call that succeeds (C111) |
| DedicatedThreadPool.hpp | `PoolCtor.lean` | constructor: starting the threads, failing to start one, joining (C87) |
| DedicatedThreadPool.hpp | `Nested.lean` | tasks that queue tasks and wait for them (C83) |
| DedicatedThreadPool.hpp (INTP_DEBUG) | `PoolStats.lean` | the counters of the queues and of the workers, and the table the destructor prints |
| Mesh.hpp, util.hpp, InterpolationTemplate.hpp | `Uninit.lean` | `resize` with uninitialised new elements, solving on such meshes |
| all computing functions | `Arith.lean`, `FloatModel.lean` | construction and evaluation for coordinates and values with arbitrary operations (rounding, overflow, nan) |
| BSpline.hpp, Interpolation.hpp (INTP_CELL_LAYOUT) | `CellFloat.lean` | evaluation, derivatives and proxies in the cell layout in such arithmetic |
| none (IEEE 754) | `SignedZero.lean` | `double` with both zeros |
| `double` | `Float64.lean` | IEEE 754 binary64 as such an arithmetic |
| rounding errors | `Rounding.lean` | what is assumed of an arithmetic when errors are bounded (C73, C74, C88); `Proofs/F64Round.lean` proves it of `Float64.lean` |
| rounding errors | `Backward.lean` | the same for error bounds in terms of computed numbers (C76); `Proofs/F64Back.lean` proves it of `Float64.lean` |
| matlab/bspline.cpp | `Matlab.lean` | all but the checks of argument types; `matlab::data::TypedArray` is trusted |
| Mesh.hpp | `MeshWord.lean` | sizes, strides and offsets modulo 2^64; pointers formed by iterators (C81, C82) |
| Interpolation.hpp | `EndTypes.lean` | ranges whose ends are integers or `float`s (C107) |
| Interpolation.hpp, InterpolationTemplate.hpp | `Unfilled.lean` | default constructor; the three `interpolate` functions, with exceptions (C110) |
| Interpolation.hpp | `Overloads.lean` | overloads that take separate arguments (C108) |
| util.hpp, aligned-allocator.hpp | `Allocator.lean` | `stack_allocator`, size computation of `AlignedAllocator` |

### Simplifications

* Exact arithmetic in an ordered field in place of floating point, `std::fmod` and `std::ceil` being the exact functions, in all properties but C68-C80, C84, C85, C88-C98, C102, C104 and C106 (which compare both).
  For these, `FloatModel.lean` has the same functions with arbitrary operations; C68 ties the two models together. `Float64.lean` is IEEE 754 binary64
  with round to nearest even, except that there is one zero (C97 and C98 compare it with the one that has two). The extra precision that a compiler may keep in registers, and contraction
  to fused operations, are covered by the theorems on arbitrary operations only if the operations stay functions of their operands.
* `size_t` never overflows upwards (sizes above 2^64), except in the aligned allocator and in `MeshWord.lean`, whose properties are about it.
* `std::vector`, `std::array`, `std::variant`, `std::future` are trusted to behave as the standard says; allocation always succeeds except in
  the two allocators modelled.
* Memory that C++ leaves uninitialised starts with zeros or `[]` in the model where it is written before it is read. Where this is not
  obvious the comment of the definition says so (`dimwiseIndices`, `Mesh.resize`, `InterpFn.dx`, `precalc`). For `Mesh.resize` C66 proves that the zeros make no difference; the parallel builds (C42, C62, C86) have arbitrary contents there.
* Thread pool: a queue operation that holds its own mutex throughout is one step; tasks are numbers and running a task is one step.
  Multi-threaded solving: one step is one element read or write, memory is sequentially consistent. The absence of data races is proved
  (`multithread_no_race`), which is what makes sequential consistency justified. Both are about arbitrary arithmetic; the exact one is the
  instance `exactCoord`, `exactVal`, `exactScale`.
  `ForkJoin.lean` combines the two: a worker holding a task performs its memory operations one by one. Tasks of other threads take one step
  and do not touch the buffers of the call. Solvers and control points are only read and hence parameters. Exceptions inside
  a region are the subject of `Unwind.lean`: any operation of a task or of the caller may throw, and afterwards only the workers go on. Calls made from inside a pool
  task are the subject of `Nested.lean`, without their memory operations.
* Number of blocks in multi-threaded solving is arbitrary, since `std::sqrt` may round.

### Not modelled

Compile-time overload selection and SFINAE; move constructors of `Mesh`/`BSpline` other than where they matter; debug output (`INTP_DEBUG` other than the
counters of the thread pool, `INTP_TRACE` other than the coefficient matrices, iostream); tests; parsing helpers; timing.

## 4. Trusted base

* Lean's kernel (4.33.0), and the Mathlib definitions that appear in statements (ordered fields, modules, `Finset` sums, `Matrix`,
  `Polynomial`, derivatives).
* The reading of the C++ source into the model. It is not machine checked. Every definition cites the lines it models.
* The Lean statements express the English statements in `properties.jsonl`; wrong programs were tried against them (`seeded/LOG.jsonl`).
* No axioms were added, no `sorry`, `admit`, `native_decide`, `bv_decide`. Axioms of the property theorems:

* `propext`, `Classical.choice`, `Quot.sound`: `mesh_indexing_bijection`, `mesh_access_in_buffer`, `mesh_iter_indices_inverse`, `mesh_is_map`, `mesh_of_list`, `mesh_line_iteration`, `mesh_checked_access`, `band_store`, `ext_band_store`, `ext_band_ctor_iff`, `band_mulVec_wrong`, `band_mulVec_partial`, `ext_band_mulVec`, `band_solver_solves`, `band_solver_object`, `ext_solver_solves`, `ext_solver_object`, `ext_solver_wraps_when_small`, `solver_succeeds`, `leading_blocks_of_diag_dominant`, `solver_keeps_first_matrix`, `basis_is_cox_de_boor`, `basis_total`, `basis_partition_of_unity`, `knot_search`, `knot_search_wraps`, `spline_value`, `spline_value_nonperiodic`, `hint_independent`, `derivative_at_is_derivative`, `derivative_at_hasDerivAt`, `derivative_order_zero`, `derivative_order_exceeds`, `spline_smooth`, `derivative_continuous`, `pieces_agree_at_knot`, `convex_hull`, `convex_hull_bounds`, `local_control`, `evaluation_periodic`, `value_periodic`, `interpolation_periodic`, `interpolation_derivative_periodic`, `out_of_range_extends`, `interpolation_condition`, `construct_ok_or_singular`, `construct_ok_iff`, `interpolate_linear`, `dummy_ignored`, `no_dummy_same`, `derivative_at_checked`, `at_constructed`, `range_odd_aperiodic_partial`, `range_periodic`, `range_even_aperiodic`, `at_last_point_throws`, `template_interpolate`, `template_reuse`, `hint_valid`, `separable`, `small_periodic_wrong_values`, `polynomial_reproduction`, `polynomial_reproduction_1d`, `constant_reproduction`, `equispaced_same_function_partial`, `equispaced_same_knots_partial`, `equispaced_knot_zero_differs`, `coords_aperiodic`, `coords_aperiodic_overread`, `coords_periodic_reads`, `coords_periodic_knots_partial`, `coords_periodic_knot_zero`, `affine_coordinates`, `default_coordinates`, `template_default_coordinates`, `template_default_agrees_partial`, `template_default_noDummy`, `default_coordinates_differ`, `task_in_one_place`, `task_runs_once`, `done_grows`, `no_lost_wakeup`, `pool_no_deadlock`, `all_tasks_run`, `destructor_may_hang`, `stop_flag_race`, `destructor_terminates_partial`, `block_division_unique`, `caller_lines_few`, `multithread_deterministic`, `multithread_no_race`, `multithread_complete`, `multithread_runs`, `multithread_construct`, `multithread_exact`, `multithread_double`, `stack_allocator_growth_overlaps`, `cell_layout_partial`, `cell_layout_error`, `cell_layout_oob`, `cell_layout_assert`, `CellExample.cell_layout_wrong_value`, `eval_proxy_partial`, `CellExample.eval_proxy_wrong`, `pre17_construct`, `pre17_interpolate`, `pre17_construct_fn`, `pre17_destroy`, `template_copy_partial`, `pre17_copy_dead`, `aperiodic_minors_pos`, `aperiodic_construct_ok`, `aperiodic_polynomial`, `periodic_minors_partial`, `periodic_construct_ok_partial`, `periodic_interpolates_partial`, `coords_check`, `template_coords_check`, `coords_unchecked`, `short_data`, `dummy_omitted`, `long_data`, `direct_check`, `direct_value`, `direct_derivative`, `direct_roundtrip`, `direct_roundtrip_even`, `permuted_dimensions`, `slice_at_node`, `iterated_interpolation`, `mirror_image`, `mirror_image_aperiodic`, `pool_solve_deterministic`, `pool_solve_safe`, `pool_solve_complete`, `pool_solve_runs`, `pool_solve_construct`, `pool_solve_total`, `pool_solve_double`, `pool_fill_deterministic`, `pool_fill_safe`, `pool_fill_complete`, `order_one_multilinear`, `order_one_bounds`, `order_one_succeeds`, `rotated_period`, `cyclic_shift`, `uninitialised_irrelevant_any`, `construct_uninitialised_any`, `uninitialised_irrelevant`, `construct_uninitialised_irrelevant`, `uninitialised_double`, `stats_queue`, `stats_main`, `stats_steals`, `stats_final`, `stats_note_iff`, `stats_lift`, `exact_construct`, `exact_evaluate`, `exact_cell`, `float_construct`, `float_construct_uniform`, `double_construct`, `double_coords_outside_band`, `float_construct_coords_partial`, `double_construct_linear_partial`, `double_construct_separated_partial`, `float_evaluate_partial`, `float_evaluate_coords`, `double_evaluate_partial`, `double_hint_overflow`, `double_round`, `double_round_overflow`, `double_round_mono`, `double_ops`, `double_ops_same`, `double_fmod`, `double_ceil`, `double_special`, `rounded_basis`, `double_basis`, `rounded_eval`, `double_eval`, `double_call`, `double_wrap`, `double_wrap_outside`, `rounded_band_solver`, `rounded_ext_solver`, `double_band_solver`, `double_ext_solver`, `matlab_partial`, `matlab_singleton`, `matlab_dims`, `matlab_check`, `double_interpolates`, `double_interpolates_separated`, `double_interpolates_positive`, `double_interpolates_axes`, `double_interpolates_axes_positive`, `double_knots`, `mesh_word`, `mesh_word_overflow`, `mesh_line_pointers_partial`, `mesh_line_pointers_last`, `mesh_end_outside`, `nested_no_deadlock_partial`, `nested_all_tasks_run_partial`, `nested_one_more_partial`, `nested_deadlock`, `double_construct_ok`, `double_interpolates_small`, `double_near_exact`, `double_near_small`, `exception_safe_partial`, `exception_last_partial`, `exception_not_lost`, `exception_result`, `exception_tasks_left`, `exception_use_after_free`, `ctor_reachable`, `ctor_thrown`, `ctor_terminates_partial`, `ctor_may_hang`, `rounded_derivative`, `double_derivative`, `double_derivative_call`, `steep_of_gaps`, `double_interpolates_periodic`, `double_interpolates_periodic_low`, `cell_construct_any`, `cell_derivative_any_partial`, `cell_call_safe_partial`, `cell_one_any_partial`, `cell_double_one_partial`, `cell_double_oob`, `derivative_zero_any`, `rounded_cell`, `double_cell_eval`, `double_cell`, `double_cell_call`, `double_neg`, `vector_components`, `double_divAlike`, `signed_zeros`, `S64.signs`, `ParamExample.report`, `zeros_eval`, `zeros_construct`, `construct_plain`, `zeros_interpolates_low`, `interpolation_projection`, `interpolation_idempotent`, `interpolation_stable`, `interpolation_bounded`, `interpolation_near_best`, `interpolation_converges`, `uniform_rate`, `uniform_limit`, `double_near_exact_periodic`, `double_near_periodic_low`, `exact_field`, `double_accuracy_low`, `derivative_converges`, `uniform_derivative_rate`, `uniform_derivative_limit`, `double_derivative_near`, `double_derivative_near_low`, `derivative_stable`, `double_derivative_accuracy`, `int_range_partial`, `int_range_double_partial`, `mixed_range_wrong`, `float_range_wrong`, `float_range_partial`, `float_range_overflow`, `overloads`, `overloads_missing`, `negative_order`, `order_zero_nearest`, `order_zero_values`, `order_zero_succeeds`, `order_zero_coords_overread`, `order_zero_coords_fail`, `order_zero_double_overread`, `order_zero_any`, `order_zero_double`, `default_no_value`, `interrupted_no_value`, `moved_template`, `instance_progress`, `instance_library`, `instance_construct`, `trace_partial`, `TraceExample.trace_wrong`
* `propext`, `Quot.sound`: `basis_degenerate_segment`, `at_checked`, `block_division`, `stack_allocator_disjoint`, `stack_allocator_succeeds_iff`, `stack_allocator_restored`, `stack_allocator_errors`, `stack_allocator_max_size`, `aligned_bytes_exact`, `aligned_max_size_largest`, `aligned_bytes_wrap`, `stack_allocator_copies_overlap`, `derivative_buffers`, `pre17_slice_get`, `pre17_wrapper`, `pre17_copy_destroy`, `pre17_assign`, `StatsExample.stats_note_wrong`, `StatsExample.stats_race`, `value_map`, `value_map_cell`, `data_independent`, `data_independent_cell`, `range_type_partial`, `mixed_range_partial`, `int_range_overflow`, `instance_unique`, `instance_built_once`
* `propext`: `range_type_fails`, `filled`


## 5. Disagreements between the code and the properties

1. **C08** `BandMatrix::operator*` (BandMatrix.hpp) addresses the column-aligned storage as if it were row aligned. The result is
   not A·x (`band_mulVec_wrong`). For p = q it is proved to be the product with a transposed matrix (`band_mulVec_partial`). The library does
   not call it. `ExtendedBandMatrix::operator*` is right (C09).
2. **C28** Periodic axes with fewer than `2*(order/2)+1` distinct points are accepted and give wrong values or wrapped index computations
   (`small_periodic_wrong_values`).
3. **C32/C48** For periodic axes with explicit coordinates and at most `order` distinct points, knot 0 is computed from a knot not yet written and is
   wrong (`equispaced_knot_zero_differs`, `coords_periodic_knot_zero`). It is never used in evaluation, so the functions agree.
4. **C36** For even orders the upper end of `range(d)` of a non-periodic axis is the knot before the last coordinate: `at()` throws at the last
   data point (`range_even_aperiodic`, `at_last_point_throws`). `load_knots` subtracts `2 - order % 2` where the clamped knots need 1.
5. **C38** Before C++17 copying or moving a template leaves the solvers dead: `EitherSolver(const EitherSolver&) {}` constructs no union member.
   Interpolating with the copy is undefined behaviour for all axes and data (`pre17_copy_dead`). Copy assignment is deleted
   (`pre17_assign` shows what the `bool` assignment does instead).
6. **C39** With INTP_CELL_LAYOUT and even order, at coordinates a positive whole number of periods left of the range of a periodic dimension
   (`x = first - k*period`), evaluation reads outside the cell container, fails an assertion or returns a wrong value
   (`cell_layout_oob`, `cell_layout_assert`, `CellExample.cell_layout_wrong_value`). The reason is that the wrapped coordinate equals `range.second`, whose
   segment has no cell.
7. **C40** `calculate_cell_dim_from_knots` counts one cell too many in periodic dimensions of even order (which have `2*order+2` extra knots), so that `eval_proxy`
   has a wrong offset if a dimension other than the first is periodic (`CellExample.eval_proxy_wrong`).
8. **C45** The destructor of the pool sets the stop flag without holding `main_queue_mutex`. A worker between evaluating its predicate and
   blocking misses the notification and the join never returns (`destructor_may_hang`, for every number of workers; `stop_flag_race`).
9. **C52** `InterpolationFunctionTemplate1D(f_length, periodicity)` with INTP_PERIODIC_NO_DUMMY_POINT and a periodic axis has the spacing
   `(N-1)/N`, unlike `InterpolationFunction1D` (`template_default_noDummy`, `default_coordinates_differ`).
10. **C17** `get_knot_iter` wraps when the last segment index is below the order (`knot_search_wraps`); this does not occur for constructed objects.
11. **C11** The extended solver wraps for `n` below `p + q` (`ext_solver_wraps_when_small`); see C28.
12. **C54** The stack allocator hands out overlapping blocks outside last-in-first-out use. The two buffers in `derivative_at` are disjoint.

13. **C56** With assertions disabled unordered coordinates are accepted and the function misses data points (`coords_unchecked`).
14. **C57** `interpolate` does not check the shape of its argument. Larger data are written outside the buffer (`long_data`), smaller data are
    padded with zeros without notice (`short_data`).
15. **C58** The BSpline constructor from knots asserts `2*order+1` extra knots for periodic dimensions, while interpolation uses `2*order+2` for even
    orders: its own knots are rejected (`direct_roundtrip_even`).
16. **C67** The note below the statistics of the pool, `Submitted = Executed - Stolen + Stealing`, has the signs of the last two terms exchanged
    (`StatsExample.stats_note_wrong`), and the destructor reads the counters before it joins the threads that change them (`StatsExample.stats_race`).
17. **C70** The knots of explicit non-periodic coordinates are averages computed from a running sum, which loses small coordinates next to large ones. A data
    point may then fall into a segment outside the band of the matrix. With assertions construction fails for valid increasing coordinates; without, `i + q_ - j` wraps
    around, another element of the matrix is overwritten and the function is wrong (`double_coords_outside_band`: order 2, coordinates
    -2^56, -2^55, 2, 3, 4; the value at the last data point is 4.85 instead of 5). No buffer is left (C69). Coordinates further apart than `16 n B / 2^53` are safe
    (`double_construct_separated_partial`).
18. **C71** `static_cast<size_type>(std::ceil(...))` in the hint of uniform dimensions is undefined for coordinates more than 2^64 spacings right of the
    range and for +inf (`double_hint_overflow`). nan is harmless because of the `std::max` around it.
19. **C78** `checkArguments` of the MATLAB interface counts only dimensions of size above 1, while `interpolation_nd` takes the first ones: an `n x 1 x k` array
    passes the checks and is interpolated as an `n x 1` mesh with spacing `(hi - lo) / 0` (`matlab_singleton`). With more than three dimensions `throw;` without an
    exception in flight ends the program, here MATLAB itself (`matlab_dims`). The number of points is not checked against the order (C28). The model assumes that
    `x[i]` on an array with more than one dimension is linear indexing, as the interface itself needs for column vectors.
20. **C81** The constructor of `Mesh` does not notice that the product of the side lengths exceeds 2^64; `Mesh<T, 2>(1ul << 32, 1ul << 32)` is an empty mesh whose elements
    are outside the buffer even with assertions (`mesh_word_overflow`).
21. **C82** `Mesh::end(d, idx)` forms a pointer behind the buffer for the last line along any dimension but the last, unless the line starts at index zero
    (`mesh_end_outside`: mesh-test.cpp:44). This is undefined in C++ though harmless on usual machines. The library calls `end` for the last dimension only.
22. **C83** A worker that waits for the future of a task does not run other tasks meanwhile. If as many tasks as there are workers queue subtasks and wait for them, all
    workers may wait forever (`nested_deadlock`, for every number of workers). This is what concurrent calls of `interpolate` from tasks of the pool do with
    `INTP_MULTITHREAD`. With fewer such tasks than workers everything runs (`nested_all_tasks_run_partial`); this is not obvious, because a worker that takes a batch from
    the main queue keeps up to 15 tasks in its own queue without notifying anybody.
23. **C86** If an operation on values, or the allocation in `queue_task`, throws in a parallel region, the exception leaves `solve_for_control_points_` or
    `generate_cell_layout` while tasks of the region are still queued or running: the destructors of the futures do not wait. The tasks then access destroyed meshes
    (`exception_tasks_left`, `exception_use_after_free`). With `double` values only the allocations can throw.
24. **C87** If a thread cannot be started after others have been, the handler in the constructor sets `should_terminate` and notifies without holding the mutex, as the
    destructor does (8, C45): the constructor may wait forever (`ctor_may_hang`).
25. **C91** In the cell layout the points of C39 that wrap to the end of the range are not exotic in `double`: for the first `double` left of the range the sum of the remainder of `std::fmod`
    and the period is rounded to the end of the range. Together with nan it reads behind the end of the control points (`cell_double_oob`); the default layout handles both.
26. **C107** `x_range.second - x_range.first` (Interpolation.hpp:336) is computed in the type of the ends. `std::make_pair(-2000000000, 2000000000)` overflows `int`
    (`int_range_overflow`), ends of type `float` give a step with 24 bits only, so that `double` interpolation misses its data points (`float_range_wrong`), or an infinite step and the value NaN (`float_range_overflow`), and the one-dimensional
    constructor converts ends of two integer types to their common type: `std::make_pair(-1, 10u)` starts at 4294967295, unnoticed by assertions (`mixed_range_wrong`).
27. **C109** InterpolationTemplate.hpp:291 has a case for order 0, and order 0 works on uniform axes and on periodic axes. With explicit coordinates of a
    non-periodic dimension the window sum is divided by the order 0 and `*(++it)` (Interpolation.hpp:442) reads past the last coordinate
    (`order_zero_coords_overread`, `order_zero_coords_fail`).
28. **C110** `interpolate(interp, mesh)` assigns the template's base function, which has no control points, to `interp` before it solves. If solving
   throws, `interp` has lost the function it held, and evaluating it is undefined behaviour (`interrupted_no_value`).
29. **C111** `get_instance(num)` documents `num` as the number of threads; it is ignored except by the call that makes the pool, so that the library, which asks
   for 8 threads, uses whatever number the first call asked for (`instance_library`). Results do not depend on it (`instance_construct`); whether tasks that use
   the pool can deadlock does (C83).
30. **C112** The trace prints `{0, 0} -> 1` and `{n-1, n-1} -> 1` for periodic dimensions too, whose matrices have other entries there (`TraceExample.trace_wrong`).

Observed while reading, without theorem: `derivative` cannot be instantiated with `long double` coordinates, since `std::max(0., ...)` (Interpolation.hpp:311) then has
arguments of two types; `#ifdef STACK_ALLOCATOR` (BSpline.hpp:418) does not match the macro `INTP_STACK_ALLOCATOR` (util.hpp:70);
the converting constructor of `stack_allocator` accesses private members of another instantiation; the `const` overload of `Mesh::end(dim, idx)` does not compile
if instantiated; `operator<`, `>`, `<=`, `>=` of the line iterators (Mesh.hpp:227-237) do not compile if instantiated, since they call the non-`const`
`operator-` on a `const` object.

## 5a. Tests of the model

`Verif/TestSuite.lean` runs the project's own tests test/src/bspline-test.cpp and test/src/interpolation-test.cpp on the model: 38 checks against the
reference values given there, with the tolerances of the tests, in exact arithmetic on the decimal data, with and without dummy points.
They test the transcription; they are not counted as proofs of any property.  CMake builds these tests with INTP_CELL_LAYOUT and without dummy
points (test/CMakeLists.txt:46-47); `Verif/TestSuiteCell.lean` has 29 checks in that configuration, with the proxy test of bspline-test.cpp (357-365) and without
the tests in three dimensions.  The two tests of 3D interpolation (interpolation-test.cpp:297-298, 500-506) are not in the file, since the kernel needs 15 GB for
each; evaluated with `#eval` outside the build they passed too.  Not run: the test with `Vec` values in `float` (interpolation-test.cpp:674-697) and the other test programs.  One test disagrees, by an error in
the test: with dummy points `interp1_periodic_segment` is declared with order 1 (interpolation-test.cpp:325) and compared with values of order 0; CMake does not build this branch.

## 6. Tests against wrong programs

`seeded/LOG.jsonl` has one line for each wrong program tried: the definition of the model that was edited in a scratch copy, the edit, the
claim it breaks, the declarations that then failed to compile (`theorems_failed`), the property theorems among those or depending on one of
them (`property_theorems_failed`), and the theorems tightened because of it.  A theorem in the last but one list need not have become false: it
may only have lost a lemma of its proof.  Failed proofs are cut out and the build repeated until the claim is reached, so `theorems_failed`
is not always complete.  Where the claim first put down for an edit was wrong the note says so.

A failed proof does not show that the claim is false under the edit.  For 154 of the 635 edits this was checked by evaluation: instances of 34
properties (C01-C07, C09-C11, C13-C27, C29-C31, C33-C35, C37, C64, C65) were evaluated on the edited exact model over
the rationals.  All are true on the model as committed.  In 148 entries a claim has a false instance (`claim_false_on_instance`), so no theorem
stating it can be proved for the edited model.  The evaluations are tests, run from scratch files that are not part of this repository.
They were widened while this was done: at first they missed edits that show only in several dimensions, outside the range, or on unclamped knots.

The six evaluated edits without a false instance: two known to preserve behaviour where the library uses them, two whose claim (C58) was not
among those evaluated, one whose claim (C79) is about the rounding model, and one (the reuse of basis values at equality in `uniformBase`) that
had been put down as breaking C27 but looks behaviour-preserving and breaks a proof only.  Of the claims first put down, some have no false instance under
their edit and are corrected in the log: C65 for the shift of the data (C27 and C64 are false), C33 for its omission, C29 for boundary rows
treated as internal, C17 and C18 for past-the-end positions, C19 for the overload without hints.  That C29, C17 and C18 hold there was seen on
instances only.  The other 481 entries rest on failed proofs alone, so some of their claims may be attributed wrongly as well; for two
edits of the rounding model the claim is recorded as not established.
