{"id": "C01", "title": "Mesh indexing is a bijection", "statement": "For a mesh of any dimension count and any side lengths, addressing an element by an in-range multi-index always selects a storage cell inside the buffer, different multi-indices select different cells, and every cell is selected by some multi-index (row-major order: the last index moves fastest).", "quantifier": "all dimension counts D, all side lengths, all pairs of in-range multi-indices", "why_tests_cant": "the set of shapes and index pairs is infinite; a test fixes a few shapes", "anchors": ["src/include/Mesh.hpp: MeshDimension::indexing, MeshDimension::size, Mesh::operator()"]}
{"id": "C02", "title": "Iterator position and multi-index are inverse", "statement": "iter_indices of the iterator at the storage position of an in-range multi-index returns exactly that multi-index, and for every storage position p < size() the multi-index returned by iter_indices is in range and addresses p again.", "quantifier": "all D, all shapes, all positions and all in-range multi-indices", "why_tests_cant": "needs every shape and every position", "anchors": ["src/include/Mesh.hpp: MeshDimension::dimwise_indices, MeshDimension::indexing, Mesh::iter_indices"]}
{"id": "C03", "title": "Mesh behaves as a map from multi-indices to values", "statement": "After any finite sequence of element writes to a mesh, reading an in-range element returns the value of the last write to that same multi-index, or the initial value if there was none; no write disturbs another element or the shape. A one-dimensional mesh made from a sequence has its elements in order.", "quantifier": "all D, shapes, initial contents, finite histories of writes, and read positions", "why_tests_cant": "histories are unbounded; aliasing bugs appear only for particular shapes", "anchors": ["src/include/Mesh.hpp: Mesh::operator(), Mesh::resize"]}
{"id": "C04", "title": "Dimension-wise iteration visits exactly one line", "statement": "Iterating from begin(d, idx) to end(d, idx) takes exactly dim_size(d) increments and visits, in order, the elements whose d-th index runs 0,1,...,dim_size(d)-1 with the other indices as in idx; it[n], it+n, it-n, it1-it2 and comparisons agree with that numbering.", "quantifier": "all D, shapes with positive sides, axes d, in-range idx, offsets n", "why_tests_cant": "all axes and shapes; off-by-one in the stride only shows for unequal sides", "anchors": ["src/include/Mesh.hpp: Mesh::begin(dim,idx), Mesh::end(dim,idx), skip_iterator, MeshDimension::dim_acc_size"]}
{"id": "C05", "title": "Checked mesh access rejects exactly the out-of-range indices", "statement": "With assertions enabled, element access by separate indices throws iff some index is out of range for its dimension; when it does not throw it accesses a valid cell. With assertions disabled the same in-range accesses return the same elements.", "quantifier": "all D, shapes, index tuples, both assertion settings", "why_tests_cant": "all index tuples", "anchors": ["src/include/Mesh.hpp: MeshDimension::indexing_safe", "src/include/util.hpp: INTP_ASSERT"]}
{"id": "C06", "title": "Band matrix storage is a faithful matrix store", "statement": "In a band matrix of size n with p lower and q upper bands, after any sequence of writes to in-band entries, reading an in-band entry gives the last value written to that entry (0 if none): distinct in-band entries never share storage and never leave the buffer.", "quantifier": "all n, p, q, all write histories, all in-band (i,j)", "why_tests_cant": "all band shapes and histories", "anchors": ["src/include/BandMatrix.hpp: BandMatrix::BandMatrix, BandMatrix::operator()"]}
{"id": "C07", "title": "Extended band matrix storage is a faithful matrix store", "statement": "In an extended band matrix (n > p, n > q) the same holds for the union of the main bands and the two wrapped corner side bands: every such entry has its own storage, writes to one never change another.", "quantifier": "all n, p, q with n > max(p,q), all write histories, all representable (i,j)", "why_tests_cant": "all band shapes and histories", "anchors": ["src/include/BandMatrix.hpp: ExtendedBandMatrix::operator(), main_bands_val, side_bands_val"]}
{"id": "C08", "title": "Band matrix times vector is the matrix-vector product", "statement": "For a band matrix A and vector x of length n, A * x returns the vector with entries sum_j A(i,j) x_j over the stored band.", "quantifier": "all n, p, q, all matrices and vectors", "why_tests_cant": "the shipped test uses one symmetric matrix; the claim ranges over all band matrices", "anchors": ["src/include/BandMatrix.hpp: BandMatrix::operator*"]}
{"id": "C09", "title": "Extended band matrix times vector is the matrix-vector product", "statement": "For an extended band matrix A and vector x of length n, A * x returns the vector with entries sum_j A(i,j) x_j over main and side bands.", "quantifier": "all n, p, q (n > p, n > q), all matrices and vectors", "why_tests_cant": "all shapes and values", "anchors": ["src/include/BandMatrix.hpp: ExtendedBandMatrix::operator*"]}
{"id": "C10", "title": "Band solver returns the solution", "statement": "If factorising a band matrix A and solving for b meets no zero divisor, the returned x satisfies A x = b exactly (in exact arithmetic); the solver never reads or writes outside the matrix or the vector, and its only failure is division by zero, which happens only when some leading square block of A is singular.", "quantifier": "all n >= 1, p, q, band matrices A over any ordered field, right-hand sides b", "why_tests_cant": "all sizes, bandwidths and values", "anchors": ["src/include/BandLU.hpp: BandLU<BandMatrix>::compute_impl, solve_in_place_impl"]}
{"id": "C11", "title": "Extended band solver returns the solution", "statement": "The same for matrices with wrapped side bands (n >= p+q, n > p, n > q): fill-in stays inside the representable pattern, no out-of-range access or index wrap-around occurs, and any returned x satisfies A x = b.", "quantifier": "all n, p, q in that domain, all matrices with that sparsity pattern, all b", "why_tests_cant": "fill-in interacts with bandwidth and size in many corner cases", "anchors": ["src/include/BandLU.hpp: BandLU<ExtendedBandMatrix>::compute_impl, solve_in_place_impl"]}
{"id": "C12", "title": "Solver succeeds on strictly diagonally dominant and on leading-block-regular systems", "statement": "If every leading square block of the matrix is non-singular (in particular if the matrix is strictly row diagonally dominant) the solver (both kinds) completes without dividing by zero for every right-hand side.", "quantifier": "all sizes, bandwidths, matrices satisfying the condition, all b", "why_tests_cant": "infinitely many matrices", "anchors": ["src/include/BandLU.hpp: compute_impl, solve_in_place_impl"]}
{"id": "C13", "title": "A solver keeps its first matrix", "statement": "A solver that has been given a matrix (by construction or by compute) ignores later compute calls: any later solve answers for the first matrix. Solving never changes the solver, so repeated solves with the same right-hand side agree whatever was solved in between.", "quantifier": "all finite histories of compute and solve calls", "why_tests_cant": "histories are unbounded", "anchors": ["src/include/BandLU.hpp: BandLUBase::compute, BandLUBase::solve"]}
{"id": "C14", "title": "Basis values are the Cox-de Boor B-spline values", "statement": "For non-decreasing knots and a non-degenerate segment [t_s, t_{s+1}), base_spline_value at x in the segment returns, for j = 0..order, the value at x of the B-spline of degree spline_order with index s-order+j as defined by the Cox-de Boor recursion, right-aligned with zeros in front when spline_order < order.", "quantifier": "all orders, requested degrees <= order, knot vectors, non-degenerate segments, x", "why_tests_cant": "all orders, knot vectors and points", "anchors": ["src/include/BSpline.hpp: BSpline::base_spline_value"]}
{"id": "C15", "title": "Basis evaluation never divides by zero or leaves the knot vector", "statement": "For every segment with t_s < t_{s+1}, order <= s and s+order < number of knots, base_spline_value completes: no zero divisor and no knot access outside the vector, for every x inside or outside the segment.", "quantifier": "all orders, knot vectors with possibly repeated knots, all such segments, all x", "why_tests_cant": "the zero-divisor cases need particular knot multiplicities", "anchors": ["src/include/BSpline.hpp: BSpline::base_spline_value"]}
{"id": "C16", "title": "Basis values form a partition of unity and are non-negative", "statement": "The order+1 basis values sum to 1 for every x (also when extrapolating) and each lies in [0,1] when x is in the segment.", "quantifier": "all orders, knots, segments, x", "why_tests_cant": "all inputs", "anchors": ["src/include/BSpline.hpp: BSpline::base_spline_value"]}
{"id": "C17", "title": "Knot search finds the segment, whatever the hint", "statement": "For knots that are strictly increasing on the search range, the knot search returns the unique segment containing x when x is inside, the first segment when x is to the left and the last one when x is to the right, for every valid hint, and never touches a knot outside the vector.", "quantifier": "all orders, knot vectors, x, hints", "why_tests_cant": "hint/segment combinations are unbounded", "anchors": ["src/include/BSpline.hpp: BSpline::get_knot_iter"]}
{"id": "C18", "title": "Spline value is the tensor-product B-spline sum", "statement": "Evaluating a D-dimensional spline returns sum over all multi-indices J of (product over d of the J_d-th Cox-de Boor basis function at x_d) times the control point J, for every point of the (non-periodic) domain; every element access is in range.", "quantifier": "all D, orders, knot vectors, control points, points in the domain", "why_tests_cant": "all dimensions and data", "anchors": ["src/include/BSpline.hpp: BSpline::operator()"]}
{"id": "C19", "title": "Evaluation does not depend on the position hint", "statement": "The spline value and its derivatives are the same for every valid hint tuple passed along with the coordinate.", "quantifier": "all splines, coordinates, pairs of valid hints, derivative orders", "why_tests_cant": "all hints", "anchors": ["src/include/BSpline.hpp: BSpline::operator()(coord_with_hints), derivative_at(tuple)"]}
{"id": "C20", "title": "derivative_at is the derivative of operator()", "statement": "For every tuple of derivative orders, derivative_at returns the mixed partial derivative of the polynomial piece of the spline that operator() evaluates at that point; in particular over the reals, for x strictly inside a knot segment, it equals the analytic (iterated) derivative of x -> operator()(x).", "quantifier": "all D, orders, derivative orders, knots, control points, coordinates", "why_tests_cant": "pointwise equality with a limit for all inputs", "anchors": ["src/include/BSpline.hpp: BSpline::derivative_at"]}
{"id": "C21", "title": "Derivative order edge cases", "statement": "Derivative order 0 in every dimension returns the spline value; a derivative order above the spline order in any dimension returns 0, for every coordinate, even outside the range.", "quantifier": "all splines, coordinates, derivative order tuples", "why_tests_cant": "all inputs", "anchors": ["src/include/BSpline.hpp: BSpline::derivative_at"]}
{"id": "C22", "title": "Spline is order-1 times continuously differentiable across simple knots", "statement": "At an interior knot of multiplicity one the polynomial pieces on both sides agree together with their derivatives up to order-1; hence the value returned by operator() is continuous in the coordinate over the whole axis for order >= 1.", "quantifier": "all orders, knot vectors, control points, interior knots", "why_tests_cant": "limit statement over all inputs", "anchors": ["src/include/BSpline.hpp: BSpline::operator(), get_knot_iter"]}
{"id": "C23", "title": "Convex hull property", "statement": "For a point inside the domain the spline value lies between the minimum and the maximum of the control points (any bound valid for all control points is valid for the value).", "quantifier": "all D, orders, knots, control points, points in the domain", "why_tests_cant": "all inputs", "anchors": ["src/include/BSpline.hpp: BSpline::operator()"]}
{"id": "C24", "title": "Local control", "statement": "Changing one control point J changes the spline value only at points whose coordinates all lie in the J-th support (at most order+1 segments per dimension).", "quantifier": "all splines, pairs of control point sets differing in one entry, points", "why_tests_cant": "all inputs", "anchors": ["src/include/BSpline.hpp: BSpline::operator()"]}
{"id": "C25", "title": "Periodic evaluation is periodic", "statement": "In a periodic dimension, moving the coordinate by any integer multiple of the period does not change the value nor any derivative of order below the spline order (values at all orders).", "quantifier": "all periodic interpolation functions, coordinates, integer shifts", "why_tests_cant": "all shifts and points, including the exact boundary", "anchors": ["src/include/BSpline.hpp: get_knot_iter (fmod wrap)", "src/include/Interpolation.hpp: InterpolationFunction::operator()"]}
{"id": "C26", "title": "Out-of-range evaluation extends the end pieces", "statement": "In a non-periodic dimension evaluating left (right) of the range returns the value of the first (last) polynomial piece continued, never an out-of-range access.", "quantifier": "all non-periodic splines and out-of-range coordinates", "why_tests_cant": "all coordinates", "anchors": ["src/include/BSpline.hpp: get_knot_iter, operator()"]}
{"id": "C27", "title": "Interpolation condition", "statement": "An interpolation function constructed from data returns, at every mesh node, exactly the data value given there (in exact arithmetic), provided construction meets no zero pivot: for every dimension count, every order >= 1 (order >= 0 on uniform axes), uniform or explicit strictly increasing coordinates, periodic or not in each dimension, with at least order+1 points per non-periodic axis and at least 2*(order/2)+1 distinct points per periodic axis.", "quantifier": "all D, orders, axis kinds, data sets, nodes in that domain", "why_tests_cant": "all data sets and node sets", "anchors": ["src/include/Interpolation.hpp: InterpolationFunction", "src/include/InterpolationTemplate.hpp: build_solver_, solve_for_control_points_"]}
{"id": "C28", "title": "Interpolation condition for small periodic axes", "statement": "The interpolation condition also holds for periodic axes with fewer than 2*(order/2)+1 distinct points (nothing in the API forbids them).", "quantifier": "all orders and small periodic axes", "why_tests_cant": "needs the boundary sizes for every order", "anchors": ["src/include/InterpolationTemplate.hpp: build_solver_ (coef_mat assignment)", "src/include/BandLU.hpp"]}
{"id": "C29", "title": "Construction never meets a zero pivot on non-periodic axes", "statement": "For every non-periodic axis with strictly increasing coordinates and at least order+1 points, order >= 1, constructing the interpolation succeeds for every data set: the coefficient matrix needs no pivoting.", "quantifier": "all orders, all strictly increasing coordinate vectors with at least order+1 points, all data", "why_tests_cant": "a theorem about all node distributions (Schoenberg-Whitney / total positivity)", "anchors": ["src/include/InterpolationTemplate.hpp: build_solver_", "src/include/BandLU.hpp: compute_impl", "src/include/Interpolation.hpp: create_knot_vector_"]}
{"id": "C30", "title": "Polynomial reproduction", "statement": "If the data are samples of a polynomial of degree at most the spline order on a non-periodic axis, the interpolation function equals that polynomial at every coordinate (also outside the range). In particular constant data give the constant function (on every kind of axis).", "quantifier": "all orders, coordinates, polynomials of degree <= order, evaluation points", "why_tests_cant": "all polynomials and points", "anchors": ["src/include/Interpolation.hpp: InterpolationFunction"]}
{"id": "C31", "title": "Interpolation is linear in the data", "statement": "For a fixed template, interpolating a*f+b*g gives at every point (and for every derivative) a times the interpolation of f plus b times the interpolation of g.", "quantifier": "all templates, data sets f, g, scalars, points, derivative orders", "why_tests_cant": "all data", "anchors": ["src/include/InterpolationTemplate.hpp: interpolate, solve_for_control_points_"]}
{"id": "C32", "title": "Uniform range and explicit equispaced coordinates agree", "statement": "Giving an axis as (x_min, x_max) or as the explicit list of its n equispaced coordinates yields the same knots and the same interpolation function.", "quantifier": "all orders, n, ranges, data, periodic or not", "why_tests_cant": "all sizes and orders", "anchors": ["src/include/Interpolation.hpp: create_knot_vector_ (both overloads)", "src/include/InterpolationTemplate.hpp: build_solver_"]}
{"id": "C33", "title": "The dummy end point of a periodic axis is ignored", "statement": "On a periodic axis (default configuration) the data values at the last index of that axis have no effect on the constructed function.", "quantifier": "all D, shapes, periodicity masks, data sets differing only in dummy points", "why_tests_cant": "all data", "anchors": ["src/include/InterpolationTemplate.hpp: solve_for_control_points_ (check_idx)"]}
{"id": "C34", "title": "NO_DUMMY_POINT is the same interpolation without the redundant point", "statement": "With INTP_PERIODIC_NO_DUMMY_POINT defined, interpolating data without the repeated end point yields the same function as the default configuration with it.", "quantifier": "all D, shapes, periodicity masks, data sets", "why_tests_cant": "all data and shapes", "anchors": ["src/include/InterpolationTemplate.hpp", "src/include/Interpolation.hpp: create_knot_vector_"]}
{"id": "C35", "title": "Range-checked access", "statement": "at() and derivative_at() throw a domain error iff some non-periodic coordinate is below range(d).first or above range(d).second, and otherwise return what operator() and derivative() return; periodic dimensions never cause a throw.", "quantifier": "all interpolation functions and coordinates", "why_tests_cant": "all coordinates", "anchors": ["src/include/Interpolation.hpp: at, derivative_at, boundary_check_"]}
{"id": "C36", "title": "range() is the interval spanned by the data coordinates", "statement": "For every non-periodic axis range(d) is exactly [first coordinate, last coordinate], so that at() accepts exactly the coordinates between the first and the last data coordinate; for periodic axes range(d) has the length of the period.", "quantifier": "all orders, axes, data", "why_tests_cant": "needs every order parity; the tests use order 3 only", "anchors": ["src/include/BSpline.hpp: load_knots", "src/include/Interpolation.hpp: range, at"]}
{"id": "C37", "title": "Templates can be reused", "statement": "However often interpolate is called on a template, and with whatever other data in between, interpolating data f gives the same function as constructing an InterpolationFunction from f directly; interpolating into an existing function fully replaces it, whatever it held before.", "quantifier": "all templates, finite histories of interpolate calls, data", "why_tests_cant": "histories are unbounded", "anchors": ["src/include/InterpolationTemplate.hpp: interpolate"]}
{"id": "C38", "title": "Copies of a template behave like the original", "statement": "A copied interpolation template gives the same interpolation functions as the original, in every supported language standard.", "quantifier": "all templates, data, C++11/14 and C++17 builds", "why_tests_cant": "depends on the copy semantics of a union-like member that the tests never exercise", "anchors": ["src/include/InterpolationTemplate.hpp: EitherSolver"]}
{"id": "C39", "title": "Cell layout does not change results", "statement": "With INTP_CELL_LAYOUT defined, values and derivatives equal those of the default layout at every coordinate, with no access outside the cell container.", "quantifier": "all D, orders, shapes, periodicity masks, coordinates", "why_tests_cant": "all coordinates including wrapped boundaries", "anchors": ["src/include/BSpline.hpp: generate_cell_layout, operator(), derivative_at"]}
{"id": "C40", "title": "Evaluation proxy equals evaluation", "statement": "For every coordinate, the evaluator made by eval_proxy, applied to an interpolation function of the same template, returns that function's value at the coordinate.", "quantifier": "all D, orders, shapes, periodicity masks, coordinates, data", "why_tests_cant": "all shapes and parities", "anchors": ["src/include/BSpline.hpp: pre_calc_coef, calculate_cell_dim_from_knots", "src/include/InterpolationTemplate.hpp: eval_proxy"]}
{"id": "C41", "title": "Block division covers every line exactly once", "statement": "The block division used for multi-threaded solving and cell filling assigns every line index below the total to exactly one block or to the remainder handled by the caller, for every total.", "quantifier": "all totals", "why_tests_cant": "all sizes", "anchors": ["src/include/InterpolationTemplate.hpp: solve_for_control_points_ (block_num)", "src/include/BSpline.hpp: generate_cell_layout"]}
{"id": "C42", "title": "Multi-threaded solving is deterministic", "statement": "With INTP_MULTITHREAD, for every interleaving of the block tasks' memory operations and whatever the uninitialised elements of resized meshes contain, the resulting control points equal those of the sequential build, in whatever arithmetic (bit by bit in double).", "quantifier": "all schedules, shapes, data, arithmetics of coordinates and values, contents of uninitialised memory", "why_tests_cant": "schedules cannot be enumerated by tests", "anchors": ["src/include/InterpolationTemplate.hpp: solve_and_rearrange_block"]}
{"id": "C43", "title": "Thread pool runs every task at most once and loses none", "statement": "In every execution of the pool (any number of workers, submissions, steals, any interleaving) a submitted task is at every moment in exactly one place: main queue, one worker queue, in one worker's hands, or done; so it never runs twice and never disappears.", "quantifier": "all worker counts, submission sequences, interleavings", "why_tests_cant": "interleavings", "anchors": ["src/include/DedicatedThreadPool.hpp: queue_task, try_pop_from_main, try_steal_from_others, thread_loop"]}
{"id": "C44", "title": "Thread pool runs every task eventually", "statement": "While the pool is alive, a submitted task cannot be left behind by a lost wake-up: no reachable state has unfinished tasks with every worker asleep, and every execution without new submissions runs all submitted tasks after finitely many steps.", "quantifier": "all worker counts >= 1, submission sequences, interleavings", "why_tests_cant": "lost wake-ups are schedule dependent", "anchors": ["src/include/DedicatedThreadPool.hpp: thread_loop, queue_task, condition variable"]}
{"id": "C45", "title": "Thread pool destruction terminates", "statement": "Destroying the pool always makes every worker leave its loop, so that joining them returns.", "quantifier": "all worker counts and interleavings of destruction with idle workers", "why_tests_cant": "needs one particular interleaving", "anchors": ["src/include/DedicatedThreadPool.hpp: ~DedicatedThreadPool, thread_loop"]}
{"id": "C46", "title": "Stack allocator hands out disjoint blocks", "statement": "Under last-in-first-out use, all live blocks of the stack allocator lie inside its buffer and are pairwise disjoint; an allocation fails iff fewer than n cells are left; releasing everything restores the full capacity. max_size() is the largest request that can ever succeed.", "quantifier": "all capacities, all LIFO histories of allocate/deallocate", "why_tests_cant": "histories are unbounded", "anchors": ["src/include/util.hpp: stack_allocator"]}
{"id": "C47", "title": "Aligned allocator size computation does not overflow", "statement": "For every element size and every count up to max_size(), the byte count requested from the system is exactly count*sizeof(T) (no wrap-around), leaving room for the alignment; above max_size() it may wrap.", "quantifier": "all element sizes, counts, alignments, word widths", "why_tests_cant": "all counts near the word limit", "anchors": ["src/include/aligned-allocator.hpp: max_size, allocate"]}
{"id": "C48", "title": "Explicit coordinates are read exactly once, within bounds", "statement": "Building an axis from a coordinate iterator pair reads each coordinate exactly once and never past the end, when order >= 1 and there are at least order+1 points (2 for periodic); the resulting knots are non-decreasing and satisfy the Schoenberg-Whitney condition at every interior node.", "quantifier": "all orders, coordinate lists", "why_tests_cant": "the over-read needs particular sizes", "anchors": ["src/include/Interpolation.hpp: create_knot_vector_ (iterator overload)"]}
{"id": "C49", "title": "Position hints are always valid", "statement": "For every coordinate (in or out of range, periodic or not) the hint computed for a uniform axis is a knot index h with order <= h and h+1 < number of knots.", "quantifier": "all uniform axes, coordinates", "why_tests_cant": "all coordinates", "anchors": ["src/include/Interpolation.hpp: add_hint_for_spline, derivative_helper"]}
{"id": "C50", "title": "Affine change of coordinate", "statement": "Interpolating the same data on coordinates a*x+b (a > 0) gives the function y -> f((y-b)/a).", "quantifier": "all axes, a > 0, b, data, points", "why_tests_cant": "all inputs", "anchors": ["src/include/Interpolation.hpp", "src/include/BSpline.hpp"]}
{"id": "C51", "title": "Separable data", "statement": "If D-dimensional data are a product of one-dimensional data sets, the interpolation function is the product of the one-dimensional interpolation functions.", "quantifier": "all D, axes, data, points", "why_tests_cant": "all inputs", "anchors": ["src/include/InterpolationTemplate.hpp: solve_for_control_points_", "src/include/BSpline.hpp: operator()"]}
{"id": "C52", "title": "Default coordinates of the 1D convenience classes", "statement": "InterpolationFunction1D and InterpolationFunctionTemplate1D built from N values without a range use the coordinates 0,1,...,N-1 (spacing exactly 1), and so agree with each other, in both dummy-point configurations.", "quantifier": "all N, both configurations, periodic or not", "why_tests_cant": "configuration dependent, tests use one configuration at a time", "anchors": ["src/include/Interpolation.hpp: InterpolationFunction1D", "src/include/InterpolationTemplate.hpp: InterpolationFunctionTemplate1D"]}
{"id": "C53", "title": "Pre-C++17 slicing of the band matrix", "statement": "Without C++17 the weight matrix of an aperiodic dimension is built in an extended band matrix and converted to a band matrix; the conversion keeps every entry, so that the pre-C++17 and the C++17 builds construct the same solver.", "quantifier": "all D, orders, sizes, axes", "why_tests_cant": "tests are compiled for one language standard", "anchors": ["src/include/InterpolationTemplate.hpp: build_solver_ (INTP_CELL_LAYOUT/pre-C++17 branches)", "src/include/BandMatrix.hpp: ExtendedBandMatrix"]}
{"id": "C54", "title": "Stack allocator outside last-in-first-out use", "statement": "A container that grows (allocates before it releases) and two copies of one allocator hand out overlapping live blocks; the two local meshes of derivative_at get disjoint blocks of the 1000-cell buffer whenever 2*(order+1)^dim <= 1000 and std::bad_alloc otherwise.", "quantifier": "all block sizes, orders, dimensions", "why_tests_cant": "tests only use the allocator in last-in-first-out order and small dimensions", "anchors": ["src/include/util.hpp: stack_allocator", "src/include/BSpline.hpp: derivative_at (STACK_ALLOCATOR)"]}
{"id": "C55", "title": "Construction never meets a zero pivot on periodic axes", "statement": "For every periodic axis with strictly increasing coordinates and at least 2*(order/2)+1 distinct points, alone or combined with any other axes, constructing the interpolation succeeds for every data set: the coefficient matrix needs no pivoting.", "quantifier": "all orders, all periodic coordinate vectors of that size, all data", "why_tests_cant": "a theorem about all node distributions; tests use a few meshes", "anchors": ["src/include/InterpolationTemplate.hpp: build_solver_", "src/include/BandLU.hpp: compute_impl (ExtendedBandMatrix)", "src/include/Interpolation.hpp: create_knot_vector_"]}
{"id": "C56", "title": "Coordinates are checked", "statement": "With assertions enabled and enough points per axis, constructing an interpolation function or a template fails with an assertion exactly if the explicit coordinates of some axis have the wrong number or are not strictly increasing. Without assertions nothing is checked and the result may miss the data.", "quantifier": "all D, orders, shapes, periodicity masks, coordinate lists", "why_tests_cant": "all coordinate lists; the tests never pass unordered coordinates", "anchors": ["src/include/Interpolation.hpp: create_knot_vector_ (iterator overload)"]}
{"id": "C57", "title": "Data of another shape than the template", "statement": "A template does not check the shape of the data it is given: data with fewer points in some dimensions are interpolated as if padded with zeros, the repeated last point of periodic dimensions may be left out, and data with more points (no periodic dimension) are written outside the control point buffer.", "quantifier": "all templates, data meshes", "why_tests_cant": "tests always pass matching shapes", "anchors": ["src/include/InterpolationTemplate.hpp: solve_for_control_points_ (check_idx)"]}
{"id": "C58", "title": "Splines built directly from knots and control points", "statement": "The BSpline constructor from control points and knots accepts, with assertions, exactly the knot counts n+order+1 (n+2*order+1 for periodic dimensions); the spline equals the sum of its basis functions times its control points on the whole domain (everywhere in periodic dimensions), and derivative_at without hints gives its derivatives. Knots and control points taken from an interpolation function give a spline with the same values if the order is odd or no dimension is periodic, and are rejected otherwise.", "quantifier": "all D, orders, knot vectors, control points, coordinates", "why_tests_cant": "all knot vectors and coordinates", "anchors": ["src/include/BSpline.hpp: BSpline(periodicity, ctrl_pts, knot_iter_pairs...)", "src/include/BSpline.hpp: operator()"]}
{"id": "C59", "title": "Order of the dimensions", "statement": "Permuting the dimensions of the data, of the axes and of the periodicity mask gives the interpolation function with permuted arguments, for values and derivatives.", "quantifier": "all D, orders, shapes, periodicity masks, permutations, data, points", "why_tests_cant": "all permutations and data", "anchors": ["src/include/InterpolationTemplate.hpp: solve_for_control_points_ (dimension rotation)", "src/include/BSpline.hpp: operator(), derivative_at"]}
{"id": "C60", "title": "Slices and iterated interpolation", "statement": "Fixing one coordinate to a data coordinate gives the interpolation of the corresponding slice of the data; and along each dimension the function is the one-dimensional interpolation of its own values at the data coordinates of that dimension.", "quantifier": "all D, orders, shapes, periodicity masks, dimensions, slices, data, points", "why_tests_cant": "all data and points", "anchors": ["src/include/InterpolationTemplate.hpp: solve_for_control_points_", "src/include/BSpline.hpp: operator(), derivative_at"]}
{"id": "C61", "title": "Mirror image of an axis", "statement": "Replacing the coordinates of one axis by their mirror image x -> c - x (in increasing order) and reversing the data along that axis gives the mirrored interpolation function, f'(..,c-y,..) = f(..,y,..); derivatives along that axis get a factor -1 per differentiation (below the order of the spline).", "quantifier": "all D, orders >= 1, axes (uniform or not, periodic or not), c, data, points, derivative orders", "why_tests_cant": "all orders, coordinates and points; detects every asymmetry of knot placement, wrap-around and segment search", "anchors": ["src/include/Interpolation.hpp: create_knot_vector_", "src/include/BSpline.hpp: operator(), derivative_at, get_knot_iter", "src/include/InterpolationTemplate.hpp: build_solver_"]}
{"id": "C62", "title": "Solving on the thread pool", "statement": "With INTP_MULTITHREAD, on a pool that other threads use at the same time, for every interleaving: the control points are those of the single-threaded build, in whatever arithmetic (bit by bit in double); no two threads race on the meshes; no task of the call is queued or running when the caller is outside a parallel region, where it moves, returns or destroys the meshes the tasks refer to; and if the single-threaded build succeeds the call never fails, never deadlocks and finishes after a bounded number of steps (per foreign submission and spurious wake-up).", "quantifier": "all worker counts, reachable pool states, foreign submissions, interleavings, block counts, D, orders, axes, data, contents of uninitialised memory", "why_tests_cant": "interleavings of pool, workers and caller cannot be enumerated by tests", "anchors": ["src/include/InterpolationTemplate.hpp: solve_for_control_points_ (INTP_MULTITHREAD)", "src/include/DedicatedThreadPool.hpp: queue_task, thread_loop"]}
{"id": "C63", "title": "Cell layout filled on the thread pool", "statement": "With INTP_CELL_LAYOUT and INTP_MULTITHREAD, for every interleaving the cell container filled by the tasks and the caller is the one a single thread fills; no data race, no task left behind, no failure, no deadlock, bounded number of steps.", "quantifier": "all worker counts, reachable pool states, foreign submissions, interleavings, block counts, D, orders, periodicity masks, control point meshes", "why_tests_cant": "interleavings", "anchors": ["src/include/BSpline.hpp: generate_cell_layout (INTP_MULTITHREAD)", "src/include/DedicatedThreadPool.hpp: queue_task, thread_loop"]}
{"id": "C64", "title": "Order 1 is multilinear interpolation", "statement": "With spline order 1, construction always succeeds, and inside each cell of the data mesh the function is the multilinear combination of the data at the corners of the cell, (1-theta) and theta along each axis; in periodic dimensions also any number of periods away; in the first and last cell of non-periodic dimensions also beyond the end (linear extrapolation). Hence values inside the data range never exceed the extremes of the data.", "quantifier": "all D, shapes, axes (uniform or not, periodic or not), data, cells, ratios, periods", "why_tests_cant": "all cells and ratios; no knot vector or solver appears in the statement", "anchors": ["src/include/Interpolation.hpp: create_knot_vector_", "src/include/InterpolationTemplate.hpp: build_solver_, solve_for_control_points_", "src/include/BSpline.hpp: operator()"]}
{"id": "C65", "title": "Periodic axes have no distinguished first point", "statement": "Starting the coordinates of a periodic axis at another point of the same periodic sequence, and rotating the data accordingly, gives the same function (values, and derivatives of order below the spline order along that axis). On an evenly spaced periodic axis, rotating the data by m places moves the function by m spacings.", "quantifier": "all D, orders >= 1, shapes, other axes, coordinates, data, rotations, points", "why_tests_cant": "all rotations, coordinates and points; sensitive to knot extension, wrap-around and row rotation", "anchors": ["src/include/Interpolation.hpp: create_knot_vector_", "src/include/InterpolationTemplate.hpp: build_solver_, solve_for_control_points_ (row rotation)", "src/include/BSpline.hpp: operator(), derivative_at"]}
{"id": "C66", "title": "Uninitialised memory does not reach the results", "statement": "Mesh::resize leaves new elements uninitialised (default_init_allocator). Whatever they contain, solving for the control points of a template gives the same control points or the same failure, and so constructs the same interpolation function, in whatever arithmetic (also if they are nan).", "quantifier": "all D, templates (also with wrong or singular solvers), data of any shape, arithmetics of coordinates and values, contents of the uninitialised memory", "why_tests_cant": "uninitialised memory often happens to be zero", "anchors": ["src/include/Mesh.hpp: resize", "src/include/util.hpp: default_init_allocator", "src/include/InterpolationTemplate.hpp: solve_for_control_points_"]}
{"id": "C67", "title": "Statistics of the thread pool", "statement": "In every execution with INTP_DEBUG the counters account for every task: per worker queue Submitted = Executed + Stolen + still queued, the main queue's counter is the number of submissions, and when all tasks have run the printed column Executed adds up to the number of tasks, the columns Stolen and Stealing have equal sums and Submitted = Executed + Stolen - Stealing in every line. The relation printed below the table (Submitted = Executed - Stolen + Stealing) holds only for workers with Stolen = Stealing, and the counters may be printed while a worker changes them.", "quantifier": "all worker counts, submissions and interleavings", "why_tests_cant": "schedules cannot be enumerated by tests", "anchors": ["src/include/DedicatedThreadPool.hpp: ~DedicatedThreadPool, try_pop, try_steal, thread_loop"]}
{"id": "C68", "title": "The rounding model and the exact model are one", "statement": "The model in which coordinates and values have arbitrary operations (floating point) gives, with the operations of an ordered field and a module, exactly the outcomes of the model used for the other properties, for construction, operator(), at, derivative, derivative_at; a function constructed in the model where a wrapping index is an error is also constructed in the model where it wraps.", "quantifier": "all D, orders, axes, data, points, configurations", "why_tests_cant": "two models of 60 functions cannot be compared by examples", "anchors": ["src/include/Interpolation.hpp", "src/include/InterpolationTemplate.hpp", "src/include/BSpline.hpp", "src/include/BandLU.hpp"]}
{"id": "C69", "title": "Construction is memory safe whatever the arithmetic", "statement": "For any behaviour of the operations on coordinates and values (any precision, rounding mode, overflow, nan, also unordered and nan coordinates), construction from data of an admissible shape accesses no buffer out of bounds; the only failures are assertions where they are enabled and divisions by zero where the arithmetic reports them. With double and without assertions it always returns a function. If no non-periodic dimension has explicit coordinates no index wraps around either.", "quantifier": "all arithmetics, D, orders, shapes, periodicity masks, axes, data", "why_tests_cant": "rounding behaviour cannot be enumerated; float, double, long double, any rounding mode", "anchors": ["src/include/Interpolation.hpp: create_knot_vector_, InterpolationFunction", "src/include/InterpolationTemplate.hpp: build_solver_, solve_for_control_points_", "src/include/BandLU.hpp: compute, solve_in_place"]}
{"id": "C70", "title": "Explicit coordinates and rounding", "statement": "For increasing explicit coordinates of type double the data points stay inside the band of the coefficient matrix, as they do in exact arithmetic.", "quantifier": "all orders, increasing sequences of finite doubles", "why_tests_cant": "needs coordinates of very different size, which tests do not have", "anchors": ["src/include/Interpolation.hpp: create_knot_vector_ (running window_sum)", "src/include/InterpolationTemplate.hpp: build_solver_", "src/include/BandMatrix.hpp: operator()"]}
{"id": "C71", "title": "Evaluation is safe whatever the arithmetic and the coordinate", "statement": "A function constructed with any arithmetic can be evaluated and differentiated at every coordinate, also at nan, infinities and far outside of its range, without undefined behaviour.", "quantifier": "all arithmetics, D, orders, shapes, axes, data, coordinates, derivative orders", "why_tests_cant": "all coordinates, all roundings", "anchors": ["src/include/Interpolation.hpp: add_hint_for_spline, derivative_helper, operator(), at, derivative, derivative_at", "src/include/BSpline.hpp: get_knot_iter, base_spline_value, operator(), derivative_at"]}
{"id": "C72", "title": "Arithmetic of double rounds to nearest, ties to even", "statement": "Every arithmetic operation of the code on doubles returns the double nearest to the exact result, the even one of two equally near, and an infinity of the right sign from 2^1024 - 2^970 on; rounding is monotone and exact on doubles. fmod and comparisons are exact; nan spreads and compares false; infinities obey the rules of the extended real numbers.", "quantifier": "all rational exact results", "why_tests_cant": "2^128 pairs of operands", "anchors": ["src/include/BSpline.hpp: arithmetic on knot_type", "src/include/BandLU.hpp: arithmetic on val_type"]}
{"id": "C73", "title": "Basis functions are computed accurately in double", "statement": "For a coordinate in a non-degenerate segment of a sorted knot vector of doubles, base_spline_value in double returns values that are non-negative and within 6 p 2^-53 relative (plus 2^-120 absolute) of the exact Cox-de Boor values.", "quantifier": "all orders <= 50, knot vectors with |t| <= 2^1000, segments >= 2^-900, all doubles in the segment; and any arithmetic with bounded rounding errors", "why_tests_cant": "error bound over all knots and points", "anchors": ["src/include/BSpline.hpp: base_spline_value"]}
{"id": "C74", "title": "Splines are evaluated accurately in double", "statement": "At every point of the domain operator() in double differs from the exact value of the spline with the same knots and control points by at most 3 k 2^-53 max|c| + k 2^-1074, k = D(5 order+1)+1+(order+1)^D, whatever the hints.", "quantifier": "all D, orders <= 50, knots, control points, periodicities, points of the domain; and any arithmetic with bounded rounding errors", "why_tests_cant": "error bound over all splines and points", "anchors": ["src/include/BSpline.hpp: operator(), base_spline_value, get_knot_iter", "src/include/Interpolation.hpp: operator(), add_hint_for_spline"]}
{"id": "C75", "title": "Periodic coordinates are wrapped accurately in double", "statement": "The wrapped coordinate differs from the coordinate by an integer multiple of the exact period up to (3|x-lo| + 10 max(|lo|,|hi|)) 2^-53; it is in [lo, hi] when the period (and, left of the range, 2 lo - hi) is a double, and may leave the range by rounding otherwise.", "quantifier": "all ranges and coordinates up to 2^1000", "why_tests_cant": "error bound over all ranges and coordinates", "anchors": ["src/include/BSpline.hpp: get_knot_iter (wrapping)"]}
{"id": "C76", "title": "Errors of the solvers stay in proportion to the factors", "statement": "Solving in an arithmetic whose operations have a relative error u and an absolute error eta: if the computed factors and the computed solution are finite, then so are the matrix and the right-hand side; the product of the factors is the matrix up to ((1+u)^w-1)|L||U|, and the residual of the solution is at most ((1+u)^(3w)-1)|L||U||x|, plus underflow terms. w is max(p, q+1) for band matrices, whatever their size, and the size for matrices with side bands. Cells off the line are unchanged.", "quantifier": "all sizes, bandwidths, entries, right-hand sides, lines; all arithmetics with these error bounds", "why_tests_cant": "error bound over all systems", "anchors": ["src/include/BandLU.hpp: compute_impl, solve_in_place_impl"]}
{"id": "C77", "title": "Accuracy of the solvers in double", "statement": "In double factorisation and solution never fail; if the computed factors and the computed solution are finite the product of the factors is the matrix up to 2w 2^-53 |L||U| + w 2^-1073 (1+|U_jj|) and the residual is at most 4w 2^-53 |L||U||x| plus w 2^-1073 (...), for w <= 2^49.", "quantifier": "all sizes, bandwidths, entries (also nan and infinite), right-hand sides, lines", "why_tests_cant": "error bound over all systems", "anchors": ["src/include/BandLU.hpp: compute_impl, solve_in_place_impl"]}
{"id": "C78", "title": "The MATLAB interface", "statement": "bspline(order, is_periodic, range, mesh, coor, derivative) called from MATLAB returns, for each row of coor, the derivative at that point of the interpolation function of the array mesh whose dimensions are in MATLAB's order (a periodic dimension without the repeated last point); arguments for which this is not possible are rejected.", "quantifier": "all arrays, orders, periodicities, ranges, points, derivative orders", "why_tests_cant": "all shapes; the script Example.m compares a few results by eye", "anchors": ["matlab/bspline.cpp: interpolation_nd, operator(), checkArguments, range_invoke_col_major, reverse_invoke"]}
{"id": "C79", "title": "Data points are reproduced in double", "statement": "With no periodic dimension, each given by explicit coordinates that are separated by more than their rounding (distance >= 16 n B 2^-53 for n coordinates up to B) or by the two ends of a uniform range (step >= 128 B 2^-53), an interpolation function constructed in double differs from the data at the data points by at most (3k + 2D order (4G+8+64R)) 2^-53 C + 2^-100, where C bounds its control points, G the growth |L||U| of the factors (2 if no entry of the factors is negative), R the quotient of the size of the coordinates and the step of the uniform dimensions (0 without them), and k = D(5 order+1)+1+(order+1)^D. A data point of a uniform dimension is any double of the range within 8 B 2^-53 of the exact one.", "quantifier": "all D, orders <= 50, shapes, coordinates, data, data points", "why_tests_cant": "error bound over all coordinates and data", "anchors": ["src/include/Interpolation.hpp: constructor, operator(), create_knot_vector_", "src/include/InterpolationTemplate.hpp: build_solver_, solve_for_control_points_", "src/include/BandLU.hpp", "src/include/BSpline.hpp: base_spline_value, operator()"]}
{"id": "C80", "title": "Knots of explicit coordinates in double", "statement": "For increasing coordinates of type double of a non-periodic dimension the knots at both ends are the end coordinates exactly, and each inner knot is the average of order successive coordinates up to 4 n B 2^-53 + 2^-1074, although the sum is carried along the axis.", "quantifier": "all orders <= 50, increasing sequences of n doubles up to B", "why_tests_cant": "error bound over all coordinates", "anchors": ["src/include/Interpolation.hpp: create_knot_vector_ (running window_sum)"]}
{"id": "C81", "title": "Meshes in 64-bit arithmetic", "statement": "Mesh computes sizes, strides and offsets modulo 2^64. For shapes with fewer than 2^64 elements all of them are exact. For larger shapes the constructor makes a mesh of product modulo 2^64 elements without notice; some element with indices in range is then outside the buffer, also with assertions, and two elements share a cell unless the product is exactly 2^64.", "quantifier": "all D, shapes, in-range indices, both assertion settings", "why_tests_cant": "needs meshes of 2^64 elements", "anchors": ["src/include/Mesh.hpp: MeshDimension::size, dim_acc_size, indexing, indexing_safe", "src/include/Mesh.hpp: Mesh(const MeshDimension&)"]}
{"id": "C82", "title": "Pointers formed by line iteration", "statement": "A loop from begin(d, idx) to end(d, idx) forms only pointers into the buffer of the mesh or one past its end.", "quantifier": "all D, shapes with fewer than 2^63 elements, dimensions, in-range indices", "why_tests_cant": "undefined behaviour that works on the usual machines; mesh-test.cpp itself has it", "anchors": ["src/include/Mesh.hpp: begin(dim_ind, indices), end(dim_ind, indices), skip_iterator::operator++"]}
{"id": "C83", "title": "Tasks that use the pool they run on", "statement": "If tasks of the thread pool pass further tasks to the pool and wait for their futures (which happens when interpolate is called from a task of the pool with INTP_MULTITHREAD), every task that was passed to the pool runs eventually: no execution ends with a task that has not run.", "quantifier": "all numbers of workers, all finite families of tasks that queue tasks and wait for tasks they have queued, all interleavings of workers, other threads, notifications and spurious wake-ups", "why_tests_cant": "a deadlock needs as many waiting tasks as workers at the same time, and whether a waiting worker keeps queued tasks from the others depends on the interleaving", "anchors": ["src/include/DedicatedThreadPool.hpp: thread_loop, try_pop_from_main, try_steal_from_others, queue_task, get_instance", "src/include/InterpolationTemplate.hpp: solve_for_control_points_", "src/include/BSpline.hpp: generate_cell_layout"]}
{"id": "C84", "title": "Low orders over uniform dimensions in double", "statement": "For finite data up to F over non-periodic uniform dimensions of order 1, 2 or 3 (of order 1 also over explicit coordinates) the constructor succeeds with and without assertions, every control point is a finite double of size at most 20^D F, and every data point is reproduced up to (3 k + 2 E) 2^-53 20^D F + 2^-100, with k and E explicit in D, the order and the quotient of range and step: the elimination without pivoting neither fails nor grows, for any number of points.", "quantifier": "all D, orders 1 to 3, numbers of points >= order + 1, ranges whose step is not too small, finite data, data points, both assertion settings", "why_tests_cant": "all data and all sizes; stability of elimination without pivoting in floating point", "anchors": ["src/include/InterpolationTemplate.hpp: build_solver_, solve_for_control_points_", "src/include/BandLU.hpp: compute, solve", "src/include/Interpolation.hpp: create_knot_vector_, operator()"]}
{"id": "C85", "title": "Interpolation in double is near exact interpolation everywhere", "statement": "With no periodic dimension, explicit coordinates separated by more than their rounding or uniform ranges, the function constructed in double from double data differs from the one constructed in exact arithmetic from the same coordinates and data (which exists) by at most (3k + 64 D order rho + 2 mu^D E) 2^-53 C + (1 + mu^D) 2^-101 at every double point of the domain, not only at data points; C bounds the control points, E = D order (4G + 8 + 64 rho) with G the growth of the factors, rho the size of the coordinates in units of the step, mu the condition number of the exact one-dimensional interpolation. For orders 1 to 3 over uniform ranges (and order 1 over coordinates) C = 20^D max|data|, G = 20 order and mu = 10 are proved.", "quantifier": "all D, orders <= 50, shapes, coordinates, data, double points of the domain, both assertion settings", "why_tests_cant": "error bound over all coordinates, data and points; exact interpolation is not available to tests", "anchors": ["src/include/Interpolation.hpp: create_knot_vector_, operator()", "src/include/InterpolationTemplate.hpp: build_solver_, solve_for_control_points_", "src/include/BandLU.hpp: compute, solve", "src/include/BSpline.hpp: operator(), base_spline_value"]}
{"id": "C86", "title": "Exceptions in parallel regions", "statement": "If an operation on values throws inside a parallel region (in a task or in the calling thread), or queueing a task fails, no task of the region is queued or running when the exception leaves the region, so that no task accesses the meshes that are destroyed then. No exception is lost: a call that returns normally had none, and has the result of the single-threaded build.", "quantifier": "all worker counts, reachable pool states, foreign submissions, jobs, interleavings, points at which operations throw", "why_tests_cant": "needs a value type that throws, and an interleaving in which a task starts after the exception has left", "anchors": ["src/include/InterpolationTemplate.hpp: solve_for_control_points_ (INTP_MULTITHREAD)", "src/include/BSpline.hpp: generate_cell_layout (INTP_MULTITHREAD)", "src/include/DedicatedThreadPool.hpp: queue_task, thread_loop"]}
{"id": "C87", "title": "Construction of the thread pool", "statement": "While the constructor starts threads the pool is in a state of a constructed pool whose other threads have not run. If a thread cannot be started, the constructor stops and joins the threads it has started and then throws: it does not wait forever, and no thread is left that could access the destroyed members.", "quantifier": "all numbers of threads, all points of failure, all interleavings of the started threads, spurious wake-ups", "why_tests_cant": "needs a system that refuses to start a thread, and an interleaving of a few instructions", "anchors": ["src/include/DedicatedThreadPool.hpp: DedicatedThreadPool(size_t)", "src/include/DedicatedThreadPool.hpp: JoinThreads, thread_loop"]}
{"id": "C88", "title": "Derivatives are computed accurately", "statement": "In double, derivative_at for derivative orders m at a point of the domain, with any valid hints (in particular those computed by an interpolation function), returns a finite number that differs from the exact derivative of the spline with the same knots and control points by at most P (3k 2^-53 C + k 2^-1074), where C bounds the control points, P is the product of Gamma_d^(m_d), Gamma_d >= 1 bounds 2k/(t_(i+k) - t_i) over distinct knots of dimension d, and k = D(5 order + 1) + 1 + (order + 1)^D + 4 sum m. Such Gamma exist for every spline: 2 order divided by the smallest positive gap.", "quantifier": "all D, orders <= 50, knots and control points in double up to 2^1000, derivative orders, points, valid hints; and any arithmetic with bounded relative error and underflow", "why_tests_cant": "error bound over all splines and points", "anchors": ["src/include/BSpline.hpp: derivative_at, base_spline_value", "src/include/Interpolation.hpp: derivative"]}
{"id": "C89", "title": "Periodic data points are reproduced in double", "statement": "In double, with some dimensions periodic and uniform and the others not periodic (uniform or given by coordinates), the value computed at a data point differs from the datum by at most (3k + 2E) 2^-53 C + 2^-100, where C bounds the computed control points, k = D(5 order + 1) + 1 + (order + 1)^D, E = D (L (4G + 1) + order (7 + 256 R)), G bounds the row sums of |L||U| of the stored factors, L is the largest number of terms of a substitution step (order, or the number of entries of a periodic dimension), and R bounds the ratio of the size of the coordinates to the step of the uniform dimensions. The query coordinate need only be a double within 8 B 2^-53 of the exact one. With and without the point that repeats the first one.", "quantifier": "all D >= 1, orders 1..50, sizes, ends of the ranges in double with a step not too small, data, both settings of the dummy point and of assertions", "why_tests_cant": "error bound over all data and ranges", "anchors": ["src/include/Interpolation.hpp: create_knot_vector_, operator()", "src/include/InterpolationTemplate.hpp: build_solver_, solve_for_control_points_", "src/include/BSpline.hpp: get_knot_iter", "src/include/BandLU.hpp: ExtendedBandMatrix"]}
{"id": "C90", "title": "Low orders with periodic dimensions in double", "statement": "For finite data up to F over periodic uniform dimensions of order 1 to 6, which for orders 1 to 3 may be combined with non-periodic uniform dimensions (for order 1 also with explicit coordinates), the constructor succeeds with and without assertions, every control point is a finite double of size at most mu^D F (mu = 20 up to order 3, 100 above), and every data point is reproduced up to (3 k + 2 E) 2^-53 mu^D F + 2^-100, with k and E explicit in D, the order, the sizes of the periodic dimensions and the quotient of range and step: the elimination with side bands neither fails nor grows.", "quantifier": "all D, orders, numbers of points, ranges whose step is not too small, finite data, data points, with and without the repeated point, both assertion settings", "why_tests_cant": "all data and all sizes; stability of elimination without pivoting in floating point", "anchors": ["src/include/InterpolationTemplate.hpp: build_solver_, solve_for_control_points_", "src/include/BandLU.hpp: compute_impl, solve_in_place_impl (ExtendedBandMatrix)", "src/include/Interpolation.hpp: create_knot_vector_, operator()", "src/include/BSpline.hpp: get_knot_iter"]}
{"id": "C91", "title": "The cell layout with rounding", "statement": "With rounding, or any other operations on coordinates and values (over- and underflow, nan and infinity included), interpolating in the cell layout fails exactly when it fails in the default layout. derivative has the same outcome in both layouts, bit by bit. operator() and the evaluators of eval_proxy fail in the cell layout exactly as operator() in the default layout, and access nothing outside the container. With one dimension they give the same bits as in the default layout, in double and wherever 1 * x = x. In the evaluators every dimension but the first is not periodic or the order is odd.", "quantifier": "all operations on coordinates and values, D >= 1, orders, sizes, periodicities, coordinates (nan too), data, points, derivative orders, both assertion settings", "why_tests_cant": "bitwise comparison over all functions and points; an access outside the container need not be noticed", "anchors": ["src/include/BSpline.hpp: calc_cell_coef, operator(), derivative_at (INTP_CELL_LAYOUT)", "src/include/BSpline.hpp: pre_calc_coef, generate_cell_layout", "src/include/Interpolation.hpp: operator(), derivative (INTP_CELL_LAYOUT)", "src/include/InterpolationTemplate.hpp: eval_proxy"]}
{"id": "C92", "title": "Derivatives of order 0 with rounding", "statement": "derivative with order 0 in every dimension gives bit by bit what operator() gives, and derivative_at what at gives, with any operations on coordinates and values.", "quantifier": "all operations on coordinates and values, D >= 1, orders, sizes, periodicities, coordinates, data, points, both assertion settings", "why_tests_cant": "bitwise comparison over all functions and points", "anchors": ["src/include/BSpline.hpp: derivative_at, operator()", "src/include/Interpolation.hpp: derivative, derivative_at, operator(), at"]}
{"id": "C93", "title": "Accuracy in the cell layout", "statement": "In double, at every point of the domain whose wrapped coordinate is below the end of the range (needed for even orders only), operator() in the cell layout, and the evaluators of eval_proxy if the order is odd or only the first dimension is periodic, return a finite number that differs from the exact value of the spline with the same knots and control points by at most 3 k 2^-53 C + 2 D k 2^-1074, k = D(5 order + 1) + 1 + (order + 1)^D, where C bounds the control points; and operator() returns whenever it does in the default layout, with a value at most 6 k 2^-53 C + (2 D + 1) k 2^-1074 away.", "quantifier": "all D >= 1, orders <= 50, shapes, axes, periodicities, data for which the function in the default layout has finite control points, points; and any arithmetic with bounded relative error and underflow", "why_tests_cant": "error bound over all functions and points", "anchors": ["src/include/BSpline.hpp: operator() (INTP_CELL_LAYOUT), pre_calc_coef, BSplineProxy", "src/include/Interpolation.hpp: operator(), eval_proxy"]}
{"id": "C94", "title": "Maps of values commute with interpolation, bit by bit", "statement": "A map of values that respects sums, differences, and products and quotients with coordinates commutes with the library: the mapped data are interpolated exactly when the data are, with the mapped control points, and values, derivatives, bounds-checked access and the cell layout with its proxies give the mapped results or the same failure. In particular negated double data give the negated function, number by number, infinities and nan included.", "quantifier": "all operations on coordinates and values, all such maps, D >= 1, orders, sizes, periodicities, coordinates, data, points, derivative orders, both assertion settings, both layouts", "why_tests_cant": "bitwise comparison over all data and points", "anchors": ["src/include/InterpolationTemplate.hpp: build_solver_, solve_for_control_points_", "src/include/Interpolation.hpp: operator(), at, derivative, derivative_at", "src/include/BSpline.hpp: operator(), derivative_at, pre_calc_coef"]}
{"id": "C95", "title": "Interpolation of vectors is interpolation of the components", "statement": "With values that are vectors of double (val_type such as the Vec of the tests or std::complex), the function has in every component the control points, values and derivatives, bit by bit, that interpolation of this component alone has; a nan or overflow in one component does not reach another.", "quantifier": "all lengths of vectors, D >= 1, orders, sizes, periodicities, coordinates, data, points, derivative orders", "why_tests_cant": "bitwise comparison over all data and points", "anchors": ["test/src/interpolation-test.cpp: InterpolationFunction1D<3, Vec<2, float>, float>", "src/include/InterpolationTemplate.hpp: solve_for_control_points_", "src/include/BSpline.hpp: operator(), derivative_at"]}
{"id": "C96", "title": "The data do not steer the computation", "statement": "For two sets of data of one shape, even of different types, construction fails alike and otherwise gives the same knots, ranges and steps; evaluation of functions that differ in their control points fails alike at every point, and the evaluators of eval_proxy are the same. No nan, infinity or overflow in the data changes an index, a branch or an exception.", "quantifier": "all operations on coordinates and values whose quotients by a coordinate are defined independently of the value, D >= 1, orders, sizes, periodicities, coordinates, data, points, derivative orders, both assertion settings, both layouts", "why_tests_cant": "two runs on all pairs of data", "anchors": ["src/include/InterpolationTemplate.hpp: build_solver_, solve_for_control_points_", "src/include/Interpolation.hpp: create_knot_vector_, hint, boundary_check_", "src/include/BSpline.hpp: get_knot_iter, operator(), derivative_at, pre_calc_coef"]}
{"id": "C97", "title": "The signs of zeros", "statement": "double with the two zeros of IEEE 754 and double with one zero compute the same up to the signs of zeros, and fail alike, in every construction and evaluation in which no number is divided by the negative zero.", "quantifier": "all D >= 1, orders, sizes, periodicities, coordinates and data (nan, infinities and both zeros included), points, derivative orders", "why_tests_cant": "all pairs of runs", "anchors": ["src/include/Interpolation.hpp: create_knot_vector_, operator(), at, derivative", "src/include/InterpolationTemplate.hpp: build_solver_, solve_for_control_points_", "src/include/BSpline.hpp: operator(), base_spline_value, derivative_at", "src/include/BandLU.hpp: compute_impl, solve_in_place_impl"]}
{"id": "C98", "title": "The code does not divide by the negative zero", "statement": "Unless an end of a range (or a knot made from explicit coordinates) is the negative zero, no evaluation divides by the negative zero, at any point and for any control points; and no construction does unless a pivot is zero. So double with two zeros computes what double with one zero does, up to the signs of zeros, and with the orders and dimensions of the property on low orders with periodic dimensions its data points are reproduced up to the bound of that property.", "quantifier": "all D >= 1, orders, sizes, periodicities, ranges, data (nan, infinities and both zeros included), points (also outside of the range), derivative orders", "why_tests_cant": "signs of zeros in all intermediate results of all runs", "anchors": ["src/include/Interpolation.hpp: create_knot_vector_, operator(), derivative", "src/include/BSpline.hpp: base_spline_value, derivative_at", "src/include/InterpolationTemplate.hpp: build_solver_, solve_for_control_points_", "src/include/BandLU.hpp: compute_impl, solve_in_place_impl"]}
{"id": "C99", "title": "Interpolation is a projection onto the splines", "statement": "Interpolating the values that a spline on the same knots, with whatever control points, takes at the data points gives exactly that spline: same knots, same control points. In particular interpolating the values an interpolation takes at its own data points returns the same object.", "quantifier": "all D >= 1, orders, axes (uniform or not, periodic or not), control points, configurations", "why_tests_cant": "all splines of the space at once; a solver or an evaluation that is off for one basis function breaks it", "anchors": ["src/include/Interpolation.hpp: constructor, operator()", "src/include/InterpolationTemplate.hpp: build_solver_, solve_for_control_points_", "src/include/BSpline.hpp: operator(), load_ctrlPts"]}
{"id": "C100", "title": "Interpolation of low order is stable and nearly best", "statement": "Order 1 on any axes; orders 2 and 3 on uniform axes; orders 4 to 6 on uniform periodic axes. Between the data points the interpolation of data bounded by A is bounded by s^D A, where s is 1 for order 1, 10 for orders 2 and 3 and 50 for orders 4 to 6, however many data points there are; data that differ by at most e give values that differ by at most s^D e; and if any spline on the same knots is within e of a function on the whole domain, so is the interpolation of the function up to the factor 1 + s^D.", "quantifier": "all D >= 1, those orders and axes, all sizes, data, points of the domain", "why_tests_cant": "a bound for all numbers of data points and all data", "anchors": ["src/include/Interpolation.hpp: create_knot_vector_, constructor, operator()", "src/include/InterpolationTemplate.hpp: build_solver_, solve_for_control_points_", "src/include/BSpline.hpp: operator()"]}
{"id": "C101", "title": "Interpolations of smooth functions converge with the full order", "statement": "Orders and axes as in the previous property, real arithmetic. If the derivatives of order o+1 of a function along each axis d exist, are continuous and bounded by M_d (and the function is periodic along periodic axes), neighbouring data points being at most H_d apart, then the construction from its values succeeds and at every point of the domain the interpolation differs from the function by at most sum_d s^d (1+s) M_d ((2o-1) H_d)^(o+1) / (o+1)!. So in one dimension, with equally spaced points, the interpolations converge uniformly to the function as the number of points grows.", "quantifier": "all D >= 1, those orders and axes, all sizes, all functions with o+1 continuous derivatives, all points of the domain", "why_tests_cant": "all smooth functions, all numbers of points and all points of the domain; tests measure errors for a few functions", "anchors": ["src/include/Interpolation.hpp: create_knot_vector_, constructor, operator()", "src/include/InterpolationTemplate.hpp: build_solver_, solve_for_control_points_", "src/include/BSpline.hpp: operator(), get_knot_iter, base_spline_value"]}
{"id": "C102", "title": "Interpolation in double with periodic dimensions is near exact interpolation", "statement": "With periodic uniform dimensions, combined with non-periodic ones (uniform or explicit coordinates separated by more than their rounding), the function constructed in double differs from the one constructed in exact arithmetic from the same coordinates and data (which exists) by at most (3k + 512 D (K+1) order rho + 2 mu^D E) 2^-53 C + (1 + mu^D) 2^-101, at every double point of non-periodic dimensions and at every double up to K periods away from the base period in periodic ones that is not within a few roundings of the boundary of a period; E = D (L (4G + 1) + order (7 + 256 rho)) as for the data points. For orders 1 to 6 as in the property on low orders nothing is assumed about factors, control points or condition numbers.", "quantifier": "all D >= 1, orders, sizes, data, both assertion settings and point conventions, points in any period", "why_tests_cant": "error bound over all data and points; comparison with exact arithmetic", "anchors": ["src/include/Interpolation.hpp: create_knot_vector_, operator(), add_hint_for_spline", "src/include/BSpline.hpp: get_knot_iter (wrapping), operator()", "src/include/InterpolationTemplate.hpp: build_solver_, solve_for_control_points_", "src/include/BandLU.hpp"]}
{"id": "C103", "title": "Exact arithmetic does not depend on the field", "statement": "Embedding coordinates and data in a larger ordered field (the rationals in the reals) commutes with construction, evaluation, bounds-checked access and derivatives, failures included.", "quantifier": "all ordered fields and embeddings, D >= 1, orders, sizes, periodicities, coordinates, data, points, derivative orders", "why_tests_cant": "statement about the algorithm in two arithmetics", "anchors": ["src/include/Interpolation.hpp", "src/include/BSpline.hpp", "src/include/BandLU.hpp", "src/include/InterpolationTemplate.hpp"]}
{"id": "C104", "title": "The function computed in double is near the function that was sampled", "statement": "Orders 1 to 6 and axes as in the property on low orders with periodic dimensions. If the data are doubles within eta of the values of a real function f at the data points, and the derivatives of f of order o+1 along each axis d are continuous and bounded by M_d (f being periodic along periodic axes), neighbouring data points being at most H_d apart, then the constructor succeeds in double, and at every double point (in periodic dimensions up to K periods away, not within a few roundings of the boundary of a period) the computed value differs from the value of f by at most sum_d s^d (1+s) M_d ((2o-1) H_d)^(o+1) / (o+1)! + s^D eta + R, with s = 1, 10 or 50 and R the explicit bound of the rounding errors.", "quantifier": "all D >= 1, functions, data, sizes, ranges, points, assertion settings and point conventions", "why_tests_cant": "error bound over all smooth functions, data and points; the tests compare a few functions at a few points with a tolerance", "anchors": ["src/include/Interpolation.hpp: constructor, operator()", "src/include/InterpolationTemplate.hpp", "src/include/BSpline.hpp: operator()", "src/include/BandLU.hpp", "test/src/interpolation-test.cpp"]}
{"id": "C105", "title": "Derivatives of interpolations of smooth functions converge", "statement": "Orders 1 to 3 and 4 to 6 and axes as in the property on low orders, real arithmetic. Mixed derivatives of orders m_d <= o. If the mixed derivatives of f of orders m along the axes after d have o+1 continuous derivatives along d, the last bounded by M_d, and neighbouring data points are at least h_d and at most H_d apart, then the derivative of orders m of the interpolation differs from that of f by at most the sum over d of prod_{e<d} (s (2o/h_e)^m_e) (2o/h_d)^m_d (1+s) M_d ((2o-1) H_d)^(o+1)/(o+1)!. For one uniform axis this is a constant times M h^(o+1-m), so that all derivatives up to the order converge uniformly.", "quantifier": "all D >= 1, dimensions, coordinates, functions, points of the domain, derivative orders up to the order", "why_tests_cant": "limit over all resolutions and all smooth functions", "anchors": ["src/include/BSpline.hpp: derivative_at (knots, control points)", "src/include/Interpolation.hpp: derivative"]}
{"id": "C106", "title": "Derivatives computed in double are near exact ones and near those of the sampled function", "statement": "Derivative orders m_d below the order o. Inputs as in the property on double with periodic dimensions; Gamma_d >= 1, neighbouring data points at least 6 o / Gamma_d apart, P the product of Gamma_d^m_d. The derivative computed in double differs from the derivative of the interpolation in exact arithmetic by at most P ((3k + 512 D (K+1) o rho + 2 mu^D E) 2^-53 C + (1 + mu^D) 2^-101), k = D(5o+1) + 1 + (o+1)^D + 4 sum m. For orders 1 to 6 and axes as in the property on low orders with periodic dimensions, C and mu are explicit and construction succeeds; and if the data are within eta of the values of a smooth function f, the computed derivative differs from that of f by at most the bound of the property on convergence of derivatives (with 2o/h_d = Gamma_d/3), prod_d s (Gamma_d/3)^m_d eta, and the rounding bound. In exact arithmetic, data that differ by eta change derivatives by at most prod_d s (2o/h_d)^m_d eta.", "quantifier": "all D >= 1, orders, sizes, axes, data, points as in the property on values, derivative orders below the order", "why_tests_cant": "needs the exact function and all points; the reference derivative is not available to a test", "anchors": ["src/include/BSpline.hpp: derivative_at (knots, control points), base_spline_value", "src/include/Interpolation.hpp: derivative, create_knot_vector_", "src/include/InterpolationTemplate.hpp: build_solver_, solve_for_control_points_"]}
{"id": "C107", "title": "Ranges given by numbers of another arithmetic type", "statement": "Giving the range of a uniform dimension by numbers of another arithmetic type than coord_type (int, unsigned, short, float, or two different ones in one dimension) constructs the same function as giving the same numbers converted to coord_type.", "quantifier": "all D, axes, integer types and values, data; exact arithmetic and double", "why_tests_cant": "tests use small integer ranges, whose difference fits", "anchors": ["src/include/Interpolation.hpp: create_knot_vector_ (uniform)", "src/include/Interpolation.hpp: InterpolationFunction(bool, pair, pair)"]}
{"id": "C108", "title": "Overloads that take separate arguments", "statement": "operator(), at, derivative and derivative_at with separate arguments or pairs agree with the overloads taking arrays if there is one argument per dimension. Missing coordinates and derivative orders are zero. Negative derivative orders are converted to size_t, which makes the derivative zero.", "quantifier": "all D, function objects, points, argument lists", "why_tests_cant": "one call has all arguments in tests", "anchors": ["src/include/Interpolation.hpp: operator(), at, derivative, derivative_at"]}
{"id": "C109", "title": "Order 0 is the value at the nearest data point", "statement": "With spline order 0, construction succeeds on uniform axes and on periodic axes with explicit coordinates, and the function takes at every coordinate the value of the data point that is nearest in each dimension (in periodic dimensions among all copies of the data; of two equally near points the one with the larger coordinate), also beyond the ends; it takes no other values than data values. In double the values returned are data values too, unrounded, for any coordinates and data, infinities and nan included. With explicit coordinates of a non-periodic dimension no construction of order 0 succeeds: the iterator is read past the end of the coordinates.", "quantifier": "all D, shapes, valid axes, data, coordinates; the failure for all coordinates and any arithmetic", "why_tests_cant": "all coordinates and any number of periods; the tests have no order 0", "anchors": ["src/include/Interpolation.hpp: create_knot_vector_, operator()", "src/include/InterpolationTemplate.hpp:291", "src/include/BSpline.hpp: base_spline_value"]}
{"id": "C110", "title": "Function objects that have not been filled", "statement": "A function object made by the default constructor, one made by a template after interpolate(mesh) && was called on it, and one passed to interpolate(interp, mesh) when solving throws have no values: operator(), at, derivative and derivative_at (orders up to the spline order) return at no coordinates. So interpolate(interp, mesh) loses the function it replaces if it throws. Interpolating into any of these objects makes it equal to a newly constructed function.", "quantifier": "all D, orders, contents of uninitialised members, data, coordinates, exceptions; any arithmetic", "why_tests_cant": "evaluation reads outside vectors, which tests cannot observe reliably; exceptions while solving are not provoked", "anchors": ["src/include/Interpolation.hpp: InterpolationFunction()", "src/include/InterpolationTemplate.hpp: interpolate", "src/include/BSpline.hpp: BSpline(DimArray<bool>), get_knot_iter"]}
{"id": "C111", "title": "One thread pool for the whole program", "statement": "All calls of get_instance that return, from any threads with any arguments, return the same pool. It was made for the argument of the first call that returned (8 threads if that is 0); all other arguments are ignored, also the 8 the library passes. The constructor runs in at most one thread and never again after it has succeeded; after an exception the next call tries again with its own argument. No thread waits unless another one runs the constructor. Whatever the number of threads, interpolation on the pool has the single-threaded result.", "quantifier": "all numbers of threads, arguments, interleavings, failing constructions, states of the pool", "why_tests_cant": "interleavings of first calls; a program has one first call only", "anchors": ["src/include/DedicatedThreadPool.hpp: get_instance", "src/include/InterpolationTemplate.hpp:554", "src/include/BSpline.hpp:741"]}
{"id": "C112", "title": "The trace of the coefficient matrices", "statement": "A build with INTP_TRACE constructs what a build without it does, or fails like it, and the lines printed for a dimension are its coefficient matrix: entering them into a matrix of zeros gives the matrix that is factored.", "quantifier": "all D, orders, axes, sizes, configurations", "why_tests_cant": "needs the matrix next to the printed lines; tests do not read the trace", "anchors": ["src/include/InterpolationTemplate.hpp: build_solver_ (INTP_TRACE)"]}
