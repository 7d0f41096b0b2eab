{"id": "C01", "title": "Flat index and multi-index are mutually inverse", "statement": "For every shape with positive extents, converting an in-range multi-index to its position in the flat storage and back returns the same multi-index; converting any in-range flat position to a multi-index and back returns that position; in-range multi-indices land strictly inside the flat size. (Ranks of at least two, which is what all buffers use.)", "quantifier": "all ranks >= 2, all shapes with positive extents, all in-range multi-indices and flat positions", "why_tests_cant": "Shapes depend on the compiled-in grid sizes; a test exercises a handful of shapes while storage correctness needs all of them.", "anchors": ["source/utilities/math_utils.hpp: getFlatSize, getFlatIndex, getMultIndex"]}
{"id": "C02", "title": "Rank-one flat index", "statement": "For a one-dimensional buffer the flat position of the multi-index (i) is i.", "quantifier": "all extents and all in-range i", "why_tests_cant": "The rank-1 overload is a template specialisation that is never instantiated by a default build, so no test run reaches it.", "anchors": ["source/utilities/math_utils.hpp: getFlatIndex<1>"]}
{"id": "C03", "title": "Permuted flat indices address the same element", "statement": "Reading a buffer through a cyclically permuted axis order addresses exactly the element obtained by permuting the multi-index: the rotated flat position is the row-major position of the permuted multi-index in the permuted shape, the map is a bijection of the flat range, and applying the inverse rotation returns the original position.", "quantifier": "all ranks, shapes, flat positions and axis choices", "why_tests_cant": "The finite-difference code relies on this for every axis of every buffer shape.", "anchors": ["source/utilities/math_utils.hpp: rotateFlatIndex, permuteCyclic, get_inverse_permutation"]}
{"id": "C04", "title": "Multi-dimensional array behaves like a map from multi-indices", "statement": "After any sequence of in-range element writes and whole-array (compound) arithmetic, reading an element returns the value an abstract map from multi-indices to values would hold: the last written value, transformed by the arithmetic applied since; writing one element never changes another. Out-of-range accesses are reported (assertion) instead of touching another element.", "quantifier": "all ranks, shapes, operation sequences and indices", "why_tests_cant": "Aliasing of two multi-indices would only show for particular shapes and index pairs.", "anchors": ["source/multidimensional/multiarray.hpp: multiarray::at, operator(), flat_index, check_bounds, operator+=, operator*="]}
{"id": "C05", "title": "Assignment and swap of arrays preserve element addressing", "statement": "After assigning or swapping two multi-dimensional arrays, every element (and every slice) of each array reads as it did in the array it came from.", "quantifier": "all pairs of arrays of equal rank, including different shapes", "why_tests_cant": "Needs arrays of different shapes; the unit tests only copy arrays of equal shape.", "anchors": ["source/multidimensional/multiarray.hpp: swap, operator=, get_flatindex_ini, eigen_segment"]}
{"id": "C06", "title": "Vectorised block reads agree with element reads", "statement": "Reading a contiguous block of the trailing axes through the vectorised accessor yields exactly the elements that individual element reads yield, and writing a block then reading the elements returns the block, leaving all other elements unchanged.", "quantifier": "all shapes, block positions and contents", "why_tests_cant": "Block layout errors depend on shapes and positions.", "anchors": ["source/multidimensional/multiarray.hpp: at_vectorized, set_vectorized, eigen_segment, get_flatindex_ini"]}
{"id": "C07", "title": "Elementwise vector arithmetic is pointwise and refuses mismatched lengths", "statement": "Adding, subtracting, multiplying or dividing two vectors of equal length acts entry by entry; for unequal lengths the operation raises an error and does not read out of bounds. The negative-index subvector accessor returns the documented slice.", "quantifier": "all vectors of all lengths", "why_tests_cant": "Needs every length pair.", "anchors": ["source/data_structures.hpp: vec operators, operator()(i1,i2), diff, sum, max_norm"]}
{"id": "C08", "title": "Scaling a vector by a complex number multiplies every entry", "statement": "vector * complex scalar returns the vector whose i-th entry is the i-th entry times the scalar.", "quantifier": "all vectors and complex scalars", "why_tests_cant": "The mixed-type overload is not covered by tests.", "anchors": ["source/data_structures.hpp: operator*(vec<T>, comp)"]}
{"id": "C09", "title": "Parallel bubble evaluation is independent of process count, node count and thread schedule", "statement": "The vertex component assembled from the distributed evaluation equals the component evaluated sequentially, point by point in storage order: for every number of MPI processes, every configured number of nodes >= 1, every thread schedule of the inner loop, and every number of entries. No point is lost, duplicated or misplaced, and padding never reaches the result.", "quantifier": "all world sizes >= 1, all node counts >= 1, all component sizes, all vectorisation widths, all interleavings of the inner parallel loop", "why_tests_cant": "The production configuration (many ranks, uneven division) cannot be enumerated in unit tests, which run on one rank.", "anchors": ["source/bubble/bubble_function.hpp: BubbleFunctionCalculator::calculate_bubble_function, get_n_mpi, get_n_omp", "source/utilities/mpi_setup.hpp: mpi_initialize_buffer, mpi_collect, mpi_reorder_result"]}
{"id": "C10", "title": "Parallel reduction over an axis is schedule independent", "statement": "Reducing a buffer along all axes with the multi-threaded reduction gives the same value as the sequential reduction under every thread schedule.", "quantifier": "all data, all interleavings", "why_tests_cant": "A data race shows only under particular interleavings.", "anchors": ["source/utilities/math_utils.hpp: collapse_all"]}
{"id": "C11", "title": "Runge-Kutta tableaux have the documented order", "statement": "The Cash-Karp tableau has order 5 with an embedded order-4 error estimate, classical RK4 has order 4, and Bogacki-Shampine order 3 with embedded order 2: row sums equal the nodes and all rooted-tree order conditions up to the order hold, and the order condition fails beyond for the lower-order weights.", "quantifier": "all rooted trees up to the respective order", "why_tests_cant": "A wrong coefficient gives plausible results at all tested step sizes; only the algebraic order conditions settle it.", "anchors": ["source/ODE_solvers/ODE_solvers.hpp: butcher_tableau cash_carp, RK4basic, BogaSha"]}
{"id": "C12", "title": "One Runge-Kutta step reproduces the exact flow to the tableau's order", "statement": "For linear flows y' = A y a step of size h returns the Taylor polynomial of exp(hA) y through the tableau order (plus the tableau's fixed higher-order remainder), and for right-hand sides that are polynomials in the flow parameter of degree below the order the step is exact; the reported error is the difference between the two embedded solutions.", "quantifier": "all linear maps, initial values, step sizes; all polynomials up to the degree", "why_tests_cant": "Numerical tests sample a few step sizes; exactness must hold identically.", "anchors": ["source/ODE_solvers/ODE_solvers.hpp: ode_solver_impl::rk_step"]}
{"id": "C13", "title": "Adaptive step control terminates and honours the error bound", "statement": "For every behaviour of the error estimate that is a number, the adaptive step loop terminates; the accepted step has error ratio at most one or has reached the configured minimal step, keeps the direction of the trial step, and is never longer than the trial step; the proposed next step obeys the growth and shrink limits.", "quantifier": "all error-estimate functions, all trial steps, all minimal/maximal step settings", "why_tests_cant": "The number of rejections is unbounded over inputs, and the estimate is an arbitrary function of the step size.", "anchors": ["source/ODE_solvers/ODE_solvers.hpp: ode_solver_impl::rkqs"]}
{"id": "C14", "title": "Adaptive step control gives up when the error estimate is not a number", "statement": "If the error estimate never becomes a number, the step loop still stops after the configured maximal number of step resizings.", "quantifier": "all histories of error estimates including NaN", "why_tests_cant": "A test would hang rather than fail.", "anchors": ["source/ODE_solvers/ODE_solvers.hpp: ode_solver_impl::rkqs attempts, max_stepResizing_attempts"]}
{"id": "C15", "title": "The flow never leaves the integration interval and ends at its endpoint", "statement": "During the flow every accepted value of the flow parameter lies between the initial and final value, moves monotonically towards the final value, and a flow that stops because of the end condition has reached it.", "quantifier": "all intervals, checkpoints, step-size histories", "why_tests_cant": "Depends on the unpredictable sequence of adaptive step sizes.", "anchors": ["source/ODE_solvers/ODE_solvers.hpp: ode_solver"]}
{"id": "C16", "title": "No checkpoint is skipped", "statement": "Whenever an accepted step would carry the flow parameter across a requested checkpoint, the step is shortened so that the flow parameter lands on that checkpoint.", "quantifier": "all checkpoint lists and step-size histories", "why_tests_cant": "Depends on the unpredictable sequence of adaptive step sizes.", "anchors": ["source/ODE_solvers/ODE_solvers.hpp: ode_solver checkpoint clipping"]}
{"id": "C17", "title": "Resuming a flow continues in the flow direction with the previous step", "statement": "A flow resumed from saved layers proposes the same direction of integration and the same trial step as the uninterrupted flow would at that layer.", "quantifier": "all saved histories and interruption points", "why_tests_cant": "Crash points are arbitrary.", "anchors": ["source/ODE_solvers/ODE_solvers.hpp: ode_solver iter_start branch"]}
{"id": "C18", "title": "The number of flow steps is bounded", "statement": "The adaptive flow stops after at most the configured maximal number of steps, and the iteration counter and recorded parameter list stay consistent with the number of accepted steps.", "quantifier": "all right-hand sides and step-size histories", "why_tests_cant": "Unbounded histories.", "anchors": ["source/ODE_solvers/ODE_solvers.hpp: ode_solver MAXSTP loop"]}
{"id": "C19", "title": "Flow grid contains its endpoints and is strictly monotone", "statement": "The fixed flow grid starts at the initial and ends at the final value, is strictly monotone when the parametrisation is, contains every requested checkpoint inside the interval and no checkpoint outside it.", "quantifier": "all intervals, step numbers, checkpoint lists and monotone parametrisations", "why_tests_cant": "Needs every parameter combination.", "anchors": ["source/grids/flow_grid.c++: construct_flow_grid, add_points_to_Lambda_grid, get_Lambda_checkpoints"]}
{"id": "C20", "title": "Flow parametrisations are invertible and monotone", "statement": "For each flow parametrisation (exponential, logarithmic, square-root, linear) converting a flow parameter to the auxiliary variable and back returns it, and the map is strictly monotone on its domain.", "quantifier": "all real flow parameters in the domain", "why_tests_cant": "Continuum of values.", "anchors": ["source/grids/flow_grid.hpp: flowgrid parametrizations"]}
{"id": "C21", "title": "Auxiliary-grid transformations are inverse to each other and strictly increasing", "statement": "For each frequency-grid transformation, mapping a frequency to the auxiliary variable and back returns the frequency (and conversely on the range of the map); the maps are odd where documented and strictly increasing, so the order of frequencies is preserved.", "quantifier": "all real frequencies and all positive scales", "why_tests_cant": "Continuum of values; tests only check a few points up to tolerance.", "anchors": ["source/grids/frequency_grid.c++: grid_transf_v1..v4, grid_transf_inv_v1..v4"]}
{"id": "C22", "title": "Frequency grids are strictly increasing, symmetric and span the requested box", "statement": "A grid built with N points for a given maximal frequency is strictly increasing, starts at minus and ends at plus the maximal frequency (fermionic/bosonic), and is symmetric about its centre.", "quantifier": "all N >= 2, all positive scales and maximal frequencies", "why_tests_cant": "All parameter values; off-by-one at particular N.", "anchors": ["source/grids/frequency_grid.c++: FrequencyGrid<eliasGrid>::initialize_grid"]}
{"id": "C23", "title": "Looking up a frequency returns the bracketing grid cell", "statement": "For every frequency inside the box the returned index i satisfies grid[i] <= frequency <= grid[i+1] and i+1 is a valid grid position.", "quantifier": "all grids and all frequencies in the box", "why_tests_cant": "Continuum of frequencies and boundary cases.", "anchors": ["source/grids/frequency_grid.c++: get_grid_index"]}
{"id": "C24", "title": "Grid look-up never reads outside the grid", "statement": "Looking up any frequency inside the closed box (in particular its upper edge) only reads grid positions that exist.", "quantifier": "all frequencies in the closed box", "why_tests_cant": "An out-of-bounds read of one element usually goes unnoticed in tests.", "anchors": ["source/grids/frequency_grid.c++: get_grid_index"]}
{"id": "C25", "title": "A shifted grid accepts exactly its own box", "statement": "After centring a grid at a non-zero frequency, the in-box test accepts a frequency if and only if it lies between the smallest and largest grid frequency.", "quantifier": "all centres, grids and frequencies", "why_tests_cant": "Default runs keep the centre at zero.", "anchors": ["source/grids/frequency_grid.hpp: set_w_center, bufferFrequencyGrid::is_in_box"]}
{"id": "C26", "title": "Linear search in a sorted table returns the bracketing interval", "statement": "The table search used by the splines returns, for every strictly increasing table and query inside it, the unique interval that contains the query, using at most about log2(n) halvings.", "quantifier": "all table lengths >= 2, all tables, all queries", "why_tests_cant": "Unbounded table lengths.", "anchors": ["source/utilities/math_utils.hpp: locate"]}
{"id": "C27", "title": "Rounding to Matsubara frequencies", "statement": "Integer rounding to bosonic (even) frequencies returns the nearest even number below resp. above; floor of w/2 and ceil of w/2 always add up to w for even w, and the sign-flip correction equals their difference; integer floor/ceil division equals the mathematical floor/ceil for all signs.", "quantifier": "all integers (and all positive divisors)", "why_tests_cant": "Sign and parity corner cases over all integers.", "anchors": ["source/utilities/math_utils.c++: floor2bfreq, ceil2bfreq, signFlipCorrection_MF, integer_division_floor, integer_division_ceil"]}
{"id": "C28", "title": "Natural and bosonic frequency conventions convert without loss", "statement": "In each channel converting the three frequencies to purely bosonic ones and back is the identity, in both orders.", "quantifier": "all real frequency triples, all channels", "why_tests_cant": "Continuum of values.", "anchors": ["source/utilities/math_utils.hpp: switch2bosonicFreqs, switch2naturalFreqs"]}
{"id": "C29", "title": "Channel conversion preserves the physical leg energies", "statement": "Re-expressing a vertex argument given in one channel's convention in another channel's convention leaves the energies of all four legs unchanged, hence conversions compose and invert consistently.", "quantifier": "all real frequency triples and all channel pairs (real-frequency and zero-temperature formalism)", "why_tests_cant": "Continuum of values and all channel pairs.", "anchors": ["source/correlation_functions/four_point/r_vertex.hpp: transfToR", "source/correlation_functions/four_point/r_vertex.hpp: is_zero_due_to_FDTs"]}
{"id": "C30", "title": "Finite-temperature channel conversion preserves the discrete leg energies", "statement": "In the finite-temperature imaginary-frequency formalism, with all frequencies integer multiples of pi*T, the channel conversions keep the four leg energies, keep bosonic frequencies even and fermionic ones odd.", "quantifier": "all integers of the right parity and all channel pairs", "why_tests_cant": "Parity/sign corner cases over all integers.", "anchors": ["source/correlation_functions/four_point/r_vertex.hpp: transfToR (finite-temperature branch)"]}
{"id": "C31", "title": "Keldysh multi-index encoding is a bijection", "statement": "Encoding four contour indices into one Keldysh index and decoding are mutually inverse, and the order is big-endian in the legs (1',2',1,2).", "quantifier": "all 16 Keldysh indices / all index quadruples", "why_tests_cant": "Exhaustive over the finite table, used by every other index computation.", "anchors": ["source/symmetries/Keldysh_symmetries.c++: iK_to_alphas, alphas_to_iK"]}
{"id": "C32", "title": "Keldysh matrix rotation and its inverse cancel", "statement": "In each channel and on each side of a bubble, rotating the Keldysh index into matrix form and un-rotating it is the identity, so no component is lost or duplicated in vectorised evaluation.", "quantifier": "all Keldysh indices, channels and sides", "why_tests_cant": "Exhaustive finite statement combined with all data.", "anchors": ["source/symmetries/Keldysh_symmetries.hpp: rotate_Keldysh_matrix, unrotate_Keldysh_matrix, rotate_to_matrix"]}
{"id": "C33", "title": "Vectorised bubble contraction equals the scalar contraction", "statement": "Evaluating vertex x propagator pair x vertex as a product of 4x4 Keldysh matrices yields, in every channel and for every external Keldysh index, the same number as summing the scalar contraction over all internal Keldysh indices.", "quantifier": "all vertex and propagator values, all channels, all external Keldysh indices", "why_tests_cant": "Index bookkeeping mistakes can cancel for symmetric test data.", "anchors": ["source/symmetries/Keldysh_symmetries.c++: indices_sum", "source/bubble/integrand.hpp", "source/bubble/bubble.hpp: value, value_vectorized"]}
{"id": "C34", "title": "Bubble vanishes exactly on the documented Keldysh components", "statement": "The propagator-pair value for a Keldysh index is the product of the two propagator matrix elements selected by the index, and it is identically zero for all propagators exactly outside the documented list of non-zero components.", "quantifier": "all propagator values, all 16 Keldysh indices, plain and differentiated bubbles", "why_tests_cant": "Needs all propagator values.", "anchors": ["source/bubble/bubble.hpp: Bubble::value", "source/symmetries/Keldysh_symmetries.hpp: glb_non_zero_Keldysh_bubble"]}
{"id": "C35", "title": "Symmetry transformations satisfy their group relations", "statement": "Crossing the incoming legs, crossing the outgoing legs and conjugation are involutions; exchanging both pairs equals applying both crossings in either order; all composite transformations used by the tables are well defined and act on legs (Keldysh index, energies, spin) as the documented permutation/conjugation, with the documented sign.", "quantifier": "all vertex arguments (channel, spin, Keldysh index, frequencies)", "why_tests_cant": "Continuum of arguments and compositions.", "anchors": ["source/symmetries/symmetry_transformations.c++: T1, T2, T3, TC, Tph, TR, Ti"]}
{"id": "C36", "title": "Component tables only use valid symmetry relations", "statement": "Every entry of the component tables points to an existing independent component, and for every entry the listed transformation maps the Keldysh index to a Keldysh index represented by the same independent component; entries marked as vanishing are exactly those excluded by causality.", "quantifier": "all channels, diagrammatic classes, spins, Keldysh indices", "why_tests_cant": "Exhaustive statement over the tables; tests compare numbers for one data set.", "anchors": ["source/symmetries/symmetry_table.hpp: Components_Keldysh_*, Transformations_Keldysh_*"]}
{"id": "C37", "title": "Frequency tables map every sector to the fundamental sector", "statement": "For every frequency argument the transformation selected by the signs of its frequencies maps the argument into the fundamental sector, in which no transformation is applied; hence one table application suffices.", "quantifier": "all real frequencies, all channels and diagrammatic classes, with and without particle-hole symmetry", "why_tests_cant": "Continuum of frequencies with sign corner cases.", "anchors": ["source/symmetries/symmetry_table.hpp: FrequencyTransformations", "source/correlation_functions/four_point/r_vertex.hpp: enforce_freqsymmetriesK1, K2, K3"]}
{"id": "C38", "title": "Enforcing symmetries in place is schedule independent and idempotent", "statement": "Symmetrising a stored component in place gives the same result for every order in which the grid points are processed (in particular for every thread schedule), only copies from points that are never overwritten, and symmetrising twice changes nothing further.", "quantifier": "all data, all processing orders", "why_tests_cant": "Races show only under particular schedules.", "anchors": ["source/correlation_functions/four_point/r_vertex.hpp: enforce_freqsymmetriesK1, K2, K3"]}
{"id": "C39", "title": "Interpolation weights are a partition of unity", "statement": "For every argument inside a grid cell the multilinear interpolation weights are non-negative and sum to one, so interpolated values lie between the smallest and largest neighbouring data value.", "quantifier": "all dimensions, cells, arguments", "why_tests_cant": "Continuum of arguments.", "anchors": ["source/correlation_functions/n_point/data_buffer.hpp: Interpolator::get_weights"]}
{"id": "C40", "title": "Interpolation reproduces stored data at grid points and is exact for affine data", "statement": "At a grid point the interpolated value is the stored value; data that are affine in the (auxiliary) coordinates are reproduced exactly everywhere in the box; outside the box the real-frequency interpolation returns zero.", "quantifier": "all grids, data and arguments", "why_tests_cant": "Continuum of arguments.", "anchors": ["source/interpolations/InterpolatorLinOrSloppy.hpp", "source/correlation_functions/n_point/data_buffer.hpp: interpolate_impl"]}
{"id": "C41", "title": "Cubic interpolation and Lagrange polynomials are exact for cubics", "statement": "The cubic interpolation on four neighbouring points reproduces every polynomial of degree at most three, and Lagrange interpolation through n distinct nodes reproduces every polynomial of degree below n and the node values.", "quantifier": "all node sets, polynomials and arguments", "why_tests_cant": "Continuum of data.", "anchors": ["source/interpolations/InterpolatorLinOrSloppy.hpp: interpolate_sloppycubic1D", "source/utilities/math_utils.hpp: lagrangePoly"]}
{"id": "C42", "title": "Finite-difference stencils differentiate quartic polynomials exactly", "statement": "On any grid with at least five strictly increasing points the finite-difference derivative of polynomial data of degree at most four equals the derivative at every grid point, including those next to the boundary.", "quantifier": "all grids of all sizes >= 5, all quartic polynomials", "why_tests_cant": "All grids; coefficient errors at the boundary stencils are easily hidden.", "anchors": ["source/utilities/math_utils.hpp: get_finite_differences"]}
{"id": "C43", "title": "Partial derivatives of multi-dimensional data do not mix rows", "statement": "Differentiating a multi-dimensional array along an axis gives, on every line along that axis, the one-dimensional derivative of the data on that line.", "quantifier": "all ranks, shapes, axes and data", "why_tests_cant": "Depends on shapes; a test with smooth data hides the cross-row stencil.", "anchors": ["source/utilities/math_utils.hpp: partial_deriv (multiarray)"]}
{"id": "C44", "title": "Maximum along an axis", "statement": "Taking the maximal modulus along axes returns, for each remaining index, a value attained on that line and not exceeded by any element of it.", "quantifier": "all ranks, shapes, axes and data", "why_tests_cant": "All data.", "anchors": ["source/utilities/math_utils.hpp: collapse, maxabs"]}
{"id": "C45", "title": "Splitting a vertex into leg-dependent and leg-independent parts is exact", "statement": "For every channel and argument the part of the vertex that depends on the left (right) fermionic frequency plus the part that does not add up to the full vertex, for full and channel-irreducible vertices, so integrands built from the parts neither double-count nor omit a contribution.", "quantifier": "all vertices, arguments, channels, spins", "why_tests_cant": "All data.", "anchors": ["source/correlation_functions/four_point/vertex.hpp: left_same_bare, left_diff_bare, right_same_bare, right_diff_bare, value, gammaRb"]}
{"id": "C46", "title": "The bare vertex respects crossing symmetry", "statement": "The bare interaction has opposite signs in the two spin configurations and is nonzero exactly on Keldysh components with an odd number of second indices; the sum of both spin configurations vanishes.", "quantifier": "all Keldysh indices, spins, interaction values", "why_tests_cant": "Used as seed of every calculation.", "anchors": ["source/correlation_functions/four_point/vertex.hpp: irreducible::val, initialize"]}
{"id": "C47", "title": "Dividing a vertex by a vertex divides every part of it", "statement": "Dividing a vertex entry-wise by another vertex divides every part of it, including the bare interaction.", "quantifier": "all pairs of vertices on the same grid", "why_tests_cant": "Tests divide only zero bare vertices.", "anchors": ["source/correlation_functions/four_point/vertex.hpp: irreducible operator/="]}
{"id": "C48", "title": "Vertex norms are norms", "statement": "The p-norm of the vertex classes is zero only for vanishing components, and is absolutely homogeneous.", "quantifier": "all vertices and p >= 1", "why_tests_cant": "Tests use positive data.", "anchors": ["source/correlation_functions/four_point/vertex.hpp: norm_K1, norm_K2, norm_K3, sum_norm"]}
{"id": "C49", "title": "State arithmetic forms a vector space", "statement": "Adding, subtracting and scaling complete states (self-energy incl. Hartree part, irreducible vertex and all asymptotic classes) act linearly on every component; the solvers' linear combinations therefore act component-wise.", "quantifier": "all states and scalars", "why_tests_cant": "All data.", "anchors": ["source/correlation_functions/state.hpp: operator+=, operator*=, operator-=", "source/correlation_functions/four_point/vertex.hpp", "source/correlation_functions/two_point/selfenergy.hpp"]}
{"id": "C50", "title": "Taking the modulus of a state affects every component", "statement": "The entry-wise modulus of a state replaces every entry of the vertex and of the self-energy by its modulus.", "quantifier": "all states", "why_tests_cant": "Sign of data in tests hides it.", "anchors": ["source/correlation_functions/state.hpp: State::abs"]}
{"id": "C51", "title": "Saved layers can be read back and are isolated from each other", "statement": "After any sequence of layer writes to an output file, reading a layer returns the state most recently written to that layer, and writing one layer does not change any other layer.", "quantifier": "all write sequences, layer indices, states", "why_tests_cant": "Unbounded histories.", "anchors": ["source/utilities/hdf5_routines.hpp: write_to_hdf_LambdaLayer, read_from_hdf_LambdaLayer, add_state_to_hdf, write_state_to_hdf, read_state_from_hdf"]}
{"id": "C52", "title": "A crash while saving never leaves a file whose recorded last layer is incomplete", "statement": "At every crash point during saving, the layer the file reports as last completed is completely stored.", "quantifier": "all crash points in all write sequences", "why_tests_cant": "Crash points cannot be enumerated in a test.", "anchors": ["source/utilities/hdf5_routines.hpp: write_state_to_hdf_LambdaLayer"]}
{"id": "C53", "title": "Saving a converged state in a new file succeeds and records convergence", "statement": "Creating a result file for a state that is already converged, and updating a file that does not exist yet, succeed; the convergence flag read back reflects the most recent write.", "quantifier": "all sequences of write calls", "why_tests_cant": "Call sequences.", "anchors": ["source/utilities/hdf5_routines.hpp: write_state_to_hdf_LambdaLayer", "source/utilities/hdf5_routines.c++: check_convergence_hdf"]}
{"id": "C54", "title": "Saved frequency grids are restored exactly", "statement": "Restoring a frequency grid from a file gives the same grid frequencies as the grid that was saved.", "quantifier": "all grid parameters including shifted centres", "why_tests_cant": "All parameter values.", "anchors": ["source/utilities/hdf5_routines.hpp: write_freqparams_to_hdf_LambdaLayer, init_freqgrid_from_hdf_LambdaLayer"]}
{"id": "C55", "title": "The parquet iteration terminates within its iteration budget and reports truthfully", "statement": "The fixed-point iteration performs at least one and at most the configured number of iterations; it reports convergence only if the last relative deviations of self-energy and vertex are within the accuracy; the mixing factor always stays between its lower bound and its initial value.", "quantifier": "all update maps, all accuracies, all iteration budgets", "why_tests_cant": "Arbitrary iteration behaviour.", "anchors": ["source/perturbation_theory_and_parquet/parquet_solver.hpp: parquet_solver"]}
{"id": "C56", "title": "A diverged parquet iteration is not reported as converged", "statement": "If the relative deviation is not a number, the iteration does not report convergence.", "quantifier": "all iteration histories including NaN", "why_tests_cant": "Divergence is not part of tests.", "anchors": ["source/perturbation_theory_and_parquet/parquet_solver.hpp: parquet_solver is_converged"]}
{"id": "C57", "title": "Restarting the parquet solver uses an existing result if and only if there is one", "statement": "With the option to continue from the last saved iteration, the solver loads the last saved layer whenever the file exists with at least one saved layer and starts afresh otherwise; loading a converged result is reported as converged.", "quantifier": "all saved layers, file states", "why_tests_cant": "File-state histories.", "anchors": ["source/perturbation_theory_and_parquet/parquet_solver.hpp: parquet_solver"]}
{"id": "C58", "title": "Convergence with mixing bounds the true residual", "statement": "If the damped iteration is reported as converged, the un-damped fixed-point residual is at most the accuracy divided by the mixing factor times the norm of the iterate.", "quantifier": "all update maps, norms, mixing factors", "why_tests_cant": "All maps.", "anchors": ["source/perturbation_theory_and_parquet/parquet_solver.hpp: parquet_solver"]}
{"id": "C59", "title": "Accelerated iteration is an affine combination that preserves fixed points", "statement": "The accelerated iterate is an affine combination of previous results whose coefficients sum to one for every least-squares solution; every affine quantity shared by all history entries (such as the bare vertex) is preserved, and if all history entries are a fixed point the result is that fixed point.", "quantifier": "all history lengths, all histories, all least-squares outcomes", "why_tests_cant": "Unbounded histories.", "anchors": ["source/utilities/anderson_acceleration.hpp: anderson_update"]}
{"id": "C60", "title": "The Hartree bisection brackets the occupation and terminates", "statement": "For every continuous occupation map of the unit interval into itself the bisection keeps a sign-changing bracket inside [0,1], halves it each iteration, terminates, and returns an occupation that solves the self-consistency condition to the threshold.", "quantifier": "all continuous (Lipschitz) occupation maps, all thresholds > 0", "why_tests_cant": "Arbitrary functions.", "anchors": ["source/perturbation_theory_and_parquet/hartree_term.c++: compute_Hartree_term_bracketing"]}
{"id": "C61", "title": "Hartree iteration reports failure instead of a wrong result", "statement": "The self-consistent Hartree loops never return a value that fails the self-consistency condition, and always terminate.", "quantifier": "all occupation maps, including those returning NaN or oscillating", "why_tests_cant": "A non-terminating or NaN path is not tested.", "anchors": ["source/perturbation_theory_and_parquet/hartree_term.c++: compute_Hartree_term, compute_Hartree_term_bracketing"]}
{"id": "C62", "title": "Minimiser bracketing delivers a valid bracket", "statement": "Whenever the bracketing phase of the one-dimensional minimiser hands over to the minimiser proper, the three points are ordered, positive, and the middle cost is below both outer costs.", "quantifier": "all cost functions and start values", "why_tests_cant": "Arbitrary cost functions.", "anchors": ["source/utilities/minimizer.hpp: minimizer"]}
{"id": "C63", "title": "Minimiser bracketing terminates", "statement": "The bracketing phase of the one-dimensional minimiser stops after finitely many cost evaluations for every cost function.", "quantifier": "all cost functions", "why_tests_cant": "A test would hang.", "anchors": ["source/utilities/minimizer.hpp: minimizer"]}
{"id": "C64", "title": "Propagators satisfy the fluctuation-dissipation relation", "statement": "The Keldysh propagator equals the thermal factor times the difference of retarded and advanced propagators, and the general (non-equilibrium) formula reduces to it whenever the self-energy obeys the relation; the same for the single-scale propagator.", "quantifier": "all frequencies, self-energies, parameters", "why_tests_cant": "Continuum of values.", "anchors": ["source/correlation_functions/two_point/propagator.hpp: GK, SK"]}
{"id": "C65", "title": "Causality of the self-energy implies a positive spectral function", "statement": "If the retarded self-energy has non-positive imaginary part and the hybridisation plus regulator is positive, the retarded propagator is finite and has strictly negative imaginary part at every frequency.", "quantifier": "all frequencies and causal self-energies", "why_tests_cant": "Continuum of values.", "anchors": ["source/correlation_functions/two_point/propagator.hpp: GR_REG2"]}
{"id": "C66", "title": "The single-scale propagator is the regulator derivative of the propagator", "statement": "For each regulator the single-scale propagator equals the derivative of the propagator with respect to the flow parameter at fixed self-energy, and adding the Katanin term gives the derivative along a flowing self-energy.", "quantifier": "all frequencies, self-energies, flow parameters, regulators", "why_tests_cant": "Continuum of values.", "anchors": ["source/correlation_functions/two_point/propagator.hpp: SR_REG2..5, SM_REG2..4, Katanin_R, Katanin_K"]}
{"id": "C67", "title": "Multi-loop right-hand side is the sum of its loop orders and stops as configured", "statement": "The flow right-hand side equals the sum of one-loop, two-loop and higher-loop contributions up to the loop order where the configured truncation or tolerance stops; never more than the configured number of loops are computed and the self-energy correction iterations are bounded by their configured maximum.", "quantifier": "all loop contributions, tolerances and loop numbers", "why_tests_cant": "All histories of loop norms.", "anchors": ["source/mfRG_flow/right_hand_sides.hpp: rhs_n_loop_flow"]}
{"id": "C68", "title": "Distinct configurations write to distinct files", "statement": "Two runs whose parameters differ in a physically relevant way never share an output file name.", "quantifier": "all configuration pairs", "why_tests_cant": "Pairs of configurations.", "anchors": ["source/utilities/util.c++: generate_filename"]}
{"id": "C69", "title": "Self-energy approaches its Hartree value outside the frequency box", "statement": "Outside the box the retarded self-energy equals its constant (Hartree) part and the Keldysh component vanishes; inside it the retarded value is the interpolated dynamic part plus the Hartree part.", "quantifier": "all frequencies and stored data", "why_tests_cant": "Continuum of values.", "anchors": ["source/correlation_functions/two_point/selfenergy.hpp: valsmooth"]}
{"id": "C70", "title": "Integration of a truncated flow reports non-existing checkpoints as error", "statement": "Continuing a flow from a saved file keeps all previously saved layers and either continues from the requested layer or raises an error.", "quantifier": "all files and layer requests", "why_tests_cant": "File histories.", "anchors": ["source/mfRG_flow/flow.c++: n_loop_flow(filename, ...)"]}
{"id": "C71", "title": "Constructing an array from shape and data of inconsistent size is refused", "statement": "Constructing a multi-dimensional array from a shape and a data vector whose size differs from the number of elements of the shape raises an error; with consistent size the array reads back the data in storage order.", "quantifier": "all shapes and all data vectors", "why_tests_cant": "Only consistent sizes occur in tests.", "anchors": ["source/multidimensional/multiarray.hpp: multiarray(length_type, buffer_type)"]}
{"id": "C72", "title": "The next step size follows the error-controlled growth rule", "statement": "After an accepted step with error ratio e the proposed next step is the safety factor times e^(-1/5) times the taken step, limited to the maximal growth factor two.", "quantifier": "all error ratios and accepted steps", "why_tests_cant": "A test sees the proposals of the few steps it takes; the rule must hold for every error ratio.", "anchors": ["source/ODE_solvers/ODE_solvers.hpp: ode_solver_impl::rkqs"]}
{"id": "C73", "title": "A solver configuration can be used for more than one flow", "statement": "Calling the flow solver does not change its (const) configuration: a second call with the same configuration starts at the same flow parameter as the first.", "quantifier": "all configurations and call histories", "why_tests_cant": "The dependence on earlier calls is only visible over sequences of calls.", "anchors": ["source/ODE_solvers/ODE_solvers.hpp: ode_solver", "source/ODE_solvers/ODE_solver_config.hpp: ODE_solver_config::Lambda_now"]}
{"id": "C74", "title": "Integration measures are the derivatives of the grid maps", "statement": "For every frequency-grid transformation the integration measure, and for every flow parametrisation the reported derivative, is the derivative of the map from the auxiliary variable.", "quantifier": "all auxiliary values inside the open interval, all scales", "why_tests_cant": "A test compares finitely many points with finite differences.", "anchors": ["source/grids/frequency_grid.c++: integration_measure_v1..v4", "source/grids/flow_grid.hpp: dlambda_dt"]}
{"id": "C75", "title": "Polar and spherical frequency coordinates convert without loss", "statement": "On the polar frequency grids, converting the frequencies of the two- and three-frequency vertex classes to radius and angles and back returns the frequencies, with non-negative radius and angles in the principal range.", "quantifier": "all real frequency pairs and triples", "why_tests_cant": "must hold for every real argument including the axes and the origin, where the angle is discontinuous", "anchors": ["source/utilities/math_utils.c++: K2_convert2internalFreqs, K2_convert2naturalFreqs, K3_convert2internalFreqs, K3_convert2naturalFreqs"]}
{"id": "C76", "title": "Distribution functions are consistent", "statement": "The occupation function takes values between zero and one, decreases with frequency, is one half at the chemical potential and adds up to one at frequencies mirrored at it; the distribution factor is one minus twice the occupation; the two Fermi-function implementations agree; and the non-equilibrium formulas at zero bias give the equilibrium ones, at finite and at zero temperature.", "quantifier": "all frequencies, chemical potentials, positive temperatures and biases", "why_tests_cant": "Needed at every real frequency, including exactly at the chemical potential.", "anchors": ["source/correlation_functions/two_point/propagator.c++: Fermi_distr, Fermi_fac, Eff_distr, Eff_fac, Fermi_distribution"]}
{"id": "C77", "title": "The component matrices solve Dyson's equation and the two bases are rotations of each other", "statement": "The matrix of propagator components multiplied with the matrix of regulated inverse free propagator minus self-energy is the identity, and the contour-basis matrix is the rotated Keldysh-basis matrix, so that its four components obey the causality identity and the extended propagator is the sum of single-scale and extension part component by component.", "quantifier": "all component values, parameters and frequencies with non-vanishing denominators", "why_tests_cant": "An identity between matrices for all complex values.", "anchors": ["source/correlation_functions/two_point/propagator.hpp: valsmooth, valsmooth_vectorized, GR, GK"]}
{"id": "C78", "title": "The Friedel-sum-rule solver returns an admissible occupation or fails", "statement": "Whenever the fixed-point iteration for the Friedel sum rule returns, the occupation lies strictly between zero and one and satisfies the sum rule to the threshold times the coupling ratio U/(pi Delta); for couplings below pi Delta it does return; and any two approximate solutions agree up to their residuals.", "quantifier": "all interactions, level positions, hybridisations and thresholds", "why_tests_cant": "Convergence has to hold for every coupling below the bound, and the residual bound for every returned value.", "anchors": ["source/perturbation_theory_and_parquet/hartree_term.c++: compute_Hartree_term_Friedel, friedel_sum_rule_check"]}
{"id": "C79", "title": "The configuration restored from a file is the one it was written with", "statement": "Reading the run configuration back from a result file gives the number of loops, interaction, hybridisation, temperature, level position and number of ODE steps with which the file was written.", "quantifier": "all configurations, contents of uninitialised memory and subsequent writes of states to the file", "why_tests_cant": "The value read back for a field of another type depends on the contents of uninitialised memory, which a test cannot enumerate.", "anchors": ["source/utilities/hdf5_routines.c++: read_config_from_hdf, write_params", "source/utilities/hdf5_routines.hpp: read_from_hdf"]}
{"id": "C80", "title": "Arithmetic on vertices that store both halves acts on both halves", "statement": "For vertices that store both halves of the vertex (non-symmetric ones), adding vertices and multiplying by a number act on both stored halves.", "quantifier": "all non-symmetric vertices and all numbers", "why_tests_cant": "Non-symmetric vertices only arise as intermediate objects of the bubble; a test of a few symmetric vertices never sees the second half.", "anchors": ["source/correlation_functions/four_point/vertex.hpp: GeneralVertex operator+=, operator*="]}
{"id": "C81", "title": "Adding a number to a state adds it to every component", "statement": "Adding a number to a state adds that number to every component of its self-energy and vertex, so that the error scale used for step control is shifted uniformly.", "quantifier": "all states and all numbers", "why_tests_cant": "Step control uses the operation only inside an error ratio, where a component that is left out is masked by all others.", "anchors": ["source/correlation_functions/state.hpp: operator+=(double)", "source/correlation_functions/two_point/selfenergy.hpp: operator+=(double)"]}
{"id": "C82", "title": "A state containing NaN does not have a finite norm", "statement": "If some component of a state is NaN, then the norm of the state is not a finite number.", "quantifier": "all states and all positions of the NaN", "why_tests_cant": "Whether a NaN survives depends on its position relative to the other entries in a comparison-based maximum.", "anchors": ["source/correlation_functions/state.hpp: norm", "source/correlation_functions/four_point/vertex.hpp: norm_K1, norm_K2, norm_K3"]}
{"id": "C83", "title": "Recorded flow statistics belong to their layer", "statement": "For every completed step of a flow, including flows that are continued from a stored layer or resumed after a crash, the result file records for that layer the number of self-energy iterations, the computation time and the number of attempted Runge-Kutta steps that this step took, and recording them never stops the flow.", "quantifier": "every sequence of steps, every starting layer, every crash point between two writes, every number of recorded quantities", "why_tests_cant": "The statistics live in vectors sized in memory while the layer number continues from a file; only histories that start at a later layer or that were interrupted between writing the state and writing the statistics expose the mismatch.", "anchors": ["source/mfRG_flow/right_hand_sides.hpp: mfRG_stats::write_to_hdf", "source/ODE_solvers/ODE_solvers.hpp: postRKstep_stuff"]}
{"id": "C84", "title": "Adaptive integration is exact for polynomials and keeps bounds", "statement": "For every integrand that is a polynomial of degree at most nine the adaptive integrator returns the exact integral, whatever tolerance is asked for and however often it subdivides; for an integrand with values between m and M the result lies between m(b-a) and M(b-a); the result deviates from the integral by no more than the requested tolerance.", "quantifier": "all intervals, tolerances, integrands and subdivision histories", "why_tests_cant": "The set of subdivisions is chosen from sampled values at run time; no finite set of integrands covers all histories.", "anchors": ["source/integrator/integrator_NR.hpp: Adapt::integrate, Adapt::integrate_vector, Adapt::helper"]}
{"id": "C85", "title": "Adaptive integration ends for every bounded integrand", "statement": "For every bounded integrand, however discontinuous, and every interval with a < b the recursion of the adaptive integrator ends.", "quantifier": "all bounded functions, intervals and tolerances", "why_tests_cant": "Non-termination would need an adversarial integrand; a test only runs a few smooth ones.", "anchors": ["source/integrator/integrator_NR.hpp: Adapt::integrate"]}
{"id": "C86", "title": "Splitting the frequency axis at features loses and duplicates nothing", "statement": "Integrating with break points around the two given features, with tails to infinity if asked for, equals the sum of the integrals over adjacent pieces that together make up exactly the asked domain; an algebraic tail is integrated exactly.", "quantifier": "all features, widths, limits, finite and infinite domains", "why_tests_cant": "Features may coincide, exchange order or lie outside of the limits in infinitely many ways.", "anchors": ["source/integrator/integrator.hpp: integrator(integrand, vmin, vmax, w1_in, w2_in, Delta, isinf)", "source/integrator/integrator_NR.hpp: Adapt_semiInfinitUpper, Adapt_semiInfinitLower"]}
{"id": "C87", "title": "Zero-temperature Matsubara integration avoids the jumps and covers the axis", "statement": "The zero-temperature integrator never evaluates the integrand at or next to the jumps at +-w_half, covers the whole axis up to windows of fixed width around them, and is defined for every list of further break points.", "quantifier": "all frequencies, numbers of break points and orders of break points", "why_tests_cant": "Depends on coincidences between break points for arbitrary external frequencies.", "anchors": ["source/integrator/integrator.hpp: integrator_Matsubara_T0"]}
{"id": "C88", "title": "Simpson integration is exact for polynomials up to degree three", "statement": "The Simpson integrators with zero, one or two marked features return the exact integral for every polynomial of degree at most three, for real and complex integrands and every number of points. The points are shared out: each feature gets a window with a fifth (one feature) or a tenth (two features) of the points, two features less than 50 apart a common one in proportion to its width, and the remaining parts get points according to their lengths, rounded to odd numbers.", "quantifier": "all intervals, positions of features, numbers of points and cubic polynomials", "why_tests_cant": "The number of points of each piece is computed from the frequencies; its parity decides on correctness.", "anchors": ["source/integrator/old_integrators.hpp: integrator_simpson, dotproduct"]}
{"id": "C89", "title": "Adaptive Simpson integration ends and is exact up to degree three", "statement": "The adaptive Simpson integrator ends for every integrand, its sub-intervals always form a partition of the interval, it is exact for polynomials of degree at most three, and otherwise its result is within the tolerance of the integral.", "quantifier": "all integrands, intervals and maximal numbers of points", "why_tests_cant": "The partition depends on the run-time convergence flags of every sub-interval.", "anchors": ["source/integrator/old_integrators.hpp: adaptive_simpson_integrator, simpson_rule_3"]}
{"id": "C90", "title": "Frequency grids follow the flow parameter by pure rescaling", "statement": "The frequencies of the grid built for one value of the flow parameter are those of the grid built for any other value multiplied by the ratio of the half-widths (Lambda+Gamma)/2; the auxiliary grid does not depend on the flow parameter; the grid reaches from minus to plus one hundred times its scale.", "quantifier": "all flow parameters, couplings to the bath, numbers of points, classes and kinds of grid", "why_tests_cant": "Grids are compared across continuously many values of the flow parameter.", "anchors": ["source/grids/frequency_grid.c++: guess_essential_parameters, initialize_grid", "source/grids/frequency_grid.hpp: set_essential_parameters"]}
{"id": "C91", "title": "Propagators on the imaginary axis are conjugate, causal and stored consistently", "statement": "On the imaginary axis the full and the single-scale propagator at the opposite frequency are complex conjugates for every regulator; the purely real representation used with particle-hole symmetry is exactly i times the complex one; the imaginary part of the propagator has the sign opposite to the frequency; for positive frequency it is the analytic continuation of the retarded propagator.", "quantifier": "all frequencies, flow parameters, level positions and self-energies", "why_tests_cant": "Holds for continuously many parameters and two compile-time storage types that are never compared at run time.", "anchors": ["source/correlation_functions/two_point/propagator.hpp: G0M_inv_SIAM, GM_REG2, SM_REG2, GM_REG3, SM_REG3, GM_REG4, SM_REG4"]}
{"id": "C92", "title": "The self-energy loop contracts vertex and propagator over all internal indices", "statement": "Closing a vertex with a propagator computes, at each pair of frequencies, the full sum over both internal Keldysh (or contour) indices for each external index pair, with the spin weights two and one; vectorised, scalar and tabulated evaluations and both bases give the same components, and both versions of closing the loop give the same self-energy for the same vertex.", "quantifier": "all propagator values, all vertices (with the stated symmetry), all external indices, both versions, both bases", "why_tests_cant": "A test compares one run of one build configuration; the index tables must agree for every component and every configuration.", "anchors": ["source/loop/integrandSE.hpp: IntegrandSE, set_Keldysh_components_to_be_calculated, evaluate_vertex_vectorized, Keldysh_value", "source/loop/loop.hpp: LoopCalculator::compute_Keldysh"]}
{"id": "C93", "title": "The loop integral covers a symmetric frequency range and averaging over the sign of the frequency does not change it", "statement": "The stored components equal i/(2 pi) times the integral of the plain integrand over |v'| <= 10 Delta + |v|; the retarded entry is the conjugate of the advanced one.", "quantifier": "all integrable integrands, all external frequencies and hybridisations", "why_tests_cant": "Evenness of the domain must hold for every external frequency; a numerical test sees only one integrand up to tolerance.", "anchors": ["source/loop/loop.hpp: set_v_limits, Keldysh_prefactor, compute_Keldysh", "source/loop/integrandSE.hpp: Keldysh_value"]}
{"id": "C94", "title": "A loop call reads the old self-energy, is independent of thread scheduling and preserves what it does not compute", "statement": "Every entry of the result is computed from the self-energy as it was before the call, even when the propagator refers to the object being overwritten, in every order of the threads' writes; without particle-hole symmetry the entries plus the asymptotic value reproduce the computed values; with particle-hole symmetry the asymptotic value passed in is preserved.", "quantifier": "all orders of all writes, all grid sizes, all values, both versions, with and without particle-hole symmetry", "why_tests_cant": "Data races and aliasing show up only in some schedules.", "anchors": ["source/loop/loop.hpp: loop, LoopCalculator", "source/correlation_functions/two_point/selfenergy.hpp: operator*"]}
{"id": "C95", "title": "The Schwinger-Dyson combinations count every contribution once and the differentiated equation is their derivative", "statement": "Version 1 of the Schwinger-Dyson equation contains the second-order term exactly once and each reducible part once in its own channel; versions 1 and 2 agree whenever all channels close consistently; the differentiated equation is the derivative of version 3 along any flow of vertex and propagator.", "quantifier": "all vertices, propagators and linear bubble/loop maps; all differentiable flows", "why_tests_cant": "Double counting cancels or hides for special vertices.", "anchors": ["source/perturbation_theory_and_parquet/parquet_solver.hpp: compute_SDE_v1, compute_SDE_impl_v2, compute_SDE_v3, compute_diff_SDE"]}
{"id": "C96", "title": "Finite-temperature frequency sums take the symmetric set of frequencies, scalar or vectorised", "statement": "At finite temperature in the imaginary-frequency formalism the internal frequency sum of a bubble takes, for every bosonic frequency and channel, exactly the frequencies for which the two propagators are not both beyond the same end of the frequency box; this set is invariant under exchanging the two lines. The matrix-product form of the sum gives for every outer frequency the same value as the scalar form, and its results fill every output entry exactly once.", "quantifier": "all bosonic frequencies, box sizes, channels, spin components, vertices and propagators", "why_tests_cant": "A test uses a few bosonic frequencies; odd and even half frequencies and both signs take different rounding branches, and the two forms are never compiled into one program.", "anchors": ["source/integrator/integrator.hpp: matsubarasum, matsubarasum_vectorized", "source/bubble/bubble_function.hpp: BubbleFunctionCalculator::compute_value", "source/bubble/bubble.hpp: Bubble::value"]}
{"id": "C97", "title": "Bubble integrands contain the full sum over internal spins", "statement": "The integrand computed for a spin component of a bubble equals the sum over the spins of both internal lines of the product of the two spin-conserving vertices; in the pairing channel it is one half of that sum when exchanging the two identical lines leaves it unchanged. In the single-boson-exchange form the first class is the chain of four vertices. The scalar form and the vectors loaded for the vectorised sum give the same value.", "quantifier": "all vertex values and propagator pairs in any (non-commutative) ring, channels, spin components, classes", "why_tests_cant": "The sums are written out by hand for each channel and spin component; comparing them on one model point cannot exclude that the terms agree only by a symmetry of that point.", "anchors": ["source/bubble/integrand.hpp: sum_over_internal_scalar, sum_over_internal_vectorized, load_vertex_keldysh_and_spin_Components_left_vectorized, load_vertex_keldysh_and_spin_Components_right_vectorized", "source/bubble/bubble_function.hpp: BubbleFunctionCalculator"]}
{"id": "C98", "title": "Analytic bubble tails are the tail integrals", "statement": "For every transfer frequency, level position and hybridisation, the closed formula added for the frequencies outside the integration box equals the contribution of those frequencies to the integral of the bubble (or of its derivative with respect to the flow parameter) built from the code's own propagators with the Hartree self-energy; where no formula exists the call is refused.", "quantifier": "all parameters, transfer frequencies, boxes, channels, both symmetry settings, regulators 2 and 4; differentiated and not", "why_tests_cant": "the formulas involve principal logarithms and limits over an unbounded integration range; samples cannot exclude a wrong branch or sign at other parameters", "anchors": ["source/asymptotic_corrections/bubble_corrections.hpp: correctionFunctionBubbleAT, correctionFunctionBubbleP", "source/bubble/bubble.hpp: value_Matsubara", "source/propagator.hpp: GM, SM"]}
{"id": "C99", "title": "Tails complete the frequency sum", "statement": "At finite temperature with particle-hole symmetry, the analytic tail that is added to a finite frequency sum has the sign of the omitted summands and a modulus that is at least that of the infinite sum of the omitted summands and larger by at most the two outermost summands kept.", "quantifier": "all temperatures, summation ranges, transfer frequencies inside the range, channels, hybridisations", "why_tests_cant": "it compares a closed formula to an infinite sum for all temperatures and ranges", "anchors": ["source/bubble/bubble_function.hpp: BubbleFunctionCalculator::bubble_value", "source/asymptotic_corrections/correction_functions.hpp: asymp_corrections_bubble"]}
{"id": "C100", "title": "The bubble computation adds its result to the vertex it is given", "statement": "Calling the bubble computation for a channel, with a result vertex, a left and a right vertex and a choice of diagrammatic classes, adds the bubble of the two vertices to the chosen classes of that channel of the result vertex and leaves everything else in it unchanged; a letter that names no channel is reported.", "quantifier": "every numerical bubble, every result, left and right vertex, every channel letter, every choice of classes, with and without checked symmetries", "why_tests_cant": "tests call the function on freshly constructed vertices, for which overwriting and adding are the same", "anchors": ["source/bubble/bubble_function.hpp: bubble_function, write_out_results_K1/K2/K2b/K3, perform_computation"]}
{"id": "C101", "title": "The second-order state is the second-order expansion", "statement": "Second-order perturbation theory turns an initialised state into the state whose vertex is the sum of the first two orders of the parquet expansion in the bare interaction and whose self-energy is the loop over the second-order contribution of channel a plus the Hartree term; all overloads do so.", "quantifier": "every numerical bubble with the exact class structure, every loop, every initialised state, with and without checked symmetries", "why_tests_cant": "a numerical test compares a few frequencies to a tolerance and cannot tell a missing order from a small one", "anchors": ["source/perturbation_theory_and_parquet/perturbation_theory.hpp: sopt_state, sopt_state_impl, vertexInSOPT, selfEnergyInSOPT"]}
{"id": "C102", "title": "The third-order state is the sum of the first three orders", "statement": "Third-order perturbation theory returns the state whose vertex is the sum of the first three orders of the parquet expansion in every channel and class, and whose self-energy has the Hartree term as asymptotic value.", "quantifier": "every numerical bubble with the exact class structure, with and without checked symmetries", "why_tests_cant": "the tests that use it look at single diagrams only, and the loss of lower orders shows in no assertion", "anchors": ["source/perturbation_theory_and_parquet/perturbation_theory.hpp: topt_state, vertexInTOPT"]}
{"id": "C103", "title": "The fourth-order state contains the lower orders", "statement": "Fourth-order perturbation theory adds the fourth-order contributions of the third class to the third-order state and keeps the lower orders.", "quantifier": "every numerical bubble with the exact class structure, with checked symmetries", "why_tests_cant": "as for third order", "anchors": ["source/perturbation_theory_and_parquet/perturbation_theory.hpp: fopt_state, vertexInFOPT"]}
{"id": "C104", "title": "Internal Keldysh components that are left out do not contribute", "statement": "When only vertices of the first class are kept, the integrand leaves out some of the nine internal Keldysh components of the bubble for each external component. What is left out vanishes identically between bare vertices and integrates to zero between any two vertices of the first class, so that the integral is the full contraction; nothing is left out for differentiated propagators.", "quantifier": "every channel, every external component that is computed, all first-class vertices, all causal propagators, every bosonic frequency", "why_tests_cant": "a test can only evaluate some vertices and frequencies with finite integration limits, where what is left out is small but not zero", "anchors": ["source/bubble/integrand.hpp: Integrand::case_always_has_to_be_zero, Integrand::operator()"]}
{"id": "C105", "title": "The hybrid frequency map is a smooth increasing bijection", "statement": "On the hybrid grid, the map from the auxiliary axis to frequencies is odd, strictly increasing, continuous with continuous slope at both section boundaries, takes the end of the auxiliary axis to the largest frequency, and has the inverse map as its two-sided inverse; a frequency lies in the box exactly if its auxiliary coordinate does.", "quantifier": "every set of parameters with ordered section boundaries, every auxiliary coordinate in the domain and every real frequency", "why_tests_cant": "a property of functions of a real variable with three sections; tests sample some points, mostly away from the section boundaries", "anchors": ["source/grids/frequency_grid.c++: FrequencyGrid<hybridGrid>::frequency_from_t, t_from_frequency, derive_auxiliary_parameters"]}
{"id": "C106", "title": "Look-up on the hybrid grid finds the interval", "statement": "The points of a hybrid grid are strictly increasing from the lower to the upper edge and symmetric about zero for a symmetric grid; looking up any frequency in the box passes all checks and returns the left end of an interval that contains it, and looking up a grid point returns its own index.", "quantifier": "every number of points from two, every valid set of parameters, every frequency in the box", "why_tests_cant": "the conversion to an integer index happens at every grid point, where rounding decides; every number of points and parameter set matters", "anchors": ["source/grids/frequency_grid.c++: FrequencyGrid<hybridGrid>::initialize_grid, get_grid_index"]}
{"id": "C107", "title": "Hybrid grids always have ordered sections", "statement": "Every hybrid grid that is constructed, rescaled or given new section boundaries has section boundaries in order below the largest frequency, so that its points increase up to the largest frequency.", "quantifier": "every kind of grid, every scale, every update of the boundaries", "why_tests_cant": "the order depends on the scale and on the history of updates", "anchors": ["source/grids/frequency_grid.c++: FrequencyGrid<hybridGrid>::guess_essential_parameters", "source/grids/frequency_grid.hpp: FrequencyGrid<hybridGrid>::set_essential_parameters, update_pos_section_boundaries"]}
{"id": "C108", "title": "The angular map is an increasing bijection that fixes the intervals", "statement": "On the angular grid, the map from the auxiliary axis to angles is odd, strictly increasing and a bijection of the real axis whose inverse is the reverse map; it takes the middles and ends of the intervals to the middles and ends of the corresponding intervals of angles, and inside an interval follows the given power law.", "quantifier": "every number of intervals, every power from one, every non-negative linear part, every auxiliary coordinate and every angle", "why_tests_cant": "the map is glued from intervals by rounding; tests sample points but not every interval end, number of intervals and power", "anchors": ["source/grids/frequency_grid.c++: FrequencyGrid<angularGrid>::frequency_from_t, t_from_frequency"]}
{"id": "C109", "title": "An angular grid covers its range and look-up finds the interval", "statement": "The points of an angular grid increase from its lower to its upper edge and look-up of any angle in the range passes all checks and returns the interval that contains it; this holds for every grid that can be constructed and after any change of its parameters.", "quantifier": "every kind and size of grid, every angle in the range, every change of the largest angle, the power or the number of intervals", "why_tests_cant": "depends on the history of parameter changes and on every grid point", "anchors": ["source/grids/frequency_grid.c++: FrequencyGrid<angularGrid>::initialize_grid, get_grid_index, guess_essential_parameters", "source/grids/frequency_grid.hpp: FrequencyGrid<angularGrid>::set_w_upper"]}
{"id": "C110", "title": "Polar frequency coordinates can be converted back and forth", "statement": "Converting two or three frequencies to polar coordinates and back gives the same frequencies, the coordinates lie in the ranges of the grids, and converting the coordinates of any grid point to frequencies and back gives the same grid point, so that a look-up at the frequencies of a grid point reads that grid point.", "quantifier": "all frequencies and all grid points", "why_tests_cant": "a property of all points of the plane and of space, with exceptional sets", "anchors": ["source/utilities/math_utils.c++: K2_convert2internalFreqs, K2_convert2naturalFreqs, K3_convert2internalFreqs, K3_convert2naturalFreqs"]}
{"id": "C111", "title": "Adaptive integration accepts only what passes its error test", "statement": "On a proper interval, what the adaptive integrator returns is either the seven-point rule for the whole interval or a sum of seven-point rules over adjoining subintervals covering it, and every piece passes the error test: the four- and seven-point rules differ by less than the relative tolerance times the estimate of the whole integral. That estimate is the integral for all polynomials of degree up to nineteen, up to the rounding of the tabulated constants; the tolerance is the requested one (at least ten times machine precision), enlarged only when the seven-point rule is the better one; integrands that pass on the whole interval are not subdivided.", "quantifier": "every integrand with values in a normed space, every tolerance, interval and depth of subdivision", "why_tests_cant": "ranges over all integrands and all subdivision trees", "anchors": ["source/integrator/integrator_NR.hpp: Adapt::integrate, Gauss_Lobatto_4, Gauss_Kronrod_7, Gauss_Kronrod_13"]}
{"id": "C112", "title": "Fluctuation-dissipation relations never change a thermal vertex", "statement": "If a vertex is in thermal equilibrium (it obeys the Kubo-Martin-Schwinger condition on the contour and causality), then recomputing its dependent Keldysh components by the multi-point fluctuation-dissipation relations gives back the same vertex: this holds for the first, second and third asymptotic class, in all three channels, in every spin component and at every frequency at which the relation is applied, so the reported deviation is zero.", "quantifier": "all temperatures > 0, all channels, all frequencies, all contour functions satisfying the equilibrium conditions, all buffer sizes", "why_tests_cant": "the relations are checked in the code only by printing norms of differences for computed states, whose deviations mix discretisation errors with formula errors; no test compares the formulas with an exact equilibrium function", "anchors": ["source/postprocessing/causality_FDT_checks.hpp compute_components_through_FDTs, check_FDTs, check_FDTs_K1"]}
{"id": "C113", "title": "Slices at zero transfer frequency follow from the equilibrium conditions", "statement": "For a Hermitian vertex in thermal equilibrium, the components written by the post-processing for zero transfer frequency in the t channel (all sixteen components, reconstructed from a few independent ones) equal the components of the vertex itself.", "quantifier": "all temperatures > 0, all pairs of fermionic frequencies, all Hermitian equilibrium contour functions", "why_tests_cant": "the reconstruction consists of long formulas with hyperbolic functions that are exercised only by writing files", "anchors": ["source/postprocessing/postprocessing.c++: check_FDTs_for_slices_through_fullvertex"]}
{"id": "C114", "title": "At zero temperature only components that vanish are skipped", "statement": "In contour basis at zero temperature the program sets a vertex component to zero exactly if it vanishes in the zero-temperature limit of thermal vertices, that is if the legs on the backward branch carry a negative total frequency.", "quantifier": "all channels, all frequencies, all sixteen components, all sequences of thermal vertices with temperature going to zero", "why_tests_cant": "a wrongly skipped component changes results only at isolated frequencies and looks like a smooth vertex elsewhere", "anchors": ["source/correlation_functions/four_point/r_vertex.hpp is_zero_due_to_FDTs"]}
{"id": "C115", "title": "The comparison with the fluctuation-dissipation relations notices violations", "statement": "If the comparison reports no deviation, the relation between the Keldysh and the retarded component holds for every spin component and every bosonic frequency of the vertex.", "quantifier": "all vertices, spin components, frequencies, temperatures > 0", "why_tests_cant": "a check that inspects only part of the data still reports small numbers for correct states", "anchors": ["source/postprocessing/causality_FDT_checks.hpp compute_components_through_FDTs, compare_with_FDTs"]}
{"id": "C116", "title": "Checks of the self-energy report exactly the physical conditions", "statement": "The self-energy recomputed by the fluctuation-dissipation theorem equals the given one exactly if the theorem holds on the whole grid; the retarded part is never changed; the causality check reports success exactly if the imaginary part of the retarded self-energy is nowhere positive, and in the Matsubara formalism exactly if it has the sign opposite to the frequency.", "quantifier": "all self-energies (including not-a-number entries), grids, numbers of internal indices", "why_tests_cant": "not-a-number entries and internal indices do not occur in the tested states", "anchors": ["source/postprocessing/causality_FDT_checks.hpp check_SE_causality, check_FDTs_selfenergy"]}
{"id": "C117", "title": "The integrated Ward identity measures the deviation", "statement": "The reported relative deviation from the Ward identity -2 Im Sigma = Phi is the integral of the difference of both sides divided by the integral of the left-hand side; it vanishes for an exact solution.", "quantifier": "all functions Phi, all self-energies, all grids, all integration routines", "why_tests_cant": "the number is written to a file and only inspected by eye", "anchors": ["source/postprocessing/postprocessing.hpp Integrand_Ward_id_integrated, source/postprocessing/postprocessing.c++ compute_Phi_tilde"]}
{"id": "C118", "title": "Post-processing visits every completed layer of a flow once", "statement": "Every loop of the post-processing over the layers of a flow visits all completed layers including the last one, only these, and writes its numbers to different positions of the output.", "quantifier": "all numbers of completed layers including none, all numbers of internal indices", "why_tests_cant": "the last layer and flows that failed in the first step are not distinguished by tests on stored files", "anchors": ["source/postprocessing/postprocessing.c++ compute_Phi_tilde, sum_rule_K1tK, check_Kramers_Kronig, compute_postprocessed_susceptibilities, source/postprocessing/causality_FDT_checks.c++ compare_flow_with_FDTs"]}
{"id": "C119", "title": "Cubic splines of one, two and three frequencies interpolate the stored values and slopes", "statement": "For an array with one, two or three adjacent frequency axes at any position among its other axes, the spline evaluated in a cell is the (nested) cubic Hermite interpolation of the values and derivatives stored at the corners of this cell, with all other indices fixed: it returns the stored value at every grid point, and neighbouring cells agree on their whole common edge or face. Evaluation before initialisation stops with an assertion.", "quantifier": "all array shapes, positions of the frequency axes, grids with distinct neighbouring points, data and slopes, cells and points", "why_tests_cant": "The 64x64 and 16x16 coefficient tables and the rotation of flat indices have to be right for every entry, shape and axis position; tests try one shape and a few points.", "anchors": ["source/interpolations/InterpolatorSpline1D.hpp:set_coeffs_from_b", "source/interpolations/InterpolatorSpline1D.hpp:interpolate_spline", "source/interpolations/InterpolatorSpline2D.hpp:get_coeffs_from_derivs", "source/interpolations/InterpolatorSpline3D.hpp:get_coeffs_from_derivs"]}
{"id": "C120", "title": "Cubic splines reproduce cubic polynomials of the auxiliary coordinate", "statement": "If the data are a polynomial of degree at most three in each auxiliary coordinate, then the initialised spline returns this polynomial everywhere on the grid.", "quantifier": "all polynomials of degree at most three, all grids and shapes", "why_tests_cant": "Needs exactness for all coefficients, spacings and positions, including the derivatives supplied to the spline.", "anchors": ["source/interpolations/InterpolatorSpline1D.hpp:initInterpolator", "source/interpolations/InterpolatorSpline2D.hpp:initInterpolator", "source/correlation_functions/n_point/data_container.hpp:get_deriv_x", "source/utilities/math_utils.hpp:partial_deriv"]}
{"id": "C121", "title": "Moving stored data to another frequency grid", "statement": "After changing the frequency grid every entry is the interpolated value of the old data at the frequencies of the new grid point, whatever the order of the threads; the values lie within the range of the old data; moving to the same grid changes nothing; moving in several steps is the same as moving at once when the intermediate grid contains the points.", "quantifier": "all shapes, data, pairs of grids, interpolation methods and thread schedules", "why_tests_cant": "Needs all thread interleavings and all data; the failing entries are the outermost grid points only.", "anchors": ["source/correlation_functions/n_point/data_buffer.hpp:update_grid", "source/grids/frequency_grid.hpp:get_grid_index"]}
{"id": "C122", "title": "Tails beyond the frequency box at finite temperature", "statement": "Beyond the frequency box of an imaginary-frequency calculation at finite temperature the self-energy and the vertex continue the value stored at the nearest end of the box by a power law (1/w for the self-energy, 1/w^2 per frequency for the vertex) and agree with the stored value at the end of the box.", "quantifier": "all data, boxes, and frequencies outside of the box", "why_tests_cant": "Tests use symmetric data and sample few frequencies; the property concerns all data and both ends of the box.", "anchors": ["source/correlation_functions/n_point/data_buffer.hpp:interpolate", "source/utilities/math_utils.c++:signFlipCorrection_MF_int"]}
{"id": "C123", "title": "Share of the tails and shrinking of the frequency box", "statement": "The tail check reports the largest modulus on an outer slice relative to the largest modulus of all data, a number between zero and one, independently of the thread schedule; shrinking the box with a threshold removes the outer points whose relative values lie below the threshold and no others.", "quantifier": "all data, shapes, axes, thresholds and schedules", "why_tests_cant": "Quantifies over all data and thread schedules.", "anchors": ["source/correlation_functions/n_point/data_container.hpp:analyze_tails", "source/correlation_functions/n_point/data_container.hpp:shrink_freq_box", "source/correlation_functions/n_point/data_container.hpp:shrink_freq_box_impl"]}
{"id": "C124", "title": "Measures of roughness used to optimise grids", "statement": "The slope and the curvature that the grid optimisation minimises are the largest sums of squared moduli of first and second derivatives in units of the largest modulus; they vanish only if the derivatives vanish and are defined for all data.", "quantifier": "all shapes and complex data", "why_tests_cant": "Tests with real data or one frequency cannot reveal cancellations between complex derivatives.", "anchors": ["source/correlation_functions/n_point/data_container.hpp:get_deriv_max", "source/correlation_functions/n_point/data_container.hpp:get_curvature_max"]}
{"id": "C125", "title": "Flow driver on top of the Boost steppers stays in its interval and terminates", "statement": "A run of the Boost-based flow solver moves monotonically from the initial to the final flow parameter, never leaves that interval (up to the comparison tolerance), records every flow parameter it reached, makes at most the allowed number of steps without writing outside of its list, and ends either at the final flow parameter or at the step limit; it is aborted only if no trial step was accepted.", "quantifier": "all steppers with the documented behaviour, all directions, parametrisations, checkpoints and limits", "why_tests_cant": "Ranges over all behaviours of the adaptive stepper and all limits; the failing cases need a success in the very last allowed trial.", "anchors": ["source/ODE_solvers/ODE_solvers.hpp:integrate_adaptive_check", "source/ODE_solvers/ODE_solvers.hpp:ode_solver_boost"]}
{"id": "C126", "title": "Checkpoints, step sizes and resumption in the Boost-based flow driver", "statement": "No accepted step passes a checkpoint; a step interrupted by a checkpoint does not impair the step-size control afterwards; a resumed run continues at the flow parameter where it stopped.", "quantifier": "all checkpoint lists, steppers, histories", "why_tests_cant": "Depends on the history of the run (flags set by earlier checkpoints) and on the order of the list of checkpoints.", "anchors": ["source/ODE_solvers/ODE_solvers.hpp:integrate_adaptive_check", "source/ODE_solvers/ODE_solver_config.hpp:ODE_solver_config"]}
{"id": "C127", "title": "Calculating the fundamental sector and completing by symmetry gives the full diagram", "statement": "When a diagram is calculated, only the entries of the fundamental symmetry sector are integrated, and the remaining ones are filled in afterwards from these by the symmetry transformations. For a diagram with the physical symmetries the completed vertex equals, in every entry, the vertex obtained by integrating every entry directly. The same holds for the sum of a left and a right part of which only the sum has the mirror symmetry, provided that the parts are reordered or added before they are used; a single part, used on its own before that, need not agree.", "quantifier": "every channel, diagrammatic class, frequency grid symmetric about zero, spin and contour index, every diagram with the physical symmetries, and every order in which the threads fill in entries", "why_tests_cant": "The completion acts on every entry of grids of any size through several interlocking tables, and its threads read and write the same buffer in an arbitrary order; a test compares a few entries of one diagram for one order.", "anchors": ["source/bubble/bubble_function.hpp:get_trafo_K1,get_trafo_K2,get_trafo_K3,calculate_bubble_function", "source/correlation_functions/four_point/r_vertex.hpp:enforce_freqsymmetriesK1,enforce_freqsymmetriesK2,enforce_freqsymmetriesK3", "source/correlation_functions/four_point/vertex.hpp:reorder_due2antisymmetry"]}
{"id": "C128", "title": "Every integral is stored in the entry it belongs to", "statement": "The bubble calculation numbers the entries of a diagrammatic class consecutively, distributes the numbers over processes and threads, integrates one number at a time (for several contour components or fermionic frequencies at once when vectorised) and stores the results. Afterwards every entry of the result vertex that was to be calculated holds the integral with exactly the spin, contour, frequency and internal indices of that entry, and no entry is written twice with different values, for any number of processes and any schedule. This needs a single internal index and, with vectorised imaginary-frequency integration, an even number of fermionic frequencies.", "quantifier": "every diagrammatic class, grid size, number of processes, assignment of indices to processes and vectorisation mode", "why_tests_cant": "The layout arithmetic is correct or wrong for all sizes at once, but the shipped tests run one process with one grid size, where several of the possible mistakes cannot be seen.", "anchors": ["source/bubble/bubble_function.hpp:calculate_bubble_function,get_value,calculate_value,write_out_results_K1,write_out_results_K2,write_out_results_K2b,write_out_results_K3,convert_external_MPI_OMP_indices_to_physical_indices_K1", "source/mpi_setup.hpp:mpi_reorder_result"]}
{"id": "C129", "title": "The tails of the self-energy loop are the contribution of the frequencies outside of the box", "statement": "The closed expressions that complete the loop integral for frequencies below vmin and above vmax equal the symmetric limit of the integral of the non-interacting (single-scale or full) propagator over these frequencies, for every Keldysh component at zero temperature and for Matsubara propagators with and without particle-hole symmetry; with a vertex that has reached its asymptotic value, the correction assembled from them is the outside part of the loop integral, with the bare vertex counted once. At finite temperature the value used for the Keldysh component is wrong by at most an amount exponentially small in the distance of the edges of the box from the chemical potential in units of the temperature.", "quantifier": "all levels, hybridisations, boxes around the level, Keldysh components, propagator types and asymptotic vertices", "why_tests_cant": "An improper integral of a slowly decaying complex function is compared with logarithms whose branch depends on the parameters; a finite set of numbers cannot distinguish the correct branch and prefactor for all of them.", "anchors": ["source/loop/loop_corrections.hpp:correctionFunctionSelfEnergy_Keldysh", "source/asymptotic_corrections/correction_functions.hpp:asymp_corrections_loop", "source/loop/integrandSE.hpp:Matsubara_value"]}
{"id": "C130", "title": "The tail of a bubble with its vertices is the contribution of the frequencies outside of the box", "statement": "If the tail of the pair of propagators is exact and both vertices are constant outside of the box, the correction built from the vertices at the frequency that stands for infinity is the outside part of the integral of the full bubble integrand, for every diagrammatic class, channel, spin component and decomposition; replacing the closed expression by quadrature over integer frequencies gives the same completion.", "quantifier": "all pairs of propagators, vertices, boxes, temperatures, classes, channels and spin components", "why_tests_cant": "The statement compares improper integrals for arbitrary asymptotic vertices, and the two completion methods are compile-time alternatives that are never run against each other.", "anchors": ["source/asymptotic_corrections/correction_functions.hpp:asymp_corrections_bubble", "source/bubble/bubble_function.hpp:BubbleFunctionCalculator::get_value", "source/integrator/integrator.hpp:integrator_onlyTails"]}
{"id": "C131", "title": "Joining single-boson-exchange objects sums over the internal legs", "statement": "The functions that build K2, K2b and the twice reducible part out of a vertex and a boson return, at every entry of the table and in the Keldysh order of the bubble they are built for, the two objects summed over the internal legs of the channel of the vertex: vertex left of the boson for K2, right of it for K2b, K2 left of the second vertex for the third, on both sides of the bubble; for imaginary frequencies the product. Unpacking a flat index with one dimension left out visits every entry with zero in that dimension exactly once.", "quantifier": "all tables, bubble channels, vertex channels, sides, Keldysh components and vertex values", "why_tests_cant": "Two index rotations, a column-major reshaping and a transposed product have to cancel for each of 3 x 3 x 2 template instances; a test on one instance or with symmetric data passes with a wrong order.", "anchors": ["source/correlation_functions/four_point/r_vertex.hpp:combine_SBE_to_K2", "source/correlation_functions/four_point/r_vertex.hpp:combine_SBE_to_K2b", "source/correlation_functions/four_point/r_vertex.hpp:combine_SBE_to_K3_SBE", "source/utilities/math_utils.hpp:getMultIndexSkippingOneDimension"]}
{"id": "C132", "title": "A vertex assembled from single-boson-exchange parts has the right spin structure, and its derivative obeys the product rule", "statement": "After the expansion in the single-boson-exchange decomposition the direct, exchange and equal-spin components of K2, K2b and the twice reducible part of every channel are the spin sums of vertex, boson and second vertex joined in this order (twice or four times the stored value is the full sum in channel p), the channel of the bubble is left untouched unless the full vertex is requested, and for a differentiated vertex the result is the derivative of the result for the vertex.", "quantifier": "all parts in any ring (matrices of the Keldysh contour or numbers), bubble channels, channels and spin components", "why_tests_cant": "The result depends on the order in which buffers are overwritten; the identities must hold for non-commuting values.", "anchors": ["source/correlation_functions/four_point/vertex.hpp:construct_SBE_nondiff_K2", "source/correlation_functions/four_point/vertex.hpp:construct_SBE_diff_K3_SBE", "source/correlation_functions/four_point/vertex.hpp:GeneralVertex::symmetry_expand"]}
{"id": "C133", "title": "Preparing a vertex for a bubble or a loop does not change it", "statement": "Before a bubble or a self-energy loop is computed, the vertex is evaluated at all grid points and stored anew with its Keldysh components in the order needed for matrix products. Reading the prepared vertex, or any of its parts (with or without dependence on the left or right fermionic frequency), at any frequency returns what the stored vertex returns for the component with the legs exchanged accordingly; the two spin components and their sum are available, the bare interaction being +U, -U and 0; parts declared vanishing read as zero and all others are unaffected; any other request stops the program.", "quantifier": "every vertex, channel, side, class of diagrams, Keldysh component, spin and frequency; every interpolation which is exact at grid points and additive; every set of parts declared vanishing", "why_tests_cant": "The prepared copy exists only inside a bubble computation and is read at frequencies between the grid points; tests compare bubbles for a few vertices, in which all channels have the same grid.", "anchors": ["source/correlation_functions/four_point/r_vertex.hpp: rvert::symmetry_expand, valsmooth_symmetry_expanded", "source/correlation_functions/four_point/vertex.hpp: fullvert::symmetry_expand, GeneralVertex::symmetry_expand, symmetry_expand_impl, *_symmetry_expanded, set_to_zero_in_integrand"]}
{"id": "C134", "title": "The symmetry check and what a clean report means", "statement": "With debugging of symmetries enabled, the symmetry check of a vertex completes without failing for every entry of every class and channel; for a vertex that has crossing, conjugation and particle-hole (or time-reversal) symmetry, on symmetric grids that are the same for all channels, every deviation is exactly zero. A deviation of a second-spin entry is the violation of crossing symmetry at that entry, one of K2b is the difference to the mirrored K2 entry, and one of a first-spin entry is the difference to what the symmetrisation would write there. The printed number is zero exactly if all deviations are, and bounds all of them. (That a clean report implies a symmetric vertex, and that a missing class is reported, is refuted.)", "quantifier": "every vertex, formalism, channel, class, entry, symmetric grid and schedule of the symmetrisation it is compared with", "why_tests_cant": "A test can only feed particular vertices; whether symmetric vertices always pass, which relations are compared, and which violations pass unnoticed are statements about all of them.", "anchors": ["source/correlation_functions/four_point/r_vertex.hpp: rvert::check_symmetries, rvert::symmetry_reduce, rvert::read_symmetryreduced_rvert", "source/correlation_functions/four_point/vertex.hpp: fullvert::check_symmetries", "source/symmetries/symmetry_table.hpp: Transformations, FrequencyTransformations"]}
{"id": "C135", "title": "The Ward identity is tested on every saved layer", "statement": "For a result file the test of the Ward identity writes tables of the frequencies, of minus twice the imaginary part of the retarded self-energy and of the right-hand side, for every saved layer in the layout layer, frequency, internal index, and for every layer the relative deviation of the two sides integrated over the frequency grid, which is zero when the identity holds.", "quantifier": "all numbers of layers, frequencies and internal indices, all last saved layers, all values at the layers, all integrators, all grids", "why_tests_cant": "The reported deviation is a plausible number of order one for any input, and with one internal index wrong strides are invisible; that a layer is missing shows only in the last slot of a table that is zero anyway for unfinished runs.", "anchors": ["source/postprocessing/postprocessing.c++ compute_Phi_tilde", "source/postprocessing/postprocessing.hpp Integrand_Ward_id_integrated"]}
{"id": "C136", "title": "Post-processed susceptibilities close the vertex with two bare vertices", "statement": "The susceptibility of every channel computed after the run is the bare bubble plus the full vertex between two bubbles closed with bare vertices in the same channel; the other channels do not contribute, the two implementations agree in both formalisms, the second-order variant adds the correction of one line of the bare bubble, and the reported difference is the first class of the vertex minus the susceptibility.", "quantifier": "all vertices, all bubbles (additive, with the asymptotic behaviour of the first class), all channels, both storage modes", "why_tests_cant": "The intermediate vertex contains all channels at once, and the factor of the bare vertex differs between the formalisms; a test fixes one formalism and one vertex.", "anchors": ["source/postprocessing/postprocessing.c++ compute_postprocessed_susceptibilities, compute_proprocessed_susceptibilities_PT2", "source/perturbation_theory_and_parquet/parquet_solver.hpp susceptibilities_postprocessing"]}
{"id": "C137", "title": "Post-processing visits every saved layer once and no other", "statement": "Each of the functions that process a result file layer by layer reads exactly the layers 0 to the last saved one, each once, and never a layer that the file does not have; a slice through the full vertex holds all sixteen Keldysh components.", "quantifier": "all numbers of layers in the file, all last saved layers including none", "why_tests_cant": "Loop bounds with signed and unsigned counters and hard-wired layer lists are right for the file sizes they were written for; the property is about every size.", "anchors": ["source/postprocessing/postprocessing.c++ sum_rule_K1tK, check_Kramers_Kronig, compute_postprocessed_susceptibilities, save_slices_through_fullvertex, compute_Phi_tilde"]}
{"id": "C138", "title": "Saved intermediate results are those of the first evaluation of the flow", "statement": "When saving of intermediate results is requested, the first evaluation of the flow equations leaves in the directory, for each of its self-energy iterations, the one-loop derivative, the left and right parts of every loop order from two on and both forms of the central part of every order from three on up to the order at which the iteration ended, each with the self-energy derivative of this iteration, and the self-energy correction; the result of the evaluation does not depend on saving, no other file is touched, and no later evaluation of the flow, nor a flow that is continued from a file, changes these files, with either of the drivers.", "quantifier": "all diagrams (functions of vertices and self-energies), all numbers of loops, tolerances and self-energy iterations, all directory contents, all numbers of stages, steps and attempts, all starting iterations", "why_tests_cant": "The lists of recorded parts are offset against each other and cut off by a tolerance that depends on the numbers; which evaluation saves depends on counters that two drivers and all rejected attempts update.", "anchors": ["source/mfRG_flow/right_hand_sides.hpp: mfRG_record::save_states, rhs_n_loop_flow, rhs_n_loop_flow_t", "source/ODE_solvers/ODE_solvers.hpp: rkqs, ode_solver, integrate_adaptive_check"]}
{"id": "C139", "title": "The multi-loop flow follows the parquet solution", "statement": "For a vertex that solves the parquet (Bethe-Salpeter) equations, the vertex derivative returned by the right-hand side of the multi-loop flow is the sum of loop orders containing exactly one, two, ... bubbles; whenever this sum converges its limit satisfies the parquet equations differentiated with respect to the flow parameter, and it is the derivative of the vertex along every differentiable family of solutions, with an error at finite loop order that decreases geometrically for small bubbles. If only one channel has bubbles the one-loop flow is already exact. A contribution below the loop tolerance ends the sum.", "quantifier": "all vertices, bubbles, differentiated bubbles, loop numbers, tolerances and self-energy derivatives", "why_tests_cant": "The cancellation between left, right and central parts of different loop orders holds only for the infinite sum; a test sees finite sums of rounded numbers and cannot distinguish a missing diagram from truncation.", "anchors": ["source/mfRG_flow/right_hand_sides.hpp:rhs_n_loop_flow", "source/mfRG_flow/right_hand_sides.hpp:vertexOneLoopFlow", "source/mfRG_flow/right_hand_sides.hpp:calculate_dGammaL", "source/mfRG_flow/right_hand_sides.hpp:calculate_dGammaR", "source/mfRG_flow/right_hand_sides.hpp:calculate_dGammaC_right_insertion", "source/mfRG_flow/right_hand_sides.hpp:calculate_dGammaC_left_insertion"]}
{"id": "C140", "title": "The corrected self-energy flow is consistent with its own propagator derivative", "statement": "One-loop self-energy flow plus multi-loop correction is the unique self-energy derivative that equals the loop of the vertex irreducible in channel t with the full derivative of the propagator (including the self-energy derivative itself) plus the loop of the propagator with the central part of the vertex derivative; without correction the same holds with the second term missing. The vertex handed to the correction is the central part of the vertex derivative summed over loop orders.", "quantifier": "all vertices that solve the parquet equations, propagators, central parts, loop numbers and self-energy iterations", "why_tests_cant": "An implicit equation for the result, in which the result enters through the propagator derivative; a dropped extension term changes the result only at higher order.", "anchors": ["source/mfRG_flow/right_hand_sides.hpp:selfEnergyOneLoopFlow", "source/mfRG_flow/right_hand_sides.hpp:selfEnergyFlowCorrections", "source/mfRG_flow/right_hand_sides.hpp:rhs_n_loop_flow"]}
{"id": "C141", "title": "The occupation from the real axis is the Fermi-weighted Lorentzian and the Hartree value solves its equation", "statement": "For a level with constant self-energy the occupation integrated by the code exists and equals, up to a stated quadrature error, the integral of the Fermi function times the Lorentzian of the level's width. It lies strictly between 0 and 1, decreases strictly with the level's energy, is one half for a level at zero energy, and at zero temperature is given by the Friedel sum rule 1/2 - arctan(e/Delta)/pi. For every repulsive interaction exactly one occupation is consistent with the Hartree shift it causes, and the bisection finds it to its threshold even if each occupation carries an error; the check of the sum rule accepts exactly occupations within its tolerance. With the single-scale propagator the integral is the derivative of the occupation, and the lesser component gives the same occupation.", "quantifier": "all levels, widths, temperatures (including zero), interactions, frequencies and thresholds", "why_tests_cant": "Existence and uniqueness of a self-consistent value and an identity between improper integrals hold for real parameters; a test compares a few rounded integrals.", "anchors": ["source/perturbation_theory_and_parquet/hartree_term.c++:compute_filling_oneshot", "source/perturbation_theory_and_parquet/hartree_term.c++:compute_Hartree_term_bracketing", "source/perturbation_theory_and_parquet/hartree_term.c++:operator()", "source/perturbation_theory_and_parquet/hartree_term.c++:friedel_sum_rule_check", "source/correlation_functions/two_point/propagator.hpp:GR"]}
{"id": "C142", "title": "The occupation does not depend on the formalism", "statement": "The occupation of a level computed from imaginary frequencies is the one computed from real frequencies: at zero temperature the integral over imaginary frequencies plus one half gives the real-axis occupation up to the quadrature error, at finite temperature the temperature times the sum over all fermionic frequencies plus one half gives it exactly, and the value the code returns from finitely many frequencies and the two tail integrals agrees with it up to the difference of neighbouring tails.", "quantifier": "all levels, widths, positive temperatures, Hartree shifts and numbers of frequencies", "why_tests_cant": "The formalisms are chosen at compile time, so no test binary can compare them, and the sum over poles is infinite.", "anchors": ["source/perturbation_theory_and_parquet/hartree_term.c++:compute_filling_oneshot", "source/perturbation_theory_and_parquet/hartree_term.c++:operator()", "source/asymptotic_corrections/correction_functions.hpp:asymp_corrections_bubble_via_quadrature", "source/integrator/integrator.hpp:integrator_onlyTails"]}
{"id": "C143", "title": "The multi-loop flow preserves the parquet equations", "statement": "If the vertex satisfies the parquet equations at the start of the flow and flows with the converged right-hand side, it satisfies them at every later scale, from the left and from the right. For any vertex the defect in these equations obeys a linear equation, so that it is bounded by the defect at the start and the error of the right-hand side; with finitely many loop orders the error is bounded by the last two contributions.", "quantifier": "all bubbles, irreducible vertices and scales on an interval, all flows and all numbers of loops", "why_tests_cant": "tests compare a flow and a parquet solution at a few scales within numerical error", "anchors": ["source/mfRG_flow/right_hand_sides.hpp:rhs_n_loop_flow", "source/mfRG_flow/right_hand_sides.hpp:vertexOneLoopFlow", "source/mfRG_flow/right_hand_sides.hpp:calculate_dGammaL", "source/mfRG_flow/right_hand_sides.hpp:calculate_dGammaR", "source/mfRG_flow/right_hand_sides.hpp:calculate_dGammaC_right_insertion"]}
{"id": "C144", "title": "The Bethe-Salpeter step finds solutions of the parquet equations", "statement": "One parquet iteration replaces each reducible part by the mean of the Bethe-Salpeter equation with the irreducible vertex on the left and on the right. Vertices that the iteration does not change are the solutions of the parquet equations. At weak coupling there is exactly one solution of the size of the interaction, the iteration approaches it geometrically for any mixing factor, and the solver reports convergence once enough iterations are allowed.", "quantifier": "all interactions, bubbles, start vertices, mixing factors and accuracies", "why_tests_cant": "a test sees finitely many iterations for one interaction and cannot exclude fixed points that are no solutions", "anchors": ["source/perturbation_theory_and_parquet/parquet_solver.hpp:compute_BSE", "source/perturbation_theory_and_parquet/parquet_solver.hpp:parquet_iteration", "source/perturbation_theory_and_parquet/parquet_solver.hpp:parquet_solver"]}
{"id": "C145", "title": "The Keldysh component tables of the boson-exchange decomposition describe its three-point vertices", "statement": "With the boson-exchange decomposition the tables that relate the 16 Keldysh components of the three-point vertices to stored ones are complete and correct: every entry is 'vanishing' or one of the independent components and each of those occurs; the vanishing entries are exactly those excluded by causality for a vertex whose second pair of legs is joined to a boson rather than to a bare vertex; two components share a stored one exactly if a symmetry relates them; the listed transformation leads to the stored spin component with the same independent component; the list of computed indices has one index per stored component, in the table's order; and joining such a vertex to a boson gives a function that vanishes where the class K2 has to vanish.", "quantifier": "all channels, classes, spin components and Keldysh indices; all values of the vertices", "why_tests_cant": "tests compare a few components of one perturbative vertex; a wrong entry that coincides at particle-hole symmetry, or one that is never read in the tested configuration, stays unnoticed", "anchors": ["source/symmetries/symmetry_table.hpp:Components_Keldysh_a_channel, Components_Keldysh_p_channel, Components_Keldysh_t_channel (SBE_DECOMPOSITION)", "source/symmetries/Keldysh_symmetries.hpp:non_zero_Keldysh_K2a, non_zero_Keldysh_K2p, non_zero_Keldysh_K2t"]}
{"id": "C146", "title": "Imaginary-frequency grids hold exactly the Matsubara frequencies", "statement": "At finite temperature on the imaginary axis, each frequency grid consists of exactly the Matsubara frequencies of its kind (even multiples of pi T for bosonic, odd ones for fermionic axes) up to its limit, once each and in increasing order, whatever the regulator. Reading a one-, two- or three-frequency object at Matsubara frequencies returns the stored entry of exactly these frequencies if they lie on the grid and zero otherwise; for the two-frequency class, the fermionic frequencies that are read are exactly those whose image under the sign flip is on the grid as well.", "quantifier": "every value of the size parameter, every number of points of the right parity, every regulator, every stored data, every Matsubara frequency (and, for one frequency, every deviation below the tolerance)", "why_tests_cant": "A test reads a handful of points of one grid size; an off-by-one in the truncating index, a wrong parity of the number of points or an asymmetric box shows only at particular frequencies, classes or sizes.", "anchors": ["source/grids/frequency_grid.hpp: is_in_box, DENSEGRID", "source/grids/frequency_grid.c++: initialize_grid, guess_essential_parameters, get_grid_index", "source/parameters/frequency_parameters.hpp: nBOS, nFER", "source/correlation_functions/n_point/data_buffer.hpp: interpolate_impl", "source/interpolations/InterpolatorLinOrSloppy.hpp: interpolate_nearest1D, interpolate_nearest2D, interpolate_nearest3D"]}
{"id": "C147", "title": "Checks of a list of frequencies find repetitions and asymmetry", "statement": "The check used when a grid is built reports a repeated frequency whenever there is one, and the measure of asymmetry is zero exactly for lists mirrored at zero.", "quantifier": "every list of frequencies", "why_tests_cant": "The lists tested are short, ordered and of ordinary length; the gaps are unordered lists, single frequencies and the empty list.", "anchors": ["source/utilities/math_utils.c++: is_doubleOccurencies, is_symmetric"]}
{"id": "C148", "title": "The bubble computation delivers the diagram in every entry, however it is distributed", "statement": "Computing a bubble (calculating the entries that symmetry does not give, distributed over processes and threads, collecting them, reordering, and completing the rest by symmetry) succeeds and puts into every entry of the result the diagram of exactly the spin component, frequencies and Keldysh indices of that entry, provided the diagrams have the physical symmetries. The result does not depend on the number of processes and nodes, on the assignment of work to threads or on the order in which entries are completed. The grids the code builds satisfy what this requires.", "quantifier": "every class and channel, every symmetry configuration, every number of processes and nodes, every thread schedule, every order of completion, every pair of frequency grids with positive width and scale and at least two points, every content of memory next to the grids", "why_tests_cant": "A test runs one distribution and compares with one saved result; an entry that is computed by the wrong process, written to the wrong place after the reordering or completed from a neighbour changes few numbers and only for some sizes.", "anchors": ["source/bubble/bubble_function.hpp: BubbleFunctionCalculator::perform_computation, calculate_bubble_function, calculate_value", "source/bubble/integrand.hpp: Integrand", "source/utilities/mpi_setup.hpp: mpi_reorder_result", "source/correlation_functions/four_point/r_vertex.hpp: enforce_freqsymmetriesK1", "source/symmetries/symmetry_table.hpp", "source/correlation_functions/four_point/vertex.hpp: rvert"]}
{"id": "C149", "title": "The diagrams have the symmetries by which they are completed", "statement": "If two vertices obey the crossing, conjugation and (when in use) particle-hole relations and the propagators have the properties of propagators, then the bubble made of them in any channel obeys the same relations, for ordinary and differentiated pairs of propagators. What the code integrates for an entry is that bubble. Hence completing the calculated entries by symmetry gives exactly what calculating all entries would give.", "quantifier": "all vertices with the symmetries, all propagators with anti-Hermitian Keldysh component (and particle-hole symmetric ones where that symmetry is used), every channel, class, spin component, Keldysh index and frequency", "why_tests_cant": "The symmetry relations hold between integrals of functions that are only known numerically; tests compare a few entries of a converged calculation within tolerances, where a wrong sign in a small component goes unnoticed.", "anchors": ["source/bubble/integrand.hpp: Integrand::load_vertex_keldyshComponents_left_vectorized", "source/bubble/bubble.hpp: convert_to_fermionic_frequencies_1, convert_to_fermionic_frequencies_2, value", "source/bubble/bubble_function.hpp: calculate_value", "source/symmetries/symmetry_transformations.hpp: T1, T2, TC, Tph", "source/symmetries/symmetry_table.hpp"]}
{"id": "C150", "title": "The flow keeps the symmetries of the state", "statement": "Starting from a state whose vertex has crossing symmetry, conjugation symmetry and (if configured) particle-hole symmetry and whose self-energy has an anti-Hermitian Keldysh component (and the particle-hole symmetry of the level), every evaluation of the n-loop right-hand side delivers a differentiated vertex with the same symmetries which equals its own mirror image, so that storing one half is sufficient, and a differentiated self-energy with the same symmetries; every Runge-Kutta step with any tableau and any parametrisation, and hence the whole flow, keeps the state symmetric.", "quantifier": "all numbers of loops, self-energy iterations, convergence tolerances and norms (including NaN), all Runge-Kutta tableaus, step sizes and numbers of steps, all symmetric starting states, all interaction strengths and temperatures", "why_tests_cant": "Tests compare a handful of symmetry-related entries after one evaluation; that no order of the multiloop series, no insertion with exchanged halves and no step ever breaks a relation is a statement about all of them.", "anchors": ["source/mfRG_flow/right_hand_sides.hpp: rhs_n_loop_flow, calculate_dGammaL, calculate_dGammaR, calculate_dGammaC_right_insertion, calculate_dGammaC_left_insertion, selfEnergyFlowCorrections", "source/loop/loop.hpp: loop", "source/bubble/bubble_function.hpp", "source/ODE_solvers/ODE_solvers.hpp: rk_step", "source/correlation_functions/four_point/vertex.hpp: GeneralVertex half1, half2"]}
{"id": "C151", "title": "A run depends on its own parameters, not on what was run before", "statement": "The state from which a flow starts is determined by the parameters of the run: it is the parquet solution obtained from the second-order state for these parameters, whatever was calculated before in the same directory. A scan of the parquet equations that overwrites old results leaves files whose contents do not depend on earlier files.", "quantifier": "every sequence of earlier runs with any parameters, every build, all physics (initial states, parquet equations) and contents of the disk", "why_tests_cant": "Unit tests start in clean directories; the dependence on files left by earlier runs with other parameters is a property of histories.", "anchors": ["source/mfRG_flow/flow.c++: n_loop_flow", "source/perturbation_theory_and_parquet/parquet_solver.hpp: parquet_solver", "source/perturbation_theory_and_parquet/parquet_solver.c++: run_parquet", "source/main.cpp: main"]}
{"id": "C152", "title": "A parquet scan leaves one converged result for every interaction", "statement": "After a scan over a list of interactions every value that corresponds to an admissible flow parameter has its own result file, named after the value, with the final state; a result that is not converged is recognisable.", "quantifier": "every list of interaction values, in any order, every build and configuration, all parquet equations", "why_tests_cant": "A test with one or two well separated values in ascending order does not see lost values; the order, the rounding of the names and missing convergence matter for arbitrary lists.", "anchors": ["source/perturbation_theory_and_parquet/parquet_solver.c++: run_parquet", "source/grids/flow_grid.c++: get_Lambda_checkpoints", "source/utilities/hdf5_routines.hpp: write_state_to_hdf"]}
{"id": "C153", "title": "The command line selects the calculation it names or is refused", "statement": "For every command line the program either refuses it or performs exactly the calculation that the first argument names, with the numbers given; the reported computing time is the elapsed time multiplied by the number of processes and threads.", "quantifier": "every list of arguments, every build, every number of processes and threads", "why_tests_cant": "The set of command lines is infinite, and malformed ones are not part of tests.", "anchors": ["source/main.cpp: main", "source/utilities/util.c++: check_input, get_cpu_hours"]}
{"id": "C154", "title": "Relative deviation of self-energies", "statement": "The relative deviation between a self-energy difference and a reference is below a tolerance exactly if every stored value and the Hartree value deviate by less than that fraction of the reference; identical self-energies deviate by zero.", "quantifier": "all self-energies (arrays of any length, any Hartree values), all positive tolerances", "why_tests_cant": "The criterion decides when the self-energy iterations of the flow and of the parquet solver stop; division by a vanishing reference only occurs for particular inputs", "anchors": ["source/correlation_functions/two_point/selfenergy.hpp: SelfEnergy::rel_deviation_to", "source/mfRG_flow/right_hand_sides.hpp:462,496,519,535", "source/perturbation_theory_and_parquet/parquet_solver.hpp:611"]}
{"id": "C155", "title": "The particle-hole check of the self-energy reports every violation", "statement": "The deviation printed by check_symmetries of a self-energy is at most delta exactly if the self-energy is particle-hole symmetric up to delta at all frequencies of its grid, for all components and internal indices.", "quantifier": "all self-energies, grids, numbers of internal indices, all delta", "why_tests_cant": "A check that passes proves nothing about what it does not look at; only quantifying over all data shows what it covers", "anchors": ["source/correlation_functions/two_point/selfenergy.hpp: SelfEnergy::check_symmetries"]}
{"id": "C156", "title": "Iterating the Schwinger-Dyson equation inside the flow", "statement": "With the self-energy flow taken from the Schwinger-Dyson equation, the equation is iterated until successive values agree within the tolerance or four evaluations have been made.", "quantifier": "all equations, initial values and norms", "why_tests_cant": "The loop runs without error and returns plausible values for every equation; only the comparison with the fixed point tells", "anchors": ["source/mfRG_flow/right_hand_sides.hpp:468-501"]}
{"id": "C157", "title": "Bubbles at imaginary frequencies inherit the symmetries of their vertices", "statement": "If both vertices of a bubble at imaginary frequencies obey crossing symmetry, complex conjugation and time reversal, so does the bubble, for the finite sums and windows used by the code and for the integrals at zero temperature, with and without particle-hole symmetry.", "quantifier": "all vertices and propagators with these symmetries, all channels, spins, transfer frequencies, window sizes, plain and differentiated pairs", "why_tests_cant": "The symmetries are used to fill most of the entries of every diagram; whether they hold depends on the shift of the summation window for each channel and transfer frequency, and on signs which cancel for most inputs", "anchors": ["source/bubble/bubble_function.hpp:395-480", "source/bubble/bubble.hpp:139-223", "source/bubble/integrand.hpp:1001-1017", "source/symmetries/symmetry_table.hpp", "source/symmetries/symmetry_transformations.c++"]}
{"id": "C158", "title": "The flow at imaginary frequencies keeps the symmetries, and storing imaginary parts changes nothing", "statement": "Started in a symmetric state, the multiloop flow at imaginary frequencies and finite temperature keeps crossing symmetry, conjugation symmetry and time reversal of the vertex and the conjugation symmetry of the self-energy, for every regulator, loop order and Runge-Kutta method. With particle-hole symmetry, the flow of the stored real numbers (imaginary part of the self-energy, minus imaginary part of the propagators) is the flow of the complex numbers.", "quantifier": "all symmetric initial states, bare vertices, temperatures, numbers of loops, iterations and steps, regulators and sizes of the frequency sums", "why_tests_cant": "The signs that convert between stored and complex quantities sit in four different places (propagators, pairs of propagators, loop integrand, derivative of the propagator) and have to fit together in every diagram of every order", "anchors": ["source/mfRG_flow/right_hand_sides.hpp:173-547", "source/mfRG_flow/right_hand_sides.hpp:589-848", "source/loop/loop.hpp:79-96", "source/loop/loop.hpp:449-460", "source/loop/integrandSE.hpp:340-355", "source/bubble/bubble.hpp:139-159", "source/correlation_functions/two_point/propagator.hpp:338-353"]}
{"id": "C159", "title": "The parquet iteration keeps the symmetries of the state", "statement": "At real frequencies, started in a state whose vertex obeys crossing symmetry, complex conjugation and (with it) particle-hole symmetry and whose self-energy is anti-Hermitian in Keldysh space, every state that the parquet solver computes and writes has these symmetries again, for versions 1 and 2 of the Schwinger-Dyson equation, with linear mixing and with Anderson acceleration, whether or not the iteration converges.", "quantifier": "all symmetric initial states, interactions, numbers of iterations, mixing factors and accuracies", "why_tests_cant": "Every iteration builds on the states of the previous ones; a symmetry lost in one diagram shows up only after several iterations, and convergence may hide it", "anchors": ["source/perturbation_theory_and_parquet/parquet_solver.hpp:26-352", "source/perturbation_theory_and_parquet/parquet_solver.hpp:475-640", "source/loop/loop.hpp:462-530", "source/loop/integrandSE.hpp:360-450"]}
{"id": "C160", "title": "The parquet iteration at imaginary frequencies keeps the symmetries and does not depend on how values are stored", "statement": "At imaginary frequencies the parquet iteration turns symmetric states into symmetric states; with particle-hole symmetry, where only imaginary parts are stored, the iteration of the stored numbers is the iteration of the complex numbers.", "quantifier": "all symmetric states, bare vertices, temperatures, interactions, sizes of the frequency sums, versions 1 and 2 of the Schwinger-Dyson equation", "why_tests_cant": "The stored constant and the frequency dependent part are set in different places; a constant that does not belong there changes every later value by a small smooth amount and no run fails", "anchors": ["source/perturbation_theory_and_parquet/parquet_solver.hpp:322-352", "source/perturbation_theory_and_parquet/parquet_solver.hpp:475-487", "source/correlation_functions/state.hpp:149-172", "source/correlation_functions/two_point/selfenergy.hpp:159-163", "source/loop/loop.hpp:449-460"]}
{"id": "C161", "title": "The versions of the Schwinger-Dyson equation are equivalent", "statement": "At imaginary frequencies, the self-energy does not depend on the chosen version of the Schwinger-Dyson equation (parts reducible in the three channels closed in their own channel, or the full vertex closed in the channels a and p): the versions give the same self-energy for every symmetric vertex.", "quantifier": "all symmetric bounded vertices, interactions, temperatures, propagators decaying like the inverse frequency, outer frequencies, ranges of the frequency sums", "why_tests_cant": "The versions use different bubbles and loops with different signs, spin sums and frequency arguments; at any finite range of the sums results differ slightly anyway, so a test cannot separate a wrong sign in a small term from truncation", "anchors": ["source/perturbation_theory_and_parquet/parquet_solver.hpp:87-227", "source/perturbation_theory_and_parquet/parquet_solver.hpp:322-352", "source/loop/loop.hpp:449-528", "source/loop/integrandSE.hpp:434-441"]}
{"id": "C162", "title": "At real frequencies the two versions of the Schwinger–Dyson equation give the same self-energy when the loop integral covers all frequencies", "statement": "In the default build (real frequencies) a parquet computation may evaluate the Schwinger–Dyson equation through the bubbles of the three reducible parts separately (version 1) or through the bubbles of the full vertex in the a and p channels (version 2), and in the a, p or t channel for one and the same vertex. For every self-energy whose propagators decay like the inverse frequency and every bounded measurable symmetric vertex, the retarded and the Keldysh component of the results converge, at every frequency, to one common value when the range of the loop integral grows. The propagators of the hybridization flow decay in this way for every bounded measurable retarded self-energy with nowhere positive imaginary part.", "quantifier": "All parameters with positive total hybridization, all interactions, all self-energies and vertices of the stated kind, all frequencies, with and without particle-hole symmetry.", "why_tests_cant": "The versions agree only after a change of integration variables over two infinite frequency ranges and a relabelling of six Keldysh indices; a test compares numbers on one grid with finite integration ranges, where they differ by an unknown discretisation error.", "anchors": ["source/perturbation_theory_and_parquet/parquet_solver.hpp: compute_SDE_impl, compute_SDE_v1, compute_SDE_impl_v2", "source/loop/loop.hpp: loop, LoopCalculator", "source/bubble/bubble_function.hpp: bubble_function", "source/correlation_functions/four_point/vertex.hpp: irreducible::initialize"]}
{"id": "C163", "title": "Version 3 of the Schwinger–Dyson equation agrees with version 2, and the differentiated equation is its derivative", "statement": "At imaginary frequencies version 3 of the Schwinger–Dyson equation closes K1 and K2 of the vertex directly instead of computing bubbles with the bare vertex. If K1 and K2 of the channels a and p are the bubbles of the full vertex with the bare vertex, it gives the same frequency-dependent self-energy as version 2, for every range of the frequency sums; the bare vertex it leaves in the loop only changes the constant that is overwritten by the Hartree term. The equation used for the derivative of the self-energy in the flow is the derivative of version 3 with respect to the flow parameter, for every differentiable path of self-energies and vertices.", "quantifier": "all ranges of the frequency sums, temperatures, interactions, symmetric self-energies and vertices, real and complex values, differentiable paths", "why_tests_cant": "Equality needs the exchange symmetry of bubbles with different vertices on the two sides and a cancellation in the constant; the derivative is one product rule over two factors, of which a dropped term can be as small as the numerical error of finite differences", "anchors": ["source/perturbation_theory_and_parquet/parquet_solver.hpp:229-279", "source/perturbation_theory_and_parquet/parquet_solver.hpp:322-376", "source/mfRG_flow/right_hand_sides.hpp:468-501"]}
{"id": "C164", "title": "Diagrams of quantities in thermal equilibrium are in thermal equilibrium", "statement": "If vertices satisfy the Kubo-Martin-Schwinger condition at temperature T and chemical potential mu, then so do all vertices that the code computes from them with its own propagators: bubbles and differentiated bubbles in all three channels, the result of the Bethe-Salpeter equations, the vertex after any number of parquet iterations, and the derivative of the vertex in the multiloop flow for any number of loops. The loop over such a vertex gives a self-energy that satisfies the fluctuation-dissipation relation up to exactly the third component, the one that vanishes by causality. The checks and completions by fluctuation-dissipation relations do not change the classes K1, K2, K3 of such a vertex. With the option USE_FDT_4_SELFENERGY the extension of the propagator stays in equilibrium as well.", "quantifier": "all temperatures, chemical potentials, hybridisations and scales with positive total hybridisation, all measurable bounded vertices in equilibrium, all measurable bounded self-energies with nowhere positive imaginary part of the retarded component, all derivatives of the self-energy in equilibrium, all frequencies, Keldysh and spin components, numbers of loops and iterations", "why_tests_cant": "The condition relates all sixteen components at every combination of real frequencies; it holds for the integrals over all internal frequencies and for arbitrarily long iterations. The checks of the code compare single runs on a grid with interpolation errors.", "anchors": ["source/bubble/bubble_function.hpp:BubbleFunctionCalculator", "source/loop/loop.hpp:loop", "source/correlation_functions/two_point/propagator.hpp:Katanin_K, diff_Sigma_K_REG5", "source/perturbation_theory_and_parquet/parquet_solver.hpp:compute_BSE, parquet_iteration", "source/mfRG_flow/right_hand_sides.hpp:rhs_n_loop_flow", "source/postprocessing/causality_FDT_checks.hpp:compute_components_through_FDTs, compare_with_FDTs"]}
{"id": "C165", "title": "The flow restricted to second order follows second-order perturbation theory", "statement": "With PT2_FLOW the right-hand side of the flow, evaluated at the state of second-order perturbation theory, is the derivative of that state with respect to the flow parameter: every component of the vertex at every frequency, and at half filling both components of the self-energy in the limit of complete integrals. It is the same for every number of loops, because all contributions of higher loop order vanish, and the iteration of the self-energy ends after one pass. At imaginary frequencies with particle-hole symmetry this is false for every interaction other than zero: the flow stores the Hartree value, which is the real part of the self-energy, where the imaginary part belongs, while the state of second order does not.", "quantifier": "all hybridisations, temperatures and scales with positive total hybridisation, all interactions, all channels, spin and Keldysh components and frequencies, all numbers of loops >= 1, all tolerances >= 0, norms that vanish at zero and accelerations that return a single evaluation; imaginary frequencies: all numbers of Matsubara frequencies >= 1", "why_tests_cant": "The statement is about derivatives with respect to the flow parameter and about integrals over all frequencies; a run compares numbers at a few values of the flow parameter with errors of quadrature, interpolation and of the solver of the differential equation. The case of imaginary frequencies is not run by any test.", "anchors": ["source/parameters/master_parameters.hpp:PT2_FLOW", "source/mfRG_flow/right_hand_sides.hpp:rhs_n_loop_flow, selfEnergyFlowCorrections", "source/mfRG_flow/flow.c++:n_loop_flow", "source/perturbation_theory_and_parquet/perturbation_theory.hpp:vertexInSOPT, selfEnergyInSOPT, sopt_state", "source/correlation_functions/state.hpp:State::initialize", "source/correlation_functions/two_point/selfenergy.hpp:SelfEnergy::initialize"]}
{"id": "C166", "title": "The self-energy of second order is causal", "statement": "The retarded component of the self-energy of second order has nowhere a positive imaginary part, for every range of the loop integral, provided the same holds for the self-energy in the lines; the causality check of the code therefore reports a causal self-energy on every grid. In the limit of complete integrals the self-energy is causal in the full sense: its retarded component continues to a bounded holomorphic function in the upper half-plane without positive imaginary part, and it satisfies the fluctuation-dissipation relation exactly. With interaction the damping is nowhere zero. The result can be put into the lines again any number of times, and it is what one step of the Schwinger-Dyson equation gives for the bare vertex, in both versions.", "quantifier": "all parameters with positive total hybridisation, all temperatures, interactions, ranges of integration and frequencies, all self-energies in the lines that are measurable and bounded with nowhere positive imaginary part (for the limit: with a holomorphic continuation of that kind), both versions of the Schwinger-Dyson equation, with and without particle-hole symmetry, any number of repetitions", "why_tests_cant": "Analyticity in the upper half-plane is a statement about a continuum of complex frequencies that the program never evaluates; a run sees a sign on a finite grid for one set of parameters, with errors of quadrature that can hide or fake a violation.", "anchors": ["source/perturbation_theory_and_parquet/perturbation_theory.hpp:selfEnergyInSOPT, sopt_state", "source/perturbation_theory_and_parquet/parquet_solver.hpp:compute_SDE, compute_SDE_impl, compute_SDE_v1, compute_SDE_v2", "source/postprocessing/causality_FDT_checks.hpp:check_SE_causality", "source/loop/loop.hpp:loop"]}
{"id": "C167", "title": "The sum rule of the spectral function", "statement": "For a causal self-energy the spectral function of the propagator integrates to one over all frequencies, at every value of the flow parameter; what the check prints after each step, the integral over the box of the frequency grid, lies in [0,1), grows with the box, tends to one, and misses one by at most (Gamma+Lambda+2C)/(pi(wmax-|eps|-C)). The single-scale propagator carries no weight, so the flow conserves it.", "quantifier": "every causal self-energy, all parameters of the model, every extent of the frequency grid, the regulators for hybridisation, interaction and temperature", "why_tests_cant": "The check is a number printed for one state; that 0.98 is a truncation effect and not a violation, or that a violation of causality leaves the number at one, can be seen only from a statement for all self-energies.", "anchors": ["sum_rule_spectrum (postprocessing.c++:92-103)", "Integrand_sum_rule_spectrum (postprocessing.hpp:105-116)", "sanity_check (sanity_check.hpp:10-27)", "Propagator::valsmooth"]}
{"id": "C168", "title": "The state the flow starts with is close to the bare state", "statement": "The state of second-order perturbation theory, with which the flow starts at a large hybridisation Λ, differs from the bare state (self-energy U/2, no reducible vertex) by at most 4U²/(Γ+Λ) in the self-energy and 64U²/(Γ+Λ) in the vertex, at all frequencies; so it tends to the bare state when Λ grows. The bounds hold for any causal self-energy in the lines, hence in every step when the result is used again. Beyond a sufficiently wide frequency grid the asymptotic values the code reads (U/2, 0, and 0 for the vertex) are as accurate as one likes. With interaction the correction is nowhere absent.", "quantifier": "all interactions, hybridisations, flow parameters with Γ+Λ > 0, temperatures, positions of the level, Keldysh and spin components, frequencies; every causal self-energy in the lines; every number of repetitions", "why_tests_cant": "a test compares numbers at one Λ and on one grid; that the start value is harmless at every frequency and temperature, and that reading the asymptotic value outside the grid is right for wide grids, are statements about a limit", "anchors": ["source/perturbation_theory_and_parquet/perturbation_theory.hpp: sopt_state, vertexInSOPT, selfEnergyInSOPT", "source/mfRG_flow/flow.c++: n_loop_flow", "source/correlation_functions/two_point/selfenergy.hpp: SelfEnergy::valsmooth, initialize", "source/correlation_functions/state.hpp: State::initialize"]}
{"id": "C169", "title": "At weak coupling the parquet equations have one solution, and the solver finds it", "statement": "At real frequencies and with particle-hole symmetry, if the bare vertex is bounded by t with 3·10⁷·t ≤ (Γ+Λ)/2, one iteration of the parquet equations (Bethe–Salpeter equations for the three channels and Schwinger–Dyson equation for the self-energy, in any of the versions) halves the distance of two states whose vertex is bounded by t and whose self-energy is within (Γ+Λ)/4 of U/2. There is exactly one solution among those states; it has crossing, conjugation and particle-hole symmetry. Iterating with mixing m from such a state, in particular from the bare state or from second-order perturbation theory, approaches it by the factor 1−m/2 per step. The solver reports convergence if it is allowed enough iterations, and when consecutive states differ by ε, the solution is within 2ε/m.", "quantifier": "all bare vertices below the bound, interactions, hybridisations, temperatures, integration ranges, versions of the Schwinger–Dyson equation, starting states of the given kind, mixing factors in (0,1], accuracies, numbers of iterations; every size for the solver's stopping criterion that is bounded by the maximum over frequencies", "why_tests_cant": "a run shows at most that the iteration stopped at one parameter set; that there is something to converge to, that it is unique and that a small last step means a small error are statements about all states, frequencies and iteration counts", "anchors": ["source/perturbation_theory_and_parquet/parquet_solver.hpp: compute_BSE, compute_SDE, parquet_iteration, parquet_solver", "source/perturbation_theory_and_parquet/perturbation_theory.hpp: sopt_state", "source/bubble/bubble_function.hpp: bubble_function", "source/loop/loop.hpp: loop"]}
{"id": "C170", "title": "The computed flow approaches the flow", "statement": "Let the exact flow exist on the Λ-interval, with a right-hand side that is Lipschitz near it. With each of the Runge–Kutta schemes of the solver and in each differentiable parametrisation of Λ, however the steps are chosen and whatever their number, the computed flow differs from the exact one by at most exp(2L·length)·(error of the initial state + length·(4ω + 2ρ) + sum of the changes made after the steps), where ω is the variation of the slope over one step and ρ the error of the evaluated right-hand side. So it converges when steps, errors of integrals and of interpolation become small, proportionally to the step if the slope is Lipschitz. The older fourth-order step is the same as the scheme RK4basic. Accepted steps have a small error: false, the estimate can vanish although the error is arbitrarily large.", "quantifier": "all Banach-space-valued flows, Lipschitz constants, parametrisations, sequences of steps in either direction, numbers of steps, perturbations of the right-hand side and of the state after each step; the schemes cash_carp, RK4basic and BogaSha", "why_tests_cant": "convergence is a statement about all step sequences; a run with one grid cannot tell a consistent scheme from one that converges to something else slightly off, and tests on known solutions have no interpolation and integration errors", "anchors": ["source/ODE_solvers/ODE_solvers.hpp: rk_step, rkqs, ode_solver, postRKstep_stuff, cash_carp, RK4basic, BogaSha", "source/ODE_solvers/old_solvers.hpp: old_ode_solvers::RK4_step", "source/grids/flow_grid.hpp: lambda_from_t, dlambda_dt"]}
{"id": "C171", "title": "A NaN anywhere in a state shows in its norm", "statement": "The norm of an array, of a self-energy, of a vertex or of a state is the largest modulus of the data (for the vertex: the sum over the classes of the largest moduli) if all of them are numbers, and is NaN if some of them are NaN, so that neither the step control of the flow nor the convergence test of the parquet solver accepts a result that contains NaN.", "quantifier": "all lengths and contents of the arrays, all positions of NaN, all settings of the step control, all accuracies", "why_tests_cant": "Tests use data without NaN. Which NaN is seen depends on its position in the array, on the channel and on the order of the arguments of std::max.", "anchors": ["source/multidimensional/multiarray.hpp: maxabs, max_norm, abs_compare", "source/data_structures.hpp: vec::max_norm", "source/correlation_functions/four_point/vertex.hpp: norm_K1, norm_K2, norm_K3, sum_norm, norm", "source/correlation_functions/two_point/selfenergy.hpp: norm", "source/correlation_functions/state.hpp: norm, max_rel_err", "source/perturbation_theory_and_parquet/parquet_solver.hpp: is_converged"]}
{"id": "C172", "title": "Small errors and small changes of the parameters change the parquet solution only a little", "statement": "At weak coupling with particle-hole symmetry: if every parquet iteration is carried out up to an error ε, the iterates approach the solution up to 2ε over the mixing ratio; the solutions at two nearby values of the flow parameter, hybridization, level position or range of the loop integrals differ by at most the difference of the parameters in the self-energy and by that difference times the bound of the vertex over half the width in the vertex; so all values of the solution are continuous in the flow parameter, and an iteration started from the solution at a nearby scale converges to the solution at the new scale.", "quantifier": "all sufficiently weak bare vertices, all states within the bounds, all sequences of errors, all pairs of nearby parameters, all frequencies, both versions of the Schwinger–Dyson equation, all mixing ratios", "why_tests_cant": "A test solves the equations for a few parameters with one choice of numerical settings; how far errors of quadrature and interpolation accumulate over the iterations, and whether the solution jumps between two scales, cannot be seen from finitely many runs.", "anchors": ["source/perturbation_theory_and_parquet/parquet_solver.hpp: parquet_solver, parquet_iteration, compute_BSE, compute_SDE", "source/perturbation_theory_and_parquet/parquet_solver.c++: run_parquet", "source/loop/loop.hpp: LoopCalculator (limits of the integral)", "source/correlation_functions/two_point/propagator.hpp: GR, GK"]}
{"id": "C173", "title": "The computed flow has the order of its scheme", "statement": "If the right-hand side is six times continuously differentiable near the exact flow, in the state and in Λ together, a step of size h from a point of the flow misses it by O(h^6) with cash_carp, O(h^5) with RK4basic and O(h^4) with BogaSha, uniformly on compact parts of the flow, and the whole computed flow differs from the exact one by at most a constant times (error of the initial state + fifth, fourth or third power of the largest step + sum of the changes made after the steps), however the steps are chosen. The powers cannot be improved. The error vector of a step is the error of the embedded scheme up to one more power of h. All this holds for the exponential, logarithmic and linear parametrisations of Λ, and for the default square-root parametrisation also when the flow ends at Λ = 0, where that parametrisation is not smooth.", "quantifier": "all Banach-space-valued nonlinear flows, right-hand sides depending on the state and on Λ, parametrisations, compact intervals, sequences and numbers of steps in either direction, perturbations of the initial state and of the state after each step", "why_tests_cant": "the order is a statement about the limit of small steps for every smooth flow; a tableau with one wrong coefficient still converges, and tests on linear or scalar flows miss the conditions that only nonlinear flows of several variables see", "anchors": ["source/ODE_solvers/ODE_solvers.hpp: butcher_tableau, cash_carp, RK4basic, BogaSha, rk_step, ode_solver", "source/grids/flow_grid.hpp: sqrt_parametrization, exp_parametrization, log_parametrization, linear_parametrization"]}
{"id": "C174", "title": "The multiloop flow follows the parquet solution", "statement": "At weak coupling (interaction times bubble at most one twelfth) the parquet equations have exactly one solution with small reducible parts at every value of the flow parameter, and it depends on the flow parameter as smoothly as the bubbles do. The right-hand side of the multiloop flow, evaluated at this solution, converges with the number of loops to the derivative of the solution. A multiloop flow that starts from the parquet solution at one scale therefore arrives at the parquet solution at any other scale: whatever the parametrisation and the choice of steps, the computed vertex is as close to it as one likes, given enough loops, small enough steps, and small enough errors of the right-hand side, of the initial state and of what is done after the steps. The propagator, and hence the self-energy, is a given function of the scale.", "quantifier": "all spaces of vertices, all bubbles that depend differentiably on the scale and can be chained, all scales, loop numbers, parametrisations, sequences of steps, Runge-Kutta schemes of the solver, errors", "why_tests_cant": "a test compares one flow with one parquet calculation on one grid and cannot tell an error that vanishes with loops and steps from one that does not", "anchors": ["source/mfRG_flow/right_hand_sides.hpp: rhs_n_loop_flow_t", "source/mfRG_flow/flow.hpp: n_loop_flow", "source/ODE_solvers/ODE_solvers.hpp: ode_solver", "source/perturbation_theory_and_parquet/parquet_solver.hpp: parquet_solver"]}
{"id": "C175", "title": "At weak coupling the diagrams of the code meet all assumptions of the multiloop theory", "statement": "Take the bubbles the real-frequency Keldysh code computes at finite temperature with the hybridization flow, in all three channels, with the full propagator and with the differentiated pair of propagators (Katanin extension included), for four-point functions that are bounded and continuous in the energies of the legs, and any retarded self-energy. Then: every bubble integral exists and is again bounded and continuous, with a modulus of at most 256/(\u0393+\u039b) times the product of the largest moduli of the two vertices. A chain of two bubbles in one channel has the same value from whichever end it is evaluated, also if one of the two is differentiated. If the self-energy depends differentiably on the scale, the bubble does so, and its derivative is the bubble with the differentiated pair, which is continuous in the scale. Consequently, if the bare interaction is at most (\u0393+\u039b)/3072, the Bethe-Salpeter equations with these diagrams have exactly one solution with reducible parts of at most half the interaction, the parquet solver's iteration approaches it geometrically for every mixing factor, the solution is continuously differentiable in the scale, and its derivative is the limit of the loop sums of the right-hand side of the flow.", "quantifier": "all hybridizations, scales, temperatures, levels with \u0393+\u039b > 0; all retarded self-energies and all families of them; all bounded continuous vertices; all channels, spin components, Keldysh components and external frequencies; all mixing factors, all numbers of loops", "why_tests_cant": "The claim is about infinite frequency integrals and about an infinite-dimensional space of vertices; tests can only compare single numbers on a finite grid. Existence and uniqueness of solutions and the differentiability in the scale cannot be observed at all.", "anchors": ["source/bubble/bubble_function.hpp: bubble_function", "source/bubble/bubble.hpp: Bubble::value, convert_to_fermionic_frequencies_1", "source/bubble/integrand.hpp: Integrand", "source/correlation_functions/two_point/propagator.hpp: GR, GK, SR, Katanin_R, Katanin_K", "source/mfRG_flow/right_hand_sides.hpp: rhs_n_loop_flow", "source/perturbation_theory_and_parquet/parquet_solver.hpp: compute_BSE, parquet_iteration"]}
{"id": "C176", "title": "At weak coupling the parquet vertex has all symmetries and is in thermal equilibrium, and so is its derivative", "statement": "If the interaction is at most (\u0393+\u039b)/3072 and the self-energy is retarded, the one small solution of the Bethe-Salpeter equations with the diagrams of the real-frequency code is a fixed point of the solver's Bethe-Salpeter step, and the values the plain iteration gives from a vanishing reducible vertex tend to it at all frequencies. The solution has crossing and conjugation symmetry and, if level and self-energy are particle-hole symmetric, particle-hole symmetry, so that the entries a user does not store are correctly reconstructed from the stored ones. It satisfies the Kubo-Martin-Schwinger condition with the temperature and chemical potential of the leads. The derivative with respect to the scale, which the flow integrates, has the same symmetries and satisfies the same condition.", "quantifier": "all hybridizations, scales, temperatures, chemical potentials and levels with \u0393+\u039b > 0; all retarded self-energies and differentiable families of them; all weak interactions; all channels, spin and Keldysh components, frequencies", "why_tests_cant": "A test sees the iteration stop after finitely many steps on a grid; the claim is about the limit at all frequencies.", "anchors": ["source/perturbation_theory_and_parquet/parquet_solver.hpp: compute_BSE", "source/correlation_functions/four_point/r_vertex.hpp: check_symmetries", "source/postprocessing/causality_FDT_checks.hpp: check_FDTs", "source/symmetries/Keldysh_symmetries.hpp"]}
{"id": "C177", "title": "At weak coupling the flow that the code computes follows the parquet vertex of the code", "statement": "Take the right-hand side of the flow as the code evaluates it: one-loop term with the differentiated pair of propagators, left and right parts, central parts from the two non-symmetric insertions with the K2 components exchanged and the mean taken, summed up to the configured number of loops (tolerances set to zero, so that no earlier stop occurs), in all channels, spin and Keldysh components, at real frequencies and finite temperature. If the interaction is at most (\u0393+\u039b)/3072 and the self-energy is a given differentiable function of the scale, then the right-hand side at the solution of the Bethe-Salpeter equations differs from the derivative of this solution by an error that decreases geometrically with the number of loops, uniformly in all frequencies. The Runge-Kutta solver, started near the solution at one scale, ends as close as one likes to the solution at the scale reached, for every tableau, parametrisation of the scale and choice of steps, given enough loops and small enough steps. How K2 components are defined does not matter for this.", "quantifier": "all hybridizations, temperatures, levels; all weak interactions; all differentiable families of retarded self-energies; all tableaux, parametrisations, step sequences, loop numbers; all frequencies and components; all ways to extract K2 components, norms and integration limits of the self-energy loop", "why_tests_cant": "A test compares two numerical solutions at a few loop orders on one grid and cannot separate an error of the equations from truncation and discretisation.", "anchors": ["source/mfRG_flow/right_hand_sides.hpp: rhs_n_loop_flow_t, vertexOneLoopFlow, calculate_dGammaL, calculate_dGammaR, calculate_dGammaC_right_insertion, calculate_dGammaC_left_insertion", "source/ODE_solvers/ODE_solvers.hpp: rk_step, ode_solver", "source/perturbation_theory_and_parquet/parquet_solver.hpp: compute_BSE"]}
{"id": "C178", "title": "Exported vectors are found under their keys, and an interrupted export loses nothing", "statement": "Exporting a list of real vectors with a list of keys to an HDF5 file succeeds and leaves exactly these vectors under these keys, whatever the file contained before; only the first MPI process writes. If the program is interrupted during the export, the file contains the old or the new contents; in particular the check of the parquet equations, which writes all norms after every scale, never loses the norms of the scales already checked.", "quantifier": "all lists of keys and vectors, all earlier contents of the file, all MPI ranks, all numbers of scales, all points of interruption", "why_tests_cant": "A test writes a few vectors with fitting keys and does not interrupt the program.", "anchors": ["source/utilities/write_data2file.c++: write_h5_rvecs", "source/perturbation_theory_and_parquet/parquet_solver.c++: parquet_checks", "source/postprocessing/postprocessing.c++: compute_Phi_tilde, sum_rule_K1tK"]}
{"id": "C179", "title": "Vectors exported as text can be read back", "statement": "Exporting a list of real vectors as text writes one line for every vector, from which the numbers can be read back; if the file cannot be written the caller learns about it.", "quantifier": "all lists of vectors, all numbers, all ranks, writable and unwritable files", "why_tests_cant": "A test uses numbers with few digits.", "anchors": ["source/utilities/write_data2file.c++: write_dat_rvecs"]}
{"id": "C180", "title": "Printed names identify what they name, and compile-time checks of argument lists check all arguments", "statement": "Different diagrammatic classes and different vertex types are printed with different names, and a value that is no vertex type aborts the program. The compile-time test that all arguments of an access function have the required kind succeeds exactly if every argument has it, for any number of arguments.", "quantifier": "all classes and types, all integers as values of the enumeration, argument lists of any length", "why_tests_cant": "The names are only seen by people, and a compile-time test that is too weak compiles.", "anchors": ["source/data_structures.c++: operator<<", "source/data_structures.hpp: K_class, vertexType", "source/utilities/template_utils.hpp: all_true"]}
{"id": "C181", "title": "Saved integrands", "statement": "Saving an integrand for diagnosis samples it evenly, both ends included, over the frequency range of its vertex class, and stores the samples in a file whose name identifies the integrand; saving one integrand leaves those of all different integrands readable, and only one process writes.", "quantifier": "Every class, channel, index and frequency of two integrands saved one after the other, every frequency box, every directory content and every rank.", "why_tests_cant": "The names contain rounded numbers and only some of the arguments, so that a clash shows up only for particular pairs of arguments; a test saves a few integrands and looks at them at once.", "anchors": ["source/bubble/integrand.hpp:1270-1345 Integrand::save_integrand", "source/loop/integrandSE.hpp:254-298 IntegrandSE::save_integrand"]}
{"id": "C182", "title": "The flow with a fixed number of loops is well posed, and the solver computes it", "statement": "For every interaction strength, every number of loops and every starting vertex the flow equation has exactly one solution near the starting scale, given the self-energy as a function of the scale; this solution reaches every smaller scale unless it grows beyond all bounds on the way; and the vertex the Runge-Kutta solver computes with the right-hand side of the program tends to this solution, at all frequencies and in all components at once, when the steps become small.", "quantifier": "All interaction strengths (also strong ones), all numbers of loops, all bounded continuous starting vertices, all scales, all Runge-Kutta tables of the program, all parametrisations of the scale and all sequences of steps.", "why_tests_cant": "A run with one loop number and one step size cannot show that there is a solution, that there is only one, or that other steps would lead to the same one.", "anchors": ["source/mfRG_flow/right_hand_sides.hpp: rhs_n_loop_flow_t, vertexOneLoopFlow, calculate_dGammaL, calculate_dGammaR, calculate_dGammaC_right_insertion, calculate_dGammaC_left_insertion", "source/ODE_solvers/ODE_solvers.hpp: ode_solver, rk_step"]}
{"id": "C183", "title": "The report on the tails of the self-energy", "statement": "The relative height of the tails of the self-energy that the program prints bounds the self-energy at both ends of the frequency box, relative to its largest value.", "quantifier": "All self-energy data of all shapes, all schedules of the threads.", "why_tests_cant": "A test looks at one self-energy, usually a symmetric one, for which one end stands for both.", "anchors": ["source/correlation_functions/two_point/selfenergy.hpp: SelfEnergy::analyze_tails", "source/correlation_functions/state.hpp: State::analyze_tails", "source/correlation_functions/n_point/data_container.hpp: analyze_tails"]}
{"id": "C184", "title": "The search for the best frequency grid ends, does not make the grid worse and reaches the accuracy asked for", "statement": "The search for grid parameters makes at most the allowed number of iterations; the parameter it returns lies in the bracket found before and has no larger cost than the middle of that bracket; and it ends because the accuracy asked for has been reached.", "quantifier": "All cost functions (also with NaN), all start values, all minimisation algorithms of the library that keep their bracket and never move to a worse point.", "why_tests_cant": "Tests run one cost function; whether the accuracy was reached is only visible in verbose output.", "anchors": ["source/utilities/minimizer.hpp: minimizer, minimizer_nD", "source/correlation_functions/n_point/data_buffer.hpp: optimize_grid"]}
{"id": "C185", "title": "Operators between multi-dimensional arrays act element by element, and comparison is by shape and contents", "statement": "For two arrays of the same shape, also of different element types, the result of +, -, *, / is the array of that shape whose element at every index is the result for the two elements. With a scalar on the left or on the right the operands keep their order, unary minus negates every element, and arrays of different shapes raise a length error that the caller can catch. Two arrays compare equal exactly if they have the same shape and the same element at every index.", "quantifier": "every number and extent of the dimensions, every pair of arrays, every element type and every operation", "why_tests_cant": "The overload is chosen by the result type, so a test with real arrays says nothing on the complex ones; the statement is about all shapes and all indices.", "anchors": ["source/multidimensional/multiarray.hpp:elementwise", "source/multidimensional/multiarray.hpp:scalar_map", "source/multidimensional/multiarray.hpp:operator==", "source/multidimensional/multiarray.hpp:operator-"]}
{"id": "C186", "title": "The comparison with the fluctuation-dissipation relations yields a state that obeys them, and its files give back the compared state", "statement": "Recomputing the components of a recomputed state changes nothing. Comparing a saved flow writes one file of recomputed states and one of differences, each with exactly the compared layers in their order, independently of what was on the disk, without touching other files; the compared state is the recomputed one minus the difference. Without the request to write nothing is written. The same holds for the comparison of a single vertex.", "quantifier": "all states and vertices, shapes, grids, temperatures, numbers of layers and contents of the disk", "why_tests_cant": "The components are computed from each other by long formulas; a test compares one state, not all, and does not look at the sign in the file.", "anchors": ["source/postprocessing/causality_FDT_checks.hpp: compute_components_through_FDTs, compare_with_FDTs", "source/postprocessing/causality_FDT_checks.c++: compare_flow_with_FDTs"]}
