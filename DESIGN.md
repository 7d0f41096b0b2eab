# Formal model of NepomukRitz/KeldyshQFT in Lean 4

## 1. What this is

`properties.jsonl` lists the semantic properties. `lean/Verif/` contains a model of
the code in `/repo/source` and theorems about that model. `MANIFEST.json` maps each
property to theorem names and a status. `seeded/LOG.jsonl` records mutation tests:
deliberate bugs put into a scratch copy of the model, and the theorems that caught them.

### Layout of the Lean project

Each topic `X` has up to four files:

* `Verif/X/Model.lean` – definitions transcribed from the C++ source, each with a
  comment citing file and lines, and naming every simplification;
* `Verif/X/Spec.lean` – the small independent vocabulary in which the property is
  stated (no reference to the code's helpers);
* `Verif/X/Lemmas.lean` – helper lemmas;
* `Verif/X/Props.lean` – the property theorems, each with an `example` showing that a
  concrete non-trivial case meets its hypotheses.

### Naming

* `cNN_…` – property theorem for property `CNN`.
* `cNN_…_partial` – a proper part of `CNN`; the doc comment says what is missing.
* `cNN_…_refuted` – the full statement is false of the code; the theorem is the
  negation with a concrete witness, the part that does hold is a `_partial`.

## 2. Trusted base

* Lean 4.33.0's kernel and the statement-level definitions of Mathlib used in the theorems.
* Axioms: at most `propext`, `Classical.choice`, `Quot.sound` (checked with `#print axioms`
  for every theorem in the manifest). No `sorry`, `native_decide`, `bv_decide`, own axioms.
* The faithfulness of the transcription from C++ to Lean (by reading; the code is not run).

### Modelling conventions

* `int`, `size_t`: `Int` / `Nat`. Overflow is not modelled (all sizes in the code are
  products of grid extents far below 2^31) except where a property is about wrap-around.
* `double`, `complex<double>`: exact `ℚ`, `ℝ` or `ℂ` (or an arbitrary ordered field). Rounding
  is out of scope. NaN is modelled where the property is about it (`Option`: `none` = NaN,
  every comparison with NaN is false).
* Undefined behaviour, failed `assert` (the code is compiled without `NDEBUG`) and thrown
  exceptions are distinct outcomes (`Except`/`Option`/inductive outcomes), never silently totalised.
* Loops are structural recursion or folds; loops without an iteration cap take fuel, and
  non-termination means "out of fuel for every fuel".
* External calls (right-hand sides, cost functions, integrators, `MPI_Allgather`, HDF5) are
  parameters; the contract assumed of them is stated at the definition.

### Contracts assumed of libraries

* HDF5: creating an existing object throws, opening a missing object throws; a missing group
  raises the exception class the code catches, a missing attribute one it does not catch
  (`Hdf5`, `Stats`, `GridSave`); a data set keeps its fill value where nothing was written.
* MPI: `MPI_Allgather` concatenates the send buffers in rank order; every node runs the same
  program on the same arguments (`Mpi`, `Layout`).
* OpenMP: iterations of a parallel loop run in any order and, where the property needs it,
  interleaved at single reads and writes (`Collapse`, `Mpi`, `Reduce`).
* Boost.Odeint: `try_step` either accepts, advancing state and time by the step, or rejects and
  leaves both unchanged; `less_with_sign` compares up to one machine epsilon (`Boost`).
* GSL minimiser and quadrature: parameters, only their stated contract is used (`Minimizer`).

### Not modelled

Floating-point rounding, memory allocation, wall-clock time, console output, the GSL/Boost/
Eigen/HDF5/MPI library internals, compile-time configurations other than those named per
definition (default: real-frequency Keldysh formalism, finite temperature, hybridisation
regulator, full K1+K2+K3 vertex, linear interpolation on the auxiliary grid).

## 3. Plan per property

| id | what is modelled | how it is proved |
|----|------------------|------------------|
| C01 | `getFlatSize/getFlatIndex/getMultIndex` loops over `List Nat` | induction over the shape; division algorithm |
| C02 | rank-1 overload | refutation by witness |
| C03 | `rotateFlatIndex`, `permuteCyclic`, `get_inverse_permutation` | composition of C01 with list permutations |
| C04 | `multiarray` as flat list + shape; operations with out-of-range outcome | refinement to functions on multi-indices, induction over operation lists |
| C05 | `swap`/copy-and-swap assignment with the cached stride field | refutation (stale strides) + partial for equal shapes |
| C06 | segment accessor | list slicing lemmas over C01 |
| C07 | `vec` operators with error outcome | list lemmas |
| C08 | `operator*(vec,comp)` | refutation + what it returns |
| C09 | distribution, per-rank buffers, gather, reorder, resize | index arithmetic for all sizes; thread schedule = arbitrary permutation of tasks |
| C10 | shared-accumulator reduction as interleaved read/write steps | refutation with a schedule; partial for sequential schedules |
| C11 | tableaux over ℚ | finite computation of all order conditions (complete list of rooted trees) |
| C12 | `rk_step` for arbitrary module-valued RHS | algebra over a module |
| C13 | `rkqs` loop with the error estimate as parameter | measure argument on the step size; invariants |
| C14 | same with NaN as `none` | refutation: out of fuel for every fuel |
| C15 | outer loop of `ode_solver` on flow-parameter level | refutation by a concrete run; invariant for runs without checkpoints |
| C16 | checkpoint clipping | case analysis per step |
| C17 | resume branch | refutation + partial |
| C18 | outer loop | induction over iterations |
| C19 | `construct_flow_grid`, checkpoint insertion | list lemmas; refutation for checkpoints outside |
| C20 | parametrisations over ℝ | real analysis |
| C21 | grid transformations over ℝ | algebra with square roots |
| C22 | `initialize_grid` | monotone composition |
| C23 | `get_grid_index` | index arithmetic with the correction step |
| C24 | same with out-of-bounds outcome | refutation + partial for the open box |
| C25 | `set_w_center`, `is_in_box` | refutation + partial for centre 0 |
| C26 | `locate` | loop invariant |
| C27 | Matsubara rounding on `Int` | omega |
| C28 | conversions over a field | ring |
| C29 | `transfToR` and leg energies | field arithmetic per channel pair |
| C30 | integer version | omega |
| C31 | Keldysh encoding | whole-table decision |
| C32 | rotation tables | whole-table decision |
| C33 | scalar contraction and matrix product | finite sums over a commutative ring |
| C34 | `Bubble::value` | cases over 16 indices, arbitrary ring values |
| C35 | transformations as functions on index records | extensional equality |
| C36 | component tables | whole-table decision |
| C37 | frequency tables over an ordered field | sign case analysis |
| C38 | in-place symmetrisation as a fold over a schedule | commuting updates |
| C39, C40 | weights and interpolation | algebra, order |
| C41 | cubic/Lagrange | field arithmetic; polynomial uniqueness |
| C42 | stencils | field arithmetic per stencil position |
| C43 | multi-dimensional derivative | refutation + partial |
| C44 | `collapse`, `maxabs` | fold lemmas |
| C45 | vertex access functions | algebra |
| C46 | bare vertex | table + ring |
| C47 | irreducible division | refutation |
| C48 | norms | refutation + partial |
| C49 | state arithmetic | module laws |
| C50 | `State::abs` | refutation + partial |
| C51 | output file as layered store | refinement to a map, induction over write histories |
| C52 | write sequence with crash points | refutation + partial |
| C53 | attribute creation semantics | refutation + partial |
| C54 | grid parameter save/restore | refutation + partial |
| C55–C58 | `parquet_solver` loop | induction over iterations; NaN as `none`; refutations |
| C59 | Anderson coefficients | finite sums over a module |
| C60, C61 | Hartree loops | bisection invariant; refutations |
| C62, C63 | bracketing loop | invariant; refutation of termination |
| C64–C66 | propagators over ℂ | field arithmetic, derivatives |
| C67 | loop assembly and truncation | induction |
| C68 | file name generation | refutation + partial |
| C69 | self-energy evaluation | cases |
| C70 | continuing a flow | refutation |
| C71 | array constructor with a size and data | case analysis; refutation |
| C72 | step-size proposal after an accepted step | order lemmas on powers; refutation |
| C73 | solver configuration with its mutable member | refutation by running twice |
| C74 | grid transformations and their derivatives | real analysis |
| C75 | polar and spherical frequency coordinates | real trigonometry |
| C76, C77 | distribution functions, Keldysh propagators | algebra of tanh, limits |
| C78 | Hartree occupation from the spectral function | algebra, order |
| C79 | parameters stored with a result file | refinement to a map; refutation |
| C80–C82 | halves of a vertex, shifts, maxima with NaN | entry-wise; refutations |
| C83 | statistics group of the result file | induction over writes with crash points |
| C84–C87, C111 | adaptive Gauss-Lobatto/Kronrod integrator, splitting at features | exactness on polynomials, invariants of the recursion |
| C88, C89 | Simpson integrators | exactness, termination measure |
| C90 | grid parameters restored from a file | refinement |
| C91 | frequency derivative of propagators | calculus |
| C92–C95 | self-energy loop in all index forms | finite sums over Keldysh indices |
| C96 | Matsubara sums of bubble and loop | sums over integer intervals |
| C97 | spin sums of the bubble integrand | non-commutative ring |
| C98, C99 | closed forms of bubble tails | antiderivatives, limits |
| C100–C103 | `bubble_function`, perturbation theory up to fourth order | algebra of formal diagrams |
| C104 | vanishing components skipped by the bubble | contour argument as limit of integrals |
| C105–C107 | hybrid grid | real analysis, order |
| C108–C110 | angular grids | real analysis |
| C112–C118 | fluctuation-dissipation relations, causality checks, sum rules | algebra of coth/tanh, limits, loop invariants |
| C119, C120 | cubic splines in one, two and three dimensions | Hermite interpolation |
| C121–C124 | data buffer: moving to another grid, tails, shrinking, resolution check | entry-wise over schedules, order |
| C125, C126 | Boost driver | invariants for every stepper obeying the contract |
| C127 | symmetry reduction of a bubble and its completion | orbits of the symmetry group, schedules |
| C128 | distribution of the bubble over nodes and its reassembly | index arithmetic |
| C129, C130 | tail corrections with vertices | algebra, limits |
| C131, C132 | boson-exchange assembly | index rotations, ring |
| C133 | expansion of a vertex for the bubble integrand | orbits, interpolation at nodes |
| C134 | symmetry check of a vertex | entry-wise |
| C135–C137 | post-processing of result files | loop invariants; refutations |
| C138 | record of intermediate results and the counters of the drivers | induction over loop orders, iterations, evaluations |
| C139 | diagrams of right_hand_sides.hpp:589-848 as bilinear maps on a normed space, joined with the driver of C67 | identity (1 - I Pi)(1 + Gamma Pi) = 1 per channel; recursion for partial sums; limit by continuity; product rule for families; geometric error bound; witness against the tolerance |
| C140 | one-loop self-energy flow, correction, self-energy iteration of C67 | the same inversion for channel t with the closing rule for loops; induction over loop orders |
| C141 | the occupation integral of hartree_term.c++ with retarded, Keldysh and single-scale propagators of C64 and the interval splitting of C84 | Lorentzian integrals by arctan; monotonicity of the convolution; intermediate value theorem and strict monotony for the self-consistent value; differentiation under the integral |
| C142 | the same integrals on the imaginary axis and the frequency sum of C96 with its tail integrals | convolution of a Lorentzian with x/(x^2+n^2); partial fractions of tanh; telescoping mean-value bounds for the rest of the sum; two-sided error bounds refuting the weight of the tails |
| C143 | the flow equation of the vertex with converged or truncated right-hand side | linear equation of the defect, Grönwall's inequality |
| C144 | `compute_BSE`, the vertex part of `parquet_iteration`, the solver with plain mixing | bilinear algebra, Banach's fixed-point theorem; refutation in the quaternions |
| C145 | component tables of the boson-exchange decomposition | whole finite tables; sums over pairs of Keldysh indices |
| C146 | Construction of the imaginary-frequency grids at finite temperature, the truncating grid index, the box checks and the nearest-point look-up for one, two and three frequencies | Closed form of the grid points; floor estimate for the index; integer arithmetic for the box and for the sign flip of the two-frequency class |
| C147 | The checks for repeated frequencies and for asymmetry | Chain-to-pairwise argument for ordered lists and a sum of absolute values; the gaps (unordered, single and empty lists) as counterexamples |
| C148 | One bubble computation from its inputs to the stored result: the loop over components and frequencies with the rule which entries are calculated, distribution and collection, reordering, completion by symmetry; the grids as the code builds them | Composition of the theorems on distribution (C09), sums (C97), index layout (C03, C128), calculated sector and completion (C38, C127) into one statement about the whole call |
| C149 | The bubble as a sum over spins and Keldysh indices and an exact integral over real frequencies; its legs as physical legs | Relabelling of the sums and reflection of the integral turn each symmetry of the vertices into that of the bubble; term-by-term comparison with what the code integrates |
| C150 | The right-hand side of the multiloop flow with its diagrams (bubbles, loops, propagators and their differentiated versions, both halves of the non-symmetric vertices) driven by the loop of Verif.MfRG, and Runge-Kutta steps | Symmetries closed under sums and real multiples; bubble: C149; loop: conjugation and reflection of the integral; mirror image of a bubble exchanges its vertices, hence central parts of mirrored insertions are mirrored; invariants for the loop over orders, the self-energy iteration, the stages and the steps |
| C151 | files left by earlier runs, the preparation of a flow by the parquet solver, scans | abstract physics and disk; induction over histories of runs and over the list of the scan; witnesses: an iteration that does not converge within ten steps, level positions that share a file |
| C152 | `run_parquet` with its file names | decomposition of the list at the value; names agree iff the values print alike |
| C153 | `main` up to the choice of the calculation, `atoi`, `check_input`, `get_cpu_hours` | `atoi` inverts the printing of integers; case analysis |
| C154 | `rel_deviation_to` with infinities and NaN, `std::max` as the code evaluates it | Equivalence with the specification where the reference does not vanish; identical arguments give zero; vanishing arrays give NaN for every change of the Hartree value (refutation) |
| C155 | `check_symmetries` of the self-energy as a function of the interpolated values | Equivalence for one internal index and real Hartree value; several internal indices and the Keldysh component are not covered by the check (refutations) |
| C156 | The do-while loop of `SELF_ENERGY_FLOW_CORRECTIONS == 2` without acceleration (with it line 510 assigns a state to a self-energy and does not compile) | The loop is shown to evaluate once whenever the result is not negligible; the expected iteration is refuted for linear contractions |
| C157 | Bubbles at imaginary frequencies over arbitrary commutative rings of energies and values, with the sums (windows, rounding, interval corrections) and pairs of propagators of the code | Relabelling of the spin sums and reflection/translation of the window turn each symmetry of the vertices into that of the bubble; comparison with what the code sums; propagators of all regulators have the required symmetry |
| C158 | Right-hand side of the multiloop flow at imaginary frequencies with its diagrams (finite sums of bubbles and loops, propagators of the three regulators and their derivatives) driven by the loop of Verif.MfRG, over a ring of values that is the reals (particle-hole symmetric storage) or the complex numbers | Invariants as for C150 with C157 for the bubbles; the correspondence of the two storages is a linear map that commutes with every diagram, hence with the driver and with Runge-Kutta steps |
| C159 | `compute_BSE`, `compute_SDE` (versions 1 and 2), `parquet_iteration` and the solver loop at real frequencies, on the diagrams of C150 | The loop over one channel of a symmetric vertex is a symmetric self-energy (exchange and reflection of the integration variable); mixing and acceleration are affine, so the set of symmetric states is closed under a pass of the solver; induction over the passes |
| C160 | The same equations at imaginary frequencies over a ring of values (real with particle-hole symmetry, else complex), started by `State::initialize` | As C159 for complex values; for real values the iteration is shown to add half the interaction to the imaginary part of the self-energy, so that the symmetry and the agreement of the two storages are refuted and proved for the rest |
| C161 | The equations of C160 with the range of the frequency sums as a parameter | Each version is a finite double sum over two of the three lines of one diagram; a change of variables relates the channels, the finite index sets exhaust all frequencies, and a product of three decaying propagators is summable (inequality of the means), so that all versions tend to the same double series; at finite range they differ (witness) |
| C162 | the loops and bubbles of C159 with the bare Keldysh vertex, as integrals over two frequencies and six Keldysh indices | Fubini, two measure-preserving changes of variables (`v + x - y`, exchange) together with relabelling of the Keldysh indices, integrability from the decay of three propagators, limit of the symmetric interval integral |
| C163 | `compute_SDE_impl_v3`, `compute_SDE` for version 3 and `compute_diff_SDE` on the vertices and loops of C160, with the four diagrammatic classes as separate functions | Bubbles with the bare vertex on either side are exchanged by complex conjugation and time reversal; the constant from the bare vertex is real and split off (or zero with particle-hole symmetry); the derivative of finite sums of products, with the derivative of the propagator from C66 |
| C164 | Bubbles, loops, Bethe–Salpeter equations, parquet iterations and the multiloop flow as in C150, C159, C162, with exact integrals; equilibrium as the Kubo–Martin–Schwinger condition on the two branches of the contour (as in C112); extension of the propagator with `USE_FDT_4_SELFENERGY` | Rotation of every leg to the branches: the rotation of a diagram is the diagram of the rotated parts, and the weights of the internal legs cancel by conservation of energy; domination of the integrands by 1/(1+|x|)² for measurability and boundedness; induction over iterations and loop orders; bubbles with bare vertices join branches, which links to the lemmas of C112; for the option a derivative of the self-energy with Λ ≠ T |
| C165 | The diagrams of the right-hand side with `PT2_FLOW` (propagators with constant self-energy, bubbles of bare vertices, no irreducible part in the corrections) in the driver of C67, second-order perturbation theory, both with exact integrals; the vertex also at imaginary frequencies with finite sums | Derivatives under the integral sign with bounds uniform in the flow parameter (one integral for the vertex, two for the self-energy); the trace over both spin components splits into two diagrams of channel a, one of channel p and a rest that cancels between opposite frequencies; exchange of lines and a shear of the plane identify the three derivatives; higher loops by induction. Refutation: convexity of 1/x³ summed over opposite frequencies, uniqueness of the derivative |
| C166 | The self-energy of second order with an arbitrary self-energy in the lines, exact integrals; specification: boundary value of a bounded holomorphic function with nowhere positive imaginary part, and the fluctuation–dissipation relation | Pointwise: the imaginary part of the integrand is a product of three spectral functions and a combination of distributions that is never negative; products of two retarded functions integrate to zero by Cauchy's theorem, which removes the terms that are not analytic and the component that must vanish; differentiation under the double integral with Cauchy estimates; Phragmén–Lindelöf carries the sign from the real axis into the half-plane; addition theorem of tanh |
| C167 | the sum rule check of the spectral function (postprocessing.hpp/.c++), with the retarded propagators of Propagator/Model | G - G0 = G Sigma G0 decays quadratically and is holomorphic, so it integrates to zero (Heredity.Null); G0 is a Lorentzian (Filling); positivity of the spectral function gives monotony; the tail bounded by the norm of the self-energy; same for single-scale lines |
| C168 | the state of second order of Verif.Pt2 and Verif.Causal, its size and its behaviour at large frequencies | bounds of the integrals by the sum rule of the spectral function (C167): `|G^R|² ≤ A/(Γ+Λ)` and `|G^K| ≤ A`; dominated convergence for large frequencies; Hölder-type splitting for large transfer frequencies |
| C169 | one iteration of the parquet equations of Verif.Sde as a map between states of measurable functions of real frequencies | bounds of bubble and loop by integrable kernels (powers of the distance from the level, `total`), Lipschitz estimates of lines, bubbles and loops, contraction; the fixed point as a pointwise limit; symmetries as limits of C159; the solver by the abstract model of C144 |
| C170 | the sequence of states of a flow with the Runge–Kutta step of Verif.ODE, and the older fourth-order step | mean value inequality for the exact flow, induction over the stages and over the steps; consistency of the tableaux by evaluation; uniform continuity on compact intervals for the limit; a polynomial that vanishes at all nodes refutes the error estimate |
| C171 | the norms of arrays, vectors, self-energies, vertices and states on moduli that are numbers or NaN, the error estimate and the convergence test built on them | induction over the list for the search of the largest element; case analysis of the comparisons with NaN; explicit states for the refutations |
| C172 | the parquet iteration of C169 for two sets of parameters, and sequences of states computed with errors | a change of width or level position is a constant in the self-energy, so the contraction of C169 applies; a bound of the loop integrals over different ranges; distance at most half of itself plus the error |
| C173 | the Runge–Kutta step of C11/C12 as a function of its size, for flows in a Banach space, and the parametrisations of C74 | the flow variable is made part of the state; chain rule up to the fourth derivative; the 17 order conditions checked for each tableau; a function with vanishing derivatives is small, uniformly by compactness; induction over the steps |
| C174 | `Family`: the right-hand side of `Multiloop`/`MfRG` for every scale, the averaged step of `Bse`, the walk of `Accuracy` | implicit function theorem for the solution; contraction for the sum of all loop orders at any nearby state, Lipschitz in the state; then the convergence theorem C170 |
| C175 | `Chains`: the bubble of `Heredity`/`Invariant` and the propagators of `Propagator` on bounded continuous four-point functions | Fubini for two frequency integrals in coordinates in which a chain is a product of kernels; Cauchy–Schwarz and the sum rule of the spectral function for the norm; difference quotients of the propagators relative to the propagator itself for the derivative; then C144 and C174 |
| C176 | `Chains`: `parts`, the reducible parts as a vertex of the code, with `Sde.computeBSE` | one step on bounded continuous functions is the step of the code; symmetry (C159) and equilibrium (C164) of every iterate pass to the limit (C175) and to limits of difference quotients |
| C177 | `Chains/Sum`, `Chains/PropsPass`: `Invariant.eqs` and `MfRG.vertexPass` with the diagrams of the code, `Accuracy.walk` | induction over loop orders: every contribution of the code is the contribution on bounded continuous functions, the two central insertions agree by C175 (chains) so that the exchange of K2 components changes nothing; induction over stages and steps; then C174 |
| C178 | `Export`: `write_h5_rvecs` as a list of effects on the file, the loop of `parquet_checks` | induction over the list of vectors; crash points are prefixes of the list of effects; refutation: the file is emptied first |
| C179 | `Export`: `write_dat_rvecs` with six significant digits | rounding to nearest and the decimal logarithm; refutation by two numbers with the same text and by an unwritable file |
| C180 | `Export`: the two `operator<<` and `all_true` | case distinction over the enumerations; induction over the list of booleans; refutation: `k3_sbe` is printed as `selfenergy` |
| C181 | The sample points and the file name as lists of characters, with `std::to_string`; the directory as a map from names to contents. | Reading the name field by field from the left; the points by direct calculation. The clash of names and the unset interval bounds are refutations. |
| C182 | The right-hand side of C67 with the diagrams of C139 and the exact bubbles of C175, for a fixed number of loops, and the steps of C11; the self-energy is a given function of the scale. | The sum over loop orders is a polynomial in bubbles and state, hence locally Lipschitz; Picard and Lindelöf for existence, Grönwall for uniqueness, C170 for the steps. That only divergence ends a flow: the polynomial is bounded and Lipschitz on bounded sets, so that solutions from bounded points run for the same time and can be glued. |
| C183 | `seTails` on top of the reduction of C44, for data of any shape. | The reduction theorem c44_maxabs and the comparison with the report on the vertices (C123); witnesses computed by the kernel. |
| C184 | The two loops around the GSL minimisers, their stopping tests and the tolerances of the callers; the GSL algorithms are parameters. | Induction on the number of iterations left; an invariant of the bracketing of C62 bounds the first bracket, a geometric series the number of iterations. |
| C185 | operators as loops over the flat buffer, both overloads (Binary.lean) | list induction and the row-major bijection; witness for the overload that asserts |
| C186 | whole vertex and state on top of the cells of C112; files as layered stores (Project.lean) | the components read are never written; induction over the layers; witness for the sign |

Disagreements between property and code found while modelling are listed in section 4.

## 4. Findings (properties false of the code)

For each property that is not proved in full: what holds, what fails, and the theorems that refute it.

* **C02** (Rank-one flat index). The property is false of the code: getFlatIndex<1> reads index 1 of a one-entry array for every input (refuted with a witness). Proved instead: the read is always out of range, and the rank-one multi-index conversion is correct. [`c02_rank_one_refuted`]
* **C05** (Assignment and swap of arrays preserve element addressing). Elements are preserved for all shapes; for slices the property is false when the swapped arrays have different shapes, because swap leaves the cached strides behind (refuted with a witness). Proved for equal shapes. [`c05_swap_slices_refuted`]
* **C06** (Vectorised block reads agree with element reads). Block reads agree with element reads; the block accessor ignores the trailing internal index (refuted with a witness for more than one internal index). [`c06_internal_index_ignored_refuted`]
* **C07** (Elementwise vector arithmetic is pointwise and refuses mismatched lengths). All element-wise operations proved for every length and schedule; the one false clause (imag() of a real vector) is refuted with a witness. [`c07_imag_of_real_refuted`]
* **C08** (Scaling a vector by a complex number multiplies every entry). False of the code: vec*complex returns zeros (temporary discarded). Refuted with a witness; the partial theorem covers the cases where the result is still right. [`c08_scaling_refuted`]
* **C10** (Parallel reduction over an axis is schedule independent). False of the code: the reduction writes a shared accumulator from several threads without synchronisation. Refuted with a two-thread schedule; single-thread case proved. [`c10_sum_refuted`, `c10_max_refuted`]
* **C11** (Runge-Kutta tableaux have the documented order). All order conditions proved over all rooted trees. c11_last_column_refuted records that the accessor get_a does not return 0 for the last column as its comment says; the step loop never asks for it. [`c11_last_column_refuted`]
* **C13** (Adaptive step control terminates and honours the error bound). Proved for every error estimate that is a number (termination, attempt bound, direction, length, error or minimal step, next-step limits). For an infinite estimate the next-step limits fail: c13_infinite_error_refuted shows the flow gets stuck with step zero. [`c13_infinite_error_refuted`]
* **C14** (Adaptive step control gives up when the error estimate is not a number). False of the code: the attempt counter is never incremented, so the limit has no effect, and a NaN estimate makes the loop run forever (proved for every limit). Termination holds without NaN. [`c14_nan_refuted`]
* **C15** (The flow never leaves the integration interval and ends at its endpoint). Proved for flows without checkpoints and positive final value; refuted with checkpoints (overshoot of the end in both flow directions), for negative final values (stops early) and for final value zero (never stops by the end condition). [`c15_negative_end_refuted`, `c15_zero_end_refuted`, `c15_checkpoint_overshoot_refuted`, `c15_ascending_checkpoint_refuted`]
* **C16** (No checkpoint is skipped). Proved for checkpoint lists ordered in the flow direction and crossings above the code's tolerance; refuted for unordered lists and for close checkpoints. [`c16_unordered_refuted`, `c16_close_checkpoint_refuted`]
* **C17** (Resuming a flow continues in the flow direction with the previous step). False of the code: the direction of the saved step is dropped, so with an increasing parametrisation (as used) a resumed descending flow proposes an ascending step. Proved for flows towards larger auxiliary values. [`c17_direction_refuted`, `c17_always_ascending_refuted`, `c17_missing_refuted`]
* **C18** (The number of flow steps is bounded). Step bound and consistency of the recorded list proved for every stepper. c18_no_steps_refuted: a configuration with zero steps reads outside the flow grid. [`c18_no_steps_refuted`]
* **C19** (Flow grid contains its endpoints and is strictly monotone). Proved without checkpoints and for non-negative checkpoints not below the final value; refuted for checkpoints below the final value, after a negative one, coinciding with grid points, and for ascending flows. [`c19_below_final_refuted`, `c19_negative_refuted`, `c19_duplicate_refuted`, `c19_ascending_refuted`]
* **C21** (Auxiliary-grid transformations are inverse to each other and strictly increasing). Proved for versions 1, 2, 4 and the linear map (2 is the one used by default); version 3 collapses a window of width 1e-12 about the centre (refuted with a witness, proved outside). [`c21_v3_refuted`]
* **C23** (Looking up a frequency returns the bracketing grid cell). Proved for w in [w_lower, w_upper); false at the upper edge on every grid, where the default variant reads out of range (C24); the linear variant returns the last cell there. [`c23_upper_edge_refuted`]
* **C24** (Grid look-up never reads outside the grid). Refuted: looking up the upper edge reads all_frequencies[n]; proved below the edge. [`c24_upper_edge_refuted`]
* **C25** (A shifted grid accepts exactly its own box). Refuted for a shifted centre: w_upper is already shifted, so the accepted interval is (-a-tol, a+2c+tol); proved for centre zero. [`c25_shifted_refuted`]
* **C27** (Rounding to Matsubara frequencies). Integer versions proved in full; c27_double_tolerance_refuted: the floating-point variants abort within the tolerance of an even number (not an integer input, so outside the property). [`c27_double_tolerance_refuted`]
* **C30** (Finite-temperature channel conversion preserves the discrete leg energies). Refuted for the conversion from the fermionic convention to channel a (r_vertex.hpp:1642-1647); proved for the other eleven conversions. [`c30_fermionic_to_a_refuted`]
* **C38** (Enforcing symmetries in place is schedule independent and idempotent). Schedule independence and idempotence proved for all interleavings of the accesses under sequentially consistent memory; refuted: race freedom in the C++ sense (zero-weight neighbour reads). [`c38_unsynchronised_refuted`]
* **C40** (Interpolation reproduces stored data at grid points and is exact for affine data). Exact on affine data and at grid points strictly below the last one. c40_last_point_refuted: at the last grid point the default method reads outside the array. Finite-temperature Matsubara tails are not modelled. [`c40_last_point_refuted`]
* **C42** (Finite-difference stencils differentiate quartic polynomials exactly). The general routine (v2/v3) is exact on every strictly increasing grid unless an assertion stops it; no assertion when the spacing is at least h with eps<h^4. Refuted: v1 on non-uniform grids; v2 asserts on fine grids. [`c42_nonuniform_refuted`, `c42_fine_grid_refuted`]
* **C43** (Partial derivatives of multi-dimensional data do not mix rows). Vector version acts line by line for every shape, axis and schedule. Array version: interior points always, ends of lines only if no preceding axis has more than one point; refuted otherwise. [`c43_array_rows_refuted`]
* **C45** (Splitting a vertex into leg-dependent and leg-independent parts is exact). Proved without static feedback (and, for channel-irreducible vertices, when at least the second class is kept): the two parts add up to the vertex, and the four bubble integrands to the product. False with static feedback (other channels counted twice) and for channel-irreducible vertices with only the first class (unassigned variable is returned); both refuted. [`c45_irreducible_refuted`, `c45_static_refuted`]
* **C47** (Dividing a vertex by a vertex divides every part of it). False of the code: division leaves the bare interaction of the dividend unchanged (refuted). Proved: every stored class of every channel is divided. [`c47_bare_refuted`, `c47_state_refuted`]
* **C48** (Vertex norms are norms). Maximum norm (p=0): definite, homogeneous, triangle inequality. p>=1: homogeneous; definite for real data and even p; refuted otherwise because powers are summed without modulus and because the bare part and K2' never enter. [`c48_cancellation_refuted`, `c48_ignored_refuted`]
* **C50** (Taking the modulus of a state affects every component). False of the code for the vertex part: absolute values are taken only of part of the state (refuted). Proved for the rest. [`c50_vertex_refuted`]
* **C52** (A crash while saving never leaves a file whose recorded last layer is incomplete). c52_partial: at every crash point of adding a layer, if the file reports a last layer other than the one being written, that layer reads back exactly as written. Refuted for the remaining crash points: the last-layer attribute is updated before all datasets of the layer are written (c52_window, c52_refuted), a crash during creation leaves a file that reports layer 0 or raises (c52_new_file_refuted), rewriting the last layer mixes old and new data (c52_rewrite_refuted). [`c52_refuted`, `c52_new_file_refuted`, `c52_rewrite_refuted`]
* **C53** (Saving a converged state in a new file succeeds and records convergence). c53_partial: the flag and layer index reported after any history of writes; refuted: a converged initial state is not reported (c53_converged_new_file_refuted), a missing file raises an exception (c53_missing_file_refuted), a flag once set is not reset by later non-converged layers (c53_stale_flag_refuted). [`c53_converged_new_file_refuted`, `c53_missing_file_refuted`, `c53_stale_flag_refuted`]
* **C54** (Saved frequency grids are restored exactly). c54_partial: grids centred at zero with the compiled number of points are restored exactly for all limits, scales and Lambda; refuted for shifted centres (w_center is not saved) and for files with another number of points (read but ignored). [`c54_shifted_refuted`, `c54_points_refuted`]
* **C56** (A diverged parquet iteration is not reported as converged). False of the code: NaN deviations are reported as converged (refuted). [`c56_nan_refuted`]
* **C57** (Restarting the parquet solver uses an existing result if and only if there is one). Refuted in three ways (missing file, last layer 0, loaded converged result reported as unconverged); the remaining cases are proved. [`c57_refuted`]
* **C58** (Convergence with mixing bounds the true residual). Proved for plain mixing, for every absolutely homogeneous size; refuted for the accelerated iteration (stagnation reported as convergence). [`c58_acceleration_refuted`]
* **C61** (Hartree iteration reports failure instead of a wrong result). Bisection sound for every map without NaN; refuted for NaN (returns 1/2). Plain iteration: refuted (two-cycle of a continuous decreasing map never stops; NaN returned); for contractions termination and residual bound proved. [`c61_bracketing_nan_refuted`, `c61_iteration_refuted`, `c61_iteration_nan_refuted`]
* **C63** (Minimiser bracketing terminates). False: a parabola makes the loop alternate for ever between two triples, and monotone costs shrink or grow for ever. Proved for single-minimum costs without exact ties. [`c63_cycle_refuted`, `c63_monotone_refuted`]
* **C64** (Propagators satisfy the fluctuation-dissipation relation). Proved for the equilibrium formulas (all regulators), the general formula with the hybridisation regulator, and the temperature flow. False of the general formula with the frequency regulator, which keeps the term Gamma+Lambda (refuted with a witness). [`c64_general_frequency_regulator_refuted`]
* **C65** (Causality of the self-energy implies a positive spectral function). Proved for the hybridisation, interaction and temperature flows; for the frequency regulator proved at zero level position and refuted away from it. [`c65_frequency_regulator_refuted`]
* **C66** (The single-scale propagator is the regulator derivative of the propagator). Proved for the retarded component (all regulators), the Keldysh component (equilibrium; general with hybridisation regulator; temperature flow at zero chemical potential) and the Matsubara propagators. Refuted for the interaction regulator when the constant part of the self-energy flows. [`c66_interaction_hartree_refuted`]
* **C68** (Distinct configurations write to distinct files). Partial: what a name does determine is proved for all pairs of builds and configurations. Refuted: with DEBUG_SYMMETRIES the interaction is not in the path; final flow parameter, self-energy corrections and small temperatures never are; a converged file with the same name is returned as the result of a different run. [`c68_interaction_refuted`, `c68_builds_refuted`, `c68_temperature_refuted`, `c68_refuted`, `c68_wrong_result_refuted`, `c68_gate_refuted`]
* **C69** (Self-energy approaches its Hartree value outside the frequency box). Outside the box for every interpolation; inside up to the upper edge of the grid. At the upper edge itself the default interpolation reads one entry beyond the grid (refuted). [`c69_edge_refuted`]
* **C70** (Integration of a truncated flow reports non-existing checkpoints as error). Partial: resuming and continuing from stored layers, see the refutations for layers lost and numbers of layers that do not fit the file. [`c70_layers_lost_refuted`, `c70_keeps_refuted`, `c70_too_large_refuted`]
* **C71** (Constructing an array from shape and data of inconsistent size is refused). False of the code: the constructor compares the data size with itself, so a mismatching size is accepted (refuted; proved that every pair is accepted, and what holds for consistent sizes). [`c71_constructor_size_check_refuted`]
* **C72** (The next step size follows the error-controlled growth rule). False of the code: the threshold for maximal growth uses the exponent PGROW instead of 1/PGROW. Proved outside the affected range of error ratios. [`c72_growth_refuted`]
* **C73** (A solver configuration can be used for more than one flow). False of the code: Lambda_now is a mutable member advanced by the solver. [`c73_reuse_refuted`]
* **C75** (Polar and spherical frequency coordinates convert without loss). Polar proved in full; spherical for radius >= 1e-15; false below, where the fermionic frequencies are replaced by 0. [`c75_spherical_refuted`]
* **C76** (Distribution functions are consistent). Proved at finite temperature; at zero temperature proved away from the chemical potential and refuted exactly at it. [`c76_zero_temperature_refuted`]
* **C79** (The configuration restored from a file is the one it was written with). c79_partial: all real-valued parameters are restored; refuted: the int attribute nODE is read into an uninitialised double. [`c79_refuted`]
* **C80** (Arithmetic on vertices that store both halves acts on both halves). Addition acts on both halves; multiplication by a number leaves the second half unchanged (refuted). [`c80_second_half_refuted`]
* **C81** (Adding a number to a state adds it to every component). Every stored entry is shifted except the asymptotic (Hartree) value of the self-energy (refuted). [`c81_asymptotic_refuted`]
* **C82** (A state containing NaN does not have a finite norm). NaN survives for part of the components; a NaN in a vertex class is dropped by std::max (refuted). [`c82_vertex_refuted`]
* **C83** (Recorded flow statistics belong to their layer). Partial: an uninterrupted flow from layer 0. Refuted: the data set of attempts holds times; continuation from layer >= 1 and resuming after a crash between state and statistics throw. [`c83_attempts_refuted`, `c83_continue_refuted`, `c83_crash_refuted`]
* **C84** (Adaptive integration is exact for polynomials and keeps bounds). Exactness up to degree nine and the bounds are proved for every subdivision history over the reals. Refuted: reversed limits are never refined, integrands of size below the absolute tolerance give a wrong zero test, and features between the 13 points are missed. [`c84_reversed_refuted`, `c84_small_refuted`, `c84_missed_refuted`]
* **C86** (Splitting the frequency axis at features loses and duplicates nothing). Refuted for finite domains when a window around a feature extends beyond the limits; the finite case is proved when the windows lie inside. [`c86_window_refuted`]
* **C87** (Zero-temperature Matsubara integration avoids the jumps and covers the axis). Refuted: if all break points coincide an empty list is accessed; a negative w_half is replaced by zero so that jumps are integrated over. [`c87_empty_refuted`, `c87_negative_refuted`]
* **C88** (Simpson integration is exact for polynomials up to degree three). Refuted for an even number of points from four on (every constant is integrated wrongly), for real-valued integrands (uninitialised accumulator), and for two features near the limits with an even number. [`c88_even_refuted`, `c88_double_refuted`, `c88_two_refuted`]
* **C89** (Adaptive Simpson integration ends and is exact up to degree three). Termination and exactness proved. The accuracy clause is refuted: integrands vanishing at five points give zero. [`c89_missed_refuted`]
* **C92** (The self-energy loop contracts vertex and propagator over all internal indices). Contraction, tables, contour basis and scalar forms proved for all inputs; that both versions give the same self-energy (loop.hpp:22) is refuted, and the tabulated Keldysh form stops at an assertion (no table for type 1). [`c92_versions_refuted`, `c92_unswitched_refuted`]
* **C94** (A loop call reads the old self-energy, is independent of thread scheduling and preserves what it does not compute). Version 1 changes the sign of the asymptotic value passed in (refuted); all else proved. [`c94_asymptotic_refuted`]
* **C96** (Finite-temperature frequency sums take the symmetric set of frequencies, scalar or vectorised). Ranges, symmetry, scalar = vectorised entries and output slots proved. Refuted for ANALYTIC_TAILS 0: the scalar code multiplies the tail quadrature by 2*pi*T, the vectorised code by pi*T. Doubles are ring elements. [`c96_tail_refuted`, `c96_tail_factor_refuted`]
* **C98** (Analytic bubble tails are the tail integrals). Regulators 2 (with and without particle-hole symmetry, imaginary and real frequencies) and 4 (with symmetry). Refuted: without particle-hole symmetry the differentiated p-channel tail has the wrong sign (c98_matsubara_diff_refuted, c98_keldysh_diff_refuted), the single logarithm leaves the principal branch if the box is smaller than the level position (c98_branch_refuted), regulators 3 and 4 without symmetry run off the end of the function (c98_unimplemented_refuted). Regulator 3 with symmetry not modelled. [`c98_matsubara_diff_refuted`, `c98_branch_refuted`, `c98_unimplemented_refuted`, `c98_keldysh_diff_refuted`]
* **C100** (The bubble computation adds its result to the vertex it is given). False of the code: the results are stored with set_vec, so what the vertex held in the requested classes is lost (refuted with a witness), and unknown channel letters are silently ignored. Proved: exactly the requested classes of the channel are replaced by the bubble, everything else is kept, and for zero content that equals adding. [`c100_added_refuted`, `c100_letter_refuted`]
* **C101** (The second-order state is the second-order expansion). Proved for the function that takes the state (all exact bubbles, both symmetry modes; bubble and loop numerics abstract). The overload with scale and configuration calls itself and never returns (refuted). [`c101_overload_refuted`]
* **C102** (The third-order state is the sum of the first three orders). False of the code: successive calls overwrite each other, so the first class (and with checked symmetries the second) is lost for every numerics, and the Hartree term is counted twice (refuted with a witness). Proved: the diagrams computed by the nine calls sum to the third order, and classes 2' and 3 (2 and 3 in symmetric runs) are right. [`c102_lost_refuted`, `c102_lost_symmetric_refuted`, `c102_hartree_refuted`, `c102_third_order_refuted`]
* **C103** (The fourth-order state contains the lower orders). False of the code: the last calls overwrite classes 1, 2 and 2' with zeros for every numerics (refuted). Proved: class 3 is right to fourth order. [`c103_lost_refuted`, `c103_fourth_order_refuted`]
* **C107** (Hybrid grids always have ordered sections). refuted: the first boundary of the self-energy grid (25) is not scaled with the hybridisation, so below 25/27 the sections are out of order and for scales in [1/20, 2/5] the last point misses the largest frequency; an update with second boundary above the largest frequency makes the points decrease; setting the parameters of a non-negative grid makes the lower edge negative. Proved: the other default grids, updates within the box [`c107_selfenergy_refuted`, `c107_update_refuted`, `c107_set_refuted`]
* **C109** (An angular grid covers its range and look-up finds the interval). refuted: setting the largest angle of a symmetric grid sets its lower edge to zero and the points then reach only half the largest angle on both sides; the bosonic grid of the second class cannot be constructed. Proved: constructed grids, and updates of the power and of the number of intervals [`c109_set_refuted`, `c109_second_class_refuted`]
* **C110** (Polar frequency coordinates can be converted back and forth). refuted: the first angle -pi of a symmetric grid is never read (its frequencies have the coordinates of the last angle); below radius 1e-15 the direction of three frequencies is lost. Proved: round trips elsewhere and the ranges [`c110_seam_refuted`, `c110_cutoff_refuted`]
* **C114** (At zero temperature only components that vanish are skipped). Proved: components with negative total frequency on the backward branch vanish in the limit and are set to zero. Refuted: a component with total frequency exactly zero is set to zero although it may be finite at every temperature. [`c114_boundary_refuted`]
* **C115** (The comparison with the fluctuation-dissipation relations notices violations). Proved for spin components below the number of internal indices and frequencies above 25 temperatures; refuted for the second spin component (loop bound n_in instead of n_spin) and for smaller frequencies. [`c115_spin_refuted`, `c115_region_refuted`]
* **C116** (Checks of the self-energy report exactly the physical conditions). The fluctuation-dissipation part is proved; the causality check is proved without not-a-number and with one internal index, and refuted otherwise. [`c116_causal_nan_refuted`, `c116_causal_internal_refuted`]
* **C117** (The integrated Ward identity measures the deviation). Refuted: the imaginary part of a sum containing the real Phi is taken, so Phi drops out and the reported deviation is always 1. [`c117_always_one_refuted`, `c117_exact_refuted`]
* **C118** (Post-processing visits every completed layer of a flow once). Proved for the loops up to and including the last layer and for output positions with one internal index; refuted for three loops that skip the last layer, for flows without a completed layer, for the fixed lists of layers, and for more internal indices. [`c118_last_refuted`, `c118_empty_refuted`, `c118_missing_refuted`, `c118_position_refuted`]
* **C120** (Cubic splines reproduce cubic polynomials of the auxiliary coordinate). Proved when the supplied slopes are the exact derivatives (one, two and three frequencies); refuted for the derivatives the code supplies, which are taken per grid index with unit spacing and not with respect to the auxiliary coordinate (c120_refuted). [`c120_refuted`]
* **C121** (Moving stored data to another frequency grid). Entry values for every schedule, range of the values and grids moved in steps are proved. Moving to the same grid is proved for the method 'linear' only; for the default method the look-up of the outermost grid point reads beyond the grid (refuted). Shifted grids lose their first point. [`c121_same_grid_refuted`, `c121_shifted_refuted`]
* **C122** (Tails beyond the frequency box at finite temperature). Proved for the self-energy. One frequency: only for data equal at both ends (the positive tail uses the value of the negative end). Two and three frequencies: no tail in the bosonic frequency (zero beyond the box), wrong reference frequency with a rounding correction, and no interpolation between grid points; refuted with witnesses. [`c122_one_frequency_refuted`, `c122_rounding_refuted`, `c122_bosonic_refuted`, `c122_between_refuted`]
* **C123** (Share of the tails and shrinking of the frequency box). The tail check is proved. Shrinking is refuted: the calls are commented out, so the grid never changes; the uncalled function is proved for symmetric grids if the dropped points do not reach the centre. [`c123_shrink_refuted`]
* **C124** (Measures of roughness used to optimise grids). Proved for real data and for complex data of a single frequency; for complex data of several frequencies squares cancel (refuted), and for vanishing data the result is not a number (refuted). [`c124_complex_refuted`, `c124_zero_refuted`]
* **C125** (Flow driver on top of the Boost steppers stays in its interval and terminates). Interval, records, bound on the number of steps and the end of the run are proved for every stepper that obeys the documented Boost contract. Refuted: a success in the last allowed trial is thrown as a failure; with zero allowed trials a rejected step is recorded; a start at or beyond the step limit writes outside of the list. [`c125_last_trial_refuted`, `c125_second_trial_refuted`, `c125_no_trials_refuted`, `c125_late_start_refuted`]
* **C126** (Checkpoints, step sizes and resumption in the Boost-based flow driver). Proved for checkpoints listed in the direction of the flow. Refuted: unordered checkpoints are passed; after the first checkpoint the proposed step sizes are ignored for the rest of the run; a resumed run starts at the initial flow parameter. [`c126_unordered_refuted`, `c126_stale_refuted`, `c126_resume_refuted`]
* **C127** (Calculating the fundamental sector and completing by symmetry gives the full diagram). Proved for the completed vertex, for sums of parts and for the reordering step, for every schedule of the completion; for imaginary frequencies at finite temperature proved with the exact set of entries that are zero instead (c127_matsubara). Refuted for one part taken alone before the reordering (c127_part_refuted) and for the entries without partner at finite temperature (c127_rounding_refuted). [`c127_rounding_refuted`, `c127_part_refuted`]
* **C128** (Every integral is stored in the entry it belongs to). Proved for both storage modes for every shape, node count and schedule under the stated conditions (one internal index, even number of fermionic frequencies); both conditions are shown to be needed (c128_internal_refuted, c128_odd_refuted). [`c128_internal_refuted`, `c128_odd_refuted`]
* **C129** (The tails of the self-energy loop are the contribution of the frequencies outside of the box). Proved for the Keldysh propagators at zero temperature, the Keldysh loop with its spin sum, and the Matsubara propagators; at finite temperature the code uses the zero-temperature value of the Keldysh component, which is shown to be off by at most 4π exp(-d/T) (full propagator) or 4π/(Γ+Λ) exp(-d/T) (single-scale propagator), d the distance of the edges from the chemical potential (c129_temperature). The Matsubara loop is exact only for the combination it computes (c129_matsubara_loop_partial), because the bare vertex of the second spin component is counted twice (c129_spin_sum_refuted). [`c129_spin_sum_refuted`]
* **C130** (The tail of a bubble with its vertices is the contribution of the frequencies outside of the box). The closed completion is exact for boxes with vmin <= -1/9; nearer to zero the vertices are read inside of the box (c130_inside_refuted). The quadrature agrees in the vectorised branch and is a factor of two too large in the scalar branch (c130_quadrature_refuted). [`c130_inside_refuted`, `c130_quadrature_refuted`]
* **C133** (Preparing a vertex for a bubble or a loop does not change it). Proved at grid points for every way of reading (c133_nodes) and at all frequencies for vertices stored without symmetry reduction (c133_parts_partial). Refuted for the second spin when channels a and t have different grids (c133_grids_refuted), and for the whole of a vertex with one differentiated half, which is read without its own channel (c133_half_refuted). Missing: all frequencies with symmetry reduction, where the interpolation would have to commute with the symmetry operations. [`c133_grids_refuted`, `c133_half_refuted`]
* **C134** (The symmetry check and what a clean report means). Proved: no false alarms (c134_zero), meaning of every deviation (c134_crossing, c134_crossing_p, c134_mixed for the channels a and t, c134_sector), meaning of the printed number. Refuted: a clean report does not imply the symmetries (c134_blind_refuted), and a vanishing K2b next to a non-zero K2 is not reported (c134_missing_refuted). Finite-temperature imaginary frequencies (rounded) are not covered. [`c134_blind_refuted`, `c134_missing_refuted`]
* **C135** (The Ward identity is tested on every saved layer). The tables are proved for one internal index and all layers before the last saved one; the last saved layer is left out (refuted), with several internal indices two tables are stored with the wrong stride (refuted), and the integrated deviation is one whatever the right-hand side, because the imaginary part is taken of a sum whose first summand is real (refuted). [`c135_deviation_refuted`, `c135_last_refuted`, `c135_internal_refuted`]
* **C136** (Post-processed susceptibilities close the vertex with two bare vertices). Both implementations are proved to deliver the closed vertex; the parquet variant uses half of the bare vertex in the Matsubara formalism (refuted there). Assumed of the numerics: additivity, the asymptotics of the first class, associativity of the two bubbles. [`c136_bare_matsubara_refuted`]
* **C137** (Post-processing visits every saved layer once and no other). Susceptibilities and slices visit exactly the saved layers; the sum rule of the susceptibility, the Ward identity and the Kramers-Kronig check leave out the last one, the latter reads missing layers for files of 50 or 100 layers (refuted). [`c137_last_refuted`, `c137_kramers_kronig_refuted`]
* **C138** (Saved intermediate results are those of the first evaluation of the flow). Contents of the directory, independence of the result and the built-in driver are proved in full. Refuted for the Boost driver (c138_boost_refuted): its iteration counter starts at zero also in a continued flow, so that the first step after a restart replaces the saved files; c138_boost says exactly which evaluations save. [`c138_boost_refuted`]
* **C139** (The multi-loop flow follows the parquet solution). Proved for bubbles that are bilinear and can be evaluated from either end of a chain, and a vertex that solves the parquet equations. The exact bubbles at real frequencies have these properties (C175); not proved: that the bubbles computed on grids with quadrature have them exactly; c139_tolerance_refuted shows that the loop tolerance does not bound the error. [`c139_tolerance_refuted`]
* **C142** (The occupation does not depend on the formalism). Zero temperature and the full sum are proved. The finite-temperature value of the code is refuted: the frequencies of the sum are two apart, so a tail integral needs the weight 1/2 but is added with weight 1; the occupation is off by at least arctan(|e|/((2N+1) pi T + Delta))/pi, and by at least 1/4 for a level above the largest frequency. c142_tail_partial bounds the error of the code and of the corrected formula. [`c142_tail_refuted`]
* **C144** (The Bethe-Salpeter step finds solutions of the parquet equations). Solutions are fixed points of the averaged step (c144_solution), but the step averages the left and the right equation, and the average has further fixed points that solve neither version: c144_fixed_refuted, with quaternion-valued vertices. If interaction times bubble is smaller than one, fixed points are solutions (c144_fixed_partial); at weak coupling existence, uniqueness, geometric convergence and termination of the solver with plain mixing are proved. Not proved: convergence with Anderson acceleration, and nothing here about the size of the interaction: for the diagrams at real frequencies C175 gives a sufficient bound. With single-boson exchange K2 of the result is that of the right and K2b that of the left equation (c144_exchange), if they are different components. [`c144_fixed_refuted`]
* **C147** (Checks of a list of frequencies find repetitions and asymmetry). Complete for ordered lists (repetitions) and for at least two frequencies (asymmetry); false for unordered lists, a single frequency and the empty list (counterexamples given). All grids of Matsubara frequencies pass both checks. [`c147_repetition_refuted`, `c147_symmetry_refuted`]
* **C151** (A run depends on its own parameters, not on what was run before). Proved: a flow in a directory without initial solution, a converged initial solution found again after any further runs, scans that overwrite. Refuted: repeated flows continue an iteration that had not converged, and flows at other level positions (with DEBUG_SYMMETRIES: any other parameters) start from a foreign solution. [`c151_level_refuted`, `c151_parameters_refuted`, `c151_history_refuted`]
* **C152** (A parquet scan leaves one converged result for every interaction). Proved for values without a too large value before and without a value after them that prints alike, including that a scan keeps the file with all iterations of an earlier run. Refuted in general, and for the recognition of missing convergence. [`c152_order_refuted`, `c152_precision_refuted`, `c152_convergence_refuted`, `c152_refuted`]
* **C153** (The command line selects the calculation it names or is refused). Proved for three arguments that are integers. Refuted: missing arguments (null pointer), arguments without digits, loop numbers -1 and below -2, computing time with more than one thread. [`c153_nothing_refuted`, `c153_missing_refuted`, `c153_letters_refuted`, `c153_time_refuted`]
* **C154** (Relative deviation of self-energies). Proved where the array of the reference does not vanish. If it vanishes the result is NaN, which the loops take for convergence (c154_nan_refuted). [`c154_nan_refuted`]
* **C155** (The particle-hole check of the self-energy reports every violation). Proved for one internal index, the retarded component and a real Hartree value; further internal indices and the Keldysh component are not looked at by the check. [`c155_internal_refuted`, `c155_keldysh_refuted`]
* **C156** (Iterating the Schwinger-Dyson equation inside the flow). The new value is compared with itself, so the loop ends after one evaluation unless the value is below 1e-10 (c156_once); the claim is refuted. [`c156_convergence_refuted`]
* **C160** (The parquet iteration at imaginary frequencies keeps the symmetries and does not depend on how values are stored). With complex values everything is kept (c160_iteration_partial, c160_solver_partial); with particle-hole symmetry compute_SDE sets the asymptotic value of the stored imaginary part to U/2 (State::initialize sets 0), so the symmetry is broken by U/2 in every iteration (c160_refuted) and the stored values differ from the complex computation (c160_storage_refuted). Frequency dependent part and vertex agree (c160_dynamic, c160_storage_partial). [`c160_refuted`, `c160_storage_refuted`]
* **C161** (The versions of the Schwinger-Dyson equation are equivalent). Versions 1 and 2 (and the channels a, p, t with the same vertex) tend to the same self-energy when POSINTRANGE grows (c161_versions_partial, c161_channels_partial); at a given range they differ (c161_refuted). The propagators of REG 2 satisfy the decay condition (c161_decays). Version 3 is C163. [`c161_refuted`]
* **C164** (Diagrams of quantities in thermal equilibrium are in thermal equilibrium). Proved for exact integrals and the hybridisation regulator; the extraction of K2 in the central part is assumed to leave equilibrium intact, damped self-energies are a hypothesis at every step, and for K2 and K3 the vanishing of the last component is a hypothesis of the completion. Refuted: with USE_FDT_4_SELFENERGY the extension of the propagator is not in equilibrium when the scale differs from the temperature (c164_option_refuted); c164_option_partial is the case in which it is. [`c164_option_refuted`]
* **C165** (The flow restricted to second order follows second-order perturbation theory). Real frequencies: proved for exact integrals, self-energy in the limit of complete loop integrals and at half filling (eps = -U/2, mu = 0), which PT2_FLOW demands. Imaginary frequencies with particle-hole symmetry: refuted for the vertex (c165_imag_refuted); c165_imag_partial is what would hold with a common self-energy. [`c165_imag_refuted`]
* **C167** (The sum rule of the spectral function). The documentation says the result should be 1: over a finite box it never is (c167_one_refuted), and with the interaction regulator the full integral is the flow parameter, not 1 (c167_interaction_refuted). The check does not detect every acausal self-energy (c167_blind). Exact integral over the box instead of the quadrature; the frequency regulator (REG 3) is not treated. [`c167_one_refuted`, `c167_interaction_refuted`]
* **C170** (The computed flow approaches the flow). Proved for exact arithmetic and any norm in which the right-hand side is Lipschitz near the flow; existence of the exact flow is assumed (near every starting scale it is proved for the vertex flow with a given self-energy in C182). The bound is of first order in the step (the high order of the schemes is C11 and C12). Refuted: the error estimate of the step control does not bound the error (c170_estimate_refuted). [`c170_estimate_refuted`]
* **C171** (A NaN anywhere in a state shows in its norm). Without NaN the norms are what is claimed (c171_state_partial). With NaN the claim is false: the norm of a state is NaN exactly if the first value of the self-energy is (c171_seen_partial); a NaN in the vertex never shows and may remove the whole vertex from the norm (c171_vertex_refuted), a step with a vertex of NaN only is accepted (c171_step_refuted), and the parquet solver then tests the self-energy only (c171_parquet_refuted). Infinities are not modelled. Assertions in the interpolation stop a run that goes on with such a state; the step itself is accepted and stored before. [`c171_vector_refuted`, `c171_order_refuted`, `c171_vertex_refuted`, `c171_step_refuted`, `c171_parquet_refuted`]
* **C178** (Exported vectors are found under their keys, and an interrupted export loses nothing). Contents proved, with the exact condition for success; false: with too few keys or an empty vector the behaviour is undefined, and an interrupted export has already emptied the file, so that parquet_checks can lose the norms of all scales checked before. Partial: what an interrupted file contains. parquet_checks is declared with one parameter but defined with two. [`c178_short_keys_refuted`, `c178_crash_refuted`, `c178_checks_crash_refuted`]
* **C179** (Vectors exported as text can be read back). False for numbers with more than six digits and if the file cannot be opened; the relative error of 5e-6 and exactness for six digits are proved. [`c179_exact_refuted`, `c179_silent_refuted`]
* **C180** (Printed names identify what they name, and compile-time checks of argument lists check all arguments). False for the class k3_sbe, which is printed as selfenergy; the rest is proved. [`c180_classes_refuted`]
* **C181** (Saved integrands). The points are even and include both ends for K1, K2, K3 and the self-energy, and the name determines class, channel, indices and, to six decimals, w and the one fermionic frequency it contains. Refuted: for K2b the interval is read from unset variables; K3 integrands at different v, K2b integrands at different fermionic frequencies and integrands of different spin components share a file, so the later replaces the earlier. [`c181_points_refuted`, `c181_kept_refuted`]
* **C183** (The report on the tails of the self-energy). False in general: only the first frequency is looked at (the vertices are judged by their last one), so that tails at the upper end go unnoticed, and a vanishing self-energy gives NaN. Proved: what is reported, and that it is what is claimed if the moduli are the same at mirrored frequencies, as they are with particle-hole symmetry. [`c183_both_ends_refuted`, `c183_number_refuted`]
* **C184** (The search for the best frequency grid ends, does not make the grid worse and reaches the accuracy asked for). The algorithms of the GSL are parameters with stated requirements. Iterations, bracket and cost are as claimed. The accuracy is reached within the twenty iterations allowed if the bracket shrinks to 70 percent or less each time (the bracket found before spans at most a factor of four); otherwise the program takes the result without notice (c184_scale_refuted). With two parameters (hybrid grid) the program asks for an absolute accuracy of zero, so that success is impossible and all hundred iterations are always made (c184_simplex_refuted). [`c184_scale_refuted`, `c184_simplex_refuted`]
* **C185** (Operators between multi-dimensional arrays act element by element, and comparison is by shape and contents). Element by element action, operand order, minus and equality are proved for all shapes and types. Refuted: for operands whose result has the type of the left one, arrays of different shapes stop the program with an assertion instead of the length error. [`c185_mismatch_refuted`]
* **C186** (The comparison with the fluctuation-dissipation relations yields a state that obeys them, and its files give back the compared state). Projection, files of a flow, silence and failure for missing files are proved. Refuted: the comparison of a single vertex writes the difference with the opposite sign to a file of the same name. [`c186_sign_refuted`]

Further observations that are not properties of their own:

* The contour basis (`CONTOUR_BASIS 1`) does not compile; it is modelled only where its formulas are used for comparison.
* `dLambda_initial` has no effect in a descending flow of the Boost driver (C125).
* `parquet_checks` is declared with one argument and defined with more, so that it cannot be linked.
* The branch of `mfRG_record::save_states` that appends to a file is never taken (C138).
* `KramersKronig.c++` consists of comments.
* In the contour basis the non-vectorised branch of the loop computes retarded and Keldysh values but never stores them (loop.hpp:170-189).
* With `SELF_ENERGY_FLOW_CORRECTIONS 2` and acceleration, right_hand_sides.hpp:511 assigns a state to a self-energy, which does not compile.
* With `DEBUG_SYMMETRIES 1`, `compute_SDE_impl_v3` for differentiated vertices scales a vertex obtained by a constant reference (parquet_solver.hpp:264-266), which does not compile.
* Boson-exchange decomposition on the real axis with particle-hole symmetry does not compile: the transformation lists `TransformaK2a` etc. are then lists of lists (symmetry_table.hpp:831-835), while `FrequencyTransformations::K2` is a list.
* `COUNT` is declared only in the real-frequency branch of frequency_parameters.hpp (line 26) but used in the imaginary-frequency branch (lines 28-33), so that the imaginary-frequency build does not compile as it stands.
* `GeneralVertex::update_grid` of a vertex with two halves calls `vertex_half2.update_grid(Lambda, config)` with too few arguments (vertex.hpp:1024-1026); it is never instantiated. Grids are never centred away from zero: `center_frequency_grids` is only called with 0 (state.hpp:161).

## 5. Which code is modelled where

Every definition cites its source lines; the table is collected from these citations.

| source file (under /repo/source) | modules |
|---|---|
| `ODE_solvers/ODE_solver_config.hpp` | Flow |
| `ODE_solvers/ODE_solvers.hpp` | Accuracy, Boost, Continue, Flow, Nan, ODE, Record, Stats, StepControl |
| `ODE_solvers/old_solvers.hpp` | Accuracy |
| `asymptotic_corrections/bubble_corrections.hpp` | Tails |
| `asymptotic_corrections/correction_functions.hpp` | DiagTails, Filling, Tails |
| `asymptotic_corrections/loop_corrections.hpp` | DiagTails |
| `bubble/bubble.hpp` | Freqs, Heredity, Imag, Keldysh, MatSum, Pipeline, Tails |
| `bubble/bubble_function.hpp` | Bse, DiagTails, Heredity, Imag, ImagFlow, Keldysh, Layout, MatSum, Mpi, Perturb, Pipeline, Reduce, Symmetries |
| `bubble/integrand.hpp` | Export, Heredity, Imag, Keldysh, Pipeline, Skip, SpinSum, Symmetries, Vertex |
| `correlation_functions/four_point/r_vertex.hpp` | Check, Expand, Fdt, Freqs, Keldysh, Reduce, Sbe, State, Symmetries, Vertex |
| `correlation_functions/four_point/vertex.hpp` | Check, Expand, Imag, ImagFlow, Invariant, Multiloop, Nan, Perturb, Postproc, Pt2, Reduce, Sbe, Sde, State, Vertex |
| `correlation_functions/n_point/data_buffer.hpp` | Buffer, Dense, Expand, Interp, Minimizer, Reduce, State, Symmetries |
| `correlation_functions/n_point/data_container.hpp` | Buffer |
| `correlation_functions/state.hpp` | Buffer, Nan, Perturb, Pt2, Sde, State |
| `correlation_functions/two_point/propagator.c++` | Propagator |
| `correlation_functions/two_point/propagator.hpp` | Filling, Heredity, ImagFlow, Invariant, Keldysh, Loop, Propagator, Thermal |
| `correlation_functions/two_point/selfenergy.hpp` | Buffer, Loop, Nan, Perturb, Pt2, Sde, SeDev, SelfEnergy, State |
| `data_structures.c++` | Export |
| `data_structures.hpp` | Expand, Export, FileName, Layout, Nan, Pipeline, Quad, Symmetries, Vec, Vertex |
| `grids/flow_grid.c++` | FlowGrid, GridMap |
| `grids/flow_grid.hpp` | GridMap |
| `grids/frequency_grid.c++` | Angular, Dense, GridMap, Hybrid, Pipeline, Reduce |
| `grids/frequency_grid.hpp` | Angular, Buffer, Dense, FreqGrid, Hybrid, Interp, Reduce, Spline |
| `integrator/integrator.hpp` | Filling, MatSum, Quad |
| `integrator/integrator_NR.hpp` | Quad |
| `integrator/old_integrators.hpp` | Simpson |
| `interpolations/InterpolatorLinOrSloppy.hpp` | Dense, Interp, Pipeline, Reduce |
| `interpolations/InterpolatorSpline1D.hpp` | Spline |
| `interpolations/InterpolatorSpline2D.hpp` | Spline |
| `interpolations/InterpolatorSpline3D.hpp` | Spline |
| `loop/integrandSE.hpp` | DiagTails, Export, ImagFlow, Invariant, Loop, Sde |
| `loop/loop.hpp` | ImagFlow, Invariant, Loop, MatSum, Robust, Sde, Thermal |
| `main.cpp` | Driver, FileName |
| `mfRG_flow/flow.c++` | Continue, Driver, Pt2 |
| `mfRG_flow/right_hand_sides.hpp` | ImagFlow, Invariant, MfRG, Multiloop, Pt2, Record, Reduce, SeDev, Stats |
| `multidimensional/multiarray.hpp` | Buffer, Check, MultiArray, Nan, State |
| `multidimensional/ranged_view.hpp` | MultiArray |
| `parameters/frequency_parameters.hpp` | Dense, FileName |
| `parameters/master_parameters.hpp` | Boost, FileName, MfRG, Pt2, Thermal |
| `parameters/technical_parameters.hpp` | Interp |
| `perturbation_theory_and_parquet/hartree_term.c++` | Filling, Hartree |
| `perturbation_theory_and_parquet/hartree_term.hpp` | Filling |
| `perturbation_theory_and_parquet/parquet_solver.c++` | Driver, Export |
| `perturbation_theory_and_parquet/parquet_solver.hpp` | Bse, Converge, Loop, Nan, Parquet, Postproc, Sde |
| `perturbation_theory_and_parquet/perturbation_theory.hpp` | Causal, Perturb, Pt2 |
| `postprocessing/causality_FDT_checks.c++` | Fdt |
| `postprocessing/causality_FDT_checks.hpp` | Fdt |
| `postprocessing/postprocessing.c++` | Fdt, Postproc, Spectrum |
| `postprocessing/postprocessing.hpp` | Fdt, Postproc, Spectrum |
| `postprocessing/sanity_check.hpp` | Spectrum |
| `symmetries/Keldysh_symmetries.c++` | Keldysh |
| `symmetries/Keldysh_symmetries.hpp` | Keldysh, Symmetries |
| `symmetries/symmetry_table.hpp` | Symmetries |
| `symmetries/symmetry_transformations.c++` | Symmetries |
| `symmetries/symmetry_transformations.hpp` | Symmetries |
| `utilities/anderson_acceleration.hpp` | Anderson |
| `utilities/hdf5_routines.c++` | Parquet |
| `utilities/hdf5_routines.hpp` | Driver, Fdt, GridSave, Record, Stats |
| `utilities/math_utils.c++` | Angular, Dense, Freqs, GridMap, Propagator, StepControl |
| `utilities/math_utils.hpp` | Collapse, FinDiff, FreqGrid, Freqs, GridMap, Index, Interp, Propagator, Sbe, Symmetries |
| `utilities/minimizer.hpp` | Minimizer |
| `utilities/mpi_setup.c++` | Mpi |
| `utilities/mpi_setup.hpp` | Mpi |
| `utilities/template_utils.hpp` | Export |
| `utilities/util.c++` | Driver, FileName |
| `utilities/write_data2file.c++` | Export |

Not modelled at all: `asymptotic_corrections/bubble_corrections.c++`, `asymptotic_corrections/loop_corrections.c++`, `integrator/integrator.c++`, `integrator/old_integrators.c++`, `mfRG_flow/flow.hpp`, `postprocessing/KramersKronig.c++`, `postprocessing/KramersKronig.hpp`, `postprocessing/main_postproc.cpp`, `utilities/runtime_error.hpp`, `utilities/util.hpp`, `utilities/write_data2file.hpp`, and the test programs.
