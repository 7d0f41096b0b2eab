{
 "claims": [
  {
   "property": "C01",
   "status": "proved",
   "theorems": [
    "Verif.Index.c01_flat_size",
    "Verif.Index.c01_mult_flat_mult",
    "Verif.Index.c01_flat_mult_flat",
    "Verif.Index.c01_injective",
    "Verif.Index.c01_division_by_zero"
   ],
   "note": ""
  },
  {
   "property": "C02",
   "status": "partial",
   "theorems": [
    "Verif.Index.c02_rank_one_refuted",
    "Verif.Index.c02_rank_one_always_out_of_range",
    "Verif.Index.c02_rank_one_mult_partial"
   ],
   "note": "The property is false of the code: getFlatIndex<1> reads index 1 of a one-entry array for every input (refuted with a witness). Proved instead: the read is always out of range, and the rank-one multi-index conversion is correct."
  },
  {
   "property": "C03",
   "status": "proved",
   "theorems": [
    "Verif.Index.c03_rotate_same_element",
    "Verif.Index.c03_rotate_bijective",
    "Verif.Index.c03_last_axis",
    "Verif.Index.c03_permute_cyclic",
    "Verif.Index.c03_permute_cyclic_asserts",
    "Verif.Index.c03_inverse_permutation",
    "Verif.Index.c03_rotate_no_axis"
   ],
   "note": ""
  },
  {
   "property": "C04",
   "status": "proved",
   "theorems": [
    "Verif.MultiArray.c04_make",
    "Verif.MultiArray.c04_operations_refine_map",
    "Verif.MultiArray.c04_out_of_range",
    "Verif.MultiArray.c04_shape_mismatch",
    "Verif.MultiArray.c04_never_undefined"
   ],
   "note": ""
  },
  {
   "property": "C05",
   "status": "partial",
   "theorems": [
    "Verif.MultiArray.c05_assign",
    "Verif.MultiArray.c05_swap_elements_partial",
    "Verif.MultiArray.c05_swap_same_shape_partial",
    "Verif.MultiArray.c05_swap_slices_refuted"
   ],
   "note": "Elements are preserved for all shapes; for slices the property is false when the swapped arrays have different shapes, because swap leaves the cached strides behind (refuted with a witness). Proved for equal shapes."
  },
  {
   "property": "C06",
   "status": "partial",
   "theorems": [
    "Verif.MultiArray.c06_block_read",
    "Verif.MultiArray.c06_block_too_long",
    "Verif.MultiArray.c06_sample_neighbourhood",
    "Verif.MultiArray.c06_internal_index_ignored_refuted",
    "Verif.MultiArray.c06_block_view",
    "Verif.MultiArray.c06_block_vec",
    "Verif.MultiArray.c06_block_view_refuses",
    "Verif.MultiArray.c06_block_out_of_range",
    "Verif.MultiArray.c06_sample_dimensions",
    "Verif.MultiArray.c06_corners"
   ],
   "note": "Block reads agree with element reads; the block accessor ignores the trailing internal index (refuted with a witness for more than one internal index)."
  },
  {
   "property": "C07",
   "status": "partial",
   "theorems": [
    "Verif.Vec.c07_elementwise",
    "Verif.Vec.c07_elementwise_mismatch",
    "Verif.Vec.c07_elementwise_assign",
    "Verif.Vec.c07_elementwise_assign_mismatch",
    "Verif.Vec.c07_self_assign",
    "Verif.Vec.c07_scalar",
    "Verif.Vec.c07_scalar_assign",
    "Verif.Vec.c07_const_minus",
    "Verif.Vec.c07_transform",
    "Verif.Vec.c07_abs_any_schedule",
    "Verif.Vec.c07_add_const_any_schedule",
    "Verif.Vec.c07_subvector",
    "Verif.Vec.c07_subvector_undefined",
    "Verif.Vec.c07_diff",
    "Verif.Vec.c07_diff_empty",
    "Verif.Vec.c07_sum",
    "Verif.Vec.c07_max_norm",
    "Verif.Vec.c07_imag_of_real_refuted"
   ],
   "note": "All element-wise operations proved for every length and schedule; the one false clause (imag() of a real vector) is refuted with a witness."
  },
  {
   "property": "C08",
   "status": "partial",
   "theorems": [
    "Verif.Vec.c08_result_is_zero",
    "Verif.Vec.c08_scaling_refuted",
    "Verif.Vec.c08_scaling_partial"
   ],
   "note": "False of the code: vec*complex returns zeros (temporary discarded). Refuted with a witness; the partial theorem covers the cases where the result is still right."
  },
  {
   "property": "C09",
   "status": "proved",
   "theorems": [
    "Verif.Mpi.c09_parallel_evaluation",
    "Verif.Mpi.c09_entry",
    "Verif.Mpi.c09_independent",
    "Verif.Mpi.c09_zero_nodes"
   ],
   "note": ""
  },
  {
   "property": "C10",
   "status": "partial",
   "theorems": [
    "Verif.Collapse.c10_sum_refuted",
    "Verif.Collapse.c10_max_refuted",
    "Verif.Collapse.c10_single_thread_partial",
    "Verif.Collapse.c10_short_data"
   ],
   "note": "False of the code: the reduction writes a shared accumulator from several threads without synchronisation. Refuted with a two-thread schedule; single-thread case proved."
  },
  {
   "property": "C11",
   "status": "proved",
   "theorems": [
    "Verif.ODE.c11_cash_karp_order_five",
    "Verif.ODE.c11_cash_karp_embedded_order_four",
    "Verif.ODE.c11_cash_karp_orders_sharp",
    "Verif.ODE.c11_rk4_order_four",
    "Verif.ODE.c11_bogacki_shampine_orders",
    "Verif.ODE.c11_nodes_and_explicit",
    "Verif.ODE.c11_last_column_refuted"
   ],
   "note": "All order conditions proved over all rooted trees. c11_last_column_refuted records that the accessor get_a does not return 0 for the last column as its comment says; the step loop never asks for it."
  },
  {
   "property": "C12",
   "status": "proved",
   "theorems": [
    "Verif.ODE.c12_linear_flow",
    "Verif.ODE.c12_linear_flow_rk4",
    "Verif.ODE.c12_polynomial_exact",
    "Verif.ODE.c12_error_estimate",
    "Verif.ODE.c12_reparametrised"
   ],
   "note": ""
  },
  {
   "property": "C13",
   "status": "partial",
   "theorems": [
    "Verif.StepControl.c13_terminates",
    "Verif.StepControl.c13_attempt_bound_exists",
    "Verif.StepControl.c13_first_attempt",
    "Verif.StepControl.c13_next_step",
    "Verif.StepControl.c13_infinite_error_refuted"
   ],
   "note": "Proved for every error estimate that is a number (termination, attempt bound, direction, length, error or minimal step, next-step limits). For an infinite estimate the next-step limits fail: c13_infinite_error_refuted shows the flow gets stuck with step zero."
  },
  {
   "property": "C14",
   "status": "partial",
   "theorems": [
    "Verif.StepControl.c14_limit_has_no_effect",
    "Verif.StepControl.c14_nan_refuted",
    "Verif.StepControl.c14_numbers_partial"
   ],
   "note": "False of the code: the attempt counter is never incremented, so the limit has no effect, and a NaN estimate makes the loop run forever (proved for every limit). Termination holds without NaN."
  },
  {
   "property": "C15",
   "status": "partial",
   "theorems": [
    "Verif.Flow.c15_interval_partial",
    "Verif.Flow.c15_end_reached_partial",
    "Verif.Flow.c15_stops_at_end",
    "Verif.Flow.c15_negative_end_refuted",
    "Verif.Flow.c15_zero_end_refuted",
    "Verif.Flow.c15_checkpoint_overshoot_refuted",
    "Verif.Flow.c15_ascending_checkpoint_refuted",
    "Verif.Flow.c15_after_checkpoint_partial"
   ],
   "note": "Proved for flows without checkpoints and positive final value; refuted with checkpoints (overshoot of the end in both flow directions), for negative final values (stops early) and for final value zero (never stops by the end condition)."
  },
  {
   "property": "C16",
   "status": "partial",
   "theorems": [
    "Verif.Flow.c16_no_skip_partial",
    "Verif.Flow.c16_unordered_refuted",
    "Verif.Flow.c16_close_checkpoint_refuted"
   ],
   "note": "Proved for checkpoint lists ordered in the flow direction and crossings above the code's tolerance; refuted for unordered lists and for close checkpoints."
  },
  {
   "property": "C17",
   "status": "partial",
   "theorems": [
    "Verif.Flow.c17_direction_refuted",
    "Verif.Flow.c17_always_ascending_refuted",
    "Verif.Flow.c17_increasing_partial",
    "Verif.Flow.c17_resume_partial",
    "Verif.Flow.c17_limits_partial",
    "Verif.Flow.c17_fresh_partial",
    "Verif.Flow.c17_missing_refuted"
   ],
   "note": "False of the code: the direction of the saved step is dropped, so with an increasing parametrisation (as used) a resumed descending flow proposes an ascending step. Proved for flows towards larger auxiliary values."
  },
  {
   "property": "C18",
   "status": "partial",
   "theorems": [
    "Verif.Flow.c18_bounded",
    "Verif.Flow.c18_record",
    "Verif.Flow.c18_no_steps_refuted"
   ],
   "note": "Step bound and consistency of the recorded list proved for every stepper. c18_no_steps_refuted: a configuration with zero steps reads outside the flow grid."
  },
  {
   "property": "C19",
   "status": "partial",
   "theorems": [
    "Verif.FlowGrid.c19_base_grid",
    "Verif.FlowGrid.c19_checkpoints_partial",
    "Verif.FlowGrid.c19_strict_partial",
    "Verif.FlowGrid.c19_below_final_refuted",
    "Verif.FlowGrid.c19_negative_refuted",
    "Verif.FlowGrid.c19_duplicate_refuted",
    "Verif.FlowGrid.c19_ascending_refuted",
    "Verif.FlowGrid.c19_step_sizes",
    "Verif.FlowGrid.c19_derived_checkpoints"
   ],
   "note": "Proved without checkpoints and for non-negative checkpoints not below the final value; refuted for checkpoints below the final value, after a negative one, coinciding with grid points, and for ascending flows."
  },
  {
   "property": "C20",
   "status": "proved",
   "theorems": [
    "Verif.GridMap.c20_sqrt",
    "Verif.GridMap.c20_exp",
    "Verif.GridMap.c20_log",
    "Verif.GridMap.c20_linear",
    "Verif.GridMap.c20_substitutions"
   ],
   "note": ""
  },
  {
   "property": "C21",
   "status": "partial",
   "theorems": [
    "Verif.GridMap.c21_v1",
    "Verif.GridMap.c21_v2",
    "Verif.GridMap.c21_v4",
    "Verif.GridMap.c21_lin",
    "Verif.GridMap.c21_v3_partial",
    "Verif.GridMap.c21_v3_refuted",
    "Verif.GridMap.c21_odd"
   ],
   "note": "Proved for versions 1, 2, 4 and the linear map (2 is the one used by default); version 3 collapses a window of width 1e-12 about the centre (refuted with a witness, proved outside)."
  },
  {
   "property": "C22",
   "status": "proved",
   "theorems": [
    "Verif.FreqGrid.c22_span_increasing",
    "Verif.FreqGrid.c22_symmetric",
    "Verif.FreqGrid.c22_default"
   ],
   "note": "Generic over the grid map (any ChangeOfVariable) and instantiated for the default real-frequency grid."
  },
  {
   "property": "C23",
   "status": "partial",
   "theorems": [
    "Verif.FreqGrid.c23_cell_partial",
    "Verif.FreqGrid.c23_upper_edge_refuted",
    "Verif.FreqGrid.c23_upper_edge_linear"
   ],
   "note": "Proved for w in [w_lower, w_upper); false at the upper edge on every grid, where the default variant reads out of range (C24); the linear variant returns the last cell there."
  },
  {
   "property": "C24",
   "status": "partial",
   "theorems": [
    "Verif.FreqGrid.c24_upper_edge_refuted",
    "Verif.FreqGrid.c24_inside_partial"
   ],
   "note": "Refuted: looking up the upper edge reads all_frequencies[n]; proved below the edge."
  },
  {
   "property": "C25",
   "status": "partial",
   "theorems": [
    "Verif.FreqGrid.c25_centred_partial",
    "Verif.FreqGrid.c25_shifted_refuted",
    "Verif.FreqGrid.c25_accepted_interval",
    "Verif.FreqGrid.c25_centre"
   ],
   "note": "Refuted for a shifted centre: w_upper is already shifted, so the accepted interval is (-a-tol, a+2c+tol); proved for centre zero."
  },
  {
   "property": "C26",
   "status": "proved",
   "theorems": [
    "Verif.FreqGrid.c26_locate",
    "Verif.FreqGrid.c26_outside"
   ],
   "note": ""
  },
  {
   "property": "C27",
   "status": "proved",
   "theorems": [
    "Verif.Freqs.c27_integer_division",
    "Verif.Freqs.c27_round_even",
    "Verif.Freqs.c27_halves",
    "Verif.Freqs.c27_double_on_integers",
    "Verif.Freqs.c27_double_tolerance_refuted",
    "Verif.Freqs.c27_round_fixed"
   ],
   "note": "Integer versions proved in full; c27_double_tolerance_refuted: the floating-point variants abort within the tolerance of an even number (not an integer input, so outside the property)."
  },
  {
   "property": "C28",
   "status": "proved",
   "theorems": [
    "Verif.Freqs.c28_bosonic",
    "Verif.Freqs.c28_transfer"
   ],
   "note": ""
  },
  {
   "property": "C29",
   "status": "proved",
   "theorems": [
    "Verif.Freqs.c29_legs",
    "Verif.Freqs.c29_compose"
   ],
   "note": ""
  },
  {
   "property": "C30",
   "status": "partial",
   "theorems": [
    "Verif.Freqs.c30_legs_partial",
    "Verif.Freqs.c30_fermionic_to_a_refuted",
    "Verif.Freqs.c30_fermionic_to_a_exact",
    "Verif.Freqs.c30_parity"
   ],
   "note": "Refuted for the conversion from the fermionic convention to channel a (r_vertex.hpp:1642-1647); proved for the other eleven conversions."
  },
  {
   "property": "C31",
   "status": "proved",
   "theorems": [
    "Verif.Keldysh.c31_decode_encode",
    "Verif.Keldysh.c31_encode_decode",
    "Verif.Keldysh.c31_bits"
   ],
   "note": ""
  },
  {
   "property": "C32",
   "status": "proved",
   "theorems": [
    "Verif.Keldysh.c32_inverse",
    "Verif.Keldysh.c32_injective",
    "Verif.Keldysh.c32_left_right"
   ],
   "note": ""
  },
  {
   "property": "C33",
   "status": "proved",
   "theorems": [
    "Verif.Keldysh.c33_pair_matrix",
    "Verif.Keldysh.c33_pair_matrix_diff",
    "Verif.Keldysh.c33_contraction",
    "Verif.Keldysh.c33_stored",
    "Verif.Keldysh.c33_spin_sum"
   ],
   "note": ""
  },
  {
   "property": "C34",
   "status": "proved",
   "theorems": [
    "Verif.Keldysh.c34_value",
    "Verif.Keldysh.c34_value_diff",
    "Verif.Keldysh.c34_zero",
    "Verif.Keldysh.c34_nonzero"
   ],
   "note": ""
  },
  {
   "property": "C35",
   "status": "proved",
   "theorems": [
    "Verif.Symmetries.c35_value",
    "Verif.Symmetries.c35_rounding",
    "Verif.Symmetries.c35_value_rounded",
    "Verif.Symmetries.c35_defined",
    "Verif.Symmetries.c35_group"
   ],
   "note": "Full: every code accepted by Ti leaves the value read from any vertex with crossing, conjugation, particle-hole and time-reversal symmetry unchanged (real frequencies, zero-temperature and rounded Matsubara frequencies); group relations; every table code is defined."
  },
  {
   "property": "C36",
   "status": "proved",
   "theorems": [
    "Verif.Symmetries.c36_transformation_matsubara",
    "Verif.Symmetries.c36_entries",
    "Verif.Symmetries.c36_vanishing",
    "Verif.Symmetries.c36_classes",
    "Verif.Symmetries.c36_transformation"
   ],
   "note": "Default tables (non-contour basis, no SBE). Entries, vanishing entries and equivalence classes are proved equal to an independent specification from causality and leg permutations."
  },
  {
   "property": "C37",
   "status": "proved",
   "theorems": [
    "Verif.Symmetries.c37_K1",
    "Verif.Symmetries.c37_K2",
    "Verif.Symmetries.c37_K3",
    "Verif.Symmetries.c37_K1_rounded",
    "Verif.Symmetries.c37_K2_rounded",
    "Verif.Symmetries.c37_K3_rounded"
   ],
   "note": ""
  },
  {
   "property": "C38",
   "status": "partial",
   "theorems": [
    "Verif.Symmetries.c38_result",
    "Verif.Symmetries.c38_schedule",
    "Verif.Symmetries.c38_idempotent",
    "Verif.Symmetries.c38_sequential",
    "Verif.Symmetries.c38_unsynchronised_refuted",
    "Verif.Symmetries.c38_reads",
    "Verif.Symmetries.c38_reads_all",
    "Verif.Symmetries.c38_zero"
   ],
   "note": "Schedule independence and idempotence proved for all interleavings of the accesses under sequentially consistent memory; refuted: race freedom in the C++ sense (zero-weight neighbour reads)."
  },
  {
   "property": "C39",
   "status": "proved",
   "theorems": [
    "Verif.Interp.c39_partition_of_unity",
    "Verif.Interp.c39_between_neighbours"
   ],
   "note": "Weights of the multilinear look-up sum to one and lie in [0,1], so every interpolated value lies between its neighbours."
  },
  {
   "property": "C40",
   "status": "partial",
   "theorems": [
    "Verif.Interp.c40_grid_point_partial",
    "Verif.Interp.c40_affine_partial",
    "Verif.Interp.c40_outside",
    "Verif.Interp.c40_last_point_refuted",
    "Verif.Interp.c40_nested_affine_partial"
   ],
   "note": "Exact on affine data and at grid points strictly below the last one. c40_last_point_refuted: at the last grid point the default method reads outside the array. Finite-temperature Matsubara tails are not modelled."
  },
  {
   "property": "C41",
   "status": "proved",
   "theorems": [
    "Verif.Interp.c41_cubic",
    "Verif.Interp.c41_edge_cells_assert",
    "Verif.Interp.c41_lagrange"
   ],
   "note": "Cubic four-point formula exact for cubics at interior cells; edge cells assert; Lagrange polynomial exact."
  },
  {
   "property": "C42",
   "status": "partial",
   "theorems": [
    "Verif.FinDiff.c42_general_partial",
    "Verif.FinDiff.c42_separated_partial",
    "Verif.FinDiff.c42_order_partial",
    "Verif.FinDiff.c42_unit_grid",
    "Verif.FinDiff.c42_equidistant_partial",
    "Verif.FinDiff.c42_nonuniform_refuted",
    "Verif.FinDiff.c42_fine_grid_refuted"
   ],
   "note": "The general routine (v2/v3) is exact on every strictly increasing grid unless an assertion stops it; no assertion when the spacing is at least h with eps<h^4. Refuted: v1 on non-uniform grids; v2 asserts on fine grids."
  },
  {
   "property": "C43",
   "status": "partial",
   "theorems": [
    "Verif.FinDiff.c43_refused",
    "Verif.FinDiff.c43_no_axis",
    "Verif.FinDiff.c43_vector_rows",
    "Verif.FinDiff.c43_vector_polynomial",
    "Verif.FinDiff.c43_array_rows_partial",
    "Verif.FinDiff.c43_three_point_exact",
    "Verif.FinDiff.c43_array_rows_refuted"
   ],
   "note": "Vector version acts line by line for every shape, axis and schedule. Array version: interior points always, ends of lines only if no preceding axis has more than one point; refuted otherwise."
  },
  {
   "property": "C44",
   "status": "proved",
   "theorems": [
    "Verif.Collapse.c44_collapse",
    "Verif.Collapse.c44_maxabs",
    "Verif.Collapse.c44_domain_axis",
    "Verif.Collapse.c44_domain_maxabs",
    "Verif.Collapse.c44_domain_repeated",
    "Verif.Collapse.c44_domain_empty"
   ],
   "note": ""
  },
  {
   "property": "C45",
   "status": "partial",
   "theorems": [
    "Verif.Vertex.c45_value",
    "Verif.Vertex.c45_partial",
    "Verif.Vertex.c45_only_channel",
    "Verif.Vertex.c45_independent",
    "Verif.Vertex.c45_integrands",
    "Verif.Vertex.c45_irreducible_refuted",
    "Verif.Vertex.c45_static_refuted",
    "Verif.Vertex.c45_static_partial",
    "Verif.Vertex.c45_static_off_partial"
   ],
   "note": "Proved without static feedback (and, for channel-irreducible vertices, when at least the second class is kept): the two parts add up to the vertex, and the four bubble integrands to the product. False with static feedback (other channels counted twice) and for channel-irreducible vertices with only the first class (unassigned variable is returned); both refuted."
  },
  {
   "property": "C46",
   "status": "proved",
   "theorems": [
    "Verif.Vertex.c46_bare",
    "Verif.Vertex.c46_reinitialise",
    "Verif.Vertex.c46_matsubara",
    "Verif.Vertex.c46_contour_rotation",
    "Verif.Vertex.c46_domain"
   ],
   "note": "Bare vertex after initialisation in the Keldysh, Matsubara and contour basis, including consistency of the contour and Keldysh initialisations."
  },
  {
   "property": "C47",
   "status": "partial",
   "theorems": [
    "Verif.State.c47_bare_refuted",
    "Verif.State.c47_partial",
    "Verif.State.c47_state_refuted"
   ],
   "note": "False of the code: division leaves the bare interaction of the dividend unchanged (refuted). Proved: every stored class of every channel is divided."
  },
  {
   "property": "C48",
   "status": "partial",
   "theorems": [
    "Verif.State.c48_max_partial",
    "Verif.State.c48_max_triangle_partial",
    "Verif.State.c48_homogeneous_partial",
    "Verif.State.c48_even_real_partial",
    "Verif.State.c48_selfenergy",
    "Verif.State.c48_cancellation_refuted",
    "Verif.State.c48_ignored_refuted",
    "Verif.State.c48_state_partial",
    "Verif.State.c48_state_homogeneous_partial",
    "Verif.State.c48_sizes"
   ],
   "note": "Maximum norm (p=0): definite, homogeneous, triangle inequality. p>=1: homogeneous; definite for real data and even p; refuted otherwise because powers are summed without modulus and because the bare part and K2' never enter."
  },
  {
   "property": "C49",
   "status": "proved",
   "theorems": [
    "Verif.State.c49_linear",
    "Verif.State.c49_laws",
    "Verif.State.c49_different_grids",
    "Verif.State.c49_different_sizes"
   ],
   "note": "Entry-wise vector-space laws on states with equal grids; states on visibly different grids are refused by an assertion."
  },
  {
   "property": "C50",
   "status": "partial",
   "theorems": [
    "Verif.State.c50_partial",
    "Verif.State.c50_vertex_refuted"
   ],
   "note": "False of the code for the vertex part: absolute values are taken only of part of the state (refuted). Proved for the rest."
  },
  {
   "property": "C51",
   "status": "proved",
   "theorems": [
    "Verif.Hdf5.c51_read_back",
    "Verif.Hdf5.c51_isolated"
   ],
   "note": ""
  },
  {
   "property": "C52",
   "status": "partial",
   "theorems": [
    "Verif.Hdf5.c52_partial",
    "Verif.Hdf5.c52_window",
    "Verif.Hdf5.c52_refuted",
    "Verif.Hdf5.c52_new_file_refuted",
    "Verif.Hdf5.c52_rewrite_refuted"
   ],
   "note": "c52_partial: at every crash point of adding a layer, if the file reports a last layer other than the one being written, that layer reads back exactly as written. Refuted for the remaining crash points: the last-layer attribute is updated before all datasets of the layer are written (c52_window, c52_refuted), a crash during creation leaves a file that reports layer 0 or raises (c52_new_file_refuted), rewriting the last layer mixes old and new data (c52_rewrite_refuted)."
  },
  {
   "property": "C53",
   "status": "partial",
   "theorems": [
    "Verif.Hdf5.c53_converged_new_file_refuted",
    "Verif.Hdf5.c53_missing_file_refuted",
    "Verif.Hdf5.c53_partial",
    "Verif.Hdf5.c53_stale_flag_refuted",
    "Verif.Hdf5.c53_nothing_saved"
   ],
   "note": "c53_partial: the flag and layer index reported after any history of writes; refuted: a converged initial state is not reported (c53_converged_new_file_refuted), a missing file raises an exception (c53_missing_file_refuted), a flag once set is not reset by later non-converged layers (c53_stale_flag_refuted)."
  },
  {
   "property": "C54",
   "status": "partial",
   "theorems": [
    "Verif.GridSave.c54_partial",
    "Verif.GridSave.c54_shifted_refuted",
    "Verif.GridSave.c54_points_refuted"
   ],
   "note": "c54_partial: grids centred at zero with the compiled number of points are restored exactly for all limits, scales and Lambda; refuted for shifted centres (w_center is not saved) and for files with another number of points (read but ignored)."
  },
  {
   "property": "C55",
   "status": "proved",
   "theorems": [
    "Verif.Parquet.c55_report",
    "Verif.Parquet.c55_entry",
    "Verif.Parquet.c55_memory",
    "Verif.Parquet.c55_newest",
    "Verif.Parquet.c55_passes",
    "Verif.Parquet.c55_mixing",
    "Verif.Parquet.c55_mixing_reduced",
    "Verif.Parquet.c55_layers"
   ],
   "note": ""
  },
  {
   "property": "C56",
   "status": "partial",
   "theorems": [
    "Verif.Parquet.c56_nan_refuted",
    "Verif.Parquet.c56_partial"
   ],
   "note": "False of the code: NaN deviations are reported as converged (refuted)."
  },
  {
   "property": "C57",
   "status": "partial",
   "theorems": [
    "Verif.Parquet.c57_partial",
    "Verif.Parquet.c57_refuted"
   ],
   "note": "Refuted in three ways (missing file, last layer 0, loaded converged result reported as unconverged); the remaining cases are proved."
  },
  {
   "property": "C58",
   "status": "partial",
   "theorems": [
    "Verif.Parquet.c58_residual",
    "Verif.Parquet.c58_solver_partial",
    "Verif.Parquet.c58_acceleration_refuted"
   ],
   "note": "Proved for plain mixing, for every absolutely homogeneous size; refuted for the accelerated iteration (stagnation reported as convergence)."
  },
  {
   "property": "C59",
   "status": "proved",
   "theorems": [
    "Verif.Anderson.c59_sum_one",
    "Verif.Anderson.c59_preserves",
    "Verif.Anderson.c59_fixed_point",
    "Verif.Anderson.c59_single",
    "Verif.Anderson.c59_optimal"
   ],
   "note": ""
  },
  {
   "property": "C60",
   "status": "proved",
   "theorems": [
    "Verif.Hartree.c60_bracket",
    "Verif.Hartree.c60_terminates_lipschitz",
    "Verif.Hartree.c60_terminates_continuous",
    "Verif.Hartree.c60_accuracy"
   ],
   "note": ""
  },
  {
   "property": "C61",
   "status": "partial",
   "theorems": [
    "Verif.Hartree.c61_bracketing_sound_partial",
    "Verif.Hartree.c61_bracketing_nan_refuted",
    "Verif.Hartree.c61_iteration_partial",
    "Verif.Hartree.c61_iteration_terminates_partial",
    "Verif.Hartree.c61_iteration_refuted",
    "Verif.Hartree.c61_iteration_nan_refuted"
   ],
   "note": "Bisection sound for every map without NaN; refuted for NaN (returns 1/2). Plain iteration: refuted (two-cycle of a continuous decreasing map never stops; NaN returned); for contractions termination and residual bound proved."
  },
  {
   "property": "C62",
   "status": "proved",
   "theorems": [
    "Verif.Minimizer.c62_handover",
    "Verif.Minimizer.c62_start",
    "Verif.Minimizer.c62_nan_throws",
    "Verif.Minimizer.c62_start_values",
    "Verif.Minimizer.c62_gives_up",
    "Verif.Minimizer.c62_exception",
    "Verif.Minimizer.c62_moves"
   ],
   "note": ""
  },
  {
   "property": "C63",
   "status": "partial",
   "theorems": [
    "Verif.Minimizer.c63_terminates_partial",
    "Verif.Minimizer.c63_cycle_refuted",
    "Verif.Minimizer.c63_monotone_refuted"
   ],
   "note": "False: a parabola makes the loop alternate for ever between two triples, and monotone costs shrink or grow for ever. Proved for single-minimum costs without exact ties."
  },
  {
   "property": "C64",
   "status": "partial",
   "theorems": [
    "Verif.Propagator.c64_equilibrium",
    "Verif.Propagator.c64_general_reduces",
    "Verif.Propagator.c64_temperature_flow",
    "Verif.Propagator.c64_general_frequency_regulator_refuted"
   ],
   "note": "Proved for the equilibrium formulas (all regulators), the general formula with the hybridisation regulator, and the temperature flow. False of the general formula with the frequency regulator, which keeps the term Gamma+Lambda (refuted with a witness)."
  },
  {
   "property": "C65",
   "status": "partial",
   "theorems": [
    "Verif.Propagator.c65_causal",
    "Verif.Propagator.c65_causal_other",
    "Verif.Propagator.c65_causal_frequency_partial",
    "Verif.Propagator.c65_frequency_regulator_refuted"
   ],
   "note": "Proved for the hybridisation, interaction and temperature flows; for the frequency regulator proved at zero level position and refuted away from it."
  },
  {
   "property": "C66",
   "status": "partial",
   "theorems": [
    "Verif.Propagator.c66_retarded",
    "Verif.Propagator.c66_single_scale",
    "Verif.Propagator.c66_keldysh_equilibrium",
    "Verif.Propagator.c66_keldysh_general",
    "Verif.Propagator.c66_keldysh_temperature",
    "Verif.Propagator.c66_selfenergy_temperature",
    "Verif.Propagator.c66_matsubara",
    "Verif.Propagator.c66_interaction_hartree_refuted"
   ],
   "note": "Proved for the retarded component (all regulators), the Keldysh component (equilibrium; general with hybridisation regulator; temperature flow at zero chemical potential) and the Matsubara propagators. Refuted for the interaction regulator when the constant part of the self-energy flows."
  },
  {
   "property": "C67",
   "status": "proved",
   "theorems": [
    "Verif.MfRG.c67_pass",
    "Verif.MfRG.c67_iterations",
    "Verif.MfRG.c67_result",
    "Verif.MfRG.c67_low_order",
    "Verif.MfRG.c67_no_loops",
    "Verif.MfRG.c67_nan_accepted",
    "Verif.MfRG.c67_nan_loops",
    "Verif.MfRG.c67_deviation"
   ],
   "note": "All states of an abstract state space with an arbitrary one-loop, loop-correction and self-energy correction step; iteration count and exit condition proved exactly, including what happens with NaN deviations."
  },
  {
   "property": "C68",
   "status": "partial",
   "theorems": [
    "Verif.FileName.c68_partial",
    "Verif.FileName.c68_directory_partial",
    "Verif.FileName.c68_interaction_refuted",
    "Verif.FileName.c68_builds_refuted",
    "Verif.FileName.c68_temperature_refuted",
    "Verif.FileName.c68_refuted",
    "Verif.FileName.c68_wrong_result_refuted",
    "Verif.FileName.c68_digits",
    "Verif.FileName.c68_integer",
    "Verif.FileName.c68_gate_refuted",
    "Verif.FileName.c68_decimal",
    "Verif.FileName.c68_scale",
    "Verif.FileName.c68_sbe_partial"
   ],
   "note": "Partial: what a name does determine is proved for all pairs of builds and configurations. Refuted: with DEBUG_SYMMETRIES the interaction is not in the path; final flow parameter, self-energy corrections and small temperatures never are; a converged file with the same name is returned as the result of a different run."
  },
  {
   "property": "C69",
   "status": "partial",
   "theorems": [
    "Verif.SelfEnergy.c69_outside",
    "Verif.SelfEnergy.c69_inside_partial",
    "Verif.SelfEnergy.c69_edge_refuted"
   ],
   "note": "Outside the box for every interpolation; inside up to the upper edge of the grid. At the upper edge itself the default interpolation reads one entry beyond the grid (refuted)."
  },
  {
   "property": "C70",
   "status": "partial",
   "theorems": [
    "Verif.Continue.c70_resume",
    "Verif.Continue.c70_new",
    "Verif.Continue.c70_continue_partial",
    "Verif.Continue.c70_layers_lost_refuted",
    "Verif.Continue.c70_keeps_refuted",
    "Verif.Continue.c70_too_large_refuted"
   ],
   "note": "Partial: resuming and continuing from stored layers, see the refutations for layers lost and numbers of layers that do not fit the file."
  },
  {
   "property": "C71",
   "status": "partial",
   "theorems": [
    "Verif.MultiArray.c71_constructor_size_check_refuted",
    "Verif.MultiArray.c71_constructor_accepts_everything",
    "Verif.MultiArray.c71_constructor_partial"
   ],
   "note": "False of the code: the constructor compares the data size with itself, so a mismatching size is accepted (refuted; proved that every pair is accepted, and what holds for consistent sizes)."
  },
  {
   "property": "C72",
   "status": "partial",
   "theorems": [
    "Verif.StepControl.c72_growth_refuted",
    "Verif.StepControl.c72_growth_partial",
    "Verif.StepControl.c72_small_error_partial"
   ],
   "note": "False of the code: the threshold for maximal growth uses the exponent PGROW instead of 1/PGROW. Proved outside the affected range of error ratios."
  },
  {
   "property": "C73",
   "status": "partial",
   "theorems": [
    "Verif.Flow.c73_reuse_refuted"
   ],
   "note": "False of the code: Lambda_now is a mutable member advanced by the solver."
  },
  {
   "property": "C74",
   "status": "proved",
   "theorems": [
    "Verif.GridMap.c74_measures",
    "Verif.GridMap.c74_flow_parametrisations"
   ],
   "note": ""
  },
  {
   "property": "C75",
   "status": "partial",
   "theorems": [
    "Verif.Freqs.c75_polar",
    "Verif.Freqs.c75_spherical_partial",
    "Verif.Freqs.c75_spherical_small",
    "Verif.Freqs.c75_spherical_refuted"
   ],
   "note": "Polar proved in full; spherical for radius >= 1e-15; false below, where the fermionic frequencies are replaced by 0."
  },
  {
   "property": "C76",
   "status": "partial",
   "theorems": [
    "Verif.Propagator.c76_distribution",
    "Verif.Propagator.c76_zero_temperature_partial",
    "Verif.Propagator.c76_zero_temperature_refuted",
    "Verif.Propagator.c76_bias"
   ],
   "note": "Proved at finite temperature; at zero temperature proved away from the chemical potential and refuted exactly at it."
  },
  {
   "property": "C77",
   "status": "proved",
   "theorems": [
    "Verif.Propagator.c77_dyson",
    "Verif.Propagator.c77_bases",
    "Verif.Propagator.c77_types"
   ],
   "note": ""
  },
  {
   "property": "C78",
   "status": "proved",
   "theorems": [
    "Verif.Hartree.c78_sound",
    "Verif.Hartree.c78_terminates",
    "Verif.Hartree.c78_agree"
   ],
   "note": ""
  },
  {
   "property": "C79",
   "status": "partial",
   "theorems": [
    "Verif.Hdf5.c79_partial",
    "Verif.Hdf5.c79_refuted"
   ],
   "note": "c79_partial: all real-valued parameters are restored; refuted: the int attribute nODE is read into an uninitialised double."
  },
  {
   "property": "C80",
   "status": "partial",
   "theorems": [
    "Verif.State.c80_partial",
    "Verif.State.c80_second_half_refuted"
   ],
   "note": "Addition acts on both halves; multiplication by a number leaves the second half unchanged (refuted)."
  },
  {
   "property": "C81",
   "status": "partial",
   "theorems": [
    "Verif.State.c81_partial",
    "Verif.State.c81_asymptotic_refuted"
   ],
   "note": "Every stored entry is shifted except the asymptotic (Hartree) value of the self-energy (refuted)."
  },
  {
   "property": "C82",
   "status": "partial",
   "theorems": [
    "Verif.State.c82_partial",
    "Verif.State.c82_vertex_refuted",
    "Verif.State.c82_finite_partial"
   ],
   "note": "NaN survives for part of the components; a NaN in a vertex class is dropped by std::max (refuted)."
  },
  {
   "property": "C83",
   "status": "partial",
   "theorems": [
    "Verif.Stats.c83_partial",
    "Verif.Stats.c83_attempts_refuted",
    "Verif.Stats.c83_continue_refuted",
    "Verif.Stats.c83_crash_refuted"
   ],
   "note": "Partial: an uninterrupted flow from layer 0. Refuted: the data set of attempts holds times; continuation from layer >= 1 and resuming after a crash between state and statistics throw."
  },
  {
   "property": "C84",
   "status": "partial",
   "theorems": [
    "Verif.Quad.c84_polynomials",
    "Verif.Quad.c84_total",
    "Verif.Quad.c84_bounds",
    "Verif.Quad.c84_reversed_refuted",
    "Verif.Quad.c84_small_refuted",
    "Verif.Quad.c84_missed_refuted"
   ],
   "note": "Exactness up to degree nine and the bounds are proved for every subdivision history over the reals. Refuted: reversed limits are never refined, integrands of size below the absolute tolerance give a wrong zero test, and features between the 13 points are missed."
  },
  {
   "property": "C85",
   "status": "proved",
   "theorems": [
    "Verif.Quad.c85_terminates"
   ],
   "note": ""
  },
  {
   "property": "C86",
   "status": "partial",
   "theorems": [
    "Verif.Quad.c86_pieces",
    "Verif.Quad.c86_finite_partial",
    "Verif.Quad.c86_window_refuted",
    "Verif.Quad.c86_upper_tail",
    "Verif.Quad.c86_lower_tail"
   ],
   "note": "Refuted for finite domains when a window around a feature extends beyond the limits; the finite case is proved when the windows lie inside."
  },
  {
   "property": "C87",
   "status": "partial",
   "theorems": [
    "Verif.Quad.c87_in_range",
    "Verif.Quad.c87_coverage",
    "Verif.Quad.c87_avoidance",
    "Verif.Quad.c87_accuracy",
    "Verif.Quad.c87_empty_refuted",
    "Verif.Quad.c87_negative_refuted",
    "Verif.Quad.c87_numbers"
   ],
   "note": "Refuted: if all break points coincide an empty list is accessed; a negative w_half is replaced by zero so that jumps are integrated over."
  },
  {
   "property": "C88",
   "status": "partial",
   "theorems": [
    "Verif.Simpson.c88_odd_partial",
    "Verif.Simpson.c88_feature_partial",
    "Verif.Simpson.c88_two_partial",
    "Verif.Simpson.c88_even_refuted",
    "Verif.Simpson.c88_double_refuted",
    "Verif.Simpson.c88_two_refuted",
    "Verif.Simpson.c88_resolution",
    "Verif.Simpson.c88_feature_points",
    "Verif.Simpson.c88_two_points",
    "Verif.Simpson.c88_two_edge"
   ],
   "note": "Refuted for an even number of points from four on (every constant is integrated wrongly), for real-valued integrands (uninitialised accumulator), and for two features near the limits with an even number."
  },
  {
   "property": "C89",
   "status": "partial",
   "theorems": [
    "Verif.Simpson.c89_terminates",
    "Verif.Simpson.c89_exact",
    "Verif.Simpson.c89_missed_refuted",
    "Verif.Simpson.c89_accepts",
    "Verif.Simpson.c89_local"
   ],
   "note": "Termination and exactness proved. The accuracy clause is refuted: integrands vanishing at five points give zero."
  },
  {
   "property": "C90",
   "status": "proved",
   "theorems": [
    "Verif.GridSave.c90_rescale",
    "Verif.GridSave.c90_extent"
   ],
   "note": ""
  },
  {
   "property": "C91",
   "status": "proved",
   "theorems": [
    "Verif.Propagator.c91_conjugation",
    "Verif.Propagator.c91_real_storage",
    "Verif.Propagator.c91_causal",
    "Verif.Propagator.c91_continuation"
   ],
   "note": ""
  },
  {
   "property": "C92",
   "status": "partial",
   "theorems": [
    "Verif.Loop.c92_contraction",
    "Verif.Loop.c92_versions_partial",
    "Verif.Loop.c92_versions_refuted",
    "Verif.Loop.c92_table",
    "Verif.Loop.c92_table_crossed",
    "Verif.Loop.c92_unswitched_refuted",
    "Verif.Loop.c92_contour",
    "Verif.Loop.c92_contour_scalar",
    "Verif.Loop.c92_contour_table",
    "Verif.Loop.c92_contour_table_crossed"
   ],
   "note": "Contraction, tables, contour basis and scalar forms proved for all inputs; that both versions give the same self-energy (loop.hpp:22) is refuted, and the tabulated Keldysh form stops at an assertion (no table for type 1)."
  },
  {
   "property": "C93",
   "status": "proved",
   "theorems": [
    "Verif.Loop.c93_integral",
    "Verif.Loop.c93_retarded"
   ],
   "note": ""
  },
  {
   "property": "C94",
   "status": "partial",
   "theorems": [
    "Verif.Loop.c94_schedule",
    "Verif.Loop.c94_split",
    "Verif.Loop.c94_asymptotic_partial",
    "Verif.Loop.c94_asymptotic_refuted"
   ],
   "note": "Version 1 changes the sign of the asymptotic value passed in (refuted); all else proved."
  },
  {
   "property": "C95",
   "status": "proved",
   "theorems": [
    "Verif.Loop.c95_v1",
    "Verif.Loop.c95_v1_error",
    "Verif.Loop.c95_versions",
    "Verif.Loop.c95_derivative"
   ],
   "note": ""
  },
  {
   "property": "C96",
   "status": "partial",
   "theorems": [
    "Verif.MatSum.c96_sum",
    "Verif.MatSum.c96_range",
    "Verif.MatSum.c96_symmetric",
    "Verif.MatSum.c96_loop",
    "Verif.MatSum.c96_vectorised",
    "Verif.MatSum.c96_output",
    "Verif.MatSum.c96_tail_refuted",
    "Verif.MatSum.c96_reduced",
    "Verif.MatSum.c96_tail_factor_refuted"
   ],
   "note": "Ranges, symmetry, scalar = vectorised entries and output slots proved. Refuted for ANALYTIC_TAILS 0: the scalar code multiplies the tail quadrature by 2*pi*T, the vectorised code by pi*T. Doubles are ring elements."
  },
  {
   "property": "C97",
   "status": "proved",
   "theorems": [
    "Verif.SpinSum.c97_pattern",
    "Verif.SpinSum.c97_ring",
    "Verif.SpinSum.c97_pair",
    "Verif.SpinSum.c97_chain",
    "Verif.SpinSum.c97_boson_exchange",
    "Verif.SpinSum.c97_vectorised"
   ],
   "note": "Non-commutative ring values; the Keldysh projections of the single-boson-exchange form are not modelled. DEBUG_SYMMETRIES 1 (two spin components stored)."
  },
  {
   "property": "C98",
   "status": "partial",
   "theorems": [
    "Verif.Tails.c98_matsubara",
    "Verif.Tails.c98_matsubara_phs",
    "Verif.Tails.c98_matsubara_diff_partial",
    "Verif.Tails.c98_matsubara_diff_refuted",
    "Verif.Tails.c98_branch_refuted",
    "Verif.Tails.c98_interaction",
    "Verif.Tails.c98_unimplemented_refuted",
    "Verif.Tails.c98_keldysh",
    "Verif.Tails.c98_keldysh_diff_refuted"
   ],
   "note": "Regulators 2 (with and without particle-hole symmetry, imaginary and real frequencies) and 4 (with symmetry). Refuted: without particle-hole symmetry the differentiated p-channel tail has the wrong sign (c98_matsubara_diff_refuted, c98_keldysh_diff_refuted), the single logarithm leaves the principal branch if the box is smaller than the level position (c98_branch_refuted), regulators 3 and 4 without symmetry run off the end of the function (c98_unimplemented_refuted). Regulator 3 with symmetry not modelled."
  },
  {
   "property": "C99",
   "status": "proved",
   "theorems": [
    "Verif.Tails.c99_completion"
   ],
   "note": "Even bosonic index (symmetric summation range); the propagators carry the Hartree self-energy, the vertices at the box edge are outside this property."
  },
  {
   "property": "C100",
   "status": "partial",
   "theorems": [
    "Verif.Perturb.c100_result_partial",
    "Verif.Perturb.c100_classes_partial",
    "Verif.Perturb.c100_added_refuted",
    "Verif.Perturb.c100_letter_refuted",
    "Verif.Perturb.c100_letters_partial",
    "Verif.Perturb.c100_default_partial"
   ],
   "note": "False of the code: the results are stored with set_vec, so what the vertex held in the requested classes is lost (refuted with a witness), and unknown channel letters are silently ignored. Proved: exactly the requested classes of the channel are replaced by the bubble, everything else is kept, and for zero content that equals adding."
  },
  {
   "property": "C101",
   "status": "partial",
   "theorems": [
    "Verif.Perturb.c101_second_order_partial",
    "Verif.Perturb.c101_kept_partial",
    "Verif.Perturb.c101_overload_refuted"
   ],
   "note": "Proved for the function that takes the state (all exact bubbles, both symmetry modes; bubble and loop numerics abstract). The overload with scale and configuration calls itself and never returns (refuted)."
  },
  {
   "property": "C102",
   "status": "partial",
   "theorems": [
    "Verif.Perturb.c102_lost_refuted",
    "Verif.Perturb.c102_diagrams_partial",
    "Verif.Perturb.c102_lost_symmetric_refuted",
    "Verif.Perturb.c102_right_partial",
    "Verif.Perturb.c102_right_symmetric_partial",
    "Verif.Perturb.c102_hartree_refuted",
    "Verif.Perturb.c102_selfenergy_partial",
    "Verif.Perturb.c102_third_order_refuted"
   ],
   "note": "False of the code: successive calls overwrite each other, so the first class (and with checked symmetries the second) is lost for every numerics, and the Hartree term is counted twice (refuted with a witness). Proved: the diagrams computed by the nine calls sum to the third order, and classes 2' and 3 (2 and 3 in symmetric runs) are right."
  },
  {
   "property": "C103",
   "status": "partial",
   "theorems": [
    "Verif.Perturb.c103_lost_refuted",
    "Verif.Perturb.c103_right_partial",
    "Verif.Perturb.c103_fourth_order_refuted"
   ],
   "note": "False of the code: the last calls overwrite classes 1, 2 and 2' with zeros for every numerics (refuted). Proved: class 3 is right to fourth order."
  },
  {
   "property": "C104",
   "status": "proved",
   "theorems": [
    "Verif.Skip.c104_bare",
    "Verif.Skip.c104_bare_class",
    "Verif.Skip.c104_tables",
    "Verif.Skip.c104_integral",
    "Verif.Skip.c104_causal",
    "Verif.Skip.c104_otherwise",
    "Verif.Skip.c104_kept"
   ],
   "note": "Proved pointwise for bare vertices and as a limit of integrals over growing symmetric intervals for all first-class vertices and causal propagators; the broadened level is shown to be causal, and the component tables of the code to have the assumed structure."
  },
  {
   "property": "C105",
   "status": "proved",
   "theorems": [
    "Verif.Hybrid.c105_increasing",
    "Verif.Hybrid.c105_inverse",
    "Verif.Hybrid.c105_box",
    "Verif.Hybrid.c105_smooth"
   ],
   "note": "proved over the reals for all parameters with ordered section boundaries"
  },
  {
   "property": "C106",
   "status": "proved",
   "theorems": [
    "Verif.Hybrid.c106_points",
    "Verif.Hybrid.c106_symmetric",
    "Verif.Hybrid.c106_lookup",
    "Verif.Hybrid.c106_outside",
    "Verif.Hybrid.c106_lookup_point"
   ],
   "note": "proved for grids as the constructor makes them; the tolerance of the index checks is at least 1e-12"
  },
  {
   "property": "C107",
   "status": "partial",
   "theorems": [
    "Verif.Hybrid.c107_made_partial",
    "Verif.Hybrid.c107_guess_partial",
    "Verif.Hybrid.c107_selfenergy_partial",
    "Verif.Hybrid.c107_selfenergy_refuted",
    "Verif.Hybrid.c107_update_refuted",
    "Verif.Hybrid.c107_update_partial",
    "Verif.Hybrid.c107_set_refuted"
   ],
   "note": "refuted: the first boundary of the self-energy grid (25) is not scaled with the hybridisation, so below 25/27 the sections are out of order and for scales in [1/20, 2/5] the last point misses the largest frequency; an update with second boundary above the largest frequency makes the points decrease; setting the parameters of a non-negative grid makes the lower edge negative. Proved: the other default grids, updates within the box"
  },
  {
   "property": "C108",
   "status": "proved",
   "theorems": [
    "Verif.Angular.c108_increasing",
    "Verif.Angular.c108_inverse",
    "Verif.Angular.c108_shape",
    "Verif.Angular.c108_updates"
   ],
   "note": "proved over the reals"
  },
  {
   "property": "C109",
   "status": "partial",
   "theorems": [
    "Verif.Angular.c109_points_partial",
    "Verif.Angular.c109_symmetric_partial",
    "Verif.Angular.c109_lookup_partial",
    "Verif.Angular.c109_outside_partial",
    "Verif.Angular.c109_lookup_point_partial",
    "Verif.Angular.c109_made_partial",
    "Verif.Angular.c109_set_refuted",
    "Verif.Angular.c109_second_class_refuted"
   ],
   "note": "refuted: setting the largest angle of a symmetric grid sets its lower edge to zero and the points then reach only half the largest angle on both sides; the bosonic grid of the second class cannot be constructed. Proved: constructed grids, and updates of the power and of the number of intervals"
  },
  {
   "property": "C110",
   "status": "partial",
   "theorems": [
    "Verif.Angular.c110_two_partial",
    "Verif.Angular.c110_two_back_partial",
    "Verif.Angular.c110_three_partial",
    "Verif.Angular.c110_three_back_partial",
    "Verif.Angular.c110_seam_refuted",
    "Verif.Angular.c110_cutoff_refuted"
   ],
   "note": "refuted: the first angle -pi of a symmetric grid is never read (its frequencies have the coordinates of the last angle); below radius 1e-15 the direction of three frequencies is lost. Proved: round trips elsewhere and the ranges"
  },
  {
   "property": "C111",
   "status": "proved",
   "theorems": [
    "Verif.Quad.c111_accepted",
    "Verif.Quad.c111_not_divided",
    "Verif.Quad.c111_estimate",
    "Verif.Quad.c111_transport"
   ],
   "note": "proved; the result is characterised except when the estimate of the whole integral is below 1e-20 (zero is returned, C84)"
  },
  {
   "property": "C112",
   "status": "proved",
   "theorems": [
    "Verif.Fdt.c112_third",
    "Verif.Fdt.c112_second",
    "Verif.Fdt.c112_first",
    "Verif.Fdt.c112_first_check",
    "Verif.Fdt.c112_first_all",
    "Verif.Fdt.c112_second_all",
    "Verif.Fdt.c112_third_all",
    "Verif.Fdt.c112_extent"
   ],
   "note": ""
  },
  {
   "property": "C113",
   "status": "proved",
   "theorems": [
    "Verif.Fdt.c113_slices"
   ],
   "note": ""
  },
  {
   "property": "C114",
   "status": "partial",
   "theorems": [
    "Verif.Fdt.c114_zero_partial",
    "Verif.Fdt.c114_boundary_refuted"
   ],
   "note": "Proved: components with negative total frequency on the backward branch vanish in the limit and are set to zero. Refuted: a component with total frequency exactly zero is set to zero although it may be finite at every temperature."
  },
  {
   "property": "C115",
   "status": "partial",
   "theorems": [
    "Verif.Fdt.c115_detects_partial",
    "Verif.Fdt.c115_spin_refuted",
    "Verif.Fdt.c115_region_refuted"
   ],
   "note": "Proved for spin components below the number of internal indices and frequencies above 25 temperatures; refuted for the second spin component (loop bound n_in instead of n_spin) and for smaller frequencies."
  },
  {
   "property": "C116",
   "status": "partial",
   "theorems": [
    "Verif.Fdt.c116_selfenergy",
    "Verif.Fdt.c116_causal_partial",
    "Verif.Fdt.c116_causal_nan_refuted",
    "Verif.Fdt.c116_causal_internal_refuted",
    "Verif.Fdt.c116_sign_partial"
   ],
   "note": "The fluctuation-dissipation part is proved; the causality check is proved without not-a-number and with one internal index, and refuted otherwise."
  },
  {
   "property": "C117",
   "status": "partial",
   "theorems": [
    "Verif.Fdt.c117_zero_partial",
    "Verif.Fdt.c117_always_one_refuted",
    "Verif.Fdt.c117_exact_refuted"
   ],
   "note": "Refuted: the imaginary part of a sum containing the real Phi is taken, so Phi drops out and the reported deviation is always 1."
  },
  {
   "property": "C118",
   "status": "partial",
   "theorems": [
    "Verif.Fdt.c118_all_partial",
    "Verif.Fdt.c118_last_refuted",
    "Verif.Fdt.c118_empty_refuted",
    "Verif.Fdt.c118_missing_refuted",
    "Verif.Fdt.c118_position_partial",
    "Verif.Fdt.c118_position_refuted",
    "Verif.Fdt.c118_phi_partial"
   ],
   "note": "Proved for the loops up to and including the last layer and for output positions with one internal index; refuted for three loops that skip the last layer, for flows without a completed layer, for the fixed lists of layers, and for more internal indices."
  },
  {
   "property": "C119",
   "status": "proved",
   "theorems": [
    "Verif.Spline.c119_hermite",
    "Verif.Spline.c119_slope",
    "Verif.Spline.c119_line",
    "Verif.Spline.c119_plane",
    "Verif.Spline.c119_space",
    "Verif.Spline.c119_nodes_line",
    "Verif.Spline.c119_nodes_plane",
    "Verif.Spline.c119_nodes_space",
    "Verif.Spline.c119_edges",
    "Verif.Spline.c119_faces",
    "Verif.Spline.c119_last_row",
    "Verif.Spline.c119_uninitialised"
   ],
   "note": ""
  },
  {
   "property": "C120",
   "status": "partial",
   "theorems": [
    "Verif.Spline.c120_cubic_line_partial",
    "Verif.Spline.c120_cubic_plane_partial",
    "Verif.Spline.c120_refuted",
    "Verif.Spline.c120_cubic_space_partial"
   ],
   "note": "Proved when the supplied slopes are the exact derivatives (one, two and three frequencies); refuted for the derivatives the code supplies, which are taken per grid index with unit spacing and not with respect to the auxiliary coordinate (c120_refuted)."
  },
  {
   "property": "C121",
   "status": "partial",
   "theorems": [
    "Verif.Buffer.c121_values",
    "Verif.Buffer.c121_schedule",
    "Verif.Buffer.c121_same_grid_partial",
    "Verif.Buffer.c121_same_grid_refuted",
    "Verif.Buffer.c121_bounds",
    "Verif.Buffer.c121_stepwise_partial",
    "Verif.Buffer.c121_shifted_refuted"
   ],
   "note": "Entry values for every schedule, range of the values and grids moved in steps are proved. Moving to the same grid is proved for the method 'linear' only; for the default method the look-up of the outermost grid point reads beyond the grid (refuted). Shifted grids lose their first point."
  },
  {
   "property": "C122",
   "status": "partial",
   "theorems": [
    "Verif.Buffer.c122_selfenergy",
    "Verif.Buffer.c122_one_frequency_partial",
    "Verif.Buffer.c122_one_frequency_refuted",
    "Verif.Buffer.c122_two_frequencies_partial",
    "Verif.Buffer.c122_rounding_refuted",
    "Verif.Buffer.c122_bosonic_refuted",
    "Verif.Buffer.c122_three_frequencies_partial",
    "Verif.Buffer.c122_between_refuted"
   ],
   "note": "Proved for the self-energy. One frequency: only for data equal at both ends (the positive tail uses the value of the negative end). Two and three frequencies: no tail in the bosonic frequency (zero beyond the box), wrong reference frequency with a rounding correction, and no interpolation between grid points; refuted with witnesses."
  },
  {
   "property": "C123",
   "status": "partial",
   "theorems": [
    "Verif.Buffer.c123_share",
    "Verif.Buffer.c123_index",
    "Verif.Buffer.c123_shrink_refuted",
    "Verif.Buffer.c123_limit_partial",
    "Verif.Buffer.c123_limit_undefined"
   ],
   "note": "The tail check is proved. Shrinking is refuted: the calls are commented out, so the grid never changes; the uncalled function is proved for symmetric grids if the dropped points do not reach the centre."
  },
  {
   "property": "C124",
   "status": "partial",
   "theorems": [
    "Verif.Buffer.c124_complex_refuted",
    "Verif.Buffer.c124_slope_partial",
    "Verif.Buffer.c124_curvature_partial",
    "Verif.Buffer.c124_flat_partial",
    "Verif.Buffer.c124_zero_refuted"
   ],
   "note": "Proved for real data and for complex data of a single frequency; for complex data of several frequencies squares cancel (refuted), and for vanishing data the result is not a number (refuted)."
  },
  {
   "property": "C125",
   "status": "partial",
   "theorems": [
    "Verif.Boost.c125_interval",
    "Verif.Boost.c125_progress_partial",
    "Verif.Boost.c125_end",
    "Verif.Boost.c125_bounded",
    "Verif.Boost.c125_first_step_size",
    "Verif.Boost.c125_first_step",
    "Verif.Boost.c125_run",
    "Verif.Boost.c125_last_trial_refuted",
    "Verif.Boost.c125_second_trial_refuted",
    "Verif.Boost.c125_no_trials_refuted",
    "Verif.Boost.c125_late_start_refuted"
   ],
   "note": "Interval, records, bound on the number of steps and the end of the run are proved for every stepper that obeys the documented Boost contract. Refuted: a success in the last allowed trial is thrown as a failure; with zero allowed trials a rejected step is recorded; a start at or beyond the step limit writes outside of the list."
  },
  {
   "property": "C126",
   "status": "partial",
   "theorems": [
    "Verif.Boost.c126_no_skip_partial",
    "Verif.Boost.c126_lands",
    "Verif.Boost.c126_unordered_refuted",
    "Verif.Boost.c126_stale_refuted",
    "Verif.Boost.c126_flag",
    "Verif.Boost.c126_resume_refuted"
   ],
   "note": "Proved for checkpoints listed in the direction of the flow. Refuted: unordered checkpoints are passed; after the first checkpoint the proposed step sizes are ignored for the rest of the run; a resumed run starts at the initial flow parameter."
  },
  {
   "property": "C127",
   "status": "partial",
   "theorems": [
    "Verif.Reduce.c127_exact",
    "Verif.Reduce.c127_sum",
    "Verif.Reduce.c127_reorder",
    "Verif.Reduce.c127_matsubara",
    "Verif.Reduce.c127_rounding_refuted",
    "Verif.Reduce.c127_part_refuted"
   ],
   "note": "Proved for the completed vertex, for sums of parts and for the reordering step, for every schedule of the completion; for imaginary frequencies at finite temperature proved with the exact set of entries that are zero instead (c127_matsubara). Refuted for one part taken alone before the reordering (c127_part_refuted) and for the entries without partner at finite temperature (c127_rounding_refuted)."
  },
  {
   "property": "C128",
   "status": "proved",
   "theorems": [
    "Verif.Layout.c128_keldysh",
    "Verif.Layout.c128_internal_refuted",
    "Verif.Layout.c128_matsubara",
    "Verif.Layout.c128_odd_refuted"
   ],
   "note": "Proved for both storage modes for every shape, node count and schedule under the stated conditions (one internal index, even number of fermionic frequencies); both conditions are shown to be needed (c128_internal_refuted, c128_odd_refuted)."
  },
  {
   "property": "C129",
   "status": "partial",
   "theorems": [
    "Verif.DiagTails.c129_keldysh",
    "Verif.DiagTails.c129_loop",
    "Verif.DiagTails.c129_other",
    "Verif.DiagTails.c129_matsubara",
    "Verif.DiagTails.c129_matsubara_loop_partial",
    "Verif.DiagTails.c129_spin_sum_refuted",
    "Verif.DiagTails.c129_temperature"
   ],
   "note": "Proved for the Keldysh propagators at zero temperature, the Keldysh loop with its spin sum, and the Matsubara propagators; at finite temperature the code uses the zero-temperature value of the Keldysh component, which is shown to be off by at most 4\u03c0 exp(-d/T) (full propagator) or 4\u03c0/(\u0393+\u039b) exp(-d/T) (single-scale propagator), d the distance of the edges from the chemical potential (c129_temperature). The Matsubara loop is exact only for the combination it computes (c129_matsubara_loop_partial), because the bare vertex of the second spin component is counted twice (c129_spin_sum_refuted)."
  },
  {
   "property": "C130",
   "status": "partial",
   "theorems": [
    "Verif.DiagTails.c130_bubble",
    "Verif.DiagTails.c130_inside_refuted",
    "Verif.DiagTails.c130_quadrature_partial",
    "Verif.DiagTails.c130_quadrature_refuted"
   ],
   "note": "The closed completion is exact for boxes with vmin <= -1/9; nearer to zero the vertices are read inside of the box (c130_inside_refuted). The quadrature agrees in the vectorised branch and is a factor of two too large in the scalar branch (c130_quadrature_refuted)."
  },
  {
   "property": "C131",
   "status": "proved",
   "theorems": [
    "Verif.Sbe.c131_skip",
    "Verif.Sbe.c131_layout",
    "Verif.Sbe.c131_combine",
    "Verif.Sbe.c131_third",
    "Verif.Sbe.c131_matsubara",
    "Verif.Sbe.c131_bare"
   ],
   "note": ""
  },
  {
   "property": "C132",
   "status": "proved",
   "theorems": [
    "Verif.Sbe.c132_ring",
    "Verif.Sbe.c132_pair",
    "Verif.Sbe.c132_kept",
    "Verif.Sbe.c132_derivative"
   ],
   "note": ""
  },
  {
   "property": "C133",
   "status": "partial",
   "theorems": [
    "Verif.Expand.c133_bare",
    "Verif.Expand.c133_nodes",
    "Verif.Expand.c133_parts_partial",
    "Verif.Expand.c133_sum_partial",
    "Verif.Expand.c133_vanishing",
    "Verif.Expand.c133_swap",
    "Verif.Expand.c133_domain",
    "Verif.Expand.c133_grids_refuted",
    "Verif.Expand.c133_half_refuted",
    "Verif.Expand.c133_split",
    "Verif.Expand.c133_halves"
   ],
   "note": "Proved at grid points for every way of reading (c133_nodes) and at all frequencies for vertices stored without symmetry reduction (c133_parts_partial). Refuted for the second spin when channels a and t have different grids (c133_grids_refuted), and for the whole of a vertex with one differentiated half, which is read without its own channel (c133_half_refuted). Missing: all frequencies with symmetry reduction, where the interpolation would have to commute with the symmetry operations."
  },
  {
   "property": "C134",
   "status": "partial",
   "theorems": [
    "Verif.Check.c134_zero",
    "Verif.Check.c134_crossing",
    "Verif.Check.c134_crossing_p",
    "Verif.Check.c134_mixed",
    "Verif.Check.c134_sector",
    "Verif.Check.c134_printed",
    "Verif.Check.c134_silent",
    "Verif.Check.c134_saved",
    "Verif.Check.c134_blind_refuted",
    "Verif.Check.c134_missing_refuted"
   ],
   "note": "Proved: no false alarms (c134_zero), meaning of every deviation (c134_crossing, c134_crossing_p, c134_mixed for the channels a and t, c134_sector), meaning of the printed number. Refuted: a clean report does not imply the symmetries (c134_blind_refuted), and a vanishing K2b next to a non-zero K2 is not reported (c134_missing_refuted). Finite-temperature imaginary frequencies (rounded) are not covered."
  },
  {
   "property": "C135",
   "status": "partial",
   "theorems": [
    "Verif.Postproc.c135_deviation_refuted",
    "Verif.Postproc.c135_tables_partial",
    "Verif.Postproc.c135_phi_partial",
    "Verif.Postproc.c135_last_refuted",
    "Verif.Postproc.c135_internal_refuted",
    "Verif.Postproc.c135_name"
   ],
   "note": "The tables are proved for one internal index and all layers before the last saved one; the last saved layer is left out (refuted), with several internal indices two tables are stored with the wrong stride (refuted), and the integrated deviation is one whatever the right-hand side, because the imaginary part is taken of a sum whose first summand is real (refuted)."
  },
  {
   "property": "C136",
   "status": "partial",
   "theorems": [
    "Verif.Postproc.c136_post",
    "Verif.Postproc.c136_pt2",
    "Verif.Postproc.c136_parquet_partial",
    "Verif.Postproc.c136_bare_keldysh",
    "Verif.Postproc.c136_bare_matsubara_refuted"
   ],
   "note": "Both implementations are proved to deliver the closed vertex; the parquet variant uses half of the bare vertex in the Matsubara formalism (refuted there). Assumed of the numerics: additivity, the asymptotics of the first class, associativity of the two bubbles."
  },
  {
   "property": "C137",
   "status": "partial",
   "theorems": [
    "Verif.Postproc.c137_susceptibilities",
    "Verif.Postproc.c137_slices",
    "Verif.Postproc.c137_slice_components",
    "Verif.Postproc.c137_before_last_partial",
    "Verif.Postproc.c137_last_refuted",
    "Verif.Postproc.c137_nothing_saved",
    "Verif.Postproc.c137_wraps",
    "Verif.Postproc.c137_slice_last",
    "Verif.Postproc.c137_kramers_kronig_partial",
    "Verif.Postproc.c137_kramers_kronig_refuted"
   ],
   "note": "Susceptibilities and slices visit exactly the saved layers; the sum rule of the susceptibility, the Ward identity and the Kramers-Kronig check leave out the last one, the latter reads missing layers for files of 50 or 100 layers (refuted)."
  },
  {
   "property": "C138",
   "status": "partial",
   "theorems": [
    "Verif.Record.c138_files",
    "Verif.Record.c138_files_low",
    "Verif.Record.c138_untouched",
    "Verif.Record.c138_parts",
    "Verif.Record.c138_builtin",
    "Verif.Record.c138_boost",
    "Verif.Record.c138_boost_refuted",
    "Verif.Record.c138_flow",
    "Verif.Record.c138_evaluations"
   ],
   "note": "Contents of the directory, independence of the result and the built-in driver are proved in full. Refuted for the Boost driver (c138_boost_refuted): its iteration counter starts at zero also in a continued flow, so that the first step after a restart replaces the saved files; c138_boost says exactly which evaluations save."
  },
  {
   "property": "C139",
   "status": "partial",
   "theorems": [
    "Verif.Multiloop.c139_central",
    "Verif.Multiloop.c139_equivalent",
    "Verif.Multiloop.c139_residual",
    "Verif.Multiloop.c139_limit",
    "Verif.Multiloop.c139_family",
    "Verif.Multiloop.c139_tolerance_refuted",
    "Verif.Multiloop.c139_error",
    "Verif.Multiloop.c139_estimate",
    "Verif.Multiloop.c139_flow",
    "Verif.Multiloop.c139_bubbles",
    "Verif.Multiloop.c139_single_channel"
   ],
   "note": "Proved for bubbles that are bilinear and can be evaluated from either end of a chain, and a vertex that solves the parquet equations. The exact bubbles at real frequencies have these properties (C175); not proved: that the bubbles computed on grids with quadrature have them exactly; c139_tolerance_refuted shows that the loop tolerance does not bound the error."
  },
  {
   "property": "C140",
   "status": "proved",
   "theorems": [
    "Verif.Multiloop.c140_equation",
    "Verif.Multiloop.c140_central",
    "Verif.Multiloop.c140_pass",
    "Verif.Multiloop.c140_uncorrected"
   ],
   "note": "For loops and extensions that obey the closing rule; convergence of the self-energy iteration itself is not claimed."
  },
  {
   "property": "C141",
   "status": "proved",
   "theorems": [
    "Verif.Filling.c141_integrand",
    "Verif.Filling.c141_value",
    "Verif.Filling.c141_friedel",
    "Verif.Filling.c141_shape",
    "Verif.Filling.c141_strict",
    "Verif.Filling.c141_selfconsistent",
    "Verif.Filling.c141_bisection",
    "Verif.Filling.c141_bisection_error",
    "Verif.Filling.c141_check",
    "Verif.Filling.c141_single_scale",
    "Verif.Filling.c141_lesser"
   ],
   "note": ""
  },
  {
   "property": "C142",
   "status": "partial",
   "theorems": [
    "Verif.Filling.c142_integrand",
    "Verif.Filling.c142_derivative",
    "Verif.Filling.c142_zero_temperature",
    "Verif.Filling.c142_finite_temperature",
    "Verif.Filling.c142_tail_partial",
    "Verif.Filling.c142_tail_refuted",
    "Verif.Filling.c142_hartree"
   ],
   "note": "Zero temperature and the full sum are proved. The finite-temperature value of the code is refuted: the frequencies of the sum are two apart, so a tail integral needs the weight 1/2 but is added with weight 1; the occupation is off by at least arctan(|e|/((2N+1) pi T + Delta))/pi, and by at least 1/4 for a level above the largest frequency. c142_tail_partial bounds the error of the code and of the corrected formula."
  },
  {
   "property": "C143",
   "status": "proved",
   "theorems": [
    "Verif.Multiloop.c143_defect",
    "Verif.Multiloop.c143_stable",
    "Verif.Multiloop.c143_preserve",
    "Verif.Multiloop.c143_truncated"
   ],
   "note": ""
  },
  {
   "property": "C144",
   "status": "partial",
   "theorems": [
    "Verif.Bse.c144_step",
    "Verif.Bse.c144_solution",
    "Verif.Bse.c144_fixed_partial",
    "Verif.Bse.c144_fixed_refuted",
    "Verif.Bse.c144_contraction",
    "Verif.Bse.c144_solver",
    "Verif.Bse.c144_weak",
    "Verif.Bse.c144_letters",
    "Verif.Bse.c144_exchange"
   ],
   "note": "Solutions are fixed points of the averaged step (c144_solution), but the step averages the left and the right equation, and the average has further fixed points that solve neither version: c144_fixed_refuted, with quaternion-valued vertices. If interaction times bubble is smaller than one, fixed points are solutions (c144_fixed_partial); at weak coupling existence, uniqueness, geometric convergence and termination of the solver with plain mixing are proved. Not proved: convergence with Anderson acceleration, and nothing here about the size of the interaction: for the diagrams at real frequencies C175 gives a sufficient bound. With single-boson exchange K2 of the result is that of the right and K2b that of the left equation (c144_exchange), if they are different components."
  },
  {
   "property": "C145",
   "status": "proved",
   "theorems": [
    "Verif.Symmetries.c145_entries",
    "Verif.Symmetries.c145_vanishing",
    "Verif.Symmetries.c145_classes",
    "Verif.Symmetries.c145_representatives",
    "Verif.Symmetries.c145_transformation",
    "Verif.Symmetries.c145_product",
    "Verif.Symmetries.c145_other_table",
    "Verif.Symmetries.c145_projection",
    "Verif.Symmetries.c145_projection_joined"
   ],
   "note": ""
  },
  {
   "property": "C146",
   "status": "proved",
   "theorems": [
    "Verif.Dense.c146_counts",
    "Verif.Dense.c146_points",
    "Verif.Dense.c146_one",
    "Verif.Dense.c146_two",
    "Verif.Dense.c146_three",
    "Verif.Dense.c146_flip",
    "Verif.Dense.c146_wrong_count"
   ],
   "note": ""
  },
  {
   "property": "C147",
   "status": "partial",
   "theorems": [
    "Verif.Dense.c147_repetition_partial",
    "Verif.Dense.c147_repetition_refuted",
    "Verif.Dense.c147_symmetry_partial",
    "Verif.Dense.c147_symmetry_refuted",
    "Verif.Dense.c147_grids"
   ],
   "note": "Complete for ordered lists (repetitions) and for at least two frequencies (asymmetry); false for unordered lists, a single frequency and the empty list (counterexamples given). All grids of Matsubara frequencies pass both checks."
  },
  {
   "property": "C148",
   "status": "proved",
   "theorems": [
    "Verif.Pipeline.c148_result",
    "Verif.Pipeline.c148_exact",
    "Verif.Pipeline.c148_independent",
    "Verif.Pipeline.c148_grid"
   ],
   "note": ""
  },
  {
   "property": "C149",
   "status": "proved",
   "theorems": [
    "Verif.Heredity.c149_symmetric",
    "Verif.Heredity.c149_causal",
    "Verif.Heredity.c149_pair",
    "Verif.Heredity.c149_code",
    "Verif.Heredity.c149_completed",
    "Verif.Heredity.c149_k1"
   ],
   "note": "c149_symmetric, c149_pair, c149_code and c149_completed for all classes; causality is a hypothesis of c149_completed and is proved for the class K1 (c149_causal, c149_k1)."
  },
  {
   "property": "C150",
   "status": "proved",
   "theorems": [
    "Verif.Invariant.c150_loop",
    "Verif.Invariant.c150_rhs",
    "Verif.Invariant.c150_step",
    "Verif.Invariant.c150_flow"
   ],
   "note": "All frequency integrals are exact (no quadrature error, no finite grid). Extraction of the class K2 and the norms are left open; the acceleration is any function returning a linear combination of the self-energies it is given."
  },
  {
   "property": "C151",
   "status": "partial",
   "theorems": [
    "Verif.Driver.c151_fresh_partial",
    "Verif.Driver.c151_reuse_partial",
    "Verif.Driver.c151_converged_partial",
    "Verif.Driver.c151_level_refuted",
    "Verif.Driver.c151_parameters_refuted",
    "Verif.Driver.c151_history_refuted",
    "Verif.Driver.c151_scan"
   ],
   "note": "Proved: a flow in a directory without initial solution, a converged initial solution found again after any further runs, scans that overwrite. Refuted: repeated flows continue an iteration that had not converged, and flows at other level positions (with DEBUG_SYMMETRIES: any other parameters) start from a foreign solution."
  },
  {
   "property": "C152",
   "status": "partial",
   "theorems": [
    "Verif.Driver.c152_result_partial",
    "Verif.Driver.c152_kept_partial",
    "Verif.Driver.c152_order_refuted",
    "Verif.Driver.c152_precision_refuted",
    "Verif.Driver.c152_convergence_refuted",
    "Verif.Driver.c152_refuted"
   ],
   "note": "Proved for values without a too large value before and without a value after them that prints alike, including that a scan keeps the file with all iterations of an earlier run. Refuted in general, and for the recognition of missing convergence."
  },
  {
   "property": "C153",
   "status": "partial",
   "theorems": [
    "Verif.Driver.c153_numbers",
    "Verif.Driver.c153_asked_partial",
    "Verif.Driver.c153_nothing_refuted",
    "Verif.Driver.c153_missing_refuted",
    "Verif.Driver.c153_letters_refuted",
    "Verif.Driver.c153_time_partial",
    "Verif.Driver.c153_time_refuted"
   ],
   "note": "Proved for three arguments that are integers. Refuted: missing arguments (null pointer), arguments without digits, loop numbers -1 and below -2, computing time with more than one thread."
  },
  {
   "property": "C154",
   "status": "partial",
   "theorems": [
    "Verif.SeDev.c154_bound_partial",
    "Verif.SeDev.c154_hartree_partial",
    "Verif.SeDev.c154_onset",
    "Verif.SeDev.c154_same_partial",
    "Verif.SeDev.c154_nan_refuted"
   ],
   "note": "Proved where the array of the reference does not vanish. If it vanishes the result is NaN, which the loops take for convergence (c154_nan_refuted)."
  },
  {
   "property": "C155",
   "status": "partial",
   "theorems": [
    "Verif.SeDev.c155_reported_partial",
    "Verif.SeDev.c155_internal_refuted",
    "Verif.SeDev.c155_keldysh_refuted"
   ],
   "note": "Proved for one internal index, the retarded component and a real Hartree value; further internal indices and the Keldysh component are not looked at by the check."
  },
  {
   "property": "C156",
   "status": "partial",
   "theorems": [
    "Verif.SeDev.c156_once",
    "Verif.SeDev.c156_iterate_partial",
    "Verif.SeDev.c156_convergence_refuted"
   ],
   "note": "The new value is compared with itself, so the loop ends after one evaluation unless the value is below 1e-10 (c156_once); the claim is refuted."
  },
  {
   "property": "C157",
   "status": "proved",
   "theorems": [
    "Verif.Imag.c157_symmetric",
    "Verif.Imag.c157_code",
    "Verif.Imag.c157_computed",
    "Verif.Imag.c157_reversal",
    "Verif.Imag.c157_propagators",
    "Verif.Imag.c157_finite",
    "Verif.Imag.c157_pair",
    "Verif.Imag.c157_zero"
   ],
   "note": "Left out: analytic corrections for the tails; integrals at zero temperature are exact; vertices are given by their values at leg energies."
  },
  {
   "property": "C158",
   "status": "proved",
   "theorems": [
    "Verif.ImagFlow.c158_loop_value",
    "Verif.ImagFlow.c158_loop",
    "Verif.ImagFlow.c158_rhs",
    "Verif.ImagFlow.c158_step",
    "Verif.ImagFlow.c158_flow",
    "Verif.ImagFlow.c158_lines",
    "Verif.ImagFlow.c158_real_rhs",
    "Verif.ImagFlow.c158_real_flow",
    "Verif.ImagFlow.c158_stored",
    "Verif.ImagFlow.c158_lines_real"
   ],
   "note": "Left open: extraction of K2, acceleration and norms (with requirements that hold for the code); left out: analytic corrections for the tails, interpolation between grid points."
  },
  {
   "property": "C159",
   "status": "proved",
   "theorems": [
    "Verif.Sde.c159_dynamic",
    "Verif.Sde.c159_level",
    "Verif.Sde.c159_level_only",
    "Verif.Sde.c159_bse",
    "Verif.Sde.c159_iteration",
    "Verif.Sde.c159_updates",
    "Verif.Sde.c159_solver"
   ],
   "note": "Versions 1 and 2 of the Schwinger-Dyson equation; exact integrals and frequency dependence. Version 3 leaves out the class K2b and is not covered."
  },
  {
   "property": "C160",
   "status": "partial",
   "theorems": [
    "Verif.Sde.Imag.c160_loop_value",
    "Verif.Sde.Imag.c160_dynamic",
    "Verif.Sde.Imag.c160_bse",
    "Verif.Sde.Imag.c160_iteration_partial",
    "Verif.Sde.Imag.c160_solver_partial",
    "Verif.Sde.Imag.c160_initial",
    "Verif.Sde.Imag.c160_refuted",
    "Verif.Sde.Imag.c160_storage_partial",
    "Verif.Sde.Imag.c160_storage_refuted",
    "Verif.Sde.Imag.c160_lines"
   ],
   "note": "With complex values everything is kept (c160_iteration_partial, c160_solver_partial); with particle-hole symmetry compute_SDE sets the asymptotic value of the stored imaginary part to U/2 (State::initialize sets 0), so the symmetry is broken by U/2 in every iteration (c160_refuted) and the stored values differ from the complex computation (c160_storage_refuted). Frequency dependent part and vertex agree (c160_dynamic, c160_storage_partial)."
  },
  {
   "property": "C161",
   "status": "partial",
   "theorems": [
    "Verif.Sde.Imag.c161_channels_partial",
    "Verif.Sde.Imag.c161_versions_partial",
    "Verif.Sde.Imag.c161_refuted",
    "Verif.Sde.Imag.c161_decays"
   ],
   "note": "Versions 1 and 2 (and the channels a, p, t with the same vertex) tend to the same self-energy when POSINTRANGE grows (c161_versions_partial, c161_channels_partial); at a given range they differ (c161_refuted). The propagators of REG 2 satisfy the decay condition (c161_decays). Version 3 is C163."
  },
  {
   "property": "C162",
   "status": "proved",
   "theorems": [
    "Verif.Sde.Limit.c162_channels",
    "Verif.Sde.Limit.c162_versions",
    "Verif.Sde.Limit.c162_decays"
   ],
   "note": "Limit of a growing loop range; integrals exact instead of by quadrature, vertices as functions of energies instead of interpolated. Whether the versions differ at a given finite range at real frequencies is not settled (at imaginary frequencies they do, C161)."
  },
  {
   "property": "C163",
   "status": "proved",
   "theorems": [
    "Verif.Sde.Imag.c163_constant",
    "Verif.Sde.Imag.c163_version",
    "Verif.Sde.Imag.c163_derivative",
    "Verif.Sde.Imag.c163_derivative_dynamic",
    "Verif.Sde.Imag.c163_lines",
    "Verif.Sde.Imag.c163_lines_real"
   ],
   "note": "c163_lines and c163_lines_real show that the propagators of REG 2 satisfy the hypothesis of the derivative theorems. The relation between K1, K2 and the bubbles is a hypothesis of c163_version: it holds at a solution of the Bethe-Salpeter equations, not at every step of an iteration."
  },
  {
   "property": "C164",
   "status": "partial",
   "theorems": [
    "Verif.Thermal.c164_lines",
    "Verif.Thermal.c164_bubble",
    "Verif.Thermal.c164_derivative",
    "Verif.Thermal.c164_option_partial",
    "Verif.Thermal.c164_option_refuted",
    "Verif.Thermal.c164_bse",
    "Verif.Thermal.c164_parquet",
    "Verif.Thermal.c164_flow",
    "Verif.Thermal.c164_loop",
    "Verif.Thermal.c164_self",
    "Verif.Thermal.c164_third",
    "Verif.Thermal.c164_second",
    "Verif.Thermal.c164_first"
   ],
   "note": "Proved for exact integrals and the hybridisation regulator; the extraction of K2 in the central part is assumed to leave equilibrium intact, damped self-energies are a hypothesis at every step, and for K2 and K3 the vanishing of the last component is a hypothesis of the completion. Refuted: with USE_FDT_4_SELFENERGY the extension of the propagator is not in equilibrium when the scale differs from the temperature (c164_option_refuted); c164_option_partial is the case in which it is."
  },
  {
   "property": "C165",
   "status": "partial",
   "theorems": [
    "Verif.Pt2.Mats.c165_imag_partial",
    "Verif.Pt2.Mats.c165_imag_refuted",
    "Verif.Pt2.c165_self",
    "Verif.Pt2.c165_flow",
    "Verif.Pt2.c165_vertex",
    "Verif.Pt2.c165_loops"
   ],
   "note": "Real frequencies: proved for exact integrals, self-energy in the limit of complete loop integrals and at half filling (eps = -U/2, mu = 0), which PT2_FLOW demands. Imaginary frequencies with particle-hole symmetry: refuted for the vertex (c165_imag_refuted); c165_imag_partial is what would hold with a common self-energy."
  },
  {
   "property": "C166",
   "status": "proved",
   "theorems": [
    "Verif.Causal.c166_damped",
    "Verif.Causal.c166_causal",
    "Verif.Causal.c166_strict",
    "Verif.Causal.c166_again",
    "Verif.Causal.c166_pt2",
    "Verif.Causal.c166_check",
    "Verif.Causal.c166_parquet"
   ],
   "note": "Exact integrals; the retarded continuation and the fluctuation-dissipation relation are statements about the limit of complete integrals, the sign holds for every finite range. The constant (Hartree) part is a real argument."
  },
  {
   "property": "C167",
   "status": "partial",
   "theorems": [
    "Verif.Spectrum.c167_total",
    "Verif.Spectrum.c167_value",
    "Verif.Spectrum.c167_deficit",
    "Verif.Spectrum.c167_free",
    "Verif.Spectrum.c167_one_refuted",
    "Verif.Spectrum.c167_temperature",
    "Verif.Spectrum.c167_interaction",
    "Verif.Spectrum.c167_interaction_refuted",
    "Verif.Spectrum.c167_flow",
    "Verif.Spectrum.c167_blind",
    "Verif.Spectrum.c167_notices",
    "Verif.Spectrum.c167_pt2"
   ],
   "note": "The documentation says the result should be 1: over a finite box it never is (c167_one_refuted), and with the interaction regulator the full integral is the flow parameter, not 1 (c167_interaction_refuted). The check does not detect every acausal self-energy (c167_blind). Exact integral over the box instead of the quadrature; the frequency regulator (REG 3) is not treated."
  },
  {
   "property": "C168",
   "status": "proved",
   "theorems": [
    "Verif.Weak.c168_self",
    "Verif.Weak.c168_tail",
    "Verif.Weak.c168_vertex",
    "Verif.Weak.c168_transfer",
    "Verif.Weak.c168_start",
    "Verif.Weak.c168_limit",
    "Verif.Weak.c168_outside",
    "Verif.Weak.c168_again",
    "Verif.Weak.c168_present"
   ],
   "note": "Real frequencies, hybridisation regulator, complete frequency integrals for the self-energy (limit of wide integration ranges); the vertex bounds need no limit. The constants 4 and 64 are not optimal."
  },
  {
   "property": "C169",
   "status": "proved",
   "theorems": [
    "Verif.Converge.c169_contraction",
    "Verif.Converge.c169_solution",
    "Verif.Converge.c169_rate",
    "Verif.Converge.c169_stop",
    "Verif.Converge.c169_solver",
    "Verif.Converge.c169_start",
    "Verif.Converge.c169_symmetric"
   ],
   "note": "Real frequencies, particle-hole symmetry (the Hartree term is U/2 then), exact frequency integrals for the bubbles, no discretisation of the functions. The bound on the coupling is sufficient, far from optimal: convergence at the couplings of the paper is not claimed. Plain mixing only; Anderson acceleration is not covered. Gives the contraction constant that C144 leaves open."
  },
  {
   "property": "C170",
   "status": "partial",
   "theorems": [
    "Verif.Accuracy.c170_error",
    "Verif.Accuracy.c170_rate",
    "Verif.Accuracy.c170_convergence",
    "Verif.Accuracy.c170_old",
    "Verif.Accuracy.c170_estimate_refuted"
   ],
   "note": "Proved for exact arithmetic and any norm in which the right-hand side is Lipschitz near the flow; existence of the exact flow is assumed (near every starting scale it is proved for the vertex flow with a given self-energy in C182). The bound is of first order in the step (the high order of the schemes is C11 and C12). Refuted: the error estimate of the step control does not bound the error (c170_estimate_refuted)."
  },
  {
   "property": "C171",
   "status": "partial",
   "theorems": [
    "Verif.Nan.c171_array_partial",
    "Verif.Nan.c171_vector_partial",
    "Verif.Nan.c171_vector_refuted",
    "Verif.Nan.c171_order_refuted",
    "Verif.Nan.c171_state_partial",
    "Verif.Nan.c171_seen_partial",
    "Verif.Nan.c171_vertex_refuted",
    "Verif.Nan.c171_step_refuted",
    "Verif.Nan.c171_parquet_refuted"
   ],
   "note": "Without NaN the norms are what is claimed (c171_state_partial). With NaN the claim is false: the norm of a state is NaN exactly if the first value of the self-energy is (c171_seen_partial); a NaN in the vertex never shows and may remove the whole vertex from the norm (c171_vertex_refuted), a step with a vertex of NaN only is accepted (c171_step_refuted), and the parquet solver then tests the self-energy only (c171_parquet_refuted). Infinities are not modelled. Assertions in the interpolation stop a run that goes on with such a state; the step itself is accepted and stored before."
  },
  {
   "property": "C172",
   "status": "proved",
   "theorems": [
    "Verif.Robust.c172_errors",
    "Verif.Robust.c172_parameters",
    "Verif.Robust.c172_scale",
    "Verif.Robust.c172_continuous",
    "Verif.Robust.c172_next"
   ],
   "note": "For the equations with exact integrals and without interpolation (model of C169); errors of both enter as the arbitrary error \u03b5 of each update. Weak coupling means 3\u00b710\u2077 t \u2264 (\u0393+\u039b)/2."
  },
  {
   "property": "C173",
   "status": "proved",
   "theorems": [
    "Verif.Order.c173_step",
    "Verif.Order.c173_flow",
    "Verif.Order.c173_estimate",
    "Verif.Order.c173_sharp",
    "Verif.Order.c173_parametrisations",
    "Verif.Order.c173_default"
   ],
   "note": "Proved. The derivatives of a step with respect to its size are computed up to the fifth in terms of the derivatives of the right-hand side and compared with those of the flow."
  },
  {
   "property": "C174",
   "status": "proved",
   "theorems": [
    "Verif.Family.c174_solution",
    "Verif.Family.c174_derivative",
    "Verif.Family.c174_flow",
    "Verif.Family.c174_driver"
   ],
   "note": "Combines C139, C144, C170: implicit function theorem for the averaged Bethe-Salpeter step, uniform Lipschitz bound for the sum of all loop orders near the solution. The self-energy is given as a function of the scale; tolerances that end the loop over loop orders early are excluded in c174_driver (C139 refutes them as error bounds). C175 shows that the diagrams at real frequencies meet the assumptions."
  },
  {
   "property": "C175",
   "status": "proved",
   "theorems": [
    "Verif.Chains.c175_bubble",
    "Verif.Chains.c175_chain",
    "Verif.Chains.c175_parquet",
    "Verif.Chains.c175_deriv",
    "Verif.Chains.c175_scales",
    "Verif.Chains.c175_flow"
   ],
   "note": "For the exact integrals over all frequencies and vertices given at all energies; the discretisation (grids, interpolation, quadrature, finite integration range) is the subject of other claims. The self-energy is given as a function of the scale. The bounds 256/(\u0393+\u039b) and (\u0393+\u039b)/3072 are sufficient, not sharp."
  },
  {
   "property": "C176",
   "status": "proved",
   "theorems": [
    "Verif.Chains.c176_iteration",
    "Verif.Chains.c176_symmetric",
    "Verif.Chains.c176_equilibrium",
    "Verif.Chains.c176_derivative"
   ],
   "note": "For the exact integrals over all frequencies and vertices given at all energies. The solution with the self-energy determined self-consistently is the subject of C169."
  },
  {
   "property": "C177",
   "status": "proved",
   "theorems": [
    "Verif.Chains.c177_rhs",
    "Verif.Chains.c177_flow"
   ],
   "note": "The self-energy and its derivative are given functions of the scale (for one and two loops code_rhs_low says when this is what the code uses); exact integrals, no interpolation between the steps; tolerances are zero so that the configured number of loops is summed."
  },
  {
   "property": "C178",
   "status": "partial",
   "theorems": [
    "Verif.Export.c178_contents",
    "Verif.Export.c178_lookup",
    "Verif.Export.c178_other_ranks",
    "Verif.Export.c178_success_iff",
    "Verif.Export.c178_short_keys_refuted",
    "Verif.Export.c178_crash_refuted",
    "Verif.Export.c178_crash_partial",
    "Verif.Export.c178_checks",
    "Verif.Export.c178_checks_crash_refuted"
   ],
   "note": "Contents proved, with the exact condition for success; false: with too few keys or an empty vector the behaviour is undefined, and an interrupted export has already emptied the file, so that parquet_checks can lose the norms of all scales checked before. Partial: what an interrupted file contains. parquet_checks is declared with one parameter but defined with two."
  },
  {
   "property": "C179",
   "status": "partial",
   "theorems": [
    "Verif.Export.c179_accuracy_partial",
    "Verif.Export.c179_exact_partial",
    "Verif.Export.c179_rows",
    "Verif.Export.c179_other_ranks",
    "Verif.Export.c179_exact_refuted",
    "Verif.Export.c179_silent_refuted"
   ],
   "note": "False for numbers with more than six digits and if the file cannot be opened; the relative error of 5e-6 and exactness for six digits are proved."
  },
  {
   "property": "C180",
   "status": "partial",
   "theorems": [
    "Verif.Export.c180_classes_partial",
    "Verif.Export.c180_names_partial",
    "Verif.Export.c180_classes_refuted",
    "Verif.Export.c180_types",
    "Verif.Export.c180_types_range",
    "Verif.Export.c180_all_true"
   ],
   "note": "False for the class k3_sbe, which is printed as selfenergy; the rest is proved."
  },
  {
   "property": "C181",
   "status": "partial",
   "theorems": [
    "Verif.Export.c181_points_partial",
    "Verif.Export.c181_points_refuted",
    "Verif.Export.c181_name_partial",
    "Verif.Export.c181_saved",
    "Verif.Export.c181_kept_partial",
    "Verif.Export.c181_kept_refuted",
    "Verif.Export.c181_self"
   ],
   "note": "The points are even and include both ends for K1, K2, K3 and the self-energy, and the name determines class, channel, indices and, to six decimals, w and the one fermionic frequency it contains. Refuted: for K2b the interval is read from unset variables; K3 integrands at different v, K2b integrands at different fermionic frequencies and integrands of different spin components share a file, so the later replaces the earlier."
  },
  {
   "property": "C182",
   "status": "proved",
   "theorems": [
    "Verif.Truncated.c182_exists",
    "Verif.Truncated.c182_unique",
    "Verif.Truncated.c182_steps",
    "Verif.Truncated.c182_code",
    "Verif.Truncated.c182_continues_up",
    "Verif.Truncated.c182_continues",
    "Verif.Truncated.c182_diverges"
   ],
   "note": "Proved for exact arithmetic and exact frequency integrals; the self-energy is a given family of retarded functions of the scale. c182_exists is local; c182_diverges says that the flow reaches every given scale unless it grows beyond all bounds on the way."
  },
  {
   "property": "C183",
   "status": "partial",
   "theorems": [
    "Verif.Buffer.c183_first_partial",
    "Verif.Buffer.c183_mirrored_partial",
    "Verif.Buffer.c183_both_ends_refuted",
    "Verif.Buffer.c183_number_refuted"
   ],
   "note": "False in general: only the first frequency is looked at (the vertices are judged by their last one), so that tails at the upper end go unnoticed, and a vanishing self-energy gives NaN. Proved: what is reported, and that it is what is claimed if the moduli are the same at mirrored frequencies, as they are with particle-hole symmetry."
  },
  {
   "property": "C184",
   "status": "partial",
   "theorems": [
    "Verif.Minimizer.c184_passes",
    "Verif.Minimizer.c184_improves",
    "Verif.Minimizer.c184_success",
    "Verif.Minimizer.c184_bracket",
    "Verif.Minimizer.c184_scale_partial",
    "Verif.Minimizer.c184_positive",
    "Verif.Minimizer.c184_degenerate",
    "Verif.Minimizer.c184_scale_refuted",
    "Verif.Minimizer.c184_simplex_partial",
    "Verif.Minimizer.c184_simplex_refuted"
   ],
   "note": "The algorithms of the GSL are parameters with stated requirements. Iterations, bracket and cost are as claimed. The accuracy is reached within the twenty iterations allowed if the bracket shrinks to 70 percent or less each time (the bracket found before spans at most a factor of four); otherwise the program takes the result without notice (c184_scale_refuted). With two parameters (hybrid grid) the program asks for an absolute accuracy of zero, so that success is impossible and all hundred iterations are always made (c184_simplex_refuted)."
  },
  {
   "property": "C185",
   "status": "partial",
   "theorems": [
    "Verif.MultiArray.c185_elementwise",
    "Verif.MultiArray.c185_mismatch_partial",
    "Verif.MultiArray.c185_mismatch_refuted",
    "Verif.MultiArray.c185_same_type",
    "Verif.MultiArray.c185_scalar",
    "Verif.MultiArray.c185_scalar_left",
    "Verif.MultiArray.c185_minus",
    "Verif.MultiArray.c185_equal"
   ],
   "note": "Element by element action, operand order, minus and equality are proved for all shapes and types. Refuted: for operands whose result has the type of the left one, arrays of different shapes stop the program with an assertion instead of the length error."
  },
  {
   "property": "C186",
   "status": "partial",
   "theorems": [
    "Verif.Fdt.c186_projection",
    "Verif.Fdt.c186_equilibrium",
    "Verif.Fdt.c186_kept",
    "Verif.Fdt.c186_files",
    "Verif.Fdt.c186_silent",
    "Verif.Fdt.c186_sign_refuted",
    "Verif.Fdt.c186_missing"
   ],
   "note": "Projection, files of a flow, silence and failure for missing files are proved. Refuted: the comparison of a single vertex writes the difference with the opposite sign to a file of the same name."
  }
 ]
}