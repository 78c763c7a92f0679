{
 "claims": [
  {
   "property": "C01",
   "status": "proved",
   "theorems": [
    "GRT.Search.C01_locate_correct",
    "GRT.Search.C01_locate_complete",
    "GRT.Search.C01_violated_nan",
    "GRT.Search.C01_violated_nan_single"
   ],
   "note": "All array lengths over any ordered field. NaN queries are a separate outcome: the code returns a bracket for them (negation proved)."
  },
  {
   "property": "C02",
   "status": "proved",
   "theorems": [
    "GRT.Search.C02_insert_history",
    "GRT.Search.C02_insert_return",
    "GRT.Search.C02_topK_unique",
    "GRT.Search.C02_capacity_zero_undefined"
   ],
   "note": "Every insertion history, any capacity >= 1; capacity 0 reads out of bounds."
  },
  {
   "property": "C03",
   "status": "proved",
   "theorems": [
    "GRT.Search.C03_argsort_stable",
    "GRT.Search.C03_argsort_unique",
    "GRT.Search.C03_argsort_exists"
   ],
   "note": "qsort itself is library code: every permutation sorted by the comparator is covered."
  },
  {
   "property": "C04",
   "status": "proved",
   "theorems": [
    "GRT.Search.C04_findElement",
    "GRT.Search.C04_findMin",
    "GRT.Search.C04_findMax",
    "GRT.Search.C04_findLessEqualClosest",
    "GRT.Search.C04_findClosest",
    "GRT.Search.C04_findMin_empty_undefined"
   ],
   "note": "All lengths."
  },
  {
   "property": "C05",
   "status": "proved",
   "theorems": [
    "GRT.Model1D.C05_wellformed",
    "GRT.Model1D.C05_loads"
   ],
   "note": "Model file array to layered model, for every layer stack and every pair of non-negative depths."
  },
  {
   "property": "C06",
   "status": "proved",
   "theorems": [
    "GRT.Model1D.C06_lookup",
    "GRT.Model1D.C06_refines",
    "GRT.Model1D.C06_medium",
    "GRT.Model1D.C06_source_receiver"
   ],
   "note": "The inserted model is a refinement of the file."
  },
  {
   "property": "C07",
   "status": "partial",
   "theorems": [
    "GRT.Model1D.C07_partial",
    "GRT.Model1D.C07_violated"
   ],
   "note": "Exact characterisation of the rejected inputs; the property as stated is violated (equal depths inside a liquid layer are rejected), witness in C07_violated."
  },
  {
   "property": "C08",
   "status": "partial",
   "theorems": [
    "GRT.Model1D.C08_partial",
    "GRT.Model1D.C08_violated_iff",
    "GRT.Model1D.C08_violated"
   ],
   "note": "Shear modulus correct; lambda uses the S attenuation factor, so the property holds exactly when the two squared factors agree; witness Qp=600, Qs=300."
  },
  {
   "property": "C09",
   "status": "proved",
   "theorems": [
    "GRT.RT.C09_assoc_PSV",
    "GRT.RT.C09_outer_success_PSV",
    "GRT.RT.C09_bracketing_PSV",
    "GRT.RT.C09_assoc_SH"
   ],
   "note": "Any field, stacks of any length."
  },
  {
   "property": "C10",
   "status": "proved",
   "theorems": [
    "GRT.RT.C10_neutral_PSV",
    "GRT.RT.C10_neutral_SH"
   ],
   "note": ""
  },
  {
   "property": "C11",
   "status": "proved",
   "theorems": [
    "GRT.RT.C11_single_PSV",
    "GRT.RT.C11_inplace_PSV",
    "GRT.RT.C11_single_SH",
    "GRT.RT.C11_frame_PSV",
    "GRT.RT.C11_alias_second_unsafe"
   ],
   "note": "Aliasing modelled through a store. Overwriting the second argument is proved unsafe (no caller does it)."
  },
  {
   "property": "C12",
   "status": "proved",
   "theorems": [
    "GRT.RT.C12_combine_PSV",
    "GRT.RT.C12_unique_PSV",
    "GRT.RT.C12_success_iff_PSV",
    "GRT.RT.C12_combine_SH",
    "GRT.RT.C12_failure_SH",
    "GRT.RT.C12_stack_PSV"
   ],
   "note": "Any field, in-place output allowed, stacks of any length."
  },
  {
   "property": "C13",
   "status": "proved",
   "theorems": [
    "GRT.Layer.C13_ss_PSV",
    "GRT.Layer.C13_ss_PSV_unique",
    "GRT.Layer.C13_ll_PSV",
    "GRT.Layer.C13_ll_PSV_unique",
    "GRT.Layer.C13_ls_contact",
    "GRT.Layer.C13_interface_PSV",
    "GRT.Layer.C13_interface_PSV_unique",
    "GRT.Layer.C13_interface_SH",
    "GRT.Layer.C13_ss_SH_unique",
    "GRT.Layer.C13_layer_matrix",
    "GRT.Layer.C13_layer_inverse",
    "GRT.Layer.C13_SH_defined",
    "GRT.Layer.C13_violated_ls_undef",
    "GRT.Static.C13_static_contact",
    "GRT.Static.C13_static_unique",
    "GRT.Static.C13_static_SH",
    "GRT.Static.C13_static_field",
    "GRT.Static.C13_static_defined"
   ],
   "note": "All interface kinds; the unchecked divisions of the liquid-solid routine are exhibited by C13_violated_ls_undef."
  },
  {
   "property": "C14",
   "status": "proved",
   "theorems": [
    "GRT.Layer.C14_free_top",
    "GRT.Layer.C14_free_bottom",
    "GRT.Layer.C14_free_unique",
    "GRT.Layer.C14_rigid_top",
    "GRT.Layer.C14_rigid_bottom",
    "GRT.Layer.C14_SH",
    "GRT.Layer.C14_free_failure_iff",
    "GRT.Layer.C14_free_bottom_delayed",
    "GRT.Static.C14_static_top",
    "GRT.Static.C14_static_bottom"
   ],
   "note": "Dynamic and static problems."
  },
  {
   "property": "C15",
   "status": "proved",
   "theorems": [
    "GRT.Layer.C15_same_solid",
    "GRT.Layer.C15_same_liquid",
    "GRT.Layer.C15_split_stack",
    "GRT.Layer.C15_split_response",
    "GRT.Layer.C15_split_success",
    "GRT.Layer.C15_delayGRT",
    "GRT.Layer.C15_split_SH",
    "GRT.Layer.C15_delayGRT_SH",
    "GRT.Layer.C15_delay_contact",
    "GRT.Static.C15_static_split",
    "GRT.Static.C15_static_response"
   ],
   "note": "Dynamic and static problems, stacks of any length."
  },
  {
   "property": "C16",
   "status": "proved",
   "theorems": [
    "GRT.Layer.C16_factor_le_one",
    "GRT.Layer.C16_factor_lt_one",
    "GRT.Layer.C16_factor_mul",
    "GRT.Layer.C16_delay_bounded",
    "GRT.Static.C16_static_factor"
   ],
   "note": "csqrt by its C99 contract; exact arithmetic."
  },
  {
   "property": "C17",
   "status": "proved",
   "theorems": [
    "GRT.Layer.C17_jump_PSV",
    "GRT.Layer.C17_jump_SH",
    "GRT.Layer.C17_jump_liquid",
    "GRT.Static.C17_static_jump",
    "GRT.Static.C17_static_jump_SH"
   ],
   "note": "Dynamic and static problems."
  },
  {
   "property": "C18",
   "status": "proved",
   "theorems": [
    "GRT.Layer.C18_field_motion",
    "GRT.Layer.C18_deriv_PSV",
    "GRT.Layer.C18_kernel_PSV",
    "GRT.Layer.C18_kernel_SH",
    "GRT.Layer.C18_field_motion_SH",
    "GRT.Static.C18_static_deriv",
    "GRT.Static.C18_static_motion",
    "GRT.Static.C18_static_kernel",
    "GRT.Static.C18_static_kernel_SH"
   ],
   "note": "Dynamic and static problems."
  },
  {
   "property": "C19",
   "status": "partial",
   "theorems": [
    "GRT.Kernel.C19_partial",
    "GRT.Kernel.C19_build_zero",
    "GRT.Kernel.C19_violated_stats",
    "GRT.Kernel.C19_violated_top",
    "GRT.Kernel.C19_violated_rayleigh",
    "GRT.Kernel.C19_violated_scholte"
   ],
   "note": "Violated by the code: mstat->stats is never assigned, a failing top boundary is masked by the SH call, a failing interface yields a table from half-built accumulators. Witnesses at the Rayleigh and Scholte poles. What holds is C19_partial."
  },
  {
   "property": "C20",
   "status": "proved",
   "theorems": [
    "GRT.Syn.C20_derivative",
    "GRT.Syn.C20_overwrites"
   ],
   "note": "all source types, all azimuths; over the reals"
  },
  {
   "property": "C21",
   "status": "proved",
   "theorems": [
    "GRT.Syn.C21_tensor",
    "GRT.Syn.C21_force",
    "GRT.Syn.C21_equivalent",
    "GRT.Syn.C21_double_couple"
   ],
   "note": "angles or tensor give the same factors"
  },
  {
   "property": "C22",
   "status": "proved",
   "theorems": [
    "GRT.Syn.C22_linear_moment",
    "GRT.Syn.C22_linear_source",
    "GRT.Syn.C22_rotation",
    "GRT.Syn.C22_rotated_strike"
   ],
   "note": "linearity in moment and mechanism, rotation covariance"
  },
  {
   "property": "C23",
   "status": "proved",
   "theorems": [
    "GRT.Syn.C23_vec",
    "GRT.Syn.C23_vec_roundtrip",
    "GRT.Syn.C23_sym",
    "GRT.Syn.C23_sym_roundtrip",
    "GRT.Syn.C23_upar_vec",
    "GRT.Syn.C23_upar_roundtrip"
   ],
   "note": "rotations are orthogonal conjugations; round trips at every distance"
  },
  {
   "property": "C24",
   "status": "proved",
   "theorems": [
    "GRT.Syn.C24_strain",
    "GRT.Syn.C24_stress",
    "GRT.Syn.C24_rotation",
    "GRT.Syn.C24_hooke",
    "GRT.Syn.C24_hooke_dyn",
    "GRT.Syn.C24_stress_dyn"
   ],
   "note": "per receiver, static and dynamic; the Fourier multiplication of the dynamic stress is a linear map of traces"
  },
  {
   "property": "C25",
   "status": "proved",
   "theorems": [
    "GRT.StaticSyn.C25_restore",
    "GRT.StaticSyn.C25_reduced",
    "GRT.StaticSyn.C25_transparent"
   ],
   "note": "Arithmetic over an ordered field; comparison tolerance as in the code."
  },
  {
   "property": "C26",
   "status": "partial",
   "theorems": [
    "GRT.StaticSyn.C26_partial",
    "GRT.StaticSyn.C26_uniform_partial",
    "GRT.StaticSyn.C26_table",
    "GRT.StaticSyn.C26_violated",
    "GRT.StaticSyn.C26_violated_bracket",
    "GRT.StaticSyn.C26_violated_profile"
   ],
   "note": "The fast path for tables taken for uniform is violated: a table may pass the uniformity test although its spacing drifts, and then entries outside the table are read or the wrong bracket is used (witness: a profile 5 km north, 0/50/100 m east). Proved for the general path and for exactly uniform tables."
  },
  {
   "property": "C27",
   "status": "proved",
   "theorems": [
    "GRT.StaticSyn.C27_interpolation",
    "GRT.StaticSyn.C27_bilinear"
   ],
   "note": "Corners with factor below 1e-15 are left out by the code; the theorem states the result with them subtracted."
  },
  {
   "property": "C28",
   "status": "proved",
   "theorems": [
    "GRT.StaticSyn.C28_sum",
    "GRT.StaticSyn.C28_progress",
    "GRT.StaticSyn.C28_terminates",
    "GRT.StaticSyn.C28_fault"
   ],
   "note": "Transition system with private buffers, barrier and critical section; sums over the reals (floating-point rounding depends on the order and is not modelled); iterations that exit with an error are excluded by hypothesis."
  },
  {
   "property": "C29",
   "status": "proved",
   "theorems": [
    "GRT.StaticSyn.C29_tiling",
    "GRT.StaticSyn.C29_normal"
   ],
   "note": "Real arithmetic."
  },
  {
   "property": "C30",
   "status": "proved",
   "theorems": [
    "GRT.Travt.C30_reciprocity",
    "GRT.Travt.C30_exchange"
   ],
   "note": "From the model file on, for P and S; arbitrary arrays need equal velocities below adjacent interfaces, which the reader guarantees."
  },
  {
   "property": "C31",
   "status": "proved",
   "theorems": [
    "GRT.Travt.C31_direct",
    "GRT.Travt.C31_attained",
    "GRT.Travt.C31_marker",
    "GRT.Travt.C31_marker_file",
    "GRT.Travt.C31_reader"
   ],
   "note": "Over the real numbers; the tolerance of the shooting loop is part of the statement."
  },
  {
   "property": "C32",
   "status": "partial",
   "theorems": [
    "GRT.Signals.C32_linear",
    "GRT.Signals.C32_circular_partial",
    "GRT.Signals.C32_comm",
    "GRT.Signals.C32_linearity",
    "GRT.Signals.C32_violated"
   ],
   "note": "Linear convolution proved for all lengths. Circular convolution proved for a second sequence at most one sample longer than the first; for longer ones C32_violated shows a read before the array (reachable with a custom time function longer than the trace)."
  },
  {
   "property": "C33",
   "status": "partial",
   "theorems": [
    "GRT.Signals.C33_restored",
    "GRT.Signals.C33_convolution_partial",
    "GRT.Signals.C33_no_wrap",
    "GRT.Signals.C33_violated",
    "GRT.Signals.C33_violated_formula"
   ],
   "note": "Proved for time functions not longer than the trace; C33_violated shows the failure one sample beyond."
  },
  {
   "property": "C34",
   "status": "partial",
   "theorems": [
    "GRT.Signals.C34_integral",
    "GRT.Signals.C34_integral_linear",
    "GRT.Signals.C34_integral_add",
    "GRT.Signals.C34_differential",
    "GRT.Signals.C34_differential_exact",
    "GRT.Signals.C34_undo",
    "GRT.Signals.C34_differential_short",
    "GRT.Signals.C34_area_partial",
    "GRT.Signals.C34_violated",
    "GRT.Signals.C34_violated_always"
   ],
   "note": "Integral and differences proved. The area function divides by the sampling interval instead of multiplying (C34_violated); a single sample cannot be differenced without reading past the end."
  },
  {
   "property": "C35",
   "status": "partial",
   "theorems": [
    "GRT.Signals.C35_trapezoid",
    "GRT.Signals.C35_trapezoid_peak",
    "GRT.Signals.C35_trapezoid_start",
    "GRT.Signals.C35_trapezoid_end_partial",
    "GRT.Signals.C35_violated",
    "GRT.Signals.C35_parabola",
    "GRT.Signals.C35_parabola_shape",
    "GRT.Signals.C35_parabola_violated",
    "GRT.Signals.C35_parabola_peak_violated",
    "GRT.Signals.C35_ricker",
    "GRT.Signals.C35_ricker_shape"
   ],
   "note": "Samples lie on the shapes for all accepted parameters. Violations: a trapezoid with a fall shorter than one interval may end at full height; a parabola shorter than the tolerance is a single zero; with an even number of samples the parabola does not reach one."
  },
  {
   "property": "C36",
   "status": "partial",
   "theorems": [
    "GRT.Files.C36_sound_partial",
    "GRT.Files.C36_accepts",
    "GRT.Files.C36_range_integers",
    "GRT.Files.C36_count_partial",
    "GRT.Files.C36_value_partial",
    "GRT.Files.C36_violated",
    "GRT.Files.C36_range_violated",
    "GRT.Files.C36_lenient_violated"
   ],
   "note": "Character-level model with double rounding. Violated as stated: a single nan from a file is accepted, 0/0.3/0.1 loses its end point, text such as 1-2 or e is read as a number. Ranges of integers are exact; other ranges are right up to one value and 13 digits."
  },
  {
   "property": "C37",
   "status": "partial",
   "theorems": [
    "GRT.Integ.C37_grid_partial",
    "GRT.Integ.C37_zero",
    "GRT.Integ.C37_overshoot_violated"
   ],
   "note": "Grid, stopping rule and returned wavenumber proved in exact arithmetic; the last wavenumber may exceed kmax by up to one step, shown as a violation."
  },
  {
   "property": "C38",
   "status": "proved",
   "theorems": [
    "GRT.Integ.Kmax.C38_terminates",
    "GRT.Integ.Kmax.C38_bounds",
    "GRT.Integ.Kmax.C38_first_settled"
   ],
   "note": "Exact arithmetic; the initial value is positive, as all callers pass the wavenumber step."
  },
  {
   "property": "C39",
   "status": "partial",
   "theorems": [
    "GRT.Integ.C39_average",
    "GRT.Integ.C39_geometric",
    "GRT.Integ.C39_alternating",
    "GRT.Integ.C39_method_partial",
    "GRT.Integ.C39_method_real",
    "GRT.Integ.C39_defined",
    "GRT.Integ.C39_outside_violated",
    "GRT.Integ.C39_vertex_violated"
   ],
   "note": "The reduction is the binomial average, exact on alternating tails. The whole loop: every result is the binomial average of points recorded at separate windows of three successive integrals, at least one (all 36) of them for fine enough steps. For real kernels each point is an extremum of the parabola inside the samples. Violated for complex sums: when the fitted vertex is out of range the value recorded is the parabola's at wavenumber zero, and inside the range the vertex is not the extremum of the real part."
  },
  {
   "property": "C40",
   "status": "partial",
   "theorems": [
    "GRT.Integ.C40_quad_interpolates",
    "GRT.Integ.C40_quad_unique",
    "GRT.Integ.C40_quad_integral",
    "GRT.Integ.C40_quad_cos",
    "GRT.Integ.C40_three_point",
    "GRT.Integ.C40_adaptive",
    "GRT.Integ.C40_linear_partial",
    "GRT.Integ.C40_linear_violated"
   ],
   "note": "Quadratic rule and the whole adaptive integral proved exact. The fixed-step rule has a sign error in its sine end terms; the result with the error is proved, and shown not to be the integral."
  },
  {
   "property": "C41",
   "status": "proved",
   "theorems": [
    "GRT.Integ.C41_terminates",
    "GRT.Integ.C41_partition",
    "GRT.Integ.C41_failure",
    "GRT.Integ.C41_simpson",
    "GRT.Integ.C41_fit"
   ],
   "note": "Exact arithmetic."
  },
  {
   "property": "C42",
   "status": "partial",
   "theorems": [
    "GRT.Integ.C42_kernel_file",
    "GRT.Integ.C42_point_file",
    "GRT.Integ.C42_points_partial",
    "GRT.Integ.C42_points_violated",
    "GRT.Integ.C42_cut_violated"
   ],
   "note": "Kernel and extremum files, whole or cut at any byte, print as the complete records with the values written under the right names and then a strict beginning of the next. Violated: a cut inside the first number of a record is not noticed; with derivatives the extremum file pairs wavenumbers of the displacement with values of the vertical derivative."
  },
  {
   "property": "C43",
   "status": "partial",
   "theorems": [
    "GRT.Trace.C43_roundtrip_partial",
    "GRT.Trace.C43_cut",
    "GRT.Trace.C43_refuses",
    "GRT.Trace.C43_order_violated",
    "GRT.Trace.C43_empty_violated"
   ],
   "note": "Reading what was written gives the header and the samples back, cut files and other header versions are refused.  Not for files of the other byte order (a const parameter is changed while writing or reading, undefined) and not for a trace without samples."
  },
  {
   "property": "C44",
   "status": "proved",
   "theorems": [
    "GRT.Points.C44_points",
    "GRT.Points.C44_cells",
    "GRT.Points.C44_written",
    "GRT.Points.C44_reread"
   ],
   "note": "Points, file axes, field layout, and the points made again by strain, rotation and stress.  NetCDF by contract."
  },
  {
   "property": "C45",
   "status": "partial",
   "theorems": [
    "GRT.Files.C45_found",
    "GRT.Files.C45_finds",
    "GRT.Files.C45_order_given",
    "GRT.Files.C45_order_partial",
    "GRT.Files.C45_order_violated",
    "GRT.Files.C45_lookup_partial",
    "GRT.Files.C45_lookup_violated"
   ],
   "note": "Uniqueness proved. Order independence proved with all options given or with values equal or clearly apart; violated for values within 1e-5 of each other. The float header makes the lookup of the same number fail at e.g. 300.3 km; proved to succeed below 250 km."
  },
  {
   "property": "C46",
   "status": "proved",
   "theorems": [
    "GRT.Files.C46_sound",
    "GRT.Files.C46_one_model",
    "GRT.Files.C46_not_mixed",
    "GRT.Files.C46_complete",
    "GRT.Files.C46_rerun_violated"
   ],
   "note": "Names and kinds of entries, not the contents of subdirectories. Completeness for decimal numbers in the range of double; a distance text that is no number (accepted by the lenient option parser) makes the next run refuse the directory."
  },
  {
   "property": "C47",
   "status": "proved",
   "theorems": [
    "GRT.Freq.C47_prefix",
    "GRT.Freq.C47_rising"
   ],
   "note": "The frequencies left out at the low end form a prefix of the band; among the rest the modulus of the complex frequency rises."
  },
  {
   "property": "C48",
   "status": "partial",
   "theorems": [
    "GRT.Freq.C48_parallel_partial",
    "GRT.Freq.C48_terminates",
    "GRT.Freq.C48_serial_partial",
    "GRT.Freq.C48_serial_violated",
    "GRT.Freq.C48_reference_violated"
   ],
   "note": "Proved for the parallel build over all schedules, and for the serial build with a common reference wavenumber limit. Violated in the serial build, where a refined step stays in force for later frequencies, and in every build through the attenuation reference frequency, which is the highest of the band."
  },
  {
   "property": "C49",
   "status": "partial",
   "theorems": [
    "GRT.Freq.C49_full_partial",
    "GRT.Freq.C49_constant_partial",
    "GRT.Freq.C49_last_bin_violated",
    "GRT.Freq.C49_single_violated",
    "GRT.Freq.C49_empty_violated",
    "GRT.Freq.C49_offset_violated"
   ],
   "note": "The direct sum is right when all bins or only bin zero are valid. Otherwise the last valid bin is dropped; a single sample is counted three times; with no valid bin the array is left.; bin zero is left out for a first frequency other than zero"
  },
  {
   "property": "C50",
   "status": "proved",
   "theorems": [
    "GRT.Modal.C50_roots"
   ],
   "note": "For every order of candidates: strictly increasing, separated by more than the gap, at most nmode, each with its layer; the list is a greedy selection of the candidates."
  },
  {
   "property": "C51",
   "status": "partial",
   "theorems": [
    "GRT.Modal.C51_partial",
    "GRT.Modal.C51_safe",
    "GRT.Modal.C51_violated"
   ],
   "note": "Exact for tables whose columns are the orders 0,1,... (all phase-velocity files); never out of bounds. Violated for group-velocity files made with a selection of orders: the order is compared with the number of entries."
  },
  {
   "property": "C52",
   "status": "partial",
   "theorems": [
    "GRT.Modal.C52_partial",
    "GRT.Modal.C52_violated"
   ],
   "note": "Safe when the number of modes does not fall with frequency; violated wherever the next frequency has fewer modes (proved in general)."
  },
  {
   "property": "C53",
   "status": "proved",
   "theorems": [
    "GRT.Modal.C53_simpson",
    "GRT.Modal.C53_accepted",
    "GRT.Modal.C53_fit"
   ],
   "note": "The five rules of root.c; those of safim.c are under C41."
  },
  {
   "property": "C54",
   "status": "proved",
   "theorems": [
    "GRT.Modal.C54_bracket",
    "GRT.Modal.C54_converges"
   ],
   "note": "For every function and bracket, with the constant of the code; convergence for unimodal functions with the exact ratio."
  },
  {
   "property": "C55",
   "status": "partial",
   "theorems": [
    "GRT.Modal.C55_partial",
    "GRT.Modal.C55_violated",
    "GRT.Modal.C55_error_violated"
   ],
   "note": "Violated: the test compares with nlay-1 instead of nlay, so every all-liquid model is searched at layer nlay and liquids over a solid half-space raise the error. Holds when a layer above the half-space is solid."
  },
  {
   "property": "C56",
   "status": "proved",
   "theorems": [
    "GRT.Freq.C56_series",
    "GRT.Freq.C56_inverse",
    "GRT.Freq.C56_skip"
   ],
   "note": "Exact arithmetic; the library transform is taken at its documentation; the start time is the one in the header."
  },
  {
   "property": "C57",
   "status": "proved",
   "theorems": [
    "GRT.Kernel.C57_kernel",
    "GRT.Kernel.C57_dynamic_field",
    "GRT.Kernel.C57_static_field",
    "GRT.Model1D.C57_from_file"
   ],
   "note": "Amplitude form for both variants, physical form over the complex numbers (dynamic: existence; static: existence and every such field agrees)."
  },
  {
   "property": "C58",
   "status": "partial",
   "theorems": [
    "GRT.Kernel.C58_free_partial",
    "GRT.Kernel.C58_only_DS",
    "GRT.Kernel.C58_violated_halfspace"
   ],
   "note": "Dynamic kernel, free top: the row thrown away is a constant. Violated for a half-space top. The distributional step (inverse transform of a constant) and the static kernel are not covered."
  },
  {
   "property": "C59",
   "status": "proved",
   "theorems": [
    "GRT.Syn.C59_zrt",
    "GRT.Syn.C59_gradient",
    "GRT.Syn.C59_axis"
   ],
   "note": "Green's functions and their derivative tables are assumed consistent; the axis case assumes the regularity of cylindrical harmonics (structure AxisRegular)"
  },
  {
   "property": "C60",
   "status": "partial",
   "theorems": [
    "GRT.StaticSyn.C60_partial",
    "GRT.StaticSyn.C60_violated"
   ],
   "note": "Violated between tabulated distances; proved at tabulated distances."
  },
  {
   "property": "C61",
   "status": "proved",
   "theorems": [
    "GRT.StaticSyn.C61_superposition",
    "GRT.StaticSyn.C61_slip_vector"
   ],
   "note": "Radiation factors for every azimuth; real arithmetic."
  },
  {
   "property": "C62",
   "status": "partial",
   "theorems": [
    "GRT.Travt.C62_violated",
    "GRT.Travt.C62_down_partial",
    "GRT.Travt.C62_up_partial"
   ],
   "note": "False: the loop over refractors ends at the first one whose critical ray is slower than the time so far, and misses faster layers behind it; proved when no layer in front ends the loop."
  },
  {
   "property": "C63",
   "status": "proved",
   "theorems": [
    "GRT.StaticSyn.C63_moment",
    "GRT.StaticSyn.C63_inr_only_100"
   ],
   "note": ""
  },
  {
   "property": "C64",
   "status": "proved",
   "theorems": [
    "GRT.Integ.C64_harmonic",
    "GRT.Integ.C64_derivative",
    "GRT.Integ.C64_axis"
   ],
   "note": "Exact arithmetic; j0, j1, jn are the Bessel functions given by Bessel's integral."
  },
  {
   "property": "C65",
   "status": "partial",
   "theorems": [
    "GRT.Integ.C65_restored_partial",
    "GRT.Integ.C65_axis",
    "GRT.Integ.C65_no_derivatives",
    "GRT.Integ.C65_filon_near_violated",
    "GRT.Integ.C65_filon_force_violated",
    "GRT.Integ.C65_axis_terms"
   ],
   "note": "Holds when the discrete method covers the whole interval; violated when a Filon part follows, since that part skips the near-field entry and uses the asymptotic constants at another wavenumber."
  },
  {
   "property": "C66",
   "status": "partial",
   "theorems": [
    "GRT.Integ.C40_adaptive",
    "GRT.Integ.C41_partition",
    "GRT.Integ.C66_fixed_step_gap_violated",
    "GRT.Integ.C66_fixed_step_overshoot_violated"
   ],
   "note": "Holds for the adaptive method; the fixed-step method starts one Filon step (not one discrete step) after the last discrete point and overshoots the limit."
  },
  {
   "property": "C67",
   "status": "partial",
   "theorems": [
    "GRT.Integ.C37_grid_partial",
    "GRT.Integ.C67_fixed_step_violated"
   ],
   "note": "Holds for the discrete part; in the fixed-step Filon part the test never holds."
  },
  {
   "property": "C68",
   "status": "partial",
   "theorems": [
    "GRT.Freq.C68_defined",
    "GRT.Freq.C68_band_partial",
    "GRT.Freq.C68_between_violated",
    "GRT.Freq.C68_above_violated"
   ],
   "note": "Proved when the band holds a grid frequency. Otherwise the next frequency above (or the last one) is computed."
  },
  {
   "property": "C69",
   "status": "partial",
   "theorems": [
    "GRT.Freq.C69_partial",
    "GRT.Freq.C69_difference",
    "GRT.Freq.C69_even_violated"
   ],
   "note": "Holds for odd lengths and for spectra that vanish at half the sampling rate; for even lengths that term is counted twice, C69_difference gives the exact excess."
  },
  {
   "property": "C70",
   "status": "proved",
   "theorems": [
    "GRT.Freq.C70_files",
    "GRT.Freq.C70_names",
    "GRT.Freq.C70_traces"
   ],
   "note": "All selections of sources, components and derivatives."
  },
  {
   "property": "C71",
   "status": "partial",
   "theorems": [
    "GRT.Points.C71_line",
    "GRT.Points.C71_line_only_partial",
    "GRT.Points.C71_accepts",
    "GRT.Points.C71_safe",
    "GRT.Points.C71_glued_violated"
   ],
   "note": "Complete but for the separation of numbers: text such as 10-5 is read as two columns.  Hexadecimal numbers not modelled."
  },
  {
   "property": "C72",
   "status": "proved",
   "theorems": [
    "GRT.Modal.C72_adaptive",
    "GRT.Modal.C72_fixed",
    "GRT.Modal.C72_frequency"
   ],
   "note": "Both searches and their composition over layers at one frequency."
  },
  {
   "property": "C73",
   "status": "proved",
   "theorems": [
    "GRT.Modal.C73_sampling",
    "GRT.Modal.C73_estimates"
   ],
   "note": "The expected number of roots is shown continuous in the phase velocity, from the principal square roots of the code."
  },
  {
   "property": "C74",
   "status": "partial",
   "theorems": [
    "GRT.Modal.C74_partial",
    "GRT.Modal.C74_period_violated",
    "GRT.Modal.C74_start_violated"
   ],
   "note": "Violated for a range of periods (used as frequencies) and for a start below the step (moved to the step); holds otherwise."
  },
  {
   "property": "C75",
   "status": "partial",
   "theorems": [
    "GRT.Modal.C75_formula",
    "GRT.Modal.C75_partial",
    "GRT.Modal.C75_last_violated"
   ],
   "note": "The formula is exact; the value is exact where the phase sensitivity is affine between samples; violated at the last frequency, where the mixed derivative is taken as zero. Missing: error of the forward difference for curved sensitivities."
  },
  {
   "property": "C76",
   "status": "proved",
   "theorems": [
    "GRT.Modal.C76_secular_iff",
    "GRT.Modal.C76_mode",
    "GRT.Modal.C76_converse"
   ],
   "note": "free surface over a half-space, the only boundary conditions accepted; exact complex arithmetic; no recursion singular; vertical wavenumbers of solids not zero"
  },
  {
   "property": "C77",
   "status": "partial",
   "theorems": [
    "GRT.Modal.C77_layer_partial",
    "GRT.Modal.C77_halfspace_violated",
    "GRT.Modal.C77_division_violated"
   ],
   "note": "violated for the half-space: the function is that of the layer above and the eigenfunction divides by zero"
  },
  {
   "property": "C78",
   "status": "proved",
   "theorems": [
    "GRT.Modal.C78_love"
   ],
   "note": "for every thin-layer step up to 100000 times the thinnest layer; for larger steps see C79"
  },
  {
   "property": "C79",
   "status": "partial",
   "theorems": [
    "GRT.Modal.C79_thin_partial",
    "GRT.Modal.C79_thin_violated"
   ],
   "note": "violated for a layer thinner than a hundred-thousandth of the step, which is dropped; proved otherwise"
  },
  {
   "property": "C80",
   "status": "proved",
   "theorems": [
    "GRT.Modal.C80_group"
   ],
   "note": "along a branch on which xb of every layer is continuous and no recursion matrix is singular, energy integral I1 not zero"
  },
  {
   "property": "C81",
   "status": "proved",
   "theorems": [
    "GRT.Modal.C81_sens"
   ],
   "note": "along a branch as in C80; the sensitivities exist unless the program stops with an error (4k^2 I2 = 0)"
  },
  {
   "property": "C82",
   "status": "proved",
   "theorems": [
    "GRT.Modal.C82_pole",
    "GRT.Modal.residue_SH",
    "GRT.Modal.love_unique"
   ],
   "note": "The response at neighbouring wavenumbers is specified by the SH equations, contact conditions and the jump of C17; the residue is derived, not assumed."
  },
  {
   "property": "C83",
   "status": "proved",
   "theorems": [
    "GRT.Modal.C83_depth",
    "GRT.Modal.C83_range"
   ],
   "note": ""
  },
  {
   "property": "C84",
   "status": "proved",
   "theorems": [
    "GRT.Modal.C84_surface"
   ],
   "note": "Holds at any receiver depth."
  },
  {
   "property": "C85",
   "status": "partial",
   "theorems": [
    "GRT.Modal.C85_begin_partial",
    "GRT.Modal.C85_begin_violated",
    "GRT.Modal.C85_mark_violated",
    "GRT.Modal.C85_depth_violated"
   ],
   "note": "Violated: -Ep uses the unset header field, so traces begin before -12345 s; the marks are times between tops of layers, zero if source and receiver are in one layer."
  },
  {
   "property": "C86",
   "status": "partial",
   "theorems": [
    "GRT.Modal.C86_secular_iff_partial",
    "GRT.Modal.C86_converse_partial",
    "GRT.Modal.C86_violated_top"
   ],
   "note": "Proved wherever the recursions the routine makes succeed. Violated where they do not: at the Rayleigh velocity of the top layer the function vanishes at every frequency although no wave exists."
  },
  {
   "property": "C87",
   "status": "partial",
   "theorems": [
    "GRT.Modal.C87_mode_partial",
    "GRT.Modal.C87_violated_row"
   ],
   "note": "Proved where the recursions and the normalisation succeed (and, above a contact of liquid and solid, where the inversion made when the P amplitude is zero exists). Violated where the row the amplitudes are taken from is zero: they are NaN."
  },
  {
   "property": "C88",
   "status": "proved",
   "theorems": [
    "GRT.Modal.C88_rayl"
   ],
   "note": ""
  },
  {
   "property": "C89",
   "status": "proved",
   "theorems": [
    "GRT.Modal.C89_group"
   ],
   "note": "The branch is any family of free P-SV waves that depends continuously on a parameter; C86 and C87 link it to zeros of the secular function."
  },
  {
   "property": "C90",
   "status": "proved",
   "theorems": [
    "GRT.Modal.C90_sens"
   ],
   "note": "λ ≠ 0 in every layer is part of the statement: the program divides by λ."
  },
  {
   "property": "C91",
   "status": "proved",
   "theorems": [
    "GRT.Modal.C91_pole"
   ],
   "note": "The mode is simple (any two free waves of that wavenumber are proportional).  At a contact of liquid and solid with a vanishing amplitude a determinant is assumed non-zero, as in C87."
  },
  {
   "property": "C92",
   "status": "partial",
   "theorems": [
    "GRT.Modal.C92_depth_partial",
    "GRT.Modal.C92_range",
    "GRT.Modal.Oc.C92_liquid_violated"
   ],
   "note": "The depth derivative is proved for receivers in a solid.  In a liquid the program writes zero, which is not the derivative (C92_liquid_violated)."
  },
  {
   "property": "C93",
   "status": "proved",
   "theorems": [
    "GRT.Modal.C93_surface"
   ],
   "note": ""
  },
  {
   "property": "C94",
   "status": "proved",
   "theorems": [
    "GRT.Okada.C94_derivatives"
   ],
   "note": "Dips within 1e-6 (cosine) of vertical, other than vertical itself, are treated by the program as vertical and excluded."
  },
  {
   "property": "C95",
   "status": "proved",
   "theorems": [
    "GRT.Okada.C95_equilibrium"
   ],
   "note": "Same exclusion of nearly vertical dips; depth at least 1e-6."
  },
  {
   "property": "C96",
   "status": "proved",
   "theorems": [
    "GRT.Okada.C96_source"
   ],
   "note": "Same exclusions; receivers whose depth is within 1e-6 of the source depth but not equal to it are excluded.  Uniqueness of the solution of the elastic problem is not proved."
  },
  {
   "property": "C97",
   "status": "proved",
   "theorems": [
    "GRT.Okada.C97_codes"
   ],
   "note": ""
  },
  {
   "property": "C98",
   "status": "proved",
   "theorems": [
    "GRT.Okada.C98_derivatives"
   ],
   "note": "Dips whose cosine is within 1e-6 of zero without being zero are treated by the program as vertical and excluded."
  },
  {
   "property": "C99",
   "status": "proved",
   "theorems": [
    "GRT.Okada.C99_integral"
   ],
   "note": "Dips whose cosine is within 1e-6 of zero without being zero are treated by the program as vertical and excluded.  For opening the half-space response is that of the tensile point source of C96."
  },
  {
   "property": "C100",
   "status": "proved",
   "theorems": [
    "GRT.Okada.C100_equilibrium"
   ],
   "note": "Dips whose cosine is within 1e-6 of zero without being zero are treated by the program as vertical and excluded."
  },
  {
   "property": "C101",
   "status": "proved",
   "theorems": [
    "GRT.Okada.C101_codes"
   ],
   "note": "Dips whose cosine is within 1e-6 of zero without being zero are treated by the program as vertical and excluded.  A failure because of the image leaves the sum over the real fault in the results."
  },
  {
   "property": "C102",
   "status": "partial",
   "theorems": [
    "GRT.Okada.C102_source_partial",
    "GRT.Okada.C102_violated",
    "GRT.Okada.C102_violated_self"
   ],
   "note": "Holds for explosions, double couples, and cracks where λ=μ; receivers are moved by less than 2 mm, or 11 cm at the source itself.  False for other cracks: the scale is wrong by μ/λ (division by zero for λ=0).  Dips whose cosine is within 1e-6 of zero without being zero are treated by the program as vertical and excluded."
  },
  {
   "property": "C103",
   "status": "proved",
   "theorems": [
    "GRT.Okada.C103_rectangles",
    "GRT.Okada.C103_points",
    "GRT.Okada.C103_sum"
   ],
   "note": "Dips whose cosine is within 1e-6 of zero without being zero are treated by the program as vertical and excluded.  Receivers of point sources are moved by less than 2 mm."
  },
  {
   "property": "C104",
   "status": "partial",
   "theorems": [
    "GRT.Okada.C104_outcome_partial",
    "GRT.Okada.C104_violated"
   ],
   "note": "Proved for faults at or below the surface; a fault that sticks out of the half-space is accepted and gives a result.  Dips whose cosine is within 1e-6 of zero without being zero are treated by the program as vertical and excluded."
  },
  {
   "property": "C105",
   "status": "proved",
   "theorems": [
    "GRT.Lamb.C105_roots",
    "GRT.Lamb.C105_rayleigh"
   ],
   "note": "Over exact real arithmetic."
  },
  {
   "property": "C106",
   "status": "proved",
   "theorems": [
    "GRT.Lamb.C106_lamb"
   ],
   "note": "For exact elliptic integrals (Ell.Exact) and exact real arithmetic. Not claimed: that the contour integral is the displacement in time (Cagniard-de Hoop)."
  },
  {
   "property": "C107",
   "status": "partial",
   "theorems": [
    "GRT.Lamb.C107_program_partial",
    "GRT.Lamb.C107_violated_single",
    "GRT.Lamb.C107_violated_rounding"
   ],
   "note": "Proved for two or more times and distinct roots. Violated: a list with one time is accepted and ts[1] is read past the end; -T0/0.3/0.1 loses its last time to rounding."
  },
  {
   "property": "C108",
   "status": "proved",
   "theorems": [
    "GRT.StaticGrn.C108_entry",
    "GRT.StaticGrn.C108_media"
   ],
   "note": "For an arbitrary kernel in exact real arithmetic. The largest distance enters the step of the wavenumber and the length scale, hence is part of the hypotheses; peak-trough averaging and Filon integration after a convergence test depend on the other distances by design and are excluded."
  },
  {
   "property": "C109",
   "status": "partial",
   "theorems": [
    "GRT.StaticGrn.C109_ends_partial",
    "GRT.StaticGrn.C109_violated"
   ],
   "note": "Proved for lengths that are not negative. Violated: a negative -L is accepted, and without -K+f the search for the largest wavenumber never ends, for every kernel."
  },
  {
   "property": "C110",
   "status": "proved",
   "theorems": [
    "GRT.Freq.C110_parallel",
    "GRT.Freq.C110_serial"
   ],
   "note": "For an arbitrary kernel in exact real arithmetic and given integration settings (the program derives its step from the largest distance)."
  },
  {
   "property": "C111",
   "status": "proved",
   "theorems": [
    "GRT.Ell.C111_pi",
    "GRT.Ell.C111_cut",
    "GRT.Ell.C111_one"
   ],
   "note": "In exact arithmetic, with the code's deviations from Carlson's final series. The rational approximations that grt_ellipticK and grt_ellipticE use are modelled but their error is not bounded here; it enters through the value of the first integral only. n = 1 divides by zero (C111_one)."
  },
  {
   "property": "C112",
   "status": "proved",
   "theorems": [
    "GRT.KernelProg.C112_records"
   ],
   "note": "From the numbers of the options and the layers of the model file on, in exact arithmetic, for records without a failed inversion (a failure is not visible in the file, see C19) whose boundary reflections exist; the dip-slip row with both depths zero is blank (C58). No attenuation factor vanishes for any frequency of the list, which is proved."
  },
  {
   "property": "C113",
   "status": "partial",
   "theorems": [
    "GRT.KernelProg.C113_partial",
    "GRT.KernelProg.C113_violated_start",
    "GRT.KernelProg.C113_violated_step",
    "GRT.KernelProg.C113_violated_empty",
    "GRT.KernelProg.C113_violated_round"
   ],
   "note": "Proved in exact arithmetic for a start at zero or not below the step and positive steps. Violated: a start between zero and the step is moved to the step, a step dc ≤ 0 after cmin/cmax is accepted (undefined conversion, or empty files), and rounding can lose the last sample."
  },
  {
   "property": "C114",
   "status": "partial",
   "theorems": [
    "GRT.KernelProg.C114_partial",
    "GRT.KernelProg.C114_violated",
    "GRT.KernelProg.C114_violated_greenfn"
   ],
   "note": "Proved for models without attenuation. Violated for every pair of bands in a full space with a quality factor: the reference frequency of the attenuation law is the last frequency of the run (mentioned in the documentation of version 0.15), so -H changes the medium as well as the band."
  },
  {
   "property": "C115",
   "status": "partial",
   "theorems": [
    "GRT.Travt.C115_rows",
    "GRT.Travt.C115_swap",
    "GRT.Travt.C115_integers",
    "GRT.Travt.C115_decimals_partial",
    "GRT.Travt.C115_violated_count",
    "GRT.Travt.C115_violated_undef",
    "GRT.Travt.C115_violated_small",
    "GRT.Travt.C115_violated_text",
    "GRT.Travt.C115_empty"
   ],
   "note": "From the text of the option on, in double precision; times in exact arithmetic before they are printed with three decimals. Proved: rows and their times, exchange of the depths, ranges of whole numbers below 2^31, and for numbers with up to seven decimals and twelve digits that every distance shown is exactly r1 + i*dr unless a conversion is undefined, with a number of rows right up to one. Violated: -R0/300/0.57 converts 3e9 to int, -R0/0.3/0.1 loses its last row, decimals of 1e-8 are not seen, texts that are no numbers are shown and computed as something else."
  },
  {
   "property": "C116",
   "status": "partial",
   "theorems": [
    "GRT.Trace.Ascii.C116_partial",
    "GRT.Trace.Ascii.C116_violated_time",
    "GRT.Trace.Ascii.C116_violated_amplitude"
   ],
   "note": "Proved for begin time and length together not beyond two million sampling intervals: one line per sample, times within 0.4 intervals and strictly ascending, amplitudes to eight digits. Violated: begin 3000 s with 0.0001 s sampling prints equal times; nine digits would be needed to tell all amplitudes apart."
  },
  {
   "property": "C117",
   "status": "proved",
   "theorems": [
    "GRT.Files.Dispatch.C117_run",
    "GRT.Files.Dispatch.C117_static",
    "GRT.Files.Dispatch.C117_manual"
   ],
   "note": "Which module runs and its arguments; the modules are those of the manual; the exit status (always zero once a module returns) is not modelled."
  },
  {
   "property": "C118",
   "status": "partial",
   "theorems": [
    "GRT.Modal.HalfSpace.C118_partial",
    "GRT.Modal.HalfSpace.C118_violated",
    "GRT.Modal.HalfSpace.C118_violated_far"
   ],
   "note": "Exact real arithmetic. Proved for Vp between sqrt(2) and 2 times Vs and for Vp above sqrt(6) times Vs: the estimate is within 2e-8 Vs of the only Rayleigh velocity. Violated for every Vp between 2.44 and sqrt(6) times Vs: the estimate is negative, below -0.45 Vs. Not decided between 2 and 2.44 (where it fails in part, from about 2.26 on)."
  },
  {
   "property": "C119",
   "status": "proved",
   "theorems": [
    "GRT.Modal.HalfSpace.C119_scholte"
   ],
   "note": "Exact real arithmetic; the Scholte equation is solved by a velocity not above the estimate and closer to it than 1e-12 Vs."
  },
  {
   "property": "C120",
   "status": "partial",
   "theorems": [
    "GRT.Modal.C120_love",
    "GRT.Modal.C120_refused",
    "GRT.Modal.C120_violated"
   ],
   "note": "Proved for all models in which no liquid lies under a solid, with a solid half-space: every Love wave is strictly inside the range, and refused models have no Love waves. Violated for a solid plate on a liquid half-space whose sound is not faster than the shear waves of the plate: all Love waves lie outside the range, and there are such waves. The margin `vgap` (-T+v) that is cut from both ends is not part of the statement."
  },
  {
   "property": "C121",
   "status": "partial",
   "theorems": [
    "GRT.Python.C121_error",
    "GRT.Python.C121_number",
    "GRT.Python.C121_list_partial",
    "GRT.Python.C121_violated",
    "GRT.Python.C121_violated_list"
   ],
   "note": "Numbers with at most fifteen significant digits arrive unchanged, alone and in lists; every number arrives to within a relative error of 6e-15. Violated for other doubles: 1/3 arrives as another number, and the list [100, 100+2^-46] is accepted by Python and refused by the program."
  },
  {
   "property": "C122",
   "status": "partial",
   "theorems": [
    "GRT.Python.Syn.C122_source",
    "GRT.Python.Syn.C122_partial",
    "GRT.Python.Syn.C122_violated"
   ],
   "note": "Proved for numbers of at most fifteen digits and time functions `letter/text` without blanks. Violated for a time function file whose name has a space: the program looks for the part before the space."
  },
  {
   "property": "C123",
   "status": "partial",
   "theorems": [
    "GRT.Python.Grn.C123_source",
    "GRT.Python.Grn.C123_partial",
    "GRT.Python.Grn.C123_violated_upsampling",
    "GRT.Python.Grn.C123_violated_first",
    "GRT.Python.Grn.C123_violated_large"
   ],
   "note": "Proved for numbers of at most fifteen digits, not above 1e14 in -N, -L and -K, and upsampling_n >= 0. Violated: a negative upsampling_n is accepted and becomes 2^64 more; ref_first_p=True with the default delayT0=0 is always refused; values of 1e15 and more in -L are refused because their text has a plus sign."
  },
  {
   "property": "C124",
   "status": "partial",
   "theorems": [
    "GRT.Python.StaticGrn.C124_source",
    "GRT.Python.StaticGrn.C124_partial",
    "GRT.Python.StaticGrn.C124_near",
    "GRT.Python.StaticGrn.C124_violated_grid"
   ],
   "note": "Proved for numbers of at most fifteen digits, not above 1e14 in -L and -K, and ranges of whole numbers below 1e14. Ranges of fractions (C124_near): every coordinate to 2^-51 of |a| + i d, and the right number of them unless the quotient is within 2^-51 of itself next to a whole number. Violated there: a range whose quotient is rounded down loses its last coordinate (0/0.3/0.1 ends at 0.2)."
  },
  {
   "property": "C125",
   "status": "partial",
   "theorems": [
    "GRT.Python.StaticSyn.C125_source",
    "GRT.Python.StaticSyn.C125_partial",
    "GRT.Python.StaticSyn.C125_near",
    "GRT.Python.StaticSyn.C125_violated_refused",
    "GRT.Python.StaticSyn.C125_violated_file",
    "GRT.Python.StaticSyn.C125_violated_grid"
   ],
   "note": "Proved for numbers of at most fifteen digits, sizes of parts not above 1e14, ranges of whole numbers below 1e14 and a file of faults whose path has no plus sign. Ranges of fractions (C125_near): as in C124. Violated: such a path is refused, or (p+i<dL>/<dW>) another file is read; 0/0.3/0.1 ends at 0.2."
  },
  {
   "property": "C126",
   "status": "partial",
   "theorems": [
    "GRT.Python.Okada.C126_source",
    "GRT.Python.Okada.C126_partial",
    "GRT.Python.Okada.C126_near",
    "GRT.Python.Okada.C126_violated_path",
    "GRT.Python.Okada.C126_violated_grid"
   ],
   "note": "Proved for numbers of at most fifteen digits, ranges of whole numbers below 1e14 and a file of faults whose path has no plus sign. Ranges of fractions (C126_near): as in C124. Violated: such a path is refused; a range whose quotient is rounded down loses its last coordinate (0/0.3/0.1 ends at 0.2)."
  },
  {
   "property": "C127",
   "status": "partial",
   "theorems": [
    "GRT.Python.Stats.C127_read",
    "GRT.Python.Stats.C127_extrema",
    "GRT.Python.Stats.C127_plot",
    "GRT.Python.Stats.C127_exception",
    "GRT.Python.Stats.C127_violated_epicentre"
   ],
   "note": "Files: proved for all contents. Curves: proved over the reals for distances above 1e-8. Violated: at distance 0 the second part of sources of order 1 is not a number in Python, the program uses the limit."
  },
  {
   "property": "C128",
   "status": "proved",
   "theorems": [
    "GRT.Python.Stream.C128_convolve",
    "GRT.Python.Stream.C128_long",
    "GRT.Python.Stream.C128_integral",
    "GRT.Python.Stream.C128_diff"
   ],
   "note": "Exact arithmetic. Equal to the program's result wherever that is defined: signals not longer than the trace. For longer signals the program reads outside its array (C32); Python then gives the circular convolution or, with a damping, an exception."
  },
  {
   "property": "C129",
   "status": "partial",
   "theorems": [
    "GRT.Modal.Options.C129_order",
    "GRT.Modal.Options.C129_partial",
    "GRT.Modal.Options.C129_near",
    "GRT.Modal.Options.C129_violated_start",
    "GRT.Modal.Options.C129_violated_end",
    "GRT.Modal.Options.C129_violated_rounding"
   ],
   "note": "Order and sign: proved in double precision for every text. Values: proved for whole numbers below 1e14 with f1 = 0 or f1 >= df, and for fractions with f1 >= df up to rounding (C129_near: 2^-51, and the right number unless the quotient is next to a whole number). Violated: f1 between 0 and df is replaced by df (-F1/10/2 searches 2, 4, ..., 10); an end below df is exceeded (-F0/1/2 searches 2); -F0.1/0.3/0.1 leaves out 0.3."
  },
  {
   "property": "C130",
   "status": "proved",
   "theorems": [
    "GRT.StaticSyn.SubSize.C130_finest",
    "GRT.StaticSyn.SubSize.C130_error",
    "GRT.StaticSyn.SubSize.C130_library",
    "GRT.StaticSyn.SubSize.C130_grid"
   ],
   "note": "Exact numbers. Consequence (C130_grid): for a square grid of step h with n steps the parts are not larger than h/(2n), because the distances of neighbouring grid points are that close."
  },
  {
   "property": "C131",
   "status": "partial",
   "theorems": [
    "GRT.Python.Kernels.C131_rows",
    "GRT.Python.Kernels.C131_direct",
    "GRT.Python.Kernels.C131_value",
    "GRT.Python.Kernels.C131_range",
    "GRT.Python.Kernels.C131_near",
    "GRT.Python.Kernels.C131_violated",
    "GRT.Python.Kernels.C131_violated_order"
   ],
   "note": "Proved with the frequency shown in the name of the file (six digits), which is that of the run to 5.1e-6 of itself. Violated: velocities are computed from the rounded frequency, so for 1/3 Hz the largest recorded velocity is refused; frequencies that agree in six digits have no order."
  },
  {
   "property": "C132",
   "status": "partial",
   "theorems": [
    "GRT.Modal.C132_adaptive",
    "GRT.Modal.C132_fixed",
    "GRT.Modal.C132_violated",
    "GRT.Modal.C132_violated_step"
   ],
   "note": "Proved for the adaptive search if some piece of the starting velocities is as long as the gap, and for the fixed step except for its second row. Violated: for a range shorter than the gap (or two times vgap) the first row is read from an interval never set; with a fixed step longer than the range the second row lies above it. Velocities are real numbers."
  },
  {
   "property": "C133",
   "status": "partial",
   "theorems": [
    "GRT.Python.Triangle.C133_even",
    "GRT.Python.Triangle.C133_partial",
    "GRT.Python.Triangle.C133_violated"
   ],
   "note": "Proved for lengths of an even number of intervals; for all lengths the samples lie between 0 and 1, start at 0 and reach 1. Violated for every odd number of intervals: the rise is one interval longer than the fall, and a length of one interval gives the step 0, 1. Times are real numbers."
  },
  {
   "property": "C134",
   "status": "partial",
   "theorems": [
    "GRT.SynDir.C134_derived_partial",
    "GRT.SynDir.C134_stream",
    "GRT.SynDir.C134_violated",
    "GRT.SynDir.C134_violated_mixed",
    "GRT.SynDir.C134_violated_old",
    "GRT.SynDir.C134_violated_stream"
   ],
   "note": "Proved if the last run writes derivatives and is in the frame ZNE, or no earlier run wrote derivatives in that frame; for the stream if the directory was empty. Violated: a run in ZRT after one in ZNE (both with derivatives) gives derived fields of the earlier run, with Z and its vertical derivative of the later; a run without derivatives after one with them is combined with the old derivatives; old components are returned in the stream."
  },
  {
   "property": "C135",
   "status": "partial",
   "theorems": [
    "GRT.GrnDir.C135_partial",
    "GRT.GrnDir.C135_single",
    "GRT.GrnDir.C135_kept",
    "GRT.GrnDir.C135_last",
    "GRT.GrnDir.C135_violated",
    "GRT.GrnDir.C135_violated_mixed"
   ],
   "note": "Proved if the last run has all sources (and derivatives) the synthesis needs, whatever was in the directory before. A directory written once is refused exactly if something is lacking. In general each file is of the last run that wrote this file. Violated: after a run for explosions and double couples and a later one for explosions only, moment tensors and tensile cracks mix both; if the later one has more samples, samples are read outside the arrays."
  },
  {
   "property": "C136",
   "status": "partial",
   "theorems": [
    "GRT.PostDir.C136_call",
    "GRT.PostDir.C136_partial",
    "GRT.PostDir.C136_violated"
   ],
   "note": "Proved for histories in which all syntheses are in one frame, whatever calls came before; in general the stream holds the components of the call and traces left under other names (C136_call). Violated: after a synthesis in ZRT with strain and one in ZNE with strain, the second stream also holds ZR of the first; the same for rotations and stresses."
  }
 ]
}
