{"id": "C01", "title": "Interpolation bracketing is correct", "statement": "Looking up a query value in a sorted axis for linear interpolation either refuses the query or returns two in-range indices and a weight such that interpolating the axis itself reproduces the query to within 2e-8; when it refuses, the query really lies outside the axis (beyond the 1e-8 slack) or the axis is empty.", "quantifier": "every non-empty ascending axis of any length, every real query value, plus the not-a-number query", "why_tests_cant": "The result depends on the position of the query relative to every axis entry and on near-coincident entries; a test grid can only sample axes and queries.", "anchors": ["pygrt/C_extension/src/common/search.c: grt_locateLinearInterp"]}
{"id": "C02", "title": "Bounded ordered insertion keeps exactly the best values", "statement": "After any sequence of insertions into a fixed-capacity ordered list, the list is sorted, never exceeds its capacity, and holds exactly the capacity-many smallest (ascending) or largest (descending) values inserted so far; the returned position is where the value now sits, or -1 when it was rejected.", "quantifier": "every capacity >= 1, every finite insertion history, both sort directions", "why_tests_cant": "It is a statement about all histories of calls, not about one call.", "anchors": ["pygrt/C_extension/src/common/search.c: grt_insertOrdered, grt_compare_real_t"]}
{"id": "C03", "title": "Index sort is a stable sorting permutation", "statement": "Requesting the sort order of an array returns a permutation of its indices along which the values are non-decreasing, equal values keep their original order, and that permutation is the only one with these properties.", "quantifier": "every array of every length, ties included", "why_tests_cant": "Stability and permutation must hold for each tie pattern of each length.", "anchors": ["pygrt/C_extension/src/common/search.c: grt_argsort, compare_argsort_pair"]}
{"id": "C04", "title": "Array searches return the right index", "statement": "Searching an array for its minimum, maximum, closest value or an exact element returns an in-range index that attains the extremum (the first one), and exact search returns -1 exactly when the element is absent; the nearest-from-below search returns the closest element not above the target or -1 when there is none.", "quantifier": "every non-empty array and every target", "why_tests_cant": "Quantifies over all arrays, including those with ties.", "anchors": ["pygrt/C_extension/src/common/search.c: grt_findElement_##T, grt_findLessEqualClosest_##T, grt_findClosest_##T, grt_findMin_##T, grt_findMax_##T"]}
{"id": "C05", "title": "Source and receiver insertion yields a well-formed layered model", "statement": "Loading a layered model with a source depth and a receiver depth gives a model with exactly two extra layers, where the source and receiver interfaces are distinct, valid, at exactly the requested depths, and the upper/lower flag agrees with their order.", "quantifier": "every layer stack, every pair of non-negative depths including depths on interfaces, equal depths and depths in the half-space", "why_tests_cant": "All relative positions of two depths against arbitrarily many interfaces have to be considered, including exact coincidences.", "anchors": ["pygrt/C_extension/src/common/model.c: grt_read_mod1d_from_file"]}
{"id": "C06", "title": "Inserting source and receiver does not change the medium", "statement": "The medium seen at any depth in the loaded model is the medium in the file at that depth; total thickness of the finite layers is preserved; the medium at the source and receiver interfaces equals what the depth lookup reports for that depth.", "quantifier": "every layer stack, every pair of non-negative depths, every probe depth", "why_tests_cant": "Quantifies over all stacks and a continuum of depths.", "anchors": ["pygrt/C_extension/src/common/model.c: grt_read_mod1d_from_file, grt_modarr_medium_at_depth"]}
{"id": "C07", "title": "Liquid-interface rejection is exact", "statement": "A source or receiver is rejected for lying on a liquid interface only when its depth really coincides with an interface of the input model that has liquid on one side; a source and receiver at the same depth inside one liquid layer are accepted.", "quantifier": "every layer stack with liquid layers, every pair of depths", "why_tests_cant": "The faulty configuration is a coincidence between two inputs that random tests do not hit.", "anchors": ["pygrt/C_extension/src/common/model.c: grt_read_mod1d_from_file (interface checks)"]}
{"id": "C08", "title": "Anelastic moduli are consistent with the attenuated velocities", "statement": "At any complex frequency the shear modulus equals density times the square of the attenuated S velocity, and lambda + 2 mu equals density times the square of the attenuated P velocity.", "quantifier": "every layer, every pair of quality factors, every complex frequency", "why_tests_cant": "An algebraic identity over continuous parameters; it shows only when the two quality factors differ.", "anchors": ["pygrt/C_extension/src/common/model.c: grt_update_mod1d_state_omega", "pygrt/C_extension/src/common/attenuation.c: grt_py_attenuation / attenuation factor"]}
{"id": "C09", "title": "Layer composition is associative", "statement": "The combined reflection/transmission response of a stack does not depend on how consecutive groups of layers are bracketed when they are combined.", "quantifier": "every stack of any number of layer responses for which the intermediate inverses exist", "why_tests_cant": "Universal over complex matrices and stack lengths; floating-point tests compare at tolerance on samples.", "anchors": ["pygrt/C_extension/src/common/RT_matrix.c: grt_recursion_RT_matrix_PSV, grt_recursion_RT_matrix_SH"]}
{"id": "C10", "title": "A freshly reset response is the neutral element", "statement": "Combining any layer response with a reset (empty) response, on either side, returns the layer response unchanged.", "quantifier": "every layer response", "why_tests_cant": "Universal over all responses.", "anchors": ["pygrt/C_extension/src/common/RT_matrix.c: grt_reset_RT_matrix_PSV, grt_reset_RT_matrix_SH, grt_recursion_RT_matrix"]}
{"id": "C11", "title": "Single-coefficient combination agrees with the full combination, in place too", "statement": "Computing only the downgoing reflection, upgoing reflection, or a transmission of two combined stacks gives the same value as the corresponding entry of the full combination, also when the output overwrites one of the inputs in the ways the solvers use it.", "quantifier": "every pair of responses and every aliasing pattern used by the solvers", "why_tests_cant": "Aliasing errors change results only for particular call patterns and values.", "anchors": ["pygrt/C_extension/src/common/RT_matrix.c: grt_recursion_RD_PSV, grt_recursion_TD_PSV, grt_recursion_RU_PSV, grt_recursion_TU_PSV, grt_recursion_RT_matrix_PSV", "pygrt/C_extension/src/integral/kernel_template.c_: __GRT_MATRIX_FUNC__"]}
{"id": "C12", "title": "Combination solves the two-stack wave system", "statement": "For any incident waves on a pair of stacked responses the combined response gives exactly the outgoing waves of the unique solution of the coupled scattering equations of the two parts.", "quantifier": "every pair of responses with invertible coupling, every incident amplitude vector", "why_tests_cant": "A universally quantified solvability and uniqueness statement over complex matrices.", "anchors": ["pygrt/C_extension/src/common/RT_matrix.c: grt_recursion_RT_matrix_PSV, grt_recursion_RT_matrix_SH"]}
{"id": "C13", "title": "Interface coefficients satisfy continuity", "statement": "The closed-form reflection and transmission coefficients of an interface make displacement and traction (normal components only on a liquid side) continuous across it, for every incident wave type from above and from below.", "quantifier": "every pair of media (solid-solid, liquid-solid, solid-liquid, liquid-liquid), every wavenumber and complex frequency with non-vanishing denominator", "why_tests_cant": "The identity is over a continuum of complex parameters; a transcription slip in one entry can stay below test tolerances.", "anchors": ["pygrt/C_extension/src/dynamic/layer.c: grt_RT_matrix_ss_PSV, grt_RT_matrix_ss_SH, grt_RT_matrix_ls_PSV, grt_RT_matrix_ll_PSV, grt_get_layer_D"]}
{"id": "C14", "title": "Boundary reflections satisfy the boundary condition", "statement": "The reflection at a free surface gives zero traction and at a rigid boundary gives zero displacement, at the top and at the bottom of the model, for dynamic and static problems.", "quantifier": "every medium, wavenumber and frequency with non-zero denominator", "why_tests_cant": "Identity over continuous parameters.", "anchors": ["pygrt/C_extension/src/dynamic/layer.c: __freeBound_R_PSV, __rigidBound_R_PSV, __freeBound_R_SH, __rigidBound_R_SH", "pygrt/C_extension/src/static/static_layer.c: __freeBound_R_PSV, __rigidBound_R_PSV"]}
{"id": "C15", "title": "Splitting a homogeneous layer changes nothing", "statement": "Cutting a homogeneous layer at any depth by an artificial interface leaves the response of the stack unchanged; in particular the virtual interfaces created for source and receiver are transparent.", "quantifier": "every layer, every split thickness, every wavenumber and frequency, every surrounding stack", "why_tests_cant": "Quantifies over a continuum of cuts and over all stacks.", "anchors": ["pygrt/C_extension/src/dynamic/layer.c: grt_RT_matrix_PSV, grt_delay_RT_matrix_PSV", "pygrt/C_extension/src/common/RT_matrix.c: grt_recursion_RT_matrix_PSV", "pygrt/C_extension/src/static/static_layer.c: grt_static_RT_matrix_PSV, grt_static_delay_RT_matrix"]}
{"id": "C16", "title": "Propagation through a layer never amplifies", "statement": "The phase/decay factor applied for crossing a layer has modulus at most one, and factors for consecutive sublayers multiply to the factor of the whole layer.", "quantifier": "every wavenumber >= 0, thickness >= 0 and vertical slowness chosen by the code's branch rule", "why_tests_cant": "Growth would appear only for some parameter region.", "anchors": ["pygrt/C_extension/src/dynamic/layer.c: grt_delay_RT_matrix_PSV, grt_delay_RT_matrix_SH", "pygrt/C_extension/src/common/model.c: grt_update_mod1d_state_k"]}
{"id": "C17", "title": "Source terms produce the prescribed jumps", "statement": "For each elementary source the up- and downgoing wave amplitudes at the source depth make exactly the displacement/traction jumps of that source, all other components being continuous.", "quantifier": "every source type, medium, wavenumber and frequency", "why_tests_cant": "Identity over continuous parameters for each entry of a table of coefficients.", "anchors": ["pygrt/C_extension/src/dynamic/source.c: _source_PSV, _source_SH", "pygrt/C_extension/src/static/static_source.c: _source_PSV, _source_SH"]}
{"id": "C18", "title": "Vertical-derivative output is the derivative of the displacement output", "statement": "The kernel values reported for the vertical derivative of displacement are the derivative with respect to depth of the displacement kernel at the receiver.", "quantifier": "every receiver medium, wavenumber, frequency and wave amplitudes", "why_tests_cant": "A derivative identity over a continuum.", "anchors": ["pygrt/C_extension/src/dynamic/layer.c: grt_wave2qwv_z_REV_PSV, grt_wave2qwv_z_REV_SH, grt_get_layer_D11_uiz, grt_get_layer_D12_uiz", "pygrt/C_extension/src/static/static_layer.c: grt_static_wave2qwv_z_REV_PSV"]}
{"id": "C19", "title": "A singular system is reported, not silently used", "statement": "When a matrix inversion inside the kernel evaluation fails, the failure status reaches the integration driver, which then stops or flags that frequency instead of using stale values.", "quantifier": "every model, wavenumber and frequency at which some inversion in the recursion fails", "why_tests_cant": "The failing inputs form a measure-zero set that tests do not reach.", "anchors": ["pygrt/C_extension/src/integral/kernel_template.c_: __GRT_MATRIX_FUNC__, __KERNEL_FUNC__", "pygrt/C_extension/src/integral/dwm.c: grt_discrete_integ", "pygrt/C_extension/src/dynamic/grn.c: grt_integ_grn_spec"]}
{"id": "C20", "title": "Reported azimuthal-derivative factors are the azimuthal derivatives", "statement": "The radiation factors returned for the azimuthal derivative of each channel are the exact derivative with respect to azimuth of the ordinary radiation factors.", "quantifier": "every source type and mechanism, every azimuth, every component", "why_tests_cant": "A derivative identity over a continuum of mechanisms and azimuths.", "anchors": ["pygrt/C_extension/src/common/radiation.c: grt_set_source_radiation"]}
{"id": "C21", "title": "Equivalent source descriptions give equal synthetics", "statement": "Describing a double couple, tensile crack or explosion by angles or by its moment tensor gives the same radiation factors.", "quantifier": "every strike, dip, rake, azimuth, moment and Vp/Vs ratio", "why_tests_cant": "Trigonometric identity over a continuum.", "anchors": ["pygrt/C_extension/src/common/radiation.c: grt_set_source_radiation"]}
{"id": "C22", "title": "Radiation is linear and rotation invariant", "statement": "Radiation factors are linear in moment, in force components and in tensor components, and rotating source and receiver azimuth together leaves them unchanged.", "quantifier": "every source, azimuth and rotation angle", "why_tests_cant": "Universal over a continuum.", "anchors": ["pygrt/C_extension/src/common/radiation.c: grt_set_source_radiation"]}
{"id": "C23", "title": "Horizontal rotations are faithful", "statement": "Rotating vectors, symmetric tensors or displacement derivatives from one horizontal frame to the other and back restores the input; vector length, tensor trace, and tensor norm are unchanged.", "quantifier": "every angle, vector, tensor and distance, including zero distance", "why_tests_cant": "Universal over a continuum, with a special branch at zero distance.", "anchors": ["pygrt/C_extension/src/common/coord.c: grt_rot_zxy2zrt_vec, grt_rot_zxy2zrt_symtensor2odr, grt_rot_zrt2zxy_upar, grt_rot_zxy2zrt_upar"]}
{"id": "C24", "title": "Strain, rotation and stress do not depend on the output frame", "statement": "Computing strain, rotation or stress from cylindrical derivatives and then rotating equals rotating the derivatives and computing in the Cartesian frame.", "quantifier": "every displacement, derivative set, azimuth and distance including zero distance", "why_tests_cant": "Universal over a continuum, with a special branch at zero distance.", "anchors": ["pygrt/C_extension/src/static/grt_static_strain.c, static/grt_static_rotation.c, static/grt_static_stress.c, dynamic/grt_strain.c, dynamic/grt_rotation.c, dynamic/grt_stress.c", "pygrt/C_extension/src/common/coord.c: grt_rot_zrt2zxy_upar"]}
{"id": "C25", "title": "Removing duplicate distances does not change results", "statement": "Static Green's functions computed on the reduced distance list and copied back give each requested distance the result computed for a distance equal to it within tolerance, and no slot is overwritten before it has been read.", "quantifier": "every list of distances of any length and duplication pattern", "why_tests_cant": "Depends on the order of copies for every duplication pattern.", "anchors": ["pygrt/C_extension/src/static/static_grn.c: grt_integ_static_grn"]}
{"id": "C26", "title": "Distance interpolation in static synthesis stays inside the table", "statement": "For every accepted receiver distance the two table distances used bracket it, are valid indices, and the interpolation weights lie in [0,1] and reproduce linear functions exactly.", "quantifier": "every accepted distance table and every accepted receiver distance", "why_tests_cant": "The fast path for uniform tables relies on a tolerance; the failing tables are unusual.", "anchors": ["pygrt/C_extension/src/static/grt_static_syn.c: static_syn_from_gf", "pygrt/C_extension/src/static/stgrnlib.c: fill_rs_meta"]}
{"id": "C27", "title": "Depth interpolation is exact for bilinear data", "statement": "The weights of the four depth corners used in static synthesis are non-negative (up to the lookup slack), sum to one, and reproduce any field linear in source depth and receiver depth.", "quantifier": "every pair of depth axes and every pair of query depths", "why_tests_cant": "Universal over axes and queries, with special cases at nodes.", "anchors": ["pygrt/C_extension/src/static/grt_static_syn.c: depth corners", "pygrt/C_extension/src/common/search.c: grt_locateLinearInterp"]}
{"id": "C28", "title": "Finite-fault summation is schedule independent", "statement": "The synthetic field of a finite fault is the sum over subfaults, whatever the number of threads and whatever way the subfaults are distributed over them.", "quantifier": "every list of subfaults, every partition among threads, every merge order", "why_tests_cant": "Interleavings cannot be enumerated by tests.", "anchors": ["pygrt/C_extension/src/static/grt_static_syn.c: finite fault loop"]}
{"id": "C29", "title": "Subfaults tile the fault and conserve potency", "statement": "Subdividing a fault yields cells no larger than the requested size which cover the rectangle exactly, with centres on the fault plane, and whose potencies add up to that of the fault; the fault normal used for the mechanism is normal to that plane.", "quantifier": "every fault geometry and every positive cell size", "why_tests_cant": "Universal over geometry and cell size.", "anchors": ["pygrt/C_extension/src/common/finite_fault.c: grt_finite_fault_subdiv, grt_finite_fault_subfault, grt_finite_fault_set_derived"]}
{"id": "C30", "title": "Travel times are reciprocal", "statement": "Exchanging the depths of source and receiver gives the same first-arrival travel time from the same model file, and both orders load or neither does.", "quantifier": "every model file, pair of non-negative depths and distance", "why_tests_cant": "Universal over models.", "anchors": ["pygrt/C_extension/src/common/travt.c: grt_compute_travt1d"]}
{"id": "C31", "title": "Reported travel time never exceeds the direct wave", "statement": "The reported first-arrival time is at most the time of any path through the layers between source and receiver, up to the tolerance of the shooting loop (the time over one metre, or the resolution of fifty bisections); it is the time of some path; and the undefined marker is returned exactly when the wave has zero velocity at some depth between source and receiver.", "quantifier": "every model file that loads, pair of non-negative depths and distance", "why_tests_cant": "Universal over models.", "anchors": ["pygrt/C_extension/src/common/travt.c: grt_compute_travt1d"]}
{"id": "C32", "title": "Convolution is convolution, and stays in bounds", "statement": "Linear and circular convolution return the textbook sums, are linear in each input, commute where lengths allow, and never access memory outside their buffers.", "quantifier": "every pair of sequences and every length combination the callers can produce", "why_tests_cant": "Out-of-bounds access depends on length combinations.", "anchors": ["pygrt/C_extension/src/dynamic/signals.c: grt_oaconvolve", "pygrt/C_extension/src/dynamic/grt_syn.c: syn_postprocess_trace"]}
{"id": "C33", "title": "Damped convolution equals undamped convolution up to attenuated wrap-around", "statement": "Convolving with the imaginary-frequency damping applied and removed equals the causal convolution plus wrap-around terms multiplied by the damping over the window, and the time function is restored so every channel sees the same one.", "quantifier": "every trace, time function, window length and damping", "why_tests_cant": "Universal over sequences and repeated application.", "anchors": ["pygrt/C_extension/src/dynamic/grt_syn.c: syn_postprocess_trace"]}
{"id": "C34", "title": "Integration and differentiation of traces are the trapezoid rule and its companions", "statement": "Trace integration gives at each sample the trapezoid sum of the original samples, is exact on linear data, the total area equals the last running integral, and differentiation recovers linear slopes.", "quantifier": "every trace and positive sampling interval", "why_tests_cant": "Universal over traces; the area function is only used for normalisation.", "anchors": ["pygrt/C_extension/src/dynamic/signals.c: grt_trap_integral, grt_trap_area, grt_differential"]}
{"id": "C35", "title": "Source time functions have the documented shape", "statement": "Generated trapezoid, parabola and Ricker time functions are the named shape sampled on the time grid, with corners moved to the grid by less than one interval; they stay within the promised range, reach the promised peak of one, start and end at zero where the shape does, and the generator never leaves its array.", "quantifier": "every accepted parameter set and sampling interval", "why_tests_cant": "Universal over parameters.", "anchors": ["pygrt/C_extension/src/dynamic/signals.c: grt_get_trap_wave, grt_get_parabola_wave, grt_get_ricker_wave"]}
{"id": "C36", "title": "List options are strictly ascending and non-negative", "statement": "A parsed list of depths, distances or ranges is accepted only if all its values are non-negative and strictly ascending, and a range start/stop/step expands to exactly the values it denotes.", "quantifier": "every option value", "why_tests_cant": "Universal over inputs including not-a-number.", "anchors": ["pygrt/C_extension/src/common/util.c: grt_parse_real_array"]}
{"id": "C37", "title": "Wavenumber grid covers the interval exactly", "statement": "The discrete wavenumber integration evaluates the kernel at dk, 2dk, ... once each up to the requested maximum, stops early only if the convergence test holds at every distance, and returns the last wavenumber used.", "quantifier": "every dk > 0, kmax >= 0, every kernel and convergence setting", "why_tests_cant": "Universal over kernels and stopping patterns.", "anchors": ["pygrt/C_extension/src/integral/dwm.c: grt_discrete_integ"]}
{"id": "C38", "title": "The predicted integration limit is within bounds and found in finite time", "statement": "The predicted maximum wavenumber lies between the initial value and the reference limit and the search terminates.", "quantifier": "every kernel decay behaviour and every initial/reference limit", "why_tests_cant": "Termination cannot be tested.", "anchors": ["pygrt/C_extension/src/integral/kmax.c: grt_predict_kmax, _decay_zero, _decay_constant, _kmax_step_factor, _kmax_low"]}
{"id": "C39", "title": "Peak-trough averaging returns values consistent with the samples", "statement": "The averaging step returns the binomial average of the recorded extrema, is exact on alternating tails, each recorded extremum is an extremum of the parabola through three samples with abscissa within those samples.", "quantifier": "every sample sequence", "why_tests_cant": "Universal over sequences.", "anchors": ["pygrt/C_extension/src/integral/ptam.c: _cplx_peak_or_trough, _cplx_shrink, process_peak_or_trough, ptam_is_complete"]}
{"id": "C40", "title": "Filon quadrature is exact for piecewise-linear and quadratic data", "statement": "The Filon formulas integrate the interpolating polynomial times cosine or sine exactly on each interval, and the interpolating quadratic passes through its three samples.", "quantifier": "every interval, distance and sample values", "why_tests_cant": "Identity over a continuum.", "anchors": ["pygrt/C_extension/src/integral/quadratic.c: grt_quad_term, grt_quad_eval, grt_quad_integral", "pygrt/C_extension/src/integral/k_integ.c: interg_quad_cos", "pygrt/C_extension/src/integral/fim.c: grt_linear_filon_integ"]}
{"id": "C41", "title": "Adaptive integration partitions the interval", "statement": "The adaptive integrator accepts intervals that tile the requested wavenumber range from left to right without gap or overlap, each no shorter than half the minimum step, and terminates.", "quantifier": "every kernel, tolerance, and range", "why_tests_cant": "Universal over kernels; termination.", "anchors": ["pygrt/C_extension/src/integral/safim.c: grt_sa_filon_integ, stack_push, stack_pop, check_fit"]}
{"id": "C42", "title": "Integration log files read back what was written", "statement": "Extracting a stored kernel or integrand log yields, record by record, exactly the values written, and detects a truncated last record.", "quantifier": "every sequence of records and every truncation point", "why_tests_cant": "Universal over record sequences and truncation points.", "anchors": ["pygrt/C_extension/src/integral/iostats.c: grt_write_stats, grt_extract_stats, grt_write_stats_ptam, grt_extract_stats_ptam", "pygrt/C_extension/src/tools/grt_ker2asc.c"]}
{"id": "C43", "title": "Trace files round-trip, on either byte order", "statement": "Writing a trace and reading it back gives the same header and samples; reading a file of the opposite byte order gives the same values as the native file.", "quantifier": "every header content and every sample sequence", "why_tests_cant": "Universal over contents.", "anchors": ["pygrt/C_extension/src/common/sacio.c_: write_sac, read_sac, byte_swap, map_chdr_in, map_chdr_out, check_sac_nvhdr"]}
{"id": "C44", "title": "Grid receivers are laid out consistently", "statement": "Flattening a north x east grid into points and reading the axes back gives the original axes, and each point has the coordinates of its grid cell.", "quantifier": "every pair of axes", "why_tests_cant": "Universal over axis lengths.", "anchors": ["pygrt/C_extension/src/static/recv_points.c: grt_recv_points_from_grid", "pygrt/C_extension/src/static/grt_static_syn.c: put_syn_grid_meta"]}
{"id": "C45", "title": "Green's-function directory selection is unambiguous", "statement": "Selecting a Green's-function directory by source depth, receiver depth and distance returns the directory only when exactly one matches, otherwise it is an error, independent of directory listing order.", "quantifier": "every set of directories, listing order and selection options", "why_tests_cant": "Listing orders and near-equal values cannot be enumerated.", "anchors": ["pygrt/C_extension/src/dynamic/grt_syn.c: resolve_syn_grn_path, append_unique_real"]}
{"id": "C46", "title": "Output-directory safety check", "statement": "A directory is accepted for output only if everything in it was produced by the tool for the same model, so foreign files are never mixed in.", "quantifier": "every directory content and model name", "why_tests_cant": "Universal over names.", "anchors": ["pygrt/C_extension/src/common/util.c: grt_check_greenfn_output_dir, grt_is_greenfn_subdir_name, grt_is_numeric_field"]}
{"id": "C47", "title": "Skipping of very low frequencies removes only a prefix", "statement": "Frequencies dropped because they are too small form a prefix of the list, every kept frequency is computed and none below the threshold is kept after a kept one.", "quantifier": "every frequency list", "why_tests_cant": "Universal over lists.", "anchors": ["pygrt/C_extension/src/dynamic/grn.c: grt_integ_grn_spec"]}
{"id": "C48", "title": "Frequencies are computed independently of each other", "statement": "The spectrum at one frequency depends only on that frequency and the settings, not on which other frequencies were computed before it or in which order/thread.", "quantifier": "every set of frequencies and every schedule, serial or parallel build", "why_tests_cant": "Schedules cannot be enumerated.", "anchors": ["pygrt/C_extension/src/dynamic/grn.c: grt_integ_grn_spec"]}
{"id": "C49", "title": "The partial inverse transform equals the zero-padded inverse transform", "statement": "When only the first bins of the spectrum are valid, the direct inverse transform used for them equals the inverse transform of the zero-padded Hermitian spectrum.", "quantifier": "every spectrum, length and number of valid bins", "why_tests_cant": "Universal over lengths.", "anchors": ["pygrt/C_extension/src/common/myfftw.c: grt_naive_inverse_transform_##T"]}
{"id": "C50", "title": "Root lists of surface-wave modes are well formed", "statement": "For each frequency the reported phase velocities are strictly increasing, pairwise separated by more than the requested gap, at most as many as requested, and each carries the layer index for which it was found.", "quantifier": "every order and values in which candidate roots are found", "why_tests_cant": "Universal over discovery histories.", "anchors": ["pygrt/C_extension/src/modal/root.c: grt_adaptive_step_secular_roots, grt_fixed_step_secular_roots", "pygrt/C_extension/src/common/search.c: grt_insertOrdered, grt_findClosest_real_t"]}
{"id": "C51", "title": "Mode selection keeps the right modes", "statement": "Selecting modes and frequencies for eigenfunction output keeps exactly the requested ones that exist, with their own velocities.", "quantifier": "every dispersion table and selection", "why_tests_cant": "Universal over tables.", "anchors": ["pygrt/C_extension/src/modal/modal_def.c: grt_filter_eigenfn_info"]}
{"id": "C52", "title": "Group-velocity sensitivity only reads existing modes", "statement": "Computing group-velocity sensitivities by differencing neighbouring frequencies never reads a mode that does not exist at the neighbouring frequency.", "quantifier": "every dispersion table", "why_tests_cant": "Depends on mode counts at neighbouring frequencies.", "anchors": ["pygrt/C_extension/src/modal/modal_util.c: grt_group_sensitivity"]}
{"id": "C53", "title": "Simpson variants integrate quadratics exactly", "statement": "The five three-point rules used by the adaptive samplers integrate every quadratic exactly over their documented subinterval, so a quadratic is always accepted.", "quantifier": "every interval and quadratic", "why_tests_cant": "Identity over a continuum.", "anchors": ["pygrt/C_extension/src/modal/root.c: simpson, check_fit", "pygrt/C_extension/src/integral/safim.c: simpson"]}
{"id": "C54", "title": "Golden-section refinement stays in its bracket and stops", "statement": "Refining a root candidate terminates within the iteration cap, the returned velocity lies inside the starting bracket and its function value is below the tolerance; otherwise the failure marker is returned.", "quantifier": "every function and bracket", "why_tests_cant": "Universal over functions.", "anchors": ["pygrt/C_extension/src/modal/root.c: grt_goldensection"]}
{"id": "C55", "title": "Love-wave search rejects all-liquid models", "statement": "Asking for Love waves in a model without solid layer raises an error instead of searching with an invalid layer.", "quantifier": "every layer stack", "why_tests_cant": "The edge case is a boundary of the loop.", "anchors": ["pygrt/C_extension/src/modal/root.c: get_secular_roots_single_freq"]}
{"id": "C56", "title": "SAC output applies time shift and damping removal exactly", "statement": "Written traces are the inverse transform with the requested time shift and with the imaginary-frequency damping removed sample by sample, with the documented signs.", "quantifier": "every spectrum, start time, sampling interval and damping", "why_tests_cant": "Universal over spectra.", "anchors": ["pygrt/C_extension/src/dynamic/grnspec.c: write_one_to_sac"]}
{"id": "C57", "title": "The kernel is the field excited in the layered medium", "statement": "When no inversion fails, the six rows q, w, v and their depth derivatives that the kernel routine returns at one wavenumber are the displacement and the depth derivative of the displacement at the receiver of a wave field that satisfies the chosen boundary conditions at top and bottom, is continuous across every interface, obeys the equations of motion inside every layer and jumps at the source depth as the point source of that row prescribes.", "quantifier": "every layered medium (number of layers, elastic parameters, liquid layers), every position of source and receiver relative to each other, every boundary type, every wavenumber and complex frequency (and the static limit), any leftover content of the shared state", "why_tests_cant": "The recursion length and all parameters are unbounded; a test compares a few models with another program of the same kind.", "anchors": ["pygrt/C_extension/src/integral/kernel_template.c_: __GRT_MATRIX_FUNC__, __BUILD_QWV__, __KERNEL_FUNC__", "pygrt/C_extension/src/integral/kernel.c: grt_construct_qwv"]}
{"id": "C58", "title": "Blanking the DS row loses nothing away from the epicentre", "statement": "When source and receiver both lie at depth zero the kernel overwrites the DS row by zero; the value overwritten is a constant of the top layer independent of the structure below and of any reflection, so that it contributes nothing at positive distance.", "quantifier": "every layered medium, boundary type and wavenumber", "why_tests_cant": "It is a statement about the value the code throws away, for all structures; no test can observe it.", "anchors": ["pygrt/C_extension/src/integral/kernel_template.c_: __BUILD_QWV__", "pygrt/C_extension/src/common/model.c: grt_set_mod1d_boundary"]}
{"id": "C59", "title": "Derivative outputs are the gradient of the displacement output", "statement": "When spatial derivatives are requested, the nine derivative outputs at a receiver are the partial derivatives, per centimetre, of the displacement that the program outputs as a function of receiver position: with respect to depth, distance and azimuth in the frame ZRT, and in every horizontal direction in the frame ZNE, including the receiver at the epicentre.", "quantifier": "every source type and mechanism, every receiver position (azimuth, distance, zero distance), all Green's functions that are differentiable in depth and distance", "why_tests_cant": "Gradient and displacement are computed along separate code paths (par_theta radiation factors, radial Green's functions, connection terms, special branch at zero distance); a test can only compare finite differences at a few points.", "anchors": ["pygrt/C_extension/src/static/grt_static_syn.c: static_syn_from_gf_one", "pygrt/C_extension/src/dynamic/grt_syn.c: syn_from_gf", "pygrt/C_extension/src/common/radiation.c: grt_set_source_radiation", "pygrt/C_extension/src/common/coord.c: grt_rot_zrt2zxy_upar"]}
{"id": "C60", "title": "Derived fields of static synthetics do not depend on the output frame", "statement": "At every receiver that static synthesis accepts, strain, rotation and stress computed from the ZRT output and rotated equal those computed from the ZNE output.", "quantifier": "every library of static Green's functions, source and receiver", "why_tests_cant": "The two frames interpolate between tabulated distances before and after dividing by distance; tests use receivers on the tabulated grid, where both agree.", "anchors": ["pygrt/C_extension/src/static/grt_static_syn.c: static_syn_from_gf", "pygrt/C_extension/src/static/grt_static_strain.c, grt_static_rotation.c, grt_static_stress.c"]}
{"id": "C61", "title": "Coulomb slip components superpose", "statement": "A fault given by right-lateral and reverse slip produces the sum of what its right-lateral slip alone and its reverse slip alone produce; right-lateral slip points against the strike direction and reverse slip up dip.", "quantifier": "every strike, dip, slip components, area and azimuth", "why_tests_cant": "One Kode stores rake and net slip, others store components; the conversions go through atan2 and hypot over all quadrants.", "anchors": ["pygrt/C_extension/src/common/finite_fault.c: grt_finite_fault_set_derived", "pygrt/C_extension/src/static/grt_static_syn.c: static_syn_one_finite_fault", "pygrt/C_extension/src/common/radiation.c: grt_set_source_radiation"]}
{"id": "C62", "title": "Reported travel time is the first arrival", "statement": "The reported time is not later than the head wave along any layer above or below source and receiver that is faster than everything between, beyond its critical distance.", "quantifier": "every layer stack, pair of interfaces, refracting layer and distance", "why_tests_cant": "A thin slightly faster layer in front of the fast one is needed to see the failure; tests use a few standard models.", "anchors": ["pygrt/C_extension/src/common/travt.c: grt_compute_travt1d, if(sumt > travt) break"]}
{"id": "C63", "title": "Coulomb fault lines carry the moment of the described dislocation", "statement": "For each supported Kode and either column format, the point sources that synthesis substitutes for a piece of fault have, added up, the moment tensor of a dislocation over that piece with the displacement named by the two columns (right-lateral against strike, reverse up dip, opening along the normal, inflation isotropic) in the medium at the source depth.", "quantifier": "every fault line the reader accepts, every subfault, every medium with nonzero shear velocity", "why_tests_cant": "Five Kodes times two formats times all orientations and slip signs; a wrong sign or column in one Kode leaves the others correct.", "anchors": ["pygrt/C_extension/src/common/finite_fault.c: set_fault_components, grt_finite_fault_set_derived", "pygrt/C_extension/src/static/grt_static_syn.c: static_syn_one_finite_fault, static_syn_ps_depth_corners"]}
{"id": "C64", "title": "Wavenumber integrand is the cylindrical vector harmonic", "statement": "At each wavenumber and distance the three components the integrator adds up are those of the cylindrical vector harmonics of the source's order with the given radial, vertical and tangential amplitudes; the integrand used for the derivative with respect to distance is the derivative of that integrand; and the separate values used at zero distance are the limits of the ordinary ones.", "quantifier": "every wavenumber, distance, source order and channel amplitudes, with and without derivatives", "why_tests_cant": "A sign or a Bessel order is easily wrong for one order in one component, and values on the axis are compared with nothing else the program computes.", "anchors": ["pygrt/C_extension/src/integral/k_integ.c: grt_int_Pk, grt_merge_Pk", "pygrt/C_extension/src/common/bessel.c: grt_bessel012, grt_besselp012"]}
{"id": "C65", "title": "Direct convergence adds back what it subtracts", "statement": "With the direct convergence method, the asymptotic part subtracted from the integrand at every wavenumber and the closed-form term added to the sums at the end cancel: the added term times the wavenumber step is the half-line integral (in the Abel sense) of the subtracted part minus half a step of its value at zero wavenumber, for displacements and for both spatial derivatives. On the axis nothing is subtracted and nothing is added.", "quantifier": "every distance, wavenumber step, asymptotic constants, source type and component, with every choice of integration method for the rest of the interval", "why_tests_cant": "The subtraction and the closed forms live in different files and cancel only as an identity over a continuum of distances and constants; an error looks like a small offset of a result that has no independent reference.", "anchors": ["pygrt/C_extension/src/integral/k_integ.c: grt_int_dcm_revision", "pygrt/C_extension/src/integral/dcm.c: grt_dcm_correction", "pygrt/C_extension/src/integral/integ_process.c"]}
{"id": "C66", "title": "The Filon part takes over where the discrete part ends", "statement": "When a Filon method follows the discrete sum, it integrates the wavenumbers from one discrete step beyond the last discrete point (each discrete point standing for one step) up to the requested maximum, leaving out nothing and adding nothing beyond.", "quantifier": "every last discrete wavenumber, both step sizes, limit, kernel and distance, for the fixed-step and the adaptive method", "why_tests_cant": "A missing sliver of the wavenumber axis shows up as a small smooth error of long-period energy that depends on two user options at once.", "anchors": ["pygrt/C_extension/src/integral/fim.c: grt_linear_filon_integ", "pygrt/C_extension/src/integral/safim.c: grt_sa_filon_integ", "pygrt/C_extension/src/integral/integ_process.c: grt_wavenumber_integral"]}
{"id": "C67", "title": "The convergence tolerance takes effect in each integrator", "statement": "With a positive tolerance, summation at a distance stops at the first wavenumber where every term in use is small against its sum, in the discrete and in the fixed-step Filon part, and goes on otherwise.", "quantifier": "every tolerance, kernel and set of distances", "why_tests_cant": "A test that never holds does not change the result, only the time taken.", "anchors": ["pygrt/C_extension/src/integral/dwm.c: grt_discrete_integ", "pygrt/C_extension/src/integral/fim.c: grt_linear_filon_integ"]}
{"id": "C68", "title": "Frequency band option computes exactly the grid frequencies in the requested band", "statement": "With -H f1/f2 the program computes the spectrum at exactly those grid frequencies that lie in the requested band, and leaves the others at zero.", "quantifier": "every length, sampling interval and band", "why_tests_cant": "Universal over bands; the interesting cases are bands between two grid frequencies or above half the sampling rate.", "anchors": ["pygrt/C_extension/src/dynamic/grt_greenfn.c: prepare_grn_spec 900-908, -H option 543-551"]}
{"id": "C69", "title": "Denser sampling keeps the original samples", "statement": "With the upsampling option +n every n-th sample of a written trace equals the sample written without the option.", "quantifier": "every spectrum, length, sampling interval, start time, damping and factor", "why_tests_cant": "Universal over spectra and lengths; the difference shows only for even lengths with energy at half the sampling rate.", "anchors": ["pygrt/C_extension/src/dynamic/grt_greenfn.c: compute_greenfn_one 1018", "pygrt/C_extension/src/dynamic/grnspec.c: write_one_to_sac"]}
{"id": "C70", "title": "Exactly the selected Green's function files are written, with the vertical sense reversed once", "statement": "For each distance a file is written for exactly the selected sources and components (transverse only where it can be non-zero) and, on demand, for both derivatives; no file is written twice; vertical components and depth derivatives are counted upwards in the files and downwards inside.", "quantifier": "every selection of sources, components and derivatives", "why_tests_cant": "Universal over selections and spectra.", "anchors": ["pygrt/C_extension/src/dynamic/grnspec.c: grt_grnspec_write_sac"]}
{"id": "C71", "title": "Receiver files are read completely or refused", "statement": "A receiver file is accepted exactly when it has at least one data line and every data line is 3 or 6 numbers separated by spaces (all lines alike, depth not negative, a trailing comment allowed); the receivers are the data lines in order with the numbers written, and nothing is stored outside the arrays.", "quantifier": "every text file", "why_tests_cant": "Universal over file contents, including every malformed line.", "anchors": ["pygrt/C_extension/src/static/recv_points.c: parse_receiver_point_line", "pygrt/C_extension/src/static/recv_points.c: grt_recv_points_from_file"]}
{"id": "C72", "title": "The searches for phase velocities end, cover the range and report only roots", "statement": "Whatever the secular functions, both searches for phase velocities end; every sample interval of the range is either halved, or looked at together with its neighbours for a trough of the secular function, and every trough is refined; every phase velocity reported is a point of the search range at which the secular function of the layer recorded with it is below the tolerance; the list of one frequency over all searched layers is what should be kept of all roots found.", "quantifier": "every secular function, velocity range, tolerance, starting list and layers searched", "why_tests_cant": "Universal over functions; termination and coverage are statements about all executions.", "anchors": ["pygrt/C_extension/src/modal/root.c: grt_adaptive_step_secular_roots, grt_fixed_step_secular_roots, get_secular_roots_single_freq"]}
{"id": "C73", "title": "Starting velocities of the root search resolve the expected roots", "statement": "The sampling of the phase-velocity range ends for every model and frequency; it is an increasing list from the lower to the upper end of the range whose steps are at most the range over one plus the expected number of roots, and in each step the expected number of roots changes by at most one half (or is zero at its end). Estimated velocities of half-spaces are added in order and none is lost.", "quantifier": "every layer stack, frequency and velocity range", "why_tests_cant": "Termination of a halving loop for a continuum of models.", "anchors": ["pygrt/C_extension/src/modal/root.c: grt_get_approx_nroots, get_secular_roots_single_freq"]}
{"id": "C74", "title": "The frequency option selects the frequencies asked for", "statement": "-F<f> selects that frequency, -F<f1>/<f2> the range, -F<f1>/<f2>/<df> the frequencies f1, f1+df, ... up to f2 without zero; with +p the values are periods.", "quantifier": "every value of the option and every file", "why_tests_cant": "Universal over values.", "anchors": ["pygrt/C_extension/src/tools/grt_disp2asc.c: getopt_from_command", "pygrt/C_extension/src/modal/grt_eigenfn.c: getopt_from_command"]}
{"id": "C75", "title": "Group-velocity sensitivities are derivatives of the group velocity", "statement": "The group-velocity sensitivity written for a mode is the derivative of its group velocity with respect to the layer parameter, given phase-velocity sensitivities at the sampled frequencies.", "quantifier": "every dispersion curve, frequency and parameter", "why_tests_cant": "Identity of derivatives over a continuum of curves.", "anchors": ["pygrt/C_extension/src/modal/modal_util.c: grt_group_sensitivity"]}
{"id": "C76", "title": "Love-wave secular function and eigenfunctions are exact", "statement": "The Love-wave secular function of a solid layer vanishes exactly at the phase velocities at which the layered half-space carries a free horizontally polarised wave that moves this layer, and the eigenfunction the program then gives is such a wave: it satisfies the equation of motion in every solid layer, carries no traction at the surface, is continuous at every welded interface, is absent from liquids and dies out at depth.", "quantifier": "every stack of solid and liquid layers over a half-space, every solid layer of the stack, every wavenumber and phase velocity at which no matrix of the recursion is singular", "why_tests_cant": "The zeros form a continuum over models; a test compares digits at a few of them and cannot show that none is missed or spurious.", "anchors": ["pygrt/C_extension/src/modal/secular.c: grt_GRT_matrix_Love, grt_GRT_matrix_allLayer_Love, grt_secular_function_potential_Love", "pygrt/C_extension/src/modal/eigenfn.c: grt_get_mod_potential_Up_Down_Love, grt_get_eigenfn_single_depth_Love"]}
{"id": "C77", "title": "Every accepted reference layer gives its own modes", "statement": "For every layer number accepted on the command line the Love-wave secular function is that of the layer asked for, and its zeros lead to a finite eigenfunction.", "quantifier": "every model and every layer number below the number of layers", "why_tests_cant": "The boundary case is one layer number per model and is met only when asked for.", "anchors": ["pygrt/C_extension/src/modal/grt_eigenv.c 536-539", "pygrt/C_extension/src/modal/secular.c: grt_GRT_matrix_Love", "pygrt/C_extension/src/modal/eigenfn.c: grt_potential_propagate_DownUp_Love"]}
{"id": "C78", "title": "Love energy integrals are exact integrals over depth", "statement": "The energy integrals of a Love mode are the integrals over the whole half-space of half the density times the squared displacement, half the rigidity times the squared displacement, and half the rigidity times the squared depth derivative of the very eigenfunction the program writes; the thin layers used to sum them do not change them.", "quantifier": "every stack of solid and liquid layers over a half-space, every mode, every thin-layer step not more than 100000 times the thinnest layer", "why_tests_cant": "A test compares with a quadrature of finite accuracy at chosen models and steps.", "anchors": ["pygrt/C_extension/src/modal/energy.c: grt_energy_integrals_Love, energy_integrals_single_layer_Love, _solve_typical_integral_Love", "pygrt/C_extension/src/modal/grt_eigenfn.c 570-595"]}
{"id": "C79", "title": "Every layer has its sensitivities", "statement": "Whatever step is asked for with -K, every layer of the model is represented by at least one thin layer, so that its share of the energy integrals and its sensitivities are there.", "quantifier": "every model and every step", "why_tests_cant": "Which layers are dropped depends on the ratio of thickness and step; tests use a few.", "anchors": ["pygrt/C_extension/src/modal/grt_eigenfn.c 570-595"]}
{"id": "C80", "title": "Love group velocity is the slope of the dispersion curve", "statement": "The group velocity the program computes for a Love mode from energy integrals is the derivative of angular frequency with respect to wavenumber along the branch of zeros of its own secular function.", "quantifier": "every model and every branch of Love modes, every thin-layer step as in C78", "why_tests_cant": "A test can only take differences between neighbouring frequencies of a few models.", "anchors": ["pygrt/C_extension/src/modal/grt_eigenfn.c: grt_get_group_velocity", "pygrt/C_extension/src/modal/energy.c: grt_energy_integrals_Love"]}
{"id": "C81", "title": "Love phase-velocity sensitivities are derivatives of the phase velocity", "statement": "If S velocities and densities of the layers are changed, at fixed frequency, the phase velocity of a Love mode changes at the rate obtained by adding, over all thin layers, the sensitivities the program computes times the changes.", "quantifier": "every model, every differentiable change of S velocities and densities, every branch of Love modes, every thin-layer step as in C78", "why_tests_cant": "A test perturbs one layer at a time by a finite amount.", "anchors": ["pygrt/C_extension/src/modal/energy.c: grt_energy_integrals_Love, phase_sensitivity_numerator_single_layer_Love"]}
{"id": "C82", "title": "A Love mode adds the contribution of its pole", "statement": "The transverse spectrum that the modal summation adds for a Love mode, at a given frequency and distance, is the contribution of the pole of the SH response at the mode's wavenumber to the wavenumber integral that defines the full Green's function, with the Hankel function replaced by its far-field form: same source normalisation, same sign, same phase.", "quantifier": "every model, every zero of the Love secular function, every source type, source and receiver depth, distance; every family of responses to the source at neighbouring wavenumbers with at most a simple pole", "why_tests_cant": "Comparing with the full Green's function numerically mixes all modes, the body waves and the near field.", "anchors": ["pygrt/C_extension/src/modal/modgrn.c: grt_modsum_grn_Love", "pygrt/C_extension/src/dynamic/source.c: grt_source_coef_SH", "pygrt/C_extension/src/dynamic/grn.c: grt_integ_grn_spec"]}
{"id": "C83", "title": "Derivatives of Love mode spectra", "statement": "The depth derivative written for a Love mode is the derivative of its displacement with respect to the depth of the receiver.  The radial derivative is the derivative with respect to distance plus the displacement divided by twice the distance, that is, it leaves out the decay of the amplitude only.", "quantifier": "every model, mode, source type, depth and distance", "why_tests_cant": "Finite differences of a few traces are inexact.", "anchors": ["pygrt/C_extension/src/modal/modgrn.c: grt_modsum_grn_Love"]}
{"id": "C84", "title": "Blanking the dip-slip row at the surface changes nothing", "statement": "When source and receiver are both at the surface the modal summation overwrites the vertical dip-slip spectrum by zero.  For Love modes the value overwritten is zero exactly.", "quantifier": "every model and mode, every receiver depth and distance", "why_tests_cant": "A test sees rounding errors, not whether the exact value is zero.", "anchors": ["pygrt/C_extension/src/modal/modgrn.c: grt_modsum_grn"]}
{"id": "C85", "title": "Begin time and arrival marks of mode-sum traces", "statement": "The trace of a mode sum begins t0 after the origin time, or t0 after a wave of velocity v0 has run straight from source to receiver, or with -Ep t0 after the P arrival; the marks in the header are the first P and S arrivals from the source to the receiver.", "quantifier": "every model, depth, distance and delay option", "why_tests_cant": "Headers of example traces are not compared with travel times.", "anchors": ["pygrt/C_extension/src/modal/grt_modsum.c: compute_modsum_one", "pygrt/C_extension/src/dynamic/grnspec.c: grt_grnspec_write_sac"]}
{"id": "C86", "title": "Zeros of the Rayleigh secular function are phase velocities", "statement": "The Rayleigh secular function of a layer vanishes at a phase velocity exactly when a free P-SV wave with that velocity and wavenumber exists that moves the layer (at a contact of liquid and solid: one of its sides): motion in every layer, liquid or solid, no traction at the surface, contact at every interface, decay at depth.", "quantifier": "every stack of solid and liquid layers, every wavenumber and phase velocity, every layer the function is taken in, every branch of the function", "why_tests_cant": "Dispersion curves of example models show only that the zeros found belong to modes of those models.", "anchors": ["pygrt/C_extension/src/modal/secular.c: grt_secular_function_potential_Rayl, grt_GRT_matrix_Rayl", "pygrt/C_extension/src/dynamic/layer.c: grt_RT_mat3x3_ls_PSV, grt_Q_mat3x3_ls_PSV"]}
{"id": "C87", "title": "Rayleigh eigenfunctions are free waves", "statement": "At a zero of the Rayleigh secular function the displacements and tractions written for every depth are finite numbers and form a free P-SV wave that does not vanish.", "quantifier": "every stack of solid and liquid layers, every zero of the function, every depth", "why_tests_cant": "Plots of eigenfunctions of example models do not check equations of motion.", "anchors": ["pygrt/C_extension/src/modal/secular.c: grt_secular_function_potential_Rayl", "pygrt/C_extension/src/modal/eigenfn.c: grt_get_mod_potential_Up_Down_Rayl, grt_get_mod_eigenfn_Rayl"]}
{"id": "C88", "title": "Rayleigh energy integrals are exact integrals over depth", "statement": "The energy integrals of a Rayleigh mode are the integrals over the whole half-space of the quadratic expressions in the very displacements the program writes and their depth derivatives (kinetic energy, and the parts of the elastic energy with k², k and 1); the thin layers used to sum them do not change them.", "quantifier": "every stack of solid and liquid layers over a half-space, every mode, every thin-layer step not more than 100000 times the thinnest layer", "why_tests_cant": "A test compares with a quadrature of finite accuracy at chosen models and steps.", "anchors": ["pygrt/C_extension/src/modal/energy.c: grt_energy_integrals_Rayl, energy_integrals_single_layer_Rayl, _solve_typical_integral_Rayl", "pygrt/C_extension/src/modal/grt_eigenfn.c 570-595"]}
{"id": "C89", "title": "Rayleigh group velocity is the slope of the dispersion curve", "statement": "The group velocity the program computes for a Rayleigh mode from energy integrals is the derivative of angular frequency with respect to wavenumber along a branch of modes.", "quantifier": "every model of solid and liquid layers and every continuous branch of modes, every thin-layer step as in C88", "why_tests_cant": "A test can only take differences between neighbouring frequencies of a few models.", "anchors": ["pygrt/C_extension/src/modal/grt_eigenfn.c: grt_get_group_velocity", "pygrt/C_extension/src/modal/energy.c: grt_energy_integrals_Rayl"]}
{"id": "C90", "title": "Rayleigh phase-velocity sensitivities are derivatives of the phase velocity", "statement": "If P velocities, S velocities and densities of the layers are changed, at fixed frequency, the phase velocity of a Rayleigh mode changes at the rate obtained by adding, over all thin layers, the sensitivities the program computes times the changes.", "quantifier": "every model of solid and liquid layers with λ ≠ 0 (where λ = 0 the program divides by zero), every differentiable change of velocities and densities, every continuous branch of modes, every thin-layer step as in C88", "why_tests_cant": "A test perturbs one layer at a time by a finite amount.", "anchors": ["pygrt/C_extension/src/modal/energy.c: grt_energy_integrals_Rayl, phase_sensitivity_numerator_single_layer_Rayl"]}
{"id": "C91", "title": "A Rayleigh mode adds the contribution of its pole", "statement": "The vertical and radial spectra that the modal summation adds for a Rayleigh mode, at a given frequency and distance, are the contributions of the pole of the P-SV response at the mode's wavenumber to the wavenumber integrals that define the full Green's function, with the Hankel function replaced by its far-field form: same source normalisation, same signs, same phase, same components.", "quantifier": "every model of solid and liquid layers, every simple zero of the Rayleigh secular function, every source type (explosions only in a liquid), source and receiver depth, distance; every family of responses to the source at neighbouring wavenumbers with at most a simple pole", "why_tests_cant": "Comparing with a full synthetic mixes all modes, body waves and the far-field approximation; no test separates one pole.", "anchors": ["pygrt/C_extension/src/modal/modgrn.c: grt_modsum_grn_Rayl", "pygrt/C_extension/src/dynamic/source.c", "pygrt/C_extension/src/modal/energy.c: grt_energy_integrals_Rayl"]}
{"id": "C92", "title": "Derivatives of Rayleigh mode spectra", "statement": "The depth derivatives written for a Rayleigh mode are the derivatives of its displacements with respect to the depth of the receiver.  The radial derivatives are the derivatives with respect to distance plus the displacement divided by twice the distance, that is, they leave out the decay of the amplitude only.", "quantifier": "every model, mode, source type, depth and distance", "why_tests_cant": "Finite differences of a few traces are inexact.", "anchors": ["pygrt/C_extension/src/modal/modgrn.c: grt_modsum_grn_Rayl", "pygrt/C_extension/src/modal/eigenfn.c: grt_eigenfn_Rayl"]}
{"id": "C93", "title": "Blanking the Rayleigh dip-slip row at the surface changes nothing", "statement": "When source and receiver are both at the surface the modal summation overwrites the vertical dip-slip spectra by zero.  For Rayleigh modes the values overwritten are zero exactly.", "quantifier": "every model and mode, every receiver depth and distance", "why_tests_cant": "A test sees rounding errors, not whether the exact value is zero.", "anchors": ["pygrt/C_extension/src/modal/modgrn.c: grt_modsum_grn"]}
{"id": "C94", "title": "Okada point source: the derivatives are derivatives", "statement": "The nine displacement derivatives that grt_okada_dc3d0 returns are the partial derivatives of the three displacements it returns, with respect to the position of the receiver.", "quantifier": "every medium with positive shear modulus and λ+μ>0, every dip, depth, mixture of strike slip, dip slip, opening and inflation, every receiver below the surface more than 1e-6 away from the planes through the source where small coordinates are taken as zero", "why_tests_cant": "Each of the 108 formulas is long and has many branches of sign; finite differences check a few points to a few digits.", "anchors": ["pygrt/C_extension/src/okada/okada.c: grt_okada_dc3d0, dc3d0_internal, UA0, UB0, UC0, DCCON0, DCCON1"]}
{"id": "C95", "title": "Okada point source: stresses balance and the surface is free", "statement": "The stresses that follow by Hooke's law from the derivatives grt_okada_dc3d0 returns are in equilibrium everywhere away from the source, and the three traction components vanish everywhere on the surface.", "quantifier": "every medium, dip, depth and source as in C94; every receiver position for the surface", "why_tests_cant": "A reference solution shares the same formulas; equilibrium involves second derivatives that no output shows.", "anchors": ["pygrt/C_extension/src/okada/okada.c: grt_okada_dc3d0, dc3d0_internal, UA0, UB0, UC0, DCCON0, DCCON1"]}
{"id": "C96", "title": "Okada point source: the response is that of the requested source", "statement": "grt_okada_dc3d0 returns the displacement, and its gradient, of the unique kind of field that defines the problem: it is the field of the moment tensor of the requested slip, opening and inflation in an unbounded medium, plus a field without singularity, with balanced stresses, free surface and decay at least with the square of the distance.", "quantifier": "every medium, dip, depth and source; every receiver at or below the surface (coordinates smaller than 1e-6 count as zero)", "why_tests_cant": "Tests compare with tables for a few sources; normalisation and sign of each source type, and the correctness at every position, are not covered.", "anchors": ["pygrt/C_extension/src/okada/okada.c: grt_okada_dc3d0, dc3d0_internal, UA0, UB0, UC0, DCCON0, DCCON1"]}
{"id": "C97", "title": "Okada point source: return codes", "statement": "For a source at or below the surface, grt_okada_dc3d0 never divides by zero: it fails with code 2 exactly above the surface, with code 1 exactly within 1e-6 of the source in every coordinate, with zero results in both cases, and succeeds everywhere else.", "quantifier": "every position, depth, dip, medium constant other than zero, source", "why_tests_cant": "Singular positions have measure zero and are not hit by tests.", "anchors": ["pygrt/C_extension/src/okada/okada.c: grt_okada_dc3d0, dc3d0_internal, UA0, UB0, UC0, DCCON0, DCCON1"]}
{"id": "C98", "title": "Okada fault: the derivatives are derivatives", "statement": "The nine displacement derivatives that grt_okada_dc3d returns are the partial derivatives of the three displacements it returns, with respect to the position of the receiver.", "quantifier": "every medium with positive shear modulus and λ+μ>0, every dip from 0 to 90 degrees, every rectangle at or below the surface and every mixture of strike slip, dip slip and opening; every receiver below the surface more than 1e-6 away from the plane of the fault, that of its image, and the planes through their edges", "why_tests_cant": "The formulas of the rectangle have hundreds of terms with logarithms and arc tangents; finite differences check a few points to a few digits.", "anchors": ["pygrt/C_extension/src/okada/okada.c: grt_okada_dc3d, dc3d_internal, UA, UB, UC, DCCON0, DCCON2"]}
{"id": "C99", "title": "Okada fault: the response is the integral of point sources over the fault", "statement": "The displacements and derivatives grt_okada_dc3d returns are the integrals, over the area of the fault, of the response of the half-space to point sources with the moment tensor of the slip at the depth and place of each element.", "quantifier": "every medium with positive shear modulus and λ+μ>0, every dip from 0 to 90 degrees, every rectangle at or below the surface and every mixture of strike slip, dip slip and opening; every receiver below the surface more than 1e-6 away from the plane of the fault, that of its image, and the planes through their edges (the surface included)", "why_tests_cant": "A test can only sum a finite number of point sources and sees discretisation error; agreement for every geometry, including the normalisation by area and the place of the reference point, is not covered.", "anchors": ["pygrt/C_extension/src/okada/okada.c: grt_okada_dc3d, dc3d_internal, UA, UB, UC, DCCON0, DCCON2"]}
{"id": "C100", "title": "Okada fault: stresses balance and the surface is free", "statement": "The stresses that follow by Hooke's law from the derivatives grt_okada_dc3d returns are in equilibrium, and the three traction components vanish on the surface.", "quantifier": "every medium with positive shear modulus and λ+μ>0, every dip from 0 to 90 degrees, every rectangle at or below the surface and every mixture of strike slip, dip slip and opening; every receiver below the surface more than 1e-6 away from the plane of the fault, that of its image, and the planes through their edges", "why_tests_cant": "Equilibrium involves second derivatives that no output shows; a reference solution shares the same formulas.", "anchors": ["pygrt/C_extension/src/okada/okada.c: grt_okada_dc3d, dc3d_internal, UA, UB, UC, DCCON0, DCCON2"]}
{"id": "C101", "title": "Okada fault: return codes", "statement": "For a fault at or below the surface grt_okada_dc3d divides nowhere by zero and takes no logarithm of zero: it fails with code 2, and zero results, exactly above the surface, with code 1 exactly within 1e-6 of an edge of the fault or of its image, and succeeds everywhere else, the interior and the extension of the fault plane included.", "quantifier": "every position, depth, dip from 0 to 90 degrees, medium constant other than zero, rectangle at or below the surface, slip", "why_tests_cant": "Positions in the plane of the fault or in line with an edge have measure zero and are not hit by tests.", "anchors": ["pygrt/C_extension/src/okada/okada.c: grt_okada_dc3d, dc3d_internal, UA, UB, UC, DCCON0, DCCON2"]}
{"id": "C102", "title": "The Okada program and the synthesis mean the same by a point source", "statement": "For every source option the Okada program outputs, in cm and without unit, the response of the half-space to the moment tensor that the same options (-S, -Su, strike, dip, rake) mean for the synthesis from Green's functions.", "quantifier": "every half-space with positive shear modulus and λ+μ>0, every kind of source, angles, scaling by moment or potency, every source depth and receiver at or below the surface", "why_tests_cant": "Comparing the two programs for some sources leaves signs of axes and scale factors for other kinds, angles and media unchecked.", "anchors": ["pygrt/C_extension/src/okada/grt_okada.c: add_point_source, add_finite_faults, local_to_zne, okada_main", "pygrt/C_extension/src/okada/okada.c"]}
{"id": "C103", "title": "The Okada program with a Coulomb file: what the columns mean", "statement": "Every line of the Coulomb file contributes the integral, over the rectangle through the trace with the given dip and depths, of the response to point sources with the moment of the dislocation the columns describe; lines with Kode 400 and 500 contribute one point source in the middle; the lines add up.", "quantifier": "every half-space, every accepted fault at or below the surface, all Kodes, every receiver below the surface off the planes of the fault and its image and those through their edges", "why_tests_cant": "The position of the rectangle, the sense of slip and the units depend on strike, dip and Kode; tests compare a few faults.", "anchors": ["pygrt/C_extension/src/okada/grt_okada.c: add_point_source, add_finite_faults, local_to_zne, okada_main", "pygrt/C_extension/src/okada/okada.c"]}
{"id": "C104", "title": "The Okada program with a Coulomb file: when it fails", "statement": "A run with a Coulomb file gives a result at every receiver at or below the surface unless one is within 1 mm of an edge of a fault, of its image or of a point source, or a fault sticks out of the half-space; then it ends with an error. It never divides by zero.", "quantifier": "every list of accepted faults, every receiver at or below the surface", "why_tests_cant": "Receivers in the plane of a fault or in line with an edge have measure zero; the outcome must not depend on the order of faults.", "anchors": ["pygrt/C_extension/src/okada/grt_okada.c: add_point_source, add_finite_faults, local_to_zne, okada_main", "pygrt/C_extension/src/okada/okada.c"]}
{"id": "C105", "title": "Lamb's problem: the Rayleigh wave arrives at the Rayleigh speed", "statement": "The numbers the solver takes for the roots of the Rayleigh cubic are all its roots with multiplicity, whichever of the two formulas is used, and the one it takes for the arrival of the Rayleigh wave is the S speed over the only speed below it that satisfies the Rayleigh equation.", "quantifier": "every cubic with real coefficients; every Poisson's ratio strictly between 0 and 1/2, every P and S speed with this ratio", "why_tests_cant": "Which of the three computed roots is physical and which formula is used change with Poisson's ratio; tests look at a few ratios.", "anchors": ["pygrt/C_extension/src/lamb/lamb_util.c: _roots3, grt_rayleigh1_roots, grt_rayleigh2_roots", "pygrt/C_extension/src/lamb/lamb1.c: grt_solve_lamb1"]}
{"id": "C106", "title": "Lamb's problem: the closed form is the contour integral of the compliance of the half-space", "statement": "For each dimensionless time the solver returns, for every direction of force and displacement, the integral over the Cagniard contour of the surface displacement with which the half-space answers a unit traction wave: zero before the P arrival; then the integral over the contour; and from the Rayleigh arrival on the integral over the contour led around the Rayleigh pole. At the time of an arrival the result is the one of a time later by at most 1e-8.", "quantifier": "every Poisson's ratio strictly between 0 and 1/2 with distinct roots of the Rayleigh cubic, every list of times that begins with two in increasing order, every azimuth, every component", "why_tests_cant": "The closed form has different coefficients for real and complex roots, for each phase and each component; its tables of polynomial coefficients can only be compared with other software at a few ratios and times.", "anchors": ["pygrt/C_extension/src/lamb/lamb1.c: grt_solve_lamb1, build_P, build_S1, build_S2_SP, build_R", "pygrt/C_extension/src/lamb/lamb_util.c: grt_rayleigh1_roots, grt_rayleigh2_roots", "pygrt/utils.py: solve_lamb1"]}
{"id": "C107", "title": "grt lamb1 gives one result for each time of the list", "statement": "grt lamb1 stops with an error if Poisson's ratio is not strictly between 0 and 1/2, a time is negative, the interval is not positive, the times are in the wrong order, or the azimuth is not in [0, 360]; otherwise it gives one result for each time t1 + k dt not past t2, and the result is the one of that time.", "quantifier": "every combination of numbers given with -P, -T and -A", "why_tests_cant": "Short lists, rounding of (t2-t1)/dt and the limits of the ranges are rarely tried.", "anchors": ["pygrt/C_extension/src/lamb/grt_lamb1.c: getopt_from_command, lamb1_main"]}
{"id": "C108", "title": "A static Green's function does not depend on the rest of the grid", "statement": "What `grt static greenfn` stores for one source depth, one receiver depth and one epicentral distance is the same in every run with the same model, the same options and the same largest distance, whatever the other depths and distances of the run are, in what order they come and how often a distance is repeated. The medium stored with a depth is the one of the layer at that depth.", "quantifier": "every model, every grid of depths and receivers, every convergence method but peak-trough averaging, Filon integration only without a convergence test", "why_tests_cant": "The loops over depths share one model, one set of integration settings and one table; a value left over from a previous depth or distance changes results only slightly and only in some grids.", "anchors": ["pygrt/C_extension/src/static/grt_static_greenfn.c: static_greenfn_main", "pygrt/C_extension/src/static/static_grn.c: grt_integ_static_grn", "pygrt/C_extension/src/static/stgrnlib.c"]}
{"id": "C109", "title": "grt static greenfn ends", "statement": "For every set of options that the program accepts the static Green's function library is computed in finitely many steps.", "quantifier": "every accepted model, grid and combination of -L, -K, -C, every kernel", "why_tests_cant": "Whether a loop ends for all options cannot be tested by running it.", "anchors": ["pygrt/C_extension/src/static/grt_static_greenfn.c: getopt_from_command, static_greenfn_main", "pygrt/C_extension/src/integral/kminmax.c"]}
{"id": "C110", "title": "The spectra at one distance do not depend on the other distances of the run", "statement": "The Green's function spectra, and their derivatives, that `grt greenfn` computes at one epicentral distance are the same whatever the other distances given with -R are, with one thread and with many, for the same integration settings.", "quantifier": "every list of distances, every kernel, every list of frequencies, every convergence method but peak-trough averaging, Filon integration only without a convergence test", "why_tests_cant": "The distances share the wavenumber loop, its early exit and the arrays of sums; a mistake shows only for particular sets of distances.", "anchors": ["pygrt/C_extension/src/dynamic/grn.c: grt_integ_grn_spec", "pygrt/C_extension/src/integral/integ_process.c", "pygrt/C_extension/src/integral/dwm.c", "pygrt/C_extension/src/integral/fim.c", "pygrt/C_extension/src/integral/safim.c"]}
{"id": "C111", "title": "The Lamb solver's elliptic integral of the third kind is the integral", "statement": "For every parameter 0 < m < 1 and every complex characteristic n away from the real axis above 1, what `grt_ellipticPi` adds to its value of the first integral agrees with Π(n,m) - K(m) to 2e-8 relative to K(m), plus 1e-13 |n|/d where d is the distance of n from the half line [1, ∞). For real n > 1 it returns K(m) - Π(m/n, m), the principal value, to the same accuracy. The iteration always ends within its limit of rounds.", "quantifier": "all m, all complex n (within the range of double-precision numbers)", "why_tests_cant": "The characteristic is complex and comes from the roots of the Rayleigh equation; a mistake in the branch of a square root, in the sum over the rounds or in the final series shows only in parts of the complex plane.", "anchors": ["pygrt/C_extension/src/lamb/elliptic.c: grt_ellipticPi, grt_ellipticRJ, grt_ellipticRF"]}
{"id": "C112", "title": "Kernel files hold the response of the layered medium", "statement": "Every file that `grt kernel` writes belongs to one frequency f and holds one record for every phase velocity c of the list, in order. If no inversion failed, a record holds for every source -1/(4πρω²) times the displacement at the receiver depth (with -e: its derivative with depth) of the field that the source excites in the anelastic medium, at ω = 2πf - iζπΔf and wavenumber 2πf/c, ρ being the density at the source.", "quantifier": "every model file that loads, every pair of depths, boundaries, lists of frequencies and velocities", "why_tests_cant": "The record passes through the model state, the kernel and a factor; matrices of one phase velocity are left over for the next. Only a comparison with the equations of motion shows that the numbers are a field.", "anchors": ["pygrt/C_extension/src/dynamic/grt_kernel.c: kernel_main", "pygrt/C_extension/src/integral/kernel_template.c_", "pygrt/C_extension/src/common/model.c: grt_update_mod1d_state_omega"]}
{"id": "C113", "title": "The lists of grt kernel are those asked for", "statement": "`grt kernel` either refuses its options or computes exactly the frequencies f1, f1+Δf, ... up to f2 (zero left out) and the phase velocities cmin, cmin+dc, ... up to cmax; with only dc given, cmin and cmax are 0.8 times the least and once the greatest nonzero velocity of the model.", "quantifier": "all numbers after -F and -C, every model", "why_tests_cant": "The number of samples is a floor of a quotient converted to an unsigned integer; whether it is right depends on the values.", "anchors": ["pygrt/C_extension/src/dynamic/grt_kernel.c: getopt_from_command, kernel_main", "pygrt/C_extension/src/common/model.c: grt_get_mod1d_vmin_vmax"]}
{"id": "C114", "title": "The response at a frequency does not depend on the band of the run", "statement": "Runs that differ only in the band of frequencies they compute (-F of `grt kernel`, -H of `grt greenfn`, described as a rectangular bandpass filter) give the same response at the frequencies they have in common.", "quantifier": "every model, all bands", "why_tests_cant": "It needs a comparison of runs; the difference is of the order of 1/Q and looks like a numerical error.", "anchors": ["pygrt/C_extension/src/dynamic/grt_kernel.c: kernel_main", "pygrt/C_extension/src/dynamic/grn.c: grt_integ_grn_spec", "pygrt/C_extension/src/common/attenuation.c"]}
{"id": "C115", "title": "The travel-time table shows the distances asked for, each with its own times", "statement": "`grt travt` either refuses -R or prints one row for every distance of the list, file or range r1, r1+dr, ... up to r2; the number shown in a row is that distance, the rows are ascending, and the two times of a row are the first P and S arrivals for the distance shown, for the model file and the two depths, in either order of the depths.", "quantifier": "every text after -R, every model file and pair of depths", "why_tests_cant": "The number of decimals of a range is found by multiplying by ten until nothing is left behind the point; whether this stops depends on the rounding of the step.", "anchors": ["pygrt/C_extension/src/tools/grt_travt.c: getopt_from_command, travt_main"]}
{"id": "C116", "title": "The text form of a trace has the times and amplitudes of its samples", "statement": "`grt sac2asc` prints one line per sample, in order, with the time of the sample and its amplitude; different times and different amplitudes remain different.", "quantifier": "every trace", "why_tests_cant": "Single precision and eight digits are enough for the traces used in tests; long or late traces are needed to see neighbouring samples with equal times.", "anchors": ["pygrt/C_extension/src/tools/grt_sac2asc.c: sac2asc_main"]}
{"id": "C117", "title": "Every module is called by its name with the arguments given", "statement": "`grt name ...` runs the module of that name, and no other, with exactly the arguments that follow; `grt static name ...` is the same as `grt static_name ...`; other names are refused.", "quantifier": "every list of arguments", "why_tests_cant": "The two forms shift the arguments differently and treat one and several arguments in different places.", "anchors": ["pygrt/C_extension/src/grt.c: main, dispatch_command"]}
{"id": "C118", "title": "The search for Rayleigh modes starts from the Rayleigh velocity of the uppermost solid", "statement": "Without -X, `grt eigenv` starts its search for Rayleigh waves from the velocity of Rayleigh waves on a half-space with the parameters of the first solid layer (the limit of the fundamental mode at high frequency), to within 2e-8 of the shear velocity, whatever the ratio of the velocities of the layer.", "quantifier": "every Vs > 0 and every Vp of a material with Poisson's ratio between 0 and 1/2", "why_tests_cant": "The velocity is found by ten steps of Newton's method from a start that depends on Vp/Vs; only a narrow band of ratios (Poisson's ratio close to 0.4) makes the steps leave the neighbourhood of the root.", "anchors": ["pygrt/C_extension/src/modal/root.c: grt_halfspace_Rayleigh_croot, get_secular_roots_single_freq"]}
{"id": "C119", "title": "The search for Rayleigh modes starts from the Scholte velocity of every sea floor", "statement": "Without -X, `grt eigenv` also starts its search from the velocity of a Scholte wave on every interface of a liquid and a solid, from above and to within 1e-12 of the shear velocity.", "quantifier": "every liquid and solid with contrasts of velocity and density below one hundred", "why_tests_cant": "The equation has square roots that vanish at the ends of the interval that is halved; that the signs at both ends differ has to hold for all materials.", "anchors": ["pygrt/C_extension/src/modal/root.c: grt_halfspace_Scholte_croot, __stoneley_func"]}
{"id": "C120", "title": "Every Love wave lies in the velocities that are searched", "statement": "Without -X, `grt eigenv -SL` searches all velocities at which the model has Love waves; a model refused because its half-space is not faster than the slowest layer has none.", "quantifier": "every stack of layers, every wavenumber and every Love wave", "why_tests_cant": "It is a statement about all solutions of the equations of motion of all models.", "anchors": ["pygrt/C_extension/src/modal/grt_eigenv.c: eigenv_main"]}
{"id": "C121", "title": "A number given to the Python interface is the number the program works with", "statement": "Every real number that a Python call (`compute_grn`, `compute_syn`, `compute_static_grn`, ...) accepts for an option, alone or in a list, is the number the C program reads from its command line; a list accepted by Python is accepted by the program.", "quantifier": "every double and every list of doubles, of any length", "why_tests_cant": "The number is written as text with fifteen digits and read back by strtod; both roundings depend on all 53 bits of the number, and there are 2^64 numbers.", "anchors": ["pygrt/cli.py: format_float", "pygrt/pymod.py: _normalize_float_array, _join_values", "pygrt/C_extension/src/common/util.c: grt_parse_doubles"]}
{"id": "C122", "title": "`compute_syn` makes the program work with exactly the source and the values of the call", "statement": "A call of `compute_syn` reaches the program exactly if it asks for one documented kind of source, and the program then works with the type of source, moment, mechanism, depths, distance, azimuth, time function, integration and differentiation of the call - or refuses them if they are outside the documented ranges.", "quantifier": "every combination of the arguments of `compute_syn`, all values", "why_tests_cant": "The command line is built by Python and taken apart again by getopt and sscanf in C; options with optional parts, prefixes (`-Ds`, `-Dr`, `-D0/..`) and the order of options interact.", "anchors": ["pygrt/pymod.py: compute_syn, _source_options", "pygrt/C_extension/src/dynamic/grt_syn.c: getopt_from_command"]}
{"id": "C123", "title": "`compute_grn` makes the program work with exactly the values of the call", "statement": "A call of `compute_grn` reaches the program exactly if nt and dt are positive, depths and distances are nonnegative and strictly ascending, and the names of the method and of the sources are documented ones; the program then works with the model, depths, distances, window, band, integration, convergence, delay, sources and statistics of the call - or refuses them if they are outside the documented ranges.", "quantifier": "every combination of the 30 arguments of `compute_grn`, all values, lists of any length", "why_tests_cant": "The options are put together from parts that may be missing (`-N`, `-L`, `-K` with plus signs) and taken apart by strtok, sscanf and getopt; a plus sign also occurs in the text of a number, a minus sign is legal in `%zu`.", "anchors": ["pygrt/pymod.py: compute_grn", "pygrt/C_extension/src/dynamic/grt_greenfn.c: getopt_from_command"]}
{"id": "C124", "title": "`compute_static_grn` makes the program work with exactly the values of the call", "statement": "A call of `compute_static_grn` reaches the program exactly if the receivers are given either as distances or as two ranges of three numbers, with depths, distances and names as documented; the program then works with the model, depths, distances (or the coordinates start, start+step, ... up to the end of the ranges), integration, convergence, boundaries and statistics of the call - or refuses them if they are outside the documented ranges.", "quantifier": "every combination of the arguments of `compute_static_grn`, all values, lists of any length", "why_tests_cant": "The coordinates of a grid are counted by a division of rounded numbers and a floor; whether the end of a range belongs to the grid depends on the rounding of one quotient, and every range is another case.", "anchors": ["pygrt/pymod.py: compute_static_grn", "pygrt/C_extension/src/static/grt_static_greenfn.c: getopt_from_command"]}
{"id": "C125", "title": "`compute_static_syn` makes the program work with exactly the values of the call", "statement": "A call of `compute_static_syn` reaches the program exactly if it asks either for finite faults of a file (without arguments of a point source) or for one documented point source with a scale, at the points of the library, of a file or of two ranges; the program then works with that source, that file and size of parts, those depths and those points - or refuses them if they are outside the documented ranges.", "quantifier": "every combination of the arguments of `compute_static_syn`, all values and all file names", "why_tests_cant": "The name of the file of faults is followed by optional parts that begin with a plus sign, and file names may hold any sign; which source is meant depends on the combination of seven optional arguments.", "anchors": ["pygrt/pymod.py: compute_static_syn", "pygrt/C_extension/src/static/grt_static_syn.c: getopt_from_command"]}
{"id": "C126", "title": "`compute_okada` makes the program work with exactly the values of the call", "statement": "A call of `compute_okada` reaches the program exactly if it asks for one documented source and for receivers given by two ranges or a file; the program then works with that medium, source, file of faults, depths and those points - or refuses them if they are outside the documented ranges.", "quantifier": "every combination of the arguments of `compute_okada`, all values and all file names", "why_tests_cant": "Numbers and names are joined into one line of options and cut again at slashes and plus signs by the program; which values survive that depends on every sign of every argument.", "anchors": ["pygrt/utils.py: compute_okada", "pygrt/C_extension/src/okada/grt_okada.c: parse_command"]}
{"id": "C127", "title": "Statistics read in Python are those written, and the plotted integrand is the one summed up", "statement": "`read_statsfile` returns, for every wavenumber or velocity written to a log file, one record with every kernel under the name of its source and component, and leaves out an unfinished last record; the extrema of `read_statsfile_ptam` likewise. The curve plotted for a source and a part is the term that the program adds up at that wavenumber; a source or part that the program does not sum up is an exception.", "quantifier": "all kernels, wavenumbers and distances, files of any length, also if a run was broken off", "why_tests_cant": "The layout of the file exists twice, as loops in C and as a list of fields in Python; exchanged fields give plausible curves. Formulas with Bessel functions are compared for all wavenumbers and distances.", "anchors": ["pygrt/utils.py: read_statsfile", "pygrt/utils.py: read_statsfile_ptam", "pygrt/utils.py: _get_stats_Fname", "pygrt/C_extension/src/integral/iostats.c: grt_write_stats", "pygrt/C_extension/src/integral/k_integ.c: grt_int_Pk"]}
{"id": "C128", "title": "Traces processed in Python are those the program gives", "statement": "`stream_convolve`, `stream_integral` and `stream_diff` change every trace as `grt syn` does with a time function, `-I` and `-J`: the damped circular convolution with the signal, the trapezoidal sum, and central differences with one-sided ends.", "quantifier": "all traces, signals, sampling intervals and imaginary frequencies", "why_tests_cant": "Both sides are independent programs: padding and overlap-add in Python, a loop with a remainder in C. Whether the wrapped part, the damping and the index of the first sample agree is a statement about all lengths and samples.", "anchors": ["pygrt/utils.py: stream_convolve", "pygrt/utils.py: stream_integral", "pygrt/utils.py: stream_diff", "pygrt/C_extension/src/dynamic/grt_syn.c: syn_postprocess_trace"]}
{"id": "C129", "title": "`grt eigenv -F` searches the frequencies (or periods) asked for, in ascending order", "statement": "The frequencies of `-F<f1>/<f2>/<df>` are f1, f1+df, ... up to f2, without zero; with `+p` those of the periods f1, f1+df, ... up to f2. There is at least one, all are positive, and they ascend.", "quantifier": "every text of the option", "why_tests_cant": "The number of frequencies is the floor of a rounded quotient, and the order is turned around for periods; a wrong order or a missing frequency is seen only for particular numbers.", "anchors": ["pygrt/C_extension/src/modal/grt_eigenv.c: getopt_from_command"]}
{"id": "C130", "title": "Without `+i` a fault is divided by the finest sampling of the library", "statement": "The default size of the parts of a finite fault (`grt static syn -C<path>`) is the smallest difference of two epicentral distances or of two source depths of the library, where numbers are the same if they differ by no more than 1e-8; it is positive, and exists for every library with two source depths.", "quantifier": "all lists of distances (in the order of `fill_rs_meta`) and of depths", "why_tests_cant": "The search looks at neighbours only and keeps -1 as a sign for 'none so far'; that no other pair is closer, and that rounding noise between equal distances is not taken for a sampling, is a statement about all lists.", "anchors": ["pygrt/C_extension/src/static/stgrnlib.c: grt_stgrnlib_default_subfault_size", "pygrt/C_extension/src/static/stgrnlib.c: fill_rs_meta"]}
{"id": "C131", "title": "Kernels read by `read_kernels_freqs` are those of the run at the velocities asked for", "statement": "Row i of every array belongs to the file of `_freqs[i]`; all frequencies of the run but zero occur once, in ascending order; the value at a velocity c is the linear interpolation between the two records next to c, where the velocity of a record is 2 pi f / k with the frequency f of the run; every c between the smallest and largest recorded velocity has a value.", "quantifier": "all directories, orders of listing, frequencies, records and velocities", "why_tests_cant": "The frequencies are taken from the names of the files, the order from a sort, and the interpolation runs over velocities that descend while wavenumbers ascend; a shifted row or a wrong neighbour is not seen from single values.", "anchors": ["pygrt/utils.py: read_kernels_freqs", "pygrt/C_extension/src/dynamic/grn.c: grt_integ_grn_spec"]}
{"id": "C132", "title": "`grt eigenv -X` prints a table of the secular function over the range asked for", "statement": "For every model, layer, frequency, range of velocities and search parameters: the program prints, for each layer searched, rows whose velocities increase strictly from the lower to the upper end of the range (without the margin vgap), and beside each velocity the value of the secular function of that layer there; printing ends.", "quantifier": "all secular functions, tests of intervals, starting velocities, gaps and fixed steps", "why_tests_cant": "Intervals are subdivided on a stack and printed when accepted; a row repeated, out of order or paired with the value of a neighbour is only seen for functions that are subdivided unevenly, and ranges near the gaps take other paths.", "anchors": ["pygrt/C_extension/src/modal/root.c: grt_adaptive_step_secular_roots, grt_fixed_step_secular_roots", "pygrt/C_extension/src/modal/grt_eigenv.c: getopt_from_command"]}
{"id": "C133", "title": "`gen_triangle_wave` gives the triangle of the length asked for", "statement": "For every length and sampling interval the samples returned are those of the triangle of height one that rises from zero to its top at half the length and falls back to zero at the length (moved to the sampling grid).", "quantifier": "all lengths and sampling intervals", "why_tests_cant": "The times are moved to the grid one after the other, the fall being what the rise has left; the result depends on whether the length holds an even or odd number of intervals.", "anchors": ["pygrt/signals.py: gen_triangle_wave, gen_trap_wave", "pygrt/C_extension/src/dynamic/signals.c: grt_get_trap_wave"]}
{"id": "C134", "title": "Strain, rotation, stress and returned streams belong to the last synthesis written to the directory", "statement": "After any sequence of runs of `grt syn` (or `compute_syn`) with the same output directory, `grt strain`, `grt rotation` and `grt stress` work with the displacements and derivatives of the last run, in its frame, or refuse; the stream that `compute_syn` returns holds exactly the traces of its own run.", "quantifier": "all sequences of runs with one directory, frames, with and without derivatives and time function", "why_tests_cant": "The programs find the frame from one marker file and never remove files; whether old files are taken depends on the whole history of the directory, not on a single run.", "anchors": ["pygrt/C_extension/src/dynamic/grt_syn.c: syn_main", "pygrt/C_extension/src/dynamic/grt_strain.c: strain_main", "pygrt/C_extension/src/dynamic/grt_rotation.c: rotation_main", "pygrt/C_extension/src/dynamic/grt_stress.c: stress_main", "pygrt/pymod.py: PyModel1D.compute_syn"]}
{"id": "C135", "title": "The Green's functions combined in a synthesis belong to one run of grt greenfn", "statement": "After any sequence of runs of `grt greenfn` with the same output directory, the files that `grt syn` adds up were all written by the last run, with its number of samples, or `grt syn` reports an error; it never reads outside a trace.", "quantifier": "all sequences of runs with one directory, selections of sources, with and without derivatives, numbers of samples, sources and coefficients of the synthesis", "why_tests_cant": "A run replaces only the files of the sources selected, and the synthesis takes the number of samples from the first file; whether files fit together depends on the history of the directory.", "anchors": ["pygrt/C_extension/src/dynamic/grnspec.c: grt_grnspec_write_sac", "pygrt/C_extension/src/dynamic/grt_syn.c: syn_need_src, syn_load_one_gf, syn_accum_from_gf, syn_main"]}
{"id": "C136", "title": "compute_strain, compute_rotation and compute_stress return the components of the call", "statement": "After any sequence of syntheses and of calls of `compute_strain`, `compute_rotation` and `compute_stress` with one directory, the stream returned by a call that succeeds holds exactly the six (for rotations three) components computed by this call, each named after the frame of the synthesis.", "quantifier": "all sequences of syntheses and calls with one directory, frames, kinds, contents of traces", "why_tests_cant": "The files are found by a pattern of names and never removed; which traces are returned depends on the whole history of the directory.", "anchors": ["pygrt/utils.py: _postprocess, compute_strain, compute_rotation, compute_stress", "pygrt/C_extension/src/dynamic/grt_strain.c: strain_main", "pygrt/C_extension/src/dynamic/grt_rotation.c: rotation_main", "pygrt/C_extension/src/dynamic/grt_stress.c: stress_main"]}
