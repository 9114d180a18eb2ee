{
 "claims": [
  {
   "property": "C01",
   "status": "proved",
   "theorems": [
    "Verif.Region.C01_point_coordinates",
    "Verif.Region.C01_index_from_coordinates",
    "Verif.Region.C01_no_alias"
   ],
   "note": "int modelled as Int (no overflow)."
  },
  {
   "property": "C02",
   "status": "proved",
   "theorems": [
    "Verif.Region.C02_xp",
    "Verif.Region.C02_yp",
    "Verif.Region.C02_ypChecked",
    "Verif.Region.C02_zp",
    "Verif.Region.C02_zm",
    "Verif.Region.C02_zp_zm_inverse",
    "Verif.Region.C02_offset"
   ],
   "note": "All offsets incl. dz>nz; CHECK>=4 behaviour of yp as well."
  },
  {
   "property": "C03",
   "status": "partial",
   "theorems": [
    "Verif.Region.C03_box_region",
    "Verif.Region.C03_box_region_increasing",
    "Verif.Region.C03_empty",
    "Verif.Region.C03_ind2D_zend_unchecked",
    "Verif.Region.C03_ind2D_partial"
   ],
   "note": "Proved for 3D boxes; for Region<Ind2D> the constructor accepts zend>0 (finding F9), witness C03_ind2D_zend_unchecked, restricted claim C03_ind2D_partial."
  },
  {
   "property": "C04",
   "status": "proved",
   "theorems": [
    "Verif.Region.C04_blocked_iteration",
    "Verif.Region.C04_blocked_iteration_exact",
    "Verif.Region.C04_block_sizes",
    "Verif.Region.C04_threads_cover",
    "Verif.Region.C04_threads_disjoint"
   ],
   "note": "Order, multiplicity, block sizes, greedy cuts, any assignment of blocks to threads."
  },
  {
   "property": "C05",
   "status": "proved",
   "theorems": [
    "Verif.Region.C05_mask",
    "Verif.Region.C05_intersection",
    "Verif.Region.C05_mask_intersection_partition",
    "Verif.Region.C05_sort",
    "Verif.Region.C05_unique",
    "Verif.Region.C05_add",
    "Verif.Region.C05_history",
    "Verif.Region.C05_constructors"
   ],
   "note": "std::sort/unique/binary_search modelled by their specification."
  },
  {
   "property": "C06",
   "status": "partial",
   "theorems": [
    "Verif.Region.C06_offset",
    "Verif.Region.C06_offset_coordinates_partial",
    "Verif.Region.C06_offset_coordinates_violated",
    "Verif.Region.C06_offset_coordinates_violated_concrete",
    "Verif.Region.C06_periodicShift",
    "Verif.Region.C06_periodicShift_compose",
    "Verif.Region.C06_periodicShift_permutes",
    "Verif.Region.C06_periodicShift_diverges"
   ],
   "note": "periodicShift fully proved for non-negative indices and positive period; offset proved on flat indices, but coordinates after offset are wrong for regions that lost ny,nz (finding F1), with witness."
  },
  {
   "property": "C07",
   "status": "proved",
   "theorems": [
    "Verif.Array.C07_step_refines_values",
    "Verif.Array.C07_ensureUnique_unshared",
    "Verif.Array.C07_unshared_write",
    "Verif.Array.C07_program_refines_values"
   ],
   "note": "Refinement to a value machine for arbitrary histories and thread interleavings at operation granularity; element access UB kept separate."
  },
  {
   "property": "C08",
   "status": "partial",
   "theorems": [
    "Verif.Array.C08_store_bookkeeping",
    "Verif.Array.C08_get_fresh",
    "Verif.Array.C08_disable_irreversible",
    "Verif.Array.C08_cleanup_empties",
    "Verif.Array.C08_no_ub_partial",
    "Verif.Array.C08_ub_after_cleanup",
    "Verif.Array.C08_master_has_store"
   ],
   "note": "Bookkeeping invariant, no leak, no use-after-free, irreversibility proved for every history. No-UB holds for threads with a store; after cleanup() in an OpenMP run other threads index the arena out of bounds (finding F17, witness C08_ub_after_cleanup)."
  },
  {
   "property": "C09",
   "status": "proved",
   "theorems": [
    "Verif.Opt.C09_assign_succeeds_iff",
    "Verif.Opt.C09_force_succeeds_iff",
    "Verif.Opt.C09_step",
    "Verif.Opt.C09_history",
    "Verif.Opt.C09_conflict_rejected",
    "Verif.Opt.C09_reachable_inv"
   ],
   "note": "Assignment, conflict detection, force and attributes over every tree and history; model of Options::_set/_set_no_check/assign/force on arbitrary option trees."
  },
  {
   "property": "C10",
   "status": "proved",
   "theorems": [
    "Verif.Opt.C10_int_conversion",
    "Verif.Opt.C10_int_refused",
    "Verif.Opt.C10_bool_conversion",
    "Verif.Opt.C10_repeated_default_agrees",
    "Verif.Opt.C10_unset",
    "Verif.Opt.C10_set",
    "Verif.Opt.C10_user_value_wins",
    "Verif.Opt.C10_repeated_default",
    "Verif.Opt.C10_defaults_agree",
    "Verif.Opt.C10_override",
    "Verif.Opt.C10_const_pure",
    "Verif.Opt.C10_const_value"
   ],
   "note": "withDefault/overrideDefault on every tree and over call sequences."
  },
  {
   "property": "C11",
   "status": "partial",
   "theorems": [
    "Verif.Opt.C11_split",
    "Verif.Opt.C11_split_join",
    "Verif.Opt.C11_nested",
    "Verif.Opt.C11_path",
    "Verif.Opt.C11_index_changes_nothing",
    "Verif.Opt.C11_empty_component",
    "Verif.Opt.C11_const",
    "Verif.Opt.C11_full_names_partial",
    "Verif.Opt.C11_copied_default_violated"
   ],
   "note": "Paths, frame and full names proved for every tree and path; the full-name clause is false after Options::withDefault(const Options&) (C11_copied_default_violated), which copies the name of the default option."
  },
  {
   "property": "C12",
   "status": "proved",
   "theorems": [
    "Verif.Opt.C12_unused_exact",
    "Verif.Opt.C12_check_exact",
    "Verif.Opt.C12_reported_keys",
    "Verif.Opt.C12_conditionally_used",
    "Verif.Opt.C12_history"
   ],
   "note": "Exactness of getUnused, the reporting walk, read marking and conditional use over every tree and access history."
  },
  {
   "property": "C13",
   "status": "partial",
   "theorems": [
    "Verif.Opt.C13_ini",
    "Verif.Opt.C13_malformed_rejected_partial",
    "Verif.Opt.C13_unbalanced_rejected",
    "Verif.Opt.C13_junk_after_header_violated",
    "Verif.Opt.C13_header_spaces_violated",
    "Verif.Opt.C13_bare_colon_violated",
    "Verif.Opt.C13_command_line",
    "Verif.Opt.C13_command_line_rejects"
   ],
   "note": "INI reading and the command line on every sequence of well-formed items, with rejection of malformed lines; the 'never mis-assigned' clause fails on three kinds of malformed lines (the *_violated theorems)."
  },
  {
   "property": "C14",
   "status": "proved",
   "theorems": [
    "Verif.Expr.C14_parse",
    "Verif.Expr.C14_unambiguous",
    "Verif.Expr.C14_terminates"
   ],
   "note": "For every operator table, generator set and string spelled by the grammar of Spec.lean (all whitespace layouts, escapes, implicit products): parse = the denoted tree; unambiguity; termination on every string. std::stod and generator clone/resolve are parameters."
  },
  {
   "property": "C15",
   "status": "partial",
   "theorems": [
    "Verif.Expr.C15_leading_minus_partial",
    "Verif.Expr.C15_minus_in_brackets",
    "Verif.Expr.C15_implicit_multiplication",
    "Verif.Expr.C15_minus_after_operator_violated",
    "Verif.Expr.C15_two_times_minus_three_violated"
   ],
   "note": "Leading/bracketed minus and implicit multiplication proved; the clause for a minus after an operator is false of the code (C15_minus_after_operator_violated for all primaries and operators at least as tight as '-')."
  },
  {
   "property": "C16",
   "status": "proved",
   "theorems": [
    "Verif.Mesh.C16_proc_num_bijection",
    "Verif.Mesh.C16_proc_num_outside",
    "Verif.Mesh.C16_proc_num_injective"
   ],
   "note": "Rank <-> (PE_XIND, PE_YIND) bijection, -1 outside the processor grid."
  },
  {
   "property": "C17",
   "status": "partial",
   "theorems": [
    "Verif.Mesh.C17_x_owner",
    "Verif.Mesh.C17_y_owner",
    "Verif.Mesh.C17_index_inverse",
    "Verif.Mesh.C17_guard_overlap",
    "Verif.Mesh.C17_global_y_index_partial",
    "Verif.Mesh.C17_global_y_index_violated"
   ],
   "note": "X and Y ownership, index inverses and guard overlap proved for every decomposition; the boundary-including global Y index (getGlobalYIndex) is proved consistent only when ranks above ny_inner are identified correctly by the code's test; C17_global_y_index_violated exhibits an accepted double-null decomposition (MYSUB <= 2*MYG) where the code's test misplaces a rank (finding F28)."
  },
  {
   "property": "C18",
   "status": "proved",
   "theorems": [
    "Verif.Comm.C18_channels_match",
    "Verif.Comm.C18_peers_exist",
    "Verif.Comm.C18_sequence_match",
    "Verif.Comm.C18_layout_channels_match_partial"
   ],
   "note": "For every symmetric network (any number of ranks) each posted receive is matched by exactly one send of the same length and order, and peers exist; C18_layout_channels_match_partial instantiates it for layouts with all regions non-empty and MYSUB>=2 or no PF region (outside: C19_*_violated)."
  },
  {
   "property": "C19",
   "status": "partial",
   "theorems": [
    "Verif.Mesh.C19_periodicY_iff_closed",
    "Verif.Mesh.C19_connections_follow_topology_partial",
    "Verif.Mesh.C19_connections_symmetric_partial",
    "Verif.Mesh.C19_destinations_valid_partial",
    "Verif.Mesh.C19_x_connections_symmetric_partial",
    "Verif.Mesh.C19_one_row_per_rank_violated",
    "Verif.Mesh.C19_one_leg_violated"
   ],
   "note": "Proved for every layout accepted by the mesh's own checks in which every region is present (single null, double null, limiter/core only, SOL only) and there is more than one row per rank or no private flux region. C19_one_row_per_rank_violated and C19_one_leg_violated show that the property is false of the code outside those hypotheses (findings F7, F29)."
  },
  {
   "property": "C20",
   "status": "proved",
   "theorems": [
    "Verif.Comm.C20_pack_length",
    "Verif.Comm.C20_unpack_length",
    "Verif.Comm.C20_round_trip"
   ],
   "note": "Pack/unpack of every list of fields and rectangle; lengths equal msg_len; unpack restores exactly the packed cells."
  },
  {
   "property": "C21",
   "status": "proved",
   "theorems": [
    "Verif.Mesh.C21_check_success_iff",
    "Verif.Mesh.C21_check_no_straddling",
    "Verif.Mesh.C21_check_defined",
    "Verif.Mesh.C21_check_division_by_zero",
    "Verif.Mesh.C21_find_split_sound",
    "Verif.Mesh.C21_find_split_complete",
    "Verif.Mesh.C21_find_split_defined",
    "Verif.Mesh.C21_choose_split_sound",
    "Verif.Mesh.C21_indices_ordered",
    "Verif.Mesh.C21_indices_kept",
    "Verif.Mesh.C21_indices_throw"
   ],
   "note": "Acceptance is equivalent to every region being a whole number of ranks; no rank straddles a separatrix; the split search is sound and complete. C21_check_division_by_zero records that the check itself divides by zero when ny < NYPE and MYG = 0 (finding F10)."
  },
  {
   "property": "C22",
   "status": "proved",
   "theorems": [
    "Verif.Cyclic.C22_block_succeeds",
    "Verif.Cyclic.C22_dominant_succeeds",
    "Verif.Cyclic.C22_solves",
    "Verif.Cyclic.C22_unique",
    "Verif.Cyclic.C22_succeeds"
   ],
   "note": "Exact arithmetic over any field; tiny pivot test abstract (must reject 0). MPI payload delivery trusted, any arrival order. Also uniqueness and success for non-singular matrices."
  },
  {
   "property": "C23",
   "status": "proved",
   "theorems": [
    "Verif.Cyclic.C23_starts_agree",
    "Verif.Cyclic.C23_partition",
    "Verif.Cyclic.C23_balanced",
    "Verif.Cyclic.C23_gather_matched",
    "Verif.Cyclic.C23_scatter_matched",
    "Verif.Cyclic.C23_no_duplicates",
    "Verif.Cyclic.C23_buffers_fit"
   ],
   "note": "Partition of systems, agreement of the three start formulas, message matching and buffer sizes, for every Nsys and nprocs."
  },
  {
   "property": "C24",
   "status": "partial",
   "theorems": [
    "Verif.Solver.C24_periods",
    "Verif.Solver.C24_periods_exact",
    "Verif.Solver.C24_step",
    "Verif.Solver.C24_fire_times",
    "Verif.Solver.C24_solve_calls",
    "Verif.Solver.C24_run_partial",
    "Verif.Solver.C24_accepted_iff",
    "Verif.Solver.C24_quit",
    "Verif.Solver.C24_quit_ends_run",
    "Verif.Solver.C24_user_quit",
    "Verif.Solver.C24_fast_monitor_violated",
    "Verif.Solver.C24_late_monitor_violated",
    "Verif.Solver.C24_added_twice_violated"
   ],
   "note": "Monitor periods, call times and quit behaviour proved for every sequence of added monitors and every run; the claim that a monitor faster than the output interval is called at its own interval is FALSE of Solver::solve (it adjusts local copies of nout/timestep only): C24_fast_monitor_violated, and two further violations are exhibited (late and duplicate monitors)."
  },
  {
   "property": "C25",
   "status": "proved",
   "theorems": [
    "Verif.Vars.C25_layout",
    "Verif.Vars.C25_saves",
    "Verif.Vars.C25_load_vars",
    "Verif.Vars.C25_load_derivs",
    "Verif.Vars.C25_save_load",
    "Verif.Vars.C25_load_save",
    "Verif.Vars.C25_split_rhs",
    "Verif.Vars.C25_globalIndex_total",
    "Verif.Vars.C25_globalIndex",
    "Verif.Vars.C25_globalIndex_2d_boundary"
   ],
   "note": "Layout of the flat state vector, save/load of variables and derivatives, set_id, globalIndex and the split right-hand side, for every set of variables, boundary flags, regions and nz>0."
  },
  {
   "property": "C26",
   "status": "proved",
   "theorems": [
    "Verif.RK.C26_euler_cfl",
    "Verif.RK.C26_euler_unlimited",
    "Verif.RK.C26_initial_timestep_violated",
    "Verif.RK.C26_rk4_quadrature",
    "Verif.RK.C26_rk4_linear",
    "Verif.RK.C26_rk4_classical",
    "Verif.RK.C26_rk3ssp",
    "Verif.RK.C26_euler",
    "Verif.RK.C26_output_reached",
    "Verif.RK.C26_adaptive_terminates",
    "Verif.RK.C26_fixed_step",
    "Verif.RK.C26_run",
    "Verif.RK.C26_max_timestep",
    "Verif.RK.C26_error_range",
    "Verif.RK.C26_rk4_steps_classical",
    "Verif.RK.C26_rk4_half_steps"
   ],
   "note": "RK4/RK3-SSP/Euler steps are the classical, SSP3 and Euler tableau steps; the run loops of RK4, RKGeneric, RK3-SSP and Euler end exactly on every output time by a chain of such steps, fixed and adaptive, with termination (or MXSTEP), acceptance below rtol, CFL limits respected on all ranks. Initial time step above max_timestep is not clamped: C26_initial_timestep_violated."
  },
  {
   "property": "C27",
   "status": "proved",
   "theorems": [
    "Verif.RK.C27_rk4simple_two_half_steps",
    "Verif.RK.C27_default_tolerance",
    "Verif.RK.C27_quadrature",
    "Verif.RK.C27_linear",
    "Verif.RK.C27_large_atol_violated",
    "Verif.RK.C27_rkf45_order",
    "Verif.RK.C27_cashkarp_order",
    "Verif.RK.C27_rkf34_order",
    "Verif.RK.C27_rk4simple_order",
    "Verif.RK.C27_declared_order",
    "Verif.RK.C27_generic_step",
    "Verif.RK.C27_error_estimate"
   ],
   "note": "Every built-in tableau has the declared order on all rooted-tree order conditions; the generic step is the tableau's step; error estimate; two half-step Richardson step for RK4-simple. The coefficient-dropping quirk (F16) is C27_large_atol_violated."
  },
  {
   "property": "C28",
   "status": "proved",
   "theorems": [
    "Verif.Num.C28_min_max",
    "Verif.Num.C28_MINMOD_helper",
    "Verif.Num.C28_constants",
    "Verif.Num.C28_linear",
    "Verif.Num.C28_no_new_extrema",
    "Verif.Num.C28_fromm_not_limited",
    "Verif.Num.C28_extremum",
    "Verif.Num.C28_mirror",
    "Verif.Num.C28_odd",
    "Verif.Num.C28_maximum_principle",
    "Verif.Num.C28_minmod_monotone",
    "Verif.Num.C28_mc_overlap"
   ],
   "note": "Upwind, Fromm, MinMod and MC reconstructions over any ordered field: constants and linear profiles exact, MinMod/MC edge values between neighbours, maximum principle, mirror and odd symmetry; Fromm shown not to be limited."
  },
  {
   "property": "C29",
   "status": "partial",
   "theorems": [
    "Verif.Num.C29_D4DY4_Index_violated",
    "Verif.Num.C29_D4DY4_Index_conserves_partial",
    "Verif.Num.C29_div_par_K_Grad_par_cell",
    "Verif.Num.C29_div_par_K_Grad_par_conserves",
    "Verif.Num.C29_div_par_K_Grad_par_conserves_periodic",
    "Verif.Num.C29_D4DY4_cell",
    "Verif.Num.C29_D4DY4_conserves",
    "Verif.Num.C29_D4DY4_conserves_periodic",
    "Verif.Num.C29_D4DY4_twice_violated",
    "Verif.Num.C29_div_par_cell",
    "Verif.Num.C29_div_par_conserves",
    "Verif.Num.C29_div_par_conserves_periodic",
    "Verif.Num.C29_div_par_decomposition",
    "Verif.Num.C29_flux_consistent",
    "Verif.Num.C29_div_a_grad_perp_x_conserves",
    "Verif.Num.C29_div_a_grad_perp_yz_cell",
    "Verif.Num.C29_div_a_grad_perp_yz_conserves",
    "Verif.Num.C29_div_a_grad_perp_constant",
    "Verif.Num.C29_div_f_v_x_cell",
    "Verif.Num.C29_div_f_v_x_conserves",
    "Verif.Num.C29_div_f_v_guard",
    "Verif.Num.C29_div_f_v_z_cell",
    "Verif.Num.C29_div_f_v_z_conserves",
    "Verif.Num.C29_div_f_v_y_conserves",
    "Verif.Num.C29_div_perp_lap_violated"
   ],
   "note": "Div_par, Div_par_K_Grad_par, D4DY4 and Div_f_v (X with communicateFluxes, Y, Z) and Div_a_Grad_perp conserve exactly, on any number of ranks, open or closed lines; D4DY4_Index only on uniform grids, and it is shown to depend on the decomposition; D4DY4 is shown to return twice the derivative, Div_Perp_Lap to add the flow through the lower Z face. Missing: field-aligned transforms (identity here), FCI slices, OpenMP execution of loops that write to neighbours."
  },
  {
   "property": "C30",
   "status": "proved",
   "theorems": [
    "Verif.Num.C30_upwind_side",
    "Verif.Num.C30_U1_monotone",
    "Verif.Num.C30_flux_conservative",
    "Verif.Num.C30_flux_uniform",
    "Verif.Num.C30_flux_central",
    "Verif.Num.C30_mirror",
    "Verif.Num.C30_S2_not_odd_violated",
    "Verif.Num.C30_getStagger",
    "Verif.Num.C30_W3_blend",
    "Verif.Num.C30_staggered_upwind_divergent",
    "Verif.Num.C30_first_central",
    "Verif.Num.C30_first_S2",
    "Verif.Num.C30_W2_between",
    "Verif.Num.C30_first_W2",
    "Verif.Num.C30_higher_central",
    "Verif.Num.C30_upwind",
    "Verif.Num.C30_first_W3",
    "Verif.Num.C30_staggered",
    "Verif.Num.C30_staggered_upwind_central",
    "Verif.Num.C30_staggered_upwind"
   ],
   "note": "Every registered stencil method of index_derivs.cxx (standard, upwind, flux, staggered) with populateStencil, over any ordered field, any uniform grid and any content of unfilled points: exact on polynomials of the stated degree at the right location, upwind side, monotone U1, conservative fluxes, mirror symmetry, stagger selection. FFT/SPLIT methods and the DerivativeStore lookup are outside this claim."
  },
  {
   "property": "C31",
   "status": "partial",
   "theorems": [
    "Verif.Num.C31_frame",
    "Verif.Num.C31_4thorder_one_guard_violated",
    "Verif.Num.C31_dirichlet_exact",
    "Verif.Num.C31_dirichlet_value",
    "Verif.Num.C31_free_exact",
    "Verif.Num.C31_neumann_exact",
    "Verif.Num.C31_neumann_value",
    "Verif.Num.C31_neumann_wide_violated",
    "Verif.Num.C31_neumann_o4_exact",
    "Verif.Num.C31_neumann_4thorder_sign_violated",
    "Verif.Num.C31_dirichlet_4thorder_violated",
    "Verif.Num.C31_dirichlet_3D_mid",
    "Verif.Num.C31_robin",
    "Verif.Num.C31_robin_const",
    "Verif.Num.C31_const_gradient",
    "Verif.Num.C31_neumann_par",
    "Verif.Num.C31_ddt_zero",
    "Verif.Num.C31_relax",
    "Verif.Num.C31_relax_apply_2D",
    "Verif.Num.C31_relax_time_violated",
    "Verif.Num.C31_aligned_apply",
    "Verif.Num.C31_aligned_ddt_violated",
    "Verif.Num.C31_width_violated",
    "Verif.Num.C31_points",
    "Verif.Num.C31_cells"
   ],
   "note": "Frame, Dirichlet (2nd, 3rd, 4th order), Neumann, free, Robin, constant gradient, parallel Neumann, zero ddt and relaxation are proved for every region, width, staggering and field; the places where the code breaks the claim are proved as *_violated theorems. Not modelled: neumann_nonorthogonal, Laplacian and divcurl conditions."
  },
  {
   "property": "C32",
   "status": "partial",
   "theorems": [
    "Verif.Num.C32_laplace",
    "Verif.Num.C32_laplace_par",
    "Verif.Num.C32_curl_grad_torsion",
    "Verif.Num.C32_div_curl_torsion",
    "Verif.Num.C32_invert3x3",
    "Verif.Num.C32_invert3x3_zero_threshold_violated",
    "Verif.Num.C32_calcCovariant",
    "Verif.Num.C32_roundtrip",
    "Verif.Num.C32_curl_shifted",
    "Verif.Num.C32_curl_grad_intshear_violated",
    "Verif.Num.C32_vector_roundtrip",
    "Verif.Num.C32_dot",
    "Verif.Num.C32_vector_arith",
    "Verif.Num.C32_cross_orthogonal",
    "Verif.Num.C32_cross_magnitude",
    "Verif.Num.C32_christoffel_partial",
    "Verif.Num.C32_christoffel_exact",
    "Verif.Num.C32_christoffel_violated",
    "Verif.Num.C32_metric_compatible",
    "Verif.Num.C32_v_dot_grad",
    "Verif.Num.C32_curl_grad",
    "Verif.Num.C32_div_curl",
    "Verif.Num.C32_grad_perp"
   ],
   "note": "Proved for every ordered field: inversion, failure report, round trips, vector algebra, V_dot_Grad, Curl Grad, Div Curl (for any additive commuting difference operators), Grad_perp. Laplace = Div Grad and Laplace_par, and the torsion forms of Curl, for exact derivatives on a class of fields closed under them (smooth functions on R^3 are a proved instance). The Christoffel property is false of the code for G2_22 (coordinates.cxx:989 differentiates g23 instead of g_23): C32_christoffel_violated; C32_christoffel_partial gives the exact deviation. Curl double-counts torsion with IncIntShear: C32_curl_grad_intshear_violated. Exact arithmetic."
  },
  {
   "property": "C33",
   "status": "proved",
   "theorems": [
    "Verif.MsgStack.C33_history",
    "Verif.MsgStack.C33_push_pop_id",
    "Verif.MsgStack.C33_dump",
    "Verif.MsgStack.C33_scope_restores",
    "Verif.MsgStack.C33_backtrace",
    "Verif.MsgStack.C33_pop_in_parallel_violated"
   ],
   "note": "Every operation history; scoped trackers including exceptions. Unguarded pop() in a parallel region is unbalanced (F20, C33_pop_in_parallel_violated)."
  },
  {
   "property": "C34",
   "status": "partial",
   "theorems": [
    "Verif.Range.C34_iteration_partial",
    "Verif.Range.C34_iteration_violated",
    "Verif.Range.C34_intersects_point",
    "Verif.Range.C34_intersects_range",
    "Verif.Range.C34_plus",
    "Verif.Range.C34_minus_partial",
    "Verif.Range.C34_minus_total_overlap_violated",
    "Verif.Range.C34_minus_use_after_free"
   ],
   "note": "Iteration proved for chains whose later ranges are non-empty; an empty later range is visited (F18, witness). Subtraction proved for one range without total overlap; total overlap is wrong (F6) or reads freed memory (F19), witnesses."
  },
  {
   "property": "C35",
   "status": "proved",
   "theorems": [
    "Verif.Matrix.C35_index2_bijective",
    "Verif.Matrix.C35_index3_bijective",
    "Verif.Matrix.C35_program",
    "Verif.Matrix.C35_write_read"
   ],
   "note": "Index bijection and value semantics of all matrix/tensor programs on top of the Array machine. int overflow of products not modelled."
  },
  {
   "property": "C36",
   "status": "proved",
   "theorems": [
    "Verif.Str.C36_split_join",
    "Verif.Str.C36_trimLeft",
    "Verif.Str.C36_trimRight",
    "Verif.Str.C36_trim",
    "Verif.Str.C36_trim_idempotent",
    "Verif.Str.C36_trimComments",
    "Verif.Str.C36_lowercasequote",
    "Verif.Str.C36_lowercasequote_length",
    "Verif.Str.C36_apostrophe_in_string_violated"
   ],
   "note": "std::string primitives modelled by list functions; mixed quotes in lowercasequote (F21) recorded as witness."
  },
  {
   "property": "C37",
   "status": "proved",
   "theorems": [
    "Verif.Edit.C37_is_minimum",
    "Verif.Edit.C37_zero_iff",
    "Verif.Edit.C37_symm",
    "Verif.Edit.C37_bounds"
   ],
   "note": "Minimality against an independent alignment specification."
  },
  {
   "property": "C38",
   "status": "proved",
   "theorems": [
    "Verif.Factory.C38_create",
    "Verif.Factory.C38_creator_unique",
    "Verif.Factory.C38_flags",
    "Verif.Factory.C38_list",
    "Verif.Factory.C38_frame",
    "Verif.Factory.C38_registration_order",
    "Verif.Factory.C38_first_wins",
    "Verif.Factory.C38_type_from_options"
   ],
   "note": "Every history of add/addUnavailable/remove/removeUnavailable against a declarative specification of registration; std::map as an ordered list of pairs; creators are arbitrary functions that may throw; getType via the Options model (C10)."
  },
  {
   "property": "C39",
   "status": "proved",
   "theorems": [
    "Verif.Indexer.C39_ranks_exist",
    "Verif.Indexer.C39_y_guard_numbers",
    "Verif.Indexer.C39_x_guard_numbers",
    "Verif.Indexer.C39_own_numbers_kept",
    "Verif.Indexer.C39_indexer_exists",
    "Verif.Indexer.C39_mesh_regions_3D",
    "Verif.Indexer.C39_mesh_regions_2D",
    "Verif.Indexer.C39_mesh_regions_perp",
    "Verif.Indexer.C39_loop",
    "Verif.Indexer.C39_unknowns",
    "Verif.Indexer.C39_construction",
    "Verif.Indexer.C39_bijection",
    "Verif.Indexer.C39_order",
    "Verif.Indexer.C39_isLocal"
   ],
   "note": "Bijection, unknowns, order, construction failures, isLocal for every set of ranks, stencils and mesh regions (C39_mesh_regions_*); guard cells carry the owner's number and own numbers are kept on every accepted layout (C39_y_guard_numbers, C39_x_guard_numbers, C39_own_numbers_kept; corner cells excluded: with periodic X they are numbered twice, C45_periodic_x_corner_violated). Numbers are exact integers (BoutReal below 2^53)."
  },
  {
   "property": "C40",
   "status": "proved",
   "theorems": [
    "Verif.Comm.C40_handle_not_in_use",
    "Verif.Comm.C40_wait_succeeds",
    "Verif.Comm.C40_no_handle_lost",
    "Verif.Comm.C40_buffers_suffice",
    "Verif.Comm.C40_requests_clean",
    "Verif.Comm.C40_double_wait_violated",
    "Verif.Comm.C40_empty_group_violated"
   ],
   "note": "Every history of starts and waits in which each wait is for an outstanding communication; outside, violations are proved (repeated wait, empty group). C40_buffers_suffice for every symmetric network."
  },
  {
   "property": "C41",
   "status": "proved",
   "theorems": [
    "Verif.Expr.C41_sum",
    "Verif.Expr.C41_sum_bad_count",
    "Verif.Expr.C41_context",
    "Verif.Expr.C41_min_max",
    "Verif.Expr.C41_clamp_where"
   ],
   "note": "Evaluation over the reals; pow and other math functions are parameters."
  },
  {
   "property": "C42",
   "status": "proved",
   "theorems": [
    "Verif.Comm.C42_x_guard_columns_with_corners",
    "Verif.Comm.C42_inner_upper_corner",
    "Verif.Comm.C42_inner_lower_corner",
    "Verif.Comm.C42_outer_upper_corner",
    "Verif.Comm.C42_outer_lower_corner",
    "Verif.Comm.C42_interior_unchanged",
    "Verif.Comm.C42_upper_guard_cells",
    "Verif.Comm.C42_lower_guard_cells",
    "Verif.Comm.C42_other_cells_unchanged",
    "Verif.Comm.C42_x_guard_cells",
    "Verif.Comm.C42_upper_guard_follows_field_line",
    "Verif.Comm.C42_lower_guard_follows_field_line",
    "Verif.Comm.C42_repeated_field_violated",
    "Verif.Comm.C42_communicate_upper",
    "Verif.Comm.C42_communicate_lower",
    "Verif.Comm.C42_communicate_x"
   ],
   "note": "For every accepted layout in the stated quantifier; violation for repeated fields proved (C42_repeated_field_violated)."
  },
  {
   "property": "C43",
   "status": "proved",
   "theorems": [
    "Verif.Comm.C43_no_deadlock",
    "Verif.Comm.C43_every_run_completes"
   ],
   "note": "Every program of communications on every symmetric network, every interleaving; a blocking send is only assumed to complete once the matching receive is posted (rendezvous)."
  },
  {
   "property": "C44",
   "status": "partial",
   "theorems": [
    "Verif.Comm.C44_region_loop",
    "Verif.Comm.C44_y_boundaries_at_targets",
    "Verif.Comm.C44_x_boundaries",
    "Verif.Comm.C44_y_boundary_in_guard_column_violated"
   ],
   "note": "Proved in each rank's own columns; Y regions spill into communicated X guard columns on one side (C44_y_boundary_in_guard_column_violated)."
  },
  {
   "property": "C45",
   "status": "partial",
   "theorems": [
    "Verif.Indexer.C45_periodic_x_corner_violated",
    "Verif.MeshRegions.C45_boundaries_3D",
    "Verif.MeshRegions.C45_boundaries_2D",
    "Verif.MeshRegions.C45_boundaries_perp",
    "Verif.MeshRegions.C45_single_column_corner_violated",
    "Verif.MeshRegions.C45_conversions",
    "Verif.MeshRegions.C45_lookup",
    "Verif.MeshRegions.C45_default_3D",
    "Verif.MeshRegions.C45_default_2D",
    "Verif.MeshRegions.C45_default_perp"
   ],
   "note": "All named regions proved for every local size and rank place; the corner-cell clause of the Y boundary regions is false when a rank has one interior column in the region (C45_single_column_corner_violated) and for periodic X (C45_periodic_x_corner_violated)."
  },
  {
   "property": "C46",
   "status": "proved",
   "theorems": [
    "Verif.Num.C46_arakawa",
    "Verif.Num.C46_arakawa_old",
    "Verif.Num.C46_arakawa_2D",
    "Verif.Num.C46_antisymmetric",
    "Verif.Num.C46_constant",
    "Verif.Num.C46_exact",
    "Verif.Num.C46_conservation",
    "Verif.Num.C46_single_z_violated"
   ],
   "note": "Proved for at least two Z points, any grid spacing and any number of X processors. With one Z point the Field3D/Field2D version reads outside its array (C46_single_z_violated), which the quantifier excludes."
  },
  {
   "property": "C47",
   "status": "partial",
   "theorems": [
    "Verif.Opt.C47_round_trip",
    "Verif.Opt.C47_history",
    "Verif.Opt.C47_typed_read",
    "Verif.Opt.C47_comment_violated",
    "Verif.Opt.C47_bracket_violated",
    "Verif.Opt.C47_quotes_violated",
    "Verif.Opt.C47_doc_newline_violated",
    "Verif.Opt.C47_precision_violated"
   ],
   "note": "C47_round_trip, C47_history and C47_typed_read prove the claim for every tree with plain names and values (typed reads of numbers: provided they are printed with enough digits). Not proved because false of the code: values that need escaping and reals with more than six significant digits (the _violated theorems)."
  },
  {
   "property": "C48",
   "status": "partial",
   "theorems": [
    "Verif.Mesh.GridFile.C48_read",
    "Verif.Mesh.GridFile.C48_interior",
    "Verif.Mesh.GridFile.C48_ranks_agree",
    "Verif.Mesh.GridFile.C48_matching_file_is_read",
    "Verif.Mesh.GridFile.C48_points_from_decomposition",
    "Verif.Mesh.GridFile.C48_no_x_guards_violated",
    "Verif.Mesh.GridFile.C48_extra_x_guards_violated",
    "Verif.Mesh.GridFile.C48_upper_null_violated",
    "Verif.Mesh.GridFile.C48_field3d_from_2d_violated",
    "Verif.Mesh.GridFile.C48_fieldperp_violated",
    "Verif.Mesh.GridFile.C48_fft_modes",
    "Verif.Mesh.GridFile.C48_fft_zperiod_violated",
    "Verif.Mesh.GridFile.C48_field2d_constants"
   ],
   "note": "Proved for every layout, rank, size and build under the start-up facts collected in `Ready` (established from the decomposition by `C48_points_from_decomposition`). The clauses for files without X guards, with more X guards, an upper null only, 2-D data for Field3D, FieldPerp with nz, and zperiod 0 are false of the code (theorems `C48_*_violated`). Location attributes and log output not modelled."
  },
  {
   "property": "C49",
   "status": "partial",
   "theorems": [
    "Verif.Num.Interp.C49_bilinear_exact",
    "Verif.Num.Interp.C49_bilinear_bounded",
    "Verif.Num.Interp.C49_bilinear_last_column_violated",
    "Verif.Num.Interp.C49_lagrange_exact",
    "Verif.Num.Interp.C49_lagrange_exact_at_end",
    "Verif.Num.Interp.C49_lagrange_past_end_violated",
    "Verif.Num.Interp.C49_hermite_exact",
    "Verif.Num.Interp.C49_hermite_quadratic",
    "Verif.Num.Interp.C49_hermite_clamped",
    "Verif.Num.Interp.C49_z_quadratic",
    "Verif.Num.Interp.C49_weights_match",
    "Verif.Num.Interp.C49_monotonic_bounded",
    "Verif.Num.Interp.C49_monotonic_agrees",
    "Verif.Num.Interp.C49_field2d_linear",
    "Verif.Num.Interp.C49_field2d_inside",
    "Verif.Num.Interp.C49_field2d_negative_violated",
    "Verif.Num.Interp.C49_stagger_cubic",
    "Verif.Num.Interp.C49_stagger_round_trip"
   ],
   "note": "Over an exact ordered field with floor. All clauses proved except those false of the code: bilinear at the last column, Lagrange just past xend, Field2D with negative displacement (theorems `C49_*_violated`). skip_mask, rounding and the field-aligned shift inside interp_to not modelled."
  },
  {
   "property": "C50",
   "status": "partial",
   "theorems": [
    "Verif.Field.C50_step",
    "Verif.Field.C50_value_semantics",
    "Verif.Field.C50_others_unchanged",
    "Verif.Field.C50_legal_completes",
    "Verif.Field.C50_example",
    "Verif.Field.C50_raw_write_violated",
    "Verif.Field.C50_raw_write_scope",
    "Verif.Field.C50_own_slice_violated",
    "Verif.Field.C50_equality_is_some_point",
    "Verif.Field.C50_equality_violated"
   ],
   "note": "Simulation proved for every program of the listed steps; completion of legal steps proved. Missing: equality (false of the code), unguarded element writes and operands that are slices of the destination (false of the code); time derivatives, boundary conditions, several meshes and cell locations not modelled."
  },
  {
   "property": "C51",
   "status": "partial",
   "theorems": [
    "Verif.Reduce.C51_min_all",
    "Verif.Reduce.C51_max_all",
    "Verif.Reduce.C51_local",
    "Verif.Reduce.C51_min_max_decomposition",
    "Verif.Reduce.C51_empty_rank_violated",
    "Verif.Reduce.C51_mean_all",
    "Verif.Reduce.C51_mean_local",
    "Verif.Reduce.C51_mean_decomposition",
    "Verif.Reduce.C51_mean_between",
    "Verif.Reduce.C51_uniform_local",
    "Verif.Reduce.C51_uniform_all_is_some_rank",
    "Verif.Reduce.C51_uniform_all_violated",
    "Verif.Reduce.C51_averageX",
    "Verif.Reduce.C51_averageY",
    "Verif.Reduce.C51_averageXY",
    "Verif.Reduce.C51_volIntegral",
    "Verif.Reduce.C51_dc",
    "Verif.Reduce.C51_smooth",
    "Verif.Reduce.C51_smooth_bounded",
    "Verif.Reduce.C51_smoothXY",
    "Verif.Reduce.C51_smoothXY_bounded",
    "Verif.Reduce.C51_nlfilter_conserves",
    "Verif.Reduce.C51_nlfilter_monotone",
    "Verif.Reduce.C51_nlfilter_bounded",
    "Verif.Reduce.C51_nlfilter_example",
    "Verif.Reduce.C51_example"
   ],
   "note": "All clauses proved over an ordered field except isUniform(f, true) (false of the code) and min/max when some rank has no cells (undefined behaviour). Rounding is not modelled; averageY assumes, as the code says, that the Y communicator is the whole column."
  },
  {
   "property": "C52",
   "status": "partial",
   "theorems": [
    "Verif.Mesh.C52_ycomm_is_flux_surface",
    "Verif.Mesh.C52_ycomm_order",
    "Verif.Mesh.C52_ycomm_agrees",
    "Verif.Mesh.C52_xcomm_is_row",
    "Verif.Mesh.C52_collectives_match",
    "Verif.Mesh.C52_surface_ends",
    "Verif.Mesh.C52_ysize_partial",
    "Verif.Mesh.C52_ysize_violated"
   ],
   "note": "Communicators, order, agreement, matching collectives and firstY/lastY proved for every legal layout; ySize proved right outside the separatrices and in the inner core, violated elsewhere (C52_ysize_violated). MPI itself (group union, range_incl, comm_create) is modelled by its specification."
  },
  {
   "property": "C53",
   "status": "partial",
   "theorems": [
    "Verif.Fourier.C53_roundtrip",
    "Verif.Fourier.C53_every_row_is_waves",
    "Verif.Fourier.C53_rfft_reads_amplitudes",
    "Verif.Fourier.C53_rfft_irfft",
    "Verif.Fourier.C53_shift",
    "Verif.Fourier.C53_shift_whole_cells",
    "Verif.Fourier.C53_shift_shift",
    "Verif.Fourier.C53_shift_back",
    "Verif.Fourier.C53_shift_mean",
    "Verif.Fourier.C53_toFieldAligned",
    "Verif.Fourier.C53_fromFieldAligned",
    "Verif.Fourier.C53_direction_checked",
    "Verif.Fourier.C53_aligned_roundtrip",
    "Verif.Fourier.C53_aligned_roundtrip_exact",
    "Verif.Fourier.C53_parallel_slice",
    "Verif.Fourier.C53_slice_is_aligned_neighbour",
    "Verif.Fourier.C53_filter",
    "Verif.Fourier.C53_lowPass",
    "Verif.Fourier.C53_lowPass_negative_keep",
    "Verif.Fourier.C53_lowPass_negative_violated",
    "Verif.Fourier.C53_fft_derivative",
    "Verif.Fourier.C53_fft_derivative_filtered",
    "Verif.Fourier.C53_fft_second_derivative",
    "Verif.Fourier.C53_dst_rev_sines",
    "Verif.Fourier.C53_dst_roundtrip",
    "Verif.Fourier.C53_dst_of_sines",
    "Verif.Fourier.C53_slice_written",
    "Verif.Fourier.C53_aligned_roundtrip_violated"
   ],
   "note": "All operations characterised exactly for every row and length. The round trip and slice identities are proved for odd nz or fields without Nyquist component; for even nz they are violated (C53_aligned_roundtrip_violated), as is lowPass with negative zmax and keep_zonal=false. FFTW is represented by its documented transform; arithmetic is exact."
  },
  {
   "property": "C54",
   "status": "partial",
   "theorems": [
    "Verif.Laplace.C54_inner_value",
    "Verif.Laplace.C54_inner_zero_gradient",
    "Verif.Laplace.C54_inner_gradient",
    "Verif.Laplace.C54_inner_gradpar",
    "Verif.Laplace.C54_inner_decay",
    "Verif.Laplace.C54_inner_cylinder",
    "Verif.Laplace.C54_helmholtz_succeeds",
    "Verif.Laplace.C54_helmholtz_periodic_succeeds",
    "Verif.Laplace.C54_outer_dc_flags_violated",
    "Verif.Laplace.C54_outer_follows_inner_violated",
    "Verif.Laplace.C54_outer_value",
    "Verif.Laplace.C54_outer_zero_gradient",
    "Verif.Laplace.C54_outer_gradient",
    "Verif.Laplace.C54_outer_decay",
    "Verif.Laplace.C54_dirichlet",
    "Verif.Laplace.C54_delp2_solve",
    "Verif.Laplace.C54_periodic_waves",
    "Verif.Laplace.C54_periodic_mean",
    "Verif.Laplace.C54_periodic_mean_equation",
    "Verif.Laplace.C54_periodic_helmholtz_violated",
    "Verif.Laplace.C54_delp2",
    "Verif.Laplace.C54_solve_interior",
    "Verif.Laplace.C54_helmholtz_wide_succeeds"
   ],
   "note": "proved for every processor count and message order: Delp2, the interior equation, both boundaries, Delp2 after solve, periodic X, existence for Helmholtz problems with any number of boundary cells. Violated in the code: three outer flags for the mean, prescribed outer gradient on several processors, periodic X with non-zero A. Not covered: DST branch, IncIntShear, 3D metrics, the other Laplacian implementations, outer gradient flags on several processors."
  },
  {
   "property": "C55",
   "status": "partial",
   "theorems": [
    "Verif.Par.C55_div_succeeds",
    "Verif.Par.C55_par_succeeds",
    "Verif.Par.C55_par_sawtooth",
    "Verif.Par.C55_par",
    "Verif.Par.C55_div",
    "Verif.Par.C55_div_twist",
    "Verif.Par.C55_targets",
    "Verif.Par.C55_rows_cover"
   ],
   "note": "proved on one flux surface for every processor count, message order, twist and guard width: interior equation of both solvers, targets, coverage, existence. Not covered: transforms to and from field-aligned coordinates around the solve (C53), the shortest wave of an even nz with the mixed derivative or with twist, 3D metrics, rounding."
  },
  {
   "property": "C56",
   "status": "partial",
   "theorems": [
    "Verif.Num.C56_grad_parP_defined",
    "Verif.Num.C56_grad_parP_domain_partial",
    "Verif.Num.C56_grad_parP_violated",
    "Verif.Num.C56_grad_parP_affine",
    "Verif.Num.C56_div_par_K_const_violated",
    "Verif.Num.C56_grad_par",
    "Verif.Num.C56_div_par",
    "Verif.Num.C56_grad2_par2",
    "Verif.Num.C56_div_par_K_grad_par",
    "Verif.Num.C56_div_par_K_const_partial",
    "Verif.Num.C56_laplace_par",
    "Verif.Num.C56_laplace_perp",
    "Verif.Num.C56_b0xgrad",
    "Verif.Num.C56_b0xgrad_overloads",
    "Verif.Num.C56_b0xgrad_antisymm",
    "Verif.Num.C56_ddz_vector",
    "Verif.Num.C56_ddz_vector2d_violated",
    "Verif.Num.C56_div_par_conserves",
    "Verif.Num.C56_div_par_uniform"
   ],
   "note": "Proved for exact derivatives (smooth fields and metrics are a proved instance) and for every metric: Grad_par, Vpar_Grad_par, Div_par, Grad2_par2, Laplace_par, Laplace_perp, Div_par_K_Grad_par with a field coefficient, b0xGrad_dot_Grad in all overloads, DDZ of a Vector3D, conservation of the face-flux Div_par, exactness of Grad_parP on affine fields. Violated and shown: Div_par_K_Grad_par with a constant coefficient, DDZ(Vector2D), Grad_parP with one x guard cell. Not modelled: truncation error of the discrete stencils (C30), upwind schemes, Div_par_flux, staggered locations."
  },
  {
   "property": "C57",
   "status": "partial",
   "theorems": [
    "Verif.Num.SI.C57_derivatives",
    "Verif.Num.SI.C57_delp2",
    "Verif.Num.SI.C57_parallel",
    "Verif.Num.SI.C57_div_par_grad_par",
    "Verif.Num.SI.C57_bracket",
    "Verif.Num.SI.C57_bracket_2d",
    "Verif.Num.SI.C57_b0xgrad_partial",
    "Verif.Num.SI.C57_b0xgrad_intshear_violated",
    "Verif.Num.SI.C57_index",
    "Verif.Num.SI.C57_index_objects",
    "Verif.Num.SI.C57_coords_current",
    "Verif.Num.SI.C57_coords_shared",
    "Verif.Num.SI.C57_coords_stale_violated"
   ],
   "note": "All operators equal the field operators at interior points (C57_derivatives, C57_delp2, C57_parallel, C57_div_par_grad_par, C57_bracket, C57_bracket_2d); b0xGrad without integrated shear only (C57_b0xgrad_partial; refuted with it). Current coordinates after clear (C57_coords_current); stale without (C57_coords_stale_violated). 3D metrics not modelled."
  },
  {
   "property": "C58",
   "status": "partial",
   "theorems": [
    "Verif.Laplace.C58_cyclic_tridag",
    "Verif.Laplace.C58_cyclic_tridag_succeeds",
    "Verif.Laplace.C58_serial_periodic_mean_violated",
    "Verif.Spt.C58_spt_succeeds",
    "Verif.Spt.C58_spt_solves_joined",
    "Verif.Spt.C58_spt_solves",
    "Verif.Spt.C58_spt_guard_violated",
    "Verif.Spt.C58_spt_finishes",
    "Verif.Laplace.C58_widths_agree",
    "Verif.Laplace.C58_widths",
    "Verif.Laplace.C58_kx_zero",
    "Verif.Spt.C58_spt_no_deadlock",
    "Verif.Spt.C58_spt_messages_match",
    "Verif.Spt.C58_spt_position",
    "Verif.Laplace.C58_guards_agree",
    "Verif.Laplace.C58_one_guard_violated",
    "Verif.Laplace.C58_spt_helmholtz_succeeds",
    "Verif.Laplace.C58_solvers_agree"
   ],
   "note": "Proved: the pipelined solver returns a solution of the joined system for any number of processors and any old work arrays (C58_spt_solves, needs both neighbours to hold the same guard rows, shown sufficient with two guard cells and violated with one), finishes after 2P-2 calls, succeeds on dominant problems, agrees with LaplaceCyclic and LaplaceSerialTri (C58_solvers_agree); the C54 theorems hold for all three solvers; messages match and no schedule deadlocks; cyclic_tridag solves the periodic system and succeeds on dominant ones. Missing: LAPACK zgtsv is a specification, rounding, the discrete sine transform branch, the low-memory and Field3D loops except as schedules."
  },
  {
   "property": "C59",
   "status": "partial",
   "theorems": [
    "Verif.AB.C59_order_above_eight_violated",
    "Verif.AB.C59_run",
    "Verif.AB.C59_terminates",
    "Verif.AB.C59_exact",
    "Verif.AB.C59_exact_solution",
    "Verif.AB.C59_weights",
    "Verif.AB.C59_limit_ok"
   ],
   "note": "All clauses proved for requested orders up to 8 (C59_weights, C59_run, C59_terminates, C59_exact, C59_exact_solution, C59_limit_ok). For every order above 8 and every history of times the weights do not even add up to the step: C59_order_above_eight_violated. Exact arithmetic; the vectors of all processors are one vector."
  },
  {
   "property": "C60",
   "status": "partial",
   "theorems": [
    "Verif.SplitRK.C60_fixed_partial",
    "Verif.SplitRK.C60_adapt_period_violated",
    "Verif.SplitRK.C60_fixed_step_rounding_violated",
    "Verif.SplitRK.C60_time_dependent_violated",
    "Verif.SplitRK.C60_rkl_linear",
    "Verif.SplitRK.C60_rkl_order",
    "Verif.SplitRK.C60_rkl_step",
    "Verif.SplitRK.C60_run",
    "Verif.SplitRK.C60_adaptive_ends",
    "Verif.SplitRK.C60_rkl_mode",
    "Verif.SplitRK.C60_rkl_stable",
    "Verif.SplitRK.C60_advection",
    "Verif.SplitRK.C60_strang"
   ],
   "note": "Order, stability, splitting, output times, acceptance and termination proved (C60_rkl_linear, C60_rkl_order, C60_rkl_step, C60_rkl_mode, C60_rkl_stable, C60_advection, C60_strang, C60_run, C60_adaptive_ends, C60_fixed_partial). 'Each over exactly the interval by which the time advances' holds for adapt_period = 1 and for fixed steps in exact arithmetic; the code violates it otherwise (C60_adapt_period_violated, C60_fixed_step_rounding_violated), and the order claim for time-dependent diffusive right-hand sides (C60_time_dependent_violated). Order for the split step is proved for linear operators."
  },
  {
   "property": "C61",
   "status": "partial",
   "theorems": [
    "Verif.Imex.C61_weights",
    "Verif.Imex.C61_weights_unique",
    "Verif.Imex.C61_run_partial",
    "Verif.Imex.C61_exact",
    "Verif.Imex.C61_ends",
    "Verif.Imex.C61_order_one_violated",
    "Verif.Imex.C61_stale_coefficients_violated",
    "Verif.Imex.C61_short_last_step_violated"
   ],
   "note": "Weights, exactness, history and output times proved for every legal option set (maximal order 2-4, predictor legal, and fixed steps, nadapt = 1, or dtMin <= dtMinFatal, which includes the defaults). Outside: violated by the code (C61_order_one_violated, C61_stale_coefficients_violated). 'Errors only with reason' violated by C61_short_last_step_violated. The nonlinear solver is a parameter with the contract that a reported convergence solves the implicit equation; exact arithmetic."
  },
  {
   "property": "C62",
   "status": "partial",
   "theorems": [
    "Verif.Bndry.C62_total",
    "Verif.Bndry.C62_registered",
    "Verif.Bndry.C62_syntax_partial",
    "Verif.Bndry.C62_unambiguous",
    "Verif.Bndry.C62_priority",
    "Verif.Bndry.C62_priority_parallel",
    "Verif.Bndry.C62_own_section",
    "Verif.Bndry.C62_par_yup_violated",
    "Verif.Bndry.C62_add",
    "Verif.Bndry.C62_standard",
    "Verif.Bndry.C62_equals_violated",
    "Verif.Bndry.C62_keyword_dropped_violated",
    "Verif.Bndry.C62_parallel_modifier_violated",
    "Verif.Bndry.C62_malformed_violated",
    "Verif.Bndry.C62_side_options",
    "Verif.Bndry.C62_marked",
    "Verif.Bndry.C62_marked_violated"
   ],
   "note": "Proved for arguments without '=': with one, violated by the code (C62_equals_violated). Rejection of malformed text is violated (C62_malformed_violated). The constructors of the operations (which may refuse their arguments) are parameters."
  },
  {
   "property": "C63",
   "status": "partial",
   "theorems": [
    "Verif.Bndry.C63_apply_condition_partial",
    "Verif.Bndry.C63_apply_region_partial",
    "Verif.Bndry.C63_none_violated",
    "Verif.Bndry.C63_region_missing_violated",
    "Verif.Bndry.Mod.C63_width_restored",
    "Verif.Bndry.Mod.C63_apply_partial",
    "Verif.Bndry.Mod.C63_apply_time",
    "Verif.Bndry.Mod.C63_aligned_unchanged",
    "Verif.Bndry.Mod.C63_relax_ddt",
    "Verif.Bndry.Mod.C63_width_relax",
    "Verif.Bndry.Mod.C63_sequence",
    "Verif.Bndry.Mod.C63_initial",
    "Verif.Bndry.Mod.C63_aligned_relax",
    "Verif.Bndry.Mod.C63_relax_imposed_violated",
    "Verif.Bndry.Mod.C63_relax_time_violated",
    "Verif.Bndry.Mod.C63_aligned_ddt_violated",
    "Verif.Bndry.Mod.C63_flag_lost_violated",
    "Verif.Bndry.Own.C63_no_double_free",
    "Verif.Bndry.Own.C63_no_fault",
    "Verif.Bndry.Own.C63_no_leak_partial",
    "Verif.Bndry.Own.C63_copy_setBoundary_violated",
    "Verif.Bndry.Own.C63_outlive_violated",
    "Verif.Bndry.Own.C63_setBoundary_twice_violated"
   ],
   "note": "Proved: width restored for every nesting; values for nestings without relax, for Field2D, or at t = 0 (otherwise violated, C63_relax_time_violated); relax on the derivative with the inner condition at t = 0; no double free / use after free for programs that respect the stated rules (violated otherwise: C63_copy_setBoundary_violated, C63_outlive_violated); no leak without parallel boundaries; text conditions other than 'none'. Base conditions are parameters (C08 treats them). Corner zeroing of Field2D::applyBoundary not modelled."
  },
  {
   "property": "C64",
   "status": "partial",
   "theorems": [
    "Verif.Restart.C64_restart_point",
    "Verif.Restart.C64_torn_content",
    "Verif.Restart.C64_new_variable",
    "Verif.Restart.C64_chain_partial",
    "Verif.Restart.C64_check_passes",
    "Verif.Restart.C64_torn_restart_violated",
    "Verif.Restart.C64_truncated_violated",
    "Verif.Restart.C64_gap_violated",
    "Verif.Restart.C64_append_abort_violated",
    "Verif.Restart.C64_counter_violated",
    "Verif.Restart.C64_stale_variable_violated",
    "Verif.Restart.C64_restart_scalar_violated"
   ],
   "note": "C64_restart_point for every crash point outside a restart write (inside: violated, content given exactly by C64_torn_content). C64_chain_partial for crash points at which both files have the same number of outputs (otherwise violated by C64_gap_violated, C64_append_abort_violated) and memoryless integrators (multistep solvers restart at order one). Writes are assumed to reach the file in program order."
  },
  {
   "property": "C65",
   "status": "partial",
   "theorems": [
    "Verif.Deriv.C65_returns_iff",
    "Verif.Deriv.C65_staggered_fourth_violated",
    "Verif.Deriv.C65_fft_default_violated",
    "Verif.Deriv.C65_case_violated",
    "Verif.Deriv.C65_methods",
    "Verif.Deriv.C65_documented_default",
    "Verif.Deriv.C65_moves",
    "Verif.Deriv.C65_derivative_exact",
    "Verif.Deriv.C65_single_point",
    "Verif.Deriv.C65_advection_exact",
    "Verif.Deriv.C65_flux_exact",
    "Verif.Deriv.C65_split_exact",
    "Verif.Deriv.C65_slices_or_aligned",
    "Verif.Deriv.C65_nonuniform_second",
    "Verif.Deriv.C65_spacing_correction",
    "Verif.Deriv.C65_d1_dy_violated",
    "Verif.Deriv.C65_d2dz2_violated",
    "Verif.Deriv.C65_nonuniform_fourth_violated",
    "Verif.Deriv.C65_ddx_shear",
    "Verif.Deriv.C65_ddy_metric3d_violated",
    "Verif.Deriv.C65_mixed_locations",
    "Verif.Deriv.C65_ddz2d_location_violated",
    "Verif.Deriv.C65_lookup",
    "Verif.Deriv.C65_accepted_is_used",
    "Verif.Deriv.C65_register_accepted",
    "Verif.Deriv.C65_default_is_a_name",
    "Verif.Deriv.C65_default_from_options",
    "Verif.Deriv.C65_default_builtin",
    "Verif.Deriv.C65_force",
    "Verif.Deriv.C65_key_unique_violated"
   ],
   "note": "Violated: fourth derivatives (staggered, non-uniform), FFT defaults, case of names, XOR keys, DDZ(Field2D) location, DDY with 3D metrics. Exactness is on one line of the grid, exact arithmetic; the WENO/limited methods are exact to the degree given by exactDegree only; slices = aligned only for linear methods (nonlinear ones do not commute with the shift) and rows without sawtooth. The spacing corrections `d1_dx`, `d1_dy` of `Coordinates::geometry` are modelled (`C65_spacing_correction`); the claim fails for Y when the grid has no `d2y` (`C65_d1_dy_violated`) and for `D2DZ2` with a varying `dz` (`C65_d2dz2_violated`)."
  },
  {
   "property": "C66",
   "status": "partial",
   "theorems": [
    "Verif.Pcr.C66_messages",
    "Verif.Pcr.C66_exchanges",
    "Verif.Pcr.C66_pcr_solves",
    "Verif.Pcr.C66_thomas_solves_partial",
    "Verif.Pcr.C66_thomas_one_point_violated",
    "Verif.Pcr.C66_thomas_narrow_violated",
    "Verif.Laplace.C66_helmholtz_succeeds",
    "Verif.Laplace.C66_powers_of_two",
    "Verif.Laplace.C66_same_as_cyclic",
    "Verif.Laplace.C66_fieldperp_violated"
   ],
   "note": "Violated for FieldPerp (both solvers) and for pcr_thomas with one point per processor or fewer boundary rows than guard cells. Periodic X is not covered (unsupported, not refused). Freedom from division by zero is proved for Helmholtz-type problems with full-width boundaries, otherwise it is the hypothesis Pivots; a division by zero is modelled as a failure. Not DST; exact arithmetic; every processor has as many points (as BoutMesh makes them)."
  },
  {
   "property": "C67",
   "status": "partial",
   "theorems": [
    "Verif.Expr.Fac.C67_after_exception_violated",
    "Verif.Expr.Fac.C67_nested_violated",
    "Verif.Expr.Fac.C67_qualified_violated",
    "Verif.Expr.Fac.C67_default_section_violated",
    "Verif.Expr.Fac.C67_stale_violated",
    "Verif.Expr.Fac.C67_nearest",
    "Verif.Expr.Fac.C67_terminates",
    "Verif.Expr.Fac.C67_returns_meaning",
    "Verif.Expr.Fac.C67_one_meaning",
    "Verif.Expr.Fac.C67_history",
    "Verif.Expr.Fac.C67_finds_meaning",
    "Verif.Expr.Fac.C67_ready",
    "Verif.Expr.Fac.C67_circular"
   ],
   "note": "Proved for texts whose qualified names have at most one colon, on a factory that has not thrown (for acceptance) and given an explicit section; the five _violated theorems show each restriction is needed. For qualified names soundness allows inheritance (`inherited`), completeness needs the option in the section itself (`own`), see C67_qualified_violated. max_recursion_depth = 0 (the default): FieldIndirect is not modelled. One option tree. Generators as functions, FieldGenerator arities as in C14."
  },
  {
   "property": "C68",
   "status": "partial",
   "theorems": [
    "Verif.Coord.C68_x_centre",
    "Verif.Coord.C68_x_split",
    "Verif.Coord.C68_x_guards",
    "Verif.Coord.C68_x_overloads",
    "Verif.Coord.C68_x_walls",
    "Verif.Coord.C68_x_face",
    "Verif.Coord.C68_y_split",
    "Verif.Coord.C68_y_core",
    "Verif.Coord.C68_y_follows",
    "Verif.Coord.C68_y_guards",
    "Verif.Coord.C68_y_walls_partial",
    "Verif.Coord.C68_upper_target_violated",
    "Verif.Coord.C68_y_face_partial",
    "Verif.Coord.C68_upper_face_violated",
    "Verif.Coord.C68_y_overloads",
    "Verif.Coord.C68_y_half_partial",
    "Verif.Coord.C68_old_y",
    "Verif.Coord.C68_created_split",
    "Verif.Coord.C68_created_guards",
    "Verif.Coord.C68_perp_violated",
    "Verif.Coord.C68_vector",
    "Verif.Coord.C68_vector_y",
    "Verif.Coord.C68_ballooning_surface",
    "Verif.Coord.C68_ballooning_one_column_violated",
    "Verif.Coord.C68_ballooning_images",
    "Verif.Coord.C68_zlow_context",
    "Verif.Coord.C68_y_half_violated",
    "Verif.Coord.C68_old_open_violated"
   ],
   "note": "Violated at the upper targets of a double null, by createPerp, by ballooning with one column, and in the old convention without closed surfaces (the _violated theorems). Proved for layouts accepted by the Y decomposition checks (Grid = Layout of C19 plus the order established by setYDecompositionIndices). Guard agreement of created fields for CELL_CENTRE, CELL_XLOW, CELL_ZLOW. Exact arithmetic. transform_from_field_aligned not modelled here (C44/C47 model the transforms)."
  },
  {
   "property": "C69",
   "status": "proved",
   "theorems": [
    "Verif.GField.C69_gather",
    "Verif.GField.C69_one_owner",
    "Verif.GField.C69_gather_bounds",
    "Verif.GField.C69_messages",
    "Verif.GField.C69_scatter",
    "Verif.GField.C69_gather_scatter",
    "Verif.GField.C69_scatter_gather",
    "Verif.GField.C69_access",
    "Verif.GField.C69_guards_not_gathered"
   ],
   "note": "Proved for all decompositions, roots and arrival orders. MPI is assumed to deliver each message unchanged. Read from the source and not modelled: the result of scatter always has location CELL_CENTRE and standard directions, whatever the gathered field had."
  },
  {
   "property": "C70",
   "status": "partial",
   "theorems": [
    "Verif.Fci.C70_classified_partial",
    "Verif.Fci.C70_sides_partial",
    "Verif.Fci.C70_inner_violated",
    "Verif.Fci.C70_slices_complete_partial",
    "Verif.Fci.C70_second_slice_violated",
    "Verif.Fci.C70_dirichlet",
    "Verif.Fci.C70_dirichlet_half",
    "Verif.Fci.C70_neumann",
    "Verif.Fci.C70_dirichlet_o3",
    "Verif.Fci.C70_dirichlet_interp_violated",
    "Verif.Fci.C70_o3_order_violated",
    "Verif.Fci.C70_o3_complete_partial",
    "Verif.Fci.C70_end_of_line",
    "Verif.Fci.C70_off_line_violated",
    "Verif.Fci.C70_z_periodic",
    "Verif.Fci.C70_integrate_corners",
    "Verif.Fci.C70_integrate_constant",
    "Verif.Fci.C70_outer_corner_violated",
    "Verif.Fci.C70_corner_position_partial",
    "Verif.Fci.C70_corner_wrap_violated",
    "Verif.Fci.C70_boundary_values"
   ],
   "note": "Proved for one Y guard cell: regions, completeness of the slices for dirichlet and neumann (and dirichlet_O3 forward where the backward line is inside), the conditions, the end of the line for affine positions, integration. The code violates the rest: several slices, the inner side, the intersection, dirichlet_interp, O3 with two leaving lines, outer corners, corners across the end of Z (theorems _violated). The wrapping of zt_prime comes after the weights are computed and has no effect."
  },
  {
   "property": "C71",
   "status": "partial",
   "theorems": [
    "Verif.LapXZ.C71_succeeds",
    "Verif.LapXZ.C71_outer_set_violated",
    "Verif.LapXZ.C71_interior",
    "Verif.LapXZ.C71_inner",
    "Verif.LapXZ.C71_outer_partial"
   ],
   "note": "Proved: the equation at every interior point (C71_interior), the inner boundary (C71_inner), the outer one for zero values (C71_outer_partial), success for elliptic coefficients (C71_succeeds). Violated: a non-zero outer value (C71_outer_set_violated). Not modelled: the PETSc LaplaceXZ implementation; periodicX."
  },
  {
   "property": "C72",
   "status": "partial",
   "theorems": [
    "Verif.Naulin.C72_equation",
    "Verif.Naulin.C72_set_boundary",
    "Verif.Naulin.C72_effort",
    "Verif.Naulin.C72_ends",
    "Verif.Naulin.C72_converges",
    "Verif.Naulin.C72_axisymmetric",
    "Verif.Naulin.C72_rhs_boundary_violated"
   ],
   "note": "Proved: equation within tolerance (C72_equation), termination (C72_ends, C72_effort), convergence for contractions (C72_converges), single call for coefficients constant in Z (C72_axisymmetric), INVERT_SET boundary values (C72_set_boundary). Violated: INVERT_RHS (C72_rhs_boundary_violated). The FFT solver is a parameter with the contract proved in C54; the derivative in Z is a parameter (C53); NaN is modelled only for a zero right-hand side."
  },
  {
   "property": "C73",
   "status": "partial",
   "theorems": [
    "Verif.Timer.C73_total",
    "Verif.Timer.C73_time",
    "Verif.Timer.C73_time_unreset",
    "Verif.Timer.C73_runs",
    "Verif.Timer.C73_bounds",
    "Verif.Timer.C73_report",
    "Verif.Timer.C73_percent_violated",
    "Verif.Timer.C73_empty_report",
    "Verif.Timer.C73_cleanup_dangling"
   ],
   "note": "Proved: total time, time since reset, hits, absence of interference, bounds, order of the report. Violated: the percentage column (C73_percent_violated); undefined behaviour for an empty report and for cleanup while timers exist. Not modelled: column widths and number formatting, clock resolution, floating-point rounding."
  },
  {
   "property": "C74",
   "status": "partial",
   "theorems": [
    "Verif.Extrap.C74_frame",
    "Verif.Extrap.C74_succeeds",
    "Verif.Extrap.C74_continued",
    "Verif.Extrap.C74_staggered",
    "Verif.Extrap.C74_few_points",
    "Verif.Extrap.C74_point_count_partial",
    "Verif.Extrap.C74_y_count_violated",
    "Verif.Extrap.C74_refuse_violated",
    "Verif.Extrap.C74_corners"
   ],
   "note": "Proved: frame, corners, success, continuation and staggering exactness, few points. Missing: processors with fewer than three points of their own (continuation from exchanged guard cells), exX = false together with included corners. Violated: counting of points in Y, refusal of too small processors (out-of-bounds read)."
  },
  {
   "property": "C75",
   "status": "partial",
   "theorems": [
    "Verif.LapXY.C75_finite_difference_x",
    "Verif.LapXY.C75_corners",
    "Verif.LapXY.C75_guard_copies_y",
    "Verif.LapXY.C75_conservation",
    "Verif.LapXY.C75_symmetric",
    "Verif.LapXY.C75_conservation_violated",
    "Verif.LapXY.C75_guard_copies",
    "Verif.LapXY.C75_two_points_violated",
    "Verif.LapXY.C75_fd_limiter_violated",
    "Verif.LapXY.C75_slab",
    "Verif.LapXY.C75_numbering",
    "Verif.LapXY.C75_finite_volume",
    "Verif.LapXY.C75_finite_volume_x",
    "Verif.LapXY.C75_flux_form",
    "Verif.LapXY.C75_finite_difference",
    "Verif.LapXY.C75_inner_x",
    "Verif.LapXY.C75_outer_x",
    "Verif.LapXY.C75_y_boundary"
   ],
   "note": "Proved: numbering, interior rows of both forms, X and Y boundary rows, guard copies, flux form, conservation, symmetry, all slab decompositions. Missing: existence and uniqueness of the solution, corner rows of the finite difference form as a separate statement, Y boundaries of processors with fewer than three points. Violated: Y closed on fewer than three points, finite difference form on limiter grids, conservation with varying spacing."
  },
  {
   "property": "C76",
   "status": "partial",
   "theorems": [
    "Verif.Opt.C76_information",
    "Verif.Opt.C76_type_information",
    "Verif.Opt.C76_switches",
    "Verif.Opt.C76_every_command_line",
    "Verif.Opt.C76_command_line_values",
    "Verif.Opt.C76_files",
    "Verif.Opt.C76_options",
    "Verif.Opt.C76_long_datadir_violated",
    "Verif.Opt.C76_overwrite_violated",
    "Verif.Opt.C76_list_laplacexz_violated",
    "Verif.Opt.C76_empty_value_violated",
    "Verif.Opt.C76_value_like_switch_violated",
    "Verif.Opt.C76_equals_in_name_violated"
   ],
   "note": "Proved for all command lines: C76_information, C76_type_information, C76_switches, C76_every_command_line, C76_command_line_values, C76_files, C76_options. Partial because the code violates the claim for the long names (datadir=, settingsfile=), for empty values and for values that look like switches or contain '=' (witness theorems *_violated); C76_files states the conditions. Not modelled: colour filter, MPI/PETSc argument handling, the check of the data directory."
  },
  {
   "property": "C77",
   "status": "partial",
   "theorems": [
    "Verif.Fft.C77_every_history",
    "Verif.Fft.C77_memory",
    "Verif.Fft.C77_array_rfft",
    "Verif.Fft.C77_array_irfft",
    "Verif.Fft.C77_dst_one_point_violated",
    "Verif.Fft.C77_irfft_zero_length_violated",
    "Verif.Fft.C77_every_schedule_rfft",
    "Verif.Fft.C77_every_schedule_irfft",
    "Verif.Fft.C77_no_deadlock",
    "Verif.Fft.C77_terminates",
    "Verif.Fft.C77_threads_memory",
    "Verif.Fft.C77_two_lengths_violated",
    "Verif.Fft.C77_unsynchronised_check_violated",
    "Verif.Fft.C77_dst_threads_violated"
   ],
   "note": "Proved for all histories: C77_every_history, C77_memory, C77_array_rfft, C77_array_irfft; for all regions and schedules: C77_every_schedule_rfft, C77_every_schedule_irfft, C77_no_deadlock, C77_terminates, C77_threads_memory. Partial because the code violates the claim for one-point sine transforms, zero-length irfft, threads using different lengths, and DST called by several threads (witness theorems *_violated). Memory is sequentially consistent in the model; FFTW itself is represented by the transform its manual specifies; arithmetic is exact."
  },
  {
   "property": "C78",
   "status": "partial",
   "theorems": [
    "Verif.LapPetsc.C78_history",
    "Verif.LapPetsc.C78_layout",
    "Verif.LapPetsc.C78_initial_guess",
    "Verif.LapPetsc.C78_boundary_flags",
    "Verif.LapPetsc.C78_stencils",
    "Verif.LapPetsc.C78_boundary_stencils",
    "Verif.LapPetsc.C78_constructor",
    "Verif.LapPetsc.C78_preallocation",
    "Verif.LapPetsc.C78_global_flags_violated",
    "Verif.LapPetsc.C78_two_z_points_violated",
    "Verif.LapPetsc.C78_one_guard_cell_violated",
    "Verif.LapPetsc.C78_one_point_per_processor_violated",
    "Verif.LapPetsc.C78_fourth_order_boundary_violated",
    "Verif.LapPetsc.C78_preallocation_violated",
    "Verif.LapPetsc.C78_equation"
   ],
   "note": "C78_equation, C78_history, C78_layout, C78_initial_guess, C78_boundary_flags, C78_constructor, C78_stencils, C78_boundary_stencils and C78_preallocation prove the claim for every decomposition with enough points (Sized). It is false of the code for smaller sizes, one guard cell with C set, and global flags set later (the _violated theorems). Not modelled: the Krylov solver itself (its contract is a hypothesis), the user preconditioner, rounding."
  },
  {
   "property": "C79",
   "status": "partial",
   "theorems": [
    "Verif.Snes.C79_predictor",
    "Verif.Snes.C79_max_timestep",
    "Verif.Snes.C79_reset",
    "Verif.Snes.C79_reset_after_failure_violated",
    "Verif.Snes.C79_pseudo_transient_violated",
    "Verif.Snes.C79_no_limit_violated",
    "Verif.Snes.C79_no_iterations_violated",
    "Verif.Snes.C79_smaller_timestep_violated",
    "Verif.Snes.C79_max_timestep_violated",
    "Verif.Snes.C79_max_timestep_reset_violated",
    "Verif.Snes.C79_predictor_from_zero_violated",
    "Verif.Snes.C79_example",
    "Verif.Snes.C79_history",
    "Verif.Snes.C79_equation",
    "Verif.Snes.C79_output_times",
    "Verif.Snes.C79_outputs",
    "Verif.Snes.C79_steps",
    "Verif.Snes.C79_retry",
    "Verif.Snes.C79_step_size",
    "Verif.Snes.C79_gives_up",
    "Verif.Snes.C79_termination"
   ],
   "note": "Proved for every behaviour of SNES: C79_history (every event allowed by the specification), C79_equation, C79_output_times, C79_outputs, C79_steps, C79_retry, C79_step_size, C79_gives_up, C79_termination, C79_predictor, C79_max_timestep, C79_reset. The code violates parts of the claim, shown by the theorems with suffix _violated: double step if SNES makes no iterations, reset never reached after a failure, the same step repeated, max_timestep not applied to first and reset steps, predictor unused after a first step from time 0, pseudo_transient form, no end with dt_min_reset <= 0. Exact arithmetic; SNES itself, Jacobian colouring and preconditioner are not modelled."
  },
  {
   "property": "C80",
   "status": "partial",
   "theorems": [
    "Verif.Sundials.C80_vector_options",
    "Verif.Sundials.C80_constraint_codes",
    "Verif.Sundials.C80_ida_residual",
    "Verif.Sundials.C80_field_option_violated",
    "Verif.Sundials.C80_field_option",
    "Verif.Sundials.C80_vector_example",
    "Verif.Sundials.C80_field_option_example",
    "Verif.Sundials.C80_outputs",
    "Verif.Sundials.C80_timestep_monitors",
    "Verif.Sundials.C80_ends",
    "Verif.Sundials.C80_modes_agree",
    "Verif.Sundials.C80_completes",
    "Verif.Sundials.C80_negative_time_violated",
    "Verif.Sundials.C80_timestep_state_violated",
    "Verif.Sundials.C80_mxstep_violated",
    "Verif.Sundials.C80_example",
    "Verif.Sundials.C80_completes_example"
   ],
   "note": "Proved for every integrator behaviour: C80_outputs, C80_timestep_monitors, C80_ends, C80_completes, C80_modes_agree; C80_vector_options, C80_constraint_codes, C80_ida_residual, C80_field_option. The code violates parts of the claim, shown by theorems with suffix _violated: runs at negative times throw, timestep monitors see the wrong state, mxstep without effect in single-step mode, options read from a copy count as unused. Exact arithmetic; the SUNDIALS libraries, preconditioners and Jacobians are not modelled."
  },
  {
   "property": "C81",
   "status": "partial",
   "theorems": [
    "Verif.Lap3D.C81_solution_partial",
    "Verif.Lap3D.C81_hypre_same",
    "Verif.Lap3D.C81_hypre_matrix",
    "Verif.Lap3D.C81_guard_cells",
    "Verif.Lap3D.C81_example",
    "Verif.Lap3D.C81_stale_violated",
    "Verif.Lap3D.C81_flags_violated",
    "Verif.Lap3D.C81_one_z_point_violated"
   ],
   "note": "Proved for grids with three or more points in z and histories without setCoefC1(Field2D) and without a change of INVERT_AC_GRAD; those cases are refuted (C81_stale_violated, C81_flags_violated, C81_one_z_point_violated). Assumes numbering (C39) and that slices above and below are made from cells outside the plane. The Krylov solver is external."
  },
  {
   "property": "C82",
   "status": "partial",
   "theorems": [
    "Verif.Ipt.C82_example",
    "Verif.Ipt.C82_stale_violated",
    "Verif.Ipt.C82_one_processor_violated",
    "Verif.Ipt.C82_second_y_violated",
    "Verif.Ipt.C82_kx_zero_violated",
    "Verif.Ipt.C82_converged_partial",
    "Verif.Ipt.C82_exact",
    "Verif.Ipt.C82_ends",
    "Verif.Ipt.C82_fixed",
    "Verif.Ipt.C82_two"
   ],
   "note": "Returned results are converged for any history at one y index with unchanged coefficients (C82_converged_partial, C82_exact), calls end (C82_ends), two processors always converge (C82_two). Refuted: one processor, second y index, changed coefficients, INVERT_KX_ZERO. Not modelled: coarse grids (arbitrary corrections), convergence on more than two processors, rounding, transforms, message order."
  },
  {
   "property": "C83",
   "status": "partial",
   "theorems": [
    "Verif.SBand.C83_gradient",
    "Verif.SBand.C83_band",
    "Verif.SBand.C83_width",
    "Verif.SBand.C83_rows",
    "Verif.SBand.C83_solution_partial",
    "Verif.SBand.C83_fixed_value",
    "Verif.SBand.C83_edge_violated",
    "Verif.SBand.C83_set_violated",
    "Verif.SBand.C83_example",
    "Verif.SBand.C83_mixed_violated"
   ],
   "note": "Rows characterised exactly for every flag and metric (C83_rows); the documented equation holds where g13 = 0 and D = 1 and away from a single boundary cell (C83_solution_partial); fixed-value and gradient boundary rows proved (C83_fixed_value, C83_gradient). The mixed derivative, single boundary cells and INVERT_SET for DC are refuted. Zero-Laplacian and GRADPAR boundary rows are modelled but no claim is proved of them. zgbsv and the transforms are external."
  },
  {
   "property": "C84",
   "status": "partial",
   "theorems": [
    "Verif.MG.C84_galerkin",
    "Verif.MG.C84_cycle",
    "Verif.MG.C84_outer_set_violated",
    "Verif.MG.C84_serial_violated",
    "Verif.MG.C84_nonuniform_violated",
    "Verif.MG.C84_limit_violated",
    "Verif.MG.C84_solution_partial",
    "Verif.MG.C84_plain_partial",
    "Verif.MG.C84_ends"
   ],
   "note": "Proved for the GMRES outer solver (the default) on uniform grids and matching SET flags, for any Krylov scalars (C84_solution_partial); every call ends (C84_ends); Galerkin identity (C84_galerkin) and solutions as fixed points of the cycle (C84_cycle). Violated for the plain iteration, non-uniform grids, outer SET and single local levels. Not modelled: the Arnoldi scalars themselves, more than mergempi processors (Multigrid2DPf1D), OpenMP. C84_plain_partial: the plain iteration returns a solution within tolerance unless it has used all its cycles."
  },
  {
   "property": "C85",
   "status": "partial",
   "theorems": [
    "Verif.Opt.C85_alphabetical",
    "Verif.Opt.C85_did_you_mean_partial",
    "Verif.Opt.C85_expression_matches",
    "Verif.Opt.C85_order_violated",
    "Verif.Opt.C85_comparison_violated",
    "Verif.Opt.C85_find",
    "Verif.Opt.C85_distance_partial",
    "Verif.Opt.C85_unqualified_violated",
    "Verif.Opt.C85_limit_violated",
    "Verif.Opt.C85_suggestions",
    "Verif.Opt.C85_suggestion_lists"
   ],
   "note": "C85_find: order, soundness and completeness for every tree. The exact documented distance holds when the full name gives it or is beyond the limit (C85_distance_partial); the code violates it otherwise. C85_suggestions is exact. For function names the suggestion is an approximate match and exists exactly when one does (C85_did_you_mean_partial), but is the alphabetically first (C85_alphabetical), not the closest. Not modelled: the text of messages, std::tolower (arbitrary function)."
  },
  {
   "property": "C86",
   "status": "partial",
   "theorems": [
    "Verif.LibsComm.C86_comm_own",
    "Verif.LibsComm.C86_comm_given",
    "Verif.LibsComm.C86_finalize_violated",
    "Verif.LibsComm.C86_set_late_violated",
    "Verif.LibsComm.C86_set_self_violated",
    "Verif.Libs.C86_cleanup_partial",
    "Verif.Libs.C86_cleanup_violated",
    "Verif.Libs.C86_negative_violated",
    "Verif.Libs.C86_copy_violated",
    "Verif.Libs.C86_options_violated",
    "Verif.Libs.C86_slepc_violated",
    "Verif.Libs.C86_lifetime_partial",
    "Verif.Libs.C86_no_deadlock"
   ],
   "note": "C86_lifetime_partial, C86_no_deadlock: for the classes with a critical section, without cleanup, refused options and uncounted copies, where the code violates the claim. C86_cleanup_partial: for the end of the run. BoutComm: C86_comm_own, C86_comm_given. Not modelled: PETSc and SLEPc finalising each other, exceptions leaving OpenMP regions."
  },
  {
   "property": "C87",
   "status": "partial",
   "theorems": [
    "Verif.Rhs.C87_default_violated",
    "Verif.Rhs.C87_boundary_violated",
    "Verif.Rhs.C87_source_boundary_violated",
    "Verif.Rhs.C87_unset_violated",
    "Verif.Rhs.C87_status_violated",
    "Verif.Rhs.C87_error2_violated",
    "Verif.Rhs.C87_total_violated",
    "Verif.Rhs.C87_parts_sum",
    "Verif.Rhs.C87_default_partial",
    "Verif.Rhs.C87_source_once",
    "Verif.Rhs.C87_manufactured",
    "Verif.Rhs.C87_model_sees",
    "Verif.Rhs.C87_basis",
    "Verif.Rhs.C87_turn",
    "Verif.Rhs.C87_unset",
    "Verif.Rhs.C87_status_partial",
    "Verif.Rhs.C87_counters",
    "Verif.Rhs.C87_error_partial"
   ],
   "note": "C87_parts_sum (split models and models declared convective), C87_default_partial (default flag, no vectors or evolving boundaries), C87_source_once, C87_manufactured, C87_model_sees, C87_basis, C87_turn, C87_unset, C87_status_partial, C87_counters, C87_error_partial. Missing because the code violates it: post-processing in run_diffusive, status of the convective part, errors of 2D variables. Not modelled: cell locations and staggered vectors, exceptions thrown by the model."
  },
  {
   "property": "C88",
   "status": "partial",
   "theorems": [
    "Verif.Power.C88_sign_violated",
    "Verif.Power.C88_zero_violated",
    "Verif.Power.C88_vanish_violated",
    "Verif.Power.C88_complex_violated",
    "Verif.Power.C88_affine_violated",
    "Verif.Power.C88_norm",
    "Verif.Power.C88_iterates",
    "Verif.Power.C88_quit",
    "Verif.Power.C88_eigenvector",
    "Verif.Power.C88_converges",
    "Verif.Power.C88_monotone",
    "Verif.Power.C88_decomposition"
   ],
   "note": "C88_iterates, C88_converges (dominant eigenvalue up to sign), C88_eigenvector (absolute value), C88_monotone, C88_decomposition, C88_norm, C88_quit. The sign and complex pairs are lost by the code. Exact real arithmetic."
  },
  {
   "property": "C89",
   "status": "partial",
   "theorems": [
    "Verif.Slepc.C89_aliasing_violated",
    "Verif.Slepc.C89_euler_violated",
    "Verif.Slepc.C89_target_violated",
    "Verif.Slepc.C89_target_steps_violated",
    "Verif.Slepc.C89_aux_violated",
    "Verif.Slepc.C89_monitor_violated",
    "Verif.Slepc.C89_ddt_example",
    "Verif.Slepc.C89_advance_example",
    "Verif.Slepc.C89_monitor_example",
    "Verif.Slepc.C89_round_trip",
    "Verif.Slepc.C89_ddt",
    "Verif.Slepc.C89_advance_partial",
    "Verif.Slepc.C89_advance_complete",
    "Verif.Slepc.C89_euler_partial",
    "Verif.Slepc.C89_euler_limit",
    "Verif.Slepc.C89_compare",
    "Verif.Slepc.C89_steps",
    "Verif.Slepc.C89_target_partial",
    "Verif.Slepc.C89_records_partial",
    "Verif.Slepc.C89_monitor_partial"
   ],
   "note": "C89_round_trip, C89_ddt, C89_advance_partial (frequency up to 2 pi over the run time; exact if all are below pi), C89_advance_complete, C89_euler_partial, C89_euler_limit, C89_compare, C89_records_partial, C89_monitor_partial. SLEPc itself is any source of eigenpairs; exact arithmetic. C89_steps, C89_target_partial: steps per output and the default target."
  },
  {
   "property": "C90",
   "status": "partial",
   "theorems": [
    "Verif.Gyro.C90_flags_violated",
    "Verif.Gyro.C90_shared_violated",
    "Verif.Gyro.C90_location_violated",
    "Verif.Gyro.C90_modes_example",
    "Verif.Gyro.C90_violated_example",
    "Verif.Gyro.C90_metric_violated",
    "Verif.Gyro.C90_pade1_two_example",
    "Verif.Gyro.C90_history",
    "Verif.Gyro.C90_reset",
    "Verif.Gyro.C90_pade0_partial",
    "Verif.Gyro.C90_pade1_partial",
    "Verif.Gyro.C90_pade1_two",
    "Verif.Gyro.C90_pade2_partial",
    "Verif.Gyro.C90_exists",
    "Verif.Gyro.C90_contraction",
    "Verif.Gyro.C90_modes",
    "Verif.Gyro.C90_taylor"
   ],
   "note": "C90_pade0_partial, C90_pade1_partial, C90_pade2_partial (cell centres, no Ex, Ez, global flags), C90_pade1_two, C90_history, C90_reset, C90_exists, C90_contraction, C90_modes, C90_taylor. The inversion is any correct one (C01-C82 for the implementations)."
  },
  {
   "property": "C91",
   "status": "partial",
   "theorems": [
    "Verif.CAcc.C91_reuse_violated",
    "Verif.CAcc.C91_bounds_violated",
    "Verif.CAcc.C91_stale_violated",
    "Verif.CAcc.C91_dangling_violated",
    "Verif.CAcc.C91_snapshot_example",
    "Verif.CAcc.C91_clear_example",
    "Verif.CAcc.C91_layout",
    "Verif.CAcc.C91_snapshot",
    "Verif.CAcc.C91_current_partial",
    "Verif.CAcc.C91_clear",
    "Verif.CAcc.C91_modify"
   ],
   "note": "C91_layout, C91_snapshot (all histories without a clear of the object), C91_current_partial (object unchanged since), C91_clear."
  },
  {
   "property": "C92",
   "status": "partial",
   "theorems": [
    "Verif.Snb.C92_ratio_violated",
    "Verif.Snb.C92_coulomb_violated",
    "Verif.Snb.C92_tail_violated",
    "Verif.Snb.C92_conservation_example",
    "Verif.Snb.C92_mode_example",
    "Verif.Snb.C92_isothermal_example",
    "Verif.Snb.C92_weight",
    "Verif.Snb.C92_weights",
    "Verif.Snb.C92_groups_partial",
    "Verif.Snb.C92_conservation",
    "Verif.Snb.C92_mode",
    "Verif.Snb.C92_isothermal",
    "Verif.Snb.C92_conductivity",
    "Verif.Snb.C92_coulomb"
   ],
   "note": "C92_weight, C92_weights, C92_groups_partial (with the code's 0.25), C92_conservation, C92_mode, C92_isothermal, C92_conductivity, C92_coulomb. The parallel inversion is any correct one. Violated: C92_ratio_violated, C92_coulomb_violated, C92_tail_violated."
  },
  {
   "property": "C93",
   "status": "partial",
   "theorems": [
    "Verif.LapSlice.C93_cache_violated",
    "Verif.LapSlice.C93_guess_violated",
    "Verif.LapSlice.C93_deadlock_violated",
    "Verif.LapSlice.C93_slices_example",
    "Verif.LapSlice.C93_row_example",
    "Verif.LapSlice.C93_progress_example",
    "Verif.LapSlice.C93_slices_partial",
    "Verif.LapSlice.C93_extra",
    "Verif.LapSlice.C93_progress",
    "Verif.LapSlice.C93_program"
   ],
   "note": "C93_slices_partial (one mesh, no excluded rows), C93_extra, C93_progress (failures the same on a row), C93_program. Violated: C93_cache_violated, C93_guess_violated, C93_deadlock_violated."
  },
  {
   "property": "C94",
   "status": "partial",
   "theorems": [
    "Verif.PerpIndex.C94_small_violated",
    "Verif.PerpIndex.C94_default_violated",
    "Verif.PerpIndex.C94_meaning_example",
    "Verif.PerpIndex.C94_roundtrip_example",
    "Verif.PerpIndex.C94_roundtrip",
    "Verif.PerpIndex.C94_meaning_partial",
    "Verif.PerpIndex.C94_owner_partial",
    "Verif.PerpIndex.C94_default_partial"
   ],
   "note": "C94_roundtrip (no restriction), C94_meaning_partial and C94_owner_partial (MYSUB > 2 MYG), C94_default_partial (first row of processors). Violated: C94_small_violated, C94_default_violated."
  },
  {
   "property": "C95",
   "status": "partial",
   "theorems": [
    "Verif.SourceX.C95_overflow_violated",
    "Verif.SourceX.C95_source_violated",
    "Verif.SourceX.C95_mask_violated",
    "Verif.SourceX.C95_source_example",
    "Verif.SourceX.C95_gauss_example",
    "Verif.SourceX.C95_source_partial",
    "Verif.SourceX.C95_sinks_partial",
    "Verif.SourceX.C95_gauss_partial",
    "Verif.SourceX.C95_buff_partial"
   ],
   "note": "C95_source_partial, C95_sinks_partial, C95_gauss_partial, C95_buff_partial: where nothing overflows, exact arithmetic otherwise. Violated: C95_overflow_violated, C95_source_violated, C95_mask_violated."
  }
 ]
}