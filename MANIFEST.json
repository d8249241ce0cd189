{
 "claims": [
  {
   "property": "C01",
   "status": "proved",
   "theorems": [
    "SpaceHub.Chain.C01_index_is_permutation",
    "SpaceHub.Chain.C01_ub_below_two",
    "SpaceHub.Chain.C01_outcome_exists"
   ],
   "note": "Index is a permutation and the construction terminates for every N>=2, every distance order, every tie-breaking; N<2 is undefined behaviour. Exact comparison of distances (no NaN)."
  },
  {
   "property": "C02",
   "status": "proved",
   "theorems": [
    "SpaceHub.Chain.C02_cartesian_roundtrip",
    "SpaceHub.Chain.C02_chain_belongs"
   ],
   "note": "Exact arithmetic (any additive commutative group)."
  },
  {
   "property": "C03",
   "status": "proved",
   "theorems": [
    "SpaceHub.Chain.C03_chain_roundtrip",
    "SpaceHub.Chain.C03_cartesian_belongs"
   ],
   "note": "Exact arithmetic."
  },
  {
   "property": "C04",
   "status": "proved",
   "theorems": [
    "SpaceHub.Chain.C04_update_chain",
    "SpaceHub.Chain.C04_update_eq_rebuild"
   ],
   "note": "Exact arithmetic; compensated-number error fields not modelled."
  },
  {
   "property": "C05",
   "status": "partial",
   "theorems": [
    "SpaceHub.Chain.C05_not_greedy",
    "SpaceHub.Chain.C05_greedy_partial",
    "SpaceHub.Chain.C05_greedy_of_share_partial",
    "SpaceHub.Chain.C05_greedy_le_three_partial"
   ],
   "note": "The greedy claim is false of the code: `k = 1` followed by the loop's ++k skips dist[1] on every rescan (C05_not_greedy, particles at 0,1,4,6 give 3,0,1,2). Proved: closest pair adjacent; greedy except for the second-shortest pair; fully greedy when the two shortest pairs share a particle, or N<=3."
  },
  {
   "property": "C06",
   "status": "proved",
   "theorems": [
    "SpaceHub.Props.C06_newton_direct",
    "SpaceHub.Props.C06_newton_chain",
    "SpaceHub.Props.C06_newton_chain_single"
   ],
   "note": "Exact real arithmetic; distinct positions assumed implicitly (division by zero yields inf/NaN in C++)."
  },
  {
   "property": "C07",
   "status": "proved",
   "theorems": [
    "SpaceHub.Props.C07_newton_third_law",
    "SpaceHub.Props.C07_newton_third_law_chain"
   ],
   "note": "Exact real arithmetic; plain and chain evaluation."
  },
  {
   "property": "C08",
   "status": "proved",
   "theorems": [
    "SpaceHub.Props.C08_potential_energy"
   ],
   "note": "Exact real arithmetic."
  },
  {
   "property": "C09",
   "status": "proved",
   "theorems": [
    "SpaceHub.Props.C09_move_to_com",
    "SpaceHub.Props.C09_move_to_COM_frame",
    "SpaceHub.Props.C09_move_particles"
   ],
   "note": "Both implementations: calc::move_to_com on arrays and orbit::move_to_COM_frame/move_particles on containers."
  },
  {
   "property": "C10",
   "status": "partial",
   "theorems": [
    "SpaceHub.Props.C10_pn1",
    "SpaceHub.Props.C10_pn2p5",
    "SpaceHub.Props.C10_pn2_pair_partial",
    "SpaceHub.Props.C10_pn2_depends_on_labels"
   ],
   "note": "PN1 and PN2.5 proved for every N (each equals the literature two-body formula, chain = direct). PN2: the claim is false of the code (C10_pn2_depends_on_labels): Bj contains 5*v1s*nv2 where label exchange of Bi gives 5*v1s*nv1; C10_pn2_pair_partial gives the exact value the code computes for a pair."
  },
  {
   "property": "C11",
   "status": "proved",
   "theorems": [
    "SpaceHub.Props.C11_force_splitting",
    "SpaceHub.Props.C11_flags",
    "SpaceHub.Props.C11_forces_add"
   ],
   "note": "For every list of additive forces; the library's Newtonian, PN1, PN2.5 forces are shown additive."
  },
  {
   "property": "C12",
   "status": "proved",
   "theorems": [
    "SpaceHub.Props.C12_tidal",
    "SpaceHub.Props.C12_disk_capture",
    "SpaceHub.Props.C12_alpha_disk"
   ],
   "note": "Exact real arithmetic, non-zero masses."
  },
  {
   "property": "C13",
   "status": "proved",
   "theorems": [
    "SpaceHub.Sys.C13_simple_size",
    "SpaceHub.Sys.C13_simple_read_write",
    "SpaceHub.Sys.C13_simple_write_read",
    "SpaceHub.Sys.C13_simple_abort",
    "SpaceHub.Sys.C13_regu_size",
    "SpaceHub.Sys.C13_regu_read_write",
    "SpaceHub.Sys.C13_regu_write_read",
    "SpaceHub.Sys.C13_regu_abort",
    "SpaceHub.Sys.C13_chain_size",
    "SpaceHub.Sys.C13_archain_size",
    "SpaceHub.Sys.C13_chain_read_write",
    "SpaceHub.Sys.C13_archain_read_write",
    "SpaceHub.Sys.C13_chain_write_read",
    "SpaceHub.Sys.C13_archain_write_read",
    "SpaceHub.Sys.C13_chain_abort",
    "SpaceHub.Sys.C13_archain_abort"
   ],
   "note": "All four particle systems; wrong length aborts."
  },
  {
   "property": "C14",
   "status": "proved",
   "theorems": [
    "SpaceHub.Sys.C14_chain_coordinates_consistent",
    "SpaceHub.Sys.C14_archain_coordinates_consistent"
   ],
   "note": "Every finite history of calls, arbitrary forces, both chain systems. (The auxiliary chain is not kept across post_iter; it is reset by pre_iter.)"
  },
  {
   "property": "C15",
   "status": "proved",
   "theorems": [
    "SpaceHub.Sys.C15_simple",
    "SpaceHub.Sys.C15_regularized",
    "SpaceHub.Sys.C15_chain",
    "SpaceHub.Sys.C15_archain",
    "SpaceHub.Sys.C15_library_forces"
   ],
   "note": "Exact arithmetic; all four systems, every history of steps with any drift/kick sequences, arbitrary masses. Chain systems via C53."
  },
  {
   "property": "C16",
   "status": "proved",
   "theorems": [
    "SpaceHub.Sys.C16_simple",
    "SpaceHub.Sys.C16_regularized",
    "SpaceHub.Sys.C16_chain",
    "SpaceHub.Sys.C16_archain",
    "SpaceHub.Sys.C16_library_forces"
   ],
   "note": "Exact arithmetic; all four systems. Newtonian and tidal forces are shown torque free."
  },
  {
   "property": "C17",
   "status": "proved",
   "theorems": [
    "SpaceHub.Sys.C17_simple_time",
    "SpaceHub.Sys.C17_chain_time",
    "SpaceHub.Sys.C17_exact_integrators",
    "SpaceHub.Sys.C17_high_order_integrators",
    "SpaceHub.Sys.C17_chain_integrators",
    "SpaceHub.Sys.C17_bulirsch_stoer_substeps"
   ],
   "note": "2nd/KDK/4th exactly; 6th/8th/10th up to 3e-16 (tabulated coefficients); Bulirsch-Stoer substeps exactly for every n>=1."
  },
  {
   "property": "C18",
   "status": "proved",
   "theorems": [
    "SpaceHub.Sys.C18_simple_undo",
    "SpaceHub.Sys.C18_regularized_undo",
    "SpaceHub.Sys.C18_simple",
    "SpaceHub.Sys.C18_regularized",
    "SpaceHub.Sys.C18_chain",
    "SpaceHub.Sys.C18_archain",
    "SpaceHub.Sys.C18_newtonian_gravity"
   ],
   "note": "Exact arithmetic, all four systems, all six integrators and Bulirsch-Stoer sub-steps; calls undone backwards also with velocity-dependent forces."
  },
  {
   "property": "C19",
   "status": "proved",
   "theorems": [
    "SpaceHub.Sys.C19_simple",
    "SpaceHub.Sys.C19_regularized",
    "SpaceHub.Sys.C19_chain",
    "SpaceHub.Sys.C19_archain",
    "SpaceHub.Sys.C19_increments_rebuild_state"
   ],
   "note": "Exact arithmetic; all four systems, arbitrary forces, any sequence of calls after clear_increment."
  },
  {
   "property": "C20",
   "status": "proved",
   "theorems": [
    "SpaceHub.Simu.C20_callbacks",
    "SpaceHub.Simu.C20_refusals"
   ],
   "note": "Every machine (system + iterator), any numbers of recording callbacks; also run() refusals. Callbacks that modify the particle system are in the model (Callback), the theorem is about recording ones."
  },
  {
   "property": "C21",
   "status": "proved",
   "theorems": [
    "SpaceHub.Simu.C21_const_step",
    "SpaceHub.Simu.C21_simple"
   ],
   "note": "Exact arithmetic; integrators whose drift coefficients sum to 1 exactly (2nd, KDK, 4th), no regularisation."
  },
  {
   "property": "C22",
   "status": "proved",
   "theorems": [
    "SpaceHub.Simu.C22_first_stop",
    "SpaceHub.Simu.C22_questions"
   ],
   "note": "Stop conditions as functions of step and state; stateful ones see C56."
  },
  {
   "property": "C23",
   "status": "partial",
   "theorems": [
    "SpaceHub.Simu.C23_end_time_reached",
    "SpaceHub.Simu.C23_never_returns",
    "SpaceHub.Simu.C23_runs_backwards"
   ],
   "note": "False of the code: with a constant positive step and the end time further back than a step the run never returns (C23_never_returns); with a longer step it evolves backwards in time (C23_runs_backwards). Proved: an end time already reached gives no steps (C23_end_time_reached)."
  },
  {
   "property": "C24",
   "status": "proved",
   "theorems": [
    "SpaceHub.Callbacks.C24_step_slice",
    "SpaceHub.Callbacks.C24_count",
    "SpaceHub.Callbacks.C24_reset"
   ],
   "note": "Interval 0 (modulo by zero) excluded, as in the statement."
  },
  {
   "property": "C25",
   "status": "proved",
   "theorems": [
    "SpaceHub.Callbacks.C25_fires_iff",
    "SpaceHub.Callbacks.C25_at_most",
    "SpaceHub.Callbacks.C25_one_per_slice",
    "SpaceHub.Callbacks.C25_catches_up"
   ],
   "note": "Exact arithmetic."
  },
  {
   "property": "C26",
   "status": "partial",
   "theorems": [
    "SpaceHub.Callbacks.C26_terminates",
    "SpaceHub.Callbacks.C26_firing",
    "SpaceHub.Callbacks.C26_hangs_on_short_window",
    "SpaceHub.Callbacks.C26_never_fires_on_short_window",
    "SpaceHub.Callbacks.C26_hangs_after_reset"
   ],
   "note": "Proved for windows longer than 1. False of the code for windows of length <= 1 (hangs / never fires) and after reset (start time not updated): C26_hangs_*, C26_never_fires_on_short_window."
  },
  {
   "property": "C27",
   "status": "proved",
   "theorems": [
    "SpaceHub.BS.C27_extrapolation",
    "SpaceHub.BS.C27_exact"
   ],
   "note": "Exact arithmetic."
  },
  {
   "property": "C28",
   "status": "partial",
   "theorems": [
    "SpaceHub.BS.C28_first_call",
    "SpaceHub.BS.C28_later_calls_partial",
    "SpaceHub.BS.C28_history_partial",
    "SpaceHub.BS.C28_simple_system",
    "SpaceHub.BS.C28_leaves_its_tables"
   ],
   "note": "False of the code: a first step accepted in the last column sets the target order to max_depth, and the next call reads and writes outside the tables (C28_leaves_its_tables). Proved for every arithmetic: the first call is safe, and all later calls are safe with target order in [1, max_depth-1] unless the first was accepted in the last column; the order is at least 2 once it was."
  },
  {
   "property": "C29",
   "status": "proved",
   "theorems": [
    "SpaceHub.BS.C29_simple",
    "SpaceHub.BS.C29_regularized",
    "SpaceHub.BS.C29_chain",
    "SpaceHub.BS.C29_archain",
    "SpaceHub.BS.C29_returns",
    "SpaceHub.BS.C29_returns_or_aborts"
   ],
   "note": "Four system kinds, both leapfrog variants; exact arithmetic. After 100 rejected attempts the call aborts; C29_returns_or_aborts covers termination."
  },
  {
   "property": "C30",
   "status": "partial",
   "theorems": [
    "SpaceHub.BS.C30_midpoint",
    "SpaceHub.BS.C30_time_advances_too_far",
    "SpaceHub.BS.C30_returns",
    "SpaceHub.BS.C30_autonomous_data_partial"
   ],
   "note": "False of the code: every sub-integration and the final update advance the caller's time, so it moves by at least three steps (C30_time_advances_too_far). Proved: the data returned, for derivatives that do not depend on time."
  },
  {
   "property": "C31",
   "status": "partial",
   "theorems": [
    "SpaceHub.Ctl.C31_limits",
    "SpaceHub.Ctl.C31_orders",
    "SpaceHub.Ctl.C31_zero_error",
    "SpaceHub.Ctl.C31_monotone",
    "SpaceHub.Ctl.C31_balance",
    "SpaceHub.Ctl.C31_balance_pair",
    "SpaceHub.Ctl.C31_set_limiter_no_effect"
   ],
   "note": "False of the code in one clause: set_limiter changes members that are read only in the constructor, so the limits never change (C31_set_limiter_no_effect). All other clauses proved in exact arithmetic; an order of 50 or more reads outside the tables (C31_orders)."
  },
  {
   "property": "C32",
   "status": "partial",
   "theorems": [
    "SpaceHub.Ctl.C32_simple_partial",
    "SpaceHub.Ctl.C32_regularized_partial",
    "SpaceHub.Ctl.C32_chain_partial",
    "SpaceHub.Ctl.C32_archain_partial",
    "SpaceHub.Ctl.C32_unconverged_result_accepted"
   ],
   "note": "False of the code: without convergence the call returns the result of 18 sub-steps although that of 20 was computed and did not agree (C32_unconverged_result_accepted). Proved for the four system kinds and every drift/kick integrator: in the converged case the finest result is returned; the exact outcome in the other case."
  },
  {
   "property": "C33",
   "status": "proved",
   "theorems": [
    "SpaceHub.Props.C33_simple",
    "SpaceHub.Props.C33_regularized",
    "SpaceHub.Props.C33_chain",
    "SpaceHub.Props.C33_archain",
    "SpaceHub.Props.C33_history"
   ],
   "note": "Exact arithmetic; all four system kinds, any fuel; the counter bound of 30 corrections and the meaning of convergence are in Attempt."
  },
  {
   "property": "C34",
   "status": "partial",
   "theorems": [
    "SpaceHub.Props.C34_exact_arithmetic",
    "SpaceHub.Props.C34_neumaier",
    "SpaceHub.Props.C34_klein",
    "SpaceHub.Props.C34_kahan_partial",
    "SpaceHub.Props.C34_kahan_loses",
    "SpaceHub.Props.C34_scaling_wrong",
    "SpaceHub.Props.C34_negation_wrong",
    "SpaceHub.Props.C34_klein_read_wrong"
   ],
   "note": "Binary floating point of every precision, unbounded exponent (no overflow), every rounding to nearest. Proved for all histories of += and -= for Neumaier and Klein; for Kahan only when each operand is smaller than the value it is added to - otherwise false of the code (C34_kahan_loses: 1 + B - B shows 0 and carries no error; this Neumaier shares it). Scaling (C34_scaling_wrong: (B+1)/B + 0 shows 2), negation (C34_negation_wrong) and reading a Klein number (C34_klein_read_wrong) do not keep the meaning."
  },
  {
   "property": "C35",
   "status": "partial",
   "theorems": [
    "SpaceHub.Props.C35_bracket",
    "SpaceHub.Props.C35_root",
    "SpaceHub.Props.C35_evaluates_inside",
    "SpaceHub.Props.C35_terminates",
    "SpaceHub.Props.C35_terminates_continuous",
    "SpaceHub.Props.C35_terminates_away",
    "SpaceHub.Props.C35_root_zero_never_ends",
    "SpaceHub.Props.C35_newton",
    "SpaceHub.Props.C35_sign"
   ],
   "note": "Exact arithmetic. Bracket, halving, evaluation points and returned point proved for every function with a sign change, and termination when the root is not 0. False of the code when the only root in the bracket is 0: the tolerance is relative to the midpoint and is never met (C35_root_zero_never_ends; in floating point it ends only after underflow)."
  },
  {
   "property": "C36",
   "status": "partial",
   "theorems": [
    "SpaceHub.Conc.C36_partial",
    "SpaceHub.Conc.C36_long_loops",
    "SpaceHub.Conc.C36_drops_the_remainder",
    "SpaceHub.Conc.C36_short_loops_do_nothing",
    "SpaceHub.Conc.C36_no_threads"
   ],
   "note": "Proved when the length is a multiple of the number of threads or leaves a remainder smaller than the share of one thread (e.g. always for at least threads^2 indices). False of the code otherwise: the last total % threads indices are handed to no thread (C36_drops_the_remainder); with fewer indices than threads nothing is processed (C36_short_loops_do_nothing); 0 threads is a division by zero."
  },
  {
   "property": "C37",
   "status": "partial",
   "theorems": [
    "SpaceHub.Conc.C37_in_order_at_most_once",
    "SpaceHub.Conc.C37_all_run",
    "SpaceHub.Conc.C37_capacity",
    "SpaceHub.Conc.C37_destructor_returns_partial",
    "SpaceHub.Conc.C37_destructor_hangs",
    "SpaceHub.Conc.C37_drops_accepted_tasks",
    "SpaceHub.Conc.C37_accepts_after_shutdown"
   ],
   "note": "Every number of workers and committers, capacity and schedule, sequentially consistent atomics. Proved: order, at most once, capacity, and that all accepted tasks are run as long as the pool is not destroyed. False of the code: the destructor can hang for ever (C37_destructor_hangs: stop_ is set without the mutex, lost wake-up), drops accepted tasks (C37_drops_accepted_tasks) and tasks can be accepted after it was entered (C37_accepts_after_shutdown)."
  },
  {
   "property": "C38",
   "status": "proved",
   "theorems": [
    "SpaceHub.Conc.C38_atomic",
    "SpaceHub.Conc.C38_whole_texts",
    "SpaceHub.Conc.C38_tuple_text",
    "SpaceHub.Conc.C38_calls_return",
    "SpaceHub.Conc.C38_chained_writes_interleave"
   ],
   "note": "Every number of threads and every schedule; one call is atomic. A line written with several << is several calls and can be torn (C38_chained_writes_interleave)."
  },
  {
   "property": "C39",
   "status": "partial",
   "theorems": [
    "SpaceHub.Props.C39_acts_as_list",
    "SpaceHub.Props.C39_ids_partial",
    "SpaceHub.Props.C39_resize_duplicates_ids"
   ],
   "note": "Every history, all four particle types: the containers act as a plain list of particles (proved). Ids: proved 0..number()-1 as long as no resize adds particles; false of the code otherwise, a growing resize gives the new particles the id 0 (C39_resize_duplicates_ids)."
  },
  {
   "property": "C40",
   "status": "proved",
   "theorems": [
    "SpaceHub.Props.C40_rows_match_header",
    "SpaceHub.Props.C40_header_names",
    "SpaceHub.Props.C40_file"
   ],
   "note": "Every formatting of numbers without commas and newlines, every rectangular state (reached by all histories: C39_acts_as_list); also the whole file of a fresh DefaultWriter."
  },
  {
   "property": "C41",
   "status": "proved",
   "theorems": [
    "SpaceHub.Props.C41_every_text_has_lines",
    "SpaceHub.Props.C41_last_definition_wins",
    "SpaceHub.Props.C41_undefined_key_aborts",
    "SpaceHub.Props.C41_missing_file_aborts",
    "SpaceHub.Props.C41_ignored_lines",
    "SpaceHub.Props.C41_whitespace",
    "SpaceHub.Props.C41_empty_value_uninitialised",
    "SpaceHub.Props.C41_line_without_divider_defines_itself"
   ],
   "note": "Every file content (ASCII). What the property leaves open is proved as well: a line without divider defines itself as key and value (C41_line_without_divider_defines_itself); a key with an empty value read as a number is an uninitialised variable (C41_empty_value_uninitialised)."
  },
  {
   "property": "C42",
   "status": "proved",
   "theorems": [
    "SpaceHub.Props.C42_rotation",
    "SpaceHub.Props.C42_rotation_axes",
    "SpaceHub.Props.C42_invariants"
   ],
   "note": "All orbits with positive mass and semi-latus rectum short of the asymptotes; exact real arithmetic."
  },
  {
   "property": "C43",
   "status": "partial",
   "theorems": [
    "SpaceHub.Props.C43_elements",
    "SpaceHub.Props.C43_shape",
    "SpaceHub.Props.C43_recovers",
    "SpaceHub.Props.C43_recovers_shape",
    "SpaceHub.Props.C43_overloads_agree",
    "SpaceHub.Props.C43_overload_parabola",
    "SpaceHub.Props.C43_single_elements"
   ],
   "note": "Proved for the overload returning the orbit, every state of non-zero angular momentum. False of the code: for a parabola the overload with output argument has its test inverted and divides by zero (C43_overload_parabola), and the argument of periapsis comes back turned by pi (C43_recovers, C70)."
  },
  {
   "property": "C44",
   "status": "partial",
   "theorems": [
    "SpaceHub.Props.C44_ellipse_from_eccentric",
    "SpaceHub.Props.C44_ellipse_from_true",
    "SpaceHub.Props.C44_hyperbola_from_eccentric",
    "SpaceHub.Props.C44_hyperbola_from_true",
    "SpaceHub.Props.C44_parabola",
    "SpaceHub.Props.C44_mean_ellipse",
    "SpaceHub.Props.C44_mean_hyperbola",
    "SpaceHub.Props.C44_mean_parabola",
    "SpaceHub.Props.C44_mean_unique",
    "SpaceHub.Props.C44_mean_out_of_range",
    "SpaceHub.Props.C44_negative_eccentricity"
   ],
   "note": "Proved: true <-> eccentric anomaly for every kind of orbit; mean -> eccentric for |M| up to pi (ellipse), e sinh pi - pi (hyperbola), pi + pi^3/3 (parabola). False of the code beyond these ranges, where it silently returns about -pi (C44_mean_out_of_range), and a negative eccentricity is accepted with a mean anomaly within the tolerance of 0 (C44_negative_eccentricity)."
  },
  {
   "property": "C45",
   "status": "partial",
   "theorems": [
    "SpaceHub.Props.C45_inverse",
    "SpaceHub.Props.C45_both",
    "SpaceHub.Props.C45_groups",
    "SpaceHub.Props.C45_groups_never_finite",
    "SpaceHub.Props.C45_groups_inverse"
   ],
   "note": "Proved for the scalar functions and the groups-with-radius overload. False of the code for two groups: tidal_factor(cluster1, cluster2) measures the distance from the first group to itself, so the value is never finite (C45_groups_never_finite)."
  },
  {
   "property": "C46",
   "status": "partial",
   "theorems": [
    "SpaceHub.Props.C46_truncated_normal",
    "SpaceHub.Props.C46_truncated_maxwellian",
    "SpaceHub.Props.C46_parameter",
    "SpaceHub.Props.C46_default_positive",
    "SpaceHub.Props.C46_default_hangs",
    "SpaceHub.Props.C46_set_boundary"
   ],
   "note": "Proved for explicit bounds. False of the code with defaults: the lower bound is the smallest positive number, not minus infinity, so no value <= 0 is ever accepted (C46_default_positive) and a generator that gives none hangs (C46_default_hangs)."
  },
  {
   "property": "C47",
   "status": "proved",
   "theorems": [
    "SpaceHub.Props.C47_nodes",
    "SpaceHub.Props.C47_tables",
    "SpaceHub.Props.C47_round_trip",
    "SpaceHub.Props.C47_round_trip_code",
    "SpaceHub.Props.C47_predict",
    "SpaceHub.Props.C47_first_predict",
    "SpaceHub.Props.C47_corrector",
    "SpaceHub.Props.C47_collocation",
    "SpaceHub.Props.C47_evaluate",
    "SpaceHub.Props.C47_order"
   ],
   "note": "Exact arithmetic. Tables agree with the exact ones up to the stated rounding; corrector, collocation, evaluation and order for the exact tables; the first prediction adds the whole of b (C47_first_predict)."
  },
  {
   "property": "C48",
   "status": "proved",
   "theorems": [
    "SpaceHub.Sys.C48_position_update",
    "SpaceHub.Sys.C48_velocity_update",
    "SpaceHub.Sys.C48_extra_work",
    "SpaceHub.Sys.C48_binding_energy_constant",
    "SpaceHub.Sys.C48_ttl_omega",
    "SpaceHub.Sys.C48_ttl_equals_logH",
    "SpaceHub.Sys.C48_archain"
   ],
   "note": "Exact arithmetic. The derivative-based evaluation (evaluate_general_derivative) is not covered: there d(bindE)/dt uses the total acceleration including the Newtonian part."
  },
  {
   "property": "C49",
   "status": "proved",
   "theorems": [
    "SpaceHub.Props.C49_inner_energy_galilei",
    "SpaceHub.Props.C49_inner_energy_is_com_frame_energy",
    "SpaceHub.Props.C49_newton_galilei"
   ],
   "note": "Exact real arithmetic."
  },
  {
   "property": "C50",
   "status": "partial",
   "theorems": [
    "SpaceHub.Callbacks.C50_header_once",
    "SpaceHub.Callbacks.C50_energy_reference",
    "SpaceHub.Callbacks.C50_second_simulation_wrong",
    "SpaceHub.Callbacks.C50_first_simulation"
   ],
   "note": "Header: proved. Energy reference: false of the code, the first energy is kept in a function-local static shared by all simulations of the process (C50_second_simulation_wrong); proved for the first simulation."
  },
  {
   "property": "C51",
   "status": "proved",
   "theorems": [
    "SpaceHub.Props.C51_static_drag",
    "SpaceHub.Props.C51_disk_gas_is_keplerian",
    "SpaceHub.Props.C51_disk_capture",
    "SpaceHub.Props.C51_disk_capture_opposes",
    "SpaceHub.Props.C51_alpha_disk",
    "SpaceHub.Props.C51_friction_factor_nonneg",
    "SpaceHub.Props.C51_alpha_disk_opposes",
    "SpaceHub.Props.C51_alpha_disk_opposes_always"
   ],
   "note": "Static drag completely; disk capture star completely. AlphaDisk: the friction opposes the relative velocity for every Mach number (C51_alpha_disk)."
  },
  {
   "property": "C52",
   "status": "proved",
   "theorems": [
    "SpaceHub.Props.C52_isolated_angular_momentum",
    "SpaceHub.Props.C52_total_angular_momentum",
    "SpaceHub.Props.C52_cluster_size"
   ],
   "note": "Exact real arithmetic."
  },
  {
   "property": "C53",
   "status": "proved",
   "theorems": [
    "SpaceHub.Sys.C53_chain_evolves_like_plain",
    "SpaceHub.Sys.C53_archain_evolves_like_regularized",
    "SpaceHub.Sys.C53_library_forces"
   ],
   "note": "Exact arithmetic. PN2 excluded: its plain and chain values differ (C10)."
  },
  {
   "property": "C54",
   "status": "partial",
   "theorems": [
    "SpaceHub.Sys.C54_leapfrog_dkd",
    "SpaceHub.Sys.C54_leapfrog_kdk",
    "SpaceHub.Sys.C54_4th",
    "SpaceHub.Sys.C54_6th",
    "SpaceHub.Sys.C54_8th",
    "SpaceHub.Sys.C54_10th_is_4th_order",
    "SpaceHub.Sys.C54_not_10th",
    "SpaceHub.Sys.C54_10th_not_6th",
    "SpaceHub.Sys.C54_leapfrog_not_4th"
   ],
   "note": "Proved for 2nd (DKD, KDK), 4th, 6th, 8th. False of the code for Symplectic10th (C54_not_10th, C54_10th_not_6th): its tabulated coefficients only give a 4th-order scheme (C54_10th_is_4th_order)."
  },
  {
   "property": "C55",
   "status": "proved",
   "theorems": [
    "SpaceHub.Simu.C55_default_step"
   ],
   "note": "Exact arithmetic; no overflow of a double."
  },
  {
   "property": "C56",
   "status": "partial",
   "theorems": [
    "SpaceHub.Callbacks.C56_step_slice_never_advances",
    "SpaceHub.Callbacks.C56_members_lost"
   ],
   "note": "False of the code: check_stops copies the condition for each check (C56_members_lost), so e.g. a StepSlice used as stop condition never advances (C56_step_slice_never_advances)."
  },
  {
   "property": "C57",
   "status": "proved",
   "theorems": [
    "SpaceHub.Callbacks.C57_sticky_collision"
   ],
   "note": "The call operator is private in the class, so this is about its body."
  },
  {
   "property": "C58",
   "status": "proved",
   "theorems": [
    "SpaceHub.Sys.C58_chain",
    "SpaceHub.Sys.C58_archain",
    "SpaceHub.BS.C58_simple",
    "SpaceHub.BS.C58_regularized"
   ],
   "note": "Exact arithmetic."
  },
  {
   "property": "C59",
   "status": "proved",
   "theorems": [
    "SpaceHub.Ctl.C59_worst_offender",
    "SpaceHub.Ctl.C59_worst_offender_diff",
    "SpaceHub.Ctl.C59_rms",
    "SpaceHub.Ctl.C59_rms_each",
    "SpaceHub.Ctl.C59_max_ratio",
    "SpaceHub.Props.C59_ias15_mask",
    "SpaceHub.Props.C59_ias15"
   ],
   "note": "Exact arithmetic on finite values; Fl models infinities and NaN."
  },
  {
   "property": "C60",
   "status": "partial",
   "theorems": [
    "SpaceHub.Ctl.C60_rms",
    "SpaceHub.Ctl.C60_worst_offender_ignores_nan",
    "SpaceHub.Ctl.C60_worst_offender_accepts_nan",
    "SpaceHub.Ctl.C60_max_ratio_accepts_nan",
    "SpaceHub.Props.C60_ias15_ignores_nan"
   ],
   "note": "Proved for RMS. False of the code for WorstOffender, MaxRatioError and the estimates of IAS15 (C60_ias15_ignores_nan): the maximum skips NaN, so a NaN result is accepted (C60_worst_offender_accepts_nan, C60_max_ratio_accepts_nan)."
  },
  {
   "property": "C61",
   "status": "partial",
   "theorems": [
    "SpaceHub.Props.C61_chain",
    "SpaceHub.Props.C61_archain_partial",
    "SpaceHub.Props.C61_archain_wrong_energy_rate",
    "SpaceHub.Props.C61_simple",
    "SpaceHub.Props.C61_regularized_partial",
    "SpaceHub.Props.C61_wrong_energy_rate"
   ],
   "note": "False of the code for LogH with extra forces: the rate of the binding energy uses the total acceleration instead of the extra one (C61_wrong_energy_rate), even if the extra force is 0. Proved for plain and chain systems and otherwise for regularised ones, plain or chain."
  },
  {
   "property": "C62",
   "status": "partial",
   "theorems": [
    "SpaceHub.Sys.C62_small_steps_partial",
    "SpaceHub.Sys.C62_forces_partial",
    "SpaceHub.Sys.C62_chain_forces_partial",
    "SpaceHub.Sys.C62_regularised_partial",
    "SpaceHub.Sys.C62_archain_partial",
    "SpaceHub.Props.C62_never_ends",
    "SpaceHub.Props.C62_only_by_rejection_partial",
    "SpaceHub.Props.C62_free_partial"
   ],
   "note": "False in exact arithmetic: with a derivative that jumps at the start of the step it rejects for ever (C62_never_ends). Proved: it ends unless ever shorter steps keep being rejected (C62_only_by_rejection_partial); free motion ends after one correction with the exact result; under gravity, for particles in different places (none at the origin without velocity and acceleration), all sufficiently short steps end after one correction (C62_small_steps_partial), and so do, from every state in which the forces are smooth, sufficiently short steps with any additional forces on plain, chain, regularised and AR-chain systems (C62_forces_partial, C62_chain_forces_partial, C62_regularised_partial, C62_archain_partial)."
  },
  {
   "property": "C63",
   "status": "proved",
   "theorems": [
    "SpaceHub.Props.C63_chain",
    "SpaceHub.Props.C63_chain_reordered",
    "SpaceHub.Props.C63_chain_clock",
    "SpaceHub.Props.C63_archain",
    "SpaceHub.Props.C63_archain_reordered",
    "SpaceHub.Props.C63_simple",
    "SpaceHub.Props.C63_clock",
    "SpaceHub.Props.C63_regularized"
   ],
   "note": "Exact arithmetic. Plain and regularised systems, any table of coefficients. Chain and AR-chain systems: any table of coefficients while the order of the chain is unchanged; across changes of the order, for tables that are exactly inverse to each other (the decimal tables of the code are so only to about 30 digits), the momentum exactly, and the uniform motion of the mass centre if every call after the first change made at least two corrections (the tables kept from the last call belong to the old order)."
  },
  {
   "property": "C64",
   "status": "partial",
   "theorems": [
    "SpaceHub.Conc.C64_lvalues_partial",
    "SpaceHub.Conc.C64_auto_partial",
    "SpaceHub.Conc.C64_rvalues_moved_from"
   ],
   "note": "Proved for lvalue arguments. False of the code for rvalues: std::forward inside the loop moves the argument into the first thread (C64_rvalues_moved_from)."
  },
  {
   "property": "C65",
   "status": "partial",
   "theorems": [
    "SpaceHub.Conc.C65_in_order_partial",
    "SpaceHub.Conc.C65_all_written_partial",
    "SpaceHub.Conc.C65_settles_partial",
    "SpaceHub.Conc.C65_uninitialised_stop_loses_records"
   ],
   "note": "Every number of producers and every schedule, provided the uninitialised memory of stop_ holds 0: the constructor starts the writer before it initialises stop_ (C65_uninitialised_stop_loses_records)."
  },
  {
   "property": "C66",
   "status": "partial",
   "theorems": [
    "SpaceHub.Conc.C66_in_order_partial",
    "SpaceHub.Conc.C66_records_partial",
    "SpaceHub.Conc.C66_false_at_the_end_partial",
    "SpaceHub.Conc.C66_settles_partial",
    "SpaceHub.Conc.C66_final_newline_gives_junk",
    "SpaceHub.Conc.C66_quick_loader_hangs"
   ],
   "note": "Every number of consumers, file and schedule, provided the constructor ends before the loader's first step. False of the code otherwise (C66_quick_loader_hangs), and a file that ends with a newline gives an extra junk record (C66_final_newline_gives_junk)."
  },
  {
   "property": "C67",
   "status": "partial",
   "theorems": [
    "SpaceHub.Props.C67_written_particle_not_readable",
    "SpaceHub.Props.C67_spaced_particle_readable_partial",
    "SpaceHub.Props.C67_written_order"
   ],
   "note": "False of the code: operator<< separates the fields by commas, operator>> expects white space, so reading back fails after the mass (C67_written_particle_not_readable). Proved: both use the same order of fields, and white-space separated fields are read correctly."
  },
  {
   "property": "C68",
   "status": "partial",
   "theorems": [
    "SpaceHub.Props.C68_arguments_in_order_partial",
    "SpaceHub.Props.C68_quoted_argument_split",
    "SpaceHub.Props.C68_empty_argument_skipped"
   ],
   "note": "Proved for arguments without white space that are not empty. False of the code otherwise: arguments are joined by blanks and split again (C68_quoted_argument_split, C68_empty_argument_skipped)."
  },
  {
   "property": "C69",
   "status": "partial",
   "theorems": [
    "SpaceHub.Props.C69_measures_running_time_partial",
    "SpaceHub.Props.C69_restart_loses_time"
   ],
   "note": "Proved in seconds (the documentation says milliseconds) as long as start is not called on a running timer; false of the code otherwise, the time between the two calls is lost (C69_restart_loses_time)."
  },
  {
   "property": "C70",
   "status": "partial",
   "theorems": [
    "SpaceHub.Props.C70_periapsis_reversed",
    "SpaceHub.Props.C70_inclined_eccentric_negated",
    "SpaceHub.Props.C70_planar_eccentric_turned",
    "SpaceHub.Props.C70_inclined_circular_quarter_turn",
    "SpaceHub.Props.C70_planar_circular"
   ],
   "note": "False of the code: orbit_to_coord adds pi to the argument of periapsis, coord_to_orbit does not subtract it. The theorems give exactly what comes back in each of the four cases (inclined/planar, eccentric/circular)."
  },
  {
   "property": "C71",
   "status": "proved",
   "theorems": [
    "SpaceHub.Props.C71_two_body",
    "SpaceHub.Props.C71_through_every_orbit"
   ],
   "note": "Every orbit and every motion by the law of areas (Kepler's second law); such motions exist through every point (C71_through_every_orbit)."
  },
  {
   "property": "C72",
   "status": "partial",
   "theorems": [
    "SpaceHub.Props.C72_groups_unsigned",
    "SpaceHub.Props.C72_parabola_remaining",
    "SpaceHub.Props.C72_hyperbola_remaining",
    "SpaceHub.Props.C72_ellipse_elapsed",
    "SpaceHub.Props.C72_overload_elapsed",
    "SpaceHub.Props.C72_none_undefined"
   ],
   "note": "Proved for parabolas and hyperbolas. False of the code for ellipses: the value is the time since periapsis (C72_ellipse_elapsed); the overload on kind, parameter and mean anomaly returns the time since periapsis for all kinds (C72_overload_elapsed); an orbit of type None is undefined behaviour."
  },
  {
   "property": "C73",
   "status": "proved",
   "theorems": [
    "SpaceHub.Props.C73_hyperbolic",
    "SpaceHub.Props.C73_hyperbolic_refuses",
    "SpaceHub.Props.C73_elliptic",
    "SpaceHub.Props.C73_elliptic_refuses",
    "SpaceHub.Props.C73_random_angles",
    "SpaceHub.Props.C73_random_anomaly"
   ],
   "note": "Exact real arithmetic; random generators are arbitrary streams."
  },
  {
   "property": "C74",
   "status": "proved",
   "theorems": [
    "SpaceHub.Props.C74_third_law",
    "SpaceHub.Props.C74_returns",
    "SpaceHub.Props.C74_least",
    "SpaceHub.Props.C74_motion_exists"
   ],
   "note": "Exact real arithmetic."
  },
  {
   "property": "C75",
   "status": "proved",
   "theorems": [
    "SpaceHub.Props.C75_mass",
    "SpaceHub.Props.C75_centre",
    "SpaceHub.Props.C75_massless",
    "SpaceHub.Props.C75_several_particles",
    "SpaceHub.Props.C75_move",
    "SpaceHub.Props.C75_move_one",
    "SpaceHub.Props.C75_com_frame",
    "SpaceHub.Props.C75_relative_orbit",
    "SpaceHub.Props.C75_orbit",
    "SpaceHub.Props.C75_orbit_one"
   ],
   "note": "Exact real arithmetic; any number of groups and particles."
  },
  {
   "property": "C76",
   "status": "proved",
   "theorems": [
    "SpaceHub.Props.C76_energies",
    "SpaceHub.Props.C76_inner",
    "SpaceHub.Props.C76_inner_invariant",
    "SpaceHub.Props.C76_several_particles",
    "SpaceHub.Props.C76_size"
   ],
   "note": "Exact real arithmetic; any number of particles."
  },
  {
   "property": "C77",
   "status": "partial",
   "theorems": [
    "SpaceHub.Props.C77_b_max",
    "SpaceHub.Props.C77_b_max_tidal",
    "SpaceHub.Props.C77_critical_vel",
    "SpaceHub.Props.C77_incident_directions",
    "SpaceHub.Props.C77_incident_not_common"
   ],
   "note": "b_max, critical_vel and the geometry of one incident orbit proved. False of the code: incident orbits of different impact parameter do not come from one common direction (C77_incident_not_common)."
  },
  {
   "property": "C78",
   "status": "partial",
   "theorems": [
    "SpaceHub.Props.C78_logarithm",
    "SpaceHub.Props.C78_power_law",
    "SpaceHub.Props.C78_power_law_minus_one",
    "SpaceHub.Props.C78_power_law_steep",
    "SpaceHub.Props.C78_normal2"
   ],
   "note": "Proved for power >= -1 and for the logarithmic and normal distributions. False of the code for power < -1: the limits are handed to the uniform distribution in descending order, which is undefined behaviour (C78_power_law_steep)."
  },
  {
   "property": "C79",
   "status": "partial",
   "theorems": [
    "SpaceHub.Props.C79_disk_profiles",
    "SpaceHub.Props.C79_drag_inside",
    "SpaceHub.Props.C79_drag_reads_outside"
   ],
   "note": "False of the code: Mach numbers from 10^1.9999999999999979 to 100 read behind the table (C79_drag_reads_outside); inside proved for every Mach number."
  },
  {
   "property": "C80",
   "status": "partial",
   "theorems": [
    "SpaceHub.Props.C80_density_partial",
    "SpaceHub.Props.C80_height_partial",
    "SpaceHub.Props.C80_velocity_partial",
    "SpaceHub.Props.C80_drag_factor",
    "SpaceHub.Props.C80_density_jumps",
    "SpaceHub.Props.C80_density_not_interpolated"
   ],
   "note": "False of the code: the cell is computed as if the grid were uniform, so that the value is not the interpolation and the density jumps by more than 3% (C80_density_jumps, C80_density_not_interpolated); bounds of the profiles proved."
  },
  {
   "property": "C81",
   "status": "partial",
   "theorems": [
    "SpaceHub.Props.C81_drag",
    "SpaceHub.Props.C81_momentum",
    "SpaceHub.Props.C81_at_rest_nan",
    "SpaceHub.Props.C81_defined"
   ],
   "note": "False of the code for a particle at rest relative to the gas: NaN (C81_at_rest_nan). Direction, momentum and definedness proved for all others."
  },
  {
   "property": "C82",
   "status": "partial",
   "theorems": [
    "SpaceHub.Props.C82_most_bound",
    "SpaceHub.Props.C82_unbound_two_partial",
    "SpaceHub.Props.C82_unbound_only_last",
    "SpaceHub.Props.C82_bound_counts_as_unbound"
   ],
   "note": "check_most_bound proved. False of the code for check_unbound with more than two nodes: only the last node's potential counts (C82_unbound_only_last, C82_bound_counts_as_unbound)."
  },
  {
   "property": "C83",
   "status": "partial",
   "theorems": [
    "SpaceHub.Props.C83_timescale_factor",
    "SpaceHub.Props.C83_orbits"
   ],
   "note": "False of the code: an operator precedence error makes the value m1+m2 times the right one (C83_timescale_factor)."
  },
  {
   "property": "C84",
   "status": "proved",
   "theorems": [
    "SpaceHub.Props.C84_radii"
   ],
   "note": "Exact real arithmetic."
  },
  {
   "property": "C85",
   "status": "partial",
   "theorems": [
    "SpaceHub.Props.C85_make_name",
    "SpaceHub.Props.C85_auto_name_partial",
    "SpaceHub.Props.C85_alternating",
    "SpaceHub.Props.C85_repeated_time"
   ],
   "note": "Proved for one prefix and a clock that never goes back. False of the code if prefixes alternate within a second or the local time repeats (C85_alternating, C85_repeated_time)."
  },
  {
   "property": "C86",
   "status": "proved",
   "theorems": [
    "SpaceHub.Props.C86_tidal_energy",
    "SpaceHub.Props.C86_hard_radius"
   ],
   "note": "Exact real arithmetic."
  },
  {
   "property": "C87",
   "status": "partial",
   "theorems": [
    "SpaceHub.Props.C87_nonneg",
    "SpaceHub.Props.C87_formula",
    "SpaceHub.Props.C87_smooth",
    "SpaceHub.Props.C87_tenth"
   ],
   "note": "Sign, formulae, continuity and derivative proved for every other Mach number. False of the code at Mach number 0.1 exactly: the connecting cubic is evaluated far outside its window and the factor jumps to more than 200 times that of slower particles (C87_tenth); the tiny step of the leading term at 0.1 is bounded by C87_formula."
  },
  {
   "property": "C88",
   "status": "proved",
   "theorems": [
    "SpaceHub.Sys.C88_logH",
    "SpaceHub.Sys.C88_ttl",
    "SpaceHub.Sys.C88_archain",
    "SpaceHub.Sys.C88_covers",
    "SpaceHub.Sys.C88_unbound_needs_small_steps",
    "SpaceHub.Sys.C88_kick_first_not_exact"
   ],
   "note": "Bound pairs: every list of steps.  Unbound pairs: while the step scale at the end is positive, which a step too large can violate (C88_unbound_needs_small_steps).  The leapfrog starting with a velocity update is not exact (C88_kick_first_not_exact).  Exact real arithmetic, G = 1."
  },
  {
   "property": "C89",
   "status": "proved",
   "theorems": [
    "SpaceHub.Sys.C89_simple",
    "SpaceHub.Sys.C89_chain",
    "SpaceHub.Sys.C89_logH",
    "SpaceHub.Sys.C89_archain"
   ],
   "note": "Exact real arithmetic, gravity only, LogH (not TTL) for the regularised systems."
  },
  {
   "property": "C90",
   "status": "proved",
   "theorems": [
    "SpaceHub.Sys.C90_gradient",
    "SpaceHub.Sys.C90_energy"
   ],
   "note": "Exact real arithmetic, G = 1, no two particles in one place."
  },
  {
   "property": "C91",
   "status": "partial",
   "theorems": [
    "SpaceHub.Props.C91_ends",
    "SpaceHub.Props.C91_double",
    "SpaceHub.Props.C91_stagnates",
    "SpaceHub.Props.C91_zero_tolerance",
    "SpaceHub.Props.C91_passes_end",
    "SpaceHub.Props.C91_compensated",
    "SpaceHub.Props.C91_clock"
   ],
   "note": "False of the code: a step far below the spacing of numbers at the current time never advances the plain clock and the run never returns (C91_stagnates); with time_rtol 0 it can hang one unit before the end (C91_zero_tolerance), and rounding can carry it past the end by a unit (C91_passes_end). Proved: steps and tolerances above 1.6e-12 in double precision (C91_double; in general C91_ends), and the compensated clock for steps down to 16*2^(-2p) of the end time with the leap-frog (C91_compensated). C91_clock: without rounding this clock is that of the simulator model."
  },
  {
   "property": "C92",
   "status": "proved",
   "theorems": [
    "SpaceHub.Sys.C92_leapfrogs",
    "SpaceHub.Sys.C92_first_order",
    "SpaceHub.Sys.C92_coefficients",
    "SpaceHub.Sys.C92_converges",
    "SpaceHub.Sys.C92_run",
    "SpaceHub.Sys.C92_chain",
    "SpaceHub.Sys.C92_regularised",
    "SpaceHub.Sys.C92_regularised_reaches",
    "SpaceHub.Sys.C92_archain"
   ],
   "note": "Exact real arithmetic, G = 1, gravity only.  The coefficient sums of the sixth-, eighth- and tenth-order integrators are off 1 by up to 2.3e-16 (C92_coefficients), so their error has a floor of that order.  The full orders are in C93."
  },
  {
   "property": "C93",
   "status": "proved",
   "theorems": [
    "SpaceHub.Sys.C93_order",
    "SpaceHub.Sys.C93_conditions",
    "SpaceHub.Sys.C93_uniform",
    "SpaceHub.Sys.C93_fourth",
    "SpaceHub.Sys.C93_run",
    "SpaceHub.Sys.C93_chain",
    "SpaceHub.Sys.C93_regularised",
    "SpaceHub.Sys.C93_regularised_reaches",
    "SpaceHub.Sys.C93_archain"
   ],
   "note": "Exact real arithmetic, G = 1, gravity only.  Symplectic10th only with order 4, the most it has (C54).  The printed coefficients of the sixth-, eighth- and tenth-order integrators meet the order conditions only up to 1e-12 (C93_conditions), so their error has a floor of that size; the fourth-order integrator has no such floor (C93_fourth).  Regularised and ARchain systems: up to any time before the end of the true motion."
  },
  {
   "property": "C94",
   "status": "partial",
   "theorems": [
    "SpaceHub.Lazy.C94_assignment",
    "SpaceHub.Lazy.C94_update",
    "SpaceHub.Lazy.C94_elementwise",
    "SpaceHub.Lazy.C94_own_element",
    "SpaceHub.Lazy.C94_reversed_in_place",
    "SpaceHub.Lazy.C94_slice_index",
    "SpaceHub.Lazy.C94_slice_backwards",
    "SpaceHub.Lazy.C94_slice_ends",
    "SpaceHub.Lazy.C94_fill",
    "SpaceHub.Lazy.C94_stride_ignored",
    "SpaceHub.Lazy.C94_whole_is_one",
    "SpaceHub.Lazy.C94_extreme"
   ],
   "note": "Assignments proved for every expression that reads no overwritten element, in particular all elementwise ones; slices with stride 1 or -1 that do not run backwards over the beginning. False of the code otherwise: v = v / v.x divides only the first element (C94_own_element), reversing in place duplicates (C94_reversed_in_place), the length of a slice ignores the stride (C94_stride_ignored), slice(0, size) has one element (C94_whole_is_one) and backward slices wrap around 2^64 (C94_slice_backwards)."
  },
  {
   "property": "C95",
   "status": "proved",
   "theorems": [
    "SpaceHub.Sys.C95_chain",
    "SpaceHub.Sys.C95_archain",
    "SpaceHub.Sys.C95_order",
    "SpaceHub.Sys.C95_fourth",
    "SpaceHub.Sys.C95_logH"
   ],
   "note": "Exact real arithmetic, G = 1, gravity only.  Plain and chain systems, and regularised and AR-chain systems with the logarithmic Hamiltonian."
  },
  {
   "property": "C96",
   "status": "proved",
   "theorems": [
    "SpaceHub.Sys.C96_small_step",
    "SpaceHub.Sys.C96_no_collapse"
   ],
   "note": "Exact real arithmetic, G = 1, gravity only, plain systems.  A new iterator whose first step is not small may leave its rank outside the tables (C28), hence the condition on the first step."
  },
  {
   "property": "C97",
   "status": "proved",
   "theorems": [
    "SpaceHub.Sys.C97_chain",
    "SpaceHub.Sys.C97_archain"
   ],
   "note": "Exact arithmetic.  The error estimate is computed from the chain coordinates, so that the two systems need not accept the same steps."
  },
  {
   "property": "C98",
   "status": "proved",
   "theorems": [
    "SpaceHub.Sys.C98_order",
    "SpaceHub.Sys.C98_second",
    "SpaceHub.Sys.C98_runs"
   ],
   "note": "Exact real arithmetic (literals of the tables with all their digits), G = 1, gravity only, plain systems."
  },
  {
   "property": "C99",
   "status": "partial",
   "theorems": [
    "SpaceHub.BS.Par.C99_race_free",
    "SpaceHub.BS.Par.C99_phase_ends",
    "SpaceHub.BS.Par.C99_returns_partial",
    "SpaceHub.BS.Par.C99_own_closure_partial",
    "SpaceHub.BS.Par.C99_regularized_partial",
    "SpaceHub.BS.Par.C99_chain_partial",
    "SpaceHub.BS.Par.C99_regularized_chain_partial",
    "SpaceHub.BS.Par.C99_later_call_undefined",
    "SpaceHub.BS.Par.C99_second_object_stuck",
    "SpaceHub.BS.Par.C99_second_object_never_moves",
    "SpaceHub.BS.Par.C99_call_has_outcome",
    "SpaceHub.BS.Par.C99_after_the_first_call"
   ],
   "note": "False of the code: the closure integrate_with_stride is a static local variable that captures `this` and the local variable iter_h of the first call in the process, so every later call reads a dead variable (C99_later_call_undefined), and even if it lies at the same place a second iterator object fills the table of the first and never moves its system (C99_second_object_stuck, C99_second_object_never_moves). Proved: no data race and no endless schedule for any call (C99_race_free, C99_phase_ends); the calls whose closure is their own agree with the serial variant, failures included, under every schedule (C99_own_closure_partial for plain systems, C99_chain_partial for chain systems); for regularised and regularised chain systems such calls, if they return, return what the serial call returns, up to step_scale() (C99_regularized_partial, C99_regularized_chain_partial)."
  },
  {
   "property": "C100",
   "status": "proved",
   "theorems": [
    "SpaceHub.Sys.C100_order",
    "SpaceHub.Sys.C100_conditions",
    "SpaceHub.Sys.C100_uniform",
    "SpaceHub.Sys.C100_exact",
    "SpaceHub.Sys.C100_run",
    "SpaceHub.Sys.C100_chain",
    "SpaceHub.Sys.C100_library",
    "SpaceHub.Sys.C100_library_run"
   ],
   "note": "Exact real arithmetic with the coefficients of the code as exact decimals (hence the residual 1e-12). Plain and chain systems. The second-order post-Newtonian force, wrong in the code (C10), is covered by the general theorems only."
  },
  {
   "property": "C101",
   "status": "partial",
   "theorems": [
    "SpaceHub.Sys.C101_order",
    "SpaceHub.Sys.C101_chain",
    "SpaceHub.Sys.C101_library",
    "SpaceHub.Sys.C101_kdk_third_power"
   ],
   "note": "False of the code for LeapFrogKDK with velocity-dependent forces: a velocity update is then itself composed of three updates, so the two half updates between neighbouring sub-steps, which the iterator joins into one, are not the same as one; the error of the runs has odd powers of the sub-step length, which the extrapolation in even powers keeps. For the drag of the library every macro step is off by at least a constant times the third power of the step, however many runs it extrapolates from (C101_kdk_third_power). Proved: the order for LeapFrogDKD (as in all methods the library names), and for both leap-frogs if no force depends on the velocities, plain (C101_order, C101_library) and chain systems (C101_chain). Exact real arithmetic."
  },
  {
   "property": "C102",
   "status": "proved",
   "theorems": [
    "SpaceHub.BS.C102_simple",
    "SpaceHub.BS.C102_regularized",
    "SpaceHub.BS.C102_chain",
    "SpaceHub.BS.C102_archain",
    "SpaceHub.BS.C102_first_call",
    "SpaceHub.BS.C102_reject_rate",
    "SpaceHub.BS.C102_gives_up"
   ],
   "note": "Exact arithmetic. The iterator must have a target order inside its tables (see C28 for the first call that leaves it outside; such a call does not return in the model)."
  },
  {
   "property": "C103",
   "status": "proved",
   "theorems": [
    "SpaceHub.Sys.C103_regularised",
    "SpaceHub.Sys.C103_regularised_second",
    "SpaceHub.Sys.C103_archain",
    "SpaceHub.Sys.C103_archain_second",
    "SpaceHub.Sys.C103_regularised_library",
    "SpaceHub.Sys.C103_archain_library",
    "SpaceHub.Sys.C103_forced",
    "SpaceHub.Sys.C103_chain",
    "SpaceHub.Sys.C103_chain_second",
    "SpaceHub.Sys.C103_forced_second",
    "SpaceHub.Sys.C103_library",
    "SpaceHub.Sys.C103_regularised_runs",
    "SpaceHub.Sys.C103_regularised_reaches",
    "SpaceHub.Sys.C103_archain_runs",
    "SpaceHub.Sys.C103_archain_reaches",
    "SpaceHub.Sys.C103_forced_runs",
    "SpaceHub.Sys.C103_chain_runs"
   ],
   "note": "Exact real arithmetic (literals of the tables with all their digits). Plain and chain systems with any forces that agree with smooth accelerations; regularised and AR-chain systems too, with the logarithmic Hamiltonian only without additional forces (with them the code is wrong, see C61); the forces of the library in C103_library, C103_regularised_library and C103_archain_library. That calls with small steps return is proved for all four kinds of systems (_runs, _reaches); on plain and chain systems if no particle is ever at rest at the origin without acceleration."
  },
  {
   "property": "C104",
   "status": "proved",
   "theorems": [
    "SpaceHub.Sys.C104_regularised",
    "SpaceHub.Sys.C104_regularised_reaches",
    "SpaceHub.Sys.C104_archain",
    "SpaceHub.Sys.C104_exact",
    "SpaceHub.Sys.C104_library"
   ],
   "note": "Exact real arithmetic with the coefficients of the code as exact decimals. C104_exact, C104_library: the leap-frogs and the fourth-order integrator; the other integrators of the library by C104_regularised_reaches and C104_archain with the order conditions of C100_conditions (residual 1e-12). With the logarithmic Hamiltonian too: the splitting updates the binding energy with the work of the additional forces only, unlike the derivative that the Gauss-Radau integrator uses (C61)."
  },
  {
   "property": "C105",
   "status": "proved",
   "theorems": [
    "SpaceHub.Sys.C105_regularised",
    "SpaceHub.Sys.C105_archain",
    "SpaceHub.Sys.C105_library"
   ],
   "note": "Exact real arithmetic. LeapFrogDKD, the integrator of all Bulirsch-Stoer methods the library names; with LeapFrogKDK and velocity-dependent forces the claim is false (C101). C105_regularised, C105_archain for any forces that act as a smooth acceleration next to gravity, C105_library for post-Newtonian corrections, tides and drag. That calls which meet the conditions exist and return is C106."
  },
  {
   "property": "C106",
   "status": "proved",
   "theorems": [
    "SpaceHub.Sys.C106_regularised_reaches",
    "SpaceHub.Sys.C106_archain_reaches",
    "SpaceHub.Sys.C106_simple_reaches",
    "SpaceHub.Sys.C106_chain_reaches",
    "SpaceHub.Sys.C106_library",
    "SpaceHub.Sys.C106_regularised",
    "SpaceHub.Sys.C106_archain",
    "SpaceHub.Sys.C106_simple",
    "SpaceHub.Sys.C106_chain"
   ],
   "note": "Exact real arithmetic. Depths 3 to 24 (from 25 on the controller's tables are too short, see C31). C106_simple and C106_chain also for LeapFrogKDK if no force depends on the velocities; regularised and AR-chain systems with LeapFrogDKD. Whole simulations: the _reaches theorems and C106_library. How short is short enough depends on the motion and the absolute tolerance."
  },
  {
   "property": "C107",
   "status": "proved",
   "theorems": [
    "SpaceHub.SV.C107_history",
    "SpaceHub.SV.C107_undefined",
    "SpaceHub.SV.C107_memory",
    "SpaceHub.SV.C107_equal",
    "SpaceHub.SV.C107_pop_back_val",
    "SpaceHub.SV.C107_references"
   ],
   "note": "The memory-level model of small-vector.hpp: blocks, construction, destruction, moves. C107_history for all programs, C107_undefined says that only programs without a meaning are undefined behaviour. Element constructors that throw, allocation failure (the code aborts) and overflow of sizes are not modelled; arguments are values from outside (see C108 for elements of the container itself)."
  },
  {
   "property": "C108",
   "status": "partial",
   "theorems": [
    "SpaceHub.SV.C108_push_back",
    "SpaceHub.SV.C108_push_back_full",
    "SpaceHub.SV.C108_insert",
    "SpaceHub.SV.C108_insert_copies",
    "SpaceHub.SV.C108_assign",
    "SpaceHub.SV.C108_append_resize"
   ],
   "note": "False of the code: push_back, append and resize with an element of a full container read memory that was given back or an element that was destroyed, unless the elements are trivially copyable and in the inline buffer (C108_push_back, exactly when, C108_push_back_full, C108_append_resize); assign of an element that is not trivially copyable always does (C108_assign); insert(p, n, v[j]) with j at least n behind p inserts copies of what was v[j-n] (C108_insert_copies, trivially copyable elements). Proved: insert(p, v[j]) is right when there is room (C108_insert), push_back otherwise."
  },
  {
   "property": "C109",
   "status": "proved",
   "theorems": [
    "SpaceHub.SV.C109_push_back",
    "SpaceHub.SV.C109_reserved",
    "SpaceHub.SV.C109_reserve"
   ],
   "note": "Sizes below 2^63, as the model has no overflow. Allocations are counted by the number of blocks the memory ever handed out."
  },
  {
   "property": "C110",
   "status": "partial",
   "theorems": [
    "SpaceHub.Sys.C110_regularised_misled",
    "SpaceHub.Sys.C110_archain_misled",
    "SpaceHub.Sys.C110_unchanged",
    "SpaceHub.Sys.C110_regularised_wrong",
    "SpaceHub.Sys.C110_archain_wrong",
    "SpaceHub.Sys.C110_library_wrong"
   ],
   "note": "False of the code: because the rate of the binding energy is computed from the total acceleration (C61), the clock of a LogH system with additional forces runs at a constant rate, and IAS15 converges to the motion with the accelerations multiplied by the ratio of the initial to the present potential energy (C110_regularised_misled, C110_archain_misled), even when the additional forces do nothing. From every state in which the potential energy changes and a particle is accelerated the result stays away from the true motion however small the steps (C110_regularised_wrong, C110_archain_wrong, C110_library_wrong); it is right exactly as long as the potential energy does not change (C110_unchanged)."
  },
  {
   "property": "C111",
   "status": "partial",
   "theorems": [
    "SpaceHub.BS.C111_outcome",
    "SpaceHub.BS.C111_never_shortens",
    "SpaceHub.BS.C111_full_step",
    "SpaceHub.BS.C111_easy_call_spoils",
    "SpaceHub.BS.C111_leaves_its_tables"
   ],
   "note": "False of the code: the overload for user functions never takes away the mark of the first step, so that no step is ever rejected: a call looks at the columns up to the target order plus 1 with the step given, accepts the first whose error is small enough and otherwise repeats the same computation 100 times and terminates the process (C111_outcome, the exact outcome of every call; C111_never_shortens). The target order becomes the number of the accepted column, so an easy call makes the next, harder one fail (C111_easy_call_spoils), and a call accepted in the last column makes it leave the tables (C111_leaves_its_tables). Proved: what is returned is the extrapolated result of the full step with an error estimate of at most 1 (C111_full_step). Derivatives that do not depend on time (for others see C30)."
  },
  {
   "property": "C112",
   "status": "partial",
   "theorems": [
    "SpaceHub.Units.C112_units",
    "SpaceHub.Units.C112_conversion",
    "SpaceHub.Units.C112_kepler",
    "SpaceHub.Units.C112_constants",
    "SpaceHub.Units.C112_kB_on_mp_wrong"
   ],
   "note": "False of the code in one clause: consts::kB_on_mp is 0.1 % smaller than kB / mp (C112_kB_on_mp_wrong). All other clauses proved in exact arithmetic with the exact value of pi; the constants of the planets (macros.hpp:83-97) are not modelled."
  },
  {
   "property": "C113",
   "status": "proved",
   "theorems": [
    "SpaceHub.Rounded.C113_exact",
    "SpaceHub.Rounded.C113_rounded",
    "SpaceHub.Rounded.C113_nearest",
    "SpaceHub.Rounded.C113_integrators",
    "SpaceHub.Rounded.C113_leapfrogs"
   ],
   "note": "Rounded arithmetic with a relative error per operation (unbounded exponent: no overflow or underflow, no fused operations), `Spec/Accurate`; rounding to nearest is one (C113_nearest). The model with rounding, `Model/Rounded`, without rounding is the model of the plain system (C113_exact). Constants K exist but are not given in numbers. The compensated types are in C114, chain systems in C116; regularised systems and the other iterators are not covered."
  },
  {
   "property": "C114",
   "status": "proved",
   "theorems": [
    "SpaceHub.Rounded.C114_exact",
    "SpaceHub.Rounded.C114_compensated",
    "SpaceHub.Rounded.C114_integrators",
    "SpaceHub.Rounded.C114_leapfrogs"
   ],
   "note": "Rounded arithmetic as in C113, `Model/RoundedKahan`; the compensated sum is that of C34 (kadd_ieee). Constants K exist but are not given in numbers. Chain and regularised systems and the other iterators are not covered."
  },
  {
   "property": "C115",
   "status": "proved",
   "theorems": [
    "SpaceHub.Rounded.C115_energies",
    "SpaceHub.Rounded.C115_accelerations",
    "SpaceHub.Rounded.C115_chain",
    "SpaceHub.Rounded.C115_angular_momentum",
    "SpaceHub.Rounded.C115_com",
    "SpaceHub.Rounded.C115_exact"
   ],
   "note": "Rounded arithmetic as in C113 (no overflow or underflow), with explicit constants: gam u k = k u / (1 - k u). The accelerations are those of plain systems; the potential energy of chain systems is compared with exact arithmetic on the stored coordinates (C115_chain)."
  },
  {
   "property": "C116",
   "status": "proved",
   "theorems": [
    "SpaceHub.Rounded.C116_exact",
    "SpaceHub.Rounded.C116_exists",
    "SpaceHub.Rounded.C116_rounded",
    "SpaceHub.Rounded.C116_integrators"
   ],
   "note": "Rounded arithmetic as in C113, `Model/RoundedChain`; negation is exact. The run is a relation: any index that a sort by the computed distances allows. Without rounding it is the relation ChainStep of the other chain properties (C116_exact); C116_exists: runs exist. Constants K exist but are not given in numbers. The compensated types on chain systems are not covered."
  },
  {
   "property": "C117",
   "status": "proved",
   "theorems": [
    "SpaceHub.Rounded.C117_rounded",
    "SpaceHub.Rounded.C117_reaches",
    "SpaceHub.Rounded.C117_integrators",
    "SpaceHub.Rounded.C117_exact"
   ],
   "note": "Rounded arithmetic as in C113, `Model/RoundedRegu`; negation is exact. Where the source divides by zero the result is arbitrary; the bounds show that this does not happen along the motion. Constants K exist but are not given in numbers. A clock that rounding sets before t0 (first steps) is excluded from the comparison, since the motion is given from t0 on. C117_exact: without rounding it is reguStep of the other properties; C117_reaches, C117_integrators: constant steps, IEEE rounding and the integrators of the library."
  },
  {
   "property": "C118",
   "status": "proved",
   "theorems": [
    "SpaceHub.Rounded.C118_rounded",
    "SpaceHub.Rounded.C118_reaches",
    "SpaceHub.Rounded.C118_integrators",
    "SpaceHub.Rounded.C118_exists",
    "SpaceHub.Rounded.C118_exact"
   ],
   "note": "Rounded arithmetic as in C113, `Model/RoundedAR`; negation is exact. The run is a relation: any index that a sort by the computed distances allows; C118_exists: an unending sequence of steps exists. Where the source divides by zero the result is arbitrary; the bounds show that this does not happen along the motion. Constants K exist but are not given in numbers. A clock that rounding sets before t0 (first steps) is excluded from the comparison, since the motion is given from t0 on. C118_exact: without rounding every run of ARStep that returns normally is one of these; C118_reaches, C118_integrators: constant steps, IEEE rounding and the integrators of the library."
  },
  {
   "property": "C119",
   "status": "proved",
   "theorems": [
    "SpaceHub.Rounded.C119_exact",
    "SpaceHub.Rounded.C119_rounded",
    "SpaceHub.Rounded.C119_fourth",
    "SpaceHub.Rounded.C119_returns"
   ],
   "note": "Rounded arithmetic as in C113, `Model/RoundedBS`; comparisons are exact, the error estimate and the step-size control are arbitrary functions. Plain systems with gravity alone; additional forces and the other systems are not covered. Constants K exist but are not given in numbers. C119_exact: without rounding the iterator is the one of C27-C29 and C95; C119_returns: when the error estimate is 0 a fresh iterator returns."
  },
  {
   "property": "C120",
   "status": "proved",
   "theorems": [
    "SpaceHub.Rounded.C120_exact",
    "SpaceHub.Rounded.C120_energy",
    "SpaceHub.Rounded.C120_written",
    "SpaceHub.Rounded.C120_plain",
    "SpaceHub.Rounded.C120_bulirsch_stoer",
    "SpaceHub.Rounded.C120_regularised",
    "SpaceHub.Rounded.C120_chain",
    "SpaceHub.Rounded.C120_archain"
   ],
   "note": "Rounded arithmetic as in C113; the logarithm is exact. Plain systems with symplectic integrators (C120_plain) and with Bulirsch-Stoer (C120_bulirsch_stoer), regularised systems (C120_regularised), chain and ARchain systems with the potential energy computed along the chain (C120_chain, C120_archain), and any states near a motion (C120_energy, C120_written). The static variable of EnergyErrWriter is initialised at the first call (C50); here that call is with the start. C120_exact: without rounding the numbers are those of C50."
  },
  {
   "property": "C121",
   "status": "proved",
   "theorems": [
    "SpaceHub.Rounded.C121_exact",
    "SpaceHub.Rounded.C121_rounded",
    "SpaceHub.Rounded.C121_integrators",
    "SpaceHub.Rounded.C121_leapfrogs"
   ],
   "note": "Rounded arithmetic as in C113, `Model/RoundedForces`; the sign change of a number is exact. Plain systems with the corrections of the orders 1 and 2.5 ; PN2 (faulty, see C10), tides and drag, the other systems and Bulirsch-Stoer are not covered. Constants K exist but are not given in numbers. C121_exact: without rounding it is simpleStep of C100; C121_integrators, C121_leapfrogs: IEEE rounding and the integrators of the library."
  }
 ]
}