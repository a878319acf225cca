{
 "claims": [
  {
   "property": "C01",
   "status": "proved",
   "theorems": [
    "Feyn.C01_topology"
   ],
   "note": "All executions of the Markov model (Reach): start, hops with arbitrary random words, reweighting, annealing."
  },
  {
   "property": "C02",
   "status": "proved",
   "theorems": [
    "Feyn.C02_momentum_conserved"
   ],
   "note": ""
  },
  {
   "property": "C03",
   "status": "proved",
   "theorems": [
    "Feyn.C03_spin_conserved",
    "Feyn.C03_spin_at_interactions"
   ],
   "note": ""
  },
  {
   "property": "C04",
   "status": "proved",
   "theorems": [
    "Feyn.C04_momenta_unique_and_registered"
   ],
   "note": ""
  },
  {
   "property": "C05",
   "status": "proved",
   "theorems": [
    "Feyn.C05_weight"
   ],
   "note": "Exact arithmetic; weight tables are arbitrary functions."
  },
  {
   "property": "C06",
   "status": "proved",
   "theorems": [
    "Feyn.C06_fermion_sign"
   ],
   "note": "Loops are counted as orbits of following outgoing propagators."
  },
  {
   "property": "C07",
   "status": "partial",
   "theorems": [
    "Feyn.C07_no_crash_partial",
    "Feyn.C07_start",
    "Feyn.C07_refuted_for_order_zero"
   ],
   "note": "Proved for maximal order >= 1. The loader also accepts Order = 0 with a single reweighting factor; then a hop reads OrderReWeight[1] out of range (proved)."
  },
  {
   "property": "C08",
   "status": "proved",
   "theorems": [
    "Feyn.C08_one_measuring_line"
   ],
   "note": ""
  },
  {
   "property": "C09",
   "status": "partial",
   "theorems": [
    "Feyn.C09_delta_flags",
    "Feyn.C09_delta_equal_times_partial",
    "Feyn.C09_refuted"
   ],
   "note": "The code violates the equal-time part after an order-0 excursion of an instantaneous line (reachable witness). Proved for all executions without that, the flags part for all."
  },
  {
   "property": "C10",
   "status": "proved",
   "theorems": [
    "Feyn.C10_order_bounds",
    "Feyn.C10_order_step"
   ],
   "note": ""
  },
  {
   "property": "C11",
   "status": "proved",
   "theorems": [
    "Feyn.C11_rejected_changes_nothing"
   ],
   "note": ""
  },
  {
   "property": "C12",
   "status": "proved",
   "theorems": [
    "Feyn.C12_weights_nonzero"
   ],
   "note": ""
  },
  {
   "property": "C13",
   "status": "proved",
   "theorems": [
    "Feyn.C13_worm"
   ],
   "note": ""
  },
  {
   "property": "C14",
   "status": "proved",
   "theorems": [
    "Feyn.C14_composite_line"
   ],
   "note": ""
  },
  {
   "property": "C15",
   "status": "proved",
   "theorems": [
    "Feyn.C15_domains"
   ],
   "note": ""
  },
  {
   "property": "C16",
   "status": "partial",
   "theorems": [
    "Feyn.C16_calls_are_moves",
    "Feyn.C16_detailed_balance",
    "Feyn.C16_detailed_balance_partial",
    "Feyn.C16_flow",
    "Feyn.C16_refuted_unequal_times"
   ],
   "note": "Every update call is a move (C16_calls_are_moves). For an accepted move from a reachable state: the reverse move is valid, has the inverse acceptance ratio, restores the state up to storage cells, and the ratio equals the quotient of target times proposal density. Full for all runs without an order-0 excursion of an instantaneous line; refuted for lines left with unequal end times by such an excursion. Idealised: random integers are taken as uniform and times as drawn with density 1/beta."
  },
  {
   "property": "C17",
   "status": "proved",
   "theorems": [
    "Feyn.C17_check_sound",
    "Feyn.C17_no_false_alarm",
    "Feyn.C17_small_weights_raise_alarm",
    "Feyn.C17_exact"
   ],
   "note": "Soundness for all states with consistent containers; completeness for all executions outside the C09 excursion. The absolute tolerance 1e-9 makes the check fail on correct diagrams with tiny weights (C17_small_weights_raise_alarm)."
  },
  {
   "property": "C18",
   "status": "proved",
   "theorems": [
    "Feyn.C18_no_tadpole"
   ],
   "note": ""
  },
  {
   "property": "C19",
   "status": "proved",
   "theorems": [
    "Feyn.C19_container_is_a_set",
    "Feyn.C19_remove_by_unused_name"
   ],
   "note": "Histories of Add/Remove on a fresh container (BundleHist). Also proved: Remove(name) with an unused name removes the last component."
  },
  {
   "property": "C20",
   "status": "partial",
   "theorems": [
    "Feyn.C20_add_to_full_container_partial",
    "Feyn.C20_add_to_full_container_refuted"
   ],
   "note": "False for Add(): the test is > MAX_BUNDLE, so adding to a full container reads outside the array (refuted). Proved: Add(T*) aborts, and reachable simulations never fill a container."
  },
  {
   "property": "C21",
   "status": "proved",
   "theorems": [
    "Feyn.C21_momentum_arithmetic",
    "Feyn.C21_momentum_group",
    "Feyn.C21_momentum_multiples",
    "Feyn.C21_multiplier_four_leaves_range"
   ],
   "note": "Multiplication by an integer is right up to factor 3; factor 4 leaves the range."
  },
  {
   "property": "C22",
   "status": "proved",
   "theorems": [
    "Feyn.C22_index_round_trip"
   ],
   "note": "Any number of dimensions and any sizes. Machine integers are unbounded in the lattice model."
  },
  {
   "property": "C23",
   "status": "proved",
   "theorems": [
    "Feyn.C23_relative_index",
    "Feyn.C23_shift"
   ],
   "note": "Any number of dimensions and any sizes."
  },
  {
   "property": "C24",
   "status": "proved",
   "theorems": [
    "Feyn.C24_smooth_index",
    "Feyn.C24_delta_index",
    "Feyn.C24_spin_indices",
    "Feyn.C24_guard"
   ],
   "note": "Both table kinds (2 and 4 spin values per end), exact real times, unsigned arithmetic modulo 2^32."
  },
  {
   "property": "C25",
   "status": "proved",
   "theorems": [
    "Feyn.C25_time_bins",
    "Feyn.C25_boundary"
   ],
   "note": "Exact real arithmetic. At the difference -beta itself, which two times in [0,beta) never have, the factor does not flip (C25_boundary)."
  },
  {
   "property": "C26",
   "status": "proved",
   "theorems": [
    "Feyn.C26_propagator",
    "Feyn.C26_interaction",
    "Feyn.C26_measured_delta_disagrees"
   ],
   "note": "All outcomes including exceptions. The stated exception is shown to be real."
  },
  {
   "property": "C27",
   "status": "proved",
   "theorems": [
    "Feyn.C27_same_cell_and_sign",
    "Feyn.C27_antiperiodic"
   ],
   "note": "Exact real arithmetic."
  },
  {
   "property": "C28",
   "status": "proved",
   "theorems": [
    "Feyn.C28_packed_index"
   ],
   "note": "Unsigned arithmetic modulo 2^32 with n*n below 2^32."
  },
  {
   "property": "C29",
   "status": "partial",
   "theorems": [
    "Feyn.C29_echo_partial",
    "Feyn.C29_flip_channels",
    "Feyn.C29_refuted"
   ],
   "note": "Holds for the four channels without spin flip. The two spin-flip channels return half of the negated conjugate, so the property is refuted there."
  },
  {
   "property": "C30",
   "status": "partial",
   "theorems": [
    "Feyn.C30_running_mean",
    "Feyn.C30_reported_mean",
    "Feyn.C30_samples",
    "Feyn.C30_squeeze",
    "Feyn.C30_clear_partial",
    "Feyn.C30_clear_refuted"
   ],
   "note": "Sum, norm, mean, squeezing and clearing are proved for all operation sequences. The error bar is not forgotten by clearing: C30_clear_refuted."
  },
  {
   "property": "C31",
   "status": "partial",
   "theorems": [
    "Feyn.C31_interval_partial",
    "Feyn.C31_one_call",
    "Feyn.C31_interval_refuted"
   ],
   "note": "History bound and thinning are proved for all executions; the interval is a power of two for fewer than 32 thinnings, after that the 32-bit interval is zero (C31_interval_refuted)."
  },
  {
   "property": "C32",
   "status": "partial",
   "theorems": [
    "Feyn.C32_error_bar_partial",
    "Feyn.C32_spread",
    "Feyn.C32_complex",
    "Feyn.C32_empty",
    "Feyn.C32_refuted"
   ],
   "note": "The spread bound holds for all histories; the exact value of the error bar holds for entries within +-1e30, the sentinels of the scan (C32_refuted beyond)."
  },
  {
   "property": "C33",
   "status": "proved",
   "theorems": [
    "Feyn.C33_allocate",
    "Feyn.C33_measure",
    "Feyn.C33_disjoint",
    "Feyn.C33_measurements",
    "Feyn.C33_squeeze",
    "Feyn.C33_order_zero"
   ],
   "note": ""
  },
  {
   "property": "C34",
   "status": "partial",
   "theorems": [
    "Feyn.C34_anneal_partial",
    "Feyn.C34_only_if_partial",
    "Feyn.C34_sequence_partial",
    "Feyn.C34_refuted"
   ],
   "note": "The claim is false: annealing multiplies the measured function by (beta/beta')^2, repeatedly. Proved: the exact effect, when it is harmless, and the refutation."
  },
  {
   "property": "C35",
   "status": "partial",
   "theorems": [
    "Feyn.C35_listen_partial",
    "Feyn.C35_once",
    "Feyn.C35_unreadable",
    "Feyn.C35_stale",
    "Feyn.C35_no_weights",
    "Feyn.C35_run",
    "Feyn.C35_monotone",
    "Feyn.newest_max",
    "Feyn.C35_refuted_composite",
    "Feyn.C35_refuted_keys"
   ],
   "note": "Version and beta after any sequence of files, monotone version and temperature over any run of the main loop. Missing: calls while a composite line is present are undefined (missing return) and messages with missing keys abort; both shown as refutations."
  },
  {
   "property": "C36",
   "status": "partial",
   "theorems": [
    "Feyn.C36_never_lost_partial",
    "Feyn.C36_deferred",
    "Feyn.C36_immediate",
    "Feyn.C36_still_delaying_refuted"
   ],
   "note": "Any interleaving of signals with the handler's assignments. Missing: after Resume without a pending signal the handler still reports delaying (refuted on a concrete run)."
  },
  {
   "property": "C37",
   "status": "proved",
   "theorems": [
    "Feyn.C37_fires_iff",
    "Feyn.C37_start",
    "Feyn.C37_spacing",
    "Feyn.C37_not_started"
   ],
   "note": "Each check reads the clock twice, as the code does; any non-decreasing clock."
  },
  {
   "property": "C38",
   "status": "proved",
   "theorems": [
    "Feyn.C38_save_load",
    "Feyn.C38_order_zero_becomes_one",
    "Feyn.C38_when"
   ],
   "note": "For all reachable states of order >= 1 without composite line: save succeeds, load into a fresh object succeeds and gives the same diagram up to memory cells, consistent again, and saving again writes the same dictionary. Order-0 states (outside the statement) become order-1 states on reload, proved separately. Restarts are also a constructor of Reach, so every invariant theorem covers executions with save and load."
  },
  {
   "property": "C39",
   "status": "partial",
   "theorems": [
    "Feyn.C39_reset_partial",
    "Feyn.C39_reset_refuted"
   ],
   "note": "False for stale worm pointers (C39_reset_refuted: weight doubled by a reset). Proved with a worm present or no vertex at the stale pointers; in all cases everything but interactions at the stale pointers is kept."
  },
  {
   "property": "C40",
   "status": "partial",
   "theorems": [
    "Feyn.C40_arithmetic_partial",
    "Feyn.C40_quotient",
    "Feyn.C40_mixed_partial",
    "Feyn.C40_mixed_sums_refuted",
    "Feyn.C40_modulus",
    "Feyn.C40_exponential",
    "Feyn.C40_square_root",
    "Feyn.C40_pow_refuted",
    "Feyn.C40_pow_partial",
    "Feyn.C40_equal"
   ],
   "note": "Exact arithmetic over an ordered field. Mixed real/complex sums and pow(z, real) are refuted."
  },
  {
   "property": "C41",
   "status": "proved",
   "theorems": [
    "Feyn.C41_uniform_real",
    "Feyn.C41_uniform_integer",
    "Feyn.C41_empty_interval",
    "Feyn.C41_pick"
   ],
   "note": "For all 32-bit words."
  },
  {
   "property": "C42",
   "status": "proved",
   "theorems": [
    "Feyn.C42_measure",
    "Feyn.C42_exactly_one",
    "Feyn.C42_run",
    "Feyn.C42_channel",
    "Feyn.C42_run_units"
   ],
   "note": "Every call of Measure in every reachable state returns and books the configuration exactly as the specification Recorded says; sums over any sequence of measurements; composite interaction always in one of six spin channels."
  },
  {
   "property": "C43",
   "status": "partial",
   "theorems": [
    "Feyn.C43_too_few",
    "Feyn.C43_adjust_partial",
    "Feyn.C43_positive",
    "Feyn.C43_counts",
    "Feyn.C43_reach",
    "Feyn.C43_refuted_failure_changes",
    "Feyn.C43_refuted_short_ratio",
    "Feyn.C43_refuted_print"
   ],
   "note": "Refuted as stated: failure is reported after the order factors were changed when no worm configuration was counted. Proved: unchanged without enough statistics, exact new factors otherwise, other factors unchanged on failure, positivity, monitor counters stay counters. Missing: nothing else; a time-ratio list shorter than the orders is undefined behaviour."
  },
  {
   "property": "C44",
   "status": "proved",
   "theorems": [
    "Feyn.C44_loop_move"
   ],
   "note": ""
  },
  {
   "property": "C45",
   "status": "proved",
   "theorems": [
    "Feyn.C45_selection",
    "Feyn.C45_hop_runs_one_operation"
   ],
   "note": ""
  },
  {
   "property": "C46",
   "status": "proved",
   "theorems": [
    "Feyn.C46_semantics",
    "Feyn.C46_get"
   ],
   "note": "Refinement of a sorted association list to a partial function, any operation sequence."
  },
  {
   "property": "C47",
   "status": "partial",
   "theorems": [
    "Feyn.C47_fits_partial",
    "Feyn.C47_refuted"
   ],
   "note": "Arguments that fit are padded correctly; every longer argument is undefined behaviour (refuted for all of them)."
  },
  {
   "property": "C48",
   "status": "proved",
   "theorems": [
    "Feyn.C48_scope_exit",
    "Feyn.C48_exactly_once"
   ],
   "note": "All paths out of a scope."
  },
  {
   "property": "C49",
   "status": "proved",
   "theorems": [
    "Feyn.C49_atomic",
    "Feyn.C49_small_files_not_atomic"
   ],
   "note": "Crash after any number of file system calls; assumes rename is atomic."
  },
  {
   "property": "C50",
   "status": "proved",
   "theorems": [
    "Feyn.C50_propagators_are_local"
   ],
   "note": ""
  },
  {
   "property": "C51",
   "status": "proved",
   "theorems": [
    "Feyn.C51_estimator_restart",
    "Feyn.C51_estimator_error",
    "Feyn.C51_too_long",
    "Feyn.C51_histogram_restart"
   ],
   "note": ""
  },
  {
   "property": "C52",
   "status": "partial",
   "theorems": [
    "Feyn.C52_run_partial",
    "Feyn.C52_quiet",
    "Feyn.C52_refuted_early_print"
   ],
   "note": "Any run with fair messages from a process that has counted something stays consistent or is ended by a check; without new messages only the self check can end it, and without printing nothing can. Missing: printing before anything was counted and unfair messages, where the property fails."
  },
  {
   "property": "C53",
   "status": "proved",
   "theorems": [
    "Feyn.C53_restart_same_run",
    "Feyn.C53_restart_same_measurements"
   ],
   "note": "Continuation of any length from the loaded state: same diagrams, files, counts and measurements. Same random words are assumed; the generator is restored by C90 and C91. States with a composite line and order-0 states are excluded (see C38)."
  },
  {
   "property": "C54",
   "status": "proved",
   "theorems": [
    "Feyn.C54_memory_start",
    "Feyn.C54_memory_start_measurements"
   ],
   "note": ""
  },
  {
   "property": "C55",
   "status": "proved",
   "theorems": [
    "Feyn.C55_tables_update",
    "Feyn.C55_tables_run"
   ],
   "note": ""
  },
  {
   "property": "C56",
   "status": "proved",
   "theorems": [
    "Feyn.C56_connected",
    "Feyn.C56_step"
   ],
   "note": "Every reachable diagram is connected, with and without a worm; also after each single operation."
  },
  {
   "property": "C57",
   "status": "proved",
   "theorems": [
    "Feyn.C57_skeleton",
    "Feyn.C57_no_tadpole",
    "Feyn.C57_worm_tadpole"
   ],
   "note": "Worm-free diagrams stay connected when any two lines are cut and have no tadpoles. With a worm tadpoles occur (C57_worm_tadpole), as intended by the algorithm."
  },
  {
   "property": "C58",
   "status": "partial",
   "theorems": [
    "Feyn.C58_return_partial",
    "Feyn.C58_mutual_partial",
    "Feyn.C58_transfer",
    "Feyn.C58_grid"
   ],
   "note": "Runs that remove an instantaneous line, or make it continuous, while an instantaneous line has ends with unequal times are missing; those times come from the order-0 sector (C09_refuted)."
  },
  {
   "property": "C59",
   "status": "partial",
   "theorems": [
    "Feyn.C59_para_round_trip",
    "Feyn.C59_alive",
    "Feyn.C59_save",
    "Feyn.C59_restart_partial",
    "Feyn.C59_continues_partial",
    "Feyn.C59_gamma",
    "Feyn.C59_refuted_no_statistics",
    "Feyn.C59_refuted_anneal",
    "Feyn.C59_refuted_order_zero",
    "Feyn.C59_fresh",
    "Feyn.C59_shape"
   ],
   "note": "proved for states of order at least one, without three-point functions, and with the temperature fixed either before or after the restart; refutations for the other cases"
  },
  {
   "property": "C60",
   "status": "partial",
   "theorems": [
    "Feyn.C60_pooled",
    "Feyn.C60_order",
    "Feyn.C60_share",
    "Feyn.C60_processes",
    "Feyn.C60_failure_partial",
    "Feyn.C60_refuted_norm",
    "Feyn.C60_refuted_half",
    "Feyn.C60_refuted_orders",
    "Feyn.C60_success",
    "Feyn.C60_units"
   ],
   "note": "Pooling, independence of the order and equivalence with one long run are proved. What a failed file leaves behind: nothing if it cannot be read or has a wrong number of orders; refuted for other units and for missing polarisation."
  },
  {
   "property": "C61",
   "status": "partial",
   "theorems": [
    "Feyn.C61_accepted_partial",
    "Feyn.C61_monotone",
    "Feyn.C61_refused",
    "Feyn.C61_crash",
    "Feyn.C61_refuted_empty"
   ],
   "note": "An order without data is judged by the error of the order before (C61_refuted_empty), so the claim holds with the error 'judged' in place of the order's own; missing data at order one end the loop (C61_crash). The smoothing spline that estimates errors is an arbitrary function."
  },
  {
   "property": "C62",
   "status": "proved",
   "theorems": [
    "Feyn.C62_counts",
    "Feyn.C62_bounds",
    "Feyn.C62_order",
    "Feyn.C62_worms",
    "Feyn.C62_measuring",
    "Feyn.C62_gammas"
   ],
   "note": "Counters are natural numbers; the code uses double, exact up to 2^53."
  },
  {
   "property": "C63",
   "status": "proved",
   "theorems": [
    "Feyn.C63_transform",
    "Feyn.C63_sequence",
    "Feyn.C63_faithful",
    "Feyn.C63_matsubara"
   ],
   "note": "Any number of dimensions, sizes, bins and matrix entries. numpy's FFT is a contract (discrete Fourier sum)."
  },
  {
   "property": "C64",
   "status": "proved",
   "theorems": [
    "Feyn.C64_G",
    "Feyn.C64_W"
   ],
   "note": "Exact arithmetic; the linear solver is a contract with an instance. DenorminatorTouchZero is an arbitrary test."
  },
  {
   "property": "C65",
   "status": "partial",
   "theorems": [
    "Feyn.C65_ledger",
    "Feyn.C65_delta",
    "Feyn.C65_sigma_partial",
    "Feyn.C65_sigma_mc",
    "Feyn.C65_polar_partial",
    "Feyn.C65_refuted_collect",
    "Feyn.C65_refuted_first_G",
    "Feyn.C65_refuted_first",
    "Feyn.C65_refuted_domain"
   ],
   "note": "Proved for SigmaDeltaT in both modes and for Sigma with Monte Carlo data as the code defines it; for Sigma without Monte Carlo data and for Polar only for the failures that are handled right. The other failures refute the claim (four witnesses)."
  },
  {
   "property": "C66",
   "status": "partial",
   "theorems": [
    "Feyn.C66_spin",
    "Feyn.C66_square",
    "Feyn.C66_checkerboard",
    "Feyn.C66_triangular",
    "Feyn.C66_asymmetric_partial",
    "Feyn.C66_honeycomb",
    "Feyn.C66_kagome",
    "Feyn.C66_cubic_partial",
    "Feyn.C66_checkerboard3",
    "Feyn.C66_pyrochlore",
    "Feyn.C66_chain",
    "Feyn.C66_valence",
    "Feyn.C66_swap",
    "Feyn.C66_refuted_strip",
    "Feyn.C66_refuted_triangular",
    "Feyn.C66_refuted_cubic",
    "Feyn.C66_refuted_asymmetric",
    "Feyn.C66_refuted_hubbard",
    "Feyn.C66_index"
   ],
   "note": "proved for all lattices with the sizes in the statements; refuted for cells one (triangular: two) wide, for J2 on Cubic and Assymetric_Triangular and for the Hubbard interaction; J3 of Kagome and Pyrochlore acts on a subset of third neighbours, described in the theorems"
  },
  {
   "property": "C67",
   "status": "partial",
   "theorems": [
    "Feyn.C67_transform",
    "Feyn.C67_momenta",
    "Feyn.C67_momenta_partial",
    "Feyn.C67_fits",
    "Feyn.C67_integer",
    "Feyn.C67_refuted",
    "Feyn.C67_staggered",
    "Feyn.C67_refuted_staggered"
   ],
   "note": "Checkerboard, Kagome and Pyrochlore have permuted reciprocal vectors, refuted for unequal sizes; staggered momentum refuted for Assymetric_Triangular"
  },
  {
   "property": "C68",
   "status": "partial",
   "theorems": [
    "Feyn.C68_uniform",
    "Feyn.C68_staggered_partial",
    "Feyn.C68_refuted_staggered"
   ],
   "note": "uniform part proved; the staggered one uses the first time bin, the difference is proved"
  },
  {
   "property": "C69",
   "status": "partial",
   "theorems": [
    "Feyn.C69_propagator",
    "Feyn.C69_bare",
    "Feyn.C69_spin",
    "Feyn.C69_popov",
    "Feyn.C69_equation",
    "Feyn.C69_measured",
    "Feyn.C69_refuted_imw"
   ],
   "note": "Holds for all temperatures, fields, numbers of sites and spin Hamiltonians with the default imaginary chemical potential; fails with the option ImW (C69_refuted_imw). Off-diagonal fields use the wrong Pauli matrices but are not reachable from the spin models."
  },
  {
   "property": "C70",
   "status": "partial",
   "theorems": [
    "Feyn.C70_saved",
    "Feyn.C70_multiple",
    "Feyn.C70_revert",
    "Feyn.C70_stays",
    "Feyn.C70_reaches",
    "Feyn.C70_refuted_multiple",
    "Feyn.C70_refuted_first"
   ],
   "note": "Holds if the initial field is a whole number of steps below zero; fails otherwise (C70_refuted_multiple) and if the first component is zero (C70_refuted_first). RevertField approaches the last good field, never reaches it."
  },
  {
   "property": "C71",
   "status": "partial",
   "theorems": [
    "Feyn.C71_address",
    "Feyn.C71_G",
    "Feyn.C71_W",
    "Feyn.C71_statistics",
    "Feyn.C71_coordinates",
    "Feyn.C71_times",
    "Feyn.C71_refuted_shape"
   ],
   "note": "Proved for arrays of complex numbers of the shape that Python gives them; arrays of another shape or type are not always refused (C71_refuted_shape)."
  },
  {
   "property": "C72",
   "status": "partial",
   "theorems": [
    "Feyn.C72_sigma_partial",
    "Feyn.C72_polar",
    "Feyn.C72_python_sigma",
    "Feyn.C72_python_polar",
    "Feyn.C72_python_local",
    "Feyn.C72_extrapolation",
    "Feyn.C72_no_instantaneous",
    "Feyn.C72_refuted_onsite",
    "Feyn.C72_refuted_polar"
   ],
   "note": "Self energy: proved for interactions without instantaneous part within a site and times off the borders of bins; refuted with such a part. Polarisation: proved for times off the borders; the Python function is refuted for propagators between sites. Equality is for the integrand, configuration by configuration; detailed balance with respect to the weight is C16; the sum over configurations and the normalisation are not part of this statement. Reals are exact."
  },
  {
   "property": "C73",
   "status": "partial",
   "theorems": [
    "Feyn.C73_times",
    "Feyn.C73_time_factors_partial",
    "Feyn.C73_refuted_is",
    "Feyn.C73_sites_partial",
    "Feyn.C73_refuted_triangular",
    "Feyn.C73_uncompress",
    "Feyn.C73_compress",
    "Feyn.C73_load",
    "Feyn.C73_read_partial",
    "Feyn.C73_read_reversed",
    "Feyn.C73_refuted_exchange",
    "Feyn.C73_lengths"
   ],
   "note": "Tables, compression and its inverse proved for all lattices whose sides fit the symmetry; at most 257 bins for factors and flags. The reading side is proved for times in order; for reversed times the simulation reads the element for exchanged sites, refuted with a witness."
  },
  {
   "property": "C74",
   "status": "partial",
   "theorems": [
    "Feyn.C74_restart",
    "Feyn.C74_refuted_restart",
    "Feyn.C74_interaction_partial",
    "Feyn.C74_refuted_shape",
    "Feyn.C74_history",
    "Feyn.C74_collect",
    "Feyn.C74_total",
    "Feyn.C74_refuted_merge",
    "Feyn.C74_missing",
    "Feyn.C74_shape",
    "Feyn.C74_refuted_norm"
   ],
   "note": "Propagators: history, restarts and collection proved without bounds. Interactions: refuted after a restart (single precision numbers are read as double precision); the direct round trip is proved. Incomplete files contribute although they count as failures."
  },
  {
   "property": "C75",
   "status": "partial",
   "theorems": [
    "Feyn.C75_once",
    "Feyn.C75_limit",
    "Feyn.C75_end",
    "Feyn.C75_terminates",
    "Feyn.C75_refuted_stop",
    "Feyn.C75_refuted_cpu",
    "Feyn.C75_sweep",
    "Feyn.C75_refuted_sweep",
    "Feyn.C75_fresh",
    "Feyn.C75_resume",
    "Feyn.C75_refuted_more",
    "Feyn.C75_refuted_total",
    "Feyn.C75_files",
    "Feyn.C75_refuted_files"
   ],
   "note": "Order, limit, end and termination hold for all histories, and input files differ when the classes do. A signal does not end the manager; CPU = 0, statis_total.hkl, two Monte Carlo classes and a larger __Duplicate are refuted."
  },
  {
   "property": "C76",
   "status": "partial",
   "theorems": [
    "Feyn.C76_join",
    "Feyn.C76_ladder",
    "Feyn.C76_exchange",
    "Feyn.C76_equation",
    "Feyn.C76_hermitian",
    "Feyn.C76_versions",
    "Feyn.C76_bubble",
    "Feyn.C76_refuted_down"
   ],
   "note": "For one sublattice, lattices with two axes, exact numbers and equal numbers of bins; the symmetries of propagator and interaction are hypotheses. Without particle-hole symmetry the statement is refuted."
  },
  {
   "property": "C77",
   "status": "partial",
   "theorems": [
    "Feyn.C77_run_partial",
    "Feyn.C77_new",
    "Feyn.C77_bareG",
    "Feyn.C77_bareW",
    "Feyn.C77_square",
    "Feyn.C77_first",
    "Feyn.C77_vertex",
    "Feyn.C77_instability",
    "Feyn.C77_start",
    "Feyn.C77_weak"
   ],
   "note": "Versions that fail in W_Dyson are excluded (C65_refuted_domain shows why); the sum rule is off; the instability criterion is for one sublattice. The bare interaction is shown symmetric for any table of real exchange constants between different sites and instantiated for the square lattice."
  },
  {
   "property": "C78",
   "status": "proved",
   "theorems": [
    "Feyn.C78_limit",
    "Feyn.C78_fixed",
    "Feyn.C78_unchanged"
   ],
   "note": "Infinite sequences of versions of the loop of C77 that all end well, over the complex numbers. Convergence itself is a hypothesis of C78_limit; C78_fixed and C78_unchanged hold over any field."
  },
  {
   "property": "C79",
   "status": "partial",
   "theorems": [
    "Feyn.C79_measured",
    "Feyn.C79_rpa_partial",
    "Feyn.C79_rotation",
    "Feyn.C79_crash",
    "Feyn.C79_free",
    "Feyn.C79_free_limit",
    "Feyn.C79_sumrule_partial",
    "Feyn.C79_refuted_order",
    "Feyn.C79_refuted_twice",
    "Feyn.C79_refuted_sumrule"
   ],
   "note": "Proved in zero field for sublattices with equal polarisations and for free spins in any field. For different sublattices the order of the factors is wrong (C79_refuted_order); the sum rule loop reaches its target but the target is that of three components and the susceptibility has one (C79_refuted_sumrule), and it counts the product of the magnetisations twice (C79_refuted_twice)."
  },
  {
   "property": "C80",
   "status": "partial",
   "theorems": [
    "Feyn.C80_kernel",
    "Feyn.C80_bands",
    "Feyn.C80_distinct",
    "Feyn.C80_square_partial",
    "Feyn.C80_honeycomb_partial",
    "Feyn.C80_field",
    "Feyn.C80_refuted_single",
    "Feyn.C80_refuted_phase",
    "Feyn.C80_refuted_pauli",
    "Feyn.C80_refuted_degenerate",
    "Feyn.C80_refuted_sign"
   ],
   "note": "Proved for Square and Honeycomb without phases, with at least two hopping values, if eigenvectors of Hermitian matrices are orthonormal (or energies distinct). Fails for one hopping value, with phases, and for degenerate levels under the documented contract of eig alone."
  },
  {
   "property": "C81",
   "status": "partial",
   "theorems": [
    "Feyn.C81_square",
    "Feyn.C81_honeycomb",
    "Feyn.C81_kitaev",
    "Feyn.C81_swap",
    "Feyn.C81_kitaev_swap",
    "Feyn.C81_haldane_partial",
    "Feyn.C81_refuted_haldane",
    "Feyn.C81_refuted_lattice",
    "Feyn.C81_refuted_hopping",
    "Feyn.C81_refuted_name",
    "Feyn.C81_refuted_strip",
    "Feyn.C81_refuted_column"
   ],
   "note": "Proved for at least two cells in each direction and known names. Missing: the second coupling of the Haldane model is not used, unknown names, other lattices, lattices one cell wide and a missing amplitude are not refused (refuted)."
  },
  {
   "property": "C82",
   "status": "partial",
   "theorems": [
    "Feyn.C82_round_trip",
    "Feyn.C82_map_order",
    "Feyn.C82_integer",
    "Feyn.C82_kinds",
    "Feyn.C82_list",
    "Feyn.C82_set_get",
    "Feyn.C82_load_partial",
    "Feyn.C82_keys",
    "Feyn.C82_tuple_partial",
    "Feyn.C82_refuted_nul",
    "Feyn.C82_refuted_range",
    "Feyn.C82_refuted_ullong",
    "Feyn.C82_refuted_spin",
    "Feyn.C82_refuted_append",
    "Feyn.C82_refuted_load",
    "Feyn.C82_refuted_tuple",
    "Feyn.C82_refuted_key",
    "Feyn.C82_tuple_length",
    "Feyn.C82_as",
    "Feyn.C82_refuted_large",
    "Feyn.C82_map_refused",
    "Feyn.C82_refuted_key_map",
    "Feyn.C82_refuted_merge"
   ],
   "note": "proved: round trip for all supported types to any depth, order of dict items, ranges of integers, kinds accepted and refused, lists item by item, Dictionary set and get, loading of absent keys; refuted: numbers out of range, unsigned long long of a plain int, spin, tuples with a failing item, loading into non-empty dictionaries and lists, zero bytes, unhashable keys"
  },
  {
   "property": "C83",
   "status": "partial",
   "theorems": [
    "Feyn.C83_step",
    "Feyn.C83_exec",
    "Feyn.C83_members",
    "Feyn.C83_cast_leaf",
    "Feyn.C83_cast_list",
    "Feyn.C83_cast_map",
    "Feyn.C83_convert_leaf",
    "Feyn.C83_convert_list",
    "Feyn.C83_convert_map",
    "Feyn.C83_call",
    "Feyn.C83_eval",
    "Feyn.C83_array",
    "Feyn.C83_refuted_tuple",
    "Feyn.C83_refuted_pair"
   ],
   "note": "proved: invariant for all executions of the members of Object and the interpreter, effects of the members, balance of all functions of the glue without Python errors, except tuples; refuted: AddToTuple; missing: paths on which a Python exception is thrown"
  },
  {
   "property": "C84",
   "status": "proved",
   "theorems": [
    "Feyn.C84_explore",
    "Feyn.C84_continuous",
    "Feyn.C84_mark"
   ],
   "note": "order two and more; at order one for diagrams without instantaneous lines, because the code does not change the kind of a line there"
  },
  {
   "property": "C85",
   "status": "partial",
   "theorems": [
    "Feyn.C85_roundtrip_partial",
    "Feyn.C85_statistics",
    "Feyn.C85_accepts",
    "Feyn.C85_keys",
    "Feyn.C85_stable",
    "Feyn.C85_unchanged",
    "Feyn.C85_old_file",
    "Feyn.C85_refuted_directory",
    "Feyn.C85_refuted_underscore",
    "Feyn.C85_refuted_number_key",
    "Feyn.C85_refuted_tuple",
    "Feyn.C85_refuted_nested",
    "Feyn.C85_refuted_kinds",
    "Feyn.C85_refuted_clash",
    "Feyn.C85_refuted_raise",
    "Feyn.C85_refuted_zero",
    "Feyn.C85_refuted_unicode",
    "Feyn.C85_weights",
    "Feyn.C85_number_key",
    "Feyn.C85_incomplete",
    "Feyn.C85_no_smooth"
   ],
   "note": "Proved for dictionaries of numbers, text, arrays with elements, lists of one type and such dictionaries, in the working directory; what dump accepts is characterised exactly. Refuted: keys beginning with an underscore, number keys, tuples, nested lists, zero bytes, directories, unicode in the dictionary of the caller. Not modelled: masked arrays, lists of mixed types, arrays without elements, names that are paths."
  },
  {
   "property": "C86",
   "status": "partial",
   "theorems": [
    "Feyn.C86_draws",
    "Feyn.C86_moves",
    "Feyn.C86_acceptance",
    "Feyn.C86_balance",
    "Feyn.C86_total",
    "Feyn.C86_stationary_partial",
    "Feyn.C86_sources",
    "Feyn.C86_around_partial",
    "Feyn.C86_good",
    "Feyn.C86_refuted"
   ],
   "note": "Balance of the flows between any two good states over all moves, total probability, stationarity around every good state, and the meaning of the probabilities are proved. Random choices are taken as uniform; the bias of the remainder in irn is bounded in C89, the rounding of the cumulative probabilities changes no choice (C92). Not covered: order-0 diagrams with an instantaneous line and what follows them, where the code violates the claim (C86_refuted)."
  },
  {
   "property": "C87",
   "status": "partial",
   "theorems": [
    "Feyn.C87_sigma",
    "Feyn.C87_polar",
    "Feyn.C87_norm",
    "Feyn.C87_gamma",
    "Feyn.C87_reweight",
    "Feyn.C87_sector",
    "Feyn.C87_first_sigma_partial",
    "Feyn.C87_first_polar_partial",
    "Feyn.C87_estimator"
   ],
   "note": "the cancellation of the reweighting factors is proved for every diagram of any order (C87_sigma, C87_polar, C87_norm, C87_gamma, C87_reweight); the exact sum is proved for the first order with the times on bin borders left out (a share of at most the number of bins over 2^32); missing: these border cases and sums over higher orders against an independent formula"
  },
  {
   "property": "C88",
   "status": "partial",
   "theorems": [
    "Feyn.C88_factor",
    "Feyn.C88_det",
    "Feyn.C88_solve_slow",
    "Feyn.C88_solve_fast_partial",
    "Feyn.C88_argument",
    "Feyn.C88_fortran",
    "Feyn.C88_refuted_fortran",
    "Feyn.C88_refuted_twice",
    "Feyn.C88_refuted_altered",
    "Feyn.C88_check",
    "Feyn.C88_check_real",
    "Feyn.C88_refuted_unnoticed",
    "Feyn.C88_refuted_alarm",
    "Feyn.C88_solver",
    "Feyn.C88_W",
    "Feyn.C88_real",
    "Feyn.C88_W_real"
   ],
   "note": "Factors, determinants and solutions for all matrices; fast solver for right-hand sides not in Fortran order (refuted otherwise); the check exactly as coded and for real determinants (refuted for complex ones); W_Dyson with the program's solver. LAPACK by its reference loops, exact arithmetic."
  },
  {
   "property": "C89",
   "status": "partial",
   "theorems": [
    "Feyn.C89_choice",
    "Feyn.C89_even",
    "Feyn.C89_refuted_momenta",
    "Feyn.C89_number",
    "Feyn.C89_update",
    "Feyn.C89_words",
    "Feyn.C89_steps",
    "Feyn.C89_step",
    "Feyn.C89_stationary_partial"
   ],
   "note": "Bounds for all events and numbers of steps, the choices, random numbers and the selection of updates are proved with exact arithmetic (which double precision does not change: C92_urn, C92_select). The words are taken as independent and equally likely; which words the generator gives is C90. Near-stationarity is partial as in C86."
  },
  {
   "property": "C90",
   "status": "proved",
   "theorems": [
    "Feyn.C90_words",
    "Feyn.C90_proper",
    "Feyn.C90_text",
    "Feyn.C90_continue",
    "Feyn.C90_start",
    "Feyn.C90_incomplete",
    "Feyn.C90_seeds",
    "Feyn.C90_determined",
    "Feyn.C90_nonzero",
    "Feyn.C90_period",
    "Feyn.C90_restart",
    "Feyn.C90_refuted_cut",
    "Feyn.C90_refuted_reset",
    "Feyn.C90_refuted_sign"
   ],
   "note": "C90_refuted_cut and C90_refuted_reset show damages of the text that are not noticed. The C++ library of GCC is modelled from its source; C90_restart holds for any places at which the hops begin; the places are C91"
  },
  {
   "property": "C91",
   "status": "proved",
   "theorems": [
    "Feyn.C91_calls",
    "Feyn.C91_reads",
    "Feyn.C91_hops",
    "Feyn.C91_split",
    "Feyn.C91_restart",
    "Feyn.C91_seed",
    "Feyn.C91_sweeps",
    "Feyn.C91_interruptions",
    "Feyn.C91_goes_on"
   ],
   "note": "Interruptions in states with a composite line or of order 0 are excluded (see C38). The estimators are taken over as they are; what their files restore is C51 and C59, with the rest of the main loop."
  },
  {
   "property": "C92",
   "status": "partial",
   "theorems": [
    "Feyn.C92_urn",
    "Feyn.C92_select",
    "Feyn.C92_times",
    "Feyn.C92_order",
    "Feyn.C92_bins",
    "Feyn.C92_same_bin",
    "Feyn.C92_centre",
    "Feyn.C92_gamma",
    "Feyn.C92_gamma_same",
    "Feyn.C92_refuted_temperatures",
    "Feyn.C92_refuted_border",
    "Feyn.C92_rounding"
   ],
   "note": "Proved for all words, temperatures and numbers of bins in the stated ranges, for times drawn at the temperature of the table. Refuted after a change of the temperature (C92_refuted_temperatures). Not modelled: overflow, extended precision of x87 registers, fused multiply-add."
  },
  {
   "property": "C93",
   "status": "proved",
   "theorems": [
    "Feyn.C93_rpa",
    "Feyn.C93_fails",
    "Feyn.C93_bare",
    "Feyn.C93_same"
   ],
   "note": "One sublattice, as the code requires. Numbers are exact; the values that Check_Denorminator writes to the log are not modelled. C93_same needs the symmetries of zero field (SymG, SymJ), C93_rpa and C93_fails only the spin structure of the interaction."
  },
  {
   "property": "C94",
   "status": "partial",
   "theorems": [
    "Feyn.C94_path",
    "Feyn.C94_cache",
    "Feyn.C94_corner",
    "Feyn.C94_found",
    "Feyn.C94_equal",
    "Feyn.C94_staggered_partial",
    "Feyn.C94_refuted_corner",
    "Feyn.C94_refuted_two",
    "Feyn.C94_centres"
   ],
   "note": "The corner of the Brillouin zone is used only if both sizes are multiples of three (C94_staggered_partial); refuted for all other sizes. Real numbers are exact."
  },
  {
   "property": "C95",
   "status": "partial",
   "theorems": [
    "Feyn.C95_all_or_nothing",
    "Feyn.C95_reported_partial",
    "Feyn.C95_refuted_term",
    "Feyn.C95_refuted_background",
    "Feyn.C95_never_lost",
    "Feyn.C95_version",
    "Feyn.C95_signals",
    "Feyn.C95_crash",
    "Feyn.C95_restart",
    "Feyn.C95_refuted_crash",
    "Feyn.C95_weights_intact",
    "Feyn.C95_history",
    "Feyn.C95_one_value_partial",
    "Feyn.C95_refuted_pyrochlore",
    "Feyn.C95_refuted_history",
    "Feyn.C95_outside",
    "Feyn.C95_lattices"
   ],
   "note": "refuted: signals after the block go to the handler of SIGINT, only the last one; a crash while the parameters are saved pairs new weights with the parameters of the input file; the history of observables is lost on restart, pyrochlore counts UnifChi twice"
  },
  {
   "property": "C96",
   "status": "partial",
   "theorems": [
    "Feyn.C96_square_partial",
    "Feyn.C96_checkerboard_partial",
    "Feyn.C96_triangular_partial",
    "Feyn.C96_asymmetric_partial",
    "Feyn.C96_honeycomb_partial",
    "Feyn.C96_kagome_partial",
    "Feyn.C96_cubic_partial",
    "Feyn.C96_checkerboard3_partial",
    "Feyn.C96_pyrochlore_partial",
    "Feyn.C96_chain_partial",
    "Feyn.C96_valence_partial",
    "Feyn.C96_refuted_energy",
    "Feyn.C96_refuted_next",
    "Feyn.C96_sumRule",
    "Feyn.C96_magnetisation"
   ],
   "note": "The code violates the claim for the energy: it is two thirds of the energy per site of the nearest neighbour bonds (refuted by C96_refuted_energy, C96_refuted_next); sum rule and magnetisation hold. Assumed is that the first time bin holds the correlations at equal times"
  },
  {
   "property": "C97",
   "status": "partial",
   "theorems": [
    "Feyn.C97_asks",
    "Feyn.C97_overflow",
    "Feyn.C97_apart",
    "Feyn.C97_due",
    "Feyn.C97_first",
    "Feyn.C97_refuted_clock",
    "Feyn.C97_local_partial",
    "Feyn.C97_refuted_local",
    "Feyn.C97_counts"
   ],
   "note": "Timers and double counters proved for all runs (doubles up to 2^53); the local int counters are right exactly up to 2^31-1 and undefined after that, and timers stall if the clock is set back (both refuted by witnesses)."
  },
  {
   "property": "C98",
   "status": "partial",
   "theorems": [
    "Feyn.C98_fermi",
    "Feyn.C98_bose",
    "Feyn.C98_reflect",
    "Feyn.C98_frequencies",
    "Feyn.C98_times_partial",
    "Feyn.C98_refuted_times",
    "Feyn.C98_refuted_range",
    "Feyn.C98_bins",
    "Feyn.C98_symmetric_partial",
    "Feyn.C98_refuted_symmetric",
    "Feyn.C98_basis",
    "Feyn.C98_best",
    "Feyn.C98_fit_restore",
    "Feyn.C98_restore_fit",
    "Feyn.C98_coarse",
    "Feyn.C98_exists",
    "Feyn.C98_refuted_kind"
   ],
   "note": "Kernels, symmetry, orthonormality, optimality and the conversion of coefficients are proved without bounds. The sampling times are the middles of the bins at the temperature one only; refuted at every other temperature. Exact real numbers; svd and inv by their documented properties."
  },
  {
   "property": "C99",
   "status": "proved",
   "theorems": [
    "Feyn.C99_update",
    "Feyn.C99_calls",
    "Feyn.C99_pair",
    "Feyn.C99_laws",
    "Feyn.C99_run",
    "Feyn.C99_printed",
    "Feyn.C99_jump"
   ],
   "note": "All cases of the report over all reachable states; printed rounding and text layout are left out."
  },
  {
   "property": "C100",
   "status": "partial",
   "theorems": [
    "Feyn.C100_sites",
    "Feyn.C100_place",
    "Feyn.C100_cells",
    "Feyn.C100_distinct",
    "Feyn.C100_window",
    "Feyn.C100_neighbours",
    "Feyn.C100_lines",
    "Feyn.C100_bonds",
    "Feyn.C100_threshold",
    "Feyn.C100_fourier",
    "Feyn.C100_refuted_three",
    "Feyn.C100_refuted_kitaev",
    "Feyn.C100_kitaev_coupled"
   ],
   "note": "Proved for one to three dimensions and all sizes. Refuted: couplings of the x and y components of the spins are not drawn, and with fewer than four cells neighbours are not all drawn beside the cell zero. The layout of the file and the viewer are not modelled."
  },
  {
   "property": "C101",
   "status": "partial",
   "theorems": [
    "Feyn.C101_run",
    "Feyn.C101_other",
    "Feyn.C101_error",
    "Feyn.C101_process",
    "Feyn.C101_source",
    "Feyn.C101_refuted_source",
    "Feyn.C101_refuted_month"
   ],
   "note": "Full disks and other processes that write to the same file are not modelled. Refuted in part: the month in the log is one less than in the calendar, and a source compiled under a path without a separator has no name."
  },
  {
   "property": "C102",
   "status": "partial",
   "theorems": [
    "Feyn.C102_read",
    "Feyn.C102_texts",
    "Feyn.C102_accepted",
    "Feyn.C102_injective",
    "Feyn.C102_short",
    "Feyn.C102_equal",
    "Feyn.C102_near",
    "Feyn.C102_refuted_transitive",
    "Feyn.C102_momentum",
    "Feyn.C102_refuted_momentum"
   ],
   "note": "Text of vectors of real numbers is not modelled (it depends on the precision of the stream). Refuted in part: the comparison of vectors of real numbers is not transitive, and a momentum that is read is not brought into range."
  },
  {
   "property": "C103",
   "status": "proved",
   "theorems": [
    "Feyn.C103_lookup",
    "Feyn.C103_once",
    "Feyn.C103_reload",
    "Feyn.C103_twice",
    "Feyn.C103_new",
    "Feyn.C103_missing",
    "Feyn.C103_refuted_unknown",
    "Feyn.C103_kept"
   ],
   "note": "Names of estimators that the bundle has; the access by another name is C103_refuted_unknown (it gives the first estimator and blocks the name). WormEstimator and PhyEstimator of the monitor are built and loaded in the same way; one is modelled, with real values."
  },
  {
   "property": "C104",
   "status": "partial",
   "theorems": [
    "Feyn.C104_list",
    "Feyn.C104_kept",
    "Feyn.C104_diagonal_partial",
    "Feyn.C104_refuted_sign",
    "Feyn.C104_refuted_flip",
    "Feyn.C104_refuted"
   ],
   "note": "Refuted between different spins: the last factor is taken at the spins of the first end. Proved for the elements between equal spins that do not flip, for the elements that must be zero and for the list of spins. The Fourier transforms before the loop are those of C63."
  },
  {
   "property": "C105",
   "status": "proved",
   "theorems": [
    "Feyn.C105_same",
    "Feyn.C105_site",
    "Feyn.C105_difference",
    "Feyn.C105_origin",
    "Feyn.C105_once"
   ],
   "note": "Coordinates are exact integers; the program holds them in floating point numbers."
  },
  {
   "property": "C106",
   "status": "proved",
   "theorems": [
    "Feyn.C106_inverse",
    "Feyn.C106_singular"
   ],
   "note": "Exact numbers; np.linalg.inv and np.linalg.solve, with which the script compares, are not modelled."
  }
 ]
}