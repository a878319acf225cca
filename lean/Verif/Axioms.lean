import Verif.Props.Anneal
import Verif.Props.Balance
import Verif.Props.Bands
import Verif.Props.Base
import Verif.Props.Bonds
import Verif.Props.Chain
import Verif.Props.Check
import Verif.Props.Chi
import Verif.Props.Collect
import Verif.Props.Complex
import Verif.Props.Connect
import Verif.Props.Converge
import Verif.Props.Couplings
import Verif.Props.Demo
import Verif.Props.Diagram
import Verif.Props.Double
import Verif.Props.Drawing
import Verif.Props.Draws
import Verif.Props.Dyson
import Verif.Props.DysonSave
import Verif.Props.Energy
import Verif.Props.Env
import Verif.Props.EstBundle
import Verif.Props.Estimator
import Verif.Props.Explore
import Verif.Props.First
import Verif.Props.Fourier
import Verif.Props.Hickle
import Verif.Props.IO
import Verif.Props.IndexMap
import Verif.Props.Inverse3
import Verif.Props.Isolated
import Verif.Props.Ladder
import Verif.Props.Lattice
import Verif.Props.Log
import Verif.Props.LongRun
import Verif.Props.Loop
import Verif.Props.Lu
import Verif.Props.LuDyson
import Verif.Props.MainLoop
import Verif.Props.Manager
import Verif.Props.Momenta
import Verif.Props.Monitor
import Verif.Props.Path
import Verif.Props.Process
import Verif.Props.PyCast
import Verif.Props.PyRef
import Verif.Props.RIndex
import Verif.Props.Reset
import Verif.Props.Return
import Verif.Props.Reverse
import Verif.Props.Rng
import Verif.Props.SelfCons
import Verif.Props.Stationary
import Verif.Props.Statis3
import Verif.Props.SvdBasis
import Verif.Props.Symmetry
import Verif.Props.System
import Verif.Props.Tables
import Verif.Props.Transparent
import Verif.Props.Unbiased
import Verif.Props.UpdateReport
import Verif.Props.VecText
import Verif.Props.Vertex
import Verif.Props.WFirst
import Verif.Props.Weights
import Verif.Props.Words
import Lean.Elab.Command
import Lean.Util.CollectAxioms

/-!
# What the property theorems depend on

The command below fails the build if a listed theorem depends on anything but `propext`, `Classical.choice` and `Quot.sound`. The list is
the list of theorems of `MANIFEST.json`.
-/

open Lean Elab Command in
/-- Checks that each of the given theorems depends on the three standard principles only. -/
elab "standard_only " ids:ident* : command => do
  for i in ids do
    let n ← liftCoreM (realizeGlobalConstNoOverloadWithInfo i)
    for a in ← collectAxioms n do
      unless a = ``propext ∨ a = ``Classical.choice ∨ a = ``Quot.sound do
        throwErrorAt i "{n} depends on {a}"

open Feyn

standard_only
  Feyn.C01_topology
  Feyn.C02_momentum_conserved
  Feyn.C03_spin_conserved
  Feyn.C03_spin_at_interactions
  Feyn.C04_momenta_unique_and_registered
  Feyn.C05_weight
  Feyn.C06_fermion_sign
  Feyn.C07_no_crash_partial
  Feyn.C07_start
  Feyn.C07_refuted_for_order_zero
  Feyn.C08_one_measuring_line
  Feyn.C09_delta_flags
  Feyn.C09_delta_equal_times_partial
  Feyn.C09_refuted
  Feyn.C10_order_bounds
  Feyn.C10_order_step
  Feyn.C11_rejected_changes_nothing
  Feyn.C12_weights_nonzero
  Feyn.C13_worm
  Feyn.C14_composite_line
  Feyn.C15_domains
  Feyn.C16_calls_are_moves
  Feyn.C16_detailed_balance
  Feyn.C16_detailed_balance_partial
  Feyn.C16_flow
  Feyn.C16_refuted_unequal_times
  Feyn.C17_check_sound
  Feyn.C17_no_false_alarm
  Feyn.C17_small_weights_raise_alarm
  Feyn.C17_exact
  Feyn.C18_no_tadpole
  Feyn.C19_container_is_a_set
  Feyn.C19_remove_by_unused_name
  Feyn.C20_add_to_full_container_partial
  Feyn.C20_add_to_full_container_refuted
  Feyn.C21_momentum_arithmetic
  Feyn.C21_momentum_group
  Feyn.C21_momentum_multiples
  Feyn.C21_multiplier_four_leaves_range
  Feyn.C22_index_round_trip
  Feyn.C23_relative_index
  Feyn.C23_shift
  Feyn.C24_smooth_index
  Feyn.C24_delta_index
  Feyn.C24_spin_indices
  Feyn.C24_guard
  Feyn.C25_time_bins
  Feyn.C25_boundary
  Feyn.C26_propagator
  Feyn.C26_interaction
  Feyn.C26_measured_delta_disagrees
  Feyn.C27_same_cell_and_sign
  Feyn.C27_antiperiodic
  Feyn.C28_packed_index
  Feyn.C29_echo_partial
  Feyn.C29_flip_channels
  Feyn.C29_refuted
  Feyn.C30_running_mean
  Feyn.C30_reported_mean
  Feyn.C30_samples
  Feyn.C30_squeeze
  Feyn.C30_clear_partial
  Feyn.C30_clear_refuted
  Feyn.C31_interval_partial
  Feyn.C31_one_call
  Feyn.C31_interval_refuted
  Feyn.C32_error_bar_partial
  Feyn.C32_spread
  Feyn.C32_complex
  Feyn.C32_empty
  Feyn.C32_refuted
  Feyn.C33_allocate
  Feyn.C33_measure
  Feyn.C33_disjoint
  Feyn.C33_measurements
  Feyn.C33_squeeze
  Feyn.C33_order_zero
  Feyn.C34_anneal_partial
  Feyn.C34_only_if_partial
  Feyn.C34_sequence_partial
  Feyn.C34_refuted
  Feyn.C35_listen_partial
  Feyn.C35_once
  Feyn.C35_unreadable
  Feyn.C35_stale
  Feyn.C35_no_weights
  Feyn.C35_run
  Feyn.C35_monotone
  Feyn.newest_max
  Feyn.C35_refuted_composite
  Feyn.C35_refuted_keys
  Feyn.C36_never_lost_partial
  Feyn.C36_deferred
  Feyn.C36_immediate
  Feyn.C36_still_delaying_refuted
  Feyn.C37_fires_iff
  Feyn.C37_start
  Feyn.C37_spacing
  Feyn.C37_not_started
  Feyn.C38_save_load
  Feyn.C38_order_zero_becomes_one
  Feyn.C38_when
  Feyn.C39_reset_partial
  Feyn.C39_reset_refuted
  Feyn.C40_arithmetic_partial
  Feyn.C40_quotient
  Feyn.C40_mixed_partial
  Feyn.C40_mixed_sums_refuted
  Feyn.C40_modulus
  Feyn.C40_exponential
  Feyn.C40_square_root
  Feyn.C40_pow_refuted
  Feyn.C40_pow_partial
  Feyn.C40_equal
  Feyn.C41_uniform_real
  Feyn.C41_uniform_integer
  Feyn.C41_empty_interval
  Feyn.C41_pick
  Feyn.C42_measure
  Feyn.C42_exactly_one
  Feyn.C42_run
  Feyn.C42_channel
  Feyn.C42_run_units
  Feyn.C43_too_few
  Feyn.C43_adjust_partial
  Feyn.C43_positive
  Feyn.C43_counts
  Feyn.C43_reach
  Feyn.C43_refuted_failure_changes
  Feyn.C43_refuted_short_ratio
  Feyn.C43_refuted_print
  Feyn.C44_loop_move
  Feyn.C45_selection
  Feyn.C45_hop_runs_one_operation
  Feyn.C46_semantics
  Feyn.C46_get
  Feyn.C47_fits_partial
  Feyn.C47_refuted
  Feyn.C48_scope_exit
  Feyn.C48_exactly_once
  Feyn.C49_atomic
  Feyn.C49_small_files_not_atomic
  Feyn.C50_propagators_are_local
  Feyn.C51_estimator_restart
  Feyn.C51_estimator_error
  Feyn.C51_too_long
  Feyn.C51_histogram_restart
  Feyn.C52_run_partial
  Feyn.C52_quiet
  Feyn.C52_refuted_early_print
  Feyn.C53_restart_same_run
  Feyn.C53_restart_same_measurements
  Feyn.C54_memory_start
  Feyn.C54_memory_start_measurements
  Feyn.C55_tables_update
  Feyn.C55_tables_run
  Feyn.C56_connected
  Feyn.C56_step
  Feyn.C57_skeleton
  Feyn.C57_no_tadpole
  Feyn.C57_worm_tadpole
  Feyn.C58_return_partial
  Feyn.C58_mutual_partial
  Feyn.C58_transfer
  Feyn.C58_grid
  Feyn.C59_para_round_trip
  Feyn.C59_alive
  Feyn.C59_save
  Feyn.C59_restart_partial
  Feyn.C59_continues_partial
  Feyn.C59_gamma
  Feyn.C59_refuted_no_statistics
  Feyn.C59_refuted_anneal
  Feyn.C59_refuted_order_zero
  Feyn.C59_fresh
  Feyn.C59_shape
  Feyn.C60_pooled
  Feyn.C60_order
  Feyn.C60_share
  Feyn.C60_processes
  Feyn.C60_failure_partial
  Feyn.C60_refuted_norm
  Feyn.C60_refuted_half
  Feyn.C60_refuted_orders
  Feyn.C60_success
  Feyn.C60_units
  Feyn.C61_accepted_partial
  Feyn.C61_monotone
  Feyn.C61_refused
  Feyn.C61_crash
  Feyn.C61_refuted_empty
  Feyn.C62_counts
  Feyn.C62_bounds
  Feyn.C62_order
  Feyn.C62_worms
  Feyn.C62_measuring
  Feyn.C62_gammas
  Feyn.C63_transform
  Feyn.C63_sequence
  Feyn.C63_faithful
  Feyn.C63_matsubara
  Feyn.C64_G
  Feyn.C64_W
  Feyn.C65_ledger
  Feyn.C65_delta
  Feyn.C65_sigma_partial
  Feyn.C65_sigma_mc
  Feyn.C65_polar_partial
  Feyn.C65_refuted_collect
  Feyn.C65_refuted_first_G
  Feyn.C65_refuted_first
  Feyn.C65_refuted_domain
  Feyn.C66_spin
  Feyn.C66_square
  Feyn.C66_checkerboard
  Feyn.C66_triangular
  Feyn.C66_asymmetric_partial
  Feyn.C66_honeycomb
  Feyn.C66_kagome
  Feyn.C66_cubic_partial
  Feyn.C66_checkerboard3
  Feyn.C66_pyrochlore
  Feyn.C66_chain
  Feyn.C66_valence
  Feyn.C66_swap
  Feyn.C66_refuted_strip
  Feyn.C66_refuted_triangular
  Feyn.C66_refuted_cubic
  Feyn.C66_refuted_asymmetric
  Feyn.C66_refuted_hubbard
  Feyn.C66_index
  Feyn.C67_transform
  Feyn.C67_momenta
  Feyn.C67_momenta_partial
  Feyn.C67_fits
  Feyn.C67_integer
  Feyn.C67_refuted
  Feyn.C67_staggered
  Feyn.C67_refuted_staggered
  Feyn.C68_uniform
  Feyn.C68_staggered_partial
  Feyn.C68_refuted_staggered
  Feyn.C69_propagator
  Feyn.C69_bare
  Feyn.C69_spin
  Feyn.C69_popov
  Feyn.C69_equation
  Feyn.C69_measured
  Feyn.C69_refuted_imw
  Feyn.C70_saved
  Feyn.C70_multiple
  Feyn.C70_revert
  Feyn.C70_stays
  Feyn.C70_reaches
  Feyn.C70_refuted_multiple
  Feyn.C70_refuted_first
  Feyn.C71_address
  Feyn.C71_G
  Feyn.C71_W
  Feyn.C71_statistics
  Feyn.C71_coordinates
  Feyn.C71_times
  Feyn.C71_refuted_shape
  Feyn.C72_sigma_partial
  Feyn.C72_polar
  Feyn.C72_python_sigma
  Feyn.C72_python_polar
  Feyn.C72_python_local
  Feyn.C72_extrapolation
  Feyn.C72_no_instantaneous
  Feyn.C72_refuted_onsite
  Feyn.C72_refuted_polar
  Feyn.C73_times
  Feyn.C73_time_factors_partial
  Feyn.C73_refuted_is
  Feyn.C73_sites_partial
  Feyn.C73_refuted_triangular
  Feyn.C73_uncompress
  Feyn.C73_compress
  Feyn.C73_load
  Feyn.C73_read_partial
  Feyn.C73_read_reversed
  Feyn.C73_refuted_exchange
  Feyn.C73_lengths
  Feyn.C74_restart
  Feyn.C74_refuted_restart
  Feyn.C74_interaction_partial
  Feyn.C74_refuted_shape
  Feyn.C74_history
  Feyn.C74_collect
  Feyn.C74_total
  Feyn.C74_refuted_merge
  Feyn.C74_missing
  Feyn.C74_shape
  Feyn.C74_refuted_norm
  Feyn.C75_once
  Feyn.C75_limit
  Feyn.C75_end
  Feyn.C75_terminates
  Feyn.C75_refuted_stop
  Feyn.C75_refuted_cpu
  Feyn.C75_sweep
  Feyn.C75_refuted_sweep
  Feyn.C75_fresh
  Feyn.C75_resume
  Feyn.C75_refuted_more
  Feyn.C75_refuted_total
  Feyn.C75_files
  Feyn.C75_refuted_files
  Feyn.C76_join
  Feyn.C76_ladder
  Feyn.C76_exchange
  Feyn.C76_equation
  Feyn.C76_hermitian
  Feyn.C76_versions
  Feyn.C76_bubble
  Feyn.C76_refuted_down
  Feyn.C77_run_partial
  Feyn.C77_new
  Feyn.C77_bareG
  Feyn.C77_bareW
  Feyn.C77_square
  Feyn.C77_first
  Feyn.C77_vertex
  Feyn.C77_instability
  Feyn.C77_start
  Feyn.C77_weak
  Feyn.C78_limit
  Feyn.C78_fixed
  Feyn.C78_unchanged
  Feyn.C79_measured
  Feyn.C79_rpa_partial
  Feyn.C79_rotation
  Feyn.C79_crash
  Feyn.C79_free
  Feyn.C79_free_limit
  Feyn.C79_sumrule_partial
  Feyn.C79_refuted_order
  Feyn.C79_refuted_twice
  Feyn.C79_refuted_sumrule
  Feyn.C80_kernel
  Feyn.C80_bands
  Feyn.C80_distinct
  Feyn.C80_square_partial
  Feyn.C80_honeycomb_partial
  Feyn.C80_field
  Feyn.C80_refuted_single
  Feyn.C80_refuted_phase
  Feyn.C80_refuted_pauli
  Feyn.C80_refuted_degenerate
  Feyn.C80_refuted_sign
  Feyn.C81_square
  Feyn.C81_honeycomb
  Feyn.C81_kitaev
  Feyn.C81_swap
  Feyn.C81_kitaev_swap
  Feyn.C81_haldane_partial
  Feyn.C81_refuted_haldane
  Feyn.C81_refuted_lattice
  Feyn.C81_refuted_hopping
  Feyn.C81_refuted_name
  Feyn.C81_refuted_strip
  Feyn.C81_refuted_column
  Feyn.C82_round_trip
  Feyn.C82_map_order
  Feyn.C82_integer
  Feyn.C82_kinds
  Feyn.C82_list
  Feyn.C82_set_get
  Feyn.C82_load_partial
  Feyn.C82_keys
  Feyn.C82_tuple_partial
  Feyn.C82_refuted_nul
  Feyn.C82_refuted_range
  Feyn.C82_refuted_ullong
  Feyn.C82_refuted_spin
  Feyn.C82_refuted_append
  Feyn.C82_refuted_load
  Feyn.C82_refuted_tuple
  Feyn.C82_refuted_key
  Feyn.C82_tuple_length
  Feyn.C82_as
  Feyn.C82_refuted_large
  Feyn.C82_map_refused
  Feyn.C82_refuted_key_map
  Feyn.C82_refuted_merge
  Feyn.C83_step
  Feyn.C83_exec
  Feyn.C83_members
  Feyn.C83_cast_leaf
  Feyn.C83_cast_list
  Feyn.C83_cast_map
  Feyn.C83_convert_leaf
  Feyn.C83_convert_list
  Feyn.C83_convert_map
  Feyn.C83_call
  Feyn.C83_eval
  Feyn.C83_array
  Feyn.C83_refuted_tuple
  Feyn.C83_refuted_pair
  Feyn.C84_explore
  Feyn.C84_continuous
  Feyn.C84_mark
  Feyn.C85_roundtrip_partial
  Feyn.C85_statistics
  Feyn.C85_accepts
  Feyn.C85_keys
  Feyn.C85_stable
  Feyn.C85_unchanged
  Feyn.C85_old_file
  Feyn.C85_refuted_directory
  Feyn.C85_refuted_underscore
  Feyn.C85_refuted_number_key
  Feyn.C85_refuted_tuple
  Feyn.C85_refuted_nested
  Feyn.C85_refuted_kinds
  Feyn.C85_refuted_clash
  Feyn.C85_refuted_raise
  Feyn.C85_refuted_zero
  Feyn.C85_refuted_unicode
  Feyn.C85_weights
  Feyn.C85_number_key
  Feyn.C85_incomplete
  Feyn.C85_no_smooth
  Feyn.C86_draws
  Feyn.C86_moves
  Feyn.C86_acceptance
  Feyn.C86_balance
  Feyn.C86_total
  Feyn.C86_stationary_partial
  Feyn.C86_sources
  Feyn.C86_around_partial
  Feyn.C86_good
  Feyn.C86_refuted
  Feyn.C87_sigma
  Feyn.C87_polar
  Feyn.C87_norm
  Feyn.C87_gamma
  Feyn.C87_reweight
  Feyn.C87_sector
  Feyn.C87_first_sigma_partial
  Feyn.C87_first_polar_partial
  Feyn.C87_estimator
  Feyn.C88_factor
  Feyn.C88_det
  Feyn.C88_solve_slow
  Feyn.C88_solve_fast_partial
  Feyn.C88_argument
  Feyn.C88_fortran
  Feyn.C88_refuted_fortran
  Feyn.C88_refuted_twice
  Feyn.C88_refuted_altered
  Feyn.C88_check
  Feyn.C88_check_real
  Feyn.C88_refuted_unnoticed
  Feyn.C88_refuted_alarm
  Feyn.C88_solver
  Feyn.C88_W
  Feyn.C88_real
  Feyn.C88_W_real
  Feyn.C89_choice
  Feyn.C89_even
  Feyn.C89_refuted_momenta
  Feyn.C89_number
  Feyn.C89_update
  Feyn.C89_words
  Feyn.C89_steps
  Feyn.C89_step
  Feyn.C89_stationary_partial
  Feyn.C90_words
  Feyn.C90_proper
  Feyn.C90_text
  Feyn.C90_continue
  Feyn.C90_start
  Feyn.C90_incomplete
  Feyn.C90_seeds
  Feyn.C90_determined
  Feyn.C90_nonzero
  Feyn.C90_period
  Feyn.C90_restart
  Feyn.C90_refuted_cut
  Feyn.C90_refuted_reset
  Feyn.C90_refuted_sign
  Feyn.C91_calls
  Feyn.C91_reads
  Feyn.C91_hops
  Feyn.C91_split
  Feyn.C91_restart
  Feyn.C91_seed
  Feyn.C91_sweeps
  Feyn.C91_interruptions
  Feyn.C91_goes_on
  Feyn.C92_urn
  Feyn.C92_select
  Feyn.C92_times
  Feyn.C92_order
  Feyn.C92_bins
  Feyn.C92_same_bin
  Feyn.C92_centre
  Feyn.C92_gamma
  Feyn.C92_gamma_same
  Feyn.C92_refuted_temperatures
  Feyn.C92_refuted_border
  Feyn.C92_rounding
  Feyn.C93_rpa
  Feyn.C93_fails
  Feyn.C93_bare
  Feyn.C93_same
  Feyn.C94_path
  Feyn.C94_cache
  Feyn.C94_corner
  Feyn.C94_found
  Feyn.C94_equal
  Feyn.C94_staggered_partial
  Feyn.C94_refuted_corner
  Feyn.C94_refuted_two
  Feyn.C94_centres
  Feyn.C95_all_or_nothing
  Feyn.C95_reported_partial
  Feyn.C95_refuted_term
  Feyn.C95_refuted_background
  Feyn.C95_never_lost
  Feyn.C95_version
  Feyn.C95_signals
  Feyn.C95_crash
  Feyn.C95_restart
  Feyn.C95_refuted_crash
  Feyn.C95_weights_intact
  Feyn.C95_history
  Feyn.C95_one_value_partial
  Feyn.C95_refuted_pyrochlore
  Feyn.C95_refuted_history
  Feyn.C95_outside
  Feyn.C95_lattices
  Feyn.C96_square_partial
  Feyn.C96_checkerboard_partial
  Feyn.C96_triangular_partial
  Feyn.C96_asymmetric_partial
  Feyn.C96_honeycomb_partial
  Feyn.C96_kagome_partial
  Feyn.C96_cubic_partial
  Feyn.C96_checkerboard3_partial
  Feyn.C96_pyrochlore_partial
  Feyn.C96_chain_partial
  Feyn.C96_valence_partial
  Feyn.C96_refuted_energy
  Feyn.C96_refuted_next
  Feyn.C96_sumRule
  Feyn.C96_magnetisation
  Feyn.C97_asks
  Feyn.C97_overflow
  Feyn.C97_apart
  Feyn.C97_due
  Feyn.C97_first
  Feyn.C97_refuted_clock
  Feyn.C97_local_partial
  Feyn.C97_refuted_local
  Feyn.C97_counts
  Feyn.C98_fermi
  Feyn.C98_bose
  Feyn.C98_reflect
  Feyn.C98_frequencies
  Feyn.C98_times_partial
  Feyn.C98_refuted_times
  Feyn.C98_refuted_range
  Feyn.C98_bins
  Feyn.C98_symmetric_partial
  Feyn.C98_refuted_symmetric
  Feyn.C98_basis
  Feyn.C98_best
  Feyn.C98_fit_restore
  Feyn.C98_restore_fit
  Feyn.C98_coarse
  Feyn.C98_exists
  Feyn.C98_refuted_kind
  Feyn.C99_update
  Feyn.C99_calls
  Feyn.C99_pair
  Feyn.C99_laws
  Feyn.C99_run
  Feyn.C99_printed
  Feyn.C99_jump
  Feyn.C100_sites
  Feyn.C100_place
  Feyn.C100_cells
  Feyn.C100_distinct
  Feyn.C100_window
  Feyn.C100_neighbours
  Feyn.C100_lines
  Feyn.C100_bonds
  Feyn.C100_threshold
  Feyn.C100_fourier
  Feyn.C100_refuted_three
  Feyn.C100_refuted_kitaev
  Feyn.C100_kitaev_coupled
  Feyn.C101_run
  Feyn.C101_other
  Feyn.C101_error
  Feyn.C101_process
  Feyn.C101_source
  Feyn.C101_refuted_source
  Feyn.C101_refuted_month
  Feyn.C102_read
  Feyn.C102_texts
  Feyn.C102_accepted
  Feyn.C102_injective
  Feyn.C102_short
  Feyn.C102_equal
  Feyn.C102_near
  Feyn.C102_refuted_transitive
  Feyn.C102_momentum
  Feyn.C102_refuted_momentum
  Feyn.C103_lookup
  Feyn.C103_once
  Feyn.C103_reload
  Feyn.C103_twice
  Feyn.C103_new
  Feyn.C103_missing
  Feyn.C103_refuted_unknown
  Feyn.C103_kept
  Feyn.C104_list
  Feyn.C104_kept
  Feyn.C104_diagonal_partial
  Feyn.C104_refuted_sign
  Feyn.C104_refuted_flip
  Feyn.C104_refuted
  Feyn.C105_same
  Feyn.C105_site
  Feyn.C105_difference
  Feyn.C105_origin
  Feyn.C105_once
  Feyn.C106_inverse
  Feyn.C106_singular
