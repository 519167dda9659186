import Verif.Props.Accounting
import Verif.Props.Accuracy
import Verif.Props.AgentNames
import Verif.Props.ArgsFile
import Verif.Props.Averages
import Verif.Props.AxisLabels
import Verif.Props.Batch
import Verif.Props.BatchFloats
import Verif.Props.BatchIds
import Verif.Props.BatchMain
import Verif.Props.BatchPlots
import Verif.Props.BatchRow
import Verif.Props.BatchRun
import Verif.Props.Beliefs
import Verif.Props.BestCount
import Verif.Props.Bystanders
import Verif.Props.Cache
import Verif.Props.Cli
import Verif.Props.CommandLine
import Verif.Props.Commit
import Verif.Props.Conflict
import Verif.Props.Construct
import Verif.Props.ConvergedRow
import Verif.Props.CostEfficient
import Verif.Props.Crash
import Verif.Props.CrashFloats
import Verif.Props.Curve
import Verif.Props.Delegation
import Verif.Props.Derived
import Verif.Props.Distr
import Verif.Props.DraftIds
import Verif.Props.Drift
import Verif.Props.EndToEnd
import Verif.Props.Equilibrium
import Verif.Props.Export
import Verif.Props.Files
import Verif.Props.Gini
import Verif.Props.Graphs
import Verif.Props.IdleFloats
import Verif.Props.IdleSimultaneous
import Verif.Props.Imports
import Verif.Props.Limits
import Verif.Props.Longer
import Verif.Props.Loop
import Verif.Props.MainFloats
import Verif.Props.MainRun
import Verif.Props.Margins
import Verif.Props.MetricMeaning
import Verif.Props.Metrics
import Verif.Props.MinPledge
import Verif.Props.Monopoly
import Verif.Props.MonopolyTogether
import Verif.Props.Names
import Verif.Props.NoConvergence
import Verif.Props.Normalising
import Verif.Props.Operators
import Verif.Props.Order
import Verif.Props.Orderly
import Verif.Props.OrderlyRun
import Verif.Props.Orders
import Verif.Props.Parameters
import Verif.Props.PhaseValues
import Verif.Props.Phases
import Verif.Props.Placed
import Verif.Props.Placeholders
import Verif.Props.Planned
import Verif.Props.Planning
import Verif.Props.PoolCount
import Verif.Props.PrivateFloats
import Verif.Props.ProjectTests
import Verif.Props.PublicInfo
import Verif.Props.Ranking
import Verif.Props.Rational
import Verif.Props.Ratios
import Verif.Props.Rejects
import Verif.Props.Rerun
import Verif.Props.Rewards
import Verif.Props.Rounding
import Verif.Props.Rounds
import Verif.Props.RunFloats
import Verif.Props.SameView
import Verif.Props.Sampling
import Verif.Props.Search
import Verif.Props.SetOrder
import Verif.Props.Simultaneous
import Verif.Props.SoleMetrics
import Verif.Props.SolePools
import Verif.Props.SoleTogether
import Verif.Props.Split
import Verif.Props.StakeFile
import Verif.Props.Structure
import Verif.Props.Table
import Verif.Props.Target
import Verif.Props.Thresholds
import Verif.Props.Tighter
import Verif.Props.TopK
import Verif.Props.Viable
import Verif.Props.Viz

/-! Axioms used by every property theorem (generated by tools/sync.py). -/

#print axioms RSE.Props.C20_stake_is_pledge_plus_delegations
#print axioms RSE.Props.C20_delegations_counted_once
#print axioms RSE.Props.C22_no_overcommitment
#print axioms RSE.Props.C23_stake_conservation
#print axioms RSE.Props.C24_private_pools_have_no_delegators
#print axioms RSE.Props.C64_private_pool_has_no_delegators
#print axioms RSE.Props.C24_private_iff_pledge_saturates
#print axioms RSE.Props.C65_pools_of_an_operator_are_alike
#print axioms RSE.Props.C65_same_pledge_and_cost
#print axioms RSE.Props.C68_margins_in_unit_interval
#print axioms RSE.Props.C05_utilities_add_up
#print axioms RSE.Props.C05_rewards_bounded
#print axioms RSE.Props.C51_pledge_rate_without_pools
#print axioms RSE.Props.C51_pledge_rate_in_unit_interval
#print axioms RSE.Props.C105_reward
#print axioms RSE.Props.C105_reward_le
#print axioms RSE.Props.C105_profits
#print axioms RSE.Props.C105_desirability
#print axioms RSE.Props.C105_utilities
#print axioms RSE.Props.C105_split
#print axioms RSE.Props.C105_order
#print axioms RSE.Props.C108_events
#print axioms RSE.Props.C108_alike
#print axioms RSE.Props.C108_metrics
#print axioms RSE.Props.C108_position_matters
#print axioms RSE.Props.C99_recorded
#print axioms RSE.Props.C99_place
#print axioms RSE.Props.C99_repeat
#print axioms RSE.Props.C99_no_seed
#print axioms RSE.Props.C99_batch
#print axioms RSE.Props.C99_no_file
#print axioms RSE.Props.C99_missing
#print axioms RSE.Props.C99_partial_leaves_files
#print axioms RSE.Props.C70_pledge
#print axioms RSE.Props.C70_margin
#print axioms RSE.Props.C70_saturation
#print axioms RSE.Props.C70_no_pools
#print axioms RSE.Props.C135_positive
#print axioms RSE.Props.C135_order
#print axioms RSE.Props.C135_powers
#print axioms RSE.Props.C135_negative
#print axioms RSE.Props.C135_zero
#print axioms RSE.Props.C135_given
#print axioms RSE.Props.C135_ticks
#print axioms RSE.Props.C135_ticks_sharp
#print axioms RSE.Props.C55_grid
#print axioms RSE.Props.C55_fixed
#print axioms RSE.Props.C55_empty
#print axioms RSE.Props.C56_runs
#print axioms RSE.Props.C56_no_clash
#print axioms RSE.Props.C56_seeds
#print axioms RSE.Props.C71_columns
#print axioms RSE.Props.C72_iteration_always_zero
#print axioms RSE.Props.C130_completes
#print axioms RSE.Props.C130_default
#print axioms RSE.Props.C56_execution_id
#print axioms RSE.Props.C71_contents
#print axioms RSE.Props.C122_runs
#print axioms RSE.Props.C122_completes
#print axioms RSE.Props.C122_taken
#print axioms RSE.Props.C122_seed
#print axioms RSE.Props.C122_default
#print axioms RSE.Props.C88_scatter
#print axioms RSE.Props.C88_heatmap
#print axioms RSE.Props.C88_repeated_value
#print axioms RSE.Props.C88_plots
#print axioms RSE.Props.C88_no_runs
#print axioms RSE.Props.C88_crash
#print axioms RSE.Props.C88_files
#print axioms RSE.Props.C88_profiles_ignored
#print axioms RSE.Props.C88_ordinary
#print axioms RSE.Props.C88_schemes
#print axioms RSE.Props.C37_row
#print axioms RSE.Props.C37_converged
#print axioms RSE.Props.C37_metrics
#print axioms RSE.Props.C37_stale_row
#print axioms RSE.Props.C114_results
#print axioms RSE.Props.C114_processes
#print axioms RSE.Props.C114_one_row_each
#print axioms RSE.Props.C90_present_strategy
#print axioms RSE.Props.C90_plan
#print axioms RSE.Props.C97_best
#print axioms RSE.Props.C97_alone
#print axioms RSE.Props.C97_missed
#print axioms RSE.Props.C97_false_equilibrium
#print axioms RSE.Props.C116_delegation
#print axioms RSE.Props.C116_bystanders
#print axioms RSE.Props.C63_transparent
#print axioms RSE.Props.C63_needs_congruence
#print axioms RSE.Props.C63_helpers
#print axioms RSE.Props.C60_ints
#print axioms RSE.Props.C60_finite
#print axioms RSE.Props.C60_malformed
#print axioms RSE.Props.C60_nan_accepted
#print axioms RSE.Props.C60_all_accepted
#print axioms RSE.Props.C61_reproducible
#print axioms RSE.Props.C61_exactly
#print axioms RSE.Props.C61_drawn_seed
#print axioms RSE.Props.C61_seed_from_file
#print axioms RSE.Props.C61_stakes_from_file
#print axioms RSE.Props.C120_iff
#print axioms RSE.Props.C120_main
#print axioms RSE.Props.C120_batch
#print axioms RSE.Props.C120_same
#print axioms RSE.Props.C120_main_numbers
#print axioms RSE.Props.C120_main_others
#print axioms RSE.Props.C120_main_profiles
#print axioms RSE.Props.C120_lists
#print axioms RSE.Props.C120_bare
#print axioms RSE.Props.C120_switch
#print axioms RSE.Props.C120_one_after_equals
#print axioms RSE.Props.C120_unknown
#print axioms RSE.Props.C120_main_start
#print axioms RSE.Props.C120_no_execution_id
#print axioms RSE.Props.C120_main_defaults
#print axioms RSE.Props.C120_batch_lacks
#print axioms RSE.Props.C120_batch_defaults
#print axioms RSE.Props.C120_batch_schemes
#print axioms RSE.Props.C120_batch_values
#print axioms RSE.Props.C120_batch_runs
#print axioms RSE.Props.C104_committed
#print axioms RSE.Props.C104_single_phase
#print axioms RSE.Props.C104_total
#print axioms RSE.Props.C104_pool_stakes
#print axioms RSE.Props.C102_public
#print axioms RSE.Props.C102_conflict
#print axioms RSE.Props.C102_iff
#print axioms RSE.Props.C102_batch
#print axioms RSE.Props.C102_happens
#print axioms RSE.Props.C77_choices
#print axioms RSE.Props.C77_constructor
#print axioms RSE.Props.C131_simultaneous
#print axioms RSE.Props.C131_floats
#print axioms RSE.Props.C131_one_idle_round_simultaneous
#print axioms RSE.Props.C131_one_idle_round_floats
#print axioms RSE.Props.C107_meaning
#print axioms RSE.Props.C107_uncounted_operators
#print axioms RSE.Props.C107_operators_counted
#print axioms RSE.Props.C107_not_counted
#print axioms RSE.Props.C66_open_pools_profitable
#print axioms RSE.Props.C66_before_placeholders
#print axioms RSE.Props.C29_never_crashes
#print axioms RSE.Props.C29_rounds_never_crash
#print axioms RSE.Props.C29_cip50_exact
#print axioms RSE.Props.C29_cip50_crashes
#print axioms RSE.Props.C124_no_crash
#print axioms RSE.Props.C124_cheap_pools
#print axioms RSE.Props.C124_rounds
#print axioms RSE.Props.C124_pledges_needed
#print axioms RSE.Props.C06_root_one
#print axioms RSE.Props.C06_crossover
#print axioms RSE.Props.C06_saturated
#print axioms RSE.Props.C06_negative
#print axioms RSE.Props.C17_plan_feasible
#print axioms RSE.Props.C17_plan_respects_saturation
#print axioms RSE.Props.C18_plan_complete
#print axioms RSE.Props.C18_plan_in_ranking_order
#print axioms RSE.Props.C81_figures_current
#print axioms RSE.Props.C81_figures_current_single_phase
#print axioms RSE.Props.C81_order_of_rankings
#print axioms RSE.Props.C41_sum_one
#print axioms RSE.Props.C41_nonpositive
#print axioms RSE.Props.C41_corner
#print axioms RSE.Props.C42_last_agent_gets_inactive_stake
#print axioms RSE.Props.C42_others
#print axioms RSE.Props.C42_only_if_it_fits
#print axioms RSE.Props.C42_all_inactive
#print axioms RSE.Props.C43_flat
#print axioms RSE.Props.C43_disparity
#print axioms RSE.Props.C44_schemes
#print axioms RSE.Props.C45_setter
#print axioms RSE.Props.C45_zero
#print axioms RSE.Props.C45_inflate
#print axioms RSE.Props.C45_inflation_lost
#print axioms RSE.Props.C45_revise_changes_threshold
#print axioms RSE.Props.C46_truncated
#print axioms RSE.Props.C46_draws
#print axioms RSE.Props.C46_generated
#print axioms RSE.Props.C46_diverges
#print axioms RSE.Props.C69_disparity
#print axioms RSE.Props.C69_bands_manual
#print axioms RSE.Props.C69_uniform
#print axioms RSE.Props.C69_bands
#print axioms RSE.Props.C69_normal
#print axioms RSE.Props.C69_normal_out_of_range
#print axioms RSE.Props.C69_invalid
#print axioms RSE.Props.C133_ids_of_a_plan
#print axioms RSE.Props.C133_discard
#print axioms RSE.Props.C133_discard_adopted
#print axioms RSE.Props.C133_turn
#print axioms RSE.Props.C133_run
#print axioms RSE.Props.C133_gaps
#print axioms RSE.Props.C103_drift
#print axioms RSE.Props.C103_linear
#print axioms RSE.Props.C103_positive
#print axioms RSE.Props.C78_completes
#print axioms RSE.Props.C78_completes_phases
#print axioms RSE.Props.C80_idle_forever
#print axioms RSE.Props.C80_idle_stays
#print axioms RSE.Props.C80_reported_equilibrium
#print axioms RSE.Props.C80_window_irrelevant
#print axioms RSE.Props.C75_agents_file
#print axioms RSE.Props.C75_pools_file
#print axioms RSE.Props.C75_wrap_up
#print axioms RSE.Props.C76_initial_descriptors
#print axioms RSE.Props.C76_no_agents
#print axioms RSE.Props.C57_roundtrip
#print axioms RSE.Props.C57_increasing
#print axioms RSE.Props.C57_first
#print axioms RSE.Props.C57_killed_while_writing
#print axioms RSE.Props.C57_same_id
#print axioms RSE.Props.C58_one_header
#print axioms RSE.Props.C58_append
#print axioms RSE.Props.C58_rows
#print axioms RSE.Props.C58_header_first
#print axioms RSE.Props.C58_two_headers
#print axioms RSE.Props.C58_first_writer_alone
#print axioms RSE.Props.C59_directories_differ
#print axioms RSE.Props.C59_identifiers_differ
#print axioms RSE.Props.C59_tracker_identifier
#print axioms RSE.Props.C59_length
#print axioms RSE.Props.C59_first_five
#print axioms RSE.Props.C59_never_shared
#print axioms RSE.Props.C48_relative_mean_difference
#print axioms RSE.Props.C48_zero_sum
#print axioms RSE.Props.C48_range
#print axioms RSE.Props.C48_minus_one
#print axioms RSE.Props.C48_order
#print axioms RSE.Props.C48_scale
#print axioms RSE.Props.C48_maximum
#print axioms RSE.Props.C48_metrics
#print axioms RSE.Props.C48_padding
#print axioms RSE.Props.C82_graphs
#print axioms RSE.Props.C82_simulate
#print axioms RSE.Props.C129_idle_turn
#print axioms RSE.Props.C129_idle_unchanged
#print axioms RSE.Props.C129_two_idle_rounds
#print axioms RSE.Props.C129_covers
#print axioms RSE.Props.C129_idle_stays
#print axioms RSE.Props.C129_reported_equilibrium
#print axioms RSE.Props.C129_idle_round_disturbs
#print axioms RSE.Props.C128_two_idle_rounds
#print axioms RSE.Props.C128_one_idle_round
#print axioms RSE.Props.C128_idle_stays
#print axioms RSE.Props.C128_reported_equilibrium
#print axioms RSE.Props.C128_idle_round_moves_stake
#print axioms RSE.Props.C128_reported_too_early
#print axioms RSE.Props.C117_programs
#print axioms RSE.Props.C117_one
#print axioms RSE.Props.C117_runViz
#print axioms RSE.Props.C117_caught
#print axioms RSE.Props.C117_tests
#print axioms RSE.Props.C117_never_too_deep
#print axioms RSE.Props.C118_endings
#print axioms RSE.Props.C118_not_lowered
#print axioms RSE.Props.C118_terminates
#print axioms RSE.Props.C126_iterations
#print axioms RSE.Props.C126_patience
#print axioms RSE.Props.C126_first_phase
#print axioms RSE.Props.C126_metrics
#print axioms RSE.Props.C126_patience_phases
#print axioms RSE.Props.C33_terminates
#print axioms RSE.Props.C34_equilibrium
#print axioms RSE.Props.C34_first
#print axioms RSE.Props.C36_rows
#print axioms RSE.Props.C38_pivots
#print axioms RSE.Props.C33_not_exported
#print axioms RSE.Props.C34_stale_equilibrium
#print axioms RSE.Props.C127_completes
#print axioms RSE.Props.C127_pareto
#print axioms RSE.Props.C127_flat
#print axioms RSE.Props.C127_main
#print axioms RSE.Props.C127_default
#print axioms RSE.Props.C121_arguments
#print axioms RSE.Props.C121_completes
#print axioms RSE.Props.C121_rejected
#print axioms RSE.Props.C121_default
#print axioms RSE.Props.C07_margin_range
#print axioms RSE.Props.C07_hits_target
#print axioms RSE.Props.C07_zero_iff
#print axioms RSE.Props.C07_needs_nonneg_target
#print axioms RSE.Props.C08_nonneg
#print axioms RSE.Props.C08_le_profit
#print axioms RSE.Props.C08_antitone
#print axioms RSE.Props.C08_margin_setter
#print axioms RSE.Props.C11_total_cost
#print axioms RSE.Props.C11_average_cost_mono
#print axioms RSE.Props.C12_pledge_per_pool
#print axioms RSE.Props.C13_splitting_profit
#print axioms RSE.Props.C91_all
#print axioms RSE.Props.C91_meaning
#print axioms RSE.Props.C47_nakamoto
#print axioms RSE.Props.C47_no_pools
#print axioms RSE.Props.C47_initial
#print axioms RSE.Props.C49_stake_per_agent
#print axioms RSE.Props.C49_stake_per_agent_id
#print axioms RSE.Props.C49_unknown_owner
#print axioms RSE.Props.C49_reachable
#print axioms RSE.Props.C50_homogeneity
#print axioms RSE.Props.C50_no_pools
#print axioms RSE.Props.C50_reachable
#print axioms RSE.Props.C53_statistical_distance
#print axioms RSE.Props.C53_no_pools
#print axioms RSE.Props.C92_no_pools
#print axioms RSE.Props.C92_solver
#print axioms RSE.Props.C92_minimum
#print axioms RSE.Props.C92_reachable
#print axioms RSE.Props.C92_attack
#print axioms RSE.Props.C92_nakamoto
#print axioms RSE.Props.C134_first_round
#print axioms RSE.Props.C134_second_round
#print axioms RSE.Props.C134_later_rounds
#print axioms RSE.Props.C134_metrics
#print axioms RSE.Props.C134_run
#print axioms RSE.Props.C137_rounds
#print axioms RSE.Props.C137_run
#print axioms RSE.Props.C137_as_sequential
#print axioms RSE.Props.C137_simultaneous
#print axioms RSE.Props.C137_semi
#print axioms RSE.Props.C137_metrics
#print axioms RSE.Props.C85_events
#print axioms RSE.Props.C85_row
#print axioms RSE.Props.C85_runs
#print axioms RSE.Props.C84_cycle
#print axioms RSE.Props.C84_cycle_runs
#print axioms RSE.Props.C84_never_converges
#print axioms RSE.Props.C109_normalised
#print axioms RSE.Props.C109_nonneg
#print axioms RSE.Props.C109_nothing
#print axioms RSE.Props.C109_negative_stake
#print axioms RSE.Props.C109_negative_pledge
#print axioms RSE.Props.C52_operator_count
#print axioms RSE.Props.C52_max
#print axioms RSE.Props.C52_average_and_median
#print axioms RSE.Props.C52_splitters
#print axioms RSE.Props.C52_no_pools
#print axioms RSE.Props.C54_rounding
#print axioms RSE.Props.C54_ranks
#print axioms RSE.Props.C54_no_pools
#print axioms RSE.Props.C73_frozen
#print axioms RSE.Props.C73_thawed
#print axioms RSE.Props.C73_spurious_equilibrium
#print axioms RSE.Props.C100_batch
#print axioms RSE.Props.C100_blame
#print axioms RSE.Props.C100_planning
#print axioms RSE.Props.C100_orderly
#print axioms RSE.Props.C100_no_operators
#print axioms RSE.Props.C100_one_at_a_time
#print axioms RSE.Props.C100_accounting
#print axioms RSE.Props.C100_needed
#print axioms RSE.Props.C101_batch
#print axioms RSE.Props.C101_blame
#print axioms RSE.Props.C101_no_operators
#print axioms RSE.Props.C101_first_round
#print axioms RSE.Props.C101_one_at_a_time
#print axioms RSE.Props.C101_open_pools_profitable
#print axioms RSE.Props.C101_needed
#print axioms RSE.Props.C40_orders
#print axioms RSE.Props.C115_a0
#print axioms RSE.Props.C115_a0_strict
#print axioms RSE.Props.C115_a0_cip50
#print axioms RSE.Props.C115_saturated
#print axioms RSE.Props.C115_k_saturated
#print axioms RSE.Props.C115_k_cip50
#print axioms RSE.Props.C115_k_unsaturated
#print axioms RSE.Props.C79_values_in_force
#print axioms RSE.Props.C30_relaxing_phases_never_crash
#print axioms RSE.Props.C30_causes
#print axioms RSE.Props.C30_index_error
#print axioms RSE.Props.C30_attribute_error
#print axioms RSE.Props.C94_plan
#print axioms RSE.Props.C111_no_turn
#print axioms RSE.Props.C111_phase
#print axioms RSE.Props.C111_documented
#print axioms RSE.Props.C111_exact
#print axioms RSE.Props.C111_stuck_delegator
#print axioms RSE.Props.C111_seven
#print axioms RSE.Props.C111_stuck
#print axioms RSE.Props.C93_one_plan
#print axioms RSE.Props.C93_plan
#print axioms RSE.Props.C31_inertia
#print axioms RSE.Props.C31_staged_strategy_beats
#print axioms RSE.Props.C19_planning_exact
#print axioms RSE.Props.C35_idle_round
#print axioms RSE.Props.C132_costs_covered
#print axioms RSE.Props.C132_count
#print axioms RSE.Props.C132_not_k
#print axioms RSE.Props.C132_costs_not_covered
#print axioms RSE.Props.C106_no_new_delegations
#print axioms RSE.Props.C106_small
#print axioms RSE.Props.C106_linear
#print axioms RSE.Props.C106_private_pool_with_delegator
#print axioms RSE.Props.C119_helper_pass
#print axioms RSE.Props.C119_pareto
#print axioms RSE.Props.C119_flat_is_flaky
#print axioms RSE.Props.C119_metrics_pass
#print axioms RSE.Props.C119_keep_passes
#print axioms RSE.Props.C119_utility_fails
#print axioms RSE.Props.C119_margin_fails
#print axioms RSE.Props.C119_unranked
#print axioms RSE.Props.C119_delegation_fails
#print axioms RSE.Props.C119_others_fail
#print axioms RSE.Props.C112_same_plan
#print axioms RSE.Props.C112_same_decision
#print axioms RSE.Props.C112_first_move
#print axioms RSE.Props.C16_keeps_the_best
#print axioms RSE.Props.C16_keeps_all
#print axioms RSE.Props.C14_ranks
#print axioms RSE.Props.C14_missing_tie
#print axioms RSE.Props.C86_delegating_is_free
#print axioms RSE.Props.C86_adopted_plans_pay
#print axioms RSE.Props.C86_current_utility
#print axioms RSE.Props.C86_myopic_beliefs
#print axioms RSE.Props.C86_no_loss_in_equilibrium
#print axioms RSE.Props.C86_loss_in_equilibrium
#print axioms RSE.Props.C123_shares
#print axioms RSE.Props.C123_simulation
#print axioms RSE.Props.C123_recorded
#print axioms RSE.Props.C123_equal_values
#print axioms RSE.Props.C123_unit_matters
#print axioms RSE.Props.C123_integers
#print axioms RSE.Props.C123_floats
#print axioms RSE.Props.C77_rejects_scheme
#print axioms RSE.Props.C77_rejects_inactive
#print axioms RSE.Props.C77_rejects_costs
#print axioms RSE.Props.C77_rejects_weights
#print axioms RSE.Props.C77_rejects_disparity
#print axioms RSE.Props.C27_ids_distinct
#print axioms RSE.Props.C27_no_pools
#print axioms RSE.Props.C27_new_model
#print axioms RSE.Props.C27_ids_clash
#print axioms RSE.Props.C01_reward_bounds
#print axioms RSE.Props.C01_needs_pledge_le_stake
#print axioms RSE.Props.C02_reward_mono_stake
#print axioms RSE.Props.C02_reward_const_past_saturation
#print axioms RSE.Props.C03_pledge_mono_saturated
#print axioms RSE.Props.C03_pledge_mono_other_schemes
#print axioms RSE.Props.C03_pledge_irrelevant
#print axioms RSE.Props.C03_cardano_pledge_not_mono
#print axioms RSE.Props.C03_cardano_pledge_iff
#print axioms RSE.Props.C96_arithmetic
#print axioms RSE.Props.C96_error
#print axioms RSE.Props.C96_pledges
#print axioms RSE.Props.C96_delegations
#print axioms RSE.Props.C96_records
#print axioms RSE.Props.C96_rewards
#print axioms RSE.Props.C96_reward_mono
#print axioms RSE.Props.C96_stake_drifts
#print axioms RSE.Props.C96_overcommitted
#print axioms RSE.Props.C96_planning_disturbs
#print axioms RSE.Props.C96_crash
#print axioms RSE.Props.C40_sequential
#print axioms RSE.Props.C40_simultaneous
#print axioms RSE.Props.C40_semisimultaneous
#print axioms RSE.Props.C40_semisimultaneous_once
#print axioms RSE.Props.C125_completes
#print axioms RSE.Props.C125_can_crash
#print axioms RSE.Props.C95_same_view
#print axioms RSE.Props.C95_same_plans
#print axioms RSE.Props.C95_any_order
#print axioms RSE.Props.C95_initially
#print axioms RSE.Props.C95_sequential
#print axioms RSE.Props.C95_order_matters
#print axioms RSE.Props.C37_sampled
#print axioms RSE.Props.C37_period_zero
#print axioms RSE.Props.C32_search_terminates
#print axioms RSE.Props.C32_search_finds_local_maximum
#print axioms RSE.Props.C32_search_unimodal
#print axioms RSE.Props.C32_choose_pool_strategy
#print axioms RSE.Props.C98_execution
#print axioms RSE.Props.C98_no_cut
#print axioms RSE.Props.C98_same_choice
#print axioms RSE.Props.C98_turn
#print axioms RSE.Props.C98_order_matters
#print axioms RSE.Props.C98_numbers_matter
#print axioms RSE.Props.C25_total_stake_exceeded
#print axioms RSE.Props.C25_delegation_lost
#print axioms RSE.Props.C25_key_error
#print axioms RSE.Props.C25_what_remains
#print axioms RSE.Props.C25_pledges
#print axioms RSE.Props.C138_sequential
#print axioms RSE.Props.C138_rounds
#print axioms RSE.Props.C138_batches
#print axioms RSE.Props.C138_largest
#print axioms RSE.Props.C113_first_round
#print axioms RSE.Props.C113_later_rounds
#print axioms RSE.Props.C113_run
#print axioms RSE.Props.C136_rounds
#print axioms RSE.Props.C136_run
#print axioms RSE.Props.C136_as_sequential
#print axioms RSE.Props.C136_simultaneous
#print axioms RSE.Props.C136_semi
#print axioms RSE.Props.C04_budget_balance
#print axioms RSE.Props.C04_zero_stake
#print axioms RSE.Props.C110_first_of_each_line
#print axioms RSE.Props.C110_one_value_per_line
#print axioms RSE.Props.C110_separated_by_commas
#print axioms RSE.Props.C110_commas_flat
#print axioms RSE.Props.C110_drawn
#print axioms RSE.Props.C110_without_replacement
#print axioms RSE.Props.C110_blank_line
#print axioms RSE.Props.C110_which_file
#print axioms RSE.Props.C15_rankings_list_open_pools
#print axioms RSE.Props.C15_rankings_sorted
#print axioms RSE.Props.C15_no_ValueError
#print axioms RSE.Props.C28_open_pool_has_one_operator
#print axioms RSE.Props.C28_operated_pools_are_open
#print axioms RSE.Props.C28_owner_exists
#print axioms RSE.Props.C21_delegations_symmetric
#print axioms RSE.Props.C21_delegations_sound
#print axioms RSE.Props.C26_ids_unique
#print axioms RSE.Props.C26_closed_ids_not_reused
#print axioms RSE.Props.C26_operator_of_id_constant
#print axioms RSE.Props.C67_abstainers_stay_out
#print axioms RSE.Props.C64_closed_pool_has_no_delegators
#print axioms RSE.Props.C64_other_delegations_kept
#print axioms RSE.Props.C19_planning_disturbs_nothing
#print axioms RSE.Props.C39_phase_change
#print axioms RSE.Props.C39_phase_change_succeeds
#print axioms RSE.Props.C74_ids
#print axioms RSE.Props.C74_names
#print axioms RSE.Props.C74_stake_pairs
#print axioms RSE.Props.C74_no_metric_raises
#print axioms RSE.Props.C74_rows
#print axioms RSE.Props.C74_columns_in_order
#print axioms RSE.Props.C74_n_changed
#print axioms RSE.Props.C62_target
#print axioms RSE.Props.C89_same_parameters
#print axioms RSE.Props.C89_same_parameters_first
#print axioms RSE.Props.C89_equilibrium_stays
#print axioms RSE.Props.C89_run
#print axioms RSE.Props.C89_lowering
#print axioms RSE.Props.C57_torn
#print axioms RSE.Props.C77_reward_scheme
#print axioms RSE.Props.C79_number_of_phases
#print axioms RSE.Props.C79_all_phases
#print axioms RSE.Props.C10_top_pool
#print axioms RSE.Props.C10_in_simulation
#print axioms RSE.Props.C09_margins_and_rank
#print axioms RSE.Props.C09_single_pool
#print axioms RSE.Props.C09_not_all_in_top_k
#print axioms RSE.Props.C87_operators_are_viable
#print axioms RSE.Props.C87_operators_could_profit
#print axioms RSE.Props.C87_too_expensive
#print axioms RSE.Props.C87_number_of_pools
#print axioms RSE.Props.C87_nobody_viable
#print axioms RSE.Props.C83_steps
#print axioms RSE.Props.C83_submit
#print axioms RSE.Props.C83_reset
#print axioms RSE.Props.C83_same_as_run
#print axioms RSE.Props.C83_charts
#print axioms RSE.Props.C83_empty_charts
#print axioms RSE.Props.C83_lag
