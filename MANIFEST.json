{
 "claims": [
  {
   "property": "C01",
   "status": "proved",
   "theorems": [
    "RSE.Props.C01_reward_bounds",
    "RSE.Props.C01_needs_pledge_le_stake"
   ],
   "note": "Exact arithmetic. The extra hypothesis pledge <= stake is necessary (C01_needs_pledge_le_stake) and holds in every reachable state (C20)."
  },
  {
   "property": "C02",
   "status": "proved",
   "theorems": [
    "RSE.Props.C02_reward_mono_stake",
    "RSE.Props.C02_reward_const_past_saturation"
   ],
   "note": ""
  },
  {
   "property": "C03",
   "status": "proved",
   "theorems": [
    "RSE.Props.C03_pledge_mono_saturated",
    "RSE.Props.C03_pledge_mono_other_schemes",
    "RSE.Props.C03_pledge_irrelevant",
    "RSE.Props.C03_cardano_pledge_not_mono",
    "RSE.Props.C03_cardano_pledge_iff"
   ],
   "note": "Cardano below half saturation: exact condition in C03_cardano_pledge_iff, witness in C03_cardano_pledge_not_mono."
  },
  {
   "property": "C04",
   "status": "proved",
   "theorems": [
    "RSE.Props.C04_budget_balance",
    "RSE.Props.C04_zero_stake"
   ],
   "note": ""
  },
  {
   "property": "C05",
   "status": "proved",
   "theorems": [
    "RSE.Props.C05_utilities_add_up",
    "RSE.Props.C05_rewards_bounded"
   ],
   "note": ""
  },
  {
   "property": "C06",
   "status": "proved",
   "theorems": [
    "RSE.Props.C06_root_one",
    "RSE.Props.C06_crossover",
    "RSE.Props.C06_saturated",
    "RSE.Props.C06_negative"
   ],
   "note": "Over the real numbers, with Real.rpow for Python's power of non-negative floats."
  },
  {
   "property": "C07",
   "status": "proved",
   "theorems": [
    "RSE.Props.C07_margin_range",
    "RSE.Props.C07_hits_target",
    "RSE.Props.C07_zero_iff",
    "RSE.Props.C07_needs_nonneg_target"
   ],
   "note": ""
  },
  {
   "property": "C08",
   "status": "proved",
   "theorems": [
    "RSE.Props.C08_nonneg",
    "RSE.Props.C08_le_profit",
    "RSE.Props.C08_antitone",
    "RSE.Props.C08_margin_setter"
   ],
   "note": ""
  },
  {
   "property": "C09",
   "status": "proved",
   "theorems": [
    "RSE.Props.C09_margins_and_rank",
    "RSE.Props.C09_single_pool",
    "RSE.Props.C09_not_all_in_top_k"
   ],
   "note": "The documented promise that all n pools end in the top k is refuted for n = 2 by C09_not_all_in_top_k."
  },
  {
   "property": "C10",
   "status": "proved",
   "theorems": [
    "RSE.Props.C10_top_pool",
    "RSE.Props.C10_in_simulation"
   ],
   "note": ""
  },
  {
   "property": "C11",
   "status": "proved",
   "theorems": [
    "RSE.Props.C11_total_cost",
    "RSE.Props.C11_average_cost_mono"
   ],
   "note": ""
  },
  {
   "property": "C12",
   "status": "proved",
   "theorems": [
    "RSE.Props.C12_pledge_per_pool"
   ],
   "note": ""
  },
  {
   "property": "C13",
   "status": "proved",
   "theorems": [
    "RSE.Props.C13_splitting_profit"
   ],
   "note": ""
  },
  {
   "property": "C14",
   "status": "proved",
   "theorems": [
    "RSE.Props.C14_ranks",
    "RSE.Props.C14_missing_tie"
   ],
   "note": ""
  },
  {
   "property": "C15",
   "status": "proved",
   "theorems": [
    "RSE.Props.C15_rankings_list_open_pools",
    "RSE.Props.C15_rankings_sorted",
    "RSE.Props.C15_no_ValueError"
   ],
   "note": ""
  },
  {
   "property": "C16",
   "status": "proved",
   "theorems": [
    "RSE.Props.C16_keeps_the_best",
    "RSE.Props.C16_keeps_all"
   ],
   "note": ""
  },
  {
   "property": "C17",
   "status": "proved",
   "theorems": [
    "RSE.Props.C17_plan_feasible",
    "RSE.Props.C17_plan_respects_saturation"
   ],
   "note": ""
  },
  {
   "property": "C18",
   "status": "proved",
   "theorems": [
    "RSE.Props.C18_plan_complete",
    "RSE.Props.C18_plan_in_ranking_order"
   ],
   "note": ""
  },
  {
   "property": "C19",
   "status": "proved",
   "theorems": [
    "RSE.Props.C19_planning_exact",
    "RSE.Props.C19_planning_disturbs_nothing"
   ],
   "note": ""
  },
  {
   "property": "C20",
   "status": "proved",
   "theorems": [
    "RSE.Props.C20_stake_is_pledge_plus_delegations",
    "RSE.Props.C20_delegations_counted_once"
   ],
   "note": ""
  },
  {
   "property": "C21",
   "status": "proved",
   "theorems": [
    "RSE.Props.C21_delegations_symmetric",
    "RSE.Props.C21_delegations_sound"
   ],
   "note": ""
  },
  {
   "property": "C22",
   "status": "proved",
   "theorems": [
    "RSE.Props.C22_no_overcommitment"
   ],
   "note": ""
  },
  {
   "property": "C23",
   "status": "proved",
   "theorems": [
    "RSE.Props.C23_stake_conservation"
   ],
   "note": ""
  },
  {
   "property": "C24",
   "status": "proved",
   "theorems": [
    "RSE.Props.C24_private_pools_have_no_delegators",
    "RSE.Props.C24_private_iff_pledge_saturates"
   ],
   "note": ""
  },
  {
   "property": "C25",
   "status": "proved",
   "theorems": [
    "RSE.Props.C25_total_stake_exceeded",
    "RSE.Props.C25_delegation_lost",
    "RSE.Props.C25_key_error",
    "RSE.Props.C25_what_remains",
    "RSE.Props.C25_pledges"
   ],
   "note": "Counterexamples to the unqualified claim: C25_total_stake_exceeded, C25_delegation_lost, C25_key_error. C100 proves under which condition the records stay consistent."
  },
  {
   "property": "C26",
   "status": "proved",
   "theorems": [
    "RSE.Props.C26_ids_unique",
    "RSE.Props.C26_closed_ids_not_reused",
    "RSE.Props.C26_operator_of_id_constant"
   ],
   "note": ""
  },
  {
   "property": "C27",
   "status": "proved",
   "theorems": [
    "RSE.Props.C27_ids_distinct",
    "RSE.Props.C27_no_pools",
    "RSE.Props.C27_new_model",
    "RSE.Props.C27_ids_clash"
   ],
   "note": "C27_ids_clash is the witness for open pools."
  },
  {
   "property": "C28",
   "status": "proved",
   "theorems": [
    "RSE.Props.C28_open_pool_has_one_operator",
    "RSE.Props.C28_operated_pools_are_open",
    "RSE.Props.C28_owner_exists"
   ],
   "note": ""
  },
  {
   "property": "C29",
   "status": "proved",
   "theorems": [
    "RSE.Props.C29_never_crashes",
    "RSE.Props.C29_rounds_never_crash",
    "RSE.Props.C29_cip50_exact",
    "RSE.Props.C29_cip50_crashes"
   ],
   "note": "Exact arithmetic; C96 shows that the claim fails in binary64. The exceptional case is C29_cip50_exact (with non-negative extra costs)."
  },
  {
   "property": "C30",
   "status": "proved",
   "theorems": [
    "RSE.Props.C30_relaxing_phases_never_crash",
    "RSE.Props.C30_causes",
    "RSE.Props.C30_index_error",
    "RSE.Props.C30_attribute_error"
   ],
   "note": "Witnesses: C30_index_error, C30_attribute_error; causes: C30_causes."
  },
  {
   "property": "C31",
   "status": "proved",
   "theorems": [
    "RSE.Props.C31_inertia",
    "RSE.Props.C31_staged_strategy_beats"
   ],
   "note": ""
  },
  {
   "property": "C32",
   "status": "proved",
   "theorems": [
    "RSE.Props.C32_search_terminates",
    "RSE.Props.C32_search_finds_local_maximum",
    "RSE.Props.C32_search_unimodal",
    "RSE.Props.C32_choose_pool_strategy"
   ],
   "note": ""
  },
  {
   "property": "C33",
   "status": "proved",
   "theorems": [
    "RSE.Props.C33_terminates",
    "RSE.Props.C33_not_exported"
   ],
   "note": "The world and the agents are arbitrary (any round function). max_iterations as a list of per-phase values is refuted by C33_not_exported."
  },
  {
   "property": "C34",
   "status": "proved",
   "theorems": [
    "RSE.Props.C34_equilibrium",
    "RSE.Props.C34_first",
    "RSE.Props.C34_stale_equilibrium"
   ],
   "note": "C34_stale_equilibrium shows the failure in later phases."
  },
  {
   "property": "C35",
   "status": "proved",
   "theorems": [
    "RSE.Props.C35_idle_round"
   ],
   "note": ""
  },
  {
   "property": "C36",
   "status": "proved",
   "theorems": [
    "RSE.Props.C36_rows"
   ],
   "note": ""
  },
  {
   "property": "C37",
   "status": "proved",
   "theorems": [
    "RSE.Props.C37_row",
    "RSE.Props.C37_converged",
    "RSE.Props.C37_metrics",
    "RSE.Props.C37_stale_row",
    "RSE.Props.C37_sampled",
    "RSE.Props.C37_period_zero"
   ],
   "note": ""
  },
  {
   "property": "C38",
   "status": "proved",
   "theorems": [
    "RSE.Props.C38_pivots"
   ],
   "note": ""
  },
  {
   "property": "C39",
   "status": "proved",
   "theorems": [
    "RSE.Props.C39_phase_change",
    "RSE.Props.C39_phase_change_succeeds"
   ],
   "note": ""
  },
  {
   "property": "C40",
   "status": "proved",
   "theorems": [
    "RSE.Props.C40_orders",
    "RSE.Props.C40_sequential",
    "RSE.Props.C40_simultaneous",
    "RSE.Props.C40_semisimultaneous",
    "RSE.Props.C40_semisimultaneous_once"
   ],
   "note": ""
  },
  {
   "property": "C41",
   "status": "proved",
   "theorems": [
    "RSE.Props.C41_sum_one",
    "RSE.Props.C41_nonpositive",
    "RSE.Props.C41_corner"
   ],
   "note": "Exact arithmetic; the corner case is C41_corner."
  },
  {
   "property": "C42",
   "status": "proved",
   "theorems": [
    "RSE.Props.C42_last_agent_gets_inactive_stake",
    "RSE.Props.C42_others",
    "RSE.Props.C42_only_if_it_fits",
    "RSE.Props.C42_all_inactive"
   ],
   "note": "The documented meaning fails: C42_last_agent_gets_inactive_stake, C42_only_if_it_fits."
  },
  {
   "property": "C43",
   "status": "proved",
   "theorems": [
    "RSE.Props.C43_flat",
    "RSE.Props.C43_disparity"
   ],
   "note": ""
  },
  {
   "property": "C44",
   "status": "proved",
   "theorems": [
    "RSE.Props.C44_schemes"
   ],
   "note": ""
  },
  {
   "property": "C45",
   "status": "proved",
   "theorems": [
    "RSE.Props.C45_setter",
    "RSE.Props.C45_zero",
    "RSE.Props.C45_inflate",
    "RSE.Props.C45_inflation_lost",
    "RSE.Props.C45_revise_changes_threshold"
   ],
   "note": ""
  },
  {
   "property": "C46",
   "status": "proved",
   "theorems": [
    "RSE.Props.C46_truncated",
    "RSE.Props.C46_draws",
    "RSE.Props.C46_generated",
    "RSE.Props.C46_diverges"
   ],
   "note": ""
  },
  {
   "property": "C47",
   "status": "proved",
   "theorems": [
    "RSE.Props.C47_nakamoto",
    "RSE.Props.C47_no_pools",
    "RSE.Props.C47_initial"
   ],
   "note": ""
  },
  {
   "property": "C48",
   "status": "proved",
   "theorems": [
    "RSE.Props.C48_relative_mean_difference",
    "RSE.Props.C48_zero_sum",
    "RSE.Props.C48_range",
    "RSE.Props.C48_minus_one",
    "RSE.Props.C48_order",
    "RSE.Props.C48_scale",
    "RSE.Props.C48_maximum",
    "RSE.Props.C48_metrics",
    "RSE.Props.C48_padding"
   ],
   "note": ""
  },
  {
   "property": "C49",
   "status": "proved",
   "theorems": [
    "RSE.Props.C49_stake_per_agent",
    "RSE.Props.C49_stake_per_agent_id",
    "RSE.Props.C49_unknown_owner",
    "RSE.Props.C49_reachable"
   ],
   "note": ""
  },
  {
   "property": "C50",
   "status": "proved",
   "theorems": [
    "RSE.Props.C50_homogeneity",
    "RSE.Props.C50_no_pools",
    "RSE.Props.C50_reachable"
   ],
   "note": ""
  },
  {
   "property": "C51",
   "status": "proved",
   "theorems": [
    "RSE.Props.C51_pledge_rate_without_pools",
    "RSE.Props.C51_pledge_rate_in_unit_interval"
   ],
   "note": ""
  },
  {
   "property": "C52",
   "status": "proved",
   "theorems": [
    "RSE.Props.C52_operator_count",
    "RSE.Props.C52_max",
    "RSE.Props.C52_average_and_median",
    "RSE.Props.C52_splitters",
    "RSE.Props.C52_no_pools"
   ],
   "note": ""
  },
  {
   "property": "C53",
   "status": "proved",
   "theorems": [
    "RSE.Props.C53_statistical_distance",
    "RSE.Props.C53_no_pools"
   ],
   "note": ""
  },
  {
   "property": "C54",
   "status": "proved",
   "theorems": [
    "RSE.Props.C54_rounding",
    "RSE.Props.C54_ranks",
    "RSE.Props.C54_no_pools"
   ],
   "note": "Means are exact rationals rounded half to even, as Python's round; the float mean of numpy is not modelled."
  },
  {
   "property": "C55",
   "status": "proved",
   "theorems": [
    "RSE.Props.C55_grid",
    "RSE.Props.C55_fixed",
    "RSE.Props.C55_empty"
   ],
   "note": ""
  },
  {
   "property": "C56",
   "status": "proved",
   "theorems": [
    "RSE.Props.C56_runs",
    "RSE.Props.C56_no_clash",
    "RSE.Props.C56_seeds",
    "RSE.Props.C56_execution_id"
   ],
   "note": ""
  },
  {
   "property": "C57",
   "status": "proved",
   "theorems": [
    "RSE.Props.C57_roundtrip",
    "RSE.Props.C57_increasing",
    "RSE.Props.C57_first",
    "RSE.Props.C57_killed_while_writing",
    "RSE.Props.C57_same_id",
    "RSE.Props.C57_torn"
   ],
   "note": "File system model: a file is its text or missing; a run can be killed at any point; two runs interleave at system-call granularity."
  },
  {
   "property": "C58",
   "status": "proved",
   "theorems": [
    "RSE.Props.C58_one_header",
    "RSE.Props.C58_append",
    "RSE.Props.C58_rows",
    "RSE.Props.C58_header_first",
    "RSE.Props.C58_two_headers",
    "RSE.Props.C58_first_writer_alone"
   ],
   "note": "Rows are appended with O_APPEND in one write each (texts below the buffer size)."
  },
  {
   "property": "C59",
   "status": "proved",
   "theorems": [
    "RSE.Props.C59_directories_differ",
    "RSE.Props.C59_identifiers_differ",
    "RSE.Props.C59_tracker_identifier",
    "RSE.Props.C59_length",
    "RSE.Props.C59_first_five",
    "RSE.Props.C59_never_shared"
   ],
   "note": "Execution ids without '/' and different from '..'."
  },
  {
   "property": "C60",
   "status": "proved",
   "theorems": [
    "RSE.Props.C60_ints",
    "RSE.Props.C60_finite",
    "RSE.Props.C60_malformed",
    "RSE.Props.C60_nan_accepted",
    "RSE.Props.C60_all_accepted"
   ],
   "note": ""
  },
  {
   "property": "C61",
   "status": "proved",
   "theorems": [
    "RSE.Props.C61_reproducible",
    "RSE.Props.C61_exactly",
    "RSE.Props.C61_drawn_seed",
    "RSE.Props.C61_seed_from_file",
    "RSE.Props.C61_stakes_from_file"
   ],
   "note": "Mesa 1.0.0 seeds Model.random from the keyword argument seed (Model.__new__)."
  },
  {
   "property": "C62",
   "status": "proved",
   "theorems": [
    "RSE.Props.C62_target"
   ],
   "note": ""
  },
  {
   "property": "C63",
   "status": "proved",
   "theorems": [
    "RSE.Props.C63_transparent",
    "RSE.Props.C63_needs_congruence",
    "RSE.Props.C63_helpers"
   ],
   "note": ""
  },
  {
   "property": "C64",
   "status": "proved",
   "theorems": [
    "RSE.Props.C64_private_pool_has_no_delegators",
    "RSE.Props.C64_closed_pool_has_no_delegators",
    "RSE.Props.C64_other_delegations_kept"
   ],
   "note": ""
  },
  {
   "property": "C65",
   "status": "proved",
   "theorems": [
    "RSE.Props.C65_pools_of_an_operator_are_alike",
    "RSE.Props.C65_same_pledge_and_cost"
   ],
   "note": ""
  },
  {
   "property": "C66",
   "status": "proved",
   "theorems": [
    "RSE.Props.C66_open_pools_profitable",
    "RSE.Props.C66_before_placeholders"
   ],
   "note": ""
  },
  {
   "property": "C67",
   "status": "proved",
   "theorems": [
    "RSE.Props.C67_abstainers_stay_out"
   ],
   "note": ""
  },
  {
   "property": "C68",
   "status": "proved",
   "theorems": [
    "RSE.Props.C68_margins_in_unit_interval"
   ],
   "note": ""
  },
  {
   "property": "C69",
   "status": "proved",
   "theorems": [
    "RSE.Props.C69_disparity",
    "RSE.Props.C69_bands_manual",
    "RSE.Props.C69_uniform",
    "RSE.Props.C69_bands",
    "RSE.Props.C69_normal",
    "RSE.Props.C69_normal_out_of_range",
    "RSE.Props.C69_invalid"
   ],
   "note": "generate_cost_distr_nrm (scipy truncnorm) is only covered for high < low."
  },
  {
   "property": "C70",
   "status": "proved",
   "theorems": [
    "RSE.Props.C70_pledge",
    "RSE.Props.C70_margin",
    "RSE.Props.C70_saturation",
    "RSE.Props.C70_no_pools"
   ],
   "note": ""
  },
  {
   "property": "C71",
   "status": "proved",
   "theorems": [
    "RSE.Props.C71_columns",
    "RSE.Props.C71_contents"
   ],
   "note": ""
  },
  {
   "property": "C72",
   "status": "proved",
   "theorems": [
    "RSE.Props.C72_iteration_always_zero"
   ],
   "note": ""
  },
  {
   "property": "C73",
   "status": "proved",
   "theorems": [
    "RSE.Props.C73_frozen",
    "RSE.Props.C73_thawed",
    "RSE.Props.C73_spurious_equilibrium"
   ],
   "note": ""
  },
  {
   "property": "C74",
   "status": "proved",
   "theorems": [
    "RSE.Props.C74_ids",
    "RSE.Props.C74_names",
    "RSE.Props.C74_stake_pairs",
    "RSE.Props.C74_no_metric_raises",
    "RSE.Props.C74_rows",
    "RSE.Props.C74_columns_in_order",
    "RSE.Props.C74_n_changed"
   ],
   "note": ""
  },
  {
   "property": "C75",
   "status": "proved",
   "theorems": [
    "RSE.Props.C75_agents_file",
    "RSE.Props.C75_pools_file",
    "RSE.Props.C75_wrap_up"
   ],
   "note": ""
  },
  {
   "property": "C76",
   "status": "proved",
   "theorems": [
    "RSE.Props.C76_initial_descriptors",
    "RSE.Props.C76_no_agents"
   ],
   "note": ""
  },
  {
   "property": "C77",
   "status": "proved",
   "theorems": [
    "RSE.Props.C77_choices",
    "RSE.Props.C77_constructor",
    "RSE.Props.C77_rejects_scheme",
    "RSE.Props.C77_rejects_inactive",
    "RSE.Props.C77_rejects_costs",
    "RSE.Props.C77_rejects_weights",
    "RSE.Props.C77_rejects_disparity",
    "RSE.Props.C77_reward_scheme"
   ],
   "note": ""
  },
  {
   "property": "C78",
   "status": "proved",
   "theorems": [
    "RSE.Props.C78_completes",
    "RSE.Props.C78_completes_phases"
   ],
   "note": ""
  },
  {
   "property": "C79",
   "status": "proved",
   "theorems": [
    "RSE.Props.C79_values_in_force",
    "RSE.Props.C79_number_of_phases",
    "RSE.Props.C79_all_phases"
   ],
   "note": ""
  },
  {
   "property": "C80",
   "status": "proved",
   "theorems": [
    "RSE.Props.C80_idle_forever",
    "RSE.Props.C80_idle_stays",
    "RSE.Props.C80_reported_equilibrium",
    "RSE.Props.C80_window_irrelevant"
   ],
   "note": ""
  },
  {
   "property": "C81",
   "status": "proved",
   "theorems": [
    "RSE.Props.C81_figures_current",
    "RSE.Props.C81_figures_current_single_phase",
    "RSE.Props.C81_order_of_rankings"
   ],
   "note": ""
  },
  {
   "property": "C82",
   "status": "proved",
   "theorems": [
    "RSE.Props.C82_graphs",
    "RSE.Props.C82_simulate"
   ],
   "note": ""
  },
  {
   "property": "C83",
   "status": "proved",
   "theorems": [
    "RSE.Props.C83_steps",
    "RSE.Props.C83_submit",
    "RSE.Props.C83_reset",
    "RSE.Props.C83_same_as_run",
    "RSE.Props.C83_charts",
    "RSE.Props.C83_empty_charts",
    "RSE.Props.C83_lag"
   ],
   "note": ""
  },
  {
   "property": "C84",
   "status": "proved",
   "theorems": [
    "RSE.Props.C84_cycle",
    "RSE.Props.C84_cycle_runs",
    "RSE.Props.C84_never_converges"
   ],
   "note": ""
  },
  {
   "property": "C85",
   "status": "proved",
   "theorems": [
    "RSE.Props.C85_events",
    "RSE.Props.C85_row",
    "RSE.Props.C85_runs"
   ],
   "note": ""
  },
  {
   "property": "C86",
   "status": "proved",
   "theorems": [
    "RSE.Props.C86_delegating_is_free",
    "RSE.Props.C86_adopted_plans_pay",
    "RSE.Props.C86_current_utility",
    "RSE.Props.C86_myopic_beliefs",
    "RSE.Props.C86_no_loss_in_equilibrium",
    "RSE.Props.C86_loss_in_equilibrium"
   ],
   "note": ""
  },
  {
   "property": "C87",
   "status": "proved",
   "theorems": [
    "RSE.Props.C87_operators_are_viable",
    "RSE.Props.C87_operators_could_profit",
    "RSE.Props.C87_too_expensive",
    "RSE.Props.C87_number_of_pools",
    "RSE.Props.C87_nobody_viable"
   ],
   "note": ""
  },
  {
   "property": "C88",
   "status": "proved",
   "theorems": [
    "RSE.Props.C88_scatter",
    "RSE.Props.C88_heatmap",
    "RSE.Props.C88_repeated_value",
    "RSE.Props.C88_plots",
    "RSE.Props.C88_no_runs",
    "RSE.Props.C88_crash",
    "RSE.Props.C88_files",
    "RSE.Props.C88_profiles_ignored",
    "RSE.Props.C88_ordinary",
    "RSE.Props.C88_schemes"
   ],
   "note": ""
  },
  {
   "property": "C89",
   "status": "proved",
   "theorems": [
    "RSE.Props.C89_same_parameters",
    "RSE.Props.C89_same_parameters_first",
    "RSE.Props.C89_equilibrium_stays",
    "RSE.Props.C89_run",
    "RSE.Props.C89_lowering"
   ],
   "note": ""
  },
  {
   "property": "C90",
   "status": "proved",
   "theorems": [
    "RSE.Props.C90_present_strategy",
    "RSE.Props.C90_plan"
   ],
   "note": ""
  },
  {
   "property": "C91",
   "status": "proved",
   "theorems": [
    "RSE.Props.C91_all",
    "RSE.Props.C91_meaning"
   ],
   "note": ""
  },
  {
   "property": "C92",
   "status": "proved",
   "theorems": [
    "RSE.Props.C92_no_pools",
    "RSE.Props.C92_solver",
    "RSE.Props.C92_minimum",
    "RSE.Props.C92_reachable",
    "RSE.Props.C92_attack",
    "RSE.Props.C92_nakamoto"
   ],
   "note": ""
  },
  {
   "property": "C93",
   "status": "proved",
   "theorems": [
    "RSE.Props.C93_one_plan",
    "RSE.Props.C93_plan"
   ],
   "note": ""
  },
  {
   "property": "C94",
   "status": "proved",
   "theorems": [
    "RSE.Props.C94_plan"
   ],
   "note": ""
  },
  {
   "property": "C95",
   "status": "proved",
   "theorems": [
    "RSE.Props.C95_same_view",
    "RSE.Props.C95_same_plans",
    "RSE.Props.C95_any_order",
    "RSE.Props.C95_initially",
    "RSE.Props.C95_sequential",
    "RSE.Props.C95_order_matters"
   ],
   "note": ""
  },
  {
   "property": "C96",
   "status": "proved",
   "theorems": [
    "RSE.Props.C96_arithmetic",
    "RSE.Props.C96_error",
    "RSE.Props.C96_pledges",
    "RSE.Props.C96_delegations",
    "RSE.Props.C96_records",
    "RSE.Props.C96_rewards",
    "RSE.Props.C96_reward_mono",
    "RSE.Props.C96_stake_drifts",
    "RSE.Props.C96_overcommitted",
    "RSE.Props.C96_planning_disturbs",
    "RSE.Props.C96_crash"
   ],
   "note": ""
  },
  {
   "property": "C97",
   "status": "proved",
   "theorems": [
    "RSE.Props.C97_best",
    "RSE.Props.C97_alone",
    "RSE.Props.C97_missed",
    "RSE.Props.C97_false_equilibrium"
   ],
   "note": ""
  },
  {
   "property": "C98",
   "status": "proved",
   "theorems": [
    "RSE.Props.C98_execution",
    "RSE.Props.C98_no_cut",
    "RSE.Props.C98_same_choice",
    "RSE.Props.C98_turn",
    "RSE.Props.C98_order_matters",
    "RSE.Props.C98_numbers_matter"
   ],
   "note": ""
  },
  {
   "property": "C99",
   "status": "proved",
   "theorems": [
    "RSE.Props.C99_recorded",
    "RSE.Props.C99_place",
    "RSE.Props.C99_repeat",
    "RSE.Props.C99_no_seed",
    "RSE.Props.C99_batch",
    "RSE.Props.C99_no_file",
    "RSE.Props.C99_missing",
    "RSE.Props.C99_partial_leaves_files"
   ],
   "note": ""
  },
  {
   "property": "C100",
   "status": "proved",
   "theorems": [
    "RSE.Props.C100_batch",
    "RSE.Props.C100_blame",
    "RSE.Props.C100_planning",
    "RSE.Props.C100_orderly",
    "RSE.Props.C100_no_operators",
    "RSE.Props.C100_one_at_a_time",
    "RSE.Props.C100_accounting",
    "RSE.Props.C100_needed"
   ],
   "note": ""
  },
  {
   "property": "C101",
   "status": "proved",
   "theorems": [
    "RSE.Props.C101_batch",
    "RSE.Props.C101_blame",
    "RSE.Props.C101_no_operators",
    "RSE.Props.C101_first_round",
    "RSE.Props.C101_one_at_a_time",
    "RSE.Props.C101_open_pools_profitable",
    "RSE.Props.C101_needed"
   ],
   "note": ""
  },
  {
   "property": "C102",
   "status": "proved",
   "theorems": [
    "RSE.Props.C102_public",
    "RSE.Props.C102_conflict",
    "RSE.Props.C102_iff",
    "RSE.Props.C102_batch",
    "RSE.Props.C102_happens"
   ],
   "note": ""
  },
  {
   "property": "C103",
   "status": "proved",
   "theorems": [
    "RSE.Props.C103_drift",
    "RSE.Props.C103_linear",
    "RSE.Props.C103_positive"
   ],
   "note": ""
  },
  {
   "property": "C104",
   "status": "proved",
   "theorems": [
    "RSE.Props.C104_committed",
    "RSE.Props.C104_single_phase",
    "RSE.Props.C104_total",
    "RSE.Props.C104_pool_stakes"
   ],
   "note": ""
  },
  {
   "property": "C105",
   "status": "proved",
   "theorems": [
    "RSE.Props.C105_reward",
    "RSE.Props.C105_reward_le",
    "RSE.Props.C105_profits",
    "RSE.Props.C105_desirability",
    "RSE.Props.C105_utilities",
    "RSE.Props.C105_split",
    "RSE.Props.C105_order"
   ],
   "note": ""
  },
  {
   "property": "C106",
   "status": "proved",
   "theorems": [
    "RSE.Props.C106_no_new_delegations",
    "RSE.Props.C106_small",
    "RSE.Props.C106_linear",
    "RSE.Props.C106_private_pool_with_delegator"
   ],
   "note": ""
  },
  {
   "property": "C107",
   "status": "proved",
   "theorems": [
    "RSE.Props.C107_meaning",
    "RSE.Props.C107_uncounted_operators",
    "RSE.Props.C107_operators_counted",
    "RSE.Props.C107_not_counted"
   ],
   "note": ""
  },
  {
   "property": "C108",
   "status": "proved",
   "theorems": [
    "RSE.Props.C108_events",
    "RSE.Props.C108_alike",
    "RSE.Props.C108_metrics",
    "RSE.Props.C108_position_matters"
   ],
   "note": ""
  },
  {
   "property": "C109",
   "status": "proved",
   "theorems": [
    "RSE.Props.C109_normalised",
    "RSE.Props.C109_nonneg",
    "RSE.Props.C109_nothing",
    "RSE.Props.C109_negative_stake",
    "RSE.Props.C109_negative_pledge"
   ],
   "note": ""
  },
  {
   "property": "C110",
   "status": "proved",
   "theorems": [
    "RSE.Props.C110_first_of_each_line",
    "RSE.Props.C110_one_value_per_line",
    "RSE.Props.C110_separated_by_commas",
    "RSE.Props.C110_commas_flat",
    "RSE.Props.C110_drawn",
    "RSE.Props.C110_without_replacement",
    "RSE.Props.C110_blank_line",
    "RSE.Props.C110_which_file"
   ],
   "note": ""
  },
  {
   "property": "C111",
   "status": "proved",
   "theorems": [
    "RSE.Props.C111_no_turn",
    "RSE.Props.C111_phase",
    "RSE.Props.C111_documented",
    "RSE.Props.C111_exact",
    "RSE.Props.C111_stuck_delegator",
    "RSE.Props.C111_seven",
    "RSE.Props.C111_stuck"
   ],
   "note": ""
  },
  {
   "property": "C112",
   "status": "proved",
   "theorems": [
    "RSE.Props.C112_same_plan",
    "RSE.Props.C112_same_decision",
    "RSE.Props.C112_first_move"
   ],
   "note": ""
  },
  {
   "property": "C113",
   "status": "proved",
   "theorems": [
    "RSE.Props.C113_first_round",
    "RSE.Props.C113_later_rounds",
    "RSE.Props.C113_run"
   ],
   "note": ""
  },
  {
   "property": "C114",
   "status": "proved",
   "theorems": [
    "RSE.Props.C114_results",
    "RSE.Props.C114_processes",
    "RSE.Props.C114_one_row_each"
   ],
   "note": ""
  },
  {
   "property": "C115",
   "status": "proved",
   "theorems": [
    "RSE.Props.C115_a0",
    "RSE.Props.C115_a0_strict",
    "RSE.Props.C115_a0_cip50",
    "RSE.Props.C115_saturated",
    "RSE.Props.C115_k_saturated",
    "RSE.Props.C115_k_cip50",
    "RSE.Props.C115_k_unsaturated"
   ],
   "note": ""
  },
  {
   "property": "C116",
   "status": "proved",
   "theorems": [
    "RSE.Props.C116_delegation",
    "RSE.Props.C116_bystanders"
   ],
   "note": ""
  },
  {
   "property": "C117",
   "status": "proved",
   "theorems": [
    "RSE.Props.C117_programs",
    "RSE.Props.C117_one",
    "RSE.Props.C117_runViz",
    "RSE.Props.C117_caught",
    "RSE.Props.C117_tests",
    "RSE.Props.C117_never_too_deep"
   ],
   "note": ""
  },
  {
   "property": "C118",
   "status": "proved",
   "theorems": [
    "RSE.Props.C118_endings",
    "RSE.Props.C118_not_lowered",
    "RSE.Props.C118_terminates"
   ],
   "note": ""
  },
  {
   "property": "C119",
   "status": "proved",
   "theorems": [
    "RSE.Props.C119_helper_pass",
    "RSE.Props.C119_pareto",
    "RSE.Props.C119_flat_is_flaky",
    "RSE.Props.C119_metrics_pass",
    "RSE.Props.C119_keep_passes",
    "RSE.Props.C119_utility_fails",
    "RSE.Props.C119_margin_fails",
    "RSE.Props.C119_unranked",
    "RSE.Props.C119_delegation_fails",
    "RSE.Props.C119_others_fail"
   ],
   "note": ""
  },
  {
   "property": "C120",
   "status": "proved",
   "theorems": [
    "RSE.Props.C120_iff",
    "RSE.Props.C120_main",
    "RSE.Props.C120_batch",
    "RSE.Props.C120_same",
    "RSE.Props.C120_main_numbers",
    "RSE.Props.C120_main_others",
    "RSE.Props.C120_main_profiles",
    "RSE.Props.C120_lists",
    "RSE.Props.C120_bare",
    "RSE.Props.C120_switch",
    "RSE.Props.C120_one_after_equals",
    "RSE.Props.C120_unknown",
    "RSE.Props.C120_main_start",
    "RSE.Props.C120_no_execution_id",
    "RSE.Props.C120_main_defaults",
    "RSE.Props.C120_batch_lacks",
    "RSE.Props.C120_batch_defaults",
    "RSE.Props.C120_batch_schemes",
    "RSE.Props.C120_batch_values",
    "RSE.Props.C120_batch_runs"
   ],
   "note": ""
  },
  {
   "property": "C121",
   "status": "proved",
   "theorems": [
    "RSE.Props.C121_arguments",
    "RSE.Props.C121_completes",
    "RSE.Props.C121_rejected",
    "RSE.Props.C121_default"
   ],
   "note": ""
  },
  {
   "property": "C122",
   "status": "proved",
   "theorems": [
    "RSE.Props.C122_runs",
    "RSE.Props.C122_completes",
    "RSE.Props.C122_taken",
    "RSE.Props.C122_seed",
    "RSE.Props.C122_default"
   ],
   "note": ""
  },
  {
   "property": "C123",
   "status": "proved",
   "theorems": [
    "RSE.Props.C123_shares",
    "RSE.Props.C123_simulation",
    "RSE.Props.C123_recorded",
    "RSE.Props.C123_equal_values",
    "RSE.Props.C123_unit_matters",
    "RSE.Props.C123_integers",
    "RSE.Props.C123_floats"
   ],
   "note": ""
  },
  {
   "property": "C124",
   "status": "proved",
   "theorems": [
    "RSE.Props.C124_no_crash",
    "RSE.Props.C124_cheap_pools",
    "RSE.Props.C124_rounds",
    "RSE.Props.C124_pledges_needed"
   ],
   "note": ""
  },
  {
   "property": "C125",
   "status": "proved",
   "theorems": [
    "RSE.Props.C125_completes",
    "RSE.Props.C125_can_crash"
   ],
   "note": ""
  },
  {
   "property": "C126",
   "status": "proved",
   "theorems": [
    "RSE.Props.C126_iterations",
    "RSE.Props.C126_patience",
    "RSE.Props.C126_first_phase",
    "RSE.Props.C126_metrics",
    "RSE.Props.C126_patience_phases"
   ],
   "note": ""
  },
  {
   "property": "C127",
   "status": "proved",
   "theorems": [
    "RSE.Props.C127_completes",
    "RSE.Props.C127_pareto",
    "RSE.Props.C127_flat",
    "RSE.Props.C127_main",
    "RSE.Props.C127_default"
   ],
   "note": ""
  },
  {
   "property": "C128",
   "status": "proved",
   "theorems": [
    "RSE.Props.C128_two_idle_rounds",
    "RSE.Props.C128_one_idle_round",
    "RSE.Props.C128_idle_stays",
    "RSE.Props.C128_reported_equilibrium",
    "RSE.Props.C128_idle_round_moves_stake",
    "RSE.Props.C128_reported_too_early"
   ],
   "note": ""
  },
  {
   "property": "C129",
   "status": "proved",
   "theorems": [
    "RSE.Props.C129_idle_turn",
    "RSE.Props.C129_idle_unchanged",
    "RSE.Props.C129_two_idle_rounds",
    "RSE.Props.C129_covers",
    "RSE.Props.C129_idle_stays",
    "RSE.Props.C129_reported_equilibrium",
    "RSE.Props.C129_idle_round_disturbs"
   ],
   "note": ""
  },
  {
   "property": "C130",
   "status": "proved",
   "theorems": [
    "RSE.Props.C130_completes",
    "RSE.Props.C130_default"
   ],
   "note": ""
  },
  {
   "property": "C131",
   "status": "proved",
   "theorems": [
    "RSE.Props.C131_simultaneous",
    "RSE.Props.C131_floats",
    "RSE.Props.C131_one_idle_round_simultaneous",
    "RSE.Props.C131_one_idle_round_floats"
   ],
   "note": ""
  },
  {
   "property": "C132",
   "status": "proved",
   "theorems": [
    "RSE.Props.C132_costs_covered",
    "RSE.Props.C132_count",
    "RSE.Props.C132_not_k",
    "RSE.Props.C132_costs_not_covered"
   ],
   "note": ""
  },
  {
   "property": "C133",
   "status": "proved",
   "theorems": [
    "RSE.Props.C133_ids_of_a_plan",
    "RSE.Props.C133_discard",
    "RSE.Props.C133_discard_adopted",
    "RSE.Props.C133_turn",
    "RSE.Props.C133_run",
    "RSE.Props.C133_gaps"
   ],
   "note": ""
  },
  {
   "property": "C134",
   "status": "proved",
   "theorems": [
    "RSE.Props.C134_first_round",
    "RSE.Props.C134_second_round",
    "RSE.Props.C134_later_rounds",
    "RSE.Props.C134_metrics",
    "RSE.Props.C134_run"
   ],
   "note": ""
  },
  {
   "property": "C135",
   "status": "proved",
   "theorems": [
    "RSE.Props.C135_positive",
    "RSE.Props.C135_order",
    "RSE.Props.C135_powers",
    "RSE.Props.C135_negative",
    "RSE.Props.C135_zero",
    "RSE.Props.C135_given",
    "RSE.Props.C135_ticks",
    "RSE.Props.C135_ticks_sharp"
   ],
   "note": ""
  },
  {
   "property": "C136",
   "status": "proved",
   "theorems": [
    "RSE.Props.C136_rounds",
    "RSE.Props.C136_run",
    "RSE.Props.C136_as_sequential",
    "RSE.Props.C136_simultaneous",
    "RSE.Props.C136_semi"
   ],
   "note": ""
  },
  {
   "property": "C137",
   "status": "proved",
   "theorems": [
    "RSE.Props.C137_rounds",
    "RSE.Props.C137_run",
    "RSE.Props.C137_as_sequential",
    "RSE.Props.C137_simultaneous",
    "RSE.Props.C137_semi",
    "RSE.Props.C137_metrics"
   ],
   "note": ""
  },
  {
   "property": "C138",
   "status": "proved",
   "theorems": [
    "RSE.Props.C138_sequential",
    "RSE.Props.C138_rounds",
    "RSE.Props.C138_batches",
    "RSE.Props.C138_largest"
   ],
   "note": ""
  }
 ]
}