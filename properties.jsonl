{"id": "C01", "title": "Pool rewards are bounded by stake", "statement": "For every reward scheme that a Simulation can be built with, calculate_pool_reward(pledge, stake) is never negative and never exceeds the pool's stake nor the pool's saturation threshold, provided 0 <= pledge <= stake.", "quantifier": "all k >= 1, all a0 >= 0, all pledges and stakes with 0 <= pledge <= stake, schemes Cardano / Simplified / Flat / CIP-50", "why_tests_cant": "The inputs are a continuum; a test fixes three or four (k, a0, pledge, stake) tuples.", "anchors": ["logic/reward_schemes.py:CardanoRSS.calculate_pool_reward", "logic/reward_schemes.py:SimplifiedRSS", "logic/reward_schemes.py:FlatPledgeBenefitRSS", "logic/reward_schemes.py:CIP50RSS", "logic/reward_schemes.py:RSS.get_pool_saturation_threshold"]}
{"id": "C02", "title": "More stake never lowers a pool's reward, and saturation caps it", "statement": "calculate_pool_reward is non-decreasing in the stake and constant once the stake has reached the pool's saturation threshold, for a fixed pledge.", "quantifier": "all k >= 1, all a0 >= 0, all pledges >= 0, all pairs of stakes s1 <= s2", "why_tests_cant": "Monotonicity is a statement about all pairs of reals.", "anchors": ["logic/reward_schemes.py:RSS.calculate_pool_reward", "tests/test_helper.py:test_calculate_pool_reward_variable_stake"]}
{"id": "C03", "title": "Effect of pledge on rewards", "statement": "For a pool at (or above) saturation a larger pledge never lowers the reward; for the Simplified, Flat and CIP-50 schemes this holds at every stake; when a0 = 0 the pledge is irrelevant (schemes 0,1,2). For the Cardano scheme below half saturation the claim is false and a witness is given.", "quantifier": "all k >= 1, a0 >= 0, stakes and pairs of pledges", "why_tests_cant": "Monotonicity over a continuum; the existing test looks at saturated pools only, where it holds.", "anchors": ["logic/reward_schemes.py:RSS.calculate_pool_reward", "tests/test_helper.py:test_calculate_pool_reward_variable_pledge"]}
{"id": "C04", "title": "The split of a pool's reward is budget balanced", "statement": "For a pool whose stake is the pledge plus the delegations, the operator's reward plus the sum of all delegators' rewards is exactly reward - cost; delegators never get a negative amount, and when the pool makes a loss the operator bears all of it.", "quantifier": "all margins in [0,1], costs, rewards, pledges and all finite lists of delegations (any number of delegators)", "why_tests_cant": "The number of delegators is unbounded.", "anchors": ["logic/helper.py:calculate_operator_utility_from_pool", "logic/helper.py:calculate_delegator_utility_from_pool", "logic/helper.py:calculate_operator_reward_from_pool", "logic/helper.py:calculate_delegator_reward_from_pool"]}
{"id": "C05", "title": "System-wide budget: utilities add up to the pools' profits and pay-outs never exceed the epoch rewards", "statement": "In every state the simulation reaches (sequential or random activation) the sum over all agents of calculate_current_utility equals the sum over all pools of reward - cost, and the sum of all pool rewards is at most the agents' total stake (1 after normalisation), i.e. at most TOTAL_EPOCH_REWARDS_R.", "quantifier": "all populations with positive stakes, all parameters, all activation orders, all histories", "why_tests_cant": "Quantifies over every reachable state of an unbounded run.", "anchors": ["logic/stakeholder.py:Stakeholder.calculate_current_utility", "logic/reward_schemes.py:TOTAL_EPOCH_REWARDS_R", "logic/stakeholder.py:Stakeholder.execute_strategy"]}
{"id": "C06", "title": "The CIP-7 curve scheme specialises to Cardano's, and is not bounded below", "statement": "CurvePledgeBenefitRSS with curve_root = 1 returns the same reward as CardanoRSS for all inputs. With curve_root > 1 rewards can be negative even though pledge <= stake (witness).", "quantifier": "all k, a0, crossover factors, pledges >= 0 and stakes (reals)", "why_tests_cant": "The unit test compares three points and works in floats.", "anchors": ["logic/reward_schemes.py:CurvePledgeBenefitRSS.calculate_pool_reward", "tests/test_helper.py:test_calculate_pool_reward_curve_pledge_benefit"]}
{"id": "C07", "title": "A suitable margin hits the target desirability", "statement": "calculate_suitable_margin returns a margin in [0,1] for every non-negative target, and a pool that takes it has desirability exactly min(target, potential profit) when its potential profit is positive; margin 0 is returned exactly when the target is at or above the potential profit (or the profit is not positive).", "quantifier": "all potential profits and all targets >= 0", "why_tests_cant": "Continuum of inputs; correctness of the division/rounding-free inverse is algebraic.", "anchors": ["logic/helper.py:calculate_suitable_margin", "logic/helper.py:calculate_pool_desirability"]}
{"id": "C08", "title": "Desirability is non-negative and falls with the margin", "statement": "calculate_pool_desirability / calculate_myopic_pool_desirability never return a negative value, never more than max(profit,0) for margins in [0,1], and are non-increasing in the margin for non-negative profits; assigning pool.margin keeps pool.desirability in sync.", "quantifier": "all margins and profits; all pools", "why_tests_cant": "Continuum of inputs.", "anchors": ["logic/helper.py:calculate_pool_desirability", "logic/helper.py:calculate_myopic_pool_desirability", "logic/pool.py:Pool.margin"]}
{"id": "C09", "title": "Margins computed for n pools and the top-k promise", "statement": "calculate_margins_and_utility of a non-myopic agent gives the t-th of its pools a desirability strictly above that of the (k-t+1)-th best foreign pool whenever its potential profit allows it, so the t-th pool has at most k-t foreign pools ahead of it; in particular a single pool ends in the top k. The documented promise that ALL n pools end in the top k is false for n >= 2 (witness).", "quantifier": "all rankings of foreign pools, all agents, all numbers of pools n <= k", "why_tests_cant": "Quantifies over all ranked lists of pools of any length.", "anchors": ["logic/stakeholder_profiles.py:NonMyopicStakeholder.calculate_margins_and_utility", "logic/stakeholder.py:Stakeholder.choose_pool_strategy"]}
{"id": "C10", "title": "Non-myopic stake: a pool counts as a top pool iff fewer than k pools outrank it", "statement": "With a uniform saturation threshold 1/k and total stake 1, calculate_non_myopic_pool_stake returns max(threshold, stake) when fewer than k pools are ranked above the pool and the pledge otherwise.", "quantifier": "all rankings of any length, all pools in it, all integer k from 1 up to 4*10^16", "why_tests_cant": "Any number of pools; the comparison uses a tiny constant (2.2e-17) that decides the boundary rank = k - 1 / k.", "anchors": ["logic/helper.py:calculate_non_myopic_pool_stake", "logic/helper.py:calculate_non_myopic_pool_stake_from_rank"]}
{"id": "C11", "title": "Operating costs of several pools", "statement": "n * calculate_cost_per_pool(n, c, f) = c + (n-1)*f*c for every n >= 1; with f <= 1 the average cost never increases with n (with f >= 1 never decreases), and n = 0 raises.", "quantifier": "all n >= 1, c >= 0, f >= 0", "why_tests_cant": "Unbounded n.", "anchors": ["logic/helper.py:calculate_cost_per_pool"]}
{"id": "C12", "title": "Pledge per pool never exceeds the agent's stake nor the saturation threshold", "statement": "calculate_pledge_per_pool(stake, threshold, n) is at most the threshold and n times it is at most the stake; it is the largest value with both properties; n <= 0 raises ValueError.", "quantifier": "all stakes >= 0, thresholds > 0 and n", "why_tests_cant": "Unbounded n, continuum of stakes.", "anchors": ["logic/helper.py:calculate_pledge_per_pool"]}
{"id": "C13", "title": "The 'profitable pool splitter' flag means what it says", "statement": "calculate_pool_splitting_profit(a0, phi, cost, stake) is positive iff (Cardano scheme, stake <= threshold) the potential profit per pool of an agent that splits its stake over n >= 2 pools is higher than that of its single pool, for every n >= 2.", "quantifier": "all a0 >= 0, phi, cost, stake in [0, 1/k], k >= 1 and n >= 2", "why_tests_cant": "Equivalence of two formulas over a continuum and all n.", "anchors": ["logic/helper.py:calculate_pool_splitting_profit", "logic/sim.py:Simulation.export_agents_file", "logic/helper.py:calculate_potential_profit"]}
{"id": "C14", "title": "calculate_ranks is a ranking", "statement": "calculate_ranks(d, *ties) assigns the numbers 1..len(d) bijectively to the keys; a key with a strictly larger value gets a strictly smaller rank, ties are decided by the tie-breaking dictionaries in order and finally by the smaller id.", "quantifier": "all dictionaries with distinct integer keys, any number of tie-breaking dictionaries", "why_tests_cant": "Arbitrary dictionary sizes and tie patterns.", "anchors": ["logic/helper.py:calculate_ranks"]}
{"id": "C15", "title": "Pool rankings always list exactly the open pools, in the right order", "statement": "In every reachable state of any activation mode, pool_rankings and pool_rankings_myopic each contain every open pool exactly once plus the k+1 initial None place-holders, sorted by the pools' current comparison keys; therefore SortedList.remove/index never raise ValueError.", "quantifier": "all populations, parameters, activation orders (incl. simultaneous), set-iteration orders and histories, any arithmetic (floats included)", "why_tests_cant": "A stale cached sort key anywhere in any history would break later removals; tests run one history.", "anchors": ["logic/sim.py:Simulation.pool_rankings", "logic/sim.py:Simulation.pool_comparison_key_myopic", "logic/helper.py:pool_comparison_key", "logic/stakeholder.py:Stakeholder.update_pool", "logic/stakeholder.py:Stakeholder.close_pool", "logic/stakeholder.py:Stakeholder.open_pool"]}
{"id": "C16", "title": "determine_pools_to_keep keeps the best pools", "statement": "When an operator shrinks to m < (number of owned pools) pools, exactly m pools are kept, copies of pools it owns, and every kept pool beats every dropped one in (desirability, potential profit, stake, age); otherwise all are kept.", "quantifier": "all owned-pool dictionaries of any size with any ties, all m", "why_tests_cant": "Arbitrary sizes and ties.", "anchors": ["logic/stakeholder.py:Stakeholder.determine_pools_to_keep"]}
{"id": "C17", "title": "A delegation plan is feasible", "statement": "Every plan returned by find_delegation_move allocates at least MIN_STAKE_UNIT to each chosen pool, only to existing public pools of other agents, at most the requested stake in total, and never pushes a pool that was below saturation (own old delegation removed) above its saturation threshold; at most one pool that was already saturated is used.", "quantifier": "all rankings, pool stakes, private flags and amounts; all old delegations that the pools record as the agent does (always so under sequential and random activation)", "why_tests_cant": "Greedy loop over an unbounded list with two kinds of boundary.", "anchors": ["logic/stakeholder.py:Stakeholder.determine_stake_allocations", "logic/stakeholder.py:Stakeholder.find_delegation_move"]}
{"id": "C18", "title": "A delegation plan places the whole stake if it can", "statement": "The part of the stake left unallocated by find_delegation_move is below MIN_STAKE_UNIT, unless no eligible pool was saturated beforehand and all eligible pools are filled up to saturation; pools are filled in ranking order (a pool gets stake only if every better unsaturated eligible pool is filled up).", "quantifier": "all rankings, pool stakes and amounts; all old delegations that the pools record as the agent does (always so under sequential and random activation)", "why_tests_cant": "Same as above.", "anchors": ["logic/stakeholder.py:Stakeholder.determine_stake_allocations"]}
{"id": "C19", "title": "Planning a move does not disturb the system", "statement": "update_strategy (planning) leaves pools, stakes, delegations, rankings and all agents' current strategies as they were, whatever is decided; only the pool id counter and dictionary order may change.", "quantifier": "all reachable states, all agents whose delegations are recorded by the pools as by themselves (all agents, under sequential and random activation)", "why_tests_cant": "Planning temporarily removes and restores the agent's delegations in shared objects; restoring must be exact for every allocation pattern.", "anchors": ["logic/stakeholder.py:Stakeholder.update_strategy", "logic/stakeholder.py:Stakeholder.determine_stake_allocations"]}
{"id": "C20", "title": "A pool's stake is its pledge plus its delegations", "statement": "In every reachable state (sequential or random activation) pool.stake = pool.pledge + sum(pool.delegators.values()) for every open pool.", "quantifier": "all populations, parameters, phases, activation orders and histories", "why_tests_cant": "Inductive invariant over unbounded histories.", "anchors": ["logic/pool.py:Pool.update_delegation", "logic/stakeholder.py:Stakeholder.execute_strategy", "logic/stakeholder.py:Stakeholder.find_operator_move"]}
{"id": "C21", "title": "Delegations are recorded symmetrically", "statement": "In every reachable state (sequential or random activation) agent a's strategy allocates x to pool p iff pool p is open and lists a as delegator with x; every such x is at least MIN_STAKE_UNIT and a does not own p.", "quantifier": "all populations, parameters, phases, activation orders and histories, any arithmetic (floats included)", "why_tests_cant": "Two redundant data structures updated by different functions; must agree after every history.", "anchors": ["logic/pool.py:Pool.update_delegation", "logic/stakeholder.py:Stakeholder.execute_strategy", "logic/stakeholder.py:Stakeholder.remove_delegations"]}
{"id": "C22", "title": "No agent ever commits more stake than it owns", "statement": "In every reachable state (sequential or random activation) the pledges of an agent's pools plus its delegations are at most its stake.", "quantifier": "all populations, parameters, phases, activation orders and histories", "why_tests_cant": "Inductive invariant over unbounded histories.", "anchors": ["logic/stakeholder.py:Stakeholder.find_operator_move", "logic/stakeholder.py:Stakeholder.find_delegation_for_operator"]}
{"id": "C23", "title": "Stake conservation", "statement": "In every reachable state (sequential or random activation) the total stake in pools (metric 28) is at most the total stake of the agents (metric 29).", "quantifier": "all populations, parameters, phases, activation orders and histories", "why_tests_cant": "Inductive invariant over unbounded histories.", "anchors": ["logic/model_reporters.py:get_total_delegated_stake", "logic/model_reporters.py:get_active_stake_agents"]}
{"id": "C24", "title": "Private pools have no delegators", "statement": "In every reachable state (sequential or random activation) a pool flagged is_private has no delegators and its stake equals its pledge; within one phase a pool is private iff its pledge reaches its saturation threshold.", "quantifier": "all populations, parameters, activation orders and histories", "why_tests_cant": "Inductive invariant; the public->private transition happens only in rare histories.", "anchors": ["logic/stakeholder.py:Stakeholder.update_pool", "logic/stakeholder.py:Stakeholder.find_operator_move", "logic/stakeholder.py:Stakeholder.determine_stake_allocations"]}
{"id": "C25", "title": "Stake accounting under simultaneous activation", "statement": "Under simultaneous and semi-simultaneous activation (as under any other) the stake of every open pool is its pledge plus the delegations it records, every open pool is operated by exactly one agent, and no agent commits more than it owns, according to its own strategy. But the records of pools and the strategies of agents can disagree, because the copy of a pool that its operator has staged overwrites what happened in the same round: a pool can count a delegation that was withdrawn, so that the open pools hold more stake than all agents own, a pool can miss a delegation, and the disagreement can stop the simulation with KeyError (witnesses for both schedulers).", "quantifier": "all interleavings of a round in which an operator and its delegators are activated together", "why_tests_cant": "Depends on the interleaving of staged moves.", "anchors": ["logic/activations.py:SemiSimultaneousActivation.step", "logic/stakeholder.py:Stakeholder.update_pool", "logic/stakeholder.py:Stakeholder.advance"]}
{"id": "C26", "title": "Pool ids are never reused", "statement": "During a run driven by run_model or by step(), every opened pool gets an id that no open or closed pool had before; model.pools has one entry per open pool, keyed by its id.", "quantifier": "all histories, all activation modes, any arithmetic", "why_tests_cant": "Inductive over unbounded histories; ids are also consumed by drafts.", "anchors": ["logic/sim.py:Simulation.get_next_pool_id", "logic/stakeholder.py:Stakeholder.find_operator_move", "logic/stakeholder.py:Stakeholder.open_pool"]}
{"id": "C27", "title": "Calling run_model after step()", "statement": "run_model() resets the sequence of pool ids. On a new model this changes nothing. On a model of sequential activation without open pools, or if the sequence is set to at least every id in use, no two agents ever operate pools of the same id, however the simulation goes on. But called on a model that has been stepped (e.g. by the visualisation server) and has open pools, it can give a new pool the id of an open one, which is then closed for everybody but its operator (witness).", "quantifier": "all prior histories", "why_tests_cant": "Needs a history with open pools before run_model.", "anchors": ["logic/sim.py:Simulation.run_model", "logic/sim.py:Simulation.initialize_pool_id_seq"]}
{"id": "C28", "title": "Ownership is consistent", "statement": "In every reachable state each open pool is owned by exactly one agent, which lists the very same pool object among its owned pools, and no agent lists a pool that is not open.", "quantifier": "all histories and activation modes, any arithmetic", "why_tests_cant": "Object identity between three structures (model.pools, strategy.owned_pools, rankings) after every history.", "anchors": ["logic/stakeholder.py:Stakeholder.execute_strategy", "logic/stakeholder.py:Stakeholder.update_pool", "logic/stakeholder.py:Stakeholder.open_pool", "logic/stakeholder.py:Stakeholder.close_pool"]}
{"id": "C29", "title": "A single-phase simulation never crashes", "statement": "With fixed parameters (k >= 1, a0 >= 0, positive stakes, non-negative costs) no step of a sequential or random simulation raises: no KeyError, ValueError, IndexError, AttributeError or ZeroDivisionError. The only exception is CIP-50 with a0 = 0: then the simulation raises ZeroDivisionError at the first turn of a myopic agent, and nothing else.", "quantifier": "all populations, parameters, mixtures of profiles, activation orders and histories", "why_tests_cant": "Crashes hide in rare histories (pools ranked below the None place-holders, stale keys, dangling pool ids).", "anchors": ["logic/stakeholder.py:Stakeholder.step", "logic/helper.py:calculate_non_myopic_pool_stake", "logic/stakeholder_profiles.py:NonMyopicStakeholder.calculate_margins_and_utility"]}
{"id": "C30", "title": "Crashes of multi-phase simulations", "statement": "A sequential or random simulation (k >= 1, a0 >= 0, for CIP-50 a0 > 0, positive stakes) whose phases never raise k and never raise a0 (CIP-50: never lower a0) raises nothing, whatever happens to the other parameters. Other phases can stop it: with IndexError when k grows beyond the number of None place-holders and pools of other agents, with AttributeError when the potential profit of an open pool turns non-positive, so that it ranks below the place-holders (witnesses). These are the only causes: if a turn raises, then k exceeds that number or there is an open pool without potential profit. (C111 has the exact condition for k.)", "quantifier": "all phase lists", "why_tests_cant": "Needs a phase change after an equilibrium.", "anchors": ["logic/sim.py:Simulation.change_phase", "logic/stakeholder_profiles.py:NonMyopicStakeholder.calculate_margins_and_utility", "logic/helper.py:calculate_non_myopic_pool_stake"]}
{"id": "C31", "title": "Inertia: a move is made only if it beats the current one by the thresholds", "statement": "update_strategy adopts a new strategy only if its expected utility strictly exceeds (1+relative_threshold)*u and u+absolute_threshold for both u = current and u = expected utility of the present strategy; on ties the present strategy wins over delegating, and delegating over operating; if some candidate exceeds all of these, the best candidate is adopted.", "quantifier": "all states, agents and thresholds", "why_tests_cant": "All utility values and ties.", "anchors": ["logic/stakeholder.py:Stakeholder.update_strategy", "docs/configuration.md:absolute_utility_threshold"]}
{"id": "C32", "title": "The search for the number of pools terminates in a local maximum", "statement": "choose_pool_strategy terminates for every utility function, returns a number of pools between 1 and k at which neither neighbour in 1..k has a higher utility, after at most floor(log2 k)+1 probes, and returns a global maximum if the utility is strictly unimodal.", "quantifier": "all k >= 1 and all utility functions on 1..k", "why_tests_cant": "All functions; termination of a while loop.", "anchors": ["logic/stakeholder.py:Stakeholder.choose_pool_strategy"]}
{"id": "C33", "title": "run_model terminates within max_iterations rounds", "statement": "run_model performs at most max_iterations rounds (and at most max_iterations + 1 calls of step), then running is False and the outputs have been exported exactly once, provided max_iterations is not itself a list of per-phase values. If it is a list, the loop can end with nothing exported (witness).", "quantifier": "all models, all agent behaviours, all max_iterations, iterations_after_convergence and phases", "why_tests_cant": "All behaviours.", "anchors": ["logic/sim.py:Simulation.run_model", "logic/sim.py:Simulation.step", "logic/sim.py:Simulation.wrap_up_execution"]}
{"id": "C34", "title": "Reported equilibria are equilibria", "statement": "In a single-phase run, 'Equilibrium reached' is reported only if the last iterations_after_convergence rounds were idle, and the reported equilibrium step s is such that no agent moved in any of the rounds s+1 .. s+iterations_after_convergence. In later phases of a multi-phase run these rounds need not belong to the phase whose equilibrium is reported (the idle counter is not reset; witness).", "quantifier": "all behaviours, all values of the parameters (max_iterations a number, not a list)", "why_tests_cant": "All behaviours.", "anchors": ["logic/sim.py:Simulation.has_converged", "logic/sim.py:Simulation.step", "logic/sim.py:Simulation.change_phase"]}
{"id": "C35", "title": "In an idle round nothing changes and no agent wants to move", "statement": "If a round (sequential or random activation) is idle then after it all pools, delegations and strategies are as before it, and every agent's candidate moves, evaluated in that very state, fail to beat its current strategy by the thresholds.", "quantifier": "all reachable states, all activation orders", "why_tests_cant": "Every agent is evaluated at a different time of the round; that they all saw the same state needs the planning-is-pure invariant.", "anchors": ["logic/stakeholder.py:Stakeholder.update_strategy", "logic/sim.py:Simulation.current_step_idle"]}
{"id": "C36", "title": "metrics.csv has one row per call of step, row i describing the state before round i", "statement": "The data collector's i-th row is the value of each metric in the state in which round i starts; the number of rows is rounds + 1 if max_iterations was hit and rounds if the run converged.", "quantifier": "all behaviours, max_iterations a number", "why_tests_cant": "All behaviours.", "anchors": ["logic/sim.py:Simulation.step", "logic/sim.py:Simulation.export_metrics_file"]}
{"id": "C37", "title": "Which state a batch row reports", "statement": "The aggregate row written by the batch runner for a run shows the metrics of the run's final state. This holds if the run converged, with sequential or random activation and exact arithmetic (C131 treats simultaneous activation and floats); when max_iterations is hit the row reports the state one round earlier (witness that it differs). With any collection period p >= 1 the rows returned are those collected before the rounds 0, p, 2p, ... and before the last one, and the aggregate row is the last of them; a period of 0 raises ValueError after the run.", "quantifier": "all behaviours and parameters, max_iterations a number", "why_tests_cant": "Needs a run that hits max_iterations with a change in the last round.", "anchors": ["custom_batchrunner.py:_model_run_func", "custom_batchrunner.py:_collect_data"]}
{"id": "C38", "title": "Pivot steps can be plotted", "statement": "Every recorded pivot step is the index of a collected metrics row when the run ends, so plotting pivots never fails, and equilibrium_steps has one entry per completed phase.", "quantifier": "all behaviours and phase lists, max_iterations a number", "why_tests_cant": "All behaviours.", "anchors": ["logic/sim.py:Simulation.change_phase", "logic/helper.py:plot_line"]}
{"id": "C39", "title": "A phase change re-evaluates every pool under the new parameters", "statement": "After change_phase every open pool's potential_profit and desirability are those of the new reward-scheme parameters, both rankings are sorted by the new keys and list the same pools; pledges, stakes, delegations and owners are untouched; parameters without a value for the phase keep their value.", "quantifier": "all states, all phase lists", "why_tests_cant": "All states.", "anchors": ["logic/sim.py:Simulation.change_phase"]}
{"id": "C40", "title": "Every agent is activated exactly once per round", "statement": "In each round of every activation mode each agent's step is called exactly once; with semi-simultaneous activation this happens in batches of exactly 5 agents (the last one has the rest), and each batch is advanced after all of its members have been stepped.", "quantifier": "all populations and all outcomes of the random sampling/shuffling", "why_tests_cant": "All random choices.", "anchors": ["logic/activations.py:SemiSimultaneousActivation.step", "logic/sim.py:Simulation.__init__"]}
{"id": "C41", "title": "After construction the agents' stakes add up to 1", "statement": "For every stake distribution with a positive sum the constructor leaves total_stake = 1 and sum(agent.stake) = 1, the latter except in the corner case in which the sampled stakes already add up to 1 - f for an inactive fraction f > 0; a non-positive sum raises ValueError.", "quantifier": "all distributions of any length, all inactive fractions in [0,1)", "why_tests_cant": "All lists.", "anchors": ["logic/sim.py:Simulation.normalize_agent_stake", "logic/sim.py:Simulation.__init__"]}
{"id": "C42", "title": "The last agent gets the inactive stake", "statement": "docs/configuration.md: inactive_stake_fraction f is the fraction of the total stake that remains inactive, i.e. belongs to no agent. In exact arithmetic every agent but the last holds its share of 1-f, in proportion to the sampled distribution. But the last agent gets the whole inactive stake f on top of its share (by the correction of 'floating point errors'), so that the agents hold everything; this is so for every 0 < f < 1, unless the sampled stakes happen to add up to 1-f: then, and only then, the agents hold the fraction 1-f. With f = 1, ZeroDivisionError.", "quantifier": "all distributions, all f in (0,1)", "why_tests_cant": "All lists and fractions.", "anchors": ["logic/sim.py:Simulation.normalize_agent_stake", "docs/configuration.md:inactive_stake_fraction"]}
{"id": "C43", "title": "Built-in stake distributions are distributions", "statement": "generate_stake_distr_flat(n) has n equal entries adding up to 1 (n >= 1); generate_stake_distr_disparity(n) has n positive entries adding up to 1 for n > 3, raises ZeroDivisionError for n = 3 and returns 3 entries (not n) for n < 3.", "quantifier": "all n", "why_tests_cant": "Unbounded n.", "anchors": ["logic/helper.py:generate_stake_distr_flat", "logic/helper.py:generate_stake_distr_disparity"]}
{"id": "C44", "title": "Which reward schemes can be simulated", "statement": "Of the documented reward schemes 0..4, Simulation(reward_scheme=i) can be constructed for exactly 0, 1, 2 and 4; scheme 3 raises TypeError (the constructor calls the class with two arguments), other numbers raise KeyError. So the documented claim that every scheme can be simulated is false.", "quantifier": "all scheme ids and parameters", "why_tests_cant": "Holds or fails independently of all other parameters.", "anchors": ["logic/sim.py:Simulation.__init__", "logic/reward_schemes.py:RSS_MAPPING", "logic/reward_schemes.py:CurvePledgeBenefitRSS.__init__"]}
{"id": "C45", "title": "Saturation threshold and k stay coupled", "statement": "Whenever k is assigned, global_saturation_threshold becomes 1/k and k * global_saturation_threshold <= 1 with equality for integers; assigning 0 raises ValueError. Knowing the inactive fraction f inflates k to floor(k/(1-f)) with threshold (1-f)/k; a later phase with a new k silently drops the inflation (witness), and revise_beliefs changes the threshold although its comment says it does not (witness).", "quantifier": "all k, all f in [0,1)", "why_tests_cant": "All values.", "anchors": ["logic/reward_schemes.py:RSS.k", "logic/sim.py:Simulation.__init__", "logic/sim.py:Simulation.revise_beliefs", "logic/sim.py:Simulation.change_phase"]}
{"id": "C46", "title": "Truncated Pareto samples respect the truncation", "statement": "If truncate_pareto returns, the sample has the same size and its maximum is at most sum/truncation_factor; it cannot return when truncation_factor exceeds the sample size (infinite loop). The values returned are values drawn, each used at most once and in the order of the draws. generate_stake_distr_pareto truncates iff the factor is positive; otherwise the stakes are one plus the first n draws.", "quantifier": "all samples, factors and random draws", "why_tests_cant": "All draws; non-termination cannot be tested.", "anchors": ["logic/helper.py:truncate_pareto", "logic/helper.py:generate_stake_distr_pareto"]}
{"id": "C47", "title": "Nakamoto coefficient", "statement": "get_nakamoto_coefficient returns the size of the smallest set of agents that together control strictly more than half of the stake in pools: some set of that size does, and no smaller set does; the value before pools exist is the same for initial stakes.", "quantifier": "all agents, pools and ownership patterns with positive total stake", "why_tests_cant": "Minimum over all subsets of an unbounded set.", "anchors": ["logic/model_reporters.py:get_nakamoto_coefficient"]}
{"id": "C48", "title": "Gini coefficients", "statement": "gini_coefficient of non-negative values with positive sum lies in [0, 1-1/n], is 0 iff all values are equal, does not depend on the order of the values nor on their scale, and is -1 iff the sum is 0; it equals half the relative mean absolute difference.", "quantifier": "all lists of non-negative values of any length", "why_tests_cant": "Unbounded lists.", "anchors": ["logic/model_reporters.py:gini_coefficient"]}
{"id": "C49", "title": "Stake per agent adds up", "statement": "The values of 'Stake per agent' and 'Stake per agent id' add up to 'Total delegated stake', have one entry per agent, and entry i is the sum of the stakes of the pools owned by agent i.", "quantifier": "all sets of pools with owners among the agents", "why_tests_cant": "Unbounded.", "anchors": ["logic/model_reporters.py:get_pool_stakes_by_agent", "logic/model_reporters.py:get_pool_stakes_by_agent_id", "logic/model_reporters.py:get_total_delegated_stake"]}
{"id": "C50", "title": "Pool homogeneity factor", "statement": "get_homogeneity_factor is in (0,1] for pools with positive stakes, equals 1 iff all pools have the same stake, and is 0 without pools.", "quantifier": "all lists of pools with positive stakes", "why_tests_cant": "Unbounded.", "anchors": ["logic/model_reporters.py:get_homogeneity_factor"]}
{"id": "C51", "title": "Pledge rate", "statement": "In every reachable state with pools get_pledge_rate is the total pledge divided by the total stake in pools and lies in (0,1]; it is 0 without pools.", "quantifier": "all reachable states, positive stakes", "why_tests_cant": "Reachable states.", "anchors": ["logic/model_reporters.py:get_pledge_rate"]}
{"id": "C52", "title": "Operator statistics are mutually consistent", "statement": "operator count <= pool count; average pools per operator = pool count / operator count >= 1 and <= max pools per operator; max >= median; number of splitters <= operator count, and it is 0 iff the max is <= 1; and max * operator count >= pool count.", "quantifier": "all lists of pools", "why_tests_cant": "Unbounded.", "anchors": ["logic/model_reporters.py:get_operator_count", "logic/model_reporters.py:get_avg_pools_per_operator", "logic/model_reporters.py:get_max_pools_per_operator", "logic/model_reporters.py:get_pool_splitter_count", "logic/model_reporters.py:get_median_pools_per_operator"]}
{"id": "C53", "title": "Statistical distance", "statement": "get_controlled_stake_distr_stat_dist is non-negative, at most (total initial + total controlled)/2, and 0 iff every agent controls exactly its own stake (when there are pools).", "quantifier": "all agents and pools", "why_tests_cant": "Unbounded.", "anchors": ["logic/model_reporters.py:get_controlled_stake_distr_stat_dist"]}
{"id": "C54", "title": "Rank metrics are ranks", "statement": "Mean/median stake and cost ranks lie between 1 and the number of agents whenever there is a pool, and are 0 otherwise.", "quantifier": "all agents and pools", "why_tests_cant": "Unbounded; Python's banker's rounding.", "anchors": ["logic/model_reporters.py:get_avg_stk_rnk", "logic/model_reporters.py:get_median_stk_rnk", "logic/model_reporters.py:get_avg_cost_rnk", "logic/model_reporters.py:get_median_cost_rnk"]}
{"id": "C55", "title": "A batch run covers the parameter grid exactly once", "statement": "_make_model_kwargs yields every combination of parameter values exactly once (their number is the product of the numbers of values), each with every parameter bound; strings and scalars are fixed parameters; an empty value list yields no runs.", "quantifier": "all parameter dictionaries", "why_tests_cant": "Unbounded grids.", "anchors": ["custom_batchrunner.py:_make_model_kwargs"]}
{"id": "C56", "title": "Batch runs are numbered and seeded without clashes", "statement": "custom_batch_run creates (#combinations * iterations) runs with sequence ids 1..N, all different, and the i-th iteration of each combination gets seed initial_seed + i; the output directories of different runs differ. The execution id passed to a run consists of 'name-value' for each parameter that varies, in the order of the parameters, and for the seed, joined by dashes.", "quantifier": "all grids, iteration counts and seeds", "why_tests_cant": "Unbounded.", "anchors": ["custom_batchrunner.py:custom_batch_run", "logic/sim.py:Simulation.__init__"]}
{"id": "C57", "title": "Sequence ids survive and grow", "statement": "read_seq_id after write_seq_id(n) returns n; successive runs get strictly increasing ids, starting from 1 without a file. A crash between truncation and write leaves an unreadable file: every later run raises ValueError (witness). Runs that overlap may get the same id, or leave digits of two numbers in the file, so that ids jump (witness: from 8 to 91).", "quantifier": "all n, all sequences of runs, all crash points", "why_tests_cant": "Crash points and unbounded histories.", "anchors": ["logic/helper.py:read_seq_id", "logic/helper.py:write_seq_id"]}
{"id": "C58", "title": "Result files have one header", "statement": "Any number of successive write_to_csv calls yields the header once, followed by all rows in order. With two processes writing concurrently to a new file two headers are possible (witness), and no row is ever lost.", "quantifier": "all sequences of writes; all interleavings of two or more writers", "why_tests_cant": "Interleavings.", "anchors": ["logic/helper.py:write_to_csv", "custom_batchrunner.py:_model_run_func"]}
{"id": "C59", "title": "Output directories of different executions differ", "statement": "The execution directory name str(seq_id) + '-' + id determines seq_id, so executions with different sequence ids never share a directory; generated ids have at most 100 characters.", "quantifier": "all sequence ids and all execution id strings", "why_tests_cant": "All strings.", "anchors": ["logic/sim.py:Simulation.__init__", "logic/helper.py:generate_execution_id"]}
{"id": "C60", "title": "Command-line validation", "statement": "positive_int / non_negative_int / positive_float / non_negative_float / fraction accept exactly the finite numbers in the stated range and reject text that is not a number. Besides those, the float validators accept exactly 'nan' (all of them) and 'inf' (the unbounded ones), so the claim that they accept only numbers in the range is false.", "quantifier": "all integers and all IEEE values incl. nan and infinities", "why_tests_cant": "NaN compares false with everything.", "anchors": ["logic/helper.py:positive_int", "logic/helper.py:positive_float", "logic/helper.py:fraction"]}
{"id": "C61", "title": "When the recorded seed reproduces the run", "statement": "Re-running with the recorded 'Randomness seed' and the same arguments uses the same random streams for stakes, costs, profiles and activation order. This holds iff a seed was passed as an argument; if it was drawn by the constructor or came from args.json, the activation stream is seeded from entropy and differs.", "quantifier": "all arguments and entropy values", "why_tests_cant": "Cannot be observed in one run.", "anchors": ["logic/sim.py:Simulation.__init__"]}
{"id": "C62", "title": "find_target_pool returns the last pool needed to cover a target", "statement": "find_target_pool returns the pool at which the cumulative saturation thresholds of the ranked list first reach the target stake (None if the list runs into a place-holder before, or is empty / target <= 0).", "quantifier": "all ranked lists, targets and schemes", "why_tests_cant": "Unbounded lists.", "anchors": ["logic/helper.py:find_target_pool"]}
{"id": "C63", "title": "Memoisation is transparent", "statement": "For every history of calls, an lru_cache'd helper returns what the undecorated function returns, and at most maxsize results are retained.", "quantifier": "all call histories, all pure functions, all maxsize", "why_tests_cant": "All histories, incl. evictions.", "anchors": ["logic/helper.py:lru_cache"]}
{"id": "C64", "title": "Closing a pool frees its delegators", "statement": "When an operator closes a pool (or, in exact arithmetic, turns it private), afterwards no agent delegates to it, it is in neither ranking nor model.pools (if closed), and every other delegation of every other agent is unchanged.", "quantifier": "all reachable states (sequential or random activation)", "why_tests_cant": "All states.", "anchors": ["logic/stakeholder.py:Stakeholder.close_pool", "logic/stakeholder.py:Stakeholder.remove_delegations", "logic/stakeholder.py:Stakeholder.update_pool"]}
{"id": "C65", "title": "All pools of an operator are alike", "statement": "Every pool of one operator has the same pledge and the same cost at all times: cost = calculate_cost_per_pool of its number of pools, and within one phase pledge = min(stake/n, threshold) where n is the number of pools it operates.", "quantifier": "all reachable states (sequential or random activation)", "why_tests_cant": "Inductive invariant.", "anchors": ["logic/stakeholder.py:Stakeholder.find_operator_move", "logic/stakeholder.py:Stakeholder.determine_pledge_per_pool"]}
{"id": "C66", "title": "Only profitable pools are ever opened", "statement": "In a single-phase run with positive stakes, beta > 0 and a0 >= 0 every open pool has positive potential profit (it would be profitable at saturation), so that it is listed before the place-holders of the ranking.", "quantifier": "all reachable states (sequential or random activation), exact arithmetic", "why_tests_cant": "Needs the comparison of operating against delegating in all states.", "anchors": ["logic/stakeholder.py:Stakeholder.update_strategy", "logic/helper.py:calculate_potential_profit"]}
{"id": "C67", "title": "Abstainers stay out", "statement": "An abstaining agent never owns a pool and never delegates, at any time of any run, and is never listed as a delegator.", "quantifier": "all histories and activation modes", "why_tests_cant": "All histories.", "anchors": ["logic/stakeholder_profiles.py:Abstainer"]}
{"id": "C68", "title": "Margins stay in [0,1]", "statement": "In every reachable state every open pool's margin, be it private or not, lies in [0,1], and its desirability is max((1 - margin) * potential profit, 0); also in arithmetic that rounds.", "quantifier": "all reachable states", "why_tests_cant": "Inductive invariant.", "anchors": ["logic/stakeholder.py:Stakeholder.find_operator_move", "logic/helper.py:calculate_suitable_margin"]}
{"id": "C69", "title": "Cost distributions stay in range", "statement": "generate_cost_distr_disparity and generate_cost_distr_bands_manual return values between low and high (n of them, if n >= 10 resp. n >= 3), uniform and banded costs lie between low and high too, and every cost generator raises ValueError when high < low. generate_cost_distr_nrm does not stay in range: it returns n values between low * stddev + mean and high * stddev + mean, and any of these is possible (scipy truncates before it scales and shifts), so that costs for the range [1, 2] can all be 5/2 (witness).", "quantifier": "all n, low, high", "why_tests_cant": "Unbounded n.", "anchors": ["logic/helper.py:generate_cost_distr_disparity", "logic/helper.py:generate_cost_distr_bands_manual", "logic/helper.py:generate_cost_distr_unfrm", "logic/helper.py:generate_cost_distr_bands", "logic/helper.py:generate_cost_distr_nrm"]}
{"id": "C70", "title": "Mean and median metrics", "statement": "With pools, 'Mean pledge' times 'Pool count' is 'Total pledge', the mean and median margin lie in [0,1], at least half of the pools have a margin (pledge) at most, and at least half at least, the median one; 'Average saturation rate' is the mean of stake / saturation threshold and raises ZeroDivisionError exactly if some threshold is 0. Without pools all of them are 0.", "quantifier": "all states (margins: all reachable states)", "why_tests_cant": "Unbounded lists of pools; the margin bounds are an invariant.", "anchors": ["logic/model_reporters.py:get_avg_margin", "logic/model_reporters.py:get_median_margin", "logic/model_reporters.py:get_avg_pledge", "logic/model_reporters.py:get_median_pledge", "logic/model_reporters.py:get_avg_sat_rate"]}
{"id": "C71", "title": "All rows of the aggregate results fit the header", "statement": "The result rows of all runs of a batch have the same columns in the same order, so the header written by whichever run finishes first fits every row. A row says nothing of parameters that are the same for all runs; any other column holds the metric with that name, else the run's argument with that name, else the step; no column occurs twice.", "quantifier": "all parameter grids, iteration counts, pairs of runs and metric values", "why_tests_cant": "Needs all grids and all orders in which runs finish.", "anchors": ["custom_batchrunner.py:_model_run_func", "custom_batchrunner.py:_make_model_kwargs", "logic/helper.py:write_to_csv"]}
{"id": "C72", "title": "The iteration column is always 0", "statement": "The column 'iteration' of the results is 0 in every row: the counter is indexed by all keyword arguments, among them the unique seq_id, so it does not number the repetitions of a parameter combination as intended. RunId is the position in the order of completion.", "quantifier": "all grids, iteration counts and completion orders", "why_tests_cant": "A test with one iteration sees only zeros; completion order is nondeterministic.", "anchors": ["custom_batchrunner.py:custom_batch_run"]}
{"id": "C73", "title": "Changing the activation order between phases", "statement": "agent_activation_order may be a list of per-phase values, but the scheduler is chosen once. Switching from sequential or random to a simultaneous order freezes the simulation: whatever agents are activated from then on, no strategy and no pool changes and every round counts as idle, so a spurious equilibrium is reported. Switching from simultaneous to sequential or random (between rounds) gives sequential rounds.", "quantifier": "all reachable states, all numbers and orders of further activations", "why_tests_cant": "Needs every activation sequence after the switch; a test sees one run that looks like a fast convergence.", "anchors": ["logic/sim.py:Simulation.change_phase", "logic/sim.py:Simulation.__init__", "logic/stakeholder.py:Stakeholder.step", "logic/stakeholder.py:Stakeholder.advance"]}
{"id": "C74", "title": "No metric ever raises", "statement": "Exactly the ids 1..30 denote metrics, each a different one. In every reachable state of a simulation with positive stakes, beta > 0 (and a0 > 0 for CIP-50) and model.n equal to the number of agents every metric can be computed, so every row of the data collector can be collected; its columns are the requested metrics in the requested order. Two of the 32 implemented metrics, 'Gini-id (k)' and 'Gini-id stake (k)', have no id, so that they can never be reported. If n is a list of per-phase values the metrics 'Stake per agent' and 'Stake per agent id' can raise (witness).", "quantifier": "all reachable states, all lists of metric ids", "why_tests_cant": "All states times all metrics.", "anchors": ["logic/model_reporters.py:ALL_MODEL_REPORTEERS", "logic/model_reporters.py:REPORTER_IDS", "logic/sim.py:Simulation.__init__"]}
{"id": "C75", "title": "The final files describe the final state", "statement": "wrap_up_execution raises no exception in any reachable state with positive stakes. final-state-stakeholders has one row per agent in the order of ids: its 'Pools owned' is the number of open pools of the agent, its 'Total pool stake' their stake, status Abstainer/Operator/Delegator as the profile and the open pools say; the columns add up to the number of pools, the delegated stake and the operator count. final-state-pools has one row per open pool with its attributes; the final descriptors and the experiment tracker agree with the metrics.", "quantifier": "all reachable states (all activation modes and phases), all rounding functions", "why_tests_cant": "Relates two separate data structures (strategies, model.pools) in all reachable states.", "anchors": ["logic/sim.py:Simulation.export_agents_file", "logic/sim.py:Simulation.export_pools_file", "logic/sim.py:Simulation.export_final_state_desc_file", "logic/sim.py:Simulation.append_to_experiment_tracker", "logic/sim.py:Simulation.wrap_up_execution"]}
{"id": "C76", "title": "The initial descriptors describe the stakes", "statement": "With agents whose stakes are not all zero, export_initial_state_desc_file raises no exception; max and min are the extreme stakes, mean times n is the active stake, mean and median lie between min and max, at least half of the stakes are at most / at least the median, the variance is 0 exactly if all stakes are equal, and the Nakamoto coefficient is that of the stakes. Without agents it raises ValueError.", "quantifier": "all populations", "why_tests_cant": "Unbounded populations.", "anchors": ["logic/sim.py:Simulation.export_initial_state_desc_file", "logic/model_reporters.py:get_stake_distr_stats", "logic/model_reporters.py:get_nakamoto_coefficient", "logic/model_reporters.py:get_cost_efficient_count"]}
{"id": "C77", "title": "The constructor does what its arguments say", "statement": "For all arguments that the command line accepts (and sane random draws) the constructor raises no exception, and every argument arrives where it belongs: n agents; every agent but the last holds its share of the active stake; costs are drawn uniformly from [cost_min, cost_max]; an agent has profile j exactly if its draw falls into the j-th of the intervals whose lengths are the weights; k, a0, thresholds, cost fraction, iteration limit, activation order and columns are the given (first) ones (the metrics 1, 2, 6, 9, 17, 18 and 25 if none are given). The reward scheme is the one with the given number. Exceptions: reward scheme 3 raises TypeError, inactive fraction 1 and disparity with 3 agents raise ZeroDivisionError, cost_min > cost_max and zero weights raise ValueError.", "quantifier": "all arguments and all random draws", "why_tests_cant": "Unbounded populations, all combinations of arguments and draws.", "anchors": ["logic/sim.py:Simulation.__init__", "logic/sim.py:Simulation.initialize_agents", "logic/sim.py:Simulation.normalize_agent_stake", "logic/helper.py:add_script_arguments", "logic/stakeholder_profiles.py:PROFILE_MAPPING"]}
{"id": "C78", "title": "An execution runs to its end", "statement": "A simulation with accepted arguments and sequential or random activation (CIP-50: a0 > 0) and either one phase or several phases that only relax k and a0 (the inactive stake not being known to the system) runs to its end without an exception: it stops after at most max_iterations rounds, exports its results exactly once, has collected one complete row of the requested metrics per round and can write all files.", "quantifier": "all arguments, random draws, orders of activation, set iteration orders, numbers of agents and rounds", "why_tests_cant": "Complete runs with all random choices.", "anchors": ["main.py:main", "logic/sim.py:Simulation.run_model", "logic/sim.py:Simulation.step", "logic/sim.py:Simulation.__init__", "logic/sim.py:Simulation.change_phase", "logic/sim.py:Simulation.wrap_up_execution"]}
{"id": "C79", "title": "In every phase the listed values are in force", "statement": "At every moment of a run the values of k, a0, both utility thresholds, the extra cost fraction, max_iterations and n are those listed for the current phase, where a list that is too short keeps its last value (k may be inflated in the first phase, if the inactive stake is known; if k is a list the inflation is gone in all later phases); the phase never exceeds the number of phases. The number of phases is the length of the longest list of values, and a run that ends before max_iterations has gone through all of them.", "quantifier": "all arguments (one value for the activation order), activation orders and random choices, at every step of a run", "why_tests_cant": "Every step of every run.", "anchors": ["logic/sim.py:Simulation.change_phase", "logic/sim.py:Simulation.__init__", "logic/sim.py:Simulation.step"]}
{"id": "C80", "title": "A reported equilibrium is a fixed point", "statement": "Sequential or random activation, exact arithmetic, the same set iteration order throughout. If a round in which every agent has a turn is idle, all later rounds raise no exception, are idle and leave pools, delegations and strategies as they are, in whatever orders the agents act; so within a phase an idle round is followed by idle rounds only. If a run reports 'Equilibrium reached: Yes' (iterations_after_convergence at least 1, at least one round in its last phase), its final state is such a fixed point; and with one phase the value of iterations_after_convergence does not influence the final state of runs that report an equilibrium.", "quantifier": "all reachable states, all populations, all orders of activation, any number of further rounds", "why_tests_cant": "Quantifies over all continuations of all runs; depends on planning not reading ids or objects left behind by earlier plans.", "anchors": ["logic/stakeholder.py:Stakeholder.update_strategy", "logic/stakeholder.py:Stakeholder.choose_pool_strategy", "logic/sim.py:Simulation.step", "logic/sim.py:Simulation.has_converged"]}
{"id": "C81", "title": "The figures that pools are ranked by are up to date", "statement": "In every reachable state with sequential or random activation (any phases; within one phase in every mode), the potential profit of every open pool is what the pool would earn when saturated under the current parameters - (b + a0 * min(pledge, b)) / (1 + a0) for the linear schemes, min(a0 * pledge, b) for CIP-50 - minus its cost; its desirability is max((1 - margin) * profit, 0) with 0 <= margin <= 1; and a pool listed before another one in pool_rankings is more desirable, or equally desirable and more profitable, or equal in both and has the smaller id (pool_rankings_myopic: the same with the worth at the current stake).", "quantifier": "all reachable states, all pools", "why_tests_cant": "The figures are cached in the pool objects; every path that changes a pledge, a cost, a margin or the scheme has to refresh them.", "anchors": ["logic/pool.py:Pool.set_profit", "logic/pool.py:Pool.set_desirability", "logic/pool.py:Pool.margin", "logic/sim.py:Simulation.change_phase", "logic/stakeholder.py:Stakeholder.find_operator_move"]}
{"id": "C82", "title": "The graphs of a run show its states", "statement": "Whenever a run ends (one value for n and max_iterations), export_graphs raises no exception. It draws one curve per collected metric with a number as value, through the values in the states in which the rounds started; a cross per parameter change, at the first round with the new parameters and at the value of the state in which they came into force; one stacked chart for 'Stake per agent', from round 1 on, with one series per agent whose heights add up to the stake in all pools; nothing for 'Stake per agent id' and 'StakePairs'. No two graphs are written to the same file, whatever the execution id is.", "quantifier": "all runs, all choices of metrics, all phases", "why_tests_cant": "Depends on every row that any run can collect (rows of equal length, a row for every pivot step).", "anchors": ["logic/sim.py:Simulation.export_graphs", "logic/helper.py:plot_line", "logic/helper.py:plot_stack_area_chart", "logic/sim.py:Simulation.wrap_up_execution"]}
{"id": "C83", "title": "The interactive visualisation plays the same simulation", "statement": "(Of the server that runViz.py would start if its imports did not fail, see the property on imports.) Each get_step message makes the simulation do exactly one step, answered with its charts, until the simulation has stopped; then every get_step is answered with 'end' and changes nothing. The final simulation is the one that run_model (and the batch runner) would have produced. Parameters the browser may not set are ignored; a settable one changes only itself, and if the constructor rejects the new values the old simulation stays while the new value is kept. Charts are taken from the last collected row, so after a step they show the state in which the step began (one round behind). With the default metrics, which runViz.py uses, the stacked and the bubble chart are always empty.", "quantifier": "all message sequences, all simulations, all reachable states", "why_tests_cant": "Message sequences of any length.", "anchors": ["interactiveViz/myModularVisualization.py:MySocketHandler.on_message", "interactiveViz/myModularVisualization.py:MyModularServer.reset_model", "interactiveViz/stackedChartModule.py:StackedChartModule.render", "interactiveViz/bubbleChartModule.py:BubbleChartModule.render", "interactiveViz/myChartModule.py:MyChartModule.render", "interactiveViz/runViz.py"]}
{"id": "C84", "title": "Convergence is not guaranteed", "statement": "A simulation (sequential activation, exact arithmetic; CIP-50: a0 > 0) that comes, in rounds in none of which all agents keep their strategies, to a state and later back to one that differs from it only in the ids and objects of pools never converges: it uses up max_iterations, whatever that is, reports 'Equilibrium reached: No', notes no equilibrium step and enters no later phase. There are accepted arguments for which this happens: two agents with equal stakes and costs 0.01 and 0.02, k = 1, a0 = 0.3, default thresholds repeat two rounds for ever, so no value of max_iterations is large enough.", "quantifier": "all limits on iterations, all values of iterations_after_convergence >= 1, all states that recur", "why_tests_cant": "No finite number of rounds shows that a simulation never converges.", "anchors": ["logic/sim.py:Simulation.run_model", "logic/sim.py:Simulation.step", "logic/sim.py:Simulation.has_converged", "logic/stakeholder.py:Stakeholder.choose_pool_strategy"]}
{"id": "C85", "title": "Ids of pools are only names", "statement": "If the numbering of pools starts at another number (and sets of ids are iterated in an order that does not depend on the numbers), every run, with any activation order and any phases, raises the same exception or has the same rows of metrics (all metrics but 'StakePairs', which lists ids), the same number of rounds, equilibria, phases and verdict, and ends in a state that differs in the ids only. More generally, states that differ by an order-preserving renaming of ids and a renaming of pool objects stay so.", "quantifier": "all runs, all offsets, all states that differ by a renaming", "why_tests_cant": "Relates two runs of any length; ids enter through tie-breaking in rankings and through dictionaries and sets.", "anchors": ["logic/sim.py:Simulation.get_next_pool_id", "logic/sim.py:Simulation.initialize_pool_id_seq", "logic/helper.py:pool_comparison_key", "logic/stakeholder.py:Stakeholder.execute_strategy"]}
{"id": "C86", "title": "Nobody rests at a loss", "statement": "An agent that operates no pools never expects to lose anything, whatever the state. A strategy that is adopted is expected to earn at least 0, and more than 0 if it operates pools. The utility an agent computes for the present is what it earns (operators: all of a loss, of a profit the margin and the share of the pledge in the rest; delegators: their share after the margin, nothing of a loss). A myopic agent expects to go on earning what it earns now. In the final state of a run that reports an equilibrium (sequential or random activation, abs_utility_threshold >= 0, relative_utility_threshold > -1) no participating agent expects, both at present and in the long run, to lose more than abs_utility_threshold; a myopic agent does not lose more than that at present. A non-myopic operator may lose money at present in a reported equilibrium.", "quantifier": "all states; all runs that report an equilibrium, all phases", "why_tests_cant": "Universally quantified over equilibria; the loss of a non-myopic operator only shows up with particular stakes and costs.", "anchors": ["logic/stakeholder.py:Stakeholder.update_strategy", "logic/stakeholder.py:Stakeholder.calculate_current_utility", "logic/stakeholder.py:Stakeholder.calculate_expected_utility", "logic/stakeholder_profiles.py:MyopicStakeholder.calculate_delegator_utility_from_pool", "logic/helper.py:calculate_delegator_reward_from_pool", "logic/helper.py:calculate_operator_reward_from_pool"]}
{"id": "C87", "title": "Only agents who could make a profit operate pools", "statement": "In single-phase simulations with sequential or random activation: an agent that operates n pools would earn more with n saturated pools, among which its stake is split as pledge, than they cost in total, and n <= k. So an agent whose cost is at least k * beta (the total rewards) never operates a pool; there are never more than k pools per participating agent for which some n <= k is profitable in this sense; and if there is no such agent (and abs_utility_threshold >= 0), no pool is ever opened and no agent ever changes its strategy.", "quantifier": "all single-phase simulations, all reachable states", "why_tests_cant": "Quantifies over all populations and all reachable states.", "anchors": ["logic/stakeholder.py:Stakeholder.choose_pool_strategy", "logic/stakeholder.py:Stakeholder.update_strategy", "logic/stakeholder_profiles.py:NonMyopicStakeholder.calculate_margins_and_utility", "logic/helper.py:calculate_cost_per_pool", "logic/helper.py:calculate_pledge_per_pool"]}
{"id": "C88", "title": "The plots of a batch run show all its runs", "statement": "The options execution_id, seed and agent_profile_distr are no parameters of a batch run: whatever is given for agent_profile_distr has no effect. In whatever order the runs finish, the plots are: for every parameter with several values and every metric a scatter plot with one point per run for which the metric is not negative; and, exactly if two parameters have several values, for every metric a heat map with exactly one cell per pair of values, showing the metric of the one run with these values. If one of two such parameters lists a value twice, drawing the first heat map raises ValueError (after all runs and scatter plots). If a list of values is empty there are no runs, no plots and no exception. No two plots are written to the same file, whatever the execution id. The reward scheme of CIP-50 cannot be chosen in a batch run.", "quantifier": "all lists of parameter values, all orders in which runs finish, all metrics", "why_tests_cant": "Quantifies over all grids of parameters and over all orders in which parallel runs finish.", "anchors": ["batch-run.py", "logic/helper.py:plot_aggregate_data", "logic/helper.py:plot_aggregate_data_heatmap", "custom_batchrunner.py:custom_batch_run"]}
{"id": "C89", "title": "Phases that change nothing, or only raise the thresholds", "statement": "A new phase whose parameters are all as before changes nothing at all in the state (pools, rankings, agents), although every pool is taken out of the rankings, evaluated anew and put back: sequential and random activation in any state, all modes as the first change of phase. If a round was idle and a new phase at most raises relative_utility_threshold and absolute_utility_threshold (both not negative before), the phase begins without an exception, and all later rounds are idle and leave agents, strategies, pools and rankings as they were; so in a run whose phases, from an idle round on, at most raise thresholds nothing happens any more. Lowering a threshold may end an equilibrium.", "quantifier": "all reachable states, all phases that only raise thresholds, all activation orders, all later rounds", "why_tests_cant": "Quantifies over all equilibria and over rounds without end; re-evaluation could reorder pools that tie.", "anchors": ["logic/sim.py:Simulation.change_phase", "logic/stakeholder.py:Stakeholder.update_strategy", "logic/sim.py:Simulation.step", "logic/pool.py:Pool.set_profit", "logic/pool.py:Pool.set_desirability"]}
{"id": "C90", "title": "What agents expect, and how they decide", "statement": "In every state of a simulation, the expected utility of an agent's present strategy is what the following specification says, which mentions only the open pools, the pools the agent (considers to) operate and its delegations. A pool is expected to fill up to its saturation point in the long run (or to keep a stake beyond it), unless the pools that outrank it (by desirability, then potential profit, then id) can take all stake up to one unit before they are full; then only its pledge remains. A non-myopic agent expects of a pool it operates the income of an operator at that stake, where the field are the other agents' open pools and its own (planned) ones; of a delegation it expects the income of a delegator at that stake or at the stake that the pool has once the agent's present delegation is replaced by the considered one, whichever is larger. Myopic agents expect the incomes at the present stakes. Delegations to pools that are closed bring nothing. When an agent plans (sequential or random activation; or simultaneous activation, while the pools record what its strategy says) it compares its present strategy with the best delegation and with operating pools, by these expectations and in the state before planning; it stays iff neither beats, by both thresholds, both what it earns and what it expects; otherwise it adopts the better one, a delegation if they are equally good.", "quantifier": "all reachable states, all agents, all orders of iterating sets", "why_tests_cant": "Quantifies over all reachable states; the code computes expectations from sorted lists that are updated in place, from copies of pools and while delegations are taken out temporarily.", "anchors": ["logic/stakeholder.py:Stakeholder.calculate_expected_utility", "logic/stakeholder.py:Stakeholder.update_strategy", "logic/stakeholder_profiles.py:NonMyopicStakeholder.calculate_operator_utility_from_strategy", "logic/stakeholder_profiles.py:NonMyopicStakeholder.calculate_delegator_utility_from_pool", "logic/stakeholder_profiles.py:MyopicStakeholder.calculate_delegator_utility_from_pool", "logic/helper.py:calculate_non_myopic_pool_stake"]}
{"id": "C91", "title": "Every metric is what its number and its name say", "statement": "In every state that a simulation with positive stakes reaches, for every number from 1 to 30 the metric with this number has the documented name, raises no exception, and its value is what the name says, by a definition that mentions only the open pools and the agents: counts, sums, means (0 without pools), medians (the middle of the sorted values or half way between the two middle ones), maxima, the Nakamoto coefficient, half the sum of the differences between controlled and owned stake, ratios of sums, ranks of operators (by stake; by cost, cheapest last) rounded to the nearest (even) integer, Gini coefficients as half the relative mean difference (-1 if all values are 0), stake controlled by each agent. (Of the minimum aggregate pledge, which an external solver computes, only that it is a number.)", "quantifier": "all reachable states (CIP-50: a0 > 0), all 30 metrics", "why_tests_cant": "Quantifies over all reachable states; tests compare with values computed by the same code.", "anchors": ["logic/model_reporters.py:ALL_MODEL_REPORTEERS", "logic/model_reporters.py:REPORTER_IDS", "logic/model_reporters.py:get_pledge_rate", "logic/model_reporters.py:get_homogeneity_factor", "logic/model_reporters.py:get_stakes_n_margins", "logic/model_reporters.py:get_median_pledge"]}
{"id": "C92", "title": "The minimum aggregate pledge is the least an attacker must own", "statement": "Without pools the metric is 0; with pools it is what the external solver finds for the pledges, the stakes and half of the stake in pools, and -2 if it finds nothing. If the external solver is exact (returns a best feasible point of a 0/1 program that has one), then in every state that a simulation with positive stakes reaches and that has pools, the metric is the least total pledge of a set of open pools that holds at least half of the stake in pools; it is positive and at most the total pledge, and never -2. Any agents whose pools together hold at least half of the stake in pools own at least this much stake; in particular there are as many agents as the Nakamoto coefficient says who control most of the stake in pools, and own at least the minimum aggregate pledge.", "quantifier": "all reachable states with pools, all exact solvers, all sets of agents", "why_tests_cant": "Minimum over all subsets of pools in all reachable states.", "anchors": ["logic/model_reporters.py:get_min_aggregate_pledge", "logic/model_reporters.py:get_nakamoto_coefficient"]}
{"id": "C93", "title": "How many pools agents plan to operate, and with which margins", "statement": "When an agent plans in any state of a simulation (sequential or random activation; or simultaneous activation, while the pools record what its strategy says), the pools it considers operating follow a specification that mentions only the open pools before planning. Their number n is between 1 and k, and the utility planned for n pools is at least those planned for n-1 and n+1 pools. All n pools have pledge min(stake/n, beta) and the same share of the cost (each pool beyond the first adds the extra fraction); those made from pools the agent has keep the stake that others have delegated. The t-th pool competes with the pool of another agent that comes after k-t others, best first (non-myopic: desirability, then potential profit; myopic: what its delegators together get at present; nothing if there are not so many). Its margin is the one with which delegators would get one boost (1e-6) more than there (non-myopic: but no less than the rival's potential profit, and from the potential profit of the pool; myopic: from its profit at an equal share of the larger of the agent's stake and the stake of its pools); 0 if there is not so much to get. The utility is the sum of the operator's incomes at saturation (non-myopic: at the pledge alone for a pool that cannot compete). The specification determines margins and utility.", "quantifier": "all reachable states, all agents, all numbers of pools", "why_tests_cant": "Quantifies over all reachable states; the code finds rivals by index in filtered sorted lists, and the number of pools by bisection.", "anchors": ["logic/stakeholder.py:Stakeholder.choose_pool_strategy", "logic/stakeholder.py:Stakeholder.find_operator_move", "logic/stakeholder_profiles.py:NonMyopicStakeholder.calculate_margins_and_utility", "logic/stakeholder_profiles.py:MyopicStakeholder.calculate_margins_and_utility", "logic/helper.py:calculate_suitable_margin", "logic/helper.py:calculate_cost_per_pool", "logic/helper.py:calculate_pledge_per_pool"]}
{"id": "C94", "title": "Where agents plan to delegate", "statement": "When an agent plans in any state of a simulation (sequential or random activation; or simultaneous activation, while the pools record what its strategy says), the delegation it considers follows a specification that mentions only the open pools before planning. It may use the public pools of other agents. It prefers some to others: non-myopic agents by desirability, then potential profit, then smaller id; myopic agents by what the delegators together get at present, then smaller id. A pool can take what is missing to its saturation point when the agent's present delegation is not counted. A pool that can take at least one unit gets that, or what is left after the preferred ones, if that is less, and nothing if less than a unit is left. If all such pools can be filled and at least a unit is left, all of it goes to the preferred one of the full pools. Beside operating n pools, the agent considers placing in the same way what n pledges leave of its stake.", "quantifier": "all reachable states, all agents, all stakes and pools", "why_tests_cant": "Tests would have to recompute the allocation loop; the closed form says what each single pool gets in every state, so it also fixes ties, full pools, leftovers and the agent's present delegations.", "anchors": ["logic/stakeholder.py:Stakeholder.find_delegation_move", "logic/stakeholder.py:Stakeholder.determine_stake_allocations", "logic/stakeholder.py:Stakeholder.find_operator_move"]}
{"id": "C95", "title": "The agents of a simultaneous round decide on the same state", "statement": "With simultaneous activation (also for the batches of semi-simultaneous activation): if the pools record of every agent exactly the delegations that its strategy says, as they do when a simulation starts, then the planning half of a round leaves everything as it was, except for the strategies that the agents stage: parameters, open pools with all their figures and delegations, both rankings, agents and strategies. So each agent stages what it would stage if it were asked alone, up to the ids of new pools, and the order in which the agents are asked matters neither for this nor for exceptions. The condition is needed: in later rounds records and strategies can disagree (C25); then the planning of one agent can change the stake of a pool, and an agent decides differently if it is asked after another one, although no move has been carried out in between.", "quantifier": "all reachable states with agreeing records, all orders of all subsets of the agents, all orders of iterating sets", "why_tests_cant": "Quantifies over all states, all subsets and orders of agents; planning takes delegations out of pools and puts them back, and creates pools and ids.", "anchors": ["logic/stakeholder.py:Stakeholder.step", "logic/stakeholder.py:Stakeholder.update_strategy", "logic/stakeholder.py:Stakeholder.determine_stake_allocations", "logic/activations.py:SemiSimultaneousActivation.step"]}
{"id": "C96", "title": "What rounding leaves of the accounting", "statement": "Python floats are binary64 numbers, every operation rounding to nearest (ties to even). In this arithmetic, as in exact arithmetic: pledges are between 0 and the owner's stake; every delegation, as agents and pools record it, is at least one MIN_STAKE_UNIT, an agent's delegation is at most its stake, and no pool lists a delegator twice; margins are in [0, 1] (C07, C68); what an operator's pools cost and pledge is what C65 says; with a stake of at least the pledge, rewards of the schemes 0, 1, 2 and 4 are not negative and grow with the stake. The claims with sums are false in binary64: a pool that lost its delegators can keep more stake than its pledge (C20); an agent can pledge more than its stake (C22); an agent that plans and decides to change nothing can change the stake of a pool, while the round counts as idle (C19); and a simulation with positive stakes can raise ZeroDivisionError, if a pledge is so small that it is lost when a delegator comes and goes (C29).", "quantifier": "all reachable states, all activation orders, all arithmetics in which the operations are monotone and exact for units (exact arithmetic and binary64)", "why_tests_cant": "Tests run in binary64 and compare with tolerances; they cannot tell which bounds are exact.", "anchors": ["logic/pool.py:Pool.update_delegation", "logic/stakeholder.py:Stakeholder.determine_pledge_per_pool", "logic/helper.py:calculate_pledge_per_pool", "logic/helper.py:calculate_suitable_margin", "logic/reward_schemes.py:CardanoRSS.calculate_pool_reward", "logic/helper.py:MIN_STAKE_UNIT"]}
{"id": "C97", "title": "When the number of pools an agent plans is the best one", "statement": "The docstring of choose_pool_strategy says that the utility, as a function of the number of pools, has only one local maximum, so that the bisection finds the best number. For non-myopic agents and reward schemes 0, 1 and 2 the number found is the best one in any range 1..N that contains it if, for every number up to N, all pools would earn at saturation what their rivals offer to delegators, and better rivals offer more: then the utility is concave there. In particular it is the best number while nobody else has pools, if full pools would earn at least one boost whatever their number. Without this condition the claim is false: with costs of 3/5 and four equal agents, k = 3, one pool would lose, two would lose more, and three would gain; the agents consider one pool only, decide not to operate any, and the execution reports an equilibrium without pools after ten rounds.", "quantifier": "all reachable states, all agents, all numbers of pools, all costs, stakes and rivals", "why_tests_cant": "Quantifies over all states and numbers of pools; a test knows the best number only by trying all.", "anchors": ["logic/stakeholder.py:Stakeholder.choose_pool_strategy", "logic/stakeholder_profiles.py:NonMyopicStakeholder.calculate_margins_and_utility", "logic/helper.py:calculate_cost_per_pool", "logic/sim.py:Simulation.has_converged"]}
{"id": "C98", "title": "The order in which Python iterates sets of pool ids", "statement": "Python promises no order for sets. The code iterates sets of pool ids when a strategy is executed and when an agent chooses which of its pools to keep. In exact arithmetic and with agents moving one after the other, a decided strategy can be executed in any order: it does not fail, and the state reached is the same up to the order of entries in dictionaries (pools, all their figures and delegations, both rankings, agents and their strategies). A plan does not depend on the order if the operator plan has all the pools that the agent operates now (also in floating point and with simultaneous activation). Otherwise the order changes neither how many pools the agent considers, nor the list of their margins, nor which of its pools it would keep, but which pool gets which margin. This can decide about the outcome: five agents with k = 4 settle on six pools with the order that CPython uses for sets of small numbers, and on five with another order; and also on five with CPython's order if the ids of pools start at 3, so the numbers are more than names (C85 asks for orders that do not depend on the numbers).", "quantifier": "all reachable states, all agents, all orders of iterating sets", "why_tests_cant": "A test sees only the order of the interpreter it runs in, for the ids that occur.", "anchors": ["logic/stakeholder.py:Stakeholder.determine_pools_to_keep", "logic/stakeholder.py:Stakeholder.execute_strategy", "logic/stakeholder.py:Stakeholder.find_operator_move"]}
{"id": "C99", "title": "Repeating an execution from its file args.json", "statement": "An execution whose arguments come from the call writes args.json to a new directory (output/<parent_dir> in the working directory or an absolute parent_dir, and in it <sequence id>-<execution id>, where an execution without id is named after the first five parameters and their values, up to 100 characters); it lists the 23 parameters in order with the given values, and the defaults of metrics and agent_profile_distr filled in. If a seed was given and no sequence id, and all values can be expressed in JSON, the execution can be repeated with --input_from_file: with this file in the working directory it starts with the same arguments and the same seed, in a directory whose name differs only in the sequence id. The documentation says that the file lists the values that the parameters take during the execution; this is false of a seed that was drawn: the file has null, and an execution from the file draws a new one. A file of an execution with a sequence id of its own (as in batch runs) cannot be used while the output of that execution is there: FileExistsError. A file that lacks any parameter never gives an execution, but it can use up a sequence id and leave a directory with an unusable args.json behind.", "quantifier": "all argument values, all states of the file system, all drawn seeds", "why_tests_cant": "Tests do not read back the files written by other executions, and a test with a fixed seed does not see that drawn seeds are missing.", "anchors": ["logic/sim.py:Simulation.__init__", "logic/sim.py:Simulation.export_args_file", "logic/helper.py:read_args_from_file", "logic/helper.py:export_json_file", "logic/helper.py:generate_execution_id"]}
{"id": "C100", "title": "When simultaneous moves keep the books straight", "statement": "With (semi-)simultaneous activation the agents of a batch plan first and carry out their plans afterwards, one after the other. Call it a conflict if an agent of the batch changes its delegation to a pool that an agent after it in the batch keeps (the operator's copy of the pool was made before the change and replaces the pool after it). As long as no batch has a conflict: carrying out plans raises no exception, also with floating-point numbers; between batches every pool records exactly the delegations that agents say they have, agents do not delegate to pools of their own, and nothing is left staged; while planning, no lookup of a pool or delegation fails; and in exact arithmetic the pools hold no more than the agents own, utilities add up to profits, and all agents of a batch decide on the same state (C95). So everything that C25 lists as going wrong is due to a conflict. There is none in a batch in which only the first agent operates pools (as in the first round) and none if agents move one at a time (simultaneous_moves = 1). In the counterexample of C25 the third round is the first one with a conflict, and the first after which the records are wrong.", "quantifier": "all reachable states, all batches and orders, all orders of iterating sets, all arithmetics", "why_tests_cant": "Quantifies over all histories; whether a test has a conflict depends on the order in which agents happen to be drawn.", "anchors": ["logic/stakeholder.py:Stakeholder.execute_strategy", "logic/stakeholder.py:Stakeholder.advance", "logic/stakeholder.py:Stakeholder.close_pool", "logic/stakeholder.py:Stakeholder.update_pool", "logic/stakeholder.py:Stakeholder.remove_delegations", "logic/activations.py:SemiSimultaneousActivation.step"]}
{"id": "C101", "title": "Simultaneous simulations crash only after a conflict", "statement": "Exact arithmetic, (semi-)simultaneous activation, one phase, positive stakes, the conditions on parameters of C29. As long as no batch has had a conflict (C100), every agent of every batch can plan without exception, and every open pool would make a profit if it were saturated. So if a batch raises an exception although there was no conflict before it, then two agents of this batch are in conflict. Nothing is raised in the first round of a simultaneous simulation, whatever the order, nor by batches in which only the first agent operates pools, nor with simultaneous_moves = 1. The condition is needed: in the simulation of C25 that stops with KeyError, three rounds have no conflict, in the fourth two agents are in conflict but nothing is raised, and the fifth stops.", "quantifier": "all simulations without conflict so far, all batches and orders, all orders of iterating sets", "why_tests_cant": "Quantifies over all histories, parameters and orders.", "anchors": ["logic/stakeholder.py:Stakeholder.step", "logic/stakeholder.py:Stakeholder.advance", "logic/stakeholder.py:Stakeholder.execute_strategy", "logic/activations.py:SemiSimultaneousActivation.step", "logic/helper.py:calculate_suitable_margin", "logic/reward_schemes.py:CIP50RSS.calculate_pool_reward"]}
{"id": "C102", "title": "Every conflict over a public pool leaves the records wrong", "statement": "With (semi-)simultaneous activation, in any arithmetic: let records and strategies agree before a batch, let agent a be in the batch with a staged strategy, and let agent b, somewhere after a in the batch, keep one of its pools as a public pool. If carrying out the plans raises no exception then afterwards the pool records of a exactly what a delegated to it before the batch (or nothing, if a did not), while the strategy of a says what a has planned, whatever the other agents do. So whenever a changes its delegation to the pool, pool and agent disagree afterwards. If all pools that are kept stay public, the books are therefore straight after a batch exactly if it had no conflict (C100).", "quantifier": "all reachable states with agreeing records, all batches and orders, all orders of iterating sets, all arithmetics", "why_tests_cant": "Quantifies over all states and batches; tests do not compare records with strategies.", "anchors": ["logic/stakeholder.py:Stakeholder.execute_strategy", "logic/stakeholder.py:Stakeholder.update_pool", "logic/activations.py:SemiSimultaneousActivation.step"]}
{"id": "C103", "title": "How far rounding can drive a pool's stake from its pledge and delegations", "statement": "In binary64 the stake of a pool need not be its pledge plus its delegations (C96), because it is updated by adding and subtracting. The difference is bounded: in any mode and over any phases, with non-negative stakes, after any events the stake of every open pool differs from the exact sum of its pledge and its delegations by at most ((1 + 2^-53)^m - 1) times twice the stake of all agents, where m is eight times the number of turns plus twice the number of delayed moves; as long as m is at most 2^52, by at most m * 2^-51 times the stake of all agents. So a pool whose pledge exceeds this bound has a positive stake, and the crash of C96 (a pool whose stake is 0) needs a smaller pledge. In a run of eight turns all pools are within 2^-44 of the exact sums, and two of them are not exact.", "quantifier": "all simulations in binary64, all stakes, all numbers of turns, all modes", "why_tests_cant": "Quantifies over all histories; a test measures the error of one run.", "anchors": ["logic/pool.py:Pool.update_delegation", "logic/stakeholder.py:Stakeholder.execute_strategy", "logic/stakeholder.py:Stakeholder.update_pool", "logic/stakeholder.py:Stakeholder.remove_delegations"]}
{"id": "C104", "title": "Rounding lets agents commit at most a hair more than they own", "statement": "In binary64 an agent can pledge and delegate more than its stake (C96). The excess is bounded: in any mode and over any phases, with non-negative stakes, if there have never been more than M pools then the delegations and pledges of an agent, added up exactly, exceed its stake by at most (M + 4) * 2^-53 of the stake, plus 2^-1075 for each of its pools and once more; in a simulation with one phase and n agents M is at most n * k. With sequential activation the pledges and delegations of all pools exceed the stake of all agents by at most (M + 4) * 2^-53 of it, plus 2^-1075 per pool and per agent; and the recorded stakes of all pools by at most (M + 4) * 2^-53 + M * m * 2^-51 of it more, where m counts the roundings (C103). So metrics such as the total delegated stake exceed the stake of the agents by rounding errors only.", "quantifier": "all simulations in binary64, all stakes, all numbers of agents, pools and turns", "why_tests_cant": "Quantifies over all histories; a test compares with a tolerance that is not known to be sufficient.", "anchors": ["logic/stakeholder.py:Stakeholder.find_delegation_move", "logic/stakeholder.py:Stakeholder.find_operator_move", "logic/stakeholder.py:Stakeholder.determine_pledge_per_pool", "logic/stakeholder.py:Stakeholder.execute_strategy"]}
{"id": "C105", "title": "How accurate rewards, utilities and desirabilities are in binary64", "statement": "Compared with the exact value of the same formula for the same (binary64) parameters, stakes and costs, with 0 < beta <= 1, a0 >= 0 and a pledge that is not negative and at most the stake: in every reward scheme that a Simulation can be built with a pool's reward is off by at most 2^-49 times the stake (capped at beta), plus (10 + 5 a0) * 2^-1075, hence exceeds neither stake nor beta by more than that; the current and the potential profit, the desirability of a pool with margin in [0, 1] and the utilities of operators and delegators are off by at most 2^-48 times the capped stake plus the cost (beta plus cost for a pool at saturation), plus (12 + 6 a0) * 2^-1075. So of two pools the more desirable one is found unless their exact desirabilities are closer than the sum of these bounds; and what an operator and n delegators get differs from reward - cost by at most n + 1 times the bound plus the difference between the pool's stake and its pledge and delegations (which C103 bounds). Both errors occur.", "quantifier": "all binary64 parameters, pledges, stakes, costs, margins, delegations; all reward schemes", "why_tests_cant": "Quantifies over all floating-point inputs; tests use tolerances that are not known to be sufficient.", "anchors": ["logic/reward_schemes.py:RSS.calculate_pool_reward", "logic/helper.py:calculate_operator_reward_from_pool", "logic/helper.py:calculate_delegator_reward_from_pool", "logic/helper.py:calculate_pool_desirability", "logic/helper.py:calculate_potential_profit", "logic/helper.py:calculate_current_profit"]}
{"id": "C106", "title": "Private pools in binary64", "statement": "An operator that makes a pool private expels its delegators only if the pool's stake exceeds its pledge. In exact arithmetic this makes sure that private pools have no delegators (C24). In binary64 it does not: there is a run in which a private pool, with a stake equal to its pledge, has a delegator whose delegation was lost in rounding. What holds in any arithmetic (sequential or random activation): nobody ever starts or changes a delegation to a private pool - if a pool is private after an event, every delegation to it was there before, with the same amount. And in binary64 the delegations to a private pool add up to at most ((1 + 2^-53)^m - 1) times twice the stake of all agents, where m is eight times the number of turns; as long as m is at most 2^52, to at most m * 2^-51 times the stake of all agents.", "quantifier": "all simulations with sequential or random activation, all stakes, all numbers of turns, all phases; the first part in any arithmetic", "why_tests_cant": "Quantifies over all histories; the defect needs a delegation that is tiny compared with the pool.", "anchors": ["logic/stakeholder.py:Stakeholder.update_pool", "logic/stakeholder.py:Stakeholder.remove_delegations", "logic/stakeholder.py:Stakeholder.find_operator_move", "logic/pool.py:Pool.update_delegation"]}
{"id": "C107", "title": "Whom the metric 'Cost efficient stakeholders' counts", "statement": "docs/metrics.md: 'the number of agents for whom it is possible to make profit by operating a pool'. The metric is the number of agents for whom one saturated pool earns more than the agent's cost with some pledge that the agent can afford. In single-phase simulations with sequential or random activation an operator that is not counted operates at least two pools, further pools cost less than the first, and (schemes other than CIP-50, stake at most the threshold) the agent is a 'profitable pool splitter'; so the metric is at least the number of operators if further pools cost as much as the first one or nobody is a profitable splitter. Without this, agents that operate profitable pools may not be counted: the metric can be 0 while every agent operates pools that would be profitable at saturation.", "quantifier": "all reachable states of single-phase simulations; the meaning of the metric for all states with non-negative stakes", "why_tests_cant": "The negative answer needs costs near the reward of a saturated pool; the positive one quantifies over all pledges and all histories.", "anchors": ["logic/model_reporters.py:get_cost_efficient_count", "logic/helper.py:calculate_potential_profit", "logic/helper.py:calculate_cost_per_pool", "logic/helper.py:calculate_pool_splitting_profit"]}
{"id": "C108", "title": "Ids of agents are only names", "statement": "If the same people are numbered differently and the renumbered agents move in the same turns (with phase changes at the same places), then both simulations raise the same exception or end in the same state up to the numbers: the same pools with the same ids, stakes, pledges, margins and rankings, the owner and the delegators of each renamed, and every agent with the strategy and plan of its counterpart. The metrics of pools and operators (counts, pledges, margins, saturation, pools per operator, splitters, Gini coefficients) are the same. So two agents with the same stake, cost and profile are interchangeable: if they exchange turns they exchange fates. The numbers matter only as the order of the turns of sequential activation: of two such agents the one that moves first can end up with more pools for good.", "quantifier": "all numbers of agents, all permutations, all sequences of turns and phases, any arithmetic", "why_tests_cant": "Quantifies over all permutations and all histories; a test compares two runs.", "anchors": ["logic/stakeholder.py:Stakeholder.step", "logic/stakeholder.py:Stakeholder.advance", "logic/stakeholder.py:Stakeholder.execute_strategy", "logic/sim.py:Simulation.change_phase", "logic/pool.py:Pool.update_delegation"]}
{"id": "C109", "title": "Normalising the stakes in floating point", "statement": "sim.py, comment in normalize_agent_stake: 'make sure that the sum of all agent stakes is equal to 1'. In binary64, for up to 2^40 agents with non-negative stakes that are not all 0 and without inactive stake, total_stake becomes exactly 1, while the exact sum of the stakes differs from 1 by at most 2 (n + 1) 2^-53. Every agent but the last gets a non-negative stake that is its share up to a relative error 2 (n + 1) 2^-53 (plus 2^-1075), and every agent, the last one included, gets its share up to 6 (n + 1) 2^-53; so no stake is negative if the share of the last agent is at least 6 (n + 1) 2^-53. Without this the stake of the last agent can become negative (stakes in lovelace sorted from the richest to the poorest), and such an agent can operate pools with negative pledges that attract the stake of the others. If all stakes are 0, ValueError.", "quantifier": "all lists of at most 2^40 non-negative binary64 numbers", "why_tests_cant": "The last agent has to be poorer than the rounding error, which random Pareto stakes hardly ever are; the bounds quantify over all stakes.", "anchors": ["logic/sim.py:Simulation.normalize_agent_stake", "logic/sim.py:Simulation.__init__", "logic/stakeholder.py:Stakeholder.determine_pledge_per_pool"]}
{"id": "C110", "title": "Stakes that are read from a file", "statement": "docs/configuration.md: the file is expected to 'contain only stake values separated by commas'. This is wrong: of every line only the first value is read, so with values separated by commas on one line all agents get the same stake, whatever the values are, and after normalisation every agent has the share 1/n. With one value per line and as many lines as agents, the agents get the values in that order (whether or not the text ends with a newline). With another number of lines each agent gets one of the values; with fewer agents than lines the stakes are a sub-multiset of the values. A blank line raises IndexError. The file for the given number of agents is preferred to the default file; without both, FileNotFoundError.", "quantifier": "all texts without quotation marks and carriage returns, all numbers of agents, any parser of numbers", "why_tests_cant": "The repository contains no such file and its tests read none; the claims quantify over all contents.", "anchors": ["logic/helper.py:read_stake_distr_from_file", "logic/sim.py:Simulation.initialize_agents"]}
{"id": "C111", "title": "When a larger k stops the simulation", "statement": "The rankings have as many place-holders as the k of the first phase, plus one. When a later phase raises k, an agent (non-myopic or myopic) whose turn it is looks for the entry number k among the place-holders and the open pools of other agents. If k is larger than the number of these entries the turn raises an exception, for every kind of activation; in a sequential or random simulation with positive stakes, k >= 1, a0 >= 0 (positive for CIP-50), whose open pools would all make a profit if saturated, this exception is IndexError, and it is raised exactly in this case; otherwise the turn succeeds. So a phase that raises k to more than (k of the first phase) + 1 + (number of open pools) stops the simulation at the first agent that does not abstain (the documented example --k 100 200, if fewer than 99 pools are open). The other cause of exceptions: a non-myopic agent that delegates to a pool which, in the new phase, would not make a profit if saturated, cannot take its turn.", "quantifier": "all reachable states, any sequence of phases, all agents; the exact condition in exact arithmetic", "why_tests_cant": "The bound counts pools that depend on the whole history; tests run one phase or change other parameters.", "anchors": ["logic/stakeholder_profiles.py:NonMyopicStakeholder.calculate_margins_and_utility", "logic/stakeholder_profiles.py:MyopicStakeholder.calculate_margins_and_utility", "logic/sim.py:Simulation.change_phase", "logic/sim.py:Simulation.__init__", "logic/helper.py:calculate_non_myopic_pool_stake"]}
{"id": "C112", "title": "Agents decide on public figures and their own records", "statement": "What an agent plans depends on the parameters, on the figures of the pools and their rankings (id, stake, pledge, cost, margin, potential profit, desirability, private or not), on which pools are its own, and on its own stake, cost, profile, strategy and delegations. Two states that agree on these lead to the same plan or the same exception, however much they differ in the other agents: how many there are, their stakes, costs, profiles, strategies and plans, who has delegated the stake of a pool, and which of the other pools belong to the same operator. In particular the first move of a simulation depends on the agent and the parameters only.", "quantifier": "all states, all agents, all orders of iterating sets, any arithmetic", "why_tests_cant": "The claim compares all pairs of states that differ in what an agent must not see; a test compares a few pairs and cannot show the absence of a dependence.", "anchors": ["logic/stakeholder.py:Stakeholder.update_strategy", "logic/stakeholder.py:Stakeholder.determine_stake_allocations", "logic/stakeholder.py:Stakeholder.choose_pool_strategy", "logic/stakeholder_profiles.py:NonMyopicStakeholder.calculate_margins_and_utility", "logic/stakeholder_profiles.py:MyopicStakeholder.calculate_margins_and_utility"]}
{"id": "C113", "title": "A family of simulations that reach an equilibrium after one round of moves", "statement": "Consider a simulation with one phase and sequential or random activation, with any k and any reward scheme but CIP-50, in which extra pools cost something and each agent is of one of two kinds. Agents of the first kind are non-myopic, have enough stake to saturate one pool by their pledge but not two, would make a profit with it that exceeds the absolute threshold (and is at least 2*10^-6), and would earn less than 10^-6 per pool with two or more pools, even saturated ones. Agents of the second kind abstain, or could not make a profit with any number of pools up to k, even saturated ones; they may be myopic. Then, after one round in any order, every agent of the first kind operates exactly one pool: private, of stake 1/k, all of it its pledge. There are no other pools, nobody delegates, and no agent ever moves again, whatever the orders of the later rounds. If max_iterations exceeds iterations_after_convergence and there is an agent of the first kind, the run ends after iterations_after_convergence + 1 rounds and reports an equilibrium at step 0.", "quantifier": "all such configurations, all orders of agents in all rounds, all orders of iterating sets; exact arithmetic", "why_tests_cant": "The number of agents, k and the orders are unbounded; that nobody moves again is about infinitely many rounds.", "anchors": ["logic/sim.py:Simulation.step", "logic/sim.py:Simulation.run_model", "logic/stakeholder.py:Stakeholder.update_strategy", "logic/stakeholder.py:Stakeholder.choose_pool_strategy", "logic/stakeholder_profiles.py:NonMyopicStakeholder.calculate_margins_and_utility"]}
{"id": "C114", "title": "The results of a batch run do not depend on the number of processes", "statement": "With several processes the data of the runs arrive in any order. The results of custom_batch_run are then the same as with one process up to the order of the rows and their RunIds: for each run the rows of the steps collected for it, together and in their order, each holding the metrics, the arguments of the run, the step, the number of runs whose data arrived before as RunId, and 0 as iteration; there are no other rows. With data_collection_period = -1 there is one row per run and the RunIds are 0, 1, 2, ... in the order of the rows. The call raises iff one of the runs raises, whatever the order, and then the exception is that of such a run.", "quantifier": "all grids, iteration counts and seeds, all behaviours of the single runs, all pairs of orders in which their data can arrive", "why_tests_cant": "A test uses one grid and one process; which order several processes produce cannot be controlled", "anchors": ["custom_batchrunner.py:custom_batch_run", "custom_batchrunner.py:_model_run_func", "batch-run.py"]}
{"id": "C115", "title": "What the parameters a0 and k do to rewards", "statement": "In the Cardano, simplified and flat schemes a larger a0 never raises the reward of a pool (pledge <= stake), and leaves it unchanged exactly for pools whose pledge reaches the saturation threshold (in the flat scheme also for pools without delegations) or that have no stake; in CIP-50 a larger a0 never lowers it. A saturated pool earns the same in the first three schemes: (1/k + a0*min(pledge, 1/k)) / (1 + a0). A larger k never raises the reward of a saturated pool, nor of any CIP-50 pool; but in the first three schemes it never lowers the reward of a pool that stays unsaturated, and in the flat scheme leaves it as it is.", "quantifier": "all k, k' >= 1, a0 >= 0, pledges and stakes with 0 <= pledge <= stake; exact arithmetic", "why_tests_cant": "All parameters, pledges and stakes are real numbers; the tests compare a few values.", "anchors": ["logic/reward_schemes.py:CardanoRSS.calculate_pool_reward", "logic/reward_schemes.py:SimplifiedRSS", "logic/reward_schemes.py:FlatPledgeBenefitRSS", "logic/reward_schemes.py:CIP50RSS", "logic/reward_schemes.py:RSS.k"]}
{"id": "C116", "title": "Nobody stays out of an equilibrium that would pay to join", "statement": "In the final state of a run that reports an equilibrium (sequential or random activation, at least one round in the last phase), no agent but an abstainer could do better, by both thresholds and by its own expectations (those of myopic or non-myopic agents), by delegating all its stake as it would. In particular an agent that neither operates a pool nor delegates expects at most the absolute utility threshold of delegating all its stake, and hence of what it would place in any single open pool; with threshold 0 it expects nothing.", "quantifier": "all configurations, rounds in all orders, all orders of iterating sets, all numbers of phases; exact arithmetic", "why_tests_cant": "Equilibria are outcomes of runs of unbounded length; tests look at none of the alternatives the agents reject.", "anchors": ["logic/stakeholder.py:Stakeholder.update_strategy", "logic/stakeholder.py:Stakeholder.find_delegation_move", "logic/stakeholder.py:Stakeholder.determine_stake_allocations", "logic/sim.py:Simulation.step", "logic/sim.py:Simulation.run_model"]}
{"id": "C117", "title": "Which modules can be imported, and in which order", "statement": "The modules import each other in a circle (helper.py, stakeholder_profiles.py, stakeholder.py, pool.py, model_reporters.py), so what can be imported depends on what was imported before. A program that imports modules of the project one after the other fails iff it imports interactiveViz/runViz.py, or if the first module that it imports, other than reward_schemes.py, strategy.py and activations.py, is pool.py, stakeholder.py, stakeholder_profiles.py, model_reporters.py or tests/test_sim.py; it fails with ImportError. So main.py, batch-run.py and all other tests can be started, and tests/test_sim.py only after another test file (pytest tests/test_sim.py fails, pytest does not). runViz.py cannot be imported in any order, as the constant MAX_NUM_POOLS that it needs is commented out: the interactive visualisation cannot be started. If failures are caught, as pytest does, then all modules in sys.modules are complete in the end, and hold no objects of modules that were discarded; but if model_reporters.py comes first of the modules other than reward_schemes.py, strategy.py, activations.py, pool.py, stakeholder.py, stakeholder_profiles.py and test_sim.py, then pool.py, stakeholder.py and stakeholder_profiles.py keep a helper module that is not the one the others use.", "quantifier": "all sequences of imports of the modules of the project", "why_tests_cant": "A test is itself imported in one order, by an interpreter that has imported other tests before.", "anchors": ["logic/helper.py", "logic/pool.py", "logic/stakeholder.py", "logic/stakeholder_profiles.py", "logic/model_reporters.py", "logic/sim.py", "interactiveViz/runViz.py", "tests/test_sim.py"]}
{"id": "C118", "title": "A value of max_iterations for each phase", "statement": "Simulation accepts a list for max_iterations, with a value for each phase. The value in force limits the number of all rounds made, not of those of the phase. A run makes at most as many rounds as the largest value, each beginning below the value in force, and row i of the metrics describes the state before round i. It ends in one of three ways: after exactly as many rounds as the value in force (exported once, one more row than rounds), by convergence in the last phase (exported once, as many rows as rounds), or because a change of phase lowers the limit below the number of rounds made. In the third case, and only then, nothing is exported and running stays True; the last pivot step then has no row, while otherwise every pivot step has one. If no value is smaller than the one before, the third case is excluded.", "quantifier": "all behaviours, all numbers of phases, all lists of values", "why_tests_cant": "Tests use a single number; the three endings depend on when the phases converge.", "anchors": ["logic/sim.py:Simulation.run_model", "logic/sim.py:Simulation.step", "logic/sim.py:Simulation.change_phase", "logic/sim.py:Simulation.wrap_up_execution"]}
{"id": "C119", "title": "What the project's own tests say", "statement": "Read as computations on binary64 floats, these tests pass whatever agents Simulation() draws: the tests of rewards (variable stake and pledge, a0 = 0, CIP-50), of ranks, of costs per pool, of non-myopic stakes, of the target pool, of the statistical distance, the splitters, the Gini coefficients and the median rank, and of determine_pools_to_keep in whatever order sets are iterated; the test of the Pareto distribution passes for all draws. The test of the flat distribution draws a number from 1 to 100 and passes unless it is 100, when it raises IndexError. These tests fail for all draws: that of the operator utility and of margins (the values are not the expected ones), of close_pool and execute_strategy (ValueError, as the test puts pools into the model without ranking them) and hence of find_delegation_move (no pool is found), of read_stake_distr_from_file (TypeError, as it passes an argument that the function does not have) and test_revise_beliefs. The failing ones, but for the last and the flat one, are those the authors mark 'review failing test' or 'update test'.", "quantifier": "all populations and stakes drawn by Simulation(), all draws of the tests, all orders of iterating sets; binary64 arithmetic", "why_tests_cant": "A run of the tests shows one draw: the flat test fails in one of a hundred runs. The agreement of the verdicts with the authors' marks is evidence for the model.", "anchors": ["tests/test_helper.py", "tests/test_model_reporters.py", "tests/test_stakeholder.py", "tests/test_sim.py"]}
{"id": "C120", "title": "What the command lines mean", "statement": "main.py and batch-run.py accept a command line iff it is a sequence of settings: the name of an option, or an abbreviation that fits no other option, with as many values as the option takes (as further words, or one value after =), or the name of a switch; every option then has the value of its last setting, or its default. So main.py gets n >= 1, a list of k >= 1, a reward scheme from 0 to 4, three profile weights >= 0 (or nan), metrics from 1 to 30, and so on, but any integer for iterations_after_convergence; only k, a0, metrics and agent_profile_distr can be lists, so that only k and a0 can change over the phases. An option that takes at most one value is accepted without one and is None then (--execution_id alone: TypeError after a sequence id was used up). A second value after = is rejected (--k=100 200). With --input_from_file the other options are irrelevant; otherwise the simulation gets exactly the values of the options. The documented defaults hold for main.py but for metrics (1, 2, 6, 9, 17, 18, 25 instead of 1, 2, 3, 4, 6, 17, 18, 24, 25), and for batch-run.py but for k (100, 200, 300) and the absolute utility threshold (0); batch-run.py rejects agent_activation_order, metrics, generate_graphs, input_from_file and scheme 4. It makes one run for every combination of values, none if an option that takes any number of values has none.", "quantifier": "all command lines, all behaviours of int() and float(), all states of the file system", "why_tests_cant": "Command lines are arbitrary sequences of texts; the tests start neither script.", "anchors": ["logic/helper.py:add_script_arguments", "logic/helper.py:positive_int", "logic/helper.py:non_negative_float", "logic/helper.py:fraction", "main.py:main", "batch-run.py", "logic/sim.py:Simulation.__init__"]}
{"id": "C121", "title": "main.py runs to its end", "statement": "If a command line of main.py is accepted, its options have values (none is given without one, and no number is infinite or nan), --input_from_file is not given and the execution starts (which depends on the file system), then the values of the options are the arguments of the constructor, each where it belongs (numbers, order of activation, source of stakes, metrics or their default), within the ranges of the options. If in addition the reward scheme is not 3, cost_min <= cost_max, not all profile weights are 0, the inactive fraction is not 1, disparity comes with more than 3 agents, agents act in random or sequential order, CIP-50 does not start with a0 = 0, and either k and a0 have one value each or the inactive stake is unknown and k and a0 only relax, then the execution ends without an exception after at most max_iterations rounds, its results exported exactly once, with a row of metrics per round and all files written. If only one of the first five of these conditions fails, it ends with TypeError, ValueError, ValueError, ZeroDivisionError or (for 3 agents) ZeroDivisionError. So `python main.py` without options simulates 1000 agents and ends after at most 2000 rounds, whatever it draws.", "quantifier": "all command lines, all behaviours of int() and float(), all states of the file system, all random draws, orders of activation and set iteration orders", "why_tests_cant": "No test starts main.py; one run shows one draw of one command line.", "anchors": ["main.py:main", "logic/helper.py:add_script_arguments", "logic/sim.py:Simulation.__init__", "logic/sim.py:Simulation.run_model", "logic/sim.py:Simulation.step", "logic/sim.py:Simulation.wrap_up_execution"]}
{"id": "C122", "title": "batch-run.py runs to its end", "statement": "The runs of a batch are the choices of one value for each of the 15 options that become parameters: one run for each choice, whose keyword arguments are the values chosen, its number, the directory of the batch, and the seed of the command line, or else one drawn seed for all runs. If all values given for n, k and max_iterations are at least 1, those for a0, the thresholds, the extra cost and cost_min at least 0, every cost_min at most every cost_max, inactive fractions in [0, 1), shapes positive, the reward scheme not 3, the seed not negative, the source of stakes one of the four names (in any case of letters), more than 3 agents with disparity, and the directory of the batch is new, then batch-run.py ends: in whatever order the runs are made, each starts in its own directory inside that of the batch, is a simulation with the values chosen and the constructor's defaults otherwise (random order, profiles 1, 0, 0, default metrics), completes within max_iterations rounds with its results exported once, and contributes exactly one row, the metrics before its last round, to the results and to the aggregate file. So without options there are three runs of 1000 agents with k = 100, 200, 300, each of at most 2000 rounds. If the directory of the batch exists already, no run is made and no directory is created, but the number in sequence.dat is used up. A negative seed is accepted, but then no run gets anywhere (main.py rejects it).", "quantifier": "all command lines, all behaviours of int() and float(), all states of the file system, all orders of the runs, all random draws, orders of activation and set iteration orders", "why_tests_cant": "No test starts batch-run.py; the number of runs and their order under a process pool are unbounded.", "anchors": ["batch-run.py", "custom_batchrunner.py:custom_batch_run", "custom_batchrunner.py:_make_model_kwargs", "custom_batchrunner.py:_model_run_func", "logic/sim.py:Simulation.__init__", "logic/sim.py:Simulation.step"]}
{"id": "C123", "title": "Only the ratios of the stakes matter", "statement": "Multiplying all values in the file with stakes by the same positive number (another unit of money) leaves the whole simulation as it is: initial state, rows of metrics, end or exception. The only exception: with an inactive fraction f > 0, stakes that happen to add up to 1 - f in one of the two units are not normalised there, and then the last agent holds a different stake. The values may be those that another source (Pareto, flat) has given, with the same result; a file whose values are all equal (such as one in the documented form, C110) gives the simulation with the source 'flat'. In binary64 the unit can matter (0.1, 0.3, 0.2 against 1, 3, 2), but not for integers that add up to at most 2^53 in both units.", "quantifier": "all arguments, all files, all factors > 0, all random draws; in binary64 all lists of integers", "why_tests_cant": "The comparison is between two executions for all contents of the file; tests run one file and could not notice the corner case in which no normalisation happens.", "anchors": ["logic/sim.py:Simulation.normalize_agent_stake", "logic/sim.py:Simulation.__init__", "logic/sim.py:Simulation.initialize_agents", "logic/helper.py:read_stake_distr_from_file"]}
{"id": "C124", "title": "When simulations on floats do not crash", "statement": "On binary64 floats a sequential or random single-phase simulation can raise ZeroDivisionError though all stakes are positive and all pools would pay: a tiny pledge is swallowed by rounding when a delegator comes and goes. It does not raise if k >= 1, costs and the extra cost are not negative, every pool that an agent can open would earn more than its cost if saturated (any of 1..k pools), and the smallest pledges that agents can make (their stakes divided by k, and the saturation threshold) exceed 8 n R 2^-51 times the stake of all agents, for R rounds of n agents. For the schemes other than CIP-50, with a0 >= 0 and an extra cost of at most 1, costs below half of beta / (1 + a0) pay in any case.", "quantifier": "all populations, all numbers of rounds, all orders of activation, all set iteration orders; binary64 arithmetic", "why_tests_cant": "Rounding errors accumulate over any number of turns; a test follows one run, in which they usually stay invisible.", "anchors": ["logic/sim.py:Simulation.step", "logic/stakeholder.py:Stakeholder.step", "logic/pool.py:Pool.update_delegation", "logic/helper.py:calculate_non_myopic_pool_stake", "logic/helper.py:calculate_delegator_utility_from_pool"]}
{"id": "C125", "title": "A whole run on binary64 floats", "statement": "If the constructor succeeds on binary64 floats, with one value per argument (one phase), a number m of maximal iterations and random or sequential activation, and the constructed population meets the condition of C124 for m rounds (k >= 1, beta > 0, costs and the extra cost not negative, every pool that an agent can open pays if saturated, the smallest pledges exceed 8 n m 2^-51 times the stake of all agents, n m <= 2^49), then the whole execution completes on floats: no exception, not in the moves and not in any metric (Gini coefficients, statistical distances, ratios and so on), the loop ends after at most m rounds, results are exported exactly once, there is a row of metrics per round, and the final state is reached by moves of agents. The condition on the pledges cannot be dropped: with stakes 1e-18 and 1/4 and an inactive fraction of 3/4 the simulation is constructed and then ends with ZeroDivisionError, while in exact arithmetic every simulation with the very same arguments completes.", "quantifier": "all arguments, all draws, all orders of activation, all set iteration orders, all numbers of rounds; binary64 arithmetic", "why_tests_cant": "Executions are arbitrarily long and rounding depends on every draw; a test sees single runs in which nothing happens to cancel.", "anchors": ["logic/sim.py:Simulation.__init__", "logic/sim.py:Simulation.run_model", "logic/sim.py:Simulation.step", "logic/sim.py:Simulation.wrap_up_execution", "logic/model_reporters.py:get_gini_id_coeff_stake", "logic/stakeholder.py:Stakeholder.step"]}
{"id": "C126", "title": "Longer executions continue shorter ones", "statement": "Two executions with the same draws. (1) If the one with more max_iterations ends without an exception, so does the one with fewer, and its metrics.csv is the beginning of the other's; if it ended by convergence, the two end in the same state with the same tables, equilibrium steps and verdict. (2) With one phase the same holds for a larger iterations_after_convergence: the table of the less patient execution is the beginning of the other's. With several phases it does not: the phases begin at other rounds (witness). (3) An execution with lists of values for several phases begins like the one with the first values only: the table of the latter is the beginning of its table. (4) Collecting more metrics changes nothing but the table: with a part of the metrics the execution ends in the same state and with the same verdict, and what both collect is the same.", "quantifier": "all arguments, all draws, all orders of activation, any kind of numbers (floats included), any number of phases and rounds", "why_tests_cant": "The comparison is between two executions of any length; tests run single steps.", "anchors": ["logic/sim.py:Simulation.step", "logic/sim.py:Simulation.run_model", "logic/sim.py:Simulation.has_converged", "logic/sim.py:Simulation.change_phase", "logic/sim.py:Simulation.__init__"]}
{"id": "C127", "title": "main.py on binary64 floats", "statement": "The condition of C125 in terms of the options of main.py. If all arguments have one value, the reward scheme is 0, 1 or 2, there is no inactive stake, activation is random or sequential, 0 <= cost_min <= cost_max with 3 k (1 + a0) cost_max <= 1, the extra cost is in [0, 1] and every drawn or read stake is at least 12 n k m 2^-51 of the sum of all (n agents, k pools, m iterations), then the constructor succeeds on floats and the whole execution completes without an exception in at most m rounds. For stakes from a Pareto distribution it suffices that 13 n k m (n + sum of the drawn values) <= 2^51, for equal stakes that 12 n n k m <= 2^51. In particular `python main.py` without options, if it starts, completes on floats within 2000 rounds whenever the thousand values drawn from the Pareto distribution add up to at most 850000, whatever else is drawn.", "quantifier": "all command lines and arguments in range, all draws, all orders of activation, all set iteration orders; binary64 arithmetic", "why_tests_cant": "It is about every execution of the script with default options, on the real number format; a test runs one seed.", "anchors": ["main.py:main", "logic/sim.py:Simulation.__init__", "logic/sim.py:Simulation.normalize_agent_stake", "logic/sim.py:Simulation.run_model", "logic/helper.py:generate_stake_distr_pareto", "logic/helper.py:generate_stake_distr_flat", "logic/helper.py:generate_cost_distr_unfrm"]}
{"id": "C128", "title": "Idle rounds with simultaneous activation", "statement": "Simultaneous or semi-simultaneous activation, exact arithmetic, the same set iteration order throughout. If two consecutive rounds in which every agent is asked are idle, then the second leaves pools, delegations and strategies as they were, and all later rounds raise no exception, are idle and leave them so as well, whoever is asked in them and in whatever batches. One idle round is enough if before it the pools record exactly the delegations that agents speak of and nobody has a strategy in waiting. In general it is not: an agent that keeps its strategy records its delegations anew while planning, so that an idle round can move stake, and the next round need not be idle (witness). So in a single-phase run that reports an equilibrium, with iterations_after_convergence at least 2, nothing would ever change again; with 1 a run can report an equilibrium although the next round is not idle (witness).", "quantifier": "all populations, all states reachable in a simulation, all batches, all numbers of later rounds; exact arithmetic", "why_tests_cant": "Statements about all later rounds; with the default of 10 rounds after convergence no test meets the exception.", "anchors": ["logic/stakeholder.py:Stakeholder.step", "logic/stakeholder.py:Stakeholder.advance", "logic/stakeholder.py:Stakeholder.determine_stake_allocations", "logic/activations.py:SemiSimultaneousActivation.step", "logic/sim.py:Simulation.has_converged", "logic/sim.py:Simulation.step"]}
{"id": "C129", "title": "Idle rounds on binary64 floats", "statement": "Sequential or random activation on binary64 floats, non-negative stakes and beta. Planning takes an agent's delegations out of the pools and puts them back, and with rounding a stake need not come back as it was. In a state in which the stake of every open pool is at least each of its delegations: an agent that has a turn and does not move changes no agent, no delegation and nothing about the open pools but their stakes, and a stake changes at most to a neighbouring float, and only from an odd to an even significand. An idle round of all agents that leaves the stakes as they were is a fixed point: all later rounds raise no exception, are idle and leave the state looking the same, in whatever orders (same set iteration order throughout). Two consecutive idle rounds of all agents always end in such a fixed point, and the second leaves everything as it was; a single one need not leave the stakes as they were (witness, four agents). Pools do cover their delegations in a single-phase run of at most m rounds if the conditions of C124 hold for m rounds; so in such a run that reports an equilibrium, with iterations_after_convergence at least 2, nothing would ever change again.", "quantifier": "all populations, all reachable states, all orders of activation, all numbers of later rounds; binary64 arithmetic", "why_tests_cant": "It depends on the last bit of sums of floats, for every state and all later rounds; a test sees a few values.", "anchors": ["logic/stakeholder.py:Stakeholder.step", "logic/stakeholder.py:Stakeholder.find_delegation_move", "logic/stakeholder.py:Stakeholder.determine_stake_allocations", "logic/pool.py:Pool.update_delegation", "logic/sim.py:Simulation.has_converged", "logic/sim.py:Simulation.step"]}
{"id": "C130", "title": "batch-run.py on binary64 floats", "statement": "C122 on the numbers that Python computes with. If the values of the options are within the ranges that simulations need, the directory of the batch is new, and in every run there is no inactive stake, n <= 2^40, a0 <= 2^53, 3 k (1 + a0) cost_max <= 1, the extra cost is at most 1 and every drawn or read stake is at least 12 n k m 2^-51 of the sum of all, then batch-run.py runs to its end on floats: every run gets a directory of its own inside that of the batch, is a simulation with the values chosen for it and the defaults for everything else, completes without an exception within max_iterations rounds, and contributes exactly one row to the results and to the file of aggregate results, the metrics collected before its last round; the order in which the runs are made does not matter. In particular `python batch-run.py` without options makes its three runs (k = 100, 200, 300) to the end within 2000 rounds each, if in each of them the thousand values drawn from the Pareto distribution add up to at most 280000.", "quantifier": "all command lines in range, all grids of values, all orders of the runs, all draws, all orders of activation; binary64 arithmetic", "why_tests_cant": "It is about every batch, on the real number format; a test would run one small grid with one seed.", "anchors": ["batch-run.py", "custom_batchrunner.py:custom_batch_run", "logic/sim.py:Simulation.__init__", "logic/sim.py:Simulation.normalize_agent_stake", "logic/sim.py:Simulation.step"]}
{"id": "C131", "title": "The aggregate row of a converged run, with simultaneous activation and on floats", "statement": "With iterations_after_convergence at least 2, the aggregate row that the batch runner writes for a run that converged before max_iterations holds the metrics of the run's final state also with simultaneous or semi-simultaneous activation and exact arithmetic (any number of phases, the last phase at least two rounds long), and with sequential or random activation on binary64 floats (one phase, and the conditions of C124 for max_iterations rounds). With iterations_after_convergence = 1 it need not: witnesses with a different total delegated stake (simultaneous, four agents, four rounds) and a different Gini coefficient of the stake (floats, sequential, four rounds). This is for every metric that does not depend on the order in which a pool lists its delegators, which are all metrics of C37, on exact numbers and on floats.", "quantifier": "all populations, all batches and orders of activation, all such metrics, all parameters", "why_tests_cant": "The default of 10 rounds after convergence hides the exception, and the row differs from the final state in a last bit or in one stake.", "anchors": ["custom_batchrunner.py:_model_run_func", "custom_batchrunner.py:_collect_data", "logic/sim.py:Simulation.has_converged", "logic/sim.py:Simulation.step", "logic/stakeholder.py:Stakeholder.step"]}
{"id": "C132", "title": "How many pools there are in an equilibrium", "statement": "Sequential or random activation, exact arithmetic, positive stakes, absolute threshold at least 0 and relative threshold above -1. If all agents are myopic or abstain, then in the final state of a run that reports an equilibrium (any number of phases, the last at least one round long) the costs of all pools together are at most their rewards plus n times the absolute threshold, and the rewards are at most the agents' total stake. So with one phase, costs of at least c and an extra cost in [0, 1], after an idle round of all agents the number of pools times c (1 + (k - 1) extra) / k is at most the total stake plus n times the absolute threshold. Nothing ties the number of pools to k: with k = 3 and equal stakes whole executions report an equilibrium with five pools (three non-myopic agents), twelve (four myopic agents) and none (three myopic agents with higher costs). For non-myopic agents the costs need not be covered: an equilibrium is reported in which all pools together cost more than they are paid.", "quantifier": "all populations, all phases, all orders of activation, all set iteration orders, all parameters in range; exact arithmetic", "why_tests_cant": "It is about every equilibrium of every population; a test sees the equilibria of a few, in most of which there are k pools.", "anchors": ["logic/stakeholder.py:Stakeholder.step", "logic/stakeholder.py:Stakeholder.find_operator_move", "logic/stakeholder.py:Stakeholder.calculate_cost_per_pool", "logic/helper.py:calculate_operator_utility_from_pool", "logic/sim.py:Simulation.has_converged"]}
{"id": "C133", "title": "Ids of pools, and giving back those of drafts", "statement": "An agent that plans to operate pools draws ids from the counter of the simulation for exactly the pools of its plan that it does not operate already: they get the next m ids, m <= k. The method discard_draft_pools (unused in this version), called for a plan that is not carried out, sets the counter back to exactly what it was and changes nothing else. Called for a plan with new pools that is carried out it would make the next id drawn that of one of those pools. As it is not called, ids of plans that are dropped are lost: a turn draws at most k ids and every other event none, so within one phase the counter grows by at most k per turn. Ids of open pools need not be consecutive: in the demonstration nine ids are drawn for the pools 1, 4 and 8.", "quantifier": "all populations, all reachable states, all activations, all set iteration orders; any arithmetic", "why_tests_cant": "It relates the size of a difference of two sets to the number of ids drawn, in every state; the method is not reached by any run.", "anchors": ["logic/stakeholder.py:Stakeholder.discard_draft_pools", "logic/sim.py:Simulation.rewind_pool_id_seq", "logic/sim.py:Simulation.get_next_pool_id", "logic/stakeholder.py:Stakeholder.find_operator_move", "logic/stakeholder.py:Stakeholder.choose_pool_strategy"]}
{"id": "C134", "title": "Simulations that end in a monopoly", "statement": "Sequential or random activation, one phase, exact arithmetic, any reward scheme but CIP-50, k = 1, positive stakes, thresholds and a0 not negative, a total stake of more than 2.2*10^-17, and enough room in one pool for the stake of all agents (beta at least their sum). Suppose that one non-myopic agent could make a profit with a full pool of at least 10^-6, has less stake than saturates it, and would gain more than the absolute threshold, that no other agent could make a profit with any number of pools, and that the others are non-myopic or abstain. Then whatever the orders of the agents: after the first round of all agents the operator has opened one public pool with their whole stake as pledge and the margin that leaves 10^-6 of the profit of the full pool to be shared. After the second round exactly those others have delegated all their stake to it who do not abstain, have at least the smallest amount that can be delegated (2.2*10^-17), and whose share of 10^-6 exceeds the absolute threshold. From then on nobody moves. From the first round on the metrics report one pool, one operator, the operator's stake as total pledge and a Nakamoto coefficient of 1. A run with max_iterations at least iterations_after_convergence + 2 ends with an equilibrium at step 0 or step 1, and reports it after iterations_after_convergence further rounds.", "quantifier": "all such populations, all orders of activation, all set iteration orders, all parameters in range; exact arithmetic", "why_tests_cant": "It is the complete course of every simulation of a family with any number of agents and any order; a test runs a few.", "anchors": ["logic/stakeholder.py:Stakeholder.step", "logic/stakeholder.py:Stakeholder.find_operator_move", "logic/stakeholder.py:Stakeholder.find_delegation_move", "logic/stakeholder.py:Stakeholder.determine_stake_allocations", "logic/sim.py:Simulation.has_converged"]}
{"id": "C135", "title": "Labels in scientific notation", "statement": "On exact numbers, sci_notation gives every positive number a label that shows it rounded to the given number of digits after its leading one; labels are in the order of the numbers; a power of ten has itself as label. The label of a negative number shows neither its sign nor its digits, only the power of ten of its absolute value; 0 raises ValueError (unless the exponent is given, then it is labelled 10^e). With a given exponent e, all numbers up to 10^e have the same label, 10^e. On a logarithmic axis of plot_aggregate_data (not used in this version) ticks of at least 0.1 are labelled with the number itself, and the label of a smaller positive tick differs from it by at most a third of it, which is the best bound: 0.015 is labelled 2*10^-2.", "quantifier": "all numbers, all numbers of digits, all exponents; exact arithmetic", "why_tests_cant": "It is about all numbers; the function is not reached by any run, and a test tries a few numbers.", "anchors": ["logic/helper.py:sci_notation", "logic/helper.py:plot_aggregate_data"]}
{"id": "C136", "title": "The same family with simultaneous activation", "statement": "Consider the simulations of C113 (agents that would operate exactly one pool, saturated by its pledge, and agents that abstain or could not make a profit with any number of pools), but with simultaneous or semi-simultaneous activation. In whatever batches the agents act, no round raises an exception. After the first round of all agents every agent of the first kind operates exactly one pool: private, of stake 1/k, all of it its pledge. There are no other pools and nobody delegates. The round is idle iff there are no agents of the first kind. No agent ever moves again, whatever the later batches. If max_iterations exceeds iterations_after_convergence and there is an agent of the first kind, the run ends after iterations_after_convergence + 1 rounds and reports an equilibrium at step 0. So the activation does not matter here: the pools are those after a round with sequential activation, up to ids and margins.", "quantifier": "all such populations, all batches, all set iteration orders, all parameters in range; exact arithmetic", "why_tests_cant": "It is the complete course of every simulation of a family with any number of agents and any batches; a test runs a few.", "anchors": ["logic/activations.py:SemiSimultaneousActivation.step", "logic/stakeholder.py:Stakeholder.step", "logic/stakeholder.py:Stakeholder.advance", "logic/stakeholder.py:Stakeholder.find_operator_move", "logic/sim.py:Simulation.has_converged"]}
{"id": "C137", "title": "A monopoly with simultaneous activation", "statement": "Consider the simulations of C134 (k = 1, one agent that could make a profit with a pool, enough room in it for all stake), but with simultaneous or semi-simultaneous activation. In whatever batches the agents act, no round raises an exception. After the first round of all agents the operator's pool is open, with their whole stake as pledge, and the round was not idle. If the first round was a single batch, as with simultaneous activation, nobody delegates to it yet. After the second round exactly those others have delegated all their stake to it who would do so by C134; the round is idle iff they did so in the first. From then on nobody moves. A run with max_iterations at least iterations_after_convergence + 2 ends with an equilibrium at step 0 or step 1; with simultaneous activation it is at step 1 if somebody would delegate and at step 0 otherwise. After two rounds the pool and the delegations are the same as with sequential activation, up to the id of the pool. From the first round on the metrics are those of C134: one pool, one operator, the operator's stake as total pledge and a Nakamoto coefficient of 1.", "quantifier": "all such populations, all batches, all set iteration orders, all parameters in range; exact arithmetic", "why_tests_cant": "It is the complete course of every simulation of a family with any number of agents and any batches; a test runs a few.", "anchors": ["logic/activations.py:SemiSimultaneousActivation.step", "logic/stakeholder.py:Stakeholder.step", "logic/stakeholder.py:Stakeholder.advance", "logic/stakeholder.py:Stakeholder.find_delegation_move", "logic/sim.py:Simulation.has_converged"]}
{"id": "C138", "title": "The metrics of saturated private pools", "statement": "Consider the simulations of C113 and C136, with sequential, random, simultaneous or semi-simultaneous activation, and let n be the number of agents that would operate exactly one pool. In every state after one or more rounds the metrics report n pools, n operators, no pool splitters, a total pledge and a total stake in pools of n times the saturation threshold 1/k. If n is not 0, they report a pledge rate of 1, a homogeneity factor of 1, an average and a median pledge of 1/k, an average saturation rate of 1, one pool per operator both on average and at most, Gini coefficients of 0 for stake and pools per operator, and a Nakamoto coefficient of floor(n/2) + 1. This is the largest possible: in any state in which all pools have stake, the Nakamoto coefficient of n operators is at most floor(n/2) + 1.", "quantifier": "all such populations, all orders and batches, all numbers of rounds, all set iteration orders; exact arithmetic", "why_tests_cant": "It is about every state of every simulation of a family with any number of agents.", "anchors": ["logic/model_reporters.py:get_nakamoto_coefficient", "logic/model_reporters.py:get_homogeneity_factor", "logic/model_reporters.py:get_pledge_rate", "logic/model_reporters.py:get_operator_count", "logic/model_reporters.py:gini_coefficient"]}
