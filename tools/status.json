{
 "C01": {"note": "Exact arithmetic. The extra hypothesis pledge <= stake is necessary (C01_needs_pledge_le_stake) and holds in every reachable state (C20)."},
 "C03": {"note": "Cardano below half saturation: exact condition in C03_cardano_pledge_iff, witness in C03_cardano_pledge_not_mono."},
 "C06": {"note": "Over the real numbers, with Real.rpow for Python's power of non-negative floats."},
 "C09": {"note": "The documented promise that all n pools end in the top k is refuted for n = 2 by C09_not_all_in_top_k."},
 "C25": {"note": "Counterexamples to the unqualified claim: C25_total_stake_exceeded, C25_delegation_lost, C25_key_error. C100 proves under which condition the records stay consistent."},
 "C27": {"note": "C27_ids_clash is the witness for open pools."},
 "C29": {"note": "Exact arithmetic; C96 shows that the claim fails in binary64. The exceptional case is C29_cip50_exact (with non-negative extra costs)."},
 "C30": {"note": "Witnesses: C30_index_error, C30_attribute_error; causes: C30_causes."},
 "C33": {"note": "The world and the agents are arbitrary (any round function). max_iterations as a list of per-phase values is refuted by C33_not_exported."},
 "C34": {"note": "C34_stale_equilibrium shows the failure in later phases."},
 "C41": {"note": "Exact arithmetic; the corner case is C41_corner."},
 "C42": {"note": "The documented meaning fails: C42_last_agent_gets_inactive_stake, C42_only_if_it_fits."},
 "C54": {"note": "Means are exact rationals rounded half to even, as Python's round; the float mean of numpy is not modelled."},
 "C57": {"note": "File system model: a file is its text or missing; a run can be killed at any point; two runs interleave at system-call granularity."},
 "C58": {"note": "Rows are appended with O_APPEND in one write each (texts below the buffer size)."},
 "C59": {"note": "Execution ids without '/' and different from '..'."},
 "C61": {"note": "Mesa 1.0.0 seeds Model.random from the keyword argument seed (Model.__new__)."},
 "C69": {"note": "generate_cost_distr_nrm (scipy truncnorm) is only covered for high < low."}
}
