import Verif.Props.Viable
import Verif.Props.Margins

/-!
# C107: which agents the metric "Cost efficient stakeholders" counts

`docs/metrics.md` says: "the number of agents for whom it is possible to make profit by operating a pool".  The metric looks at the potential profit
of one pool that is pledged the whole stake and costs the whole cost of the agent.  These are the agents who can make a profit with one pool, whatever
they pledge.  It misses agents who can make a profit only with several pools, because each further pool costs a fraction of the first
(`C107_not_counted`): such agents may even operate all the pools.
-/

set_option linter.unusedSectionVars false

namespace RSE.Props

variable {K : Type} [Field K] [LinearOrder K] [IsStrictOrderedRing K]

/-- a saturated pool that is pledged `q` earns more than it costs, for some pledge `q` that the agent can afford -/
def OnePoolPays (rs : RS K) (stake cost : K) : Prop :=
  ∃ q, 0 ≤ q ∧ q ≤ stake ∧ cost < saturatedReward rs.scheme rs.beta rs.a0 q

theorem saturatedReward_mono {scheme : Scheme} {b a0 : K} (ha : 0 ≤ a0) {p q : K} (h : p ≤ q) :
    saturatedReward scheme b a0 p ≤ saturatedReward scheme b a0 q := by
  have h1 : (0 : K) < 1 + a0 := by linarith
  unfold saturatedReward
  split
  · exact min_le_min_right _ (mul_le_mul_of_nonneg_left h ha)
  · have := min_le_min_right b h
    gcongr

theorem OnePoolPays.iff {rs : RS K} (ha : 0 ≤ rs.a0) {stake cost : K} (hs : 0 ≤ stake) :
    OnePoolPays rs stake cost ↔ cost < saturatedReward rs.scheme rs.beta rs.a0 stake :=
  ⟨fun ⟨_, _, h2, h3⟩ => lt_of_lt_of_le h3 (saturatedReward_mono ha h2), fun h => ⟨stake, hs, le_rfl, h⟩⟩

open Classical in
/-- C107.  The metric counts the agents for whom one pool can make a profit, with some pledge that they can afford. -/
theorem C107_meaning {s : State K} (hb : 0 < s.rs.beta) (ha : 0 ≤ s.rs.a0) (hs : ∀ e ∈ s.agents, 0 ≤ e.2.stake) :
    costEfficientCount s = s.agents.countP (fun e => decide (OnePoolPays s.rs e.2.stake e.2.cost)) := by
  unfold costEfficientCount agentsList
  rw [← List.countP_eq_length_filter, List.map_map, List.countP_map]
  refine List.countP_congr (fun e he => ?_)
  simp [potentialProfit_eq hb, OnePoolPays.iff ha (hs e he)]

/-- C107.  An operator for whom one pool cannot make a profit operates several, and each further pool costs less than the first. -/
theorem C107_uncounted_operators {c : Config K} {s : State K} (h : ReachableSinglePhase c s) (hc : c.simultaneous = false)
    (h0 : ∀ e ∈ c.people, 0 < e.1) (hcost : ∀ e ∈ c.people, 0 ≤ e.2.1) (hb : 0 < c.rs.beta) (ha0 : 0 ≤ c.rs.a0) {b : Nat} {ag : Agent K} {σ : Strategy K}
    (ha : s.agents.get? b = some ag) (hσ : ag.strategy = some σ) (hne : σ.owned ≠ []) (hno : ¬ OnePoolPays c.rs ag.stake ag.cost) :
    2 ≤ σ.owned.length ∧ c.extraFrac < 1 ∧ 0 < ag.cost ∧
    (c.rs.scheme ≠ .cip50 → ag.stake ≤ c.rs.beta → 0 < splittingProfit c.rs.a0 c.extraFrac ag.cost ag.stake) := by
  have hg := (Reachable.of_single h).good minUnit_pos
  have hp := hg.person ha
  have hst : 0 < ag.stake := h0 _ (List.mem_of_getElem? hp)
  have hco : 0 ≤ ag.cost := hcost _ (List.mem_of_getElem? hp)
  obtain ⟨-, hv⟩ := C87_operators_are_viable h hc h0 hb ha0 ha hσ hne
  unfold Viable at hv
  rw [OnePoolPays.iff ha0 hst.le, not_lt] at hno
  generalize hn : σ.owned.length = n at hv ⊢
  have hn1 : 1 ≤ n := by rw [← hn]; exact List.length_pos_iff.2 hne
  have hnK : (1 : K) ≤ n := by exact_mod_cast hn1
  have hn0 : (0 : K) < n := by linarith
  have hdiv : ag.stake / (n : K) ≤ ag.stake := div_le_self hst.le hnK
  rw [Nat.cast_sub hn1, Nat.cast_one] at hv
  have hm : saturatedReward c.rs.scheme c.rs.beta c.rs.a0 (min (ag.stake / (n : K)) c.rs.beta) ≤ ag.cost :=
    (saturatedReward_mono ha0 ((min_le_left _ _).trans hdiv)).trans hno
  have key : ((n : K) - 1) * (c.extraFrac * ag.cost) < ((n : K) - 1) * ag.cost := by
    have := mul_le_mul_of_nonneg_left hm hn0.le
    linarith
  have hn2 : n ≠ 1 := by rintro rfl; simp at key
  have hn2' : 2 ≤ n := by omega
  have hnK2 : (2 : K) ≤ n := by exact_mod_cast hn2'
  have hlt : c.extraFrac * ag.cost < ag.cost := lt_of_mul_lt_mul_left key (by linarith)
  refine ⟨hn2', ?_, ?_, ?_⟩
  · by_contra hf
    push Not at hf
    have := mul_le_mul_of_nonneg_right hf hco
    linarith
  · rcases hco.lt_or_eq with h | h
    · exact h
    · rw [← h] at hlt; simp at hlt
  · intro hk hsb
    have h1 : (0 : K) < 1 + c.rs.a0 := by linarith
    have hsn : ag.stake / (n : K) ≤ c.rs.beta := hdiv.trans hsb
    rw [min_eq_left hsn] at hv
    unfold saturatedReward at hv hno
    rw [if_neg hk] at hv hno
    rw [min_eq_left hsn] at hv
    rw [min_eq_left hsb, div_le_iff₀ h1] at hno
    have hv' : (ag.cost + ((n : K) - 1) * c.extraFrac * ag.cost) * (1 + c.rs.a0) < (n : K) * c.rs.beta + c.rs.a0 * ag.stake := by
      have e : (n : K) * ((c.rs.beta + c.rs.a0 * (ag.stake / (n : K))) / (1 + c.rs.a0)) =
        ((n : K) * c.rs.beta + c.rs.a0 * ag.stake) / (1 + c.rs.a0) := by field_simp
      rw [e, lt_div_iff₀ h1] at hv
      exact hv
    unfold splittingProfit totalRewards
    have : 0 < ((n : K) - 1) * ((1 + c.rs.a0) * (1 - c.extraFrac) * ag.cost - 1 * ag.stake * c.rs.a0) := by
      have := mul_le_mul_of_nonneg_left hno hn0.le
      nlinarith
    exact (mul_pos_iff_of_pos_left (by linarith)).1 this

/-- C107.  If further pools do not cost less than the first, or nobody is a profitable splitter with at most `β` stake, the metric is at least
the number of operators. -/
theorem C107_operators_counted {c : Config K} {s : State K} (h : ReachableSinglePhase c s) (hc : c.simultaneous = false)
    (h0 : ∀ e ∈ c.people, 0 < e.1) (hcost : ∀ e ∈ c.people, 0 ≤ e.2.1) (hb : 0 < c.rs.beta) (ha0 : 0 ≤ c.rs.a0)
    (hf : 1 ≤ c.extraFrac ∨ c.rs.scheme ≠ .cip50 ∧ ∀ e ∈ c.people, e.1 ≤ c.rs.beta ∧ splittingProfit c.rs.a0 c.extraFrac e.2.1 e.1 ≤ 0) :
    operatorCount s ≤ costEfficientCount s := by
  classical
  have hg := (Reachable.of_single h).good minUnit_pos
  have hrs : s.rs = c.rs := (h.params minUnit_pos).rs
  have hnd := hg.inv.core.agentsNodup
  rw [C107_meaning (by rw [hrs]; exact hb) (by rw [hrs]; exact ha0) (fun e he => (h0 _ (List.mem_of_getElem?
    (hg.person (Dict.get?_of_mem hnd he)))).le)]
  rw [List.countP_eq_length_filter, ← List.length_map (f := Prod.fst)]
  unfold operatorCount
  refine List.Subperm.length_le (List.subperm_of_subset (List.nodup_dedup _) ?_)
  intro b hbm
  rw [List.mem_dedup] at hbm
  unfold owners poolsList at hbm
  rw [List.map_map] at hbm
  obtain ⟨⟨pid, r⟩, he, rfl⟩ := List.mem_map.1 hbm
  obtain ⟨ag, σ, ha, hσ, ho⟩ := hg.inv.owner (Dict.get?_of_mem hg.inv.core.poolsNodup he)
  refine List.mem_map.2 ⟨(_, ag), List.mem_filter.2 ⟨Dict.mem_of_get? ha, ?_⟩, rfl⟩
  rw [decide_eq_true_eq, hrs]
  by_contra hno
  have hne : σ.owned ≠ [] := by intro h; rw [h] at ho; cases ho
  obtain ⟨-, h2, -, h4⟩ := C107_uncounted_operators h hc h0 hcost hb ha0 ha hσ hne hno
  rcases hf with hf | ⟨hk, hf⟩
  · exact absurd h2 (not_lt.2 hf)
  · obtain ⟨h5, h6⟩ := hf _ (List.mem_of_getElem? (hg.person ha))
    exact absurd (h4 hk h5) (not_lt.2 h6)

/-- three agents, `k = 3`; further pools cost as much as the first one -/
def evenCosts : Config ℚ :=
  { rs := { scheme := .cardano, k := 3, beta := 1/3, a0 := 3/10 }, relThr := 0, absThr := 0, extraFrac := 1, simultaneous := false,
    people := [(1/5, 1/1000, .nonMyopic), (1/5, 1/2, .nonMyopic), (3/5, 1/1000, .nonMyopic)], totalStake := 1 }

/-- the hypotheses of `C107_operators_counted` are met by a state with operators and an agent who is not counted -/
example : (∃ s, ReachableSinglePhase evenCosts s ∧ (operatorCount s, costEfficientCount s) = (2, 2)) ∧ evenCosts.simultaneous = false ∧
    (∀ e ∈ evenCosts.people, 0 < e.1) ∧ (∀ e ∈ evenCosts.people, 0 ≤ e.2.1) ∧ 0 < evenCosts.rs.beta ∧ 0 ≤ evenCosts.rs.a0 ∧ 1 ≤ evenCosts.extraFrac :=
  ⟨reachable_of_run (turns_valid (l := [0, 1, 2]) (by decide)) (by decide +kernel), by decide +kernel, by decide +kernel, by decide +kernel,
    by decide +kernel, by decide +kernel, by decide +kernel⟩

/-- two agents for whom one pool is too expensive, `k = 3`; further pools cost a tenth of the first one -/
def dearFirst : Config ℚ :=
  { rs := { scheme := .cardano, k := 3, beta := 1/3, a0 := 0 }, relThr := 0, absThr := 0, extraFrac := 1/10, simultaneous := false,
    people := [(1/5, 2/5, .nonMyopic), (4/5, 1/2, .nonMyopic)], totalStake := 1 }

/-- C107.  It is not true that the metric counts the agents who can make a profit by operating pools: here it is 0, while both agents operate
three pools each, all of which would be profitable at saturation. -/
theorem C107_not_counted : ∃ s, ReachableSinglePhase dearFirst s ∧ costEfficientCount s = 0 ∧ operatorCount s = 2 ∧ poolCount s = 6 ∧
    ∀ e ∈ s.pools, 0 < (s.heap e.2).pp := by
  obtain ⟨s, hs, hv⟩ := reachable_of_run (c := dearFirst) (turns_valid (l := [0, 1]) (by decide))
    (f := fun s => [costEfficientCount s, operatorCount s, poolCount s]) (v := [0, 2, 6]) (by decide +kernel)
  simp only [List.cons.injEq, and_true] at hv
  obtain ⟨h1, h2, h3⟩ := hv
  refine ⟨s, hs, h1, h2, h3, fun e he => ?_⟩
  have hg := (Reachable.of_single hs).good minUnit_pos
  exact (hs.pp_pos rfl (by decide +kernel) (by decide +kernel) (by decide +kernel) (Dict.get?_of_mem hg.inv.core.poolsNodup he)).1

end RSE.Props
