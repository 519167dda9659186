import Verif.Model.Init
import Verif.Model.Ranks
import Mathlib.Data.List.Dedup
import Mathlib.Data.List.Sort
import Mathlib.Data.Rat.Floor
import Mathlib.Algebra.Order.Field.Rat

/-!
# logic/model_reporters.py: the metrics computed from pools and agents

`statistics.mean` of a non-empty list is its sum divided by its length; `np.sum`, `sum` and `fsum` are `FSum.fsum` (exact sums over
an exact field).  Python's integers and floats are not distinguished: a statistic of integers is computed in the field (`statistics.mean`
and `median` compute with exact fractions and round once at the end).  `get_min_aggregate_pledge` calls an external mixed-integer solver
and is not modelled.
-/

namespace RSE

variable {F : Type} [LinearOrder F] [Zero F] [One F] [Add F] [Sub F] [Mul F] [Div F] [Neg F] [NatCast F] [FSum F]

/-- `model.get_pools_list()` (sim.py: `list(self.pools.values())`) -/
def poolsList (s : State F) : List (Pool F) := s.pools.map (fun e => s.heap e.2)

/-- `model.get_agents_list()` (sim.py:388-389), `model.schedule.agents`; `get_agents_dict` (sim.py:385-386) is `State.agents` -/
def agentsList (s : State F) : List (Agent F) := s.agents.map (fun e => e.2)

/-- `get_number_of_pools` (model_reporters.py:10-11) -/
def poolCount (s : State F) : Nat := s.pools.length

/-- `get_total_pledge` (model_reporters.py:31-33) -/
def totalPledge (s : State F) : F := FSum.fsum ((poolsList s).map (fun p => p.pledge))

/-- `get_total_delegated_stake` (model_reporters.py:364-368) -/
def totalDelegatedStake (s : State F) : F := FSum.fsum ((poolsList s).map (fun p => p.stake))

/-- `get_active_stake_agents` (model_reporters.py:371-372) -/
def totalAgentStake (s : State F) : F := FSum.fsum ((agentsList s).map (fun a => a.stake))

/-- `get_pledge_rate` (model_reporters.py:198-210) -/
def pledgeRate (s : State F) : Py F :=
  if (poolsList s).length = 0 then .ok 0
  else pyDiv (totalPledge s) (totalDelegatedStake s)

/-- `get_homogeneity_factor` (model_reporters.py:213-229) -/
def homogeneityFactor (s : State F) : Py F :=
  match (poolsList s).map (fun p => p.stake) with
  | [] => .ok 0
  | x :: t => pyDiv (FSum.fsum (x :: t)) (((x :: t).length : F) * t.foldl max x)

/-! ### Statistics -/

/-- `abs` -/
def absF (x : F) : F := max x (-x)

/-- `statistics.mean`; `StatisticsError` is a `ValueError` -/
def meanOf (l : List F) : Py F :=
  if l.length = 0 then .error .value else .ok (FSum.fsum l / (l.length : F))

/-- `statistics.median` -/
def medianOf (l : List F) : Py F :=
  let data := l.insertionSort (· ≤ ·)
  let n := data.length
  if n = 0 then .error .value
  else if n % 2 = 1 then (match data[n / 2]? with
    | some x => .ok x
    | none => .error .index)
  else (match data[n / 2 - 1]?, data[n / 2]? with
    | some x, some y => .ok ((x + y) / ((2 : Nat) : F))
    | _, _ => .error .index)

/-- `get_avg_margin` (model_reporters.py:14-17) -/
def avgMargin (s : State F) : Py F :=
  if ((poolsList s).map (fun p => p.margin)).length > 0 then meanOf ((poolsList s).map (fun p => p.margin)) else .ok 0

/-- `get_median_margin` (model_reporters.py:20-23) -/
def medianMargin (s : State F) : Py F :=
  if ((poolsList s).map (fun p => p.margin)).length > 0 then medianOf ((poolsList s).map (fun p => p.margin)) else .ok 0

/-- `get_avg_pledge` (model_reporters.py:26-28) -/
def avgPledge (s : State F) : Py F :=
  if ((poolsList s).map (fun p => p.pledge)).length > 0 then meanOf ((poolsList s).map (fun p => p.pledge)) else .ok 0

/-- `get_median_pledge` (model_reporters.py:36-38) -/
def medianPledge (s : State F) : Py F :=
  if ((poolsList s).map (fun p => p.pledge)).length > 0 then medianOf ((poolsList s).map (fun p => p.pledge)) else .ok 0

/-- `get_avg_sat_rate` (model_reporters.py:69-74) -/
def avgSatRate (s : State F) : Py F :=
  if (poolsList s).length = 0 then .ok 0
  else do
    let rates ← (poolsList s).mapM (fun p => pyDiv p.stake (s.rs.sat p.pledge))
    meanOf rates

/-! ### Operators -/

/-- `[pool.owner for pool in model.get_pools_list()]` -/
def owners (s : State F) : List Nat := (poolsList s).map (fun p => p.owner)

/-- `collections.Counter(l)`: counts in the order of first occurrence -/
def counter (l : List Nat) : Dict Nat := l.foldl (fun d a => d.set a ((d.get? a).getD 0 + 1)) []

/-- `get_operator_count` (model_reporters.py:381-382): the size of a set -/
def operatorCount (s : State F) : Nat := (owners s).dedup.length

/-- `get_avg_pools_per_operator` (model_reporters.py:41-47) -/
def avgPoolsPerOperator (s : State F) : Py F :=
  if (poolsList s).length = 0 then .ok 0
  else pyDiv ((poolsList s).length : F) ((owners s).dedup.length : F)

/-- `get_max_pools_per_operator` (model_reporters.py:50-56): `most_common(1)[0][1]` is the largest count -/
def maxPoolsPerOperator (s : State F) : Py Nat :=
  if (poolsList s).length = 0 then .ok 0
  else match (counter (owners s)).vals with
    | [] => .error .index
    | x :: t => .ok (t.foldl max x)

/-- `get_median_pools_per_operator` (model_reporters.py:59-65) -/
def medianPoolsPerOperator (s : State F) : Py F :=
  if (poolsList s).length = 0 then .ok 0
  else medianOf ((counter (owners s)).vals.map (fun n : Nat => (n : F)))

/-- `get_pool_splitter_count` (model_reporters.py:270-278) -/
def splitterCount (s : State F) : Nat :=
  if (poolsList s).length = 0 then 0
  else ((counter (owners s)).filter (fun e => e.2 > 1)).length

/-- `get_cost_efficient_count` (model_reporters.py:281-288) -/
def costEfficientCount (s : State F) : Nat :=
  (((agentsList s).map (fun a => potentialProfit s.rs a.stake a.cost)).filter (fun pp => pp > 0)).length

/-! ### Stake controlled by the agents -/

/-- `d[pool.owner] += pool.stake` for one pool -/
def addStake (d : Dict F) (p : Pool F) : Py (Dict F) := do
  let x ← d.getE p.owner
  return d.set p.owner (x + p.stake)

/-- `controlled_stake` (model_reporters.py:103-109 and 146-148) -/
def controlledStake (s : State F) : Py (Dict F) := iterM addStake (s.agents.map (fun e => (e.1, (0 : F)))) (poolsList s)

/-- `get_pool_stakes_by_agent_id` (model_reporters.py:300-306); `n` is `model.n` -/
def stakesByAgentId (n : Nat) (s : State F) : Py (Dict F) := iterM addStake ((List.range n).map (fun i => (i, (0 : F)))) (poolsList s)

/-- `pool_stakes[pool.owner] += pool.stake` for one pool -/
def addStakeAt (l : List F) (p : Pool F) : Py (List F) :=
  match l[p.owner]? with
  | some x => .ok (l.set p.owner (x + p.stake))
  | none => .error .index

/-- `get_pool_stakes_by_agent` (model_reporters.py:291-297) -/
def stakesByAgent (n : Nat) (s : State F) : Py (List F) := iterM addStakeAt (List.replicate n (0 : F)) (poolsList s)

/-- `get_controlled_stake_distr_stat_dist` (model_reporters.py:88-115) -/
def statDistance (s : State F) : Py F :=
  if (poolsList s).length = 0 then .ok 0
  else do
    let current ← controlledStake s
    let diffs ← s.agents.mapM (fun e => do
      let x ← current.getE e.1
      return absF (x - e.2.stake))
    return FSum.fsum diffs / ((2 : Nat) : F)

/-- `np.argmax` of a boolean array: the index of the first `True`, 0 if there is none; `ValueError` for an empty array -/
def argmaxBool (l : List Bool) : Py Nat := if l.length = 0 then .error .value else .ok ((l.findIdx? id).getD 0)

/-- `[fsum(l[:i + 1]) for i in range(len(l))]` (model_reporters.py:154) -/
def cumulative (l : List F) : List F := (List.range l.length).map (fun i => FSum.fsum (l.take (i + 1)))

/-- the number of the largest values needed for a majority (model_reporters.py:152-157) -/
def majorityCount (stakes : List F) : Py Nat := do
  let total := FSum.fsum stakes
  let sorted := stakes.insertionSort (· ≥ ·)
  let i ← argmaxBool ((cumulative sorted).map (fun x => decide (x > total / ((2 : Nat) : F))))
  return i + 1

/-- `get_nakamoto_coefficient` (model_reporters.py:118-159) once the simulation has a `pools` attribute -/
def nakamoto (s : State F) : Py Nat :=
  if (poolsList s).length = 0 then .ok 0
  else do
    let controlled ← controlledStake s
    let final ← s.agents.mapM (fun e => controlled.getE e.1)
    majorityCount final

/-- the loop of model_reporters.py:138-141 (`sorted_final_stake[index]` raises `IndexError` at the end of the list) -/
def majorityLoop (half : F) : List F → F → Nat → Py Nat
  | [], stake, count => if stake ≤ half then .error .index else .ok count
  | x :: t, stake, count => if stake ≤ half then majorityLoop half t (stake + x) (count + 1) else .ok count

/-- `get_nakamoto_coefficient` before pools exist (model_reporters.py:128-143) -/
def nakamotoInitial (s : State F) : Py Nat :=
  let sorted := ((agentsList s).map (fun a => a.stake)).insertionSort (· ≥ ·)
  majorityLoop (FSum.fsum sorted / ((2 : Nat) : F)) sorted 0 0

/-! ### Gini coefficients -/

/-- the loop of model_reporters.py:313-315: `enumerate(np_array[:-1], 1)` pairs every value but the last with the values after it -/
def giniLoop : List F → F → F
  | [], acc => acc
  | [_], acc => acc
  | x :: y :: t, acc => giniLoop (y :: t) (acc + FSum.fsum ((y :: t).map (fun z => absF (x - z))))

/-- `gini_coefficient` (model_reporters.py:309-316) -/
def giniCoefficient (l : List F) : Py F :=
  if FSum.fsum l ≠ 0 then pyDiv (giniLoop l 0) ((l.length : F) * FSum.fsum l) else .ok (-1)

/-- `pools_owned[pool.owner] += 1` with a `defaultdict` (model_reporters.py:323-325) -/
def poolsOwned (s : State F) : Dict Nat := (poolsList s).foldl (fun d p => d.set p.owner ((d.get? p.owner).getD 0 + 1)) []

/-- `stake_controlled[pool.owner] += pool.stake` with a `defaultdict` (model_reporters.py:345-347) -/
def stakeOwned (s : State F) : Dict F := (poolsList s).foldl (fun d p => d.set p.owner ((d.get? p.owner).getD 0 + p.stake)) []

/-- `np.append(l, np.zeros(k - l.size))` if `l.size < k` (model_reporters.py:338-340, 358-360) -/
def padTo (k : Nat) (l : List F) : List F := if l.length < k then l ++ List.replicate (k - l.length) 0 else l

/-- `get_gini_id_coeff_pool_count` (model_reporters.py:319-327) -/
def giniPoolCount (s : State F) : Py F := giniCoefficient ((poolsOwned s).vals.map (fun n : Nat => (n : F)))

/-- `get_gini_id_coeff_pool_count_k_agents` (model_reporters.py:330-340) -/
def giniPoolCountK (s : State F) : Py F := giniCoefficient (padTo s.rs.k ((poolsOwned s).vals.map (fun n : Nat => (n : F))))

/-- `get_gini_id_coeff_stake` (model_reporters.py:343-349) -/
def giniStake (s : State F) : Py F := giniCoefficient (stakeOwned s).vals

/-- `get_gini_id_coeff_stake_k_agents` (model_reporters.py:352-361) -/
def giniStakeK (s : State F) : Py F := giniCoefficient (padTo s.rs.k (stakeOwned s).vals)

/-! ### Ranks of pool owners -/

/-- Python's `round` of a number: half to even -/
def roundHalfEven (q : ℚ) : Int :=
  let f := ⌊q⌋
  if q - f < 1 / 2 then f
  else if 1 / 2 < q - f then f + 1
  else if f % 2 = 0 then f else f + 1

/-- `hlp.calculate_ranks({agent_id: agent.stake ...})` (model_reporters.py:239-240) -/
def stakeRanks (s : State F) : Py (Dict Nat) := calculateRanks (s.agents.map (fun e => (e.1, e.2.stake))) [] true

/-- `hlp.calculate_ranks({agent_id: -agent.cost ...})` (model_reporters.py:248) -/
def costRanks (s : State F) : Py (Dict Nat) := calculateRanks (s.agents.map (fun e => (e.1, -e.2.cost))) [] true

/-- `[ranks[pool.owner] for pool in pools]` -/
def ownerRanks (ranks : Dict Nat) (s : State F) : Py (List ℚ) :=
  (poolsList s).mapM (fun p => do
    let r ← ranks.getE p.owner
    return (r : ℚ))

/-- `round(statistic(pool_owner_ranks)) if len(pool_owner_ranks) > 0 else 0` -/
def rankStatistic (stat : List ℚ → Py ℚ) (ranks : Py (Dict Nat)) (s : State F) : Py Int := do
  let d ← ranks
  let l ← ownerRanks d s
  if l.length > 0 then do
    let x ← stat l
    return roundHalfEven x
  else return 0

/-- `get_avg_stk_rnk` (model_reporters.py:236-242) -/
def avgStakeRank (s : State F) : Py Int := rankStatistic meanOf (stakeRanks s) s

/-- `get_avg_cost_rnk` (model_reporters.py:245-250) -/
def avgCostRank (s : State F) : Py Int := rankStatistic meanOf (costRanks s) s

/-- `get_median_stk_rnk` (model_reporters.py:253-259) -/
def medianStakeRank (s : State F) : Py Int := rankStatistic medianOf (stakeRanks s) s

/-- `get_median_cost_rnk` (model_reporters.py:262-267) -/
def medianCostRank (s : State F) : Py Int := rankStatistic medianOf (costRanks s) s

end RSE
