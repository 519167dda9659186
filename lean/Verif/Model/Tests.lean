import Verif.Model.Distr
import Verif.Model.Target
import Verif.Py.Binary64

/-!
# tests/*.py: the project's own tests

A test is a computation: `.ok true` if it passes, `.ok false` if an assertion fails, an exception otherwise.  Numbers are binary64 floats, as in Python.  The tests build a `Simulation` with
the default arguments, whose agents are random; these agents (`people`) and the total stake are parameters here.  Pools are put into `model.pools` without being ranked, as the tests do.

Not modelled: test_calculate_pool_reward_curve_pledge_benefit (powers of floats), test_get_min_aggregate_pledge (an external solver), test_write_read_seq_id (a file; see C57),
test_get_nakamoto_coefficient and test_get_nakamoto_coefficient_total_stake_1 (too slow to evaluate for 1000 agents; see C47), test_get_number_of_pools (`assert True`) and the rest of a test after the first exception or failing assertion.
-/

namespace RSE.Tests

/-- the literal `n * 10 ^ -e` -/
def dec (n e : Nat) : B64 := B64.of ((n : ℚ) / 10 ^ e)

/-- an integer literal -/
def int (n : Nat) : B64 := (n : B64)

/-- `pytest.approx(expected) == x`, with the default tolerances -/
def approx (expected x : B64) : Bool := decide (|x.1 - expected.1| ≤ max (|expected.1| / 10 ^ 6) (1 / 10 ^ 12))

/-- `round(x, d)` -/
def roundTo (d : Nat) (x : B64) : B64 := B64.of ((roundHalfEven (x.1 * 10 ^ d) : ℚ) / 10 ^ d)

/-- a reward scheme (reward_schemes.py:13-26) -/
def scheme (kind : Scheme) (k : Nat) (a0 : B64) : RS B64 := { scheme := kind, k := k, beta := 1 / (k : B64), a0 := a0 }

/-- `Pool(...)` with a margin (pool.py:6-15) -/
def pool (id : Nat) (cost pledge : B64) (owner : Nat) (rs : RS B64) (margin : B64) : Pool B64 := (Pool.create id cost pledge owner rs false).setMargin margin

/-- `pool.stake = x` -/
def withStake (x : B64) (p : Pool B64) : Pool B64 := { p with stake := x }

/-- the scheme of `Simulation(k=k)` -/
def defaultScheme (k : Nat) : RS B64 := scheme .cardano k (dec 3 1)

/-- `Simulation(k=k)` (sim.py:20-28), with the agents and the total stake that come out of its random draws -/
def simulation (k : Nat) (people : List (B64 × B64 × Profile)) (total : B64) : State B64 :=
  initState { rs := defaultScheme k, relThr := 0, absThr := 0, extraFrac := dec 4 1, simultaneous := false, people := people, totalStake := total }

/-- pool objects -/
def heapOf (ps : List (Pool B64)) : Nat → Pool B64 := fun r => (ps[r]?).getD (blankPool 0)

/-- `model.pools = ...`, also for a patched `get_pools_list` -/
def withPools (s : State B64) (ps : List (Nat × Pool B64)) : State B64 :=
  { s with pools := ps.zipIdx.map (fun e => (e.1.1, e.2)), heap := heapOf (ps.map Prod.snd), next := ps.length }

/-- a patched `get_agents_dict` -/
def withAgents (s : State B64) (ags : Dict (Agent B64)) : State B64 := { s with agents := ags }

/-- `NonMyopicStakeholder(unique_id=id, model=model, stake=stake, cost=0.001)` -/
def agent (id : Nat) (stake : B64) : Agent B64 := newAgent id stake (dec 1 3) .nonMyopic

/-- `list.sort(key=hlp.pool_comparison_key)`: the pools by their positions in the given list -/
def ranked (ps : List (Pool B64)) : SKL (Key B64) (Option Nat) := ps.zipIdx.foldl (fun l e => SKL.add (poolKey e.1) (some e.2) l) []

/-- a call with keyword arguments: a function raises `TypeError` for a keyword that it does not have -/
def keywords (parameters given : List String) : Py Unit := if given.all (fun x => parameters.contains x) then .ok () else .error .type

/-! ### tests/test_helper.py -/

/-- test_generate_stake_distr (10-17): `z` and `z'` are the draws -/
def generateStakeDistr (z z' : Nat → B64) (fuel : Nat) : Py Bool := do
  let l ← stakesPareto 100 (-1) z fuel
  let l' ← stakesPareto 1001 (-1) z' fuel
  return l.length == 100 && l'.length == 1001

/-- test_generate_stake_distr_flat (20-27): `i` is `random.randint(1, 100)` -/
def generateStakeDistrFlat (i : Nat) : Py Bool := do
  let l : List B64 := stakesFlat 100
  let x ← pyIndex l (i : Int)
  return approx x (dec 1 2) && l.length == 100 && approx (l.foldl (· + ·) 0) 1

/-- the rewards of three pools -/
def rewards (rs : RS B64) (stakes pledges : List B64) : List B64 := List.zipWith (fun s p => rs.reward p s) stakes pledges

/-- test_calculate_pool_reward_variable_stake (30-48) -/
def rewardVariableStake : Bool :=
  match rewards (scheme .cardano 10 (dec 3 1)) [dec 1 2, dec 1 1, dec 2 1] [dec 1 2, dec 1 2, dec 1 2] with
  | [x, y, z] => decide (x < y) && decide (y = z)
  | _ => false

/-- test_calculate_pool_reward_variable_pledge (51-65) -/
def rewardVariablePledge : Bool :=
  match rewards (scheme .cardano 10 (dec 3 1)) [dec 1 1, dec 1 1, dec 1 1] [dec 1 2, dec 5 2, dec 1 1] with
  | [x, y, z] => decide (x < y) && decide (y < z)
  | _ => false

/-- test_calculate_pool_reward_variable_stake_a0_zero (68-86) -/
def rewardVariableStakeA0Zero : Bool :=
  match rewards (scheme .cardano 10 0) [dec 1 2, dec 1 1, dec 2 1] [dec 1 2, dec 1 2, dec 1 2] with
  | [x, y, z] => decide (x < y) && decide (y = z)
  | _ => false

/-- test_calculate_pool_reward_variable_pledge_a0_zero (89-103) -/
def rewardVariablePledgeA0Zero : Bool :=
  match rewards (scheme .cardano 10 0) [dec 1 1, dec 1 1, dec 1 1] [dec 1 2, dec 5 2, dec 1 1] with
  | [x, y, z] => decide (x = y) && decide (y = z)
  | _ => false

/-- equality of dictionaries: the same entries in any order -/
def sameDict (a b : Dict Nat) : Bool := a.all (fun e => b.contains e.1 && b.get? e.1 == some e.2) && b.all (fun e => a.contains e.1)

/-- test_calculate_ranks (106-109); `rank_ids` is on by default -/
def ranks : Py Bool := do
  let r ← calculateRanks [(5, dec 2 1), (3, dec 3 1), (1, dec 1 1), (12, dec 9 1), (8, dec 8 1)] [] true
  return sameDict r [(5, 4), (3, 3), (1, 5), (12, 1), (8, 2)]

/-- test_calculate_ranks_with_tie_breaking (112-128) -/
def ranksWithTieBreaking : Py Bool := do
  let des := [(5, dec 2 1), (3, dec 2 1), (1, dec 1 1), (12, dec 9 1), (8, dec 9 1)]
  let expected := [(5, 3), (3, 4), (1, 5), (12, 2), (8, 1)]
  let r₁ ← calculateRanks des [[(5, dec 8 1), (3, dec 7 1), (1, dec 99 2), (12, dec 8 1), (8, dec 9 1)]] true
  let profits := [(5, dec 8 1), (3, dec 7 1), (1, dec 99 2), (12, dec 8 1), (8, dec 8 1)]
  let r₂ ← calculateRanks des [profits, [(5, dec 8 1), (3, dec 7 1), (1, dec 99 2), (12, dec 8 1), (8, dec 9 1)]] true
  let r₃ ← calculateRanks des [profits, [(5, dec 8 1), (3, dec 7 1), (1, dec 99 2), (12, dec 8 1), (8, dec 8 1)]] true
  return sameDict r₁ expected && sameDict r₂ expected && sameDict r₃ expected

/-- test_calculate_cost_per_pool (131-141) -/
def costs : Py Bool := do
  let c ← costPerPool 4 (int 1) (dec 6 1)
  return decide (c = dec 7 1) && decide (c * int 4 = dec 28 1)

/-- the non-myopic stake of an eleventh pool beside ten equal ones (182-240) -/
def eleventh (k : Nat) (cost pledge margin : B64) : Py B64 :=
  let rs := scheme .cardano k (dec 3 1)
  let ps := (List.range' 1 10).map (fun i => pool i (dec 1 4) (dec 1 3) i rs 0) ++ [pool 11 cost pledge 11 rs margin]
  nonMyopicStake rs 1 (heapOf ps) (ranked ps) 10

/-- test_calculate_non_myopic_pool_stake (181-240) -/
def nonMyopicPoolStake : Py Bool := do
  let a ← eleventh 10 (dec 1 4) (dec 1 3) (dec 2 1)
  let b ← eleventh 10 (dec 1 4) (dec 2 3) 0
  let c ← eleventh 10 (dec 1 4) (dec 2 1) 0
  let d ← eleventh 10 (dec 1 4) (dec 1 3) 0
  let e ← eleventh 100 (dec 1 3) (dec 1 5) 0
  return decide (a = dec 1 3) && decide (b = dec 1 1) && decide (c = dec 2 1) && decide (d = dec 1 3) && decide (e = dec 1 2)

/-- test_read_stake_distr_from_file (244-258): the call in line 257 has keywords `filename` and `num_agents`; the function (helper.py:26) has `num_agents` and `seed` -/
def readStakeDistr : Py Unit := keywords ["num_agents", "seed"] ["filename", "num_agents"]

/-- test_calculate_pool_reward_cip_50 (268-275) -/
def rewardCip50 : Bool := decide ((scheme .cip50 100 (int 100)).reward (dec 1 3) (dec 1 2) = dec 1 2)

/-- test_find_target_pool (278-289) -/
def targetPool : Bool :=
  let rs := scheme .cardano 100 (dec 3 1)
  let ps := (List.range' 1 149).map (fun i => pool i (dec 1 4) (dec 1 3 + dec 1 5 * int i) i rs 0)
  let sorted := ps.insertionSort (fun a b => poolKey a ≤ poolKey b)
  match findTarget rs (dec 14 2) (sorted.map some) with
  | some q => sorted.findIdx? (fun p => p.id == q.id) == some 13
  | none => false

/-! ### tests/test_model_reporters.py -/

/-- `Pool(owner=owner, cost=0.001, pledge=pledge, margin=0.1, pool_id=id, ...)` -/
def reported (k id owner : Nat) (pledge : B64) : Pool B64 := pool id (dec 1 3) pledge owner (defaultScheme k) (dec 1 1)

/-- test_get_controlled_stake_distr_stat_dist (15-37) -/
def statDist (s : State B64) : Py Bool := do
  let x ← statDistance (withPools (withAgents s [(1, agent 1 (dec 1 2)), (2, agent 2 (dec 4 2)), (3, agent 3 (dec 1 2))])
    [(0, withStake (dec 8 2) (reported 100 555 1 (dec 1 2))), (1, withStake (dec 1 1) (reported 100 556 2 (dec 1 2))), (2, withStake (dec 5 2) (reported 100 557 2 (dec 1 2)))])
  return approx x (dec 95 3)

/-- test_get_pool_splitter_count (75-92) -/
def splitters (s : State B64) : Bool :=
  splitterCount (withPools s (((List.range' 1 10).map (fun i => reported 100 555 i (dec 1 3)) ++
    [reported 100 556 2 (dec 1 2), reported 100 556 2 (dec 1 2), reported 100 556 5 (dec 1 2)]).zipIdx.map (fun e => (e.2, e.1)))) == 2

/-- test_gini_coefficient (95-117) -/
def gini : Py Bool := do
  let a ← giniCoefficient ([1, 2, 3, 4, 5].map int)
  let b ← giniCoefficient ([368, 156, 20, 7, 10, 49, 22, 1].map int)
  let c ← giniCoefficient ([11, 2, 1].map int)
  let d ← giniCoefficient [dec 11 2, dec 6 2, dec 6 2]
  let e ← giniCoefficient ([1, 1, 3, 0, 0].map int)
  return decide (roundTo 5 a = dec 26667 5) && decide (roundTo 5 b = dec 67792 5) && decide (roundTo 5 c = dec 47619 5) && decide (roundTo 5 d = dec 14493 5) &&
    decide (roundTo 5 e = dec 56 2)

/-- the pools of the next two tests -/
def fourteen : List (Nat × Pool B64) :=
  (List.range 11).map (fun i => (i, reported 100 i 1 (dec 1 2))) ++
    [(11, reported 100 11 2 (dec 1 2)), (12, reported 100 12 2 (dec 5 2)), (13, reported 100 13 5 (dec 6 2))]

/-- test_get_gini_id_coeff_pool_count (120-135) -/
def giniCount (s : State B64) : Py Bool := do
  let x ← giniPoolCount (withPools s fourteen)
  return decide (roundTo 3 x = dec 476 3)

/-- test_get_gini_id_coeff_stake (138-153) -/
def giniStakes (s : State B64) : Py Bool := do
  let x ← giniStake (withPools s fourteen)
  return decide (roundTo 3 x = dec 145 3)

/-- test_get_gini_id_coeff_pool_count_k_agents (156-169), with `Simulation(k=5)` -/
def giniCountK (s : State B64) : Py Bool := do
  let x ← giniPoolCountK (withPools s ((List.range 3).map (fun i => (i, reported 5 i 1 (dec 1 2))) ++ [(3, reported 5 11 2 (dec 1 2)), (4, reported 5 13 5 (dec 6 2))]))
  return decide (roundTo 3 x = dec 56 2)

/-- test_get_median_stk_rnk (213-225) -/
def medianRank (s : State B64) : Py Bool := do
  let r ← medianStakeRank (withPools (withAgents s ((List.range' 1 100).map (fun i => (i, agent i (int i)))))
    ([(0, 100), (1, 100), (2, 100), (3, 1), (4, 2)].map (fun e => (e.1, reported 100 e.1 e.2 (dec 1 3)))))
  return r == 1

/-! ### tests/test_stakeholder.py -/

/-- test_calculate_operator_utility (15-24) -/
def operatorUtility (s : State B64) : Py Bool := do
  let u ← operatorUtilityFromStrategy (withPools s [(555, pool 555 (dec 1 3) (dec 1 1) 156 (defaultScheme 100) (dec 1 1))]) (agent 156 (dec 1 1)) { owned := [(555, 0)] }
  return decide (u = dec 148638461538461537 19)

/-- `pool.margin = agent.calculate_margin(pool)` for a pool that was built with the default margin -/
def marginOf (s : State B64) (id owner : Nat) (pledge stake : B64) : Py B64 :=
  calculateMargin s (agent owner stake) (Pool.create id (dec 1 3) pledge owner (defaultScheme 2) false)

/-- test_calculate_margin (27-47), with `Simulation(k=2)`, up to the first assertion -/
def margin (s : State B64) : Py Bool := do
  let s := withPools s [(555, Pool.create 555 (dec 1 3) (dec 1 3) 156 (defaultScheme 2) false), (556, Pool.create 556 (dec 1 3) (dec 2 3) 157 (defaultScheme 2) false),
    (557, Pool.create 557 (dec 1 3) (dec 3 3) 157 (defaultScheme 2) false), (558, Pool.create 558 (dec 1 3) (dec 1 4) 159 (defaultScheme 2) false)]
  let m₅ ← marginOf s 555 156 (dec 1 3) (dec 1 3)
  let _ ← marginOf s 556 157 (dec 2 3) (dec 5 3)
  let _ ← marginOf s 557 157 (dec 3 3) (dec 5 3)
  let m₈ ← marginOf s 558 159 (dec 1 4) (dec 1 4)
  return decide (m₅ = m₈) && decide (m₈ = 0)

/-- test_close_pool (58-66), up to the first exception -/
def close (s : State B64) : Py Bool := do
  let s ← closePool (withPools s [(555, pool 555 (dec 1 3) (dec 1 3) 156 (defaultScheme 100) (dec 2 1))]) 555
  return !(s.pools.contains 555)

/-- test_determine_pools_to_keep (81-108); `ord` is the order in which sets are iterated -/
def keep (ord : List Nat → List Nat) (s : State B64) : Py Bool := do
  let p (i : Nat) (m : B64) : Nat × Pool B64 := (i, pool i (dec 1 3) (dec 1 3) 1 (defaultScheme 100) m)
  let s := withPools s [p 1 (dec 2 1), p 2 (dec 2 1), p 3 (dec 1 1)]
  let kept (n : Nat) : Py (List Nat) := (determinePoolsToKeep ord s { owned := [(1, 0), (2, 1), (3, 2)] } n).map (fun r => r.2.keys)
  let same (a b : List Nat) : Bool := a.all (fun x => b.contains x) && b.all (fun x => a.contains x)
  let a ← kept 3
  let b ← kept 4
  let c ← kept 1
  let d ← kept 2
  return same a [1, 2, 3] && same b [1, 2, 3] && same c [3] && same d [1, 3]

/-- test_find_delegation_move (112-133), with `Simulation(k=10)`, up to the first assertion -/
def delegationMove (s : State B64) : Py Bool := do
  let p (i owner : Nat) (pledge m : B64) : Nat × Pool B64 := (i, pool i (dec 1 3) pledge owner (defaultScheme 10) m)
  let s := withPools s [p 555 156 (dec 1 3) (dec 1 1), p 556 157 (dec 2 3) (dec 1 1), p 557 157 (dec 3 3) (dec 1 1), p 558 158 (dec 3 3) 0]
  let r ← findDelegationMove s (agent 159 (dec 1 4)) {} (dec 1 4)
  return r.2.allocs.keys == [558]

/-- test_execute_strategy (172-205), up to the first exception: agent 1 changes the margin of its pool -/
def executeMargin (ord : List Nat → List Nat) (s : State B64) : Py Bool := do
  let rs := defaultScheme 100
  let p₁ : Pool B64 := { pool 1 (dec 1 3) (dec 3 3) 1 rs (dec 1 1) with stake := dec 41 4, delegators := [(3, dec 1 3), (4, dec 1 4)] }
  let p₂ := pool 2 (dec 1 3) (dec 2 3) 2 rs 0
  let s := withPools s [(1, p₁), (2, p₂)]
  let s := s.alloc (p₁.setMargin (dec 2 1))
  let s := withAgents s [(1, { agent 1 (dec 3 3) with strategy := some { owned := [(1, 0)] }, newStrategy := some { owned := [(1, 2)] } }),
    (2, { agent 2 (dec 2 3) with strategy := some { owned := [(2, 1)] } }), (3, { agent 3 (dec 1 3) with strategy := some { allocs := [(1, dec 1 3)] } }),
    (4, { agent 4 (dec 1 4) with strategy := some { allocs := [(1, dec 1 4)] } })]
  let s ← executeStrategy ord s 1
  return (match s.pools.get? 1 with
    | some r => decide ((s.heap r).margin = dec 2 1) && decide ((s.heap r).stake = dec 41 4)
    | none => false)

/-! ### tests/test_sim.py -/

/-- test_revise_beliefs (6-7) -/
def reviseBeliefs : Py Bool := return false

end RSE.Tests
