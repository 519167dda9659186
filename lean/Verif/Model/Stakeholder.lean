import Verif.Model.State
import Mathlib.Data.List.Sort

/-!
# logic/stakeholder.py and logic/stakeholder_profiles.py: how an agent chooses its next strategy

`me` is the agent object (`self`); its `strategy` does not change while it plans.  `ord` is the iteration order of Python sets
(a permutation of the elements, see `Verif/Spec/Sim.lean`).
-/

namespace RSE

variable {F : Type} [LinearOrder F] [Zero F] [One F] [Add F] [Sub F] [Mul F] [Div F] [Neg F] [NatCast F] [FSum F]

/-- `utility = u; for x in l: utility += f(x)` -/
def accM {α : Type} (f : α → Py F) : List α → F → Py F
  | [], u => .ok u
  | x :: t, u => do
    let y ← f x
    accM f t (u + y)

/-- Python list indexing `l[i]`, negative indices included. -/
def pyIndex {α : Type} (l : List α) (i : Int) : Py α :=
  let j : Int := if i < 0 then i + l.length else i
  if j < 0 then .error .index
  else match l[j.toNat]? with
    | some a => .ok a
    | none => .error .index

/-! ### Utilities -/

/-- `get_pool_saturation_threshold(p.pledge)` of an entry of a ranking; `None.pledge` raises `AttributeError`
(helper.py:208). -/
def entrySat (rs : RS F) (heap : Ref → Pool F) : Option Ref → Py F
  | none => .error .attr
  | some q => .ok (rs.sat (heap q).pledge)

/-- `calculate_non_myopic_pool_stake` (helper.py:197-216) -/
def nonMyopicStake (rs : RS F) (total : F) (heap : Ref → Pool F) (rankings : SKL (Key F) (Option Ref)) (r : Ref) : Py F := do
  let p := heap r
  let rank ← rankings.index (poolKey p) (some r)
  let sats ← (rankings.vals.take rank).mapM (entrySat rs heap)
  let better := FSum.fsum sats
  let top := decide (better + minUnit < total)
  return nonMyopicStakeFromRank p.pledge p.stake (rs.sat p.pledge) top

/-- the temporary ranking of `NonMyopicStakeholder.calculate_operator_utility_from_strategy`
(stakeholder_profiles.py:13-17): everybody else's pools and the pools of the strategy under consideration -/
def tempRankings (s : State F) (me : Agent F) (owned : List Ref) : SKL (Key F) (Option Ref) :=
  let others := s.rank.vals.filter (fun e => match e with
    | none => false
    | some r => (s.heap r).owner ≠ me.id)
  let base := others.foldl (fun l e => match e with
    | none => l
    | some r => SKL.add (poolKey (s.heap r)) (some r) l) []
  owned.foldl (fun l r => SKL.add (poolKey (s.heap r)) (some r) l) base

/-- `calculate_operator_utility_from_strategy` (stakeholder_profiles.py:12-36 and stakeholder_profiles.py:104-113; abstract in stakeholder.py:24-27) -/
def operatorUtilityFromStrategy (s : State F) (me : Agent F) (σ : Strategy F) : Py F :=
  let pools := σ.owned.vals
  match me.profile with
  | .nonMyopic =>
    let temp := tempRankings s me pools
    accM (fun r => do
      let st ← nonMyopicStake s.rs s.totalStake s.heap temp r
      let p := s.heap r
      operatorUtility s.rs st p.pledge p.margin p.cost) pools 0
  | _ => accM (fun r =>
      let p := s.heap r
      operatorUtility s.rs p.stake p.pledge p.margin p.cost) pools 0

/-- `calculate_delegator_utility_from_pool` (stakeholder_profiles.py:38-53 and stakeholder_profiles.py:115-121; abstract in stakeholder.py:29-32);
`σ` is `self.strategy` -/
def delegatorUtilityFromPool (s : State F) (me : Agent F) (σ : Strategy F) (r : Ref) (alloc : F) : Py F := do
  let p := s.heap r
  let previous := match σ.allocs.get? p.id with
    | some x => x
    | none => 0
  let current := p.stake - previous + alloc
  match me.profile with
  | .nonMyopic =>
    let nm ← nonMyopicStake s.rs s.totalStake s.heap s.rank r
    delegatorUtility s.rs alloc (max nm current) p.pledge p.margin p.cost
  | _ => delegatorUtility s.rs alloc current p.pledge p.margin p.cost

/-- `calculate_current_utility` (stakeholder.py:86-100); `σ` is `self.strategy` -/
def currentUtility (s : State F) (σ : Strategy F) : Py F := do
  let u ← accM (fun r =>
    let p := s.heap r
    operatorUtility s.rs p.stake p.pledge p.margin p.cost) σ.owned.vals 0
  accM (fun (e : Nat × F) => do
    let r ← s.pools.getE e.1
    let p := s.heap r
    delegatorUtility s.rs e.2 p.stake p.pledge p.margin p.cost) σ.allocs u

/-- `calculate_expected_utility(strategy)` (stakeholder.py:102-115); `σ` is `self.strategy`, `τ` the argument -/
def expectedUtility (s : State F) (me : Agent F) (σ τ : Strategy F) : Py F := do
  let u ← (if τ.owned.length > 0 then (operatorUtilityFromStrategy s me τ).map (0 + ·) else .ok 0 : Py F)
  accM (fun (e : Ref × F) => delegatorUtilityFromPool s me σ e.1 e.2)
    (τ.allocs.filterMap (fun e => (s.pools.get? e.1).map (fun r => (r, e.2)))) u

/-! ### Delegation -/

/-- `self.rankings` (stakeholder_profiles.py:10, 102) as a list of entries -/
def rankingsOf (s : State F) (me : Agent F) : List (Option Ref) :=
  match me.profile with
  | .nonMyopic => s.rank.vals
  | _ => s.rankM.vals

/-- `pool_rankings_myopic.remove(pool); pool.update_delegation(x, a); pool_rankings_myopic.add(pool)` for
`pool = model.pools[pid]` (stakeholder.py:271-274, 299-302, 323-328, 330-335).  The test `pool is not None` (324, 331) is always
true: `model.pools` never holds `None`. -/
def setDelegation (s : State F) (pid : Nat) (x : F) (a : Nat) : Py (State F) := do
  let r ← s.pools.getE pid
  let l ← s.rankM.remove (poolKeyM s.rs (s.heap r)) (some r)
  let p := (s.heap r).updateDelegation x a
  return { s.setPool r p with rankM := l.add (poolKeyM s.rs p) (some r) }

/-- `for pool_id, x in ...: setDelegation` -/
def setDelegations (s : State F) (a : Nat) : List (Nat × F) → Py (State F)
  | [] => .ok s
  | (pid, x) :: t => do
    let s ← setDelegation s pid x a
    setDelegations s a t

/-- the loop of stakeholder.py:276-291: (remaining stake, best saturated pool, allocations) -/
def greedy (rs : RS F) (heap : Ref → Pool F) : List Ref → F → Option Ref → Dict F → F × Option Ref × Dict F
  | [], stake, best, allocs => (stake, best, allocs)
  | r :: t, stake, best, allocs =>
    let p := heap r
    let toSaturation := rs.sat p.pledge - p.stake
    if toSaturation < minUnit then
      greedy rs heap t stake (match best with
        | none => some r
        | some b => some b) allocs
    else
      let allocation := min stake toSaturation
      let stake' := stake - allocation
      let allocs' := allocs.set p.id allocation
      if stake' < minUnit then (stake', best, allocs')
      else greedy rs heap t stake' best allocs'

/-- stakeholder.py:276-295: the greedy loop and the use of the best saturated pool -/
def greedyAllocations (rs : RS F) (heap : Ref → Pool F) (eligible : List Ref) (stake : F) : Dict F :=
  let (rest, best, allocs) := greedy rs heap eligible stake none []
  match best with
  | some b => if rest ≥ minUnit then allocs.set (heap b).id rest else allocs
  | none => allocs

/-- `eligible_pools_ranked` (stakeholder.py:260-264) -/
def eligiblePools (s : State F) (me : Agent F) : List Ref :=
  (rankingsOf s me).filterMap (fun e => match e with
    | none => none
    | some r => if (s.heap r).owner ≠ me.id ∧ (s.heap r).isPrivate = false then some r else none)

/-- `determine_stake_allocations` (stakeholder.py:251-303); `none` is Python's `None` -/
def determineStakeAllocations (s : State F) (me : Agent F) (σ : Strategy F) (stake : F) : Py (State F × Option (Dict F)) := do
  let eligible := eligiblePools s me
  if eligible.length = 0 then return (s, none)
  let s ← setDelegations s me.id (σ.allocs.map (fun e => (e.1, 0)))
  let allocs := greedyAllocations s.rs s.heap eligible stake
  let s ← setDelegations s me.id σ.allocs
  return (s, some allocs)

/-- `find_delegation_move(stake_to_delegate)` (stakeholder.py:305-312) -/
def findDelegationMove (s : State F) (me : Agent F) (σ : Strategy F) (stake : F) : Py (State F × Strategy F) := do
  if stake < minUnit then return (s, { allocs := [], owned := [] })
  let (s, allocs) ← determineStakeAllocations s me σ stake
  return (s, { allocs := allocs.getD [], owned := [] })

/-! ### Operating pools -/

/-- `fixed_pools_ranked` (stakeholder_profiles.py:66-70, 137-141) -/
def fixedPools (s : State F) (me : Agent F) : List (Option Ref) :=
  (rankingsOf s me).filter (fun e => match e with
    | none => true
    | some r => (s.heap r).owner ≠ me.id)

/-- one iteration of the loop in `NonMyopicStakeholder.calculate_margins_and_utility`
(stakeholder_profiles.py:72-95): margin and utility of the `t`-th pool -/
def marginNM (s : State F) (me : Agent F) (pledge cost pp : F) (t : Nat) : Py (F × F) := do
  let target ← pyIndex (fixedPools s me) ((s.rs.k : Int) - (t : Int))
  let (td₀, tpp) : F × F := match target with
    | some r => ((s.heap r).des, (s.heap r).pp)
    | none => (0, 0)
  let td := td₀ + boost
  if pp < td then do
    let u ← operatorUtility s.rs pledge pledge 0 cost
    return (0, u)
  else do
    let m := suitableMargin pp (max td tpp)
    let u ← operatorUtility s.rs (s.rs.sat pledge) pledge m cost
    return (m, u)

/-- one iteration of the loop in `MyopicStakeholder.calculate_margins_and_utility` (stakeholder_profiles.py:143-164) -/
def marginM (s : State F) (me : Agent F) (pledge cost profit : F) (t : Nat) : Py (F × F) := do
  let target ← pyIndex (fixedPools s me) ((s.rs.k : Int) - (t : Int))
  let td₀ : F := match target with
    | some r => myopicDes s.rs (s.heap r)
    | none => 0
  let m := suitableMargin profit (td₀ + boost)
  let u ← operatorUtility s.rs (s.rs.sat pledge) pledge m cost
  return (m, u)

/-- the loops: collect the margins, add up the utilities -/
def loopMargins (f : Nat → Py (F × F)) : List Nat → List F → F → Py (List F × F)
  | [], ms, u => .ok (ms, u)
  | t :: ts, ms, u => do
    let (m, x) ← f t
    loopMargins f ts (ms ++ [m]) (u + x)

/-- `calculate_margins_and_utility(num_pools)` (stakeholder_profiles.py:55-96 and 123-165) -/
def marginsAndUtility (s : State F) (me : Agent F) (σ : Strategy F) (n : Nat) : Py (List F × F) := do
  let cost ← costPerPool n me.cost s.extraFrac
  let pledge ← pledgePerPool me.stake s.rs.beta n
  match me.profile with
  | .nonMyopic =>
    let pp := potentialProfit s.rs pledge cost
    loopMargins (marginNM s me pledge cost pp) (List.range' 1 n) [] 0
  | _ =>
    let owned := σ.owned.vals.foldl (fun acc r => acc + (s.heap r).stake) 0
    let total := max owned me.stake
    let expected := total / (n : F)
    let profit := currentProfit s.rs expected pledge cost
    loopMargins (marginM s me pledge cost profit) (List.range' 1 n) [] 0

/-- `calculate_margins_and_utility(num_pools=t)[1] > u` -/
def higher (f : Nat → Py (List F × F)) (t : Nat) (u : F) : Py Bool := (f t).map (fun res => decide (res.2 > u))

/-- the `while` loop of `choose_pool_strategy` (stakeholder.py:131-151) for an arbitrary
`calculate_margins_and_utility`; returns the number of pools and the margins -/
def searchPools (f : Nat → Py (List F × F)) : Nat → Nat → Nat → Py (Nat × List F)
  | 0, _, _ => .error .diverge
  | fuel + 1, tmin, tmax => do
    let t := (tmin + tmax) / 2
    let (margins, u) ← f t
    let goLeft ← (if t > tmin then higher f (t - 1) u else .ok false : Py Bool)
    if goLeft then searchPools f fuel tmin (t - 1)
    else do
      let goRight ← (if t < tmax then higher f (t + 1) u else .ok false : Py Bool)
      if goRight then searchPools f fuel (t + 1) tmax
      else return (t, margins)

/-- `calculate_margin(pool)` (stakeholder.py:161-175), used when no margin was precomputed for a pool -/
def calculateMargin (s : State F) (me : Agent F) (p : Pool F) : Py F :=
  if p.isPrivate then .ok 0
  else do
    let reference ← pyIndex (rankingsOf s me) ((s.rs.k : Int) - 1)
    let target : F := match reference with
      | some r => (s.heap r).pp
      | none => 0
    return suitableMargin p.pp target

/-- `margins[i] if len(margins) > i else self.calculate_margin(pool)` (stakeholder.py:223, 235) -/
def marginAt (s : State F) (me : Agent F) (margins : List F) (i : Nat) (p : Pool F) : Py F :=
  match margins[i]? with
  | some m => .ok m
  | none => calculateMargin s me p

/-- `(pool.desirability, pool.potential_profit, pool.stake, -pool_id)` (stakeholder.py:181) -/
abbrev KeepKey (F : Type) := F ×ₗ F ×ₗ F ×ₗ Int

/-- the tuple of stakeholder.py:181 -/
def keepKey (heap : Ref → Pool F) (e : Nat × Ref) : KeepKey F :=
  let p := heap e.2
  toLex (p.des, toLex (p.pp, toLex (p.stake, -(e.1 : Int))))

/-- the ids chosen by `heapq.nlargest` (stakeholder.py:181-183): the `n` largest tuples -/
def topPoolIds (heap : Ref → Pool F) (owned : Dict Ref) (n : Nat) : List Nat :=
  ((owned.insertionSort (fun a b => keepKey heap b ≤ keepKey heap a)).take n).map Prod.fst

/-- `{pid: deepcopy(pool)}` for the given entries, in order -/
def copyPools (s : State F) : List (Nat × Ref) → State F × Dict Ref
  | [] => (s, [])
  | (pid, r) :: t =>
    let s₁ := s.alloc (s.heap r)
    let (s₂, d) := copyPools s₁ t
    (s₂, (pid, s.next) :: d)

/-- `determine_pools_to_keep(num_pools_to_keep)` (stakeholder.py:177-188); the comprehension on line 183 builds a set, which is
iterated in order `ord` -/
def determinePoolsToKeep (ord : List Nat → List Nat) (s : State F) (σ : Strategy F) (n : Nat) : Py (State F × Dict Ref) :=
  if n < σ.owned.length then do
    let ids := ord (topPoolIds s.heap σ.owned n)
    let entries ← ids.mapM (fun pid => do
      let r ← σ.owned.getE pid
      return (pid, r))
    return copyPools s entries
  else .ok (copyPools s σ.owned)

/-- the pool object after stakeholder.py:218-222 -/
def reworkPool (rs : RS F) (pledge cost : F) (p : Pool F) : Pool F :=
  let p := { p with stake := p.stake - (p.pledge - pledge), pledge := pledge }
  let p := { p with isPrivate := decide (p.pledge ≥ rs.sat p.pledge), cost := cost }
  p.setProfit rs

/-- stakeholder.py:216-223: rework the copies of the existing pools (`i` is the loop index) -/
def reworkPools (me : Agent F) (pledge cost : F) (margins : List F) : State F → Nat → List (Nat × Ref) → Py (State F)
  | s, _, [] => .ok s
  | s, i, (_, r) :: t => do
    let p := reworkPool s.rs pledge cost (s.heap r)
    let m ← marginAt s me margins i p
    reworkPools me pledge cost margins (s.setPool r (p.setMargin m)) (i + 1) t

/-- stakeholder.py:226-236: draft `cnt` new pools (`i` is the loop index), with ids from `get_next_pool_id` (sim.py:198-200);
`rewind_pool_id_seq` (sim.py:202-203) is called by an unused method only -/
def draftPools (me : Agent F) (pledge cost : F) (margins : List F) :
    Nat → State F → Nat → Dict Ref → Py (State F × Dict Ref)
  | 0, s, _, owned => .ok (s, owned)
  | cnt + 1, s, i, owned => do
    let pid := s.idSeq + 1
    let s := { s with idSeq := pid }
    let p := Pool.create pid cost pledge me.id s.rs (decide (pledge ≥ s.rs.sat pledge))
    let m ← marginAt s me margins i p
    let r := s.next
    draftPools me pledge cost margins cnt (s.alloc (p.setMargin m)) (i + 1) (owned.set pid r)

/-- `find_operator_move` (stakeholder.py:212-249) -/
def findOperatorMove (s : State F) (me : Agent F) (σ : Strategy F) (n : Nat) (owned : Dict Ref) (margins : List F) :
    Py (State F × Strategy F) := do
  let pledge ← pledgePerPool me.stake s.rs.beta n
  let cost ← costPerPool n me.cost s.extraFrac
  let s ← reworkPools me pledge cost margins s 0 owned
  let (s, owned) ← draftPools me pledge cost margins (n - owned.length) s owned.length owned
  let remaining := me.stake - pledge * (n : F)
  if remaining > 0 then do
    let (s, d) ← findDelegationMove s me σ remaining
    return (s, { allocs := d.allocs, owned := owned })
  else return (s, { allocs := [], owned := owned })

/-- `choose_pool_strategy` (stakeholder.py:117-159).  The test `num_pools > 0` (154) is omitted: `calculate_cost_per_pool`
has already raised for 0 pools.  `math.floor((t_min + t_max) / 2)` is natural-number division (exact for k < 2^52). -/
def choosePoolStrategy (ord : List Nat → List Nat) (s : State F) (me : Agent F) (σ : Strategy F) :
    Py (State F × F × Strategy F) := do
  let (n, margins) ← searchPools (marginsAndUtility s me σ) (s.rs.k + 1) 1 s.rs.k
  let (s, copies) ← determinePoolsToKeep ord s σ n
  let (s, τ) ← findOperatorMove s me σ n copies margins
  let u ← expectedUtility s me σ τ
  return (s, u, τ)

/-! ### Choosing a move -/

/-- the outcome of `max(possible_moves, ...)` (stakeholder.py:77) -/
inductive Move where
  | current | delegator | operator
  deriving DecidableEq, Repr

/-- `max` over the dictionary in insertion order: the first maximal element wins (stakeholder.py:74-78) -/
def pickMove (current delegator operator : F) : Move :=
  let (m, best) : Move × F := if delegator > current then (.delegator, delegator) else (.current, current)
  if operator > best then .operator else m

/-- `augmented_current_move_utility` (stakeholder.py:56-61) -/
def augmented (relThr absThr cur exp : F) : F :=
  max (max (max ((1 + relThr) * cur) (cur + absThr)) ((1 + relThr) * exp)) (exp + absThr)

/-- `update_strategy` (stakeholder.py:53-78) of an agent with a strategy; returns the new value of `self.new_strategy` -/
def planMove (ord : List Nat → List Nat) (s : State F) (me : Agent F) (σ : Strategy F) :
    Py (State F × Option (Strategy F)) := do
  let cur ← currentUtility s σ
  let exp ← expectedUtility s me σ σ
  let aug := augmented s.relThr s.absThr cur exp
  let (s, δ) ← findDelegationMove s me σ me.stake
  let du ← expectedUtility s me σ δ
  let (s, ou, ω) ← choosePoolStrategy ord s me σ
  return (s, match pickMove aug du ou with
    | .current => none
    | .delegator => some δ
    | .operator => some ω)

/-- `update_strategy` (stakeholder.py:53-78; for an `Abstainer` a no-op, stakeholder_profiles.py:173-174) -/
def updateStrategy (ord : List Nat → List Nat) (s : State F) (aid : Nat) : Py (State F) := do
  let me ← s.agents.getE aid
  match me.profile with
  | .abstainer => return s
  | _ =>
    match me.strategy with
    | none => .error .attr
    | some σ => do
      let (s, ν) ← planMove ord s me σ
      return s.setAgent { me with newStrategy := ν }

end RSE
