import Verif.Model.Table

/-!
# logic/sim.py:256-346, 433-443: what a simulation writes when it begins and when it ends

A file is the list of its rows.  `round(x, 15)` and `round(x, 4)` are arguments (`rnd`, `rnd4`), any functions of a number.
-/

namespace RSE

variable {F : Type} [LinearOrder F] [Zero F] [One F] [Add F] [Sub F] [Mul F] [Div F] [Neg F] [NatCast F] [FSum F]

/-- the column "Status" -/
inductive Status where
  | abstainer | operator | delegator
  deriving DecidableEq

/-- a row of final-state-stakeholders -/
structure AgentRow (F : Type) where
  id : Nat
  stake : F
  cost : F
  profit : F
  status : Status
  pools : Nat
  poolStake : F
  splitting : F
  splitter : Bool
  deriving DecidableEq

/-- a row of `export_agents_file` (sim.py:280-295) -/
def agentRow (rnd : F → F) (s : State F) (a : Nat) : Py (AgentRow F) := do
  let ag ← s.agents.getE a
  let sp := splittingProfit s.rs.a0 s.extraFrac ag.cost ag.stake
  return {
    id := a, stake := rnd ag.stake, cost := rnd ag.cost, profit := rnd (potentialProfit s.rs ag.stake ag.cost),
    status := (match ag.strategy with
      | none => .abstainer
      | some σ => if σ.owned.length > 0 then .operator else .delegator),
    pools := (match ag.strategy with
      | none => 0
      | some σ => σ.owned.length),
    poolStake := (match ag.strategy with
      | none => 0
      | some σ => (σ.owned.vals.map (fun r => (s.heap r).stake)).foldl (· + ·) 0),
    splitting := sp, splitter := decide (sp > 0) }

/-- `export_agents_file` (sim.py:274-300), without the header: `range(len(agents))` -/
def agentsFile (rnd : F → F) (s : State F) : Py (List (AgentRow F)) := (List.range s.agents.length).mapM (agentRow rnd s)

/-- a row of final-state-pools -/
structure PoolRow (F : Type) where
  id : Nat
  owner : Nat
  ownerStake : F
  pledge : F
  stake : F
  ownerCost : F
  cost : F
  margin : F
  pp : F
  des : F
  deriving DecidableEq

/-- `export_pools_file` (sim.py:301-314), without the header -/
def poolsFile (rnd : F → F) (s : State F) : Py (List (PoolRow F)) :=
  (poolsList s).mapM (fun p => do
    let ag ← s.agents.getE p.owner
    return { id := p.id, owner := p.owner, ownerStake := rnd ag.stake, pledge := rnd p.pledge, stake := rnd p.stake, ownerCost := rnd ag.cost,
             cost := rnd p.cost, margin := rnd p.margin, pp := p.pp, des := p.des })

/-- final-state-descriptors.json -/
structure FinalDesc (F : Type) where
  equilibrium : Bool
  pools : Nat
  operators : Nat
  nakamoto : Nat
  pledge : F
  deriving DecidableEq

/-- `export_final_state_desc_file` (sim.py:322-332); `converged` is `self.has_converged()` -/
def finalDesc (rnd4 : F → F) (converged : Bool) (s : State F) : Py (FinalDesc F) := do
  let nc ← nakamoto s
  return { equilibrium := converged, pools := poolCount s, operators := operatorCount s, nakamoto := nc, pledge := rnd4 (totalPledge s) }

/-- the numbers in the row for the experiment tracker (sim.py:334-346): pools, operators, Nakamoto coefficient -/
def trackerRow (s : State F) : Py (Nat × Nat × Nat) := do
  let nc ← nakamoto s
  return (poolCount s, operatorCount s, nc)

/-- everything that `wrap_up_execution` (sim.py:433-443) computes from the state, in this order -/
structure Outputs (F : Type) where
  pools : List (PoolRow F)
  agents : List (AgentRow F)
  final : FinalDesc F
  tracker : Nat × Nat × Nat

/-- `wrap_up_execution` (sim.py:433-443); the graphs and the pickled object are not modelled -/
def wrapUp (rnd rnd4 : F → F) (converged : Bool) (s : State F) : Py (Outputs F) := do
  let pools ← poolsFile rnd s
  let agents ← agentsFile rnd s
  let final ← finalDesc rnd4 converged s
  let tracker ← trackerRow s
  return { pools := pools, agents := agents, final := final, tracker := tracker }

/-- initial-state-descriptors.json, without the seed (which is in `Model/Cli.lean`) -/
structure InitDesc (F : Type) where
  active : F
  max : F
  min : F
  mean : F
  median : F
  /-- the square of the "Standard deviation of stake" -/
  variance : F
  nakamoto : Nat
  efficient : Nat
  deriving DecidableEq

/-- `np.array.max`, raises `ValueError` without values -/
def npMax : List F → Py F
  | [] => .error .value
  | x :: t => .ok (t.foldl Max.max x)

/-- `np.array.min` -/
def npMin : List F → Py F
  | [] => .error .value
  | x :: t => .ok (t.foldl Min.min x)

/-- the square of `np.array.std`: the mean of the squared distances from the mean -/
def npVariance (l : List F) : Py F := do
  let m ← meanOf l
  meanOf (l.map (fun x => (x - m) * (x - m)))

/-- `get_stake_distr_stats` (model_reporters.py:375-378), `export_initial_state_desc_file` (sim.py:256-272): the simulation has no attribute `pools` yet -/
def initDesc (s : State F) : Py (InitDesc F) := do
  let stakes := (agentsList s).map (fun a => a.stake)
  let mx ← npMax stakes
  let mn ← npMin stakes
  let mean ← meanOf stakes
  let med ← medianOf stakes
  let var ← npVariance stakes
  let nc ← nakamotoInitial s
  return { active := totalAgentStake s, max := mx, min := mn, mean := mean, median := med, variance := var, nakamoto := nc,
           efficient := costEfficientCount s }

end RSE
