import Verif.Model.Reporters

/-!
# logic/model_reporters.py:384-453, logic/sim.py:139-142, 214: the table of metrics and one row of the data collector
-/

namespace RSE

variable {F : Type} [LinearOrder F] [Zero F] [One F] [Add F] [Sub F] [Mul F] [Div F] [Neg F] [NatCast F] [FSum F]

/-- what `get_stakes_n_margins` returns -/
structure StakePairs (F : Type) where
  x : List F
  y : List F
  r : List F
  poolId : List Nat
  ownerId : List Nat
  deriving DecidableEq

/-- `get_stakes_n_margins` (model_reporters.py:77-86) -/
def stakePairs (s : State F) : Py (StakePairs F) := do
  let x ← (poolsList s).mapM (fun p => do
    let ag ← s.agents.getE p.owner
    return ag.stake)
  return { x := x, y := (poolsList s).map (fun p => p.stake), r := (poolsList s).map (fun p => p.margin),
           poolId := (poolsList s).map (fun p => p.id), ownerId := (poolsList s).map (fun p => p.owner) }

/-- the value of a metric -/
inductive MetricValue (F : Type) where
  | nat (n : Nat)
  | int (i : Int)
  | num (x : F)
  | nums (l : List F)
  | dict (d : Dict F)
  | pairs (p : StakePairs F)

/-- what metrics read besides the state: `model.n`, `model.schedule.steps`, and the mixed-integer solver of `get_min_aggregate_pledge`
(model_reporters.py:163-195; failures of the solver are caught there, so it always returns a number) -/
structure MetricEnv (F : Type) where
  n : Nat
  steps : Nat
  solver : State F → F

/-- `ALL_MODEL_REPORTEERS` (model_reporters.py:385-418) -/
def allReporters (env : MetricEnv F) (s : State F) : List (String × Py (MetricValue F)) :=
  [("Pool count", .ok (.nat (poolCount s))),
   ("Total pledge", .ok (.num (totalPledge s))),
   ("Mean pledge", (avgPledge s).map .num),
   ("Median pledge", (medianPledge s).map .num),
   ("Average pools per operator", (avgPoolsPerOperator s).map .num),
   ("Max pools per operator", (maxPoolsPerOperator s).map .nat),
   ("Median pools per operator", (medianPoolsPerOperator s).map .num),
   ("Average saturation rate", (avgSatRate s).map .num),
   ("Nakamoto coefficient", (nakamoto s).map .nat),
   ("Statistical distance", (statDistance s).map .num),
   ("Min-aggregate pledge", .ok (.num (env.solver s))),
   ("Pledge rate", (pledgeRate s).map .num),
   ("Pool homogeneity factor", (homogeneityFactor s).map .num),
   ("Iterations", .ok (.nat env.steps)),
   ("Mean stake rank", (avgStakeRank s).map .int),
   ("Mean cost rank", (avgCostRank s).map .int),
   ("Median stake rank", (medianStakeRank s).map .int),
   ("Median cost rank", (medianCostRank s).map .int),
   ("Number of pool splitters", .ok (.nat (splitterCount s))),
   ("Cost efficient stakeholders", .ok (.nat (costEfficientCount s))),
   ("Gini-id", (giniPoolCount s).map .num),
   ("Gini-id stake", (giniStake s).map .num),
   ("Gini-id (k)", (giniPoolCountK s).map .num),
   ("Gini-id stake (k)", (giniStakeK s).map .num),
   ("Mean margin", (avgMargin s).map .num),
   ("Median margin", (medianMargin s).map .num),
   ("Stake per agent", (stakesByAgent env.n s).map .nums),
   ("Stake per agent id", (stakesByAgentId env.n s).map .dict),
   ("StakePairs", (stakePairs s).map .pairs),
   ("Total delegated stake", .ok (.num (totalDelegatedStake s))),
   ("Total agent stake", .ok (.num (totalAgentStake s))),
   ("Operator count", .ok (.nat (operatorCount s)))]

/-- `REPORTER_IDS` (model_reporters.py:420-452) -/
def reporterIds : List (Nat × String) :=
  [(1, "Pool count"), (2, "Total pledge"), (3, "Mean pledge"), (4, "Median pledge"), (5, "Average pools per operator"),
   (6, "Max pools per operator"), (7, "Median pools per operator"), (8, "Average saturation rate"), (9, "Nakamoto coefficient"),
   (10, "Statistical distance"), (11, "Min-aggregate pledge"), (12, "Pledge rate"), (13, "Pool homogeneity factor"), (14, "Iterations"),
   (15, "Mean stake rank"), (16, "Mean cost rank"), (17, "Median stake rank"), (18, "Median cost rank"), (19, "Number of pool splitters"),
   (20, "Cost efficient stakeholders"), (21, "StakePairs"), (22, "Gini-id"), (23, "Gini-id stake"), (24, "Mean margin"), (25, "Median margin"),
   (26, "Stake per agent"), (27, "Stake per agent id"), (28, "Total delegated stake"), (29, "Total agent stake"), (30, "Operator count")]

/-- `REPORTER_IDS[i]` -/
def reporterName (i : Nat) : Py String :=
  match reporterIds.lookup i with
  | some name => .ok name
  | none => .error .key

/-- `args['metrics']` when no metrics are given (sim.py:37-38) -/
def defaultMetrics : List Nat := [1, 2, 6, 9, 17, 18, 25]

/-- the columns of the data collector (sim.py:139-142): the keys of a dict comprehension, i.e. the names in order of first occurrence -/
def columns (metrics : List Nat) : Py (List String) := do
  let names ← metrics.mapM reporterName
  return names.eraseDups

/-- one entry of a row: `ALL_MODEL_REPORTEERS[name](model)` -/
def reportColumn (env : MetricEnv F) (s : State F) (name : String) : Py (MetricValue F) :=
  match (allReporters env s).lookup name with
  | some v => v
  | none => .error .key

/-- `self.datacollector.collect(self)` (sim.py:214): the metrics are computed in the order of the columns -/
def collectRow (env : MetricEnv F) (cols : List String) (s : State F) : Py (List (MetricValue F)) := cols.mapM (reportColumn env s)

end RSE
