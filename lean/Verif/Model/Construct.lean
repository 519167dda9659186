import Verif.Model.Export
import Verif.Model.Distr
import Verif.Model.Cli
import Verif.Model.Order

/-!
# logic/sim.py:20-176: the constructor from its arguments to the first state, and a whole run

The inflation of `k` needs truncation (`PyInt`); whole numbers are converted to floats exactly up to `2^53`.  Random draws are arguments.  Not modelled: names and
directories of output files (`Model/Files.lean`), `generate_graphs` (a list of values for it would add phases; the command line takes none), `input_from_file` (the arguments are then those of the file), the texts of stake source and
activation order (argparse restricts both to the known ones, helper.py:563-574), missing files.
-/

namespace RSE

/-- an argument that may be a list of per-phase values (sim.py:82-89) -/
inductive Multi (α : Type) where
  | one (x : α)
  | many (l : List α)

/-- the value assigned by the constructor: `value[0]` for a list (sim.py:83-89) -/
def Multi.first {α : Type} : Multi α → Py α
  | .one x => .ok x
  | .many [] => .error .index
  | .many (x :: _) => .ok x

/-- `len(value)` for a list (sim.py:87) -/
def Multi.phases {α : Type} : Multi α → Nat
  | .one _ => 1
  | .many l => l.length

/-- the value that `change_phase` assigns in phase `p`, if any (sim.py:418-424) -/
def Multi.later {α : Type} (m : Multi α) (p : Nat) : Option α :=
  match m with
  | .one _ => none
  | .many l => l[p]?

/-- `agent_activation_order` -/
inductive Order where
  | random | sequential | simultaneous | semisimultaneous
  deriving DecidableEq

/-- `"simultaneous" in order` (stakeholder.py:41) -/
def Order.isSimultaneous : Order → Bool
  | .random => false
  | .sequential => false
  | .simultaneous => true
  | .semisimultaneous => true

/-- the arguments of `Simulation` -/
structure Args (K : Type) where
  n : Multi Nat
  k : Multi Nat
  a0 : Multi K
  relThr : Multi K
  absThr : Multi K
  maxIter : Multi Int
  extraFrac : Multi K
  order : Multi Order
  scheme : Nat
  /-- `agent_profile_distr`; `none` if not given -/
  weights : Option (List K)
  inactive : K
  known : Bool
  costMin : K
  costMax : K
  source : StakeSource
  metrics : Option (List Nat)
  conv : Int

/-- what is drawn at random while a simulation is constructed, and the file with stakes -/
structure Draws (K : Type) where
  /-- `rng.pareto(a)` -/
  pareto : Nat → K
  /-- the values in the file with stakes -/
  file : List K
  /-- the index that `rng.choice` draws for each agent -/
  choice : Nat → Nat
  /-- the draws from `[0, 1)` for the costs -/
  cost : Nat → K
  /-- the draws from `[0, 1)` for the profiles -/
  profile : Nat → K

variable {F : Type} [LinearOrder F] [Zero F] [One F] [Add F] [Sub F] [Mul F] [Div F] [Neg F] [NatCast F] [FSum F]

/-- `read_stake_distr_from_file` (helper.py:26-50); `rng.choice` of an empty list raises `ValueError` -/
def stakesFile (n : Nat) (file : List F) (choice : Nat → Nat) : Py (List F) :=
  if n = file.length then .ok file
  else if file.length = 0 then .error .value
  else .ok ((List.range n).map (fun i => file.getD (choice i % file.length) 0))

/-- the stakes before normalisation (sim.py:149-160) -/
def rawStakes (source : StakeSource) (n : Nat) (d : Draws F) : Py (List F) :=
  match source with
  | .file => stakesFile n d.file d.choice
  | .pareto => stakesPareto n (-1) d.pareto 0
  | .flat => .ok (stakesFlat n)
  | .disparity => stakesDisparity n (((3 : Nat) : F) / ((10 : Nat) : F)) 3

/-- `accumulate(weights)` -/
def accumulate : F → List F → List F
  | _, [] => []
  | acc, w :: t => (acc + w) :: accumulate (acc + w) t

/-- `bisect.bisect(cum, x, 0, len(cum) - 1)` for a non-decreasing list: how many of all entries but the last are at most `x` (from the left) -/
def bisectIndex (cum : List F) (x : F) : Nat := (cum.dropLast.takeWhile (fun c => decide (c ≤ x))).length

/-- `random.choices(population, weights=weights, k=n)` from Python's library, as indices into a population of `size` elements; `u` are the values of
`random()` -/
def choices (size : Nat) (weights : List F) (n : Nat) (u : Nat → F) : Py (List Nat) :=
  let cum := accumulate 0 weights
  if cum.length ≠ size then .error .value
  else match cum.getLast? with
    | none => .error .index
    | some total => if total ≤ 0 then .error .value else .ok ((List.range n).map (fun i => bisectIndex cum (u i * total)))

/-- `PROFILE_MAPPING` (stakeholder_profiles.py:177-181) -/
def profileOf : Nat → Py Profile
  | 0 => .ok .nonMyopic
  | 1 => .ok .myopic
  | 2 => .ok .abstainer
  | _ => .error .key

/-- which scheme a key of `RSS_MAPPING` stands for (reward_schemes.py:119-125) -/
def schemeOf (i : Nat) : Scheme :=
  match i with
  | 0 => .cardano
  | 1 => .simplified
  | 2 => .flat
  | _ => .cip50

/-- The stakes of the agents and `total_stake` (sim.py:114-127, 160, 168-175).  `stake_distribution[i]` raises `IndexError` if there are too few values; if there
are too many the agents hold the first `n`, but the sum is that of all (`generate_stake_distr_disparity` for `n < 3`).  For as many values as agents
this is `initialStakes`. -/
def shareOut (stakes : List F) (n : Nat) (inactive : F) : Py (List F × F) :=
  if stakes.length < n then .error .index
  else do
    let total ← pyDiv (stakes.foldl (· + ·) 0) (1 - inactive)
    if total ≤ 0 then .error .value
    else if total = 1 then .ok (stakes.take n, total)
    else .ok (normalizeStakes (stakes.take n) total)

/-- what the constructor leaves behind -/
structure Built (K : Type) where
  config : Config K
  /-- `self.n` -/
  n : Nat
  order : Order
  maxIter : Int
  totalPhases : Nat
  /-- columns of the data collector -/
  cols : List String
  /-- what initial-state-descriptors.json says -/
  desc : InitDesc K

/-- the number of phases (sim.py:66, 82-91) -/
def Args.totalPhases (a : Args F) : Nat :=
  max a.n.phases (max a.k.phases (max a.a0.phases (max a.relThr.phases (max a.absThr.phases (max a.maxIter.phases
    (max a.extraFrac.phases (max a.order.phases 1)))))))

/-- `Simulation.__init__` (sim.py:28-146, 148-176), in the order in which exceptions can occur -/
def construct [PyInt F] (a : Args F) (d : Draws F) : Py (Built F) := do
  let metrics := a.metrics.getD defaultMetrics
  let weights := a.weights.getD [1, 0, 0]
  let sch ← makeScheme a.scheme
  let n ← a.n.first
  let k ← a.k.first
  let rs ← (⟨schemeOf sch, 0, 0, 0⟩ : RS F).setKValue (k : F)
  let a0 ← a.a0.first
  let rs := { rs with a0 := a0 }
  let rel ← a.relThr.first
  let abs ← a.absThr.first
  let maxIter ← a.maxIter.first
  let extra ← a.extraFrac.first
  let order ← a.order.first
  let rs ← if a.known then rs.inflate a.inactive else .ok rs
  let stakes ← rawStakes a.source n d
  let costs ← costsUniform n a.costMin a.costMax d.cost
  let idx ← choices 3 weights n d.profile
  let profiles ← idx.mapM profileOf
  let (new, total) ← shareOut stakes n a.inactive
  let config : Config F :=
    { rs := rs, relThr := rel, absThr := abs, extraFrac := extra, simultaneous := order.isSimultaneous,
      people := new.zip (costs.zip profiles), totalStake := total }
  let desc ← initDesc (initState config)
  let cols ← columns metrics
  return { config := config, n := n, order := order, maxIter := maxIter, totalPhases := a.totalPhases, cols := cols, desc := desc }

/-! ### A run -/

/-- the values that the lists hold for phase `p` -/
def Args.phase (a : Args F) (p : Nat) : PhaseParams F :=
  { k := a.k.later p, a0 := a.a0.later p, relThr := a.relThr.later p, absThr := a.absThr.later p, extraFrac := a.extraFrac.later p }

/-- what is resolved at random in the rounds -/
structure Turns where
  /-- the order of the agents in a round with random activation (a permutation) -/
  shuffle : Nat → List Nat → List Nat
  /-- `random.sample` in a round with semi-simultaneous activation -/
  sample : Nat → List Nat → Nat → List Nat
  /-- iteration orders of sets -/
  ords : Nat → Nat → Nat → List Nat → List Nat

/-- `self.schedule.step()` (sim.py:98-105; mesa's schedulers; activations.py) in round `i` -/
def Order.round (o : Order) (n : Nat) (t : Turns) (i : Nat) (s : State F) : Py (State F) :=
  match o with
  | .sequential => roundSequential (t.ords i 0) (List.range n) s
  | .random => roundSequential (t.ords i 0) (t.shuffle i (List.range n)) s
  | .simultaneous => roundSimultaneous (t.ords i 0) (List.range n) s
  | .semisimultaneous => roundSemi 5 (t.sample i) (t.ords i) (List.range n) s

/-- The simulation as an environment of the loop of `Model/Loop.lean`.  The world is `schedule.steps` (a metric reports it), `self.n` (another one uses it)
and the state. -/
def runEnv (a : Args F) (b : Built F) (solver : State F → F) (t : Turns) : Env (Nat × Nat × State F) (List (MetricValue F)) :=
  { round := fun i w => do
      let s ← b.order.round w.2.2.agents.length t i w.2.2
      return (i + 1, w.2.1, s)
    idle := fun w => w.2.2.idle
    rearm := fun w => (w.1, w.2.1, { w.2.2 with idle := true })
    resetIds := fun w => (w.1, w.2.1, { w.2.2 with idSeq := 0 })
    report := fun w => collectRow ⟨w.2.1, w.1, solver⟩ b.cols w.2.2
    conv := a.conv
    totalPhases := b.totalPhases
    newPhase := fun p w => do
      let s ← changePhase w.2.2 (a.phase p)
      return (w.1, (a.n.later p).getD w.2.1, (match a.order.later p with
        | some o => setOrder s o.isSimultaneous
        | none => s))
    newMax := fun p => a.maxIter.later p }

/-- main.py:14-52: construct a simulation and run it; the loop is entered at most `fuel` times -/
def simulate [PyInt F] (a : Args F) (d : Draws F) (solver : State F → F) (t : Turns) (fuel : Nat) :
    Py (Loop (Nat × Nat × State F) (List (MetricValue F))) := do
  let b ← construct a d
  Loop.runModel (runEnv a b solver t) fuel (Loop.init (0, b.n, initState b.config) b.maxIter)

end RSE
