import Verif.Model.Init

/-!
# logic/sim.py: the loop around the rounds; custom_batchrunner.py: running one simulation of a batch

The loop is written over an arbitrary world `W`, so that what is proved about it holds for every behaviour of the agents; `simEnv` is the
instance for the simulation of `Model/Sim.lean`.
-/

namespace RSE

/-- What `Simulation.step` needs from the rest of the simulation. -/
structure Env (W R : Type) where
  /-- `self.schedule.step()` in the round with the given number (all random choices of that round resolved); Mesa also increments
  `schedule.steps`, see `Loop.step` -/
  round : Nat → W → Py W
  /-- `self.current_step_idle` -/
  idle : W → Bool
  /-- `self.current_step_idle = True` (sim.py:232) -/
  rearm : W → W
  /-- `self.initialize_pool_id_seq()` (sim.py:195-196) -/
  resetIds : W → W
  /-- one row of the data collector (all metrics) -/
  report : W → Py R
  /-- `self.iterations_after_convergence` -/
  conv : Int
  /-- `self.total_phases` -/
  totalPhases : Nat
  /-- `change_phase`, the part that concerns pools and parameters, for the phase with the given number (sim.py:415-429) -/
  newPhase : Nat → W → Py W
  /-- the value of `max_iterations` listed for a phase, if there is one (sim.py:418-424) -/
  newMax : Nat → Option Int

/-- the attributes of a `Simulation` that `step` and `run_model` read and write -/
structure Loop (W R : Type) where
  world : W
  /-- `self.schedule.steps` -/
  steps : Nat
  maxIter : Int
  /-- `self.consecutive_idle_steps` -/
  idleCount : Nat
  /-- `self.current_phase` -/
  phase : Nat
  eqSteps : List Int
  pivots : List Nat
  /-- what the data collector has collected -/
  rows : List R
  running : Bool
  /-- one entry per call of `wrap_up_execution`: whether "Equilibrium reached" was exported as "Yes" (sim.py:434-440, 323-325) -/
  exports : List Bool

namespace Loop
variable {W R : Type}

/-- at the end of the constructor (sim.py:57, 130-146; `schedule.steps` is 0 in a new Mesa scheduler) -/
def init (w : W) (maxIter : Int) : Loop W R :=
  { world := w, steps := 0, maxIter := maxIter, idleCount := 0, phase := 0, eqSteps := [], pivots := [], rows := [], running := true,
    exports := [] }

/-- `has_converged` (sim.py:244-249) -/
def hasConverged (env : Env W R) (l : Loop W R) : Bool := decide (env.conv ≤ (l.idleCount : Int))

/-- `wrap_up_execution` (sim.py:433-443).  The files themselves are not modelled. -/
def wrapUp (env : Env W R) (l : Loop W R) : Loop W R :=
  { l with running := false, exports := l.exports ++ [l.hasConverged env] }

/-- `change_phase` (sim.py:412-431).  `change_occured` is always true: it is called only if some list of values is longer than the number of
the new phase. -/
def changePhase (env : Env W R) (l : Loop W R) : Py (Loop W R) := do
  let w ← env.newPhase (l.phase + 1) l.world
  return { l with
    phase := l.phase + 1
    world := w
    maxIter := (env.newMax (l.phase + 1)).getD l.maxIter
    pivots := l.pivots ++ [l.steps] }

/-- `step` (sim.py:205-232) -/
def step (env : Env W R) (l : Loop W R) : Py (Loop W R) := do
  let row ← env.report l.world
  let l := { l with rows := l.rows ++ [row] }
  if l.maxIter ≤ (l.steps : Int) then return l.wrapUp env
  else
    let w ← env.round l.steps l.world
    let current := l.steps
    let l := { l with world := w, steps := l.steps + 1 }
    if env.idle l.world then
      let l := { l with idleCount := l.idleCount + 1 }
      if l.hasConverged env then
        let l := { l with eqSteps := l.eqSteps ++ [(current : Int) - env.conv] }
        if l.phase < env.totalPhases - 1 then
          let l ← l.changePhase env
          return { l with world := env.rearm l.world }
        else return l.wrapUp env
      else return { l with world := env.rearm l.world }
    else
      return { l with idleCount := 0, world := env.rearm l.world }

/-- the loop of `run_model` (sim.py:241-242) with a bound on the number of calls of `step`; running out of it is reported as `diverge` -/
def loop (env : Env W R) : Nat → Loop W R → Py (Loop W R)
  | fuel, l =>
    if decide ((l.steps : Int) ≤ l.maxIter) && l.running then
      match fuel with
      | 0 => .error .diverge
      | fuel + 1 => do
        let l ← l.step env
        loop env fuel l
    else .ok l

/-- `run_model` (sim.py:234-242); `start_time` is not modelled -/
def runModel (env : Env W R) (fuel : Nat) (l : Loop W R) : Py (Loop W R) := loop env fuel { l with world := env.resetIds l.world }

/-! ### custom_batchrunner.py -/

/-- the loop of `_model_run_func` (custom_batchrunner.py:171-172) -/
def batchLoop (env : Env W R) (maxSteps : Int) : Nat → Loop W R → Py (Loop W R)
  | fuel, l =>
    if l.running && decide ((l.steps : Int) ≤ maxSteps) then
      match fuel with
      | 0 => .error .diverge
      | fuel + 1 => do
        let l ← l.step env
        batchLoop env maxSteps fuel l
    else .ok l

/-- `list(range(0, n, p))` for `p > 0` -/
def rangeBy (n p : Nat) : List Nat := (List.range ((n + p - 1) / p)).map (· * p)

/-- custom_batchrunner.py:176-178: the steps of which the batch runner collects data (`period = 0` raises `ValueError`; for a negative
period the range is empty) -/
def sampledSteps (n : Nat) (period : Int) : Py (List Int) :=
  if period = 0 then .error .value
  else
    let l : List Int := if 0 < period then (rangeBy n period.toNat).map (fun i : Nat => (i : Int)) else []
    if l.getLast? = some ((n : Int) - 1) then .ok l else .ok (l ++ [(n : Int) - 1])

/-- Python's `values[i]`, with negative indices -/
def pyIndex (l : List R) (i : Int) : Py R :=
  let j := if i < 0 then i + l.length else i
  if j < 0 then .error .index
  else match l[j.toNat]? with
    | some x => .ok x
    | none => .error .index

/-- `_model_run_func` (custom_batchrunner.py:170-202) and `_collect_data` (custom_batchrunner.py:214-228, the part about the model): the final state of the run, the (step, row) pairs returned, and the
rows appended to the aggregate file (those of the last step) -/
def batchRun (env : Env W R) (maxSteps period : Int) (fuel : Nat) (l : Loop W R) :
    Py (Loop W R × List (Int × R) × List R) := do
  let l ← batchLoop env maxSteps fuel l
  let steps ← sampledSteps l.steps period
  let data ← steps.mapM (fun i => do
    let r ← pyIndex l.rows i
    return (i, r))
  return (l, data, (data.filter (fun d => decide (d.1 = (l.steps : Int) - 1))).map Prod.snd)

end Loop

variable {F : Type} [LinearOrder F] [Zero F] [One F] [Add F] [Sub F] [Mul F] [Div F] [Neg F] [NatCast F] [FSum F]

/-- The simulation as an environment of the loop: `round i` is any way of running a round, `report` any metrics, `phases` the values listed
for the phases. -/
def simEnv {R : Type} (round : Nat → State F → Py (State F)) (report : State F → Py R) (conv : Int) (totalPhases : Nat)
    (phases : Nat → PhaseParams F) (newMax : Nat → Option Int) : Env (State F) R :=
  { round := round, idle := fun s => s.idle, rearm := fun s => { s with idle := true }, resetIds := fun s => { s with idSeq := 0 },
    report := report, conv := conv, totalPhases := totalPhases, newPhase := fun i s => RSE.changePhase s (phases i), newMax := newMax }

end RSE
