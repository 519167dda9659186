import Verif.Model.CommandLine
import Verif.Model.Construct

/-!
# main.py as a whole: from the command line to the end of the run

The arguments of the constructor are turned into those of `Model/Construct.lean`, whose numbers are exact.  This is done only if they are usable: `None`, infinities and nan are not
(what the constructor does with them is not modelled here).  The random draws of an execution are those of `Draws` and `Turns`.
-/

namespace RSE.Cmd

/-- a finite number -/
def number : Atom → Option ℚ
  | .int i => some i
  | .float (.fin q) => some q
  | _ => none

def natural : Atom → Option Nat
  | .int i => if 0 ≤ i then some i.toNat else none
  | _ => none

def integer : Atom → Option Int
  | .int i => some i
  | _ => none

def truth : Atom → Option Bool
  | .bool b => some b
  | _ => none

/-- the keys of `agent_activation_orders` (sim.py:98-104) -/
def orderNamed : Atom → Option Order
  | .str t =>
    if t = "random".toList then some .random
    else if t = "sequential".toList then some .sequential
    else if t = "simultaneous".toList then some .simultaneous
    else if t = "semisimultaneous".toList then some .semisimultaneous
    else none
  | _ => none

/-- sim.py:117, 149-159 -/
def sourceNamed : Atom → Option StakeSource
  | .str t =>
    if t.map Char.toLower = "file".toList then some .file
    else if t.map Char.toLower = "pareto".toList then some .pareto
    else if t.map Char.toLower = "flat".toList then some .flat
    else if t.map Char.toLower = "disparity".toList then some .disparity
    else none
  | _ => none

variable {α : Type}

/-- an argument that is no list -/
def onlyOne (f : Atom → Option α) : Value → Option α
  | .one a => f a
  | _ => none

/-- an argument that may be a list with a value for each phase (sim.py:82-89) -/
def perPhase (f : Atom → Option α) : Value → Option (Multi α)
  | .one a => (f a).map .one
  | .list l => (l.mapM f).map .many
  | .tuple _ => none

/-- an argument that is a list -/
def aList (f : Atom → Option α) : Value → Option (List α)
  | .list l => l.mapM f
  | _ => none

/-- `args[name]` -/
def argument (d : ArgDict PyFloat) (name : String) (f : Value → Option α) : Option α :=
  match d.get name with
  | .ok v => f v
  | .error _ => none

/-- the arguments that the constructor works with (sim.py:68-91, 93, 115-118, 133, 138-141) -/
def argsOf (d : ArgDict PyFloat) : Option (Args ℚ) := do
  let n ← argument d "n" (perPhase natural)
  let k ← argument d "k" (perPhase natural)
  let a0 ← argument d "a0" (perPhase number)
  let relThr ← argument d "relative_utility_threshold" (perPhase number)
  let absThr ← argument d "absolute_utility_threshold" (perPhase number)
  let maxIter ← argument d "max_iterations" (perPhase integer)
  let extraFrac ← argument d "extra_pool_cost_fraction" (perPhase number)
  let order ← argument d "agent_activation_order" (perPhase orderNamed)
  let scheme ← argument d "reward_scheme" (onlyOne natural)
  let weights ← argument d "agent_profile_distr" (aList number)
  let inactive ← argument d "inactive_stake_fraction" (onlyOne number)
  let known ← argument d "inactive_stake_fraction_known" (onlyOne truth)
  let costMin ← argument d "cost_min" (onlyOne number)
  let costMax ← argument d "cost_max" (onlyOne number)
  let source ← argument d "stake_distr_source" (onlyOne sourceNamed)
  let metrics ← argument d "metrics" (aList natural)
  let conv ← argument d "iterations_after_convergence" (onlyOne integer)
  return { n := n, k := k, a0 := a0, relThr := relThr, absThr := absThr, maxIter := maxIter, extraFrac := extraFrac, order := order, scheme := scheme, weights := some weights,
           inactive := inactive, known := known, costMin := costMin, costMax := costMax, source := source, metrics := some metrics, conv := conv }

/-- how an execution of main.py ends -/
inductive Ending where
  /-- the command line was rejected, or help was asked for -/
  | usage (e : Exit)
  /-- an exception before the output directory was complete -/
  | notStarted (e : StartErr)
  /-- some argument is `None` or not finite -/
  | unusable
  /-- the simulation was constructed and has been run, or an exception has occurred -/
  | ran (r : Py (Loop (Nat × Nat × State ℚ) (List (MetricValue ℚ))))

/-- main.py:10-43; the loop of `run_model` is entered at most `fuel` times -/
def execute (R : Reader) (str : Value → Text) (cwd : Text) (D : Disk PyFloat) (ws : List Text) (entropy : Int) (draws : Draws ℚ) (solver : State ℚ → ℚ) (t : Turns) (fuel : Nat) :
    Disk PyFloat × Ending :=
  match mainStart R str cwd D ws entropy with
  | .error e => (D, .usage e)
  | .ok (D, .error e) => (D, .notStarted e)
  | .ok (D, .ok r) =>
    match argsOf r.args with
    | none => (D, .unusable)
    | some a => (D, .ran (simulate a draws solver t fuel))

end RSE.Cmd
