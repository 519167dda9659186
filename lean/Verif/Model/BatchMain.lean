import Verif.Model.BatchRun
import Verif.Model.MainRun

/-!
# batch-run.py as a whole: from the command line to the rows of all runs

As in `Model/MainRun.lean` `None`, infinities and nan are reported as unusable; the runs compute with the numbers `F`, exact ones (`batchExecute`) or binary64 (`Model/BatchFloats.lean`).  `Model/Batch.lean` sees the values of the parameters as they are printed;
here they are carried along as they are.

Simplification: the runs are made by several processes (batch-run.py:97, custom_batchrunner.py:112-114); here they follow each other, in any order.  Their directories are different, and the only files
that they share are those to which each appends a line (experiment-tracker.csv and the aggregate results).  If several things are wrong with the arguments of a run, then not necessarily the exception
that would occur first is reported.

Trusted: numpy's `default_rng` raises `ValueError` for negative seeds, and its `pareto` unless the shape is positive (infinite shapes are left out).
-/

namespace RSE.Cmd

variable {F : Type} [LinearOrder F] [Zero F] [One F] [Add F] [Sub F] [Mul F] [Div F] [Neg F] [NatCast F] [FSum F] [PyInt F]

/-- the values over which a parameter ranges (custom_batchrunner.py:138-148) -/
def valuesOf : Value → List Atom
  | .one a => [a]
  | .list l => l
  | .tuple l => l

/-- batch-run.py:67-80, custom_batchrunner.py:138-151: the parameters of all runs, without `parent_dir` -/
def batchCombos (d : ArgDict PyFloat) : List (List (String × Atom)) :=
  cartesian ((d.filter (fun e => e.1 ≠ "execution_id" ∧ e.1 ≠ "seed" ∧ e.1 ≠ "agent_profile_distr")).map (fun e => (valuesOf e.2).map (fun a => (e.1, a))))

/-- the defaults of the parameters that batch-run.py never passes (sim.py:21-28) -/
def defaultArg (p : String) : Value :=
  if p = "agent_activation_order" then .one (.str "random".toList)
  else if p = "generate_graphs" then .one (.bool true)
  else .one .none

/-- a value that the batch runner has made itself -/
def atomOf : Option Val → Atom
  | some (.int i) => .int i
  | some (.text t) => .str t
  | some (.other t) => .other t
  | none => .none

/-- the arguments of the constructor in `model_cls(**kwargs)` (custom_batchrunner.py:170): `kw` are the keyword arguments of the run, of which the values of `combo` are known exactly -/
def runGiven (kw : Kw) (combo : List (String × Atom)) (p : String) : Value :=
  match combo.find? (fun e => e.1 == p) with
  | some e => .one e.2
  | none =>
    if p = "seed" ∨ p = "seq_id" ∨ p = "execution_id" ∨ p = "parent_dir" then .one (atomOf (kw.get? p.toList))
    else defaultArg p

/-- how a run of the batch ends; if it ends well, with the final state, what is collected, and the lines for the file of aggregate results -/
inductive RunEnding (F : Type) where
  | notStarted (e : StartErr)
  | unusable
  | ran (r : Py (Loop (Nat × Nat × State F) (List (MetricValue F)) × List (Int × List (MetricValue F)) × List (List (MetricValue F))))

/-- numpy's random numbers need a seed that is not negative (helper.py:81, 118), and a positive shape (helper.py:84) -/
def numpyAccepts (r : Started PyFloat) (source : StakeSource) : Bool :=
  (match r.seed with
    | .one (.int i) => decide (0 ≤ i)
    | _ => false) &&
  (match source, argument r.args "pareto_param" (onlyOne number) with
    | .pareto, some q => decide (0 < q)
    | .pareto, none => false
    | _, _ => true)

/-- `_model_run_func` (custom_batchrunner.py:155-210); `num` turns the arguments into the numbers that the run computes with -/
def runOne (num : Args ℚ → Args F) (str : Value → Text) (cwd : Text) (D : Disk PyFloat) (kw : Kw) (combo : List (String × Atom)) (maxSteps : Int) (draws : Draws F) (solver : State F → F) (t : Turns)
    (fuel : Nat) : Disk PyFloat × RunEnding F :=
  match start str cwd D (.call (runGiven kw combo)) 0 with
  | (D, .error e) => (D, .notStarted e)
  | (D, .ok r) =>
    match argsOf r.args with
    | none => (D, .unusable)
    | some a => (D, .ran (do
      if !numpyAccepts r a.source then throw .value
      let b ← construct (num a) draws
      Loop.batchRun (runEnv (num a) b solver t) maxSteps (-1) fuel (Loop.init (0, b.n, initState b.config) b.maxIter)))

/-- the runs one after the other; `draws` and `t` are what is drawn in the run with the given number -/
def runAll (num : Args ℚ → Args F) (str : Value → Text) (cwd : Text) (maxSteps : Int) (draws : Nat → Draws F) (solver : State F → F) (t : Nat → Turns) (fuel : Nat) :
    Disk PyFloat → List (Nat × Kw × List (String × Atom)) → Disk PyFloat × List (Nat × RunEnding F)
  | D, [] => (D, [])
  | D, (i, kw, combo) :: rest =>
    let (D, e) := runOne num str cwd D kw combo maxSteps (draws i) solver (t i) fuel
    let (D, es) := runAll num str cwd maxSteps draws solver t fuel D rest
    (D, (i, e) :: es)

/-- how batch-run.py ends -/
inductive BatchEnding (F : Type) where
  | usage (e : Exit)
  | notStarted (e : StartErr)
  | unusable
  /-- what became of the runs, with their numbers -/
  | ran (runs : List (Nat × RunEnding F))

/-- batch-run.py:61-105 and `custom_batch_run`; `entropy` is what `random.randint` returns, `order` the order in which the runs are made -/
def batchExecuteIn (num : Args ℚ → Args F) (R : Reader) (str : Value → Text) (cwd : Text) (D : Disk PyFloat) (ws : List Text) (entropy : Int)
    (order : List (Nat × Kw × List (String × Atom)) → List (Nat × Kw × List (String × Atom))) (draws : Nat → Draws F) (solver : State F → F) (t : Nat → Turns) (fuel : Nat) :
    Disk PyFloat × BatchEnding F :=
  match parse R batchTable ws with
  | .error e => (D, .usage e)
  | .ok d =>
    match readSeqId D.seq with
    | .error _ => (D, .notStarted .value)
    | .ok n =>
      let D := { D with seq := some (strNat (n + 1)) }
      match d.get "execution_id" with
      | .ok (.one (.str id)) =>
        let path := joinPath (joinPath cwd "output".toList) (strNat (n + 1) ++ '-' :: id)
        match mkdir D.dirs path with
        | none => (D, .notStarted .exists)
        | some dirs =>
          let D := { D with dirs := dirs }
          match batchStart R str path ws entropy, d.get "max_iterations" with
          | .ok kws, .ok (.one (.int m)) =>
            let (D, es) := runAll num str cwd m draws solver t fuel D (order ((kws.zip (batchCombos d)).mapIdx (fun i x => (i, x))))
            (D, .ran es)
          | _, _ => (D, .unusable)
      | _ => (D, .notStarted .type)

/-- in exact arithmetic -/
def batchExecute (R : Reader) (str : Value → Text) (cwd : Text) (D : Disk PyFloat) (ws : List Text) (entropy : Int) (order : List (Nat × Kw × List (String × Atom)) → List (Nat × Kw × List (String × Atom)))
    (draws : Nat → Draws ℚ) (solver : State ℚ → ℚ) (t : Nat → Turns) (fuel : Nat) : Disk PyFloat × BatchEnding ℚ :=
  batchExecuteIn (fun a => a) R str cwd D ws entropy order draws solver t fuel

end RSE.Cmd
