import Verif.Model.Files

/-!
# How an execution starts: arguments, args.json, output directory (logic/sim.py:20-64, 251-254; logic/helper.py:323-340)

Python values are modelled as far as the arguments of `Simulation` need it: scalars, and lists and tuples of scalars.  `str` stands for Python's `str(·)`.
Trusted: `json.load` gives back the numbers, texts, truth values and nulls that `json.dump` has written.
Simplifications: a sequence id of `-1.0` (equal to `-1` in Python) and a file `args.json` that is not an object are left out; `mkdir` does not record the
parent directories it creates.
-/

namespace RSE

/-- a scalar; `other t` is an object of any other type (such as a `Path`), with `str(·)` equal to `t` -/
inductive Scalar (F : Type) where
  | none
  | bool (b : Bool)
  | int (i : Int)
  | float (x : F)
  | str (t : Text)
  | other (t : Text)
  deriving DecidableEq

/-- the value of an argument -/
inductive ArgValue (F : Type) where
  | one (s : Scalar F)
  | list (l : List (Scalar F))
  | tuple (l : List (Scalar F))
  deriving DecidableEq

/-- the dictionary `args` -/
abbrev ArgDict (F : Type) := List (String × ArgValue F)

/-- why an execution does not start -/
inductive StartErr where
  | notFound | exists | key (name : String) | type | value
  deriving DecidableEq

variable {F : Type}

/-- a scalar after `json.dump(..., default=lambda x: str(x))` (helper.py:325) and `json.load` (helper.py:331) -/
def Scalar.json : Scalar F → Scalar F
  | .other t => .str t
  | s => s

/-- ... and any value: JSON has no tuples -/
def ArgValue.json : ArgValue F → ArgValue F
  | .one s => .one s.json
  | .list l => .list (l.map Scalar.json)
  | .tuple l => .list (l.map Scalar.json)

/-- what is in a file to which `args` was dumped -/
def ArgDict.json (a : ArgDict F) : ArgDict F := a.map (fun e => (e.1, e.2.json))

/-- `args[name]` -/
def ArgDict.get (a : ArgDict F) (name : String) : Except StartErr (ArgValue F) :=
  match a.find? (fun e => e.1 == name) with
  | some e => .ok e.2
  | none => .error (.key name)

/-- `args[name] = v` for a name that is present -/
def ArgDict.put (a : ArgDict F) (name : String) (v : ArgValue F) : ArgDict F := a.map (fun e => if e.1 == name then (e.1, v) else e)

/-- the parameters of `Simulation` (sim.py:22-27) but for `input_from_file`, in order: what is left of `locals()` in lines 32-37 -/
def parameters : List String :=
  ["n", "k", "a0", "stake_distr_source", "agent_profile_distr", "inactive_stake_fraction", "inactive_stake_fraction_known", "relative_utility_threshold",
   "absolute_utility_threshold", "seed", "pareto_param", "max_iterations", "cost_min", "cost_max", "extra_pool_cost_fraction", "agent_activation_order",
   "iterations_after_convergence", "reward_scheme", "execution_id", "seq_id", "parent_dir", "metrics", "generate_graphs"]

/-- what the constructor reads from `args` after it has written args.json, in order (sim.py:70, 72-89, 93, 115-118, 133, 141) -/
def readLater : List String :=
  ["reward_scheme", "n", "k", "a0", "relative_utility_threshold", "absolute_utility_threshold", "max_iterations", "extra_pool_cost_fraction",
   "agent_activation_order", "generate_graphs", "inactive_stake_fraction_known", "agent_profile_distr", "cost_min", "cost_max", "pareto_param",
   "stake_distr_source", "inactive_stake_fraction", "iterations_after_convergence", "metrics"]

/-- where the arguments come from: the call, or the file args.json in the working directory (sim.py:29-37) -/
inductive Input (F : Type) where
  | call (given : String → ArgValue F)
  | file

/-- the files that matter: sequence.dat, the directories, args.json in the working directory, and the files args.json written by executions -/
structure Disk (F : Type) where
  seq : Option Text
  dirs : List Text
  here : Option (ArgDict F)
  written : List (Text × ArgDict F)

/-- what the rest of the constructor works with -/
structure Started (F : Type) where
  args : ArgDict F
  seed : ArgValue F
  dir : Text

/-- the default of `metrics` (sim.py:39) -/
def metricsArg : ArgValue F := .list [.int 1, .int 2, .int 6, .int 9, .int 17, .int 18, .int 25]

/-- the default of `agent_profile_distr` (sim.py:41) -/
def profilesArg : ArgValue F := .list [.int 1, .int 0, .int 0]

/-- sim.py:38-39 and 40-41: `if args[name] is None: args[name] = v` -/
def fillDefault (a : ArgDict F) (name : String) (v : ArgValue F) : Except StartErr (ArgDict F) := do
  let x ← a.get name
  match x with
  | .one .none => .ok (a.put name v)
  | _ => .ok a

/-- sim.py:38-41 -/
def fillDefaults (a : ArgDict F) : Except StartErr (ArgDict F) := do
  let a ← fillDefault a "metrics" metricsArg
  fillDefault a "agent_profile_distr" profilesArg

/-- `pathlib`'s `/`: an absolute second path replaces the first one -/
def joinPath (base child : Text) : Text :=
  match child with
  | [] => base
  | c :: cs => if c = '/' then c :: cs else base ++ '/' :: c :: cs

/-- `generate_execution_id` (helper.py:244-250) for the dictionary; `str` is Python's `str(·)` -/
def generatedName (str : ArgValue F → Text) (a : ArgDict F) : Text :=
  generateExecutionId (a.map (fun e => (e.1.toList, match e.2 with
    | .list l => .list (l.map (fun s => str (.one s)))
    | v => .single (str v))))

/-- sim.py:48-52: the sequence id as a text, and sequence.dat afterwards -/
def takeSeqId (str : ArgValue F → Text) (seq : Option Text) (v : ArgValue F) : Except StartErr (Text × Option Text) :=
  match v with
  | .one (.int (-1)) =>
    match readSeqId seq with
    | .ok n => .ok (strNat (n + 1), some (strNat (n + 1)))
    | .error _ => .error .value
  | v => .ok (str v, seq)

/-- sim.py:54-58 -/
def executionName (str : ArgValue F → Text) (seqText : Text) (a : ArgDict F) : Except StartErr Text := do
  let v ← a.get "execution_id"
  match v with
  | .one (.str t) => .ok (seqText ++ '-' :: (if t = [] ∨ t = ['t', 'e', 'm', 'p'] then generatedName str a else t))
  | _ => .error .type

/-- sim.py:61: the output directory -/
def outputPath (cwd : Text) (a : ArgDict F) (name : Text) : Except StartErr Text := do
  let v ← a.get "parent_dir"
  match v with
  | .one (.str t) => .ok (joinPath (joinPath (joinPath cwd ['o', 'u', 't', 'p', 'u', 't']) t) name)
  | .one (.other t) => .ok (joinPath (joinPath (joinPath cwd ['o', 'u', 't', 'p', 'u', 't']) t) name)
  | _ => .error .type

/-- the names that are missing in `args` are noticed one after the other -/
def readAll (a : ArgDict F) : List String → Except StartErr Unit
  | [] => .ok ()
  | p :: ps => do
    let _ ← a.get p
    readAll a ps

/-- sim.py:29-37 -/
def loadArgs (d : Disk F) : Input F → Except StartErr (ArgDict F)
  | .call given => .ok (parameters.map (fun p => (p, given p)))
  | .file => match d.here with
    | some a => .ok a
    | none => .error .notFound

/-- sim.py:43-45; `entropy` is what `random.randint(0, 9999999)` returns -/
def seedOf (entropy : Int) : ArgValue F → ArgValue F
  | .one .none => .one (.int entropy)
  | s => s

/-- sim.py:29-64, and the look-ups in `args` of the rest of the constructor: the disk afterwards, and the exception or what has been started. -/
def start (str : ArgValue F → Text) (cwd : Text) (d : Disk F) (input : Input F) (entropy : Int) :
    Disk F × Except StartErr (Started F) :=
  match (loadArgs d input).bind fillDefaults with
  | .error e => (d, .error e)
  | .ok a =>
    match a.get "seed" with
    | .error e => (d, .error e)
    | .ok s =>
      match (a.get "seq_id").bind (takeSeqId str d.seq) with
      | .error e => (d, .error e)
      | .ok (seqText, seq) =>
        let d := { d with seq := seq }
        match (executionName str seqText a).bind (outputPath cwd a) with
        | .error e => (d, .error e)
        | .ok dir =>
          match mkdir d.dirs dir with
          | none => (d, .error .exists)
          | some dirs =>
            ({ d with dirs := dirs, written := (dir, a.json) :: d.written },
              (readAll a readLater).map (fun _ => { args := a, seed := seedOf entropy s, dir := dir }))

end RSE
