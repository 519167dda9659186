import Verif.Model.ArgsFile
import Verif.Model.Cli
import Verif.Model.BatchPlots
import Verif.Model.BatchRun
import Verif.Py.Binary64

/-!
# The command lines of main.py and batch-run.py (logic/helper.py:532-605, main.py:10-39, batch-run.py:15-62)

The options are tables; `parse` is `argparse.ArgumentParser.parse_args` of Python 3.9 for parsers without positional arguments, as documented and as far as such tables need it: every word is
a name of an option, an abbreviation of one, or a value; options take the values that follow them.  `int(·)` and `float(·)` are parameters (`Reader`).
A text is lowered letter by letter in ASCII; this decides the same about the choices of the tables as `str.lower`, as no other character is lowered to one of their letters
(but for the Kelvin sign, and no choice contains a k).
Simplifications: the messages of errors are left out (`argparse` ends the program with status 2 for all of them); `-h=`, which raises `IndexError`, counts as an error.
-/

namespace RSE.Cmd

/-- a value, as it arrives at the program -/
abbrev Value := ArgValue PyFloat

abbrev Atom := Scalar PyFloat

/-- Python's `int(·)` and `float(·)`; `none` if it raises `ValueError` -/
structure Reader where
  int : Text → Option Int
  float : Text → Option PyFloat

/-- `nargs` -/
inductive Nargs where
  | single | optional | star | plus | exactly (n : Nat)
  deriving DecidableEq

/-- `type` -/
inductive Kind where
  | positiveInt | nonNegativeInt | positiveFloat | nonNegativeFloat | fraction | int | float | str | lower
  deriving DecidableEq

/-- an option that takes values -/
structure Opt where
  dest : String
  nargs : Nargs
  kind : Kind
  choices : Option (List Atom) := none
  default : Value

/-- an option: one with values, or a switch (`argparse.BooleanOptionalAction`) -/
inductive Entry where
  | opt (o : Opt)
  | switch (dest : String) (default : Bool)

def Entry.dest : Entry → String
  | .opt o => o.dest
  | .switch d _ => d

/-- what a word on the command line asks for -/
inductive Act where
  | help (short : Bool)
  | set (o : Opt)
  | switch (dest : String) (b : Bool)

/-- `--name` -/
def long (name : String) : Text := '-' :: '-' :: name.toList

/-- `--no-name` -/
def longNo (name : String) : Text := '-' :: '-' :: 'n' :: 'o' :: '-' :: name.toList

/-- the option strings of an option -/
def Entry.names : Entry → List (Text × Act)
  | .opt o => [(long o.dest, .set o)]
  | .switch d _ => [(long d, .switch d true), (longNo d, .switch d false)]

/-- all option strings of a parser -/
def optionStrings (table : List Entry) : List (Text × Act) := (['-', 'h'], .help true) :: (long "help", .help false) :: table.flatMap Entry.names

/-- `arg_string.split('=', 1)` if there is a `=` -/
def splitEq : Text → Option (Text × Text)
  | [] => none
  | c :: cs => if c = '=' then some ([], cs) else (splitEq cs).map (fun e => (c :: e.1, e.2))

def isDigit (c : Char) : Bool := decide ('0' ≤ c ∧ c ≤ '9')

/-- `^-\d+$|^-\d*\.\d+$` (ASCII digits) -/
def negativeNumber : Text → Bool
  | '-' :: ds => (decide (ds ≠ []) && ds.all isDigit) ||
      (match ds.dropWhile isDigit with
        | '.' :: es => decide (es ≠ []) && es.all isDigit
        | _ => false)
  | _ => false

/-- `_get_option_tuples` -/
def candidates (names : List (Text × Act)) (w : Text) : List (Act × Option Text) :=
  match w with
  | '-' :: '-' :: _ =>
    let (pre, explicit) := match splitEq w with
      | some (p, e) => (p, some e)
      | none => (w, none)
    names.filterMap (fun n => if pre.isPrefixOf n.1 then some (n.2, explicit) else none)
  | _ => names.filterMap (fun n => if n.1 = w.take 2 then some (n.2, some (w.drop 2)) else if w.isPrefixOf n.1 then some (n.2, none) else none)

def lookup (names : List (Text × Act)) (w : Text) : Option Act := (names.find? (fun n => n.1 = w)).map Prod.snd

/-- a word: a value, an option, an option that does not exist, or an ambiguous abbreviation -/
inductive Word where
  | value (t : Text)
  | option (a : Act) (explicit : Option Text)
  | unknown
  | ambiguous

/-- `_parse_optional` -/
def classify (names : List (Text × Act)) (w : Text) : Word :=
  if w.head? ≠ some '-' then .value w
  else match lookup names w with
    | some a => .option a none
    | none =>
      if w.length = 1 then .value w
      else match (splitEq w).bind (fun e => (lookup names e.1).map (fun a => (a, e.2))) with
        | some (a, e) => .option a (some e)
        | none =>
          match candidates names w with
          | _ :: _ :: _ => .ambiguous
          | [(a, e)] => .option a e
          | [] => if negativeNumber w || w.contains ' ' then .value w else .unknown

/-- all words; after `--`, which no option takes, there are only values -/
def classifyAll (names : List (Text × Act)) : List Text → List Word
  | [] => []
  | w :: ws => if w = ['-', '-'] then .unknown :: ws.map .value else classify names w :: classifyAll names ws

/-- an option with the values that follow it; `none` is an option that does not exist -/
abbrev Group := Option (Act × Option Text) × List Text

/-- the values before the first option, and the options -/
def grouped : List Word → List Text × List Group
  | [] => ([], [])
  | .value t :: ws => let g := grouped ws; (t :: g.1, g.2)
  | .option a e :: ws => let g := grouped ws; ([], (some (a, e), g.1) :: g.2)
  | .unknown :: ws => let g := grouped ws; ([], (none, g.1) :: g.2)
  | .ambiguous :: ws => let g := grouped ws; ([], (none, g.1) :: g.2)

/-- how many of `n` values an option takes (`_match_argument`) -/
def Nargs.count : Nargs → Nat → Option Nat
  | .single, n => if 1 ≤ n then some 1 else none
  | .optional, n => some (min 1 n)
  | .star, n => some n
  | .plus, n => if 1 ≤ n then some n else none
  | .exactly m, n => if m ≤ n then some m else none

/-- the conversions (helper.py:497-529) -/
def Kind.convert (R : Reader) : Kind → Text → Option Atom
  | .positiveInt, t => (RSE.positiveInt (R.int t)).map .int
  | .nonNegativeInt, t => (RSE.nonNegativeInt (R.int t)).map .int
  | .positiveFloat, t => (RSE.positiveFloat (R.float t)).map .float
  | .nonNegativeFloat, t => (RSE.nonNegativeFloat (R.float t)).map .float
  | .fraction, t => (RSE.fraction (R.float t)).map .float
  | .int, t => (R.int t).map .int
  | .float, t => (R.float t).map .float
  | .str, t => some (.str t)
  | .lower, t => some (.str (t.map Char.toLower))

/-- `_get_value` and `_check_value` -/
def Opt.accept (R : Reader) (o : Opt) (t : Text) : Option Atom :=
  (o.kind.convert R t).bind (fun v => match o.choices with
    | some l => if v ∈ l then some v else none
    | none => some v)

/-- `_get_values`: without a value, an option with `nargs='?'` gets `const`, which is `None` -/
def Opt.value (R : Reader) (o : Opt) (ts : List Text) : Option Value :=
  match o.nargs, ts with
  | .optional, [] => some (.one .none)
  | .optional, [t] => (o.accept R t).map .one
  | .single, [t] => (o.accept R t).map .one
  | _, ts => (ts.mapM (o.accept R)).map .list

/-- how the program ends before it has started -/
inductive Exit where
  | help | error
  deriving DecidableEq

/-- the values that have been given so far -/
abbrev Given := String → Option Value

/-- `consume_optional`: the values given, and whether words are left over -/
def consume (R : Reader) (ns : Given) : Group → Except Exit (Given × Bool)
  | (none, _) => .ok (ns, true)
  | (some (.help _, none), _) => .error .help
  | (some (.help short, some e), _) => .error (if short && decide (e ≠ []) && e.all (· == 'h') then .help else .error)
  | (some (.switch d b, none), l) => .ok (Function.update ns d (some (.one (.bool b))), decide (l ≠ []))
  | (some (.switch _ _, some _), _) => .error .error
  | (some (.set o, some e), l) =>
    if o.nargs.count 1 = some 1 then
      match o.value R [e] with
      | some v => .ok (Function.update ns o.dest (some v), decide (l ≠ []))
      | none => .error .error
    else .error .error
  | (some (.set o, none), l) =>
    match o.nargs.count l.length with
    | none => .error .error
    | some c =>
      match o.value R (l.take c) with
      | some v => .ok (Function.update ns o.dest (some v), decide (l.drop c ≠ []))
      | none => .error .error

/-- all options, from left to right -/
def consumeAll (R : Reader) : Given → Bool → List Group → Except Exit (Given × Bool)
  | ns, left, [] => .ok (ns, left)
  | ns, left, g :: gs => do
    let r ← consume R ns g
    consumeAll R r.1 (left || r.2) gs

/-- the default of an option; a text is converted -/
def Opt.defaultValue (R : Reader) (o : Opt) : Option Value :=
  match o.default with
  | .one (.str t) => (o.kind.convert R t).map .one
  | v => some v

/-- the attributes of the namespace, in order -/
def Entry.attribute (R : Reader) (ns : Given) : Entry → Option (String × Value)
  | .opt o => (match ns o.dest with
      | some v => some v
      | none => o.defaultValue R).map (fun v => (o.dest, v))
  | .switch d b => some (d, (ns d).getD (.one (.bool b)))

def isAmbiguous : Word → Bool
  | .ambiguous => true
  | _ => false

/-- `parser.parse_args()` -/
def parse (R : Reader) (table : List Entry) (ws : List Text) : Except Exit (ArgDict PyFloat) :=
  let words := classifyAll (optionStrings table) ws
  if words.any isAmbiguous then .error .error
  else
    let g := grouped words
    match consumeAll R (fun _ => none) (decide (g.1 ≠ [])) g.2 with
    | .error e => .error e
    | .ok (ns, left) =>
      match table.mapM (Entry.attribute R ns) with
      | some d => if left then .error .error else .ok d
      | none => .error .error

/-! ### The tables -/

/-- the literal `n * 10 ^ -e` -/
def dec (n e : Nat) : Atom := .float (.fin (B64.of ((n : ℚ) / 10 ^ e)).1)

def ints (l : List Int) : List Atom := l.map .int

def texts (l : List String) : List Atom := l.map (fun t => .str t.toList)

/-- main.py (helper.py:542-605) -/
def mainTable : List Entry :=
  [.opt { dest := "n", nargs := .optional, kind := .positiveInt, default := .one (.int 1000) },
   .opt { dest := "k", nargs := .plus, kind := .positiveInt, default := .one (.int 100) },
   .opt { dest := "a0", nargs := .plus, kind := .nonNegativeFloat, default := .one (dec 3 1) },
   .opt { dest := "reward_scheme", nargs := .optional, kind := .int, choices := some (ints [0, 1, 2, 3, 4]), default := .one (.int 0) },
   .opt { dest := "agent_profile_distr", nargs := .exactly 3, kind := .nonNegativeFloat, default := .list (ints [1, 0, 0]) },
   .opt { dest := "cost_min", nargs := .optional, kind := .nonNegativeFloat, default := .one (dec 1 5) },
   .opt { dest := "cost_max", nargs := .optional, kind := .nonNegativeFloat, default := .one (dec 1 4) },
   .opt { dest := "extra_pool_cost_fraction", nargs := .optional, kind := .nonNegativeFloat, default := .one (dec 4 1) },
   .opt { dest := "agent_activation_order", nargs := .optional, kind := .lower, choices := some (texts ["random", "sequential", "simultaneous", "semisimultaneous"]),
          default := .one (.str "random".toList) },
   .opt { dest := "absolute_utility_threshold", nargs := .optional, kind := .nonNegativeFloat, default := .one (dec 1 9) },
   .opt { dest := "relative_utility_threshold", nargs := .optional, kind := .nonNegativeFloat, default := .one (.int 0) },
   .opt { dest := "stake_distr_source", nargs := .optional, kind := .lower, choices := some (texts ["pareto", "flat", "disparity", "file"]), default := .one (.str "pareto".toList) },
   .opt { dest := "pareto_param", nargs := .optional, kind := .positiveFloat, default := .one (dec 2 0) },
   .opt { dest := "inactive_stake_fraction", nargs := .optional, kind := .fraction, default := .one (.int 0) },
   .switch "inactive_stake_fraction_known" false,
   .opt { dest := "iterations_after_convergence", nargs := .optional, kind := .int, default := .one (.int 10) },
   .opt { dest := "max_iterations", nargs := .optional, kind := .positiveInt, default := .one (.int 2000) },
   .opt { dest := "metrics", nargs := .plus, kind := .int, choices := some ((List.range 30).map (fun i : Nat => .int ((i : Int) + 1))), default := .one .none },
   .switch "generate_graphs" true,
   .opt { dest := "seed", nargs := .optional, kind := .nonNegativeInt, default := .one .none },
   .opt { dest := "execution_id", nargs := .optional, kind := .str, default := .one (.str []) },
   .switch "input_from_file" false,
   .switch "profile_code" false]

/-- batch-run.py:16-59 -/
def batchTable : List Entry :=
  [.opt { dest := "execution_id", nargs := .optional, kind := .str, default := .one (.str "batch-run".toList) },
   .opt { dest := "seed", nargs := .optional, kind := .int, default := .one .none },
   .opt { dest := "max_iterations", nargs := .optional, kind := .int, default := .one (.int 2000) },
   .opt { dest := "n", nargs := .star, kind := .int, default := .one (.int 1000) },
   .opt { dest := "k", nargs := .star, kind := .int, default := .list (ints [100, 200, 300]) },
   .opt { dest := "a0", nargs := .star, kind := .float, default := .one (dec 3 1) },
   .opt { dest := "inactive_stake_fraction", nargs := .star, kind := .float, default := .one (.int 0) },
   .switch "inactive_stake_fraction_known" false,
   .opt { dest := "pareto_param", nargs := .star, kind := .float, default := .one (dec 2 0) },
   .opt { dest := "cost_min", nargs := .star, kind := .float, default := .one (dec 1 5) },
   .opt { dest := "cost_max", nargs := .star, kind := .float, default := .one (dec 1 4) },
   .opt { dest := "extra_pool_cost_fraction", nargs := .star, kind := .float, default := .one (dec 4 1) },
   .opt { dest := "stake_distr_source", nargs := .optional, kind := .str, default := .one (.str "Pareto".toList) },
   .opt { dest := "reward_scheme", nargs := .optional, kind := .int, choices := some (ints [0, 1, 2, 3]), default := .one (.int 0) },
   .opt { dest := "relative_utility_threshold", nargs := .plus, kind := .float, default := .one (.int 0) },
   .opt { dest := "absolute_utility_threshold", nargs := .plus, kind := .float, default := .one (.int 0) },
   .opt { dest := "iterations_after_convergence", nargs := .single, kind := .int, default := .one (.int 10) },
   .opt { dest := "agent_profile_distr", nargs := .star, kind := .float, default := .list (ints [1, 0, 0]) }]

/-! ### main.py -/

/-- the options that main.py passes on (main.py:14-39); `seq_id` and `parent_dir` keep the defaults of the constructor -/
def passedOn (args : ArgDict PyFloat) (p : String) : Value :=
  if p = "seq_id" then .one (.int (-1))
  else if p = "parent_dir" then .one (.str [])
  else match args.get p with
    | .ok v => v
    | .error _ => .one .none

/-- where the arguments of the simulation come from (main.py:38, sim.py:29) -/
def mainInput (args : ArgDict PyFloat) : Input PyFloat :=
  if args.get "input_from_file" = .ok (.one (.bool true)) then .file else .call (passedOn args)

/-- main.py up to the start of the execution -/
def mainStart (R : Reader) (str : Value → Text) (cwd : Text) (d : Disk PyFloat) (ws : List Text) (entropy : Int) :
    Except Exit (Disk PyFloat × Except StartErr (Started PyFloat)) := do
  let args ← parse R mainTable ws
  return start str cwd d (mainInput args) entropy

/-! ### batch-run.py -/

/-- a value as the batch runner sees it; `str` is Python's `str(·)` -/
def batchVal (str : Value → Text) : Atom → Val
  | .int i => .int i
  | .str t => .text t
  | a => .other (str (.one a))

def batchParam (str : Value → Text) : Value → Param
  | .one (.str t) => .str t
  | .one a => .scalar (batchVal str a)
  | .list l => .many (l.map (batchVal str))
  | .tuple l => .many (l.map (batchVal str))

/-- batch-run.py:64-80: the parameters of the batch run -/
def batchInput (str : Value → Text) (args : ArgDict PyFloat) : List (Text × Param) := batchParams (args.map (fun e => (e.1.toList, batchParam str e.2)))

/-- batch-run.py up to the arguments of the runs; `entropy` is what `random.randint(0, 9999999)` returns, `path` the directory of the batch run -/
def batchStart (R : Reader) (str : Value → Text) (path : Text) (ws : List Text) (entropy : Int) : Except Exit (List Kw) := do
  let args ← parse R batchTable ws
  let seed := match args.get "seed" with
    | .ok (.one (.int i)) => i
    | _ => entropy
  return batchKwargs (withParentDir path (batchInput str args)) 1 seed

end RSE.Cmd
