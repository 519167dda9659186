import Verif.Model.Files

/-!
# custom_batchrunner.py: the parameter grid, numbering and seeding of a batch run
-/

namespace RSE

/-- the values of keyword arguments, as far as the batch runner looks at them: integers and texts, and anything else by how it is printed -/
inductive Val where
  | int (i : Int)
  | text (t : Text)
  | other (t : Text)
  deriving DecidableEq

/-- `str(value)` -/
def Val.str : Val → Text
  | .int (.ofNat n) => strNat n
  | .int (.negSucc n) => '-' :: strNat (n + 1)
  | .text t => t
  | .other t => t

/-- a dictionary of keyword arguments, in insertion order -/
abbrev Kw := List (Text × Val)

/-- `d[name] = v`: keeps the position of a name that is present -/
def Kw.set : Kw → Text → Val → Kw
  | [], k, v => [(k, v)]
  | (k', v') :: d, k, v => if k' = k then (k', v) :: d else (k', v') :: Kw.set d k v

/-- `d.get(name)` -/
def Kw.get? : Kw → Text → Option Val
  | [], _ => none
  | (k', v') :: d, k => if k' = k then some v' else Kw.get? d k

/-- `d.keys()` -/
def Kw.keys (d : Kw) : List Text := d.map Prod.fst

/-- `dict(pairs)` -/
def Kw.ofPairs (l : List (Text × Val)) : Kw := l.foldl (fun d e => Kw.set d e.1 e.2) []

/-- what a batch parameter can be: a string, something that is not iterable, or something that is -/
inductive Param where
  | str (t : Text)
  | scalar (v : Val)
  | many (vs : List Val)

/-- the values over which a parameter ranges (custom_batchrunner.py:138-148) -/
def Param.values : Param → List Val
  | .str t => [.text t]
  | .scalar v => [v]
  | .many vs => vs

/-- is the parameter put on the list `fixed_params`? (custom_batchrunner.py:141, 147) -/
def Param.fixed : Param → Bool
  | .str _ => true
  | .scalar _ => true
  | .many _ => false

/-- `itertools.product(*ls)`: the last factor varies fastest -/
def cartesian {α : Type} : List (List α) → List (List α)
  | [] => [[]]
  | l :: ls => l.flatMap (fun x => (cartesian ls).map (x :: ·))

/-- `_make_model_kwargs` (custom_batchrunner.py:121-152): all combinations, and the names of the fixed parameters -/
def makeModelKwargs (params : List (Text × Param)) : List Kw × List Text :=
  ((cartesian (params.map (fun e => e.2.values.map (fun v => (e.1, v))))).map Kw.ofPairs,
   (params.filter (fun e => e.2.fixed)).map Prod.fst)

def seedName : Text := "seed".toList
def seqIdName : Text := "seq_id".toList
def executionIdName : Text := "execution_id".toList

/-- `final_kwargs_list` when it is built (custom_batchrunner.py:68-72) -/
def seededKwargs (combos : List Kw) (iterations : Nat) (initialSeed : Int) : List Kw :=
  combos.flatMap (fun kw => (List.range iterations).map (fun i => kw.set seedName (.int (initialSeed + (i : Int)))))

/-- the execution id of a run (custom_batchrunner.py:75) -/
def batchExecutionId (fixed : List Text) (kw : Kw) : Text :=
  joinDash ((kw.filter (fun e => e.1 ∉ fixed)).map (fun e => e.1 ++ '-' :: e.2.str))

/-- the keyword arguments of all runs (custom_batchrunner.py:66-76) -/
def batchKwargs (params : List (Text × Param)) (iterations : Nat) (initialSeed : Int) : List Kw :=
  let m := makeModelKwargs params
  (seededKwargs m.1 iterations initialSeed).mapIdx (fun i kw =>
    (kw.set seqIdName (.int ((i : Int) + 1))).set executionIdName (.text (batchExecutionId m.2 kw)))

/-- `run_counter` and `iteration_counter` (custom_batchrunner.py:86-104): the pairs `(RunId, iteration)` given to the runs, for the values
of their arguments in the order in which the runs finish -/
def runNumbers : Nat → List (List Val) → List (List Val) → List (Nat × Nat)
  | _, _, [] => []
  | id, seen, v :: vs => (id, seen.count v) :: runNumbers (id + 1) (v :: seen) vs

/-- the columns of a run in the aggregate results (custom_batchrunner.py:196-204): `{**{"Step": step}, **kwargs, **model_data}` without the fixed
parameters -/
def resultRow (fixed : List Text) (step : Nat) (kw : Kw) (metrics : List (Text × Val)) : Kw :=
  ((kw ++ metrics).foldl (fun d e => Kw.set d e.1 e.2) [("Step".toList, .int step)]).filter (fun e => e.1 ∉ fixed)

end RSE
