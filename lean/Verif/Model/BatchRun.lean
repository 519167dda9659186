import Verif.Model.Batch

/-!
# custom_batchrunner.py: a whole batch run (24-115), with one process or several
-/

namespace RSE

def runIdName : Text := "RunId".toList
def iterationName : Text := "iteration".toList
def stepName : Text := "Step".toList
def parentDirName : Text := "parent_dir".toList

/-- `{**d, **e}`, and `d.update(e)` -/
def Kw.update (d e : Kw) : Kw := e.foldl (fun d x => Kw.set d x.1 x.2) d

/-- the data of one run (custom_batchrunner.py:175-210): for each step collected the dictionary `{**{"Step": step}, **kwargs, **model_data}` (a `Simulation`
has no agent reporters, sim.py:142, so `all_agents_data` is empty) -/
def runData (kw : Kw) (sampled : List (Int × Kw)) : List Kw :=
  sampled.map (fun e => (Kw.update [(stepName, .int e.1)] kw).update e.2)

/-- `_fn` for all runs (custom_batchrunner.py:92-102, 106-113): `run_counter`, `iteration_counter` and `results`.  `finished` are the arguments of the runs in the
order in which their data arrive: in the order of `final_kwargs_list` with one process, in any order with several (`imap_unordered`).  `run` says which
steps and metrics `_model_run_func` collects for the arguments, or what it raises; the first exception that arrives ends the batch run. -/
def gatherRuns (run : Kw → Py (List (Int × Kw))) : Nat → List (List Val) → List Kw → Py (List Kw)
  | _, _, [] => .ok []
  | id, seen, kw :: rest => do
    let sampled ← run kw
    let vals := kw.map Prod.snd
    let now := (runData kw sampled).map (fun d => Kw.update [(runIdName, .int id), (iterationName, .int (seen.count vals))] d)
    let later ← gatherRuns run (id + 1) (vals :: seen) rest
    return now ++ later

/-- `parameters.update({'parent_dir': path})` (custom_batchrunner.py:66); a path is not iterable -/
def withParentDir (path : Text) : List (Text × Param) → List (Text × Param)
  | [] => [(parentDirName, .scalar (.other path))]
  | (n, p) :: ps => if n = parentDirName then (n, .scalar (.other path)) :: ps else (n, p) :: withParentDir path ps

/-- `custom_batch_run` (custom_batchrunner.py:24-115) after the directory `path` was made: the list `results`.  `order` is the order in which the data of the runs
arrive. -/
def customBatchRun (run : Kw → Py (List (Int × Kw))) (order : List Kw → List Kw) (path : Text) (params : List (Text × Param)) (iterations : Nat)
    (initialSeed : Int) : Py (List Kw) :=
  gatherRuns run 0 [] (order (batchKwargs (withParentDir path params) iterations initialSeed))

end RSE
