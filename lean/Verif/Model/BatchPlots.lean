import Verif.Model.Batch
import Verif.Model.Graphs

/-!
# batch-run.py:69-117 and logic/helper.py:411-458: the parameters of a batch run and its plots

Not modelled: colours, labels, the logarithmic axis (`useLogAxis` is always `False`, batch-run.py:107, so `sci_notation` is never called; it is in
`Model/AxisLabels.lean`), values that are
not numbers (NaN).  The metrics of a batch run are the default ones, all of them numbers (the option `--metrics` is missing from batch-run.py), and no
metric has the name of a parameter.
-/

namespace RSE

variable {F : Type} [LinearOrder F] [Zero F]

/-- `--reward_scheme` of batch-run.py:48: `choices=range(4)` -/
def batchSchemeChoice (n : Int) : Bool := decide (0 ≤ n ∧ n < 4)

def profileDistrName : Text := "agent_profile_distr".toList

/-- what remains of the command line as parameters of the batch run (batch-run.py:69-80, 85-86): `execution_id`, `seed` and `agent_profile_distr` are popped -/
def batchParams (args : List (Text × Param)) : List (Text × Param) :=
  args.filter (fun e => e.1 ≠ executionIdName ∧ e.1 ≠ seedName ∧ e.1 ≠ profileDistrName)

/-- `isinstance(arg_value, list) and len(arg_value) > 1` -/
def Param.varies : Param → Bool
  | .many vs => decide (vs.length > 1)
  | _ => false

/-- `variable_params` (batch-run.py:83-88) -/
def variableParams (params : List (Text × Param)) : List Text := (params.filter (fun e => e.2.varies)).map Prod.fst

/-- a row of `results_df`: the keyword arguments of a run and its metrics -/
structure Result (F : Type) where
  args : Kw
  metrics : List (Text × F)

/-- `row[name]` for a parameter -/
def Result.arg (r : Result F) (name : Text) : Py Val :=
  match r.args.get? name with
  | some v => .ok v
  | none => .error .key

/-- `row[name]` for a metric -/
def Result.metric (r : Result F) (name : Text) : Py F :=
  match r.metrics.find? (fun e => e.1 = name) with
  | some e => .ok e.2
  | none => .error .key

/-- what is drawn -/
inductive BatchFigure (F : Type) where
  | scatter (param metric : Text) (points : List (Val × F))
  | heat (param₁ param₂ metric : Text) (cells : List ((Val × Val) × F))

/-- the name of the file (helper.py:430, 455) -/
def BatchFigure.file (execId : Text) : BatchFigure F → Text
  | .scatter p m _ => execId ++ "-".toList ++ m ++ "-per-".toList ++ p ++ ".png".toList
  | .heat p q m _ => "heatmap-".toList ++ m ++ "-".toList ++ (p ++ '-' :: q) ++ ".png".toList

/-- `plot_aggregate_data` (helper.py:411-432), with `positive_only=True` -/
def plotAggregate (rows : List (Result F)) (param metric : Text) : Py (BatchFigure F) := do
  let ys ← rows.mapM (fun r => r.metric metric)
  let kept := (rows.zip ys).filter (fun e => 0 ≤ e.2)
  let xs ← kept.mapM (fun e => e.1.arg param)
  return .scatter param metric (xs.zip (kept.map Prod.snd))

/-- the body of the loop of `plot_aggregate_data_heatmap` (helper.py:435-458).  `unstack` raises `ValueError` if a pair of parameter values occurs twice. -/
def plotHeatmap (rows : List (Result F)) (param₁ param₂ metric : Text) : Py (BatchFigure F) := do
  let cells ← rows.mapM (fun r => do
    let a ← r.arg param₁
    let b ← r.arg param₂
    let y ← r.metric metric
    return ((a, b), y))
  if (cells.map Prod.fst).Nodup then return .heat param₁ param₂ metric cells else .error .value

/-- `model_reporters` (batch-run.py:105): the columns of the data frame that are metrics.  Without runs there are no columns; all runs have the same. -/
def batchReporters (rows : List (Result F)) : List Text :=
  match rows with
  | [] => []
  | r :: _ => (r.metrics.map Prod.fst).filter (fun m => m ∈ colourNames.map String.toList)

/-- the plots (batch-run.py:106-117) -/
def batchPlots (params : List (Text × Param)) (rows : List (Result F)) : Py (List (BatchFigure F)) := do
  let vp := variableParams params
  let ms := batchReporters rows
  let scatters ← (vp.flatMap (fun p => ms.map (fun m => (p, m)))).mapM (fun e => plotAggregate rows e.1 e.2)
  match vp with
  | [p, q] => do
    let heats ← ms.mapM (plotHeatmap rows p q)
    return scatters ++ heats
  | _ => return scatters

end RSE
