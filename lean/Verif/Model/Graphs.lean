import Verif.Model.Table

/-!
# logic/sim.py:354-383, logic/helper.py:365-403: the graphs of a run

A figure is described by what is drawn in it.  Not modelled: colours (other than that one is looked up), labels, sizes.
-/

namespace RSE

variable {F : Type} [LinearOrder F] [Zero F] [One F] [Add F] [Sub F] [Mul F] [Div F] [Neg F] [NatCast F] [FSum F]

/-- what is drawn -/
inductive Figure (F : Type) where
  /-- `plot_line`: a curve with one value per collected row, vertical lines at the equilibria, a cross per parameter change -/
  | line (title : String) (data : List (MetricValue F)) (verticals : List Int) (crosses : List (Nat × MetricValue F))
  /-- `plot_stack_area_chart`: the rounds on the x axis, one series per agent -/
  | area (rounds : List Nat) (series : List (List F))

/-- the name of the file (helper.py:385, 399) -/
def Figure.file (executionId : String) : Figure F → String
  | .line title _ _ _ => executionId ++ "-" ++ title ++ ".png"
  | .area _ _ => "poolDynamics-" ++ executionId ++ ".png"

/-- `data[step]` for a column of the data frame, whose index is 0, 1, ... -/
def cross (data : List (MetricValue F)) (step : Nat) : Py (Nat × MetricValue F) :=
  match data[step]? with
  | some v => .ok (step, v)
  | none => .error .key

/-- `plot_line` (helper.py:365-388) -/
def plotLine (title : String) (data : List (MetricValue F)) (eqSteps : List Int) (pivots : List Nat) : Py (Figure F) := do
  let crosses ← pivots.mapM (cross data)
  return .line title data eqSteps crosses

/-- a row of the matrix in `plot_stack_area_chart`; what is not a list does not fit -/
def MetricValue.asRow : MetricValue F → Py (List F)
  | .nums l => .ok l
  | _ => .error .value

/-- `plot_stack_area_chart` (helper.py:391-402).  `np.array` of lists of different lengths raises `ValueError`.  The first column of the transposed matrix
is left out. -/
def plotArea (data : List (MetricValue F)) : Py (Figure F) := do
  let rows ← data.mapM MetricValue.asRow
  let width := (rows.headD []).length
  if rows.all (fun r => r.length == width) then
    return .area (List.range' 1 (rows.length - 1)) ((List.range width).map (fun i => rows.tail.map (fun r => r.getD i 0)))
  else .error .value

/-- the keys of `ALL_MODEL_REPORTEERS`, for which there are colours (sim.py:358-364) -/
def colourNames : List String :=
  ["Pool count", "Total pledge", "Mean pledge", "Median pledge", "Average pools per operator", "Max pools per operator", "Median pools per operator",
   "Average saturation rate", "Nakamoto coefficient", "Statistical distance", "Min-aggregate pledge", "Pledge rate", "Pool homogeneity factor",
   "Iterations", "Mean stake rank", "Mean cost rank", "Median stake rank", "Median cost rank", "Number of pool splitters",
   "Cost efficient stakeholders", "Gini-id", "Gini-id stake", "Gini-id (k)", "Gini-id stake (k)", "Mean margin", "Median margin",
   "Stake per agent", "Stake per agent id", "StakePairs", "Total delegated stake", "Total agent stake", "Operator count"]

/-- the body of the loop of `export_graphs` for the column `name` with values `data` (sim.py:369-383), by the type of the first value -/
def drawColumn (eqSteps : List Int) (pivots : List Nat) (name : String) (data : List (MetricValue F)) : Py (List (Figure F)) :=
  match data.head? with
  | none => .error .key
  | some (.nums _) => do
    let f ← plotArea data
    return [f]
  | some (.dict _) => .ok []
  | some (.pairs _) => .ok []
  | some _ =>
    if name ∈ colourNames then do
      let f ← plotLine name data eqSteps pivots
      return [f]
    else .error .key

/-- `df[col]` for the column with number `j` -/
def columnOf (rows : List (List (MetricValue F))) (j : Nat) : Py (List (MetricValue F)) :=
  rows.mapM (fun row => match row[j]? with
    | some v => .ok v
    | none => .error .key)

/-- `export_graphs` (sim.py:354-383): the figures in the order in which they are drawn -/
def exportGraphs (cols : List String) (rows : List (List (MetricValue F))) (eqSteps : List Int) (pivots : List Nat) : Py (List (Figure F)) :=
  if rows.length = 0 then .ok []
  else do
    let figs ← cols.zipIdx.mapM (fun e => do
      let data ← columnOf rows e.2
      drawColumn eqSteps pivots e.1 data)
    return figs.flatten

end RSE
