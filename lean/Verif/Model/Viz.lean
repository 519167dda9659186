import Verif.Model.Table
import Verif.Model.Loop

/-!
# interactiveViz/*.py: the server that shows a simulation in a browser, and the data of its charts

Not modelled: the web pages and scripts, tornado, printing.  Note that runViz.py uses Mesa's own server, which differs from `MySocketHandler` only in that it
does not build a new model when a parameter is changed.
-/

namespace RSE

/-- a keyword argument for the model that the server knows -/
inductive VizParam (V : Type) where
  /-- a `UserSettableParameter`: whether it is a static text, its value, and what its setter makes of a value (sliders cut values off at their limits) -/
  | settable (static : Bool) (value : V) (coerce : V → V)
  | fixed (value : V)

/-- what the server needs to know of a model and its charts.  `step` returns the model as it is afterwards, even if an exception was raised. -/
structure ModelClass (V M S : Type) where
  make : List (String × V) → Py M
  running : M → Bool
  step : M → M × Option Err
  render : M → Py S

/-- the attributes of `MyModularServer` that change -/
structure Server (V M : Type) where
  kwargs : List (String × VizParam V)
  model : M

/-- a message from the browser -/
inductive Msg (V : Type) where
  | getStep
  | reset
  | submit (param : String) (value : V)
  | other

/-- a message to the browser -/
inductive Reply (S : Type) where
  | vizState (s : S)
  | finished

variable {V M S : Type}

/-- `isinstance(val, UserSettableParameter)` -/
def VizParam.isSettable : VizParam V → Bool
  | .settable _ _ _ => true
  | .fixed _ => false

/-- what is passed to the model for a parameter (myModularVisualization.py:140-149) -/
def VizParam.passed : VizParam V → Option V
  | .settable true _ _ => none
  | .settable false v _ => some v
  | .fixed v => some v

/-- `param.value = value` -/
def VizParam.set (v : V) : VizParam V → VizParam V
  | .settable st _ c => .settable st (c v) c
  | .fixed _ => .fixed v

/-- the keyword arguments of `reset_model` (myModularVisualization.py:137-149) -/
def modelParams (kwargs : List (String × VizParam V)) : List (String × V) :=
  kwargs.filterMap (fun e => e.2.passed.map (fun v => (e.1, v)))

/-- `reset_model` (myModularVisualization.py:137-151); if the constructor raises, the old model stays -/
def Server.resetModel (c : ModelClass V M S) (s : Server V M) : Server V M × Option Err :=
  match c.make (modelParams s.kwargs) with
  | .ok m => ({ s with model := m }, none)
  | .error e => (s, some e)

/-- `self.write_message(self.viz_state_message)` after an action that may have raised -/
def Server.show (c : ModelClass V M S) (r : Server V M × Option Err) : Server V M × List (Reply S) × Option Err :=
  match r.2 with
  | some e => (r.1, [], some e)
  | none =>
    match c.render r.1.model with
    | .ok x => (r.1, [.vizState x], none)
    | .error e => (r.1, [], some e)

/-- `on_message` (myModularVisualization.py:32-67): the server afterwards, the messages sent, and the exception, if one was raised -/
def Server.onMessage (c : ModelClass V M S) (s : Server V M) (m : Msg V) : Server V M × List (Reply S) × Option Err :=
  match m with
  | .getStep =>
    if c.running s.model then
      let r := c.step s.model
      Server.show c ({ s with model := r.1 }, r.2)
    else (s, [.finished], none)
  | .reset => Server.show c (s.resetModel c)
  | .submit p v =>
    match s.kwargs.lookup p with
    | some x =>
      if x.isSettable then
        let s := { s with kwargs := s.kwargs.map (fun e : String × VizParam V => if e.1 = p then (e.1, e.2.set v) else e) }
        let r := s.resetModel c
        (r.1, [], r.2)
      else (s, [], none)
    | none => (s, [], none)
  | .other => (s, [], none)

/-- several messages one after the other: the server in the end and what happened at each message -/
def Server.serve (c : ModelClass V M S) : Server V M → List (Msg V) → Server V M × List (List (Reply S) × Option Err)
  | s, [] => (s, [])
  | s, m :: t =>
    let r := s.onMessage c m
    let rest := Server.serve c r.1 t
    (rest.1, r.2 :: rest.2)

/-! ### The data of the charts -/

variable {F : Type} [LinearOrder F] [Zero F] [One F] [Add F] [Sub F] [Mul F] [Div F] [Neg F] [NatCast F] [FSum F]

/-- `data_collector.model_vars[name][-1]`; `none` for `KeyError` and `IndexError`, both of which the charts ignore -/
def latest (cols : List String) (rows : List (List (MetricValue F))) (name : String) : Option (MetricValue F) :=
  match cols.idxOf? name with
  | some j => rows.getLast?.bind (fun row => row[j]?)
  | none => none

/-- `MyChartModule.render` (myChartModule.py:38-49) -/
def chartRender (labels : List String) (cols : List String) (rows : List (List (MetricValue F))) : List (MetricValue F) :=
  labels.filterMap (latest cols rows)

/-- one turn of the loop of `StackedChartModule.render`: keys and values of a dict (of 'StakePairs' as well, but then they are not numbers; not modelled);
other values have no method `keys` -/
def stackedOne (v : MetricValue F) : Py (List Nat × List F) :=
  match v with
  | .dict d => .ok (d.map Prod.fst, d.map Prod.snd)
  | .pairs _ => .error .type
  | _ => .error .attr

/-- `StackedChartModule.render` (stackedChartModule.py:64-77): the last label with data wins -/
def stackedRender (labels : List String) (cols : List String) (rows : List (List (MetricValue F))) : Py (List Nat × List F) :=
  iterM (fun acc name => match latest cols rows name with
    | some v => stackedOne v
    | none => .ok acc) ([], []) labels

/-- the five numbers sent for a pool -/
def bubble (p : StakePairs F) (i : Nat) : Py (List (MetricValue F)) :=
  match p.x[i]?, p.y[i]?, p.r[i]?, p.poolId[i]?, p.ownerId[i]? with
  | some x, some y, some r, some a, some b => .ok [.num x, .num y, .num r, .nat a, .nat b]
  | _, _, _, _, _ => .error .index

/-- one turn of the loop of `BubbleChartModule.render` -/
def bubbleOne (v : MetricValue F) : Py (List (MetricValue F)) :=
  match v with
  | .pairs p => do
    let l ← (List.range p.x.length).mapM (bubble p)
    return l.flatten
  | .dict _ => .error .key
  | _ => .error .type

/-- `BubbleChartModule.render` (bubbleChartModule.py:59-80) -/
def bubbleRender (labels : List String) (cols : List String) (rows : List (List (MetricValue F))) : Py (List (MetricValue F)) :=
  iterM (fun acc name => match latest cols rows name with
    | some v => do
      let l ← bubbleOne v
      return acc ++ l
    | none => .ok acc) [] labels

/-- what the charts of runViz.py:13-25 show: the number of pools, the stake per operator, the pools -/
structure VizState (F : Type) where
  pools : List (MetricValue F)
  stacked : List Nat × List F
  bubbles : List (MetricValue F)

/-- `render_model` (myModularVisualization.py:153-162) for the charts of runViz.py:89-92 -/
def renderModel (cols : List String) (rows : List (List (MetricValue F))) : Py (VizState F) := do
  let a := chartRender ["Pool count"] cols rows
  let b ← stackedRender ["Stake per agent id"] cols rows
  let c ← bubbleRender ["StakePairs"] cols rows
  return ⟨a, b, c⟩

/-- A simulation as a model of the server; `make` runs the constructor.  If a step raises, the model of before is kept here (the state in which the
exception leaves it is not modelled). -/
def simClass {V W : Type} (make : List (String × V) → Py (Env W (List (MetricValue F)) × List String × Loop W (List (MetricValue F)))) :
    ModelClass V (Env W (List (MetricValue F)) × List String × Loop W (List (MetricValue F))) (VizState F) :=
  { make := make
    running := fun m => m.2.2.running
    step := fun m => match m.2.2.step m.1 with
      | .ok l => ((m.1, m.2.1, l), none)
      | .error e => (m, some e)
    render := fun m => renderModel m.2.1 m.2.2.rows }

end RSE
