import Verif.Model.Execute

/-!
# logic/sim.py, logic/activations.py: phases and rounds

(The constructor is in `Model/Init.lean`, the loop around rounds in `Model/Loop.lean`.)
-/

namespace RSE

variable {F : Type} [LinearOrder F] [Zero F] [One F] [Add F] [Sub F] [Mul F] [Div F] [Neg F] [NatCast F] [FSum F]

/-- The values that `multi_phase_params` holds for the phase that begins (sim.py:418-424); `none`: no value for this phase.
Only the parameters that influence agents are listed; `max_iterations` is part of `Model/Loop.lean`, `agent_activation_order`
of `Model/Order.lean`; `n` and `generate_graphs` have no effect on the state. -/
structure PhaseParams (F : Type) where
  k : Option Nat := none
  a0 : Option F := none
  relThr : Option F := none
  absThr : Option F := none
  extraFrac : Option F := none

/-- sim.py:418-424: assign the new values (assigning `k = 0` raises) -/
def applyPhase (s : State F) (p : PhaseParams F) : Py (State F) := do
  let rs ← match p.k with
    | some k => s.rs.setK k
    | none => .ok s.rs
  let rs := match p.a0 with
    | some a => { rs with a0 := a }
    | none => rs
  return { s with
    rs := rs
    relThr := p.relThr.getD s.relThr
    absThr := p.absThr.getD s.absThr
    extraFrac := p.extraFrac.getD s.extraFrac }

/-- sim.py:415-417: take a pool out of both rankings -/
def unrank (s : State F) (r : Ref) : Py (State F) := do
  let l ← s.rank.remove (poolKey (s.heap r)) (some r)
  let lm ← s.rankM.remove (poolKeyM s.rs (s.heap r)) (some r)
  return { s with rank := l, rankM := lm }

/-- sim.py:425-429: re-evaluate a pool and put it back -/
def rerank (s : State F) (r : Ref) : Py (State F) :=
  let p := ((s.heap r).setProfit s.rs).setDesirability
  let s := s.setPool r p
  .ok { s with rank := s.rank.add (poolKey p) (some r), rankM := s.rankM.add (poolKeyM s.rs p) (some r) }

/-- `change_phase` (sim.py:412-431), the part that concerns pools and parameters -/
def changePhase (s : State F) (p : PhaseParams F) : Py (State F) := do
  let s ← iterM unrank s s.pools.vals
  let s ← applyPhase s p
  iterM rerank s s.pools.vals

/-! ### Events and rounds -/

/-- What can happen to a simulation: an agent is stepped, an agent is advanced, the parameters change, a round ends
(`current_step_idle = True`, sim.py:232).  `ord` resolves the iteration order of the sets met during the event. -/
inductive Event (F : Type) where
  | step (aid : Nat) (ord : List Nat → List Nat)
  | advance (aid : Nat) (ord : List Nat → List Nat)
  | phase (p : PhaseParams F)
  | roundEnd

/-- execute one event -/
def exec (s : State F) : Event F → Py (State F)
  | .step aid ord => agentStep ord s aid
  | .advance aid ord => advance ord s aid
  | .phase p => changePhase s p
  | .roundEnd => .ok { s with idle := true }

/-- one round with `BaseScheduler` ("sequential", `order` = agent ids as added) or `RandomActivation` ("random", `order` = a
random permutation of them); `ords` gives the set iteration order for the i-th agent to move -/
def roundSequential (ords : Nat → List Nat → List Nat) (order : List Nat) (s : State F) : Py (State F) :=
  iterM (fun s (e : Nat × Nat) => agentStep (ords e.2) s e.1) s order.zipIdx

/-- one round with Mesa's `SimultaneousActivation`: step all agents, then advance all agents -/
def roundSimultaneous (ords : Nat → List Nat → List Nat) (order : List Nat) (s : State F) : Py (State F) := do
  let s ← iterM (fun s (e : Nat × Nat) => agentStep (ords e.2) s e.1) s order.zipIdx
  iterM (fun s (e : Nat × Nat) => advance (ords (order.length + e.2)) s e.1) s order.zipIdx

/-- `SemiSimultaneousActivation.step` (activations.py:19-36), as the list of batches it processes: `sample` resolves
`random.sample(agent_keys, k)` (an oracle indexed by the number of remaining agents), `z` is `simultaneous_moves`.  Fuel: one unit
per batch. -/
def batches (z : Nat) (sample : List Nat → Nat → List Nat) : Nat → List Nat → List (List Nat)
  | 0, _ => []
  | fuel + 1, keys =>
    if keys.length > 0 then
      let k := if z < keys.length then z else keys.length
      let current := sample keys k
      current :: batches z sample fuel (keys.filter (fun key => !current.contains key))
    else []

/-- one batch: step all members, then advance all members (activations.py:28-31) -/
def runBatch (ords : Nat → List Nat → List Nat) (s : State F) (batch : List Nat) : Py (State F) := do
  let s ← iterM (fun s (e : Nat × Nat) => agentStep (ords e.2) s e.1) s batch.zipIdx
  iterM (fun s (e : Nat × Nat) => advance (ords (batch.length + e.2)) s e.1) s batch.zipIdx

/-- one round with `SemiSimultaneousActivation` (constructor: activations.py:13-16; `all_agents_move` keeps its default) -/
def roundSemi (z : Nat) (sample : List Nat → Nat → List Nat) (ords : Nat → Nat → List Nat → List Nat) (keys : List Nat)
    (s : State F) : Py (State F) :=
  iterM (fun s (e : List Nat × Nat) => runBatch (ords e.2) s e.1) s (batches z sample keys.length keys).zipIdx

end RSE
