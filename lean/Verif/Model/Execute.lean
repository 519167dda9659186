import Verif.Model.Stakeholder

/-!
# logic/stakeholder.py: executing a strategy
-/

namespace RSE

variable {F : Type} [LinearOrder F] [Zero F] [One F] [Add F] [Sub F] [Mul F] [Div F] [Neg F] [NatCast F] [FSum F]

/-- the loop of `remove_delegations` (stakeholder.py:386-389) over the delegators of the pool object `r` -/
def undelegateAll (s : State F) (r : Ref) : List Nat → Py (State F)
  | [] => .ok s
  | aid :: t => do
    let a ← s.agents.getE aid
    match a.strategy with
    | none => .error .attr
    | some σ => do
      let allocs ← σ.allocs.popE (s.heap r).id
      let s := s.setAgent { a with strategy := some { σ with allocs := allocs } }
      undelegateAll (s.setPool r ((s.heap r).updateDelegation 0 aid)) r t

/-- stakeholder.py:393-395: drop the pool from a staged strategy -/
def unstage (pid : Nat) (a : Agent F) : Agent F :=
  { a with newStrategy := a.newStrategy.map (fun ν => { ν with allocs := ν.allocs.erase pid }) }

/-- `remove_delegations(pool)` (stakeholder.py:383-395) -/
def removeDelegations (s : State F) (r : Ref) : Py (State F) := do
  let s ← undelegateAll s r (s.heap r).delegators.keys
  if s.simultaneous then
    return { s with agents := s.agents.map (fun e => (e.1, unstage (s.heap r).id e.2)) }
  else return s

/-- `close_pool(pool_id)` (stakeholder.py:373-381) -/
def closePool (s : State F) (pid : Nat) : Py (State F) := do
  let r ← s.pools.getE pid
  let l ← s.rank.remove (poolKey (s.heap r)) (some r)
  let lm ← s.rankM.remove (poolKeyM s.rs (s.heap r)) (some r)
  let s ← removeDelegations { s with rank := l, rankM := lm } r
  let pools ← s.pools.popE pid
  return { s with pools := pools }

/-- `update_pool(pool_id)` (stakeholder.py:352-364) and the assignment `current_pools[pool_id] = ...` (345), which stores the
same object a second time -/
def updatePool (s : State F) (aid : Nat) (pid : Nat) : Py (State F) := do
  let me ← s.agents.getE aid
  match me.newStrategy with
  | none => .error .attr
  | some ν => do
    let r' ← ν.owned.getE pid
    let s ← (if (s.heap r').isPrivate = true ∧ (s.heap r').stake > (s.heap r').pledge then removeDelegations s r'
      else .ok s : Py (State F))
    let s := { s with pools := s.pools.set pid r' }
    let me ← s.agents.getE aid
    match me.strategy with
    | none => .error .attr
    | some σ => do
      let r ← σ.owned.getE pid
      let l ← s.rank.remove (poolKey (s.heap r)) (some r)
      let l := l.add (poolKey (s.heap r')) (some r')
      let lm ← s.rankM.remove (poolKeyM s.rs (s.heap r)) (some r)
      let lm := lm.add (poolKeyM s.rs (s.heap r')) (some r')
      return { s with rank := l, rankM := lm, pools := s.pools.set pid r' }

/-- `open_pool(pool_id)` (stakeholder.py:366-371) -/
def openPool (s : State F) (aid : Nat) (pid : Nat) : Py (State F) := do
  let me ← s.agents.getE aid
  match me.strategy with
  | none => .error .attr
  | some σ => do
    let r ← σ.owned.getE pid
    return { s with
      pools := s.pools.set pid r
      rank := s.rank.add (poolKey (s.heap r)) (some r)
      rankM := s.rankM.add (poolKeyM s.rs (s.heap r)) (some r) }

/-- `for x in l: s = f(s, x)` -/
def iterM {α σ : Type} (f : σ → α → Py σ) : σ → List α → Py σ
  | s, [] => .ok s
  | s, x :: t => do
    let s ← f s x
    iterM f s t

/-- `execute_strategy` (stakeholder.py:314-350) -/
def executeStrategy (ord : List Nat → List Nat) (s : State F) (aid : Nat) : Py (State F) := do
  let me ← s.agents.getE aid
  match me.strategy, me.newStrategy with
  | some σ, some ν => do
    let s ← setDelegations s aid ((ord (σ.allocs.keys.filter (fun pid => !ν.allocs.contains pid))).map (fun pid => (pid, 0)))
    let s ← setDelegations s aid ν.allocs
    let s ← iterM closePool s (ord (σ.owned.keys.filter (fun pid => !ν.owned.contains pid)))
    let s ← iterM (fun s pid => updatePool s aid pid) s (ord (ν.owned.keys.filter (fun pid => σ.owned.contains pid)))
    let me ← s.agents.getE aid
    let s := s.setAgent { me with strategy := me.newStrategy, newStrategy := none }
    iterM (fun s pid => openPool s aid pid) s (ord (ν.owned.keys.filter (fun pid => !σ.owned.contains pid)))
  | _, _ => .error .attr

/-- `advance` (stakeholder.py:47-51) -/
def advance (ord : List Nat → List Nat) (s : State F) (aid : Nat) : Py (State F) := do
  let me ← s.agents.getE aid
  match me.newStrategy with
  | none => return s
  | some _ => do
    let s ← executeStrategy ord s aid
    return { s with idle := false }

/-- `step` (stakeholder.py:39-45) -/
def agentStep (ord : List Nat → List Nat) (s : State F) (aid : Nat) : Py (State F) := do
  let s ← updateStrategy ord s aid
  if s.simultaneous then return s else advance ord s aid

end RSE
