import Verif.Model.Init

/-!
# Vocabulary of the properties of whole simulations

What it means that a state occurs in some simulation, and what a property says about a state.  Nothing here is used by the model.
-/

namespace RSE

variable {F : Type} [LinearOrder F] [Zero F] [One F] [Add F] [Sub F] [Mul F] [Div F] [Neg F] [NatCast F] [FSum F]

/-- An event concerns one of the `n` agents; the unknown iteration order of sets is some permutation. -/
def Event.Valid (n : Nat) : Event F → Prop
  | .step a ord => a < n ∧ ∀ l, (ord l).Perm l
  | .advance a ord => a < n ∧ ∀ l, (ord l).Perm l
  | .phase _ => True
  | .roundEnd => True

/-- `s` occurs in a simulation configured by `c`: some sequence of agent turns, phase changes and round ends, in any order, leads
from the state built by the constructor to `s` without an exception. -/
def Reachable (c : Config F) (s : State F) : Prop :=
  ∃ es : List (Event F), (∀ e ∈ es, e.Valid c.people.length) ∧ iterM exec (initState c) es = .ok s

/-- The same without phase changes (a simulation none of whose parameters is a list). -/
def ReachableSinglePhase (c : Config F) (s : State F) : Prop :=
  ∃ es : List (Event F), (∀ e ∈ es, e.Valid c.people.length ∧ ∀ p, e ≠ .phase p) ∧ iterM exec (initState c) es = .ok s

/-- agent `b` says that it delegates `x` to pool `pid` -/
def Says (s : State F) (b pid : Nat) (x : F) : Prop :=
  ∃ ag σ, s.agents.get? b = some ag ∧ ag.strategy = some σ ∧ σ.allocs.get? pid = some x

/-- pool `pid` is open and records a delegation `x` of agent `b` -/
def Records (s : State F) (pid b : Nat) (x : F) : Prop :=
  ∃ r, s.pools.get? pid = some r ∧ (s.heap r).delegators.get? b = some x

/-- agent `a` says that it operates pool `pid`, and means the pool object `r` -/
def Operates (s : State F) (a pid : Nat) (r : Ref) : Prop :=
  ∃ ag σ, s.agents.get? a = some ag ∧ ag.strategy = some σ ∧ σ.owned.get? pid = some r

/-- what pools record of agent `b` is what strategy `σ` says -/
def InRecords (s : State F) (b : Nat) (σ : Strategy F) : Prop := ∀ pid x, Records s pid b x ↔ σ.allocs.get? pid = some x

/-- pool `pid` is open -/
def IsOpen (s : State F) (pid : Nat) : Prop := ∃ r, s.pools.get? pid = some r

end RSE
