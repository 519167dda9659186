import Verif.Model.Pool
import Verif.Py.SortedKeyList
import Mathlib.Logic.Function.Basic

/-!
# The state of a simulation: logic/strategy.py, attributes of `Stakeholder` and `Simulation`
-/

namespace RSE

/-- A `Strategy` object (strategy.py:1-11).  `owned` holds references to pool objects; allocation dictionaries are never
shared between two strategies, so they are values. -/
structure Strategy (F : Type) where
  allocs : Dict F := []
  owned : Dict Ref := []

/-- `PROFILE_MAPPING` (stakeholder_profiles.py:177-181) -/
inductive Profile where
  | nonMyopic | myopic | abstainer
  deriving DecidableEq, Repr

/-- A `Stakeholder` (stakeholder.py:14-22; an `Abstainer` has `strategy = None`, stakeholder_profiles.py:168-171). -/
structure Agent (F : Type) where
  id : Nat
  stake : F
  cost : F
  profile : Profile
  strategy : Option (Strategy F)
  newStrategy : Option (Strategy F)

/-- The mutable part of a `Simulation` (sim.py:66-136) that the agents read and write, plus the heap of pool objects:
`heap r` is the pool object with identity `r`, identities `< next` are allocated.  `simultaneous` is the test
`"simultaneous" in self.model.agent_activation_order.lower()`. -/
structure State (F : Type) where
  rs : RS F
  relThr : F
  absThr : F
  extraFrac : F
  totalStake : F
  simultaneous : Bool
  agents : Dict (Agent F)
  pools : Dict Ref
  heap : Ref → Pool F
  next : Ref
  rank : SKL (Key F) (Option Ref)
  rankM : SKL (KeyM F) (Option Ref)
  idSeq : Nat
  idle : Bool

namespace State

variable {F : Type}

/-- overwrite the pool object with identity `r` -/
def setPool (s : State F) (r : Ref) (p : Pool F) : State F := { s with heap := Function.update s.heap r p }

/-- create a new pool object; the new identity is `s.next` -/
def alloc (s : State F) (p : Pool F) : State F :=
  { s with heap := Function.update s.heap s.next p, next := s.next + 1 }

/-- overwrite an agent object (agents are stored under their `unique_id`) -/
def setAgent (s : State F) (a : Agent F) : State F := { s with agents := s.agents.set a.id a }

end State
end RSE
