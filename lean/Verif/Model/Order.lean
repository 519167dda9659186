import Verif.Model.Loop

/-!
# logic/sim.py: a list of values for `agent_activation_order`
-/

namespace RSE

variable {F : Type} [LinearOrder F] [Zero F] [One F] [Add F] [Sub F] [Mul F] [Div F] [Neg F] [NatCast F] [FSum F]

/-- `change_phase` for the field `agent_activation_order` (sim.py:71-74 lists it among the fields that may vary between phases, 418-424): the attribute
is assigned, which changes what `Stakeholder.step` does (stakeholder.py:41-45).  The scheduler `self.schedule` was chosen by the constructor (sim.py:105)
and stays as it is. -/
def setOrder (s : State F) (simultaneous : Bool) : State F := { s with simultaneous := simultaneous }

/-- a simulation whose phases also list activation orders; `orders i` is the value for phase `i` -/
def orderEnv {R : Type} (round : Nat → State F → Py (State F)) (report : State F → Py R) (conv : Int) (totalPhases : Nat)
    (phases : Nat → PhaseParams F) (orders : Nat → Option Bool) : Env (State F) R :=
  { simEnv round report conv totalPhases phases (fun _ => none) with
    newPhase := fun i s => do
      let s ← RSE.changePhase s (phases i)
      return match orders i with
        | some b => setOrder s b
        | none => s }

end RSE
