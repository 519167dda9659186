import Verif.Model.Reporters

/-!
# logic/model_reporters.py:162-195: the minimum aggregate pledge

The reporter states a binary program and hands it to GEKKO, an external mixed-integer solver.  The program is modelled; the solver is a parameter.
-/

namespace RSE

variable {F : Type} [LinearOrder F] [Zero F] [One F] [Add F] [Sub F] [Mul F] [Div F] [Neg F] [NatCast F] [FSum F]

/-- the solver: given the coefficients of the objective, those of the constraint and its lower bound, the value `objfcnval` of the objective in the
solution, or `none` if it raises an exception -/
abbrev BinarySolver (F : Type) := List F → List F → F → Option F

/-- `get_min_aggregate_pledge` (model_reporters.py:163-195).  The ids (172) are not used. -/
def minAggregatePledge (solve : BinarySolver F) (s : State F) : F :=
  if (poolsList s).length = 0 then 0
  else
    let pledges := (poolsList s).map (fun p => p.pledge)
    let stakes := (poolsList s).map (fun p => p.stake)
    match solve pledges stakes (stakes.foldl (· + ·) 0 / ((2 : Nat) : F)) with
    | some v => v
    | none => -((2 : Nat) : F)

end RSE
