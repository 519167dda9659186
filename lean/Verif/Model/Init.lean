import Verif.Model.Sim

/-!
# logic/sim.py: the constructor; logic/helper.py: initial distributions
-/

namespace RSE

variable {F : Type} [LinearOrder F] [Zero F] [One F] [Add F] [Sub F] [Mul F] [Div F] [Neg F] [NatCast F] [FSum F]

/-- `Simulation.normalize_agent_stake` (sim.py:178-193): the new stakes and `norm_total_stake`.  `agent` after the loop is the last
agent; without agents line 191 raises `UnboundLocalError` (a subclass of `NameError`; not reachable, `total_stake > 0`). -/
def normalizeStakes (stakes : List F) (total : F) : List F × F :=
  let scaled := stakes.map (· / total)
  let sum := scaled.foldl (· + ·) 0
  if sum = 1 then (scaled, sum)
  else
    let err := 1 - sum
    (scaled.dropLast ++ (match scaled.getLast? with
      | some x => [x + err]
      | none => []), sum + err)

/-- the treatment of the agents' stakes in the constructor (sim.py:114-127): final stakes and `total_stake` -/
def initialStakes (stakes : List F) (inactive : F) : Py (List F × F) := do
  let total ← pyDiv (stakes.foldl (· + ·) 0) (1 - inactive)
  if total ≤ 0 then .error .value
  else if total = 1 then .ok (stakes, total)
  else .ok (normalizeStakes stakes total)

/-- a new agent (stakeholder.py:14-22, stakeholder_profiles.py:168-171) -/
def newAgent (id : Nat) (stake cost : F) (profile : Profile) : Agent F :=
  { id := id, stake := stake, cost := cost, profile := profile,
    strategy := (match profile with
      | .abstainer => none
      | _ => some { allocs := [], owned := [] }),
    newStrategy := none }

/-- a pool value for unallocated references (never read); `owner` is no agent's id -/
def blankPool (owner : Nat) : Pool F :=
  { id := 0, cost := 0, pledge := 0, stake := 0, owner := owner, isPrivate := false, delegators := [], pp := 0, margin := 0, des := 0 }

/-- what the caller chooses -/
structure Config (F : Type) where
  rs : RS F
  relThr : F
  absThr : F
  extraFrac : F
  simultaneous : Bool
  /-- (stake, cost, profile) of the agents after the stakes were normalised -/
  people : List (F × F × Profile)
  totalStake : F

/-- the state at the end of `Simulation.__init__` (sim.py:98-136, 167-175): no pools, both rankings padded with `k + 1` `None`s -/
def initState (c : Config F) : State F :=
  { rs := c.rs, relThr := c.relThr, absThr := c.absThr, extraFrac := c.extraFrac, totalStake := c.totalStake,
    simultaneous := c.simultaneous,
    agents := c.people.zipIdx.map (fun e => (e.2, newAgent e.2 e.1.1 e.1.2.1 e.1.2.2)),
    pools := [], heap := fun _ => blankPool c.people.length, next := 0,
    rank := List.replicate (c.rs.k + 1) (noneKey, none),
    rankM := List.replicate (c.rs.k + 1) (noneKeyM, none),
    idSeq := 0, idle := true }

end RSE
