import Verif.Model.Stakeholder

/-!
# logic/stakeholder.py, logic/sim.py: giving back the ids of drafts

`discard_draft_pools` is not called anywhere in the project ("unused for now").
-/

namespace RSE

variable {F : Type}

/-- `rewind_pool_id_seq` (sim.py:202-203).  The counter is a natural number here; in the program it could become negative.  It does not for the ids of a plan (`C133_discard`). -/
def rewindPoolIds (s : State F) (step : Nat) : State F := { s with idSeq := s.idSeq - step }

/-- `discard_draft_pools` (stakeholder.py:80-84); `σ` is `self.strategy`, `ω` the operator strategy.  The number of elements of the difference of the two sets of ids. -/
def discardDraftPools (s : State F) (σ ω : Strategy F) : State F :=
  rewindPoolIds s ((ω.owned.keys.dedup.filter (fun i => !σ.owned.keys.contains i)).length)

end RSE
