import Verif.Model.Loop

/-!
# Vocabulary for runs

The history of a run, described by the rounds that took place.
-/

namespace RSE

variable {W R : Type}

/-- one round of a run -/
structure Round (W : Type) where
  /-- the world in which the round starts -/
  before : W
  /-- the world right after the agents acted -/
  after : W
  /-- a new phase begins after the round -/
  phaseChange : Bool

/-- no agent moved in the round -/
def Round.Idle (env : Env W R) (r : Round W) : Prop := env.idle r.after = true

/-- the number of phase changes -/
def changes (h : List (Round W)) : Nat := h.countP (·.phaseChange)

/-- `History env w h w'`: starting from `w`, the rounds `h` took place one after the other and led to `w'` -/
inductive History (env : Env W R) (w : W) : List (Round W) → W → Prop
  | start : History env w [] w
  | round {h w₁ w₂} : History env w h w₁ → env.round h.length w₁ = .ok w₂ → History env w (h ++ [⟨w₁, w₂, false⟩]) (env.rearm w₂)
  | change {h w₁ w₂ w₃} : History env w h w₁ → env.round h.length w₁ = .ok w₂ → env.newPhase (changes h + 1) w₂ = .ok w₃ →
      History env w (h ++ [⟨w₁, w₂, true⟩]) (env.rearm w₃)

/-- the last `n` rounds of the history exist and were idle -/
def LastIdle (env : Env W R) (h : List (Round W)) (n : Int) : Prop :=
  n ≤ h.length ∧ ∀ i (hi : i < h.length), (h.length : Int) - n ≤ i → (h[i]).Idle env

end RSE
