import Verif.Py.Basic

/-!
# logic/reward_schemes.py
-/

namespace RSE

/-- The reward schemes that a `Simulation` can actually be constructed with: `RSS_MAPPING` (reward_schemes.py:119-125)
without entry 3 (`CurvePledgeBenefitRSS`), whose constructor needs two more arguments than `Simulation.__init__` passes
(see `Verif/Model/Init.lean`); that scheme is modelled separately over `ℝ` in `Verif/Model/Curve.lean`. -/
inductive Scheme where
  | cardano     -- 0: CardanoRSS
  | simplified  -- 1: SimplifiedRSS
  | flat        -- 2: FlatPledgeBenefitRSS
  | cip50       -- 4: CIP50RSS
  deriving DecidableEq, Repr

/-- An `RSS` object (reward_schemes.py:4-26): the scheme, `_k`, `global_saturation_threshold` and `a0`. -/
structure RS (F : Type) where
  scheme : Scheme
  k : Nat
  beta : F
  a0 : F

variable {F : Type} [LinearOrder F] [Zero F] [One F] [Add F] [Sub F] [Mul F] [Div F] [NatCast F]

/-- The `k` setter (reward_schemes.py:20-26) for a natural number `k`: raises for 0, otherwise sets
`_k = k` and `global_saturation_threshold = 1 / k`. -/
def RS.setK (rs : RS F) (k : Nat) : Py (RS F) :=
  if k = 0 then .error .value else .ok { rs with k := k, beta := 1 / (k : F) }

/-- `TOTAL_EPOCH_REWARDS_R` (reward_schemes.py:1) -/
def totalRewards : F := 1

/-- `get_pool_saturation_threshold` (reward_schemes.py:31-39, 114-116) -/
def RS.sat (rs : RS F) (pledge : F) : F :=
  match rs.scheme with
  | .cip50 => min (rs.a0 * pledge) rs.beta
  | _ => rs.beta

/-- `calculate_pool_reward(pool_pledge, pool_stake)` (reward_schemes.py:46-52, 59-64, 71-75, 109-112; 28-29 is the abstract method).
The divisions are by `global_saturation_threshold = 1/k` and by `1 + a0`; they are plain divisions here, so results about
this function are about schemes with `beta ≠ 0` and `a0 ≠ -1`.  (A `Simulation` with `a0 = -1` cannot be constructed:
`export_initial_state_desc_file` computes rewards and raises `ZeroDivisionError`.) -/
def RS.reward (rs : RS F) (pledge stake : F) : F :=
  match rs.scheme with
  | .cardano =>
    let p := min pledge rs.beta
    let s := min stake rs.beta
    (totalRewards / (1 + rs.a0)) * (s + (p * rs.a0 * ((s - p * (1 - s / rs.beta)) / rs.beta)))
  | .simplified =>
    let p := min pledge rs.beta
    let s := min stake rs.beta
    (totalRewards / (1 + rs.a0)) * s * (1 + (rs.a0 * p / rs.beta))
  | .flat =>
    let p := min pledge rs.beta
    let s := min stake rs.beta
    (totalRewards / (1 + rs.a0)) * (s + rs.a0 * p)
  | .cip50 => totalRewards * min stake (rs.sat pledge)

end RSE
