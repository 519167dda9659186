import Verif.Model.Rewards

/-!
# logic/helper.py: the arithmetic helpers (`lru_cache` is modelled separately in `Verif/Model/Cache.lean`)
-/

namespace RSE

variable {F : Type} [LinearOrder F] [Zero F] [One F] [Add F] [Sub F] [Mul F] [Div F] [Neg F] [NatCast F]

/-- `MIN_STAKE_UNIT = 2.2e-17` (helper.py:23) -/
def minUnit : F := ((22 : Nat) : F) / ((10 ^ 18 : Nat) : F)

/-- `boost = 1e-6` (stakeholder_profiles.py:62, 133) -/
def boost : F := ((1 : Nat) : F) / ((10 ^ 6 : Nat) : F)

/-- `calculate_potential_profit` (helper.py:158-169) -/
def potentialProfit (rs : RS F) (pledge cost : F) : F := rs.reward pledge (rs.sat pledge) - cost

/-- `calculate_current_profit` (helper.py:173-175); `hlp.calculate_pool_reward` (helper.py:178-179) is the method `RS.reward` -/
def currentProfit (rs : RS F) (stake pledge cost : F) : F := rs.reward pledge stake - cost

/-- `calculate_delegator_reward_from_pool` (helper.py:183-187) -/
def delegatorReward (margin cost reward frac : F) : F :=
  let marginFactor := (1 - margin) * frac
  let profit := reward - cost
  max (marginFactor * profit) 0

/-- `calculate_operator_reward_from_pool` (helper.py:191-194) -/
def operatorReward (margin cost reward frac : F) : F :=
  let marginFactor := margin + ((1 - margin) * frac)
  let profit := reward - cost
  if profit ≤ 0 then profit else profit * marginFactor

/-- `calculate_operator_utility_from_pool` (helper.py:283-287) -/
def operatorUtility (rs : RS F) (stake pledge margin cost : F) : Py F := do
  let r := rs.reward pledge stake
  let frac ← pyDiv pledge stake
  return operatorReward margin cost r frac

/-- `calculate_delegator_utility_from_pool` (helper.py:291-295) -/
def delegatorUtility (rs : RS F) (alloc stake pledge margin cost : F) : Py F := do
  let r := rs.reward pledge stake
  let frac ← pyDiv alloc stake
  return delegatorReward margin cost r frac

/-- `calculate_non_myopic_pool_stake_from_rank` (helper.py:299-300) -/
def nonMyopicStakeFromRank (pledge stake sat : F) (top : Bool) : F := if top then max sat stake else pledge

/-- `calculate_cost_per_pool` (helper.py:254-263; called by the method of this name, stakeholder.py:190-201):
`(c + (n - 1) * f * c) / n`, raising for `n = 0`. -/
def costPerPool (n : Nat) (cost frac : F) : Py F :=
  if n = 0 then .error .zeroDiv
  else .ok ((cost + ((n - 1 : Nat) : F) * frac * cost) / (n : F))

/-- `calculate_suitable_margin` (helper.py:267-269) -/
def suitableMargin (pp target : F) : F := max (if pp > 0 then 1 - target / pp else 0) 0

/-- `calculate_pool_desirability` (helper.py:273-274) and `calculate_myopic_pool_desirability` (helper.py:278-279),
which are the same formula applied to the potential resp. the current profit. -/
def desirability (margin profit : F) : F := max ((1 - margin) * profit) 0

/-- `calculate_pledge_per_pool` (helper.py:304-314; called by `determine_pledge_per_pool`, stakeholder.py:203-210) -/
def pledgePerPool (stake beta : F) (n : Nat) : Py F :=
  if n = 0 then .error .value else .ok (min (stake / (n : F)) beta)

/-- `calculate_pool_splitting_profit` (helper.py:461-462) -/
def splittingProfit (a0 phi cost stake : F) : F := (1 + a0) * (1 - phi) * cost - totalRewards * stake * a0

end RSE
