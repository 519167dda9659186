import Verif.Model.Rewards
import Mathlib.Analysis.SpecialFunctions.Pow.Real

/-!
# logic/reward_schemes.py: CurvePledgeBenefitRSS (CIP-7), over the real numbers

The scheme uses fractional powers, so it is modelled over `ℝ`, with `Real.rpow` for `**`.  On the inputs considered (base ≥ 0, exponent ≥ 0) the two
agree mathematically; Python would return a complex number for a negative base and raise for a zero base with a negative exponent.
-/

namespace RSE

/-- `crossover` (reward_schemes.py:85) -/
noncomputable def curveCrossover (beta crossoverFactor : ℝ) : ℝ := beta / crossoverFactor

/-- `pledge_factor` (reward_schemes.py:86-87) -/
noncomputable def curvePledgeFactor (beta crossoverFactor root pledge : ℝ) : ℝ :=
  pledge ^ (1 / root) * curveCrossover beta crossoverFactor ^ ((root - 1) / root)

/-- `CurvePledgeBenefitRSS.calculate_pool_reward` (reward_schemes.py:84-93) -/
noncomputable def curveReward (beta a0 crossoverFactor root pledge stake : ℝ) : ℝ :=
  let p := min (curvePledgeFactor beta crossoverFactor root pledge) beta
  let s := min stake beta
  (totalRewards / (1 + a0)) * (s + (p * a0 * ((s - p * (1 - s / beta)) / beta)))

end RSE
