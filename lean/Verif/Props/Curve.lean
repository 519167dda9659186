import Verif.Model.Curve
import Mathlib.Tactic.Linarith
import Mathlib.Tactic.NormNum
import Mathlib.Tactic.FieldSimp
import Mathlib.Tactic.Ring

/-!
# C06: the CIP-7 scheme
-/

namespace RSE.Props

/-- C06.  With `curve_root = 1` the scheme is Cardano's, for all inputs. -/
theorem C06_root_one (k : Nat) (beta a0 crossoverFactor pledge stake : ℝ) :
    curveReward beta a0 crossoverFactor 1 pledge stake =
      ({ scheme := .cardano, k := k, beta := beta, a0 := a0 } : RS ℝ).reward pledge stake := by
  have h : curvePledgeFactor beta crossoverFactor 1 pledge = pledge := by simp [curvePledgeFactor]
  unfold curveReward RS.reward
  rw [h]

theorem factor_split {r x : ℝ} (hr : 1 ≤ r) (hx : 0 ≤ x) : x ^ (1 / r) * x ^ ((r - 1) / r) = x := by
  have hr0 : (0 : ℝ) < r := by linarith
  rcases hx.eq_or_lt with rfl | hx
  · rw [Real.zero_rpow (by positivity), zero_mul]
  · rw [← Real.rpow_add hx, show 1 / r + (r - 1) / r = 1 by field_simp; ring, Real.rpow_one]

/-- What the crossover point is: pledges below it count for more than they are, pledges above it for less. -/
theorem C06_crossover (beta crossoverFactor root pledge : ℝ) (hr : 1 ≤ root) (hp : 0 ≤ pledge) (hc : 0 ≤ curveCrossover beta crossoverFactor) :
    (pledge ≤ curveCrossover beta crossoverFactor → pledge ≤ curvePledgeFactor beta crossoverFactor root pledge) ∧
    (curveCrossover beta crossoverFactor ≤ pledge → curvePledgeFactor beta crossoverFactor root pledge ≤ pledge) := by
  have hr0 : (0 : ℝ) < root := by linarith
  have he : 0 ≤ (root - 1) / root := div_nonneg (by linarith) hr0.le
  refine ⟨fun h => ?_, fun h => ?_⟩
  · conv_lhs => rw [← factor_split hr hp]
    exact mul_le_mul_of_nonneg_left (Real.rpow_le_rpow hp h he) (Real.rpow_nonneg hp _)
  · conv_rhs => rw [← factor_split hr hp]
    exact mul_le_mul_of_nonneg_left (Real.rpow_le_rpow hc h he) (Real.rpow_nonneg hp _)

/-- A saturated pool gets at most the threshold, and more with more pledge. -/
theorem C06_saturated (beta a0 crossoverFactor root pledge pledge' stake : ℝ) (hb : 0 < beta) (ha : 0 ≤ a0) (hr : 1 ≤ root) (hp : 0 ≤ pledge)
    (hpp : pledge ≤ pledge') (hc : 0 ≤ curveCrossover beta crossoverFactor) (hs : beta ≤ stake) :
    beta / (1 + a0) ≤ curveReward beta a0 crossoverFactor root pledge stake ∧
    curveReward beta a0 crossoverFactor root pledge stake ≤ curveReward beta a0 crossoverFactor root pledge' stake ∧
    curveReward beta a0 crossoverFactor root pledge stake ≤ beta := by
  have hr0 : (0 : ℝ) < root := by linarith
  have h1a : (0 : ℝ) < 1 + a0 := by linarith
  have hval : ∀ x, curveReward beta a0 crossoverFactor root x stake =
      (beta + min (curvePledgeFactor beta crossoverFactor root x) beta * a0) / (1 + a0) := by
    intro x
    unfold curveReward totalRewards
    rw [min_eq_right hs]
    simp only [div_self hb.ne', sub_self, mul_zero, sub_zero, mul_one]
    ring
  have hf : 0 ≤ curvePledgeFactor beta crossoverFactor root pledge := mul_nonneg (Real.rpow_nonneg hp _) (Real.rpow_nonneg hc _)
  have hm : curvePledgeFactor beta crossoverFactor root pledge ≤ curvePledgeFactor beta crossoverFactor root pledge' :=
    mul_le_mul_of_nonneg_right (Real.rpow_le_rpow hp hpp (by positivity)) (Real.rpow_nonneg hc _)
  have hmin := min_le_min_right beta hm
  rw [hval, hval]
  refine ⟨?_, ?_, ?_⟩
  · rw [div_le_div_iff_of_pos_right h1a]
    have := mul_nonneg (le_min hf hb.le) ha
    linarith
  · rw [div_le_div_iff_of_pos_right h1a]
    have := mul_le_mul_of_nonneg_right hmin ha
    linarith
  · rw [div_le_iff₀ h1a]
    have := mul_le_mul_of_nonneg_right (min_le_right (curvePledgeFactor beta crossoverFactor root pledge) beta) ha
    linarith

/-- Rewards can be negative although the pledge is at most the stake (which is impossible with Cardano's scheme): crossover factor 8, root 3 (as suggested in
CIP-7), `k = 1`, `a0 = 10` and a pool that consists of its pledge of 1/1000. -/
theorem C06_negative : ∃ beta a0 crossoverFactor root pledge stake : ℝ, 0 < beta ∧ 0 ≤ a0 ∧ 1 < root ∧ 1 < crossoverFactor ∧ 0 < pledge ∧
    pledge ≤ stake ∧ stake ≤ beta ∧ curveReward beta a0 crossoverFactor root pledge stake < 0 := by
  refine ⟨1, 10, 8, 3, 1 / 1000, 1 / 1000, by norm_num, by norm_num, by norm_num, by norm_num, by norm_num, le_rfl, by norm_num, ?_⟩
  have h1 : ((1 : ℝ) / 1000) ^ ((1 : ℝ) / 3) = 1 / 10 := by
    rw [show ((1 : ℝ) / 1000) = (1 / 10) ^ (3 : ℕ) by norm_num, ← Real.rpow_natCast, ← Real.rpow_mul (by norm_num)]
    norm_num
  have h2 : ((1 : ℝ) / 8) ^ (((3 : ℝ) - 1) / 3) = 1 / 4 := by
    rw [show ((1 : ℝ) / 8) = (1 / 2) ^ (3 : ℕ) by norm_num, ← Real.rpow_natCast, ← Real.rpow_mul (by norm_num)]
    rw [show ((3 : ℕ) : ℝ) * ((3 - 1) / 3) = ((2 : ℕ) : ℝ) by norm_num, Real.rpow_natCast]
    norm_num
  have hf : curvePledgeFactor 1 8 3 (1 / 1000) = 1 / 40 := by
    unfold curvePledgeFactor curveCrossover
    rw [h1, h2]
    norm_num
  unfold curveReward totalRewards
  rw [hf]
  norm_num

/-- the hypotheses of the crossover theorem with the values of CIP-7 -/
example : (1 / 1000 : ℝ) ≤ curvePledgeFactor 1 8 3 (1 / 1000) :=
  (C06_crossover 1 8 3 (1 / 1000) (by norm_num) (by norm_num) (by norm_num [curveCrossover])).1 (by norm_num [curveCrossover])

example : curveReward 1 (3 / 10) 8 3 (1 / 1000) 2 ≤ curveReward 1 (3 / 10) 8 3 (1 / 10) 2 :=
  (C06_saturated 1 (3 / 10) 8 3 (1 / 1000) (1 / 10) 2 (by norm_num) (by norm_num) (by norm_num) (by norm_num) (by norm_num)
    (by norm_num [curveCrossover]) (by norm_num)).2.1

end RSE.Props
