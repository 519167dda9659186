import Verif.Lemmas.Rewards
import Mathlib.Algebra.Order.Field.Rat

/-!
# C01, C02, C03: rewards of a pool (exact arithmetic, any ordered field)

`rs` is any reward scheme object with `global_saturation_threshold > 0` and `a0 ≥ 0`; in particular `1/k` for `k ≥ 1`.
-/

set_option linter.unusedSectionVars false

namespace RSE.Props
variable {K : Type} [Field K] [LinearOrder K] [IsStrictOrderedRing K]

/-- C01.  For every scheme a simulation can be built with, a pool's reward is between 0 and its stake, and at most
its saturation threshold, whenever `0 ≤ pledge ≤ stake`. -/
theorem C01_reward_bounds (rs : RS K) (hb : 0 < rs.beta) (ha : 0 ≤ rs.a0) (pledge stake : K)
    (hp : 0 ≤ pledge) (hps : pledge ≤ stake) :
    0 ≤ rs.reward pledge stake ∧ rs.reward pledge stake ≤ stake ∧ rs.reward pledge stake ≤ rs.sat pledge := by
  have h1 : (0 : K) < 1 + rs.a0 := by linarith
  have hs : 0 ≤ stake := hp.trans hps
  have p0 : 0 ≤ min pledge rs.beta := le_min hp hb.le
  have s0 : 0 ≤ min stake rs.beta := le_min hs hb.le
  have pb : min pledge rs.beta ≤ rs.beta := min_le_right _ _
  have sb : min stake rs.beta ≤ rs.beta := min_le_right _ _
  have ss : min stake rs.beta ≤ stake := min_le_left _ _
  have ps : min pledge rs.beta ≤ min stake rs.beta := min_le_min_right _ hps
  rcases h : rs.scheme with _ | _ | _ | _
  · rw [sat_of_ne (by simp [h]), reward_cardano h]
    have a := cardanoBracket_nonneg hb ha p0 ps
    have b := cardanoBracket_le hb ha p0 pb ps sb
    refine ⟨by positivity, ?_, ?_⟩ <;> rw [div_le_iff₀ h1] <;> nlinarith
  · rw [sat_of_ne (by simp [h]), reward_simplified h]
    have hq : min pledge rs.beta / rs.beta ≤ 1 := (div_le_one hb).2 pb
    have hq' : rs.a0 * min pledge rs.beta / rs.beta ≤ rs.a0 := by
      rw [mul_div_assoc]; nlinarith
    refine ⟨by positivity, ?_, ?_⟩ <;> rw [div_le_iff₀ h1] <;> nlinarith
  · rw [sat_of_ne (by simp [h]), reward_flat h]
    refine ⟨by positivity, ?_, ?_⟩ <;> rw [div_le_iff₀ h1] <;> nlinarith
  · rw [sat_cip50 h, reward_cip50 h]
    exact ⟨le_min hs (le_min (by positivity) hb.le), min_le_left _ _, min_le_right _ _⟩

/-- the hypotheses of C01 are satisfiable, with a strictly positive reward below the stake -/
example : (⟨.cardano, 10, 1/10, 3/10⟩ : RS ℚ).reward (1/50) (1/20) = 131/3250 ∧ (0 : ℚ) < 131/3250 ∧ (131/3250 : ℚ) < 1/20 := by
  decide +kernel

/-- Without `pledge ≤ stake` the claim is false: the reward of Cardano's formula can be negative. -/
theorem C01_needs_pledge_le_stake :
    ¬ ∀ (rs : RS ℚ) (pledge stake : ℚ), 0 < rs.beta → 0 ≤ rs.a0 → 0 ≤ pledge → 0 ≤ stake → 0 ≤ rs.reward pledge stake := by
  intro h
  have := h ⟨.cardano, 1, 1, 10⟩ 1 (1/10) (by decide +kernel) (by decide +kernel) (by decide +kernel) (by decide +kernel)
  revert this; decide +kernel

/-- C02.  The reward is non-decreasing in the stake. -/
theorem C02_reward_mono_stake (rs : RS K) (hb : 0 < rs.beta) (ha : 0 ≤ rs.a0) (pledge : K) (hp : 0 ≤ pledge)
    (stake stake' : K) (h : stake ≤ stake') : rs.reward pledge stake ≤ rs.reward pledge stake' := by
  have h1 : (0 : K) < 1 + rs.a0 := by linarith
  have p0 : 0 ≤ min pledge rs.beta := le_min hp hb.le
  have hs : min stake rs.beta ≤ min stake' rs.beta := min_le_min_right _ h
  rcases hk : rs.scheme with _ | _ | _ | _
  · rw [reward_cardano hk, reward_cardano hk]
    have := cardanoBracket_mono (s := min stake rs.beta) hb ha p0 hs
    gcongr
  · rw [reward_simplified hk, reward_simplified hk]; gcongr
  · rw [reward_flat hk, reward_flat hk]; gcongr
  · rw [reward_cip50 hk, reward_cip50 hk]; exact min_le_min_right _ h

/-- C02.  Beyond the saturation threshold additional stake earns nothing. -/
theorem C02_reward_const_past_saturation (rs : RS K) (pledge stake : K) (h : rs.sat pledge ≤ stake) :
    rs.reward pledge stake = rs.reward pledge (rs.sat pledge) := by
  rcases hk : rs.scheme with _ | _ | _ | _
  case cip50 =>
    rw [sat_cip50 hk] at h ⊢; rw [reward_cip50 hk, reward_cip50 hk, min_eq_right h, min_self]
  all_goals
    rw [sat_of_ne (by simp [hk])] at h ⊢
    unfold RS.reward; rw [hk]; simp only [min_eq_right h, min_self]

/-- C02: monotonicity is not vacuous - below saturation the reward is strictly larger with more stake -/
example : (⟨.cardano, 10, 1/10, 3/10⟩ : RS ℚ).reward (1/50) (1/20) < (⟨.cardano, 10, 1/10, 3/10⟩ : RS ℚ).reward (1/50) (2/20) := by
  decide +kernel

/-- C03.  At or above the global saturation threshold a larger pledge never lowers the reward, in any scheme. -/
theorem C03_pledge_mono_saturated (rs : RS K) (hb : 0 < rs.beta) (ha : 0 ≤ rs.a0) (stake : K) (hs : rs.beta ≤ stake)
    (pledge pledge' : K) (h : pledge ≤ pledge') : rs.reward pledge stake ≤ rs.reward pledge' stake := by
  have h1 : (0 : K) < 1 + rs.a0 := by linarith
  have hp : min pledge rs.beta ≤ min pledge' rs.beta := min_le_min_right _ h
  rcases hk : rs.scheme with _ | _ | _ | _
  · rw [reward_cardano hk, reward_cardano hk, min_eq_right hs, cardanoBracket_sat hb, cardanoBracket_sat hb]; gcongr
  · rw [reward_simplified hk, reward_simplified hk, min_eq_right hs]; gcongr
  · rw [reward_flat hk, reward_flat hk]; gcongr
  · rw [reward_cip50 hk, reward_cip50 hk]
    exact min_le_min_left _ (min_le_min_right _ (by gcongr))

/-- C03.  In the Simplified, Flat and CIP-50 schemes this holds for every stake. -/
theorem C03_pledge_mono_other_schemes (rs : RS K) (hb : 0 < rs.beta) (ha : 0 ≤ rs.a0) (hk : rs.scheme ≠ .cardano)
    (stake : K) (hs : 0 ≤ stake) (pledge pledge' : K) (h : pledge ≤ pledge') :
    rs.reward pledge stake ≤ rs.reward pledge' stake := by
  have h1 : (0 : K) < 1 + rs.a0 := by linarith
  have hp : min pledge rs.beta ≤ min pledge' rs.beta := min_le_min_right _ h
  have s0 : 0 ≤ min stake rs.beta := le_min hs hb.le
  rcases hk' : rs.scheme with _ | _ | _ | _
  · exact absurd hk' hk
  · rw [reward_simplified hk', reward_simplified hk']; gcongr
  · rw [reward_flat hk', reward_flat hk']; gcongr
  · rw [reward_cip50 hk', reward_cip50 hk']
    exact min_le_min_left _ (min_le_min_right _ (by gcongr))

/-- C03.  With `a0 = 0` the pledge has no influence (schemes 0, 1, 2): everybody gets the capped stake. -/
theorem C03_pledge_irrelevant (rs : RS K) (hk : rs.scheme ≠ .cip50) (ha : rs.a0 = 0) (pledge stake : K) :
    rs.reward pledge stake = min stake rs.beta := by
  rcases h : rs.scheme with _ | _ | _ | _
  · rw [reward_cardano h, ha]; unfold cardanoBracket; simp
  · rw [reward_simplified h, ha]; simp
  · rw [reward_flat h, ha]; simp
  · exact absurd h hk

/-- C03, the false half: for Cardano's formula and unsaturated pools a larger pledge can lower the reward. -/
theorem C03_cardano_pledge_not_mono :
    ¬ ∀ (rs : RS ℚ) (stake pledge pledge' : ℚ), 0 < rs.beta → 0 ≤ rs.a0 → 0 ≤ pledge → pledge ≤ pledge' → pledge' ≤ stake →
      rs.reward pledge stake ≤ rs.reward pledge' stake := by
  intro h
  have := h ⟨.cardano, 1, 1, 3/10⟩ (1/5) (3/20) (1/5) (by decide +kernel) (by decide +kernel) (by decide +kernel) (by decide +kernel) (by decide +kernel)
  revert this; decide +kernel

/-- C03, Cardano below saturation: the exact range on which pledge helps.  With `p, p' ≤ min stake beta` the reward grows from `p`
to `p' ≥ p` iff `(p + p') * (beta - s) ≤ s * beta` (or nothing changes), where `s` is the capped stake. -/
theorem C03_cardano_pledge_iff (rs : RS K) (hk : rs.scheme = .cardano) (hb : 0 < rs.beta) (ha : 0 < rs.a0) (stake p p' : K)
    (hpp : p < p') (hp' : p' ≤ rs.beta) :
    rs.reward p stake ≤ rs.reward p' stake ↔
      (p + p') * (rs.beta - min stake rs.beta) ≤ min stake rs.beta * rs.beta := by
  have h1 : (0 : K) < 1 + rs.a0 := by linarith
  rw [reward_cardano hk, reward_cardano hk, min_eq_left hp', min_eq_left (hpp.le.trans hp'), div_le_div_iff_of_pos_right h1,
    cardanoBracket_eq _ _ _ _ hb, cardanoBracket_eq _ _ _ _ hb]
  generalize min stake rs.beta = s
  have hbb : (0 : K) < rs.beta * rs.beta := by positivity
  have e : (s + rs.a0 * (p' * (s * (1 + p' / rs.beta) - p') / rs.beta)) - (s + rs.a0 * (p * (s * (1 + p / rs.beta) - p) / rs.beta))
      = rs.a0 * (p' - p) * (s * rs.beta - (p + p') * (rs.beta - s)) / (rs.beta * rs.beta) := by
    field_simp; ring
  rw [← sub_nonneg, e, le_div_iff₀ hbb, zero_mul, ← sub_nonneg (b := (p + p') * (rs.beta - s))]
  have hpos : 0 < rs.a0 * (p' - p) := mul_pos ha (sub_pos.2 hpp)
  constructor
  · intro h; exact nonneg_of_mul_nonneg_right h hpos
  · intro h; exact mul_nonneg hpos.le h

end RSE.Props
