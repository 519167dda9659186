import Verif.Lemmas.Rewards
import Verif.Model.Pool
import Verif.Spec.Rounded
import Mathlib.Algebra.Order.Field.Rat

/-!
# C07, C08, C11, C12, C13: margins, desirability, costs and pledges

`F` is any arithmetic that may round (exact or binary64), `K` is exact arithmetic.
-/

set_option linter.unusedSectionVars false

namespace RSE.Props
variable {F : Type} [LinearOrder F] [Zero F] [One F] [Add F] [Sub F] [Mul F] [Div F] [Neg F] [NatCast F] [FSum F] [RoundedArith F]
variable {K : Type} [Field K] [LinearOrder K] [IsStrictOrderedRing K]

/-- C07.  The suitable margin is a valid margin. -/
theorem C07_margin_range (pp target : F) (ht : 0 ≤ target) :
    0 ≤ suitableMargin pp target ∧ suitableMargin pp target ≤ 1 := by
  have h01 := (RoundedArith.zero_lt_one (F := F)).le
  unfold suitableMargin
  refine ⟨le_max_right _ _, max_le ?_ h01⟩
  split
  · rename_i h
    exact RoundedArith.sub_le (RoundedArith.div_nonneg ht h)
  · exact h01

/-- C07.  A pool with positive potential profit that takes the suitable margin has desirability exactly
`min target potential_profit`. -/
theorem C07_hits_target (pp target : K) (hpp : 0 < pp) (ht : 0 ≤ target) :
    desirability (suitableMargin pp target) pp = min target pp := by
  unfold suitableMargin desirability
  rw [if_pos hpp]
  rcases le_total target pp with h | h
  · have h1 : target / pp ≤ 1 := (div_le_one hpp).2 h
    rw [max_eq_left (by linarith : (0 : K) ≤ 1 - target / pp), min_eq_left h]
    have : (1 - (1 - target / pp)) * pp = target := by field_simp; ring
    rw [this, max_eq_left ht]
  · have h1 : 1 ≤ target / pp := (one_le_div hpp).2 h
    rw [max_eq_right (by linarith : 1 - target / pp ≤ (0 : K)), min_eq_right h]
    simp [hpp.le]

/-- C07.  The margin is zero exactly when the target cannot be exceeded or there is no profit. -/
theorem C07_zero_iff (pp target : K) : suitableMargin pp target = 0 ↔ pp ≤ 0 ∨ pp ≤ target := by
  unfold suitableMargin
  by_cases h : pp > 0
  · rw [if_pos h, max_eq_right_iff]
    constructor
    · intro h2
      right
      have : 1 ≤ target / pp := by linarith
      exact (one_le_div h).1 this
    · rintro (h2 | h2)
      · exact absurd h (not_lt.2 h2)
      · have : 1 ≤ target / pp := (one_le_div h).2 h2
        linarith
  · simp [h, not_lt.1 h]

/-- C07 for a negative target is false: the margin exceeds 1. -/
theorem C07_needs_nonneg_target : ¬ ∀ pp target : ℚ, suitableMargin pp target ≤ 1 := by
  intro h; have := h 1 (-1); revert this; decide +kernel

example : suitableMargin (3/100 : ℚ) (1/100) = 2/3 ∧ desirability (2/3 : ℚ) (3/100) = 1/100 := by decide +kernel

/-- C08.  Desirability (myopic or not) is never negative, whatever the margin and the profit. -/
theorem C08_nonneg (margin profit : F) : 0 ≤ desirability margin profit := le_max_right _ _

/-- C08.  For margins in [0,1] it is at most the profit (or 0). -/
theorem C08_le_profit (margin profit : F) (h0 : 0 ≤ margin) (h1 : margin ≤ 1) : desirability margin profit ≤ max profit 0 := by
  unfold desirability
  have hm := RoundedArith.sub_nonneg h1
  rcases le_total 0 profit with h | h
  · refine max_le_max_right 0 ?_
    have := RoundedArith.mul_right_mono h (RoundedArith.sub_le (a := (1 : F)) h0)
    rwa [RoundedArith.one_mul] at this
  · exact max_le ((RoundedArith.mul_nonpos hm h).trans (le_max_right _ _)) (le_max_right _ _)

/-- C08.  For a profitable pool a higher margin does not mean higher desirability. -/
theorem C08_antitone (m m' profit : F) (hp : 0 ≤ profit) (h : m ≤ m') : desirability m' profit ≤ desirability m profit := by
  unfold desirability
  exact max_le_max_right 0 (RoundedArith.mul_right_mono hp (RoundedArith.sub_mono (le_refl 1) h))

/-- C08.  Assigning `pool.margin` keeps `pool.desirability` in sync and touches nothing else. -/
theorem C08_margin_setter (p : Pool F) (m : F) :
    (p.setMargin m).margin = m ∧ (p.setMargin m).des = desirability m p.pp ∧
    (p.setMargin m).id = p.id ∧ (p.setMargin m).stake = p.stake ∧ (p.setMargin m).pledge = p.pledge ∧
    (p.setMargin m).cost = p.cost ∧ (p.setMargin m).owner = p.owner ∧ (p.setMargin m).pp = p.pp ∧
    (p.setMargin m).isPrivate = p.isPrivate ∧ (p.setMargin m).delegators = p.delegators := by
  simp [Pool.setMargin, Pool.setDesirability]

example : desirability (1/2 : ℚ) (1/10) = 1/20 ∧ desirability (1/2 : ℚ) (-1/10) = 0 := by decide +kernel

/-- C11.  `n` pools cost the initial cost plus `n - 1` times the fraction; zero pools raise. -/
theorem C11_total_cost (n : Nat) (c f : K) :
    (n = 0 → costPerPool n c f = .error .zeroDiv) ∧
    (1 ≤ n → ∃ x, costPerPool n c f = .ok x ∧ (n : K) * x = c + ((n : K) - 1) * f * c) := by
  constructor
  · intro h; simp [costPerPool, h]
  · intro h
    have hn : n ≠ 0 := by omega
    refine ⟨_, by simp only [costPerPool, hn, if_false]; rfl, ?_⟩
    have : (n : K) ≠ 0 := by exact_mod_cast hn
    rw [Nat.cast_sub h]; field_simp; push_cast; ring

/-- C11.  With `f ≤ 1` the average cost does not grow with the number of pools; with `f ≥ 1` it does not shrink. -/
theorem C11_average_cost_mono (n m : Nat) (hn : 1 ≤ n) (hnm : n ≤ m) (c f x y : K) (hc : 0 ≤ c)
    (hx : costPerPool n c f = .ok x) (hy : costPerPool m c f = .ok y) :
    (f ≤ 1 → y ≤ x) ∧ (1 ≤ f → x ≤ y) := by
  obtain ⟨x', hx', ex⟩ := (C11_total_cost n c f).2 hn
  obtain ⟨y', hy', ey⟩ := (C11_total_cost m c f).2 (hn.trans hnm)
  rw [hx'] at hx; rw [hy'] at hy
  cases hx; cases hy
  have n0 : (1 : K) ≤ n := by exact_mod_cast hn
  have nm : (n : K) ≤ m := by exact_mod_cast hnm
  have m0 : (1 : K) ≤ m := n0.trans nm
  have key : (n : K) * m * (x - y) = c * (1 - f) * (m - n) := by
    have : (n : K) * m * (x - y) = m * (n * x) - n * (m * y) := by ring
    rw [this, ex, ey]; ring
  have hpos : (0 : K) < n * m := by positivity
  constructor
  · intro hf
    have : 0 ≤ c * (1 - f) * ((m : K) - n) := by
      apply mul_nonneg (mul_nonneg hc (by linarith)) (by linarith)
    have := nonneg_of_mul_nonneg_right (key ▸ this) hpos
    linarith
  · intro hf
    have : c * (1 - f) * ((m : K) - n) ≤ 0 := by
      apply mul_nonpos_of_nonpos_of_nonneg (mul_nonpos_of_nonneg_of_nonpos hc (by linarith)) (by linarith)
    have := nonpos_of_mul_nonpos_right (key ▸ this) hpos
    linarith

example : (costPerPool 3 (1/1000 : ℚ) (2/5)).toOption = some (3/5000) := by decide +kernel

/-- C12.  The pledge per pool is the largest amount not exceeding the threshold that the stake can provide `n` times;
`n = 0` raises `ValueError`. -/
theorem C12_pledge_per_pool (stake beta : K) (n : Nat) :
    (n = 0 → pledgePerPool stake beta n = .error .value) ∧
    (1 ≤ n → ∃ p, pledgePerPool stake beta n = .ok p ∧ p ≤ beta ∧ (n : K) * p ≤ stake ∧
      ∀ q, q ≤ beta → (n : K) * q ≤ stake → q ≤ p) := by
  constructor
  · intro h; simp [pledgePerPool, h]
  · intro h
    have hn : n ≠ 0 := by omega
    have hpos : (0 : K) < n := by exact_mod_cast h
    refine ⟨min (stake / n) beta, by simp [pledgePerPool, hn], min_le_right _ _, ?_, ?_⟩
    · have : min (stake / n) beta ≤ stake / n := min_le_left _ _
      have := mul_le_mul_of_nonneg_left this hpos.le
      rwa [mul_div_cancel₀ _ hpos.ne'] at this
    · intro q h1 h2
      refine le_min ?_ h1
      rw [le_div_iff₀ hpos]; linarith

example : (pledgePerPool (3/10 : ℚ) (1/5) 1).toOption = some (1/5) ∧ (pledgePerPool (3/10 : ℚ) (1/5) 2).toOption = some (3/20) := by
  decide +kernel

/-- C13.  The column "Profitable pool splitter" (`calculate_pool_splitting_profit > 0`) says exactly that splitting the agent's stake
over `n` pools raises the potential profit of each pool above that of a single pool - for one `n ≥ 2` iff for all `n ≥ 2`
(Cardano scheme, stake up to the saturation threshold). -/
theorem C13_splitting_profit (rs : RS K) (hk : rs.scheme = .cardano) (hb : 0 < rs.beta) (ha : 0 ≤ rs.a0)
    (phi cost stake : K) (_hs : 0 ≤ stake) (hsb : stake ≤ rs.beta) (n : Nat) (hn : 2 ≤ n)
    (p₁ pn c₁ cn : K) (hp1 : pledgePerPool stake rs.beta 1 = .ok p₁) (hpn : pledgePerPool stake rs.beta n = .ok pn)
    (hc1 : costPerPool 1 cost phi = .ok c₁) (hcn : costPerPool n cost phi = .ok cn) :
    0 < splittingProfit rs.a0 phi cost stake ↔ potentialProfit rs p₁ c₁ < potentialProfit rs pn cn := by
  have h1 : (0 : K) < 1 + rs.a0 := by linarith
  have hn1 : (2 : K) ≤ n := by exact_mod_cast hn
  have hn0 : (0 : K) < n := by linarith
  have e1 : p₁ = stake := by
    simp [pledgePerPool, hsb] at hp1; exact hp1.symm
  have hsn : stake / n ≤ rs.beta := by
    rw [div_le_iff₀ hn0]; nlinarith
  have en : pn = stake / n := by
    have : n ≠ 0 := by omega
    simp [pledgePerPool, this, hsn] at hpn; exact hpn.symm
  obtain ⟨c1', h1', ec1⟩ := (C11_total_cost 1 cost phi).2 le_rfl
  obtain ⟨cn', hn', ecn⟩ := (C11_total_cost n cost phi).2 (by omega)
  rw [h1'] at hc1; rw [hn'] at hcn; cases hc1; cases hcn
  have ec1 : c₁ = cost := by simpa using ec1
  have ecn : cn = (cost + ((n : K) - 1) * phi * cost) / n := by
    rw [eq_div_iff hn0.ne', mul_comm]; exact ecn
  unfold potentialProfit
  rw [sat_of_ne (by simp [hk]), sat_of_ne (by simp [hk]), reward_cardano hk, reward_cardano hk, min_self, cardanoBracket_sat hb,
    cardanoBracket_sat hb, e1, en, min_eq_left hsb, min_eq_left hsn, ec1, ecn]
  unfold splittingProfit totalRewards
  rw [← sub_pos (b := (rs.beta + rs.a0 * stake) / (1 + rs.a0) - cost)]
  have key : (rs.beta + rs.a0 * (stake / n)) / (1 + rs.a0) - (cost + ((n : K) - 1) * phi * cost) / n
      - ((rs.beta + rs.a0 * stake) / (1 + rs.a0) - cost)
      = ((1 + rs.a0) * (1 - phi) * cost - 1 * stake * rs.a0) * (((n : K) - 1) / (n * (1 + rs.a0))) := by
    field_simp; ring
  rw [key]
  have hf : 0 < ((n : K) - 1) / (n * (1 + rs.a0)) := div_pos (by linarith) (by positivity)
  exact (mul_pos_iff_of_pos_right hf).symm

/-- a profitable and an unprofitable splitter -/
example : 0 < splittingProfit (3/10 : ℚ) (2/5) (1/1000) (1/1000) ∧ splittingProfit (3/10 : ℚ) (2/5) (1/1000) (1/100) < 0 := by
  decide +kernel

end RSE.Props
