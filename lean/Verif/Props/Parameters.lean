import Verif.Model.Rewards
import Mathlib.Tactic.Linarith
import Mathlib.Tactic.FieldSimp
import Mathlib.Tactic.Ring
import Mathlib.Tactic.LinearCombination
import Mathlib.Tactic.Positivity
import Mathlib.Tactic.NormNum
import Mathlib.Algebra.Order.Field.Rat

set_option linter.unusedSectionVars false

/-! # C115: what the parameters `a0` and `k` do to rewards -/

namespace RSE.Props

variable {K : Type} [Field K] [LinearOrder K] [IsStrictOrderedRing K]

/-- the scheme `scheme` with parameters `k` and `a0`, as the setter of `k` leaves it -/
def rsOf (scheme : Scheme) (k : Nat) (a0 : K) : RS K := ⟨scheme, k, 1 / (k : K), a0⟩

theorem beta_pos {k : Nat} (hk : 0 < k) : 0 < (1 : K) / (k : K) := by
  have : (0 : K) < k := by exact_mod_cast hk
  positivity

/-- a mean of two numbers weighted by `1` and `a` moves from the first to the second as `a` grows -/
theorem weighted_mono {A B a a' : K} (h0 : 0 ≤ a) (h : a ≤ a') (hBA : B ≤ A) : (A + a' * B) / (1 + a') ≤ (A + a * B) / (1 + a) := by
  rw [div_le_div_iff₀ (by linarith) (by linarith)]
  nlinarith [mul_nonneg (sub_nonneg.2 h) (sub_nonneg.2 hBA)]

/-- what a pool would get if only its stake counted, and if only its pledge benefit counted -/
def pledgeBenefit (scheme : Scheme) (β pledge stake : K) : K :=
  match scheme with
  | .cardano => min pledge β * ((min stake β - min pledge β * (1 - min stake β / β)) / β)
  | .simplified => min stake β * min pledge β / β
  | _ => min pledge β

theorem reward_weighted (rs : RS K) (hs : rs.scheme ≠ .cip50) (pledge stake : K) :
    rs.reward pledge stake = (min stake rs.beta + rs.a0 * pledgeBenefit rs.scheme rs.beta pledge stake) / (1 + rs.a0) := by
  unfold RS.reward pledgeBenefit totalRewards
  cases h : rs.scheme with
  | cip50 => exact absurd h hs
  | cardano => simp only; ring
  | simplified => simp only; ring
  | flat => simp only; ring

theorem pledgeBenefit_le (scheme : Scheme) {β pledge stake : K} (hb : 0 < β) (hp : 0 ≤ pledge) (hps : pledge ≤ stake) :
    pledgeBenefit scheme β pledge stake ≤ min stake β := by
  have h0 : 0 ≤ min pledge β := le_min hp hb.le
  have hs0 : 0 ≤ min stake β := le_min (hp.trans hps) hb.le
  have h1 : min pledge β ≤ β := min_le_right _ _
  have h2 : min stake β ≤ β := min_le_right _ _
  have h3 : min pledge β ≤ min stake β := min_le_min_right _ hps
  unfold pledgeBenefit
  generalize min pledge β = p at *
  generalize min stake β = s at *
  cases scheme with
  | cardano =>
    simp only
    have : (s - p * (1 - s / β)) / β ≤ s / β := by
      refine div_le_div_of_nonneg_right ?_ hb.le
      have : 0 ≤ 1 - s / β := by rw [sub_nonneg, div_le_one hb]; exact h2
      nlinarith [mul_nonneg h0 this]
    calc p * ((s - p * (1 - s / β)) / β) ≤ p * (s / β) := mul_le_mul_of_nonneg_left this h0
      _ = (p / β) * s := by ring
      _ ≤ 1 * s := mul_le_mul_of_nonneg_right (by rw [div_le_one hb]; exact h1) hs0
      _ = s := one_mul s
  | simplified =>
    simp only
    rw [div_le_iff₀ hb]
    exact mul_le_mul_of_nonneg_left h1 hs0
  | flat => exact h3
  | cip50 => exact h3

/-- C115, `a0`.  In the Cardano, simplified and flat schemes a larger `a0` never raises the reward of any pool ... -/
theorem C115_a0 (scheme : Scheme) (hs : scheme ≠ .cip50) {k : Nat} (hk : 0 < k) {a0 a0' : K} (h0 : 0 ≤ a0) (h : a0 ≤ a0') {pledge stake : K} (hp : 0 ≤ pledge)
    (hps : pledge ≤ stake) : (rsOf scheme k a0').reward pledge stake ≤ (rsOf scheme k a0).reward pledge stake := by
  rw [reward_weighted _ hs, reward_weighted _ hs]
  exact weighted_mono h0 h (pledgeBenefit_le scheme (beta_pos hk) hp hps)

/-- ... and it leaves the reward unchanged iff the pool is pledged to the full: both pledge and stake reach the saturation threshold, or (flat scheme) pledge and stake are equal, or there is no
stake. -/
theorem C115_a0_strict (scheme : Scheme) (hs : scheme ≠ .cip50) {k : Nat} (hk : 0 < k) {a0 a0' : K} (h0 : 0 ≤ a0) (h : a0 < a0') {pledge stake : K} (hp : 0 ≤ pledge)
    (hps : pledge ≤ stake) : (rsOf scheme k a0').reward pledge stake = (rsOf scheme k a0).reward pledge stake ↔
      1 / (k : K) ≤ pledge ∨ (scheme = .flat ∧ pledge = stake) ∨ stake = 0 := by
  have hb := beta_pos (K := K) hk
  have hle := pledgeBenefit_le scheme hb hp hps
  have key : (rsOf scheme k a0').reward pledge stake = (rsOf scheme k a0).reward pledge stake ↔
      pledgeBenefit scheme (1 / (k : K)) pledge stake = min stake (1 / (k : K)) := by
    rw [reward_weighted _ hs, reward_weighted _ hs]
    simp only [rsOf]
    rw [div_eq_div_iff (by linarith) (by linarith)]
    constructor
    · intro he
      have : (a0' - a0) * (min stake (1 / (k : K)) - pledgeBenefit scheme (1 / (k : K)) pledge stake) = 0 := by linear_combination -he
      rcases mul_eq_zero.1 this with h' | h'
      · linarith
      · linarith
    · intro he; rw [he]; ring
  rw [key]
  generalize (1 : K) / (k : K) = β at *
  have hp0 : 0 ≤ min pledge β := le_min hp hb.le
  have hs0 : 0 ≤ min stake β := le_min (hp.trans hps) hb.le
  have h1 : min pledge β ≤ β := min_le_right _ _
  have h2 : min stake β ≤ β := min_le_right _ _
  have h3 : min pledge β ≤ min stake β := min_le_min_right _ hps
  have hfull : β ≤ pledge → min pledge β = β ∧ min stake β = β := fun h => ⟨min_eq_right h, min_eq_right (h.trans hps)⟩
  have hnot : ¬ β ≤ pledge → min pledge β = pledge ∧ pledge < β := fun h => ⟨min_eq_left (not_le.1 h).le, not_le.1 h⟩
  have hzero : stake = 0 → min pledge β = 0 ∧ min stake β = 0 := fun h => by
    subst h; exact ⟨by rw [le_antisymm hps hp]; exact min_eq_left hb.le, min_eq_left hb.le⟩
  have hsz : min stake β = 0 → stake = 0 := fun h => by
    rcases min_choice stake β with h' | h' <;> rw [h'] at h
    · exact h
    · exact absurd h hb.ne'
  cases scheme with
  | cip50 => exact absurd rfl hs
  | cardano =>
    constructor
    · intro he
      by_cases hf : β ≤ pledge
      · exact Or.inl hf
      · refine Or.inr (Or.inr (hsz ?_))
        obtain ⟨e, hlt⟩ := hnot hf
        simp only [pledgeBenefit, e] at he
        have hx : 0 ≤ 1 - min stake β / β := by rw [sub_nonneg, div_le_one hb]; exact h2
        have hy : pledge * ((min stake β - pledge * (1 - min stake β / β)) / β) * β = pledge * (min stake β - pledge * (1 - min stake β / β)) := by field_simp
        rw [he] at hy
        nlinarith [mul_nonneg (mul_nonneg hp hp) hx, mul_nonneg hs0 (sub_nonneg.2 hlt.le)]
    · rintro (h' | ⟨h', _⟩ | h')
      · obtain ⟨e1, e2⟩ := hfull h'
        simp only [pledgeBenefit, e1, e2]
        field_simp; ring
      · cases h'
      · obtain ⟨e1, e2⟩ := hzero h'
        simp [pledgeBenefit, e1, e2]
  | simplified =>
    constructor
    · intro he
      by_cases hf : β ≤ pledge
      · exact Or.inl hf
      · refine Or.inr (Or.inr (hsz ?_))
        obtain ⟨e, hlt⟩ := hnot hf
        simp only [pledgeBenefit, e] at he
        rw [div_eq_iff hb.ne'] at he
        have : min stake β * (β - pledge) = 0 := by linear_combination -he
        rcases mul_eq_zero.1 this with h' | h'
        · exact h'
        · linarith
    · rintro (h' | ⟨h', _⟩ | h')
      · obtain ⟨e1, e2⟩ := hfull h'
        simp only [pledgeBenefit, e1, e2]
        field_simp
      · cases h'
      · obtain ⟨e1, e2⟩ := hzero h'
        simp [pledgeBenefit, e1, e2]
  | flat =>
    simp only [pledgeBenefit]
    constructor
    · intro he
      by_cases hf : β ≤ pledge
      · exact Or.inl hf
      · obtain ⟨e, hlt⟩ := hnot hf
        rw [e] at he
        rcases min_choice stake β with h' | h' <;> rw [h'] at he
        · exact Or.inr (Or.inl ⟨trivial, he⟩)
        · linarith
    · rintro (h' | ⟨_, h'⟩ | h')
      · obtain ⟨e1, e2⟩ := hfull h'; rw [e1, e2]
      · rw [h']
      · obtain ⟨e1, e2⟩ := hzero h'; rw [e1, e2]

/-- C115, `a0` in CIP-50, where it is the leverage: a larger one never lowers a reward. -/
theorem C115_a0_cip50 {k : Nat} {a0 a0' : K} (h : a0 ≤ a0') {pledge stake : K} (hp : 0 ≤ pledge) :
    (rsOf .cip50 k a0).reward pledge stake ≤ (rsOf .cip50 k a0').reward pledge stake := by
  simp only [RS.reward, RS.sat, rsOf, totalRewards, one_mul]
  exact min_le_min_left _ (min_le_min_right _ (mul_le_mul_of_nonneg_right h hp))

/-- C115, saturated pools.  In the first three schemes a pool that is saturated earns the same: its pledge (up to the threshold) with weight `a0`, and the threshold with weight 1.  So a saturated pool
without a pledge is paid `1 / (k (1 + a0))`, and one pledged to the full `1 / k`, whatever `a0` is. -/
theorem C115_saturated (scheme : Scheme) (hs : scheme ≠ .cip50) {k : Nat} (hk : 0 < k) (a0 : K) {pledge stake : K} (hst : 1 / (k : K) ≤ stake) :
    (rsOf scheme k a0).reward pledge stake = (1 / (k : K) + a0 * min pledge (1 / (k : K))) / (1 + a0) := by
  have hb := beta_pos (K := K) hk
  rw [reward_weighted _ hs]
  simp only [rsOf]
  generalize (1 : K) / (k : K) = β at *
  cases scheme with
  | cip50 => exact absurd rfl hs
  | cardano =>
    simp only [pledgeBenefit, min_eq_right hst]
    field_simp
    ring
  | simplified =>
    simp only [pledgeBenefit, min_eq_right hst]
    field_simp
  | flat => simp only [pledgeBenefit, min_eq_right hst]

/-- C115, `k` and saturated pools.  A larger `k` lowers the reward of a pool that is saturated under the smaller one (and of a CIP-50 pool at any stake never raises it). -/
theorem C115_k_saturated (scheme : Scheme) (hs : scheme ≠ .cip50) {k k' : Nat} (hk : 0 < k) (h : k ≤ k') {a0 : K} (h0 : 0 ≤ a0) {pledge stake : K}
    (hst : 1 / (k : K) ≤ stake) : (rsOf scheme k' a0).reward pledge stake ≤ (rsOf scheme k a0).reward pledge stake := by
  have hle : (1 : K) / (k' : K) ≤ 1 / (k : K) := one_div_le_one_div_of_le (by exact_mod_cast hk) (by exact_mod_cast h)
  rw [C115_saturated scheme hs hk a0 hst, C115_saturated scheme hs (lt_of_lt_of_le hk h) a0 (hle.trans hst)]
  refine div_le_div_of_nonneg_right ?_ (by linarith)
  have := mul_le_mul_of_nonneg_left (min_le_min_left pledge hle) h0
  linarith

theorem C115_k_cip50 {k k' : Nat} (hk : 0 < k) (h : k ≤ k') (a0 pledge stake : K) :
    (rsOf .cip50 k' a0).reward pledge stake ≤ (rsOf .cip50 k a0).reward pledge stake := by
  have hle : (1 : K) / (k' : K) ≤ 1 / (k : K) := one_div_le_one_div_of_le (by exact_mod_cast hk) (by exact_mod_cast h)
  simp only [RS.reward, RS.sat, rsOf, totalRewards, one_mul]
  exact min_le_min_left _ (min_le_min_left _ hle)

/-- C115, `k` and unsaturated pools.  In the first three schemes a larger `k` never lowers the reward of a pool that is not saturated under it either: the pledge counts for more.  (In the flat
scheme nothing changes.) -/
theorem C115_k_unsaturated (scheme : Scheme) (hs : scheme ≠ .cip50) {k k' : Nat} (hk : 0 < k) (h : k ≤ k') {a0 : K} (h0 : 0 ≤ a0) {pledge stake : K}
    (hp : 0 ≤ pledge) (hps : pledge ≤ stake) (hst : stake ≤ 1 / (k' : K)) :
    (rsOf scheme k a0).reward pledge stake ≤ (rsOf scheme k' a0).reward pledge stake ∧
    (scheme = .flat → (rsOf scheme k a0).reward pledge stake = (rsOf scheme k' a0).reward pledge stake) := by
  have hk0 : (0 : K) < k := by exact_mod_cast hk
  have hk0' : (0 : K) < k' := by exact_mod_cast lt_of_lt_of_le hk h
  have hkk : (k : K) ≤ k' := by exact_mod_cast h
  have hle : (1 : K) / (k' : K) ≤ 1 / (k : K) := one_div_le_one_div_of_le hk0 hkk
  rw [reward_weighted _ hs, reward_weighted _ hs]
  simp only [rsOf]
  have hs0 := hp.trans hps
  have key : pledgeBenefit scheme (1 / (k : K)) pledge stake ≤ pledgeBenefit scheme (1 / (k' : K)) pledge stake := by
    cases scheme with
    | cip50 => exact absurd rfl hs
    | cardano =>
      simp only [pledgeBenefit, min_eq_left hst, min_eq_left (hst.trans hle), min_eq_left (hps.trans hst), min_eq_left (hps.trans (hst.trans hle)), div_div_eq_mul_div, div_one]
      have e : ∀ x : K, pledge * ((stake - pledge * (1 - stake * x)) * x) = pledge * (stake - pledge) * x + pledge * pledge * stake * (x * x) := fun x => by ring
      rw [e, e]
      have h1 : 0 ≤ pledge * (stake - pledge) := mul_nonneg hp (sub_nonneg.2 hps)
      have h2 : 0 ≤ pledge * pledge * stake := mul_nonneg (mul_nonneg hp hp) hs0
      exact add_le_add (mul_le_mul_of_nonneg_left hkk h1) (mul_le_mul_of_nonneg_left (mul_self_le_mul_self hk0.le hkk) h2)
    | simplified =>
      simp only [pledgeBenefit, min_eq_left hst, min_eq_left (hst.trans hle), min_eq_left (hps.trans hst), min_eq_left (hps.trans (hst.trans hle)), div_div_eq_mul_div, div_one]
      exact mul_le_mul_of_nonneg_left hkk (mul_nonneg hs0 hp)
    | flat => simp only [pledgeBenefit, min_eq_left (hps.trans hst), min_eq_left (hps.trans (hst.trans hle))]; exact le_refl _
  rw [min_eq_left hst, min_eq_left (hst.trans hle)]
  refine ⟨div_le_div_of_nonneg_right (by linarith [mul_le_mul_of_nonneg_left key h0]) (by linarith), ?_⟩
  rintro rfl
  simp only [pledgeBenefit, min_eq_left (hps.trans hst), min_eq_left (hps.trans (hst.trans hle))]

/-- a pool with stake 1/10 and pledge 1/20 in the Cardano scheme: `a0` lowers its reward; from `k = 5` to `k = 10` it rises, from `k = 10` to `k = 20` it falls -/
example : (rsOf .cardano 10 (0 : ℚ)).reward (1/20) (1/10) = 1/10 ∧ (rsOf .cardano 10 (1/2 : ℚ)).reward (1/20) (1/10) = 1/12 ∧
    (rsOf .cardano 5 (1/2 : ℚ)).reward (1/20) (1/10) = 7/96 ∧ (rsOf .cardano 20 (1/2 : ℚ)).reward (1/20) (1/10) = 1/20 := by decide +kernel

end RSE.Props
