import Verif.Lemmas.Accuracy
import Verif.Props.Rounding

/-!
# C105: how accurate rewards, utilities and desirabilities are in binary64

The exact values are those of the same formulas over the rational numbers, with the same (binary64) parameters and stakes.
-/

set_option linter.unusedSectionVars false
set_option exponentiation.threshold 2000

namespace RSE.Props

open RSE

/-- the reward scheme with the same parameters, for exact calculation -/
def exactly (rs : RS B64) : RS ℚ := { scheme := rs.scheme, k := rs.k, beta := rs.beta.1, a0 := rs.a0.1 }

theorem exactly_eq (rs : RS B64) : exactly rs = rs.exact := rfl

/-- the parameters that a scheme can have: `beta` is `1 / k`, `a0` is not negative -/
structure ParamsOK (rs : RS B64) : Prop where
  beta_pos : 0 < rs.beta
  beta_le : rs.beta ≤ 1
  a0 : 0 ≤ rs.a0

theorem ulp16 : 16 * ulp = (2 : ℚ) ^ (-49 : Int) := by unfold ulp; norm_num
theorem ulp32 : 32 * ulp = (2 : ℚ) ^ (-48 : Int) := by unfold ulp; norm_num

theorem min_le_of_le {rs : RS B64} {pledge stake : B64} (h : pledge ≤ stake) : rs.scheme ≠ .cip50 → min pledge rs.beta ≤ stake :=
  fun _ => (min_le_left _ _).trans h

/-- C105.  The reward of a pool is within `2^-49` of its stake (capped at `beta`), plus `(10 + 5 a0) * 2^-1075`, of the exact value of the formula. -/
theorem C105_reward {rs : RS B64} (h : ParamsOK rs) {pledge stake : B64} (hp : 0 ≤ pledge) (hps : pledge ≤ stake) :
    |(rs.reward pledge stake).1 - (exactly rs).reward pledge.1 stake.1| ≤
      (2 : ℚ) ^ (-49 : Int) * min stake.1 rs.beta.1 + (10 + 5 * rs.a0.1) * (2 : ℚ) ^ (-1075 : Int) := by
  have := reward_err rs h.beta_pos h.beta_le h.a0 hp (hp.trans hps) (min_le_of_le hps)
  rw [ulp16] at this
  exact this

/-- C105.  So a pool's reward exceeds neither its stake nor `beta` by more than that (C01 in binary64). -/
theorem C105_reward_le {rs : RS B64} (h : ParamsOK rs) {pledge stake : B64} (hp : 0 ≤ pledge) (hps : pledge ≤ stake) :
    (rs.reward pledge stake).1 ≤ min stake.1 rs.beta.1 * (1 + (2 : ℚ) ^ (-49 : Int)) + (10 + 5 * rs.a0.1) * (2 : ℚ) ^ (-1075 : Int) := by
  have h1 := (abs_le.1 (C105_reward h hp hps)).2
  have h2 := (exact_reward_bounds rs h.beta_pos h.a0 hp (hp.trans hps) (min_le_of_le hps)).2
  rw [exactly_eq] at h1
  linarith

/-- ... for a pool at saturation -/
theorem saturated_err {rs : RS B64} (h : ParamsOK rs) {pledge : B64} (hp : 0 ≤ pledge) :
    |(rs.reward pledge (rs.sat pledge)).1 - rs.exact.reward pledge.1 (rs.exact.sat pledge.1)| ≤ 16 * ulp * rs.beta.1 + (10 + 5 * rs.a0.1) * tiny64 ∧
    0 ≤ rs.exact.reward pledge.1 (rs.exact.sat pledge.1) ∧ rs.exact.reward pledge.1 (rs.exact.sat pledge.1) ≤ rs.beta.1 := by
  have hb : 0 < rs.beta.1 := h.beta_pos
  by_cases hs : rs.scheme = .cip50
  · have h2 : (rs.sat pledge).1 = min (rs.a0 * pledge).1 rs.beta.1 := by
      unfold RS.sat; rw [hs]; exact B64.min_val _ _
    have h3 : rs.exact.sat pledge.1 = min (rs.a0.1 * pledge.1) rs.beta.1 := by
      unfold RS.sat
      rw [show rs.exact.scheme = .cip50 from hs]; rfl
    have h4 : (rs.reward pledge (rs.sat pledge)).1 = min (rs.a0 * pledge).1 rs.beta.1 := by
      unfold RS.reward
      rw [hs]
      dsimp only
      rw [show (totalRewards : B64) = 1 from rfl, RoundedArith.one_mul, min_self, h2]
    have h5 : rs.exact.reward pledge.1 (rs.exact.sat pledge.1) = min (rs.a0.1 * pledge.1) rs.beta.1 := by
      unfold RS.reward
      rw [show rs.exact.scheme = .cip50 from hs]
      dsimp only
      rw [show (totalRewards : ℚ) = 1 from rfl, one_mul, min_self, h3]
    have h6 := cip50_err (s := rs.beta) (b := rs.beta) (pl := pledge) (a0 := rs.a0) hb.le hb hp h.a0
    rw [min_self, min_eq_right (min_le_right _ _), min_eq_right (min_le_right _ _)] at h6
    rw [h4, h5]
    exact ⟨h6, le_min (mul_nonneg h.a0 hp) hb.le, min_le_right _ _⟩
  · have h2 : rs.sat pledge = rs.beta := by
      unfold RS.sat; cases hc : rs.scheme <;> first | rfl | exact absurd hc hs
    have h3 : rs.exact.sat pledge.1 = rs.beta.1 := by
      unfold RS.sat
      rw [show rs.exact.scheme = rs.scheme from rfl]
      cases hc : rs.scheme <;> first | rfl | exact absurd hc hs
    rw [h2, h3]
    have h4 := reward_err rs h.beta_pos h.beta_le h.a0 hp h.beta_pos.le (fun _ => min_le_right _ _)
    have h5 := exact_reward_bounds rs h.beta_pos h.a0 hp h.beta_pos.le (fun _ => min_le_right _ _)
    rw [min_self] at h4 h5
    exact ⟨h4, h5⟩

theorem profit_total {S c R a e : ℚ} (hS : 0 ≤ S) (hc : 0 ≤ c) (ha : 0 ≤ a) (hR0 : 0 ≤ R) (hRS : R ≤ S) (he : e = 16 * ulp * S + (10 + 5 * a) * tiny64) :
    e + ulp * (|R - c| + e) ≤ 32 * ulp * (S + c) + (12 + 6 * a) * tiny64 := by
  have hu := ulp_pos
  have ht := tiny64_pos
  have he0 : 0 ≤ e := by rw [he]; positivity
  have hQ := abs_nonneg (R - c)
  refine le_trans ?_ (share_total hS hc ha hR0 hRS rfl he le_rfl (by positivity))
  have a1 : 0 ≤ e + ulp * (|R - c| + e) := by positivity
  have a2 : 0 ≤ ulp * (e + ulp * (|R - c| + e)) := by positivity
  have a3 : 0 ≤ ulp * |R - c| := by positivity
  linarith

/-- C105.  Potential and current profits are within `2^-48` of what is at stake (`beta` or the stake, plus the cost). -/
theorem C105_profits {rs : RS B64} (h : ParamsOK rs) {pledge stake cost : B64} (hp : 0 ≤ pledge) (hc : 0 ≤ cost) :
    |(potentialProfit rs pledge cost).1 - potentialProfit (exactly rs) pledge.1 cost.1| ≤
      (2 : ℚ) ^ (-48 : Int) * (rs.beta.1 + cost.1) + (12 + 6 * rs.a0.1) * (2 : ℚ) ^ (-1075 : Int) ∧
    (pledge ≤ stake → |(currentProfit rs stake pledge cost).1 - currentProfit (exactly rs) stake.1 pledge.1 cost.1| ≤
      (2 : ℚ) ^ (-48 : Int) * (min stake.1 rs.beta.1 + cost.1) + (12 + 6 * rs.a0.1) * (2 : ℚ) ^ (-1075 : Int)) := by
  have hb : 0 < rs.beta.1 := h.beta_pos
  have ha : 0 ≤ rs.a0.1 := h.a0
  have hc' : 0 ≤ cost.1 := hc
  rw [← ulp32]
  refine ⟨?_, fun hps => ?_⟩
  · obtain ⟨h1, h2, h3⟩ := saturated_err h hp
    exact (profit_err (c := cost) h1).trans (profit_total hb.le hc' ha h2 h3 rfl)
  · have h1 := reward_err rs h.beta_pos h.beta_le h.a0 hp (hp.trans hps) (min_le_of_le hps)
    obtain ⟨h2, h3⟩ := exact_reward_bounds rs h.beta_pos h.a0 hp (hp.trans hps) (min_le_of_le hps)
    exact (profit_err (c := cost) h1).trans (profit_total (le_min (hp.trans hps) hb.le) hc' ha h2 h3 rfl)

/-- C105.  The desirability of a pool (from its potential profit) is as accurate. -/
theorem C105_desirability {rs : RS B64} (h : ParamsOK rs) {pledge cost margin : B64} (hp : 0 ≤ pledge) (hc : 0 ≤ cost) (hm0 : 0 ≤ margin) (hm1 : margin ≤ 1) :
    |(desirability margin (potentialProfit rs pledge cost)).1 - desirability margin.1 (potentialProfit (exactly rs) pledge.1 cost.1)| ≤
      (2 : ℚ) ^ (-48 : Int) * (rs.beta.1 + cost.1) + (12 + 6 * rs.a0.1) * (2 : ℚ) ^ (-1075 : Int) := by
  have hb : 0 < rs.beta.1 := h.beta_pos
  obtain ⟨h1, h2, h3⟩ := saturated_err h hp
  rw [← ulp32]
  exact desirability_err hb.le hc h.a0 h2 h3 rfl h1 hm0 (by have := B64.le_def.1 hm1; rwa [B64.one_val] at this)

/-- C105.  So are the utilities of operators and delegators. -/
theorem C105_utilities {rs : RS B64} (h : ParamsOK rs) {pledge stake cost margin : B64} (hp : 0 ≤ pledge) (hps : pledge ≤ stake) (hs : 0 < stake)
    (hc : 0 ≤ cost) (hm0 : 0 ≤ margin) (hm1 : margin ≤ 1) :
    (∃ x v, operatorUtility rs stake pledge margin cost = .ok x ∧ operatorUtility (exactly rs) stake.1 pledge.1 margin.1 cost.1 = .ok v ∧
      |x.1 - v| ≤ (2 : ℚ) ^ (-48 : Int) * (min stake.1 rs.beta.1 + cost.1) + (12 + 6 * rs.a0.1) * (2 : ℚ) ^ (-1075 : Int)) ∧
    ∀ d, 0 ≤ d → d ≤ stake →
      ∃ x v, delegatorUtility rs d stake pledge margin cost = .ok x ∧ delegatorUtility (exactly rs) d.1 stake.1 pledge.1 margin.1 cost.1 = .ok v ∧
      |x.1 - v| ≤ (2 : ℚ) ^ (-48 : Int) * (min stake.1 rs.beta.1 + cost.1) + (12 + 6 * rs.a0.1) * (2 : ℚ) ^ (-1075 : Int) := by
  have hb : 0 < rs.beta.1 := h.beta_pos
  have h1 := reward_err rs h.beta_pos h.beta_le h.a0 hp hs.le (min_le_of_le hps)
  obtain ⟨h2, h3⟩ := exact_reward_bounds rs h.beta_pos h.a0 hp hs.le (min_le_of_le hps)
  have hs' : 0 < stake.1 := hs
  have hS : 0 ≤ min stake.1 rs.beta.1 := le_min hs'.le hb.le
  have hm1' : margin.1 ≤ 1 := by have := B64.le_def.1 hm1; rwa [B64.one_val] at this
  rw [← ulp32]
  refine ⟨⟨operatorReward margin cost (rs.reward pledge stake) (pledge / stake),
    operatorReward margin.1 cost.1 (rs.exact.reward pledge.1 stake.1) (pledge.1 / stake.1), ?_, ?_, operator_err hS hc h.a0 h2 h3 rfl h1 hm0 hm1' hp hps hs'⟩,
    fun d hd0 hds => ⟨delegatorReward margin cost (rs.reward pledge stake) (d / stake),
    delegatorReward margin.1 cost.1 (rs.exact.reward pledge.1 stake.1) (d.1 / stake.1), ?_, ?_, delegator_err hS hc h.a0 h2 h3 rfl h1 hm0 hm1' hd0 hds hs'⟩⟩
  · simp [operatorUtility, pyDiv, hs.ne', bind, Except.bind, pure, Except.pure]
  · simp [operatorUtility, pyDiv, hs'.ne', bind, Except.bind, pure, Except.pure, exactly_eq]
  · simp [delegatorUtility, pyDiv, hs.ne', bind, Except.bind, pure, Except.pure]
  · simp [delegatorUtility, pyDiv, hs'.ne', bind, Except.bind, pure, Except.pure, exactly_eq]

/-- the bound for one utility -/
def shareErr (rs : RS B64) (stake cost : B64) : ℚ := (2 : ℚ) ^ (-48 : Int) * (min stake.1 rs.beta.1 + cost.1) + (12 + 6 * rs.a0.1) * (2 : ℚ) ^ (-1075 : Int)

theorem delegators_err {rs : RS B64} (h : ParamsOK rs) {pledge stake cost margin : B64} (hp : 0 ≤ pledge) (hps : pledge ≤ stake) (hs : 0 < stake)
    (hc : 0 ≤ cost) (hm0 : 0 ≤ margin) (hm1 : margin ≤ 1) : ∀ ds : List B64, (∀ d ∈ ds, 0 ≤ d ∧ d ≤ stake) →
    ∃ uds, ds.mapM (fun d => delegatorUtility rs d stake pledge margin cost) = .ok uds ∧ uds.length = ds.length ∧
      |(uds.map (fun x => x.1)).sum - (ds.map (fun d => delegatorReward margin.1 cost.1 (rs.exact.reward pledge.1 stake.1) (d.1 / stake.1))).sum| ≤
        ds.length * shareErr rs stake cost
  | [], _ => ⟨[], rfl, rfl, by simp⟩
  | d :: t, hd => by
    obtain ⟨uds, h1, h2, h3⟩ := delegators_err h hp hps hs hc hm0 hm1 t (fun d hd' => hd d (List.mem_cons_of_mem _ hd'))
    obtain ⟨hd0, hds⟩ := hd d List.mem_cons_self
    obtain ⟨x, v, e1, e2, e3⟩ := (C105_utilities h hp hps hs hc hm0 hm1).2 d hd0 hds
    have hs' : 0 < stake.1 := hs
    have e4 : v = delegatorReward margin.1 cost.1 (rs.exact.reward pledge.1 stake.1) (d.1 / stake.1) := by
      simp [delegatorUtility, pyDiv, hs'.ne', bind, Except.bind, pure, Except.pure, exactly_eq] at e2
      exact e2.symm
    refine ⟨x :: uds, ?_, by simp [h2], ?_⟩
    · rw [List.mapM_cons, e1, h1]; rfl
    · rw [List.map_cons, List.map_cons, List.sum_cons, List.sum_cons, List.length_cons]
      rw [e4] at e3
      change _ ≤ shareErr rs stake cost at e3
      rw [abs_le] at h3 e3 ⊢
      push_cast
      constructor <;> linarith [h3.1, h3.2, e3.1, e3.2]

theorem exact_split {m c R pl st : ℚ} (hm0 : 0 ≤ m) (hm1 : m ≤ 1) (hc : 0 ≤ c) (hRst : R ≤ st) (hst : 0 < st) (ds : List B64) :
    |operatorReward m c R (pl / st) + (ds.map (fun d => delegatorReward m c R (d.1 / st))).sum - (R - c)| ≤
      |pl + (ds.map (fun d => d.1)).sum - st| ∨ ∃ d ∈ ds, d.1 < 0 := by
  by_cases hneg : ∃ d ∈ ds, d.1 < 0
  · exact Or.inr hneg
  left
  have hnn : ∀ d ∈ ds, 0 ≤ d.1 := fun d hd => not_lt.1 (fun h => hneg ⟨d, hd, h⟩)
  unfold operatorReward delegatorReward
  dsimp only
  have h1m : 0 ≤ 1 - m := by linarith
  by_cases hQ : R - c ≤ 0
  · rw [if_pos hQ]
    have : (ds.map (fun d => max ((1 - m) * (d.1 / st) * (R - c)) 0)).sum = 0 := by
      refine List.sum_eq_zero fun x hx => ?_
      obtain ⟨d, hd, rfl⟩ := List.mem_map.1 hx
      have h0 : 0 ≤ (1 - m) * (d.1 / st) := mul_nonneg h1m (div_nonneg (hnn d hd) hst.le)
      exact max_eq_right (mul_nonpos_of_nonneg_of_nonpos h0 hQ)
    rw [this, add_zero, sub_self, abs_zero]
    exact abs_nonneg _
  · rw [if_neg hQ]
    have hQ0 : 0 < R - c := not_le.1 hQ
    have : (ds.map (fun d => max ((1 - m) * (d.1 / st) * (R - c)) 0)).sum = (1 - m) * (R - c) / st * (ds.map (fun d => d.1)).sum := by
      clear hneg
      induction ds with
      | nil => simp
      | cons d t ih =>
        rw [List.map_cons, List.map_cons, List.sum_cons, List.sum_cons, ih (fun x hx => hnn x (List.mem_cons_of_mem _ hx))]
        have h0 : 0 ≤ (1 - m) * (d.1 / st) * (R - c) := mul_nonneg (mul_nonneg h1m (div_nonneg (hnn d List.mem_cons_self) hst.le)) hQ0.le
        rw [max_eq_left h0]
        ring
    rw [this]
    have e : (R - c) * (m + (1 - m) * (pl / st)) + (1 - m) * (R - c) / st * (ds.map (fun d => d.1)).sum - (R - c) =
        ((R - c) / st * (1 - m)) * (pl + (ds.map (fun d => d.1)).sum - st) := by field_simp; ring
    rw [e, abs_mul]
    have h1 : |(R - c) / st * (1 - m)| ≤ 1 := by
      rw [abs_of_nonneg (mul_nonneg (div_nonneg hQ0.le hst.le) h1m)]
      have : (R - c) / st ≤ 1 := (div_le_one hst).2 (by linarith)
      calc (R - c) / st * (1 - m) ≤ 1 * 1 := by gcongr; linarith
        _ = 1 := one_mul _
    calc |(R - c) / st * (1 - m)| * |pl + (ds.map (fun d => d.1)).sum - st| ≤ 1 * |pl + (ds.map (fun d => d.1)).sum - st| := by gcongr
      _ = _ := one_mul _

/-- C105.  What operator and delegators get differs from `reward - cost` (exactly) by at most the errors of their utilities, plus the difference between the
stake of the pool and what it consists of (which C103 bounds). -/
theorem C105_split {rs : RS B64} (h : ParamsOK rs) {pledge stake cost margin : B64} (hp : 0 ≤ pledge) (hps : pledge ≤ stake) (hs : 0 < stake)
    (hc : 0 ≤ cost) (hm0 : 0 ≤ margin) (hm1 : margin ≤ 1) (ds : List B64) (hds : ∀ d ∈ ds, 0 ≤ d ∧ d ≤ stake) :
    ∃ uo uds, operatorUtility rs stake pledge margin cost = .ok uo ∧ ds.mapM (fun d => delegatorUtility rs d stake pledge margin cost) = .ok uds ∧
      |uo.1 + (uds.map (fun x => x.1)).sum - ((exactly rs).reward pledge.1 stake.1 - cost.1)| ≤
        (ds.length + 1) * ((2 : ℚ) ^ (-48 : Int) * (min stake.1 rs.beta.1 + cost.1) + (12 + 6 * rs.a0.1) * (2 : ℚ) ^ (-1075 : Int)) +
        |pledge.1 + (ds.map (fun d => d.1)).sum - stake.1| := by
  obtain ⟨uo, v, e1, e2, e3⟩ := (C105_utilities h hp hps hs hc hm0 hm1).1
  obtain ⟨uds, h1, h2, h3⟩ := delegators_err h hp hps hs hc hm0 hm1 ds hds
  refine ⟨uo, uds, e1, h1, ?_⟩
  have hs' : 0 < stake.1 := hs
  have e4 : v = operatorReward margin.1 cost.1 (rs.exact.reward pledge.1 stake.1) (pledge.1 / stake.1) := by
    simp [operatorUtility, pyDiv, hs'.ne', bind, Except.bind, pure, Except.pure, exactly_eq] at e2
    exact e2.symm
  have hR := (exact_reward_bounds rs h.beta_pos h.a0 hp hs.le (min_le_of_le hps)).2
  have hm1' : margin.1 ≤ 1 := by have := B64.le_def.1 hm1; rwa [B64.one_val] at this
  have h4 := (exact_split (pl := pledge.1) (B64.le_def.1 hm0) hm1' (B64.le_def.1 hc) (hR.trans (min_le_left _ _)) hs' ds).resolve_right (by
    rintro ⟨d, hd, hlt⟩
    exact absurd (B64.le_def.1 (hds d hd).1) (not_le.2 hlt))
  rw [e4] at e3
  rw [exactly_eq]
  change _ ≤ (ds.length + 1) * shareErr rs stake cost + _
  change _ ≤ shareErr rs stake cost at e3
  rw [abs_le] at h3 e3 h4 ⊢
  constructor <;> linarith [h3.1, h3.2, e3.1, e3.2, h4.1, h4.2]

/-- C105.  Whether one pool is more desirable than another is decided correctly, unless the exact desirabilities are closer to each other than the errors. -/
theorem C105_order {rs : RS B64} (h : ParamsOK rs) {pledge cost margin pledge' cost' margin' : B64} (hp : 0 ≤ pledge) (hc : 0 ≤ cost) (hm0 : 0 ≤ margin)
    (hm1 : margin ≤ 1) (hp' : 0 ≤ pledge') (hc' : 0 ≤ cost') (hm0' : 0 ≤ margin') (hm1' : margin' ≤ 1)
    (hlt : desirability margin.1 (potentialProfit (exactly rs) pledge.1 cost.1) + ((2 : ℚ) ^ (-48 : Int) * (2 * rs.beta.1 + cost.1 + cost'.1) +
      (24 + 12 * rs.a0.1) * (2 : ℚ) ^ (-1075 : Int)) < desirability margin'.1 (potentialProfit (exactly rs) pledge'.1 cost'.1)) :
    desirability margin (potentialProfit rs pledge cost) < desirability margin' (potentialProfit rs pledge' cost') := by
  have h1 := (abs_le.1 (C105_desirability h hp hc hm0 hm1)).2
  have h2 := (abs_le.1 (C105_desirability h hp' hc' hm0' hm1')).1
  rw [B64.lt_def]
  linarith

/-- The theorems at work: `a0 = 3/10`, `k = 10`; the reward is not exact, and within `2^-52` of the exact value -/
example : ∃ rs : RS B64, ParamsOK rs ∧ (rs.reward (flt 1 100) (flt 7 100)).1 ≠ (exactly rs).reward (flt 1 100).1 (flt 7 100).1 ∧
    |(rs.reward (flt 1 100) (flt 7 100)).1 - (exactly rs).reward (flt 1 100).1 (flt 7 100).1| ≤ (2 : ℚ) ^ (-52 : Int) := by
  refine ⟨{ scheme := .cardano, k := 10, beta := flt 1 10, a0 := flt 3 10 }, ⟨by decide +kernel, by decide +kernel, by decide +kernel⟩, by decide +kernel, ?_⟩
  have h := C105_reward (rs := { scheme := .cardano, k := 10, beta := flt 1 10, a0 := flt 3 10 })
    ⟨by decide +kernel, by decide +kernel, by decide +kernel⟩ (pledge := flt 1 100) (stake := flt 7 100) (by decide +kernel) (by decide +kernel)
  refine h.trans ?_
  have h1 : min (flt 7 100).1 (flt 1 10).1 ≤ 1 / 10 := by decide +kernel
  have h2 : (flt 3 10).1 ≤ 1 := by decide +kernel
  calc (2 : ℚ) ^ (-49 : Int) * min (flt 7 100).1 (flt 1 10).1 + (10 + 5 * (flt 3 10).1) * (2 : ℚ) ^ (-1075 : Int)
      ≤ (2 : ℚ) ^ (-49 : Int) * (1 / 10) + (10 + 5 * 1) * (2 : ℚ) ^ (-1075 : Int) := by gcongr
    _ ≤ _ := by norm_num

/-- ... and operator and delegators of such a pool (pledge `1/128`, delegations `2/128` and `4/128`) together get something else than `reward - cost` -/
example : ∃ rs : RS B64, ParamsOK rs ∧
    ((operatorUtility rs (flt 7 128) (flt 1 128) (flt 1 10) (flt 1 100)).toOption.getD 0).1 +
    ((delegatorUtility rs (flt 2 128) (flt 7 128) (flt 1 128) (flt 1 10) (flt 1 100)).toOption.getD 0).1 +
    ((delegatorUtility rs (flt 4 128) (flt 7 128) (flt 1 128) (flt 1 10) (flt 1 100)).toOption.getD 0).1 ≠
      (exactly rs).reward (flt 1 128).1 (flt 7 128).1 - (flt 1 100).1 :=
  ⟨{ scheme := .cardano, k := 10, beta := flt 1 10, a0 := flt 3 10 }, ⟨by decide +kernel, by decide +kernel, by decide +kernel⟩, by decide +kernel⟩

end RSE.Props
