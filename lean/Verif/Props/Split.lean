import Verif.Lemmas.Rewards
import Mathlib.Algebra.Order.Field.Rat
import Mathlib.Algebra.BigOperators.Ring.List

/-!
# C04: the split of a pool's reward between operator and delegators (exact arithmetic)
-/

set_option linter.unusedSectionVars false

namespace RSE.Props
variable {K : Type} [Field K] [LinearOrder K] [IsStrictOrderedRing K]

theorem operatorUtility_ok (rs : RS K) {stake pledge margin cost : K} (h : stake ≠ 0) :
    operatorUtility rs stake pledge margin cost =
      .ok (operatorReward margin cost (rs.reward pledge stake) (pledge / stake)) := by
  simp [operatorUtility, pyDiv, h, bind, Except.bind, pure, Except.pure]

theorem delegatorUtility_ok (rs : RS K) {alloc stake pledge margin cost : K} (h : stake ≠ 0) :
    delegatorUtility rs alloc stake pledge margin cost =
      .ok (delegatorReward margin cost (rs.reward pledge stake) (alloc / stake)) := by
  simp [delegatorUtility, pyDiv, h, bind, Except.bind, pure, Except.pure]

/-- C04.  Operator and delegators of a pool share exactly `reward - cost`; delegators never lose; a loss is borne by the operator alone.
`ds` are the delegations to the pool, any number of them. -/
theorem C04_budget_balance (rs : RS K) (pledge margin cost : K) (ds : List K)
    (hm' : margin ≤ 1) (hds : ∀ d ∈ ds, 0 ≤ d) (hstake : 0 < pledge + ds.sum) :
    ∃ uo uds,
      operatorUtility rs (pledge + ds.sum) pledge margin cost = .ok uo ∧
      ds.mapM (fun d => delegatorUtility rs d (pledge + ds.sum) pledge margin cost) = .ok uds ∧
      uds.length = ds.length ∧
      uo + uds.sum = rs.reward pledge (pledge + ds.sum) - cost ∧
      (∀ u ∈ uds, 0 ≤ u) ∧
      (rs.reward pledge (pledge + ds.sum) ≤ cost →
        uo = rs.reward pledge (pledge + ds.sum) - cost ∧ ∀ u ∈ uds, u = 0) := by
  set stake := pledge + ds.sum with hst
  set r := rs.reward pledge stake
  have hne : stake ≠ 0 := hstake.ne'
  refine ⟨operatorReward margin cost r (pledge / stake), ds.map (fun d => delegatorReward margin cost r (d / stake)),
    operatorUtility_ok rs hne, ?_, by simp, ?_, ?_, ?_⟩
  · have : (fun d => delegatorUtility rs d stake pledge margin cost) =
        fun d => (pure (delegatorReward margin cost r (d / stake)) : Py K) := by
      funext d; exact delegatorUtility_ok rs hne
    rw [this, List.mapM_pure]; rfl
  · by_cases hp : r - cost ≤ 0
    · have h0 : ds.map (fun d => delegatorReward margin cost r (d / stake)) = ds.map (fun _ => (0 : K)) := by
        apply List.map_congr_left
        intro d hd
        unfold delegatorReward
        apply max_eq_right
        have h1 : 0 ≤ d / stake := div_nonneg (hds d hd) hstake.le
        have h2 : 0 ≤ (1 - margin) * (d / stake) := mul_nonneg (by linarith) h1
        exact mul_nonpos_of_nonneg_of_nonpos h2 hp
      rw [h0]
      simp [operatorReward, hp]
    · have hp' : 0 < r - cost := not_le.1 hp
      have h0 : ds.map (fun d => delegatorReward margin cost r (d / stake)) =
          ds.map (fun d => d * ((1 - margin) * (r - cost) / stake)) := by
        apply List.map_congr_left
        intro d hd
        unfold delegatorReward
        have h1 : 0 ≤ d / stake := div_nonneg (hds d hd) hstake.le
        have h2 : 0 ≤ (1 - margin) * (d / stake) := mul_nonneg (by linarith) h1
        simp only
        rw [max_eq_left (mul_nonneg h2 hp'.le)]
        field_simp
      rw [h0, List.sum_map_mul_right, List.map_id']
      have e : ds.sum = stake - pledge := by rw [hst]; ring
      rw [e]
      simp only [operatorReward, hp, if_false]
      field_simp
      ring
  · intro u hu
    obtain ⟨d, -, rfl⟩ := List.mem_map.1 hu
    exact le_max_right _ _
  · intro hloss
    have hp : r - cost ≤ 0 := sub_nonpos.2 hloss
    refine ⟨by simp [operatorReward, hp], ?_⟩
    intro u hu
    obtain ⟨d, hd, rfl⟩ := List.mem_map.1 hu
    unfold delegatorReward
    apply max_eq_right
    have h1 : 0 ≤ d / stake := div_nonneg (hds d hd) hstake.le
    have h2 : 0 ≤ (1 - margin) * (d / stake) := mul_nonneg (by linarith) h1
    exact mul_nonpos_of_nonneg_of_nonpos h2 hp

/-- C04, the error branch: a pool without any stake raises `ZeroDivisionError` instead of paying. -/
theorem C04_zero_stake (rs : RS K) (alloc pledge margin cost : K) :
    operatorUtility rs 0 pledge margin cost = .error .zeroDiv ∧
    delegatorUtility rs alloc 0 pledge margin cost = .error .zeroDiv := by
  simp [operatorUtility, delegatorUtility, pyDiv, bind, Except.bind]

/-- the hypotheses are met by a profitable pool with two delegators: 11753/650000 for the operator, 4599/325000 for
the delegator of 1/50 -/
example : (operatorUtility (⟨.cardano, 10, 1/10, 3/10⟩ : RS ℚ) (1/50 + [1/50, (1/100 : ℚ)].sum) (1/50) (1/10) (1/1000)).toOption =
      some (11753/650000) ∧
    (delegatorUtility (⟨.cardano, 10, 1/10, 3/10⟩ : RS ℚ) (1/50) (1/50 + [1/50, (1/100 : ℚ)].sum) (1/50) (1/10) (1/1000)).toOption =
      some (4599/325000) := by decide +kernel

end RSE.Props
