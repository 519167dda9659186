import Verif.Lemmas.Ready
import Verif.Lemmas.Count
import Verif.Props.Rewards

/-!
# Operating pools that cannot be profitable is never better than delegating (sequential activation, exact arithmetic)
-/

set_option linter.unusedSectionVars false

namespace RSE

variable {K : Type} [Field K] [LinearOrder K] [IsStrictOrderedRing K]

/-- the value of a computation, 0 if it raises -/
def Py.val (x : Py K) : K := match x with
  | .ok v => v
  | .error _ => 0

theorem accM_val {α : Type} {f : α → Py K} : ∀ {l : List α} {u v : K}, accM f l u = .ok v → v = u + (l.map (fun x => Py.val (f x))).sum
  | [], u, v, h => by cases h; simp
  | x :: t, u, v, h => by
    unfold accM at h
    obtain ⟨y, h1, h2⟩ := bind_ok h
    rw [accM_val h2, List.map_cons, List.sum_cons, h1]
    simp only [Py.val]
    ring

/-! ### Utility from delegating, as a function of the amount -/

/-- the utility of delegating `x` to the open pool `pid`; 0 if there is no such pool or the evaluation raises -/
def delegValue (s : State K) (me : Agent K) (σ : Strategy K) (pid : Nat) (x : K) : K := match s.pools.get? pid with
  | some r => Py.val (delegatorUtilityFromPool s me σ r x)
  | none => 0

theorem sum_filterMap_pools (s : State K) (me : Agent K) (σ : Strategy K) : ∀ (l : Dict K),
    (((l.filterMap (fun e => (s.pools.get? e.1).map (fun r => (r, e.2))))).map (fun e => Py.val (delegatorUtilityFromPool s me σ e.1 e.2))).sum =
      (l.map (fun e => delegValue s me σ e.1 e.2)).sum
  | [] => rfl
  | (pid, x) :: t => by
    have ih := sum_filterMap_pools s me σ t
    cases hp : s.pools.get? pid with
    | none => simp only [List.filterMap_cons, hp, Option.map_none, List.map_cons, List.sum_cons, delegValue, ih, zero_add]
    | some r =>
      simp only [List.filterMap_cons, hp, Option.map_some, List.map_cons, List.sum_cons, delegValue, ih]

theorem expectedUtility_val {s : State K} {me : Agent K} {σ τ : Strategy K} {u : K} (h : expectedUtility s me σ τ = .ok u) :
    ∃ o, (τ.owned.length = 0 → o = 0) ∧ (0 < τ.owned.length → operatorUtilityFromStrategy s me τ = .ok o) ∧
      u = o + (τ.allocs.map (fun e => delegValue s me σ e.1 e.2)).sum := by
  unfold expectedUtility at h
  obtain ⟨o, h1, h2⟩ := bind_ok h
  refine ⟨o, ?_, ?_, ?_⟩
  · intro h0
    rw [if_neg (by omega)] at h1
    cases h1; rfl
  · intro h0
    rw [if_pos h0] at h1
    cases ho : operatorUtilityFromStrategy s me τ with
    | error e => rw [ho] at h1; cases h1
    | ok v => rw [ho] at h1; cases h1; simp
  · rw [accM_val h2, sum_filterMap_pools]

/-- share of a larger delegation in the pool -/
theorem share_mono {S x y nm : K} (hS : 0 < S) (hx : 0 ≤ x) (hxy : x ≤ y) : x / max nm (S + x) ≤ y / max nm (S + y) := by
  have h1 : 0 < max nm (S + x) := lt_of_lt_of_le (by linarith) (le_max_right _ _)
  have h2 : 0 < max nm (S + y) := lt_of_lt_of_le (by linarith) (le_max_right _ _)
  rw [div_le_div_iff₀ h1 h2]
  rcases le_total (S + y) nm with h | h
  · rw [max_eq_left h, max_eq_left (by linarith)]
    exact mul_le_mul_of_nonneg_right hxy (by linarith)
  · rw [max_eq_right h]
    have h3 : x * (S + y) ≤ y * (S + x) := by nlinarith
    exact h3.trans (mul_le_mul_of_nonneg_left (le_max_right _ _) (by linarith))

theorem delegatorReward_mono {m c R R' f f' : K} (hm : m ≤ 1) (hR : R ≤ R') (hf0 : 0 ≤ f) (hf : f ≤ f') :
    delegatorReward m c R f ≤ delegatorReward m c R' f' := by
  unfold delegatorReward
  simp only
  have hm' : 0 ≤ 1 - m := by linarith
  rcases le_total (R - c) 0 with h | h
  · have : (1 - m) * f * (R - c) ≤ 0 := mul_nonpos_of_nonneg_of_nonpos (mul_nonneg hm' hf0) h
    rw [max_eq_right this]; exact le_max_right _ _
  · refine max_le_max_right _ ?_
    have h1 : (1 - m) * f ≤ (1 - m) * f' := mul_le_mul_of_nonneg_left hf hm'
    have h2 : R - c ≤ R' - c := by linarith
    calc (1 - m) * f * (R - c) ≤ (1 - m) * f' * (R - c) := mul_le_mul_of_nonneg_right h1 h
      _ ≤ (1 - m) * f' * (R' - c) := mul_le_mul_of_nonneg_left h2 (mul_nonneg hm' (hf0.trans hf))

/-- what is needed about the pool to evaluate a delegation to it -/
structure Evaluable (rs : RS K) (p : Pool K) (S : K) : Prop where
  beta : 0 < rs.beta
  a0 : 0 ≤ rs.a0
  pledge : 0 ≤ p.pledge
  margin : p.margin ≤ 1
  rest : 0 < S

theorem delegatorUtility_mono {rs : RS K} {p : Pool K} {S nm x y : K} (h : Evaluable rs p S) (hx : 0 ≤ x) (hxy : x ≤ y) :
    Py.val (delegatorUtility rs x (max nm (S + x)) p.pledge p.margin p.cost) ≤ Py.val (delegatorUtility rs y (max nm (S + y)) p.pledge p.margin p.cost) := by
  have h1 : 0 < max nm (S + x) := lt_of_lt_of_le (by linarith [h.rest]) (le_max_right _ _)
  have h2 : 0 < max nm (S + y) := lt_of_lt_of_le (by linarith [h.rest]) (le_max_right _ _)
  rw [delegatorUtility_val h1.ne', delegatorUtility_val h2.ne']
  exact delegatorReward_mono h.margin (Props.C02_reward_mono_stake rs h.beta h.a0 _ h.pledge _ _ (max_le_max_left _ (by linarith)))
    (div_nonneg hx h1.le) (share_mono h.rest hx hxy)

theorem delegatorUtility_zero {rs : RS K} {p : Pool K} {st : K} : Py.val (delegatorUtility rs 0 st p.pledge p.margin p.cost) = 0 := by
  by_cases hst : st = 0
  · simp [delegatorUtility, pyDiv, hst, bind, Except.bind, Py.val]
  · rw [delegatorUtility_val hst]
    simp [Py.val, delegatorReward]

/-- the value of a delegation is 0 for nothing and grows with the amount -/
theorem fromPool_mono {s : State K} {me : Agent K} {σ : Strategy K} {r : Ref} {x y : K}
    (h : Evaluable s.rs (s.heap r) ((s.heap r).stake - (σ.allocs.get? (s.heap r).id).getD 0)) (hx : 0 ≤ x) (hxy : x ≤ y) :
    Py.val (delegatorUtilityFromPool s me σ r x) ≤ Py.val (delegatorUtilityFromPool s me σ r y) ∧ Py.val (delegatorUtilityFromPool s me σ r 0) = 0 := by
  unfold delegatorUtilityFromPool
  simp only
  revert h
  cases σ.allocs.get? (s.heap r).id
  all_goals
    simp only [Option.getD_none, Option.getD_some]
    generalize (s.heap r).stake - _ = S
    intro h
    have hmy : ∀ z, 0 ≤ z → delegatorUtility s.rs z (S + z) (s.heap r).pledge (s.heap r).margin (s.heap r).cost =
        delegatorUtility s.rs z (max 0 (S + z)) (s.heap r).pledge (s.heap r).margin (s.heap r).cost := by
      intro z hz; rw [max_eq_right (by linarith [h.rest])]
    cases me.profile with
    | nonMyopic =>
      cases nonMyopicStake s.rs s.totalStake s.heap s.rank r with
      | error e => exact ⟨le_rfl, rfl⟩
      | ok nm => exact ⟨delegatorUtility_mono h hx hxy, delegatorUtility_zero⟩
    | myopic =>
      simp only
      rw [hmy x hx, hmy y (hx.trans hxy)]
      exact ⟨delegatorUtility_mono h hx hxy, delegatorUtility_zero⟩
    | abstainer =>
      simp only
      rw [hmy x hx, hmy y (hx.trans hxy)]
      exact ⟨delegatorUtility_mono h hx hxy, delegatorUtility_zero⟩

/-! ### Two states that look the same give the same values -/

theorem mapM_congr {α β : Type} {f g : α → Py β} : ∀ {l : List α}, (∀ x ∈ l, f x = g x) → l.mapM f = l.mapM g
  | [], _ => rfl
  | x :: t, h => by
    rw [List.mapM_cons, List.mapM_cons, h x List.mem_cons_self, mapM_congr (fun y hy => h y (List.mem_cons_of_mem _ hy))]

/-- the entries of the rankings are open pools -/
theorem Core.rank_open {n : Nat} {s : State K} (h : Core n s) {r : Ref} (hr : some r ∈ s.rank.vals) : ∃ pid, s.pools.get? pid = some r := by
  obtain ⟨e, he, hee⟩ := List.mem_map.1 hr
  rw [h.rankPerm.mem_iff] at he
  rcases List.mem_append.1 he with he | he
  · rw [List.eq_of_mem_replicate he] at hee; cases hee
  · obtain ⟨⟨pid, r'⟩, hm', rfl⟩ := List.mem_map.1 he
    simp only [Option.some.injEq] at hee; subst hee
    exact ⟨pid, Dict.get?_of_mem h.poolsNodup hm'⟩

theorem Core.rankM_open {n : Nat} {s : State K} (h : Core n s) {r : Ref} (hr : some r ∈ s.rankM.vals) : ∃ pid, s.pools.get? pid = some r := by
  obtain ⟨e, he, hee⟩ := List.mem_map.1 hr
  rw [h.rankMPerm.mem_iff] at he
  rcases List.mem_append.1 he with he | he
  · rw [List.eq_of_mem_replicate he] at hee; cases hee
  · obtain ⟨⟨pid, r'⟩, hm', rfl⟩ := List.mem_map.1 he
    simp only [Option.some.injEq] at hee; subst hee
    exact ⟨pid, Dict.get?_of_mem h.poolsNodup hm'⟩

theorem Calm.open_alike {n : Nat} {s s' : State K} (h : Calm s s') (hc : Core n s) {pid : Nat} {r : Ref} (hp : s.pools.get? pid = some r) :
    Alike (s.heap r) (s'.heap r) := h.alike r (hc.poolRef _ _ hp).1

theorem Calm.nonMyopicStake {n : Nat} {s s' : State K} (h : Calm s s') (hc : Core n s) {pid : Nat} {r : Ref} (hp : s.pools.get? pid = some r) :
    nonMyopicStake s'.rs s'.totalStake s'.heap s'.rank r = nonMyopicStake s.rs s.totalStake s.heap s.rank r := by
  have hal := h.open_alike hc hp
  unfold RSE.nonMyopicStake
  simp only
  rw [h.rs, h.totalStake, h.rank, hal.same.key, hal.same.pledge, hal.stake]
  cases s.rank.index (poolKey (s.heap r)) (some r) with
  | error e => rfl
  | ok i =>
    simp only [bind, Except.bind]
    rw [mapM_congr (f := entrySat s.rs s'.heap) (g := entrySat s.rs s.heap)]
    intro e he
    cases e with
    | none => rfl
    | some q =>
      obtain ⟨pid', hp'⟩ := hc.rank_open (List.mem_of_mem_take he)
      simp only [entrySat, (h.open_alike hc hp').same.pledge]

theorem Calm.fromPool {n : Nat} {s s' : State K} (h : Calm s s') (hc : Core n s) {pid : Nat} {r : Ref} (hp : s.pools.get? pid = some r)
    (me : Agent K) (σ : Strategy K) (x : K) : delegatorUtilityFromPool s' me σ r x = delegatorUtilityFromPool s me σ r x := by
  have hal := h.open_alike hc hp
  unfold delegatorUtilityFromPool
  simp only
  rw [h.nonMyopicStake hc hp, h.rs, hal.same.id, hal.stake, hal.same.pledge, hal.same.margin, hal.same.cost]

theorem Calm.delegValue {n : Nat} {s s' : State K} (h : Calm s s') (hc : Core n s) (me : Agent K) (σ : Strategy K) (pid : Nat) (x : K) :
    delegValue s' me σ pid x = delegValue s me σ pid x := by
  unfold RSE.delegValue
  rw [h.pools]
  cases hp : s.pools.get? pid with
  | none => rfl
  | some r => simp only [h.fromPool hc hp]

theorem Calm.eligible {n : Nat} {s s' : State K} (h : Calm s s') (hc : Core n s) (me : Agent K) : eligiblePools s' me = eligiblePools s me := by
  have hr : rankingsOf s' me = rankingsOf s me := by unfold rankingsOf; rw [h.rank, h.rankM]
  unfold eligiblePools
  rw [hr]
  apply List.filterMap_congr
  intro e he
  cases e with
  | none => rfl
  | some r =>
    have hp : ∃ pid, s.pools.get? pid = some r := by
      unfold rankingsOf at he
      split at he
      · exact hc.rank_open he
      · exact hc.rankM_open he
    obtain ⟨pid, hp⟩ := hp
    have hal := h.open_alike hc hp
    simp only [hal.same.owner, hal.same.isPrivate]

/-! ### Delegating less is worth less -/

/-- the open pools can be evaluated by the agent -/
def AllEvaluable (s : State K) (σ : Strategy K) : Prop :=
  ∀ pid r, s.pools.get? pid = some r → Evaluable s.rs (s.heap r) ((s.heap r).stake - (σ.allocs.get? pid).getD 0)

theorem delegValue_mono {n : Nat} {s : State K} {me : Agent K} {σ : Strategy K} (hc : Core n s) (he : AllEvaluable s σ) (pid : Nat) {x y : K} (hx : 0 ≤ x)
    (hxy : x ≤ y) : delegValue s me σ pid x ≤ delegValue s me σ pid y ∧ delegValue s me σ pid 0 = 0 := by
  unfold delegValue
  cases hp : s.pools.get? pid with
  | none => exact ⟨le_rfl, rfl⟩
  | some r =>
    have := he pid r hp
    rw [← (hc.poolRef _ _ hp).2.1] at this
    exact fromPool_mono this hx hxy

theorem amount_nonneg {d : Dict K} (h : ∀ e ∈ d, minUnit ≤ e.2) (i : Nat) : 0 ≤ d.amount i := by
  unfold Dict.amount
  cases hd : d.get? i with
  | none => exact le_rfl
  | some x => exact (pos_of_minUnit (h _ (Dict.mem_of_get? hd))).le

/-- a plan with less of everything is worth less -/
theorem value_mono {n : Nat} {s : State K} {me : Agent K} {σ : Strategy K} (hc : Core n s) (he : AllEvaluable s σ) {d d' : Dict K}
    (hd : d.keys.Nodup) (hd' : d'.keys.Nodup) (hm : ∀ e ∈ d, minUnit ≤ e.2) (hle : ∀ i, d.amount i ≤ d'.amount i) :
    (d.map (fun e => delegValue s me σ e.1 e.2)).sum ≤ (d'.map (fun e => delegValue s me σ e.1 e.2)).sum := by
  have h0 : ∀ i, delegValue s me σ i 0 = 0 := fun i => (delegValue_mono hc he i le_rfl le_rfl).2
  have hids : (d.keys ∪ d'.keys).Nodup := List.Nodup.union _ hd'
  rw [sum_entries hd h0 hids (fun i hi => List.mem_union_iff.2 (Or.inl hi)), sum_entries hd' h0 hids (fun i hi => List.mem_union_iff.2 (Or.inr hi))]
  exact List.sum_le_sum (fun i _ => (delegValue_mono hc he i (amount_nonneg hm i) (hle i)).1)

/-- taking out the agent's delegations, in a state with the same open pools -/
theorem takeOut_open {n : Nat} {s t t₁ : State K} {a : Nat} {σ : Strategy K} (h : Ready n s a σ) (ht : Core n t) (hp : t.pools = s.pools)
    (hh : ∀ pid r, s.pools.get? pid = some r → t.heap r = s.heap r)
    (h1 : setDelegations t a (σ.allocs.map (fun e => (e.1, 0))) = .ok t₁) :
    t₁.rs = t.rs ∧ ∀ pid r, s.pools.get? pid = some r → SamePool (s.heap r) (t₁.heap r) ∧ (t₁.heap r).stake = (s.heap r).stake - (σ.allocs.get? pid).getD 0 := by
  have hk : Dict.keys (σ.allocs.map (fun e => (e.1, (0 : K)))) = σ.allocs.keys := Dict.keys_map_snd σ.allocs (fun _ _ => (0 : K))
  obtain ⟨c1, sh, hv⟩ := (setDelegations_spec a (σ.allocs.map (fun e => (e.1, (0 : K)))) t ht (by rw [hk]; exact h.nodup)).of_ok h1
  have hbal : ∀ (l : List (Nat × K)) (u u' : State K), (∀ e ∈ l, e.2 = 0) → (∀ pid r, u.pools.get? pid = some r → Balanced (u.heap r)) →
      setDelegations u a l = .ok u' → ∀ pid r, u'.pools.get? pid = some r → Balanced (u'.heap r) := by
    intro l
    induction l with
    | nil => intro u u' _ hu he; cases he; exact hu
    | cons e l ih =>
      obtain ⟨pid, x⟩ := e
      intro u u' hx hu he
      unfold setDelegations at he
      obtain ⟨u₁, k1, k2⟩ := bind_ok he
      refine ih u₁ u' (fun e he => hx e (List.mem_cons_of_mem _ he)) ?_ k2
      unfold setDelegation at k1
      obtain ⟨r, k3, k4⟩ := bind_ok k1
      obtain ⟨lm, k5, k6⟩ := bind_ok k4
      cases k6
      intro pid' r' hp'
      change u.pools.get? pid' = some r' at hp'
      change Balanced (Function.update u.heap r _ r')
      by_cases hr : r' = r
      · subst hr
        rw [Function.update_self]
        exact balanced_upd _ _ _ (hu pid' r' hp') (Or.inl (hx _ List.mem_cons_self))
      · rw [Function.update_of_ne hr]; exact hu pid' r' hp'
  refine ⟨sh.rs, fun pid r hpr => ?_⟩
  have hpt : t.pools.get? pid = some r := by rw [hp]; exact hpr
  have hsame := sh.same r
  rw [hh pid r hpr] at hsame
  refine ⟨hsame, ?_⟩
  have hb₁ := hbal _ t t₁ (fun e he => by obtain ⟨e', -, rfl⟩ := List.mem_map.1 he; rfl)
    (fun pid r hpr => by rw [hp] at hpr; rw [hh pid r hpr]; exact h.bal r) h1 pid r (by rw [sh.pools]; exact hpt)
  have hnone : (t₁.heap r).delegators.get? a = none := by
    have := hv pid r hpt
    rw [Dict.get?_map_snd σ.allocs (fun _ _ => (0 : K)), hh pid r hpr] at this
    rw [this, h.agree pid r hpr]
    cases hx : σ.allocs.get? pid with
    | none => rfl
    | some x => simp [recorded, minUnit_pos]
  rw [(h.bal r).stake_removed hb₁ hsame (fun b hb => by rw [← hh pid r hpr]; exact sh.others r b hb) hnone, h.agree pid r hpr]

/-- the pools an agent may delegate to are open -/
theorem eligible_open {n : Nat} {s : State K} (h : Core n s) {me : Agent K} {r : Ref} (hr : r ∈ eligiblePools s me) : ∃ pid, s.pools.get? pid = some r := by
  unfold eligiblePools at hr
  obtain ⟨e, hm, hee⟩ := List.mem_filterMap.1 hr
  cases e with
  | none => cases hee
  | some r' =>
    simp only at hee
    split at hee
    · cases hee
      unfold rankingsOf at hm
      split at hm
      · exact h.rank_open hm
      · exact h.rankM_open hm
    · cases hee

/-- More stake, better plan.  The second plan is made after the first, in a state with the same open pools. -/
theorem Delegated.value_le {n : Nat} {s sC sA s' sB : State K} {me : Agent K} {σ δ τ : Strategy K} {x y : K} (h : Ready n s me.id σ)
    (hC : Ready n sC me.id σ) (hcalm : Calm s sC) (hA : Core n sA)
    (hp : sA.pools = sC.pools) (hrs : sA.rs = sC.rs) (hh : ∀ pid r, sC.pools.get? pid = Option.some r → sA.heap r = sC.heap r)
    (helig : eligiblePools sA me = eligiblePools s me)
    (he : AllEvaluable s σ) (hd : Delegated s me σ y s' δ) (ht : Delegated sA me σ x sB τ) (hxy : x ≤ y)
    (hg : GoodAllocs s' me.id δ.allocs) (hgt : GoodAllocs sB me.id τ.allocs) :
    (τ.allocs.map (fun e => delegValue s me σ e.1 e.2)).sum ≤ (δ.allocs.map (fun e => delegValue s me σ e.1 e.2)).sum := by
  have hmin : ∀ {d : Dict K} {t : State K}, GoodAllocs t me.id d → ∀ e ∈ d, minUnit ≤ e.2 :=
    fun hga e hm => (hga.good _ _ (Dict.get?_of_mem hga.nodup hm)).1
  refine value_mono h.core he hgt.nodup hg.nodup (hmin hgt) (fun i => ?_)
  have hzero : τ.allocs = [] → τ.allocs.amount i ≤ δ.allocs.amount i := by
    intro h0; rw [h0]; exact amount_nonneg (hmin hg) i
  cases ht with
  | tiny _ _ hτ => exact hzero (by rw [hτ])
  | none _ _ _ hτ => exact hzero (by rw [hτ])
  | some t₁ hx hne h1 h2 hτ =>
    obtain ⟨hrs₁, tA⟩ := takeOut_open hC hA hp hh h1
    cases hd with
    | tiny hlt _ _ => exact absurd (hx.trans hxy) (not_le.2 hlt)
    | none _ hnil _ _ => exact absurd (by rw [helig]; exact hnil) hne
    | some s₁ hy hne' h3 h4 hδ =>
      obtain ⟨tS, -⟩ := h.takeOut h3
      have halike : ∀ r ∈ eligiblePools s me, Alike (s₁.heap r) (t₁.heap r) := by
        intro r hr
        obtain ⟨pid, hp⟩ := eligible_open h.core hr
        obtain ⟨h5, h6⟩ := tA pid r (by rw [hcalm.pools]; exact hp)
        have hal := hcalm.open_alike h.core hp
        exact ⟨(tS.same r).symm.trans (hal.same.trans h5), by rw [h6, tS.stake pid r hp, hal.stake]⟩
      have hnd := eligible_ids_nodup h.core me tS.same
      have hrs : t₁.rs = s₁.rs := by rw [hrs₁, tS.shuf.rs, hrs, hcalm.rs]
      rw [hτ, hδ]
      simp only
      rw [helig, hrs, greedyAllocations_congr _ halike hnd hx]
      exact greedyAllocations_mono _ _ _ hnd hx hxy i

/-! ### Pools that cannot be profitable -/

theorem reward_le_saturated {rs : RS K} (hb : 0 < rs.beta) (ha : 0 ≤ rs.a0) {q : K} (hq : 0 ≤ q) (st : K) : rs.reward q st ≤ rs.reward q (rs.sat q) := by
  rcases le_total (rs.sat q) st with h | h
  · rw [Props.C02_reward_const_past_saturation rs q st h]
  · exact Props.C02_reward_mono_stake rs hb ha q hq _ _ h

theorem operatorUtility_nonpos {rs : RS K} (hb : 0 < rs.beta) (ha : 0 ≤ rs.a0) {q c m st : K} (hq : 0 ≤ q) (hpp : potentialProfit rs q c ≤ 0) :
    Py.val (operatorUtility rs st q m c) ≤ 0 := by
  by_cases hst : st = 0
  · simp [operatorUtility, pyDiv, hst, bind, Except.bind, Py.val]
  · rw [operatorUtility_val hst]
    have h1 := reward_le_saturated hb ha hq st
    unfold potentialProfit at hpp
    have h2 : rs.reward q st - c ≤ 0 := by linarith
    simp only [Py.val, operatorReward, h2, if_true]

theorem operatorUtilityFromStrategy_nonpos {s : State K} {me : Agent K} {τ : Strategy K} {q c o : K} (hb : 0 < s.rs.beta) (ha : 0 ≤ s.rs.a0)
    (hq : 0 ≤ q) (hp : ∀ r ∈ τ.owned.vals, (s.heap r).pledge = q ∧ (s.heap r).cost = c) (hpp : potentialProfit s.rs q c ≤ 0)
    (h : operatorUtilityFromStrategy s me τ = .ok o) : o ≤ 0 := by
  have key : ∀ {f : Ref → Py K}, (∀ r ∈ τ.owned.vals, Py.val (f r) ≤ 0) → accM f τ.owned.vals 0 = .ok o → o ≤ 0 := by
    intro f hf hacc
    rw [accM_val hacc, zero_add]
    refine (List.sum_le_sum (g := fun _ => (0 : K)) hf).trans (by simp)
  have hop : ∀ r ∈ τ.owned.vals, ∀ st, Py.val (operatorUtility s.rs st (s.heap r).pledge (s.heap r).margin (s.heap r).cost) ≤ 0 := by
    intro r hr st
    rw [(hp r hr).1, (hp r hr).2]
    exact operatorUtility_nonpos hb ha hq hpp
  unfold operatorUtilityFromStrategy at h
  simp only at h
  split at h
  · refine key (fun r hr => ?_) h
    cases nonMyopicStake s.rs s.totalStake s.heap (tempRankings s me τ.owned.vals) r with
    | error e => exact le_rfl
    | ok st => exact hop r hr st
  · exact key (fun r hr => hop r hr _) h

/-- the order of the open pools, for a state with the same open pools -/
theorem eligible_congr {n : Nat} {s sA : State K} (h : Core n s) (hA : Core n sA) (hp : sA.pools = s.pools) (hrs : sA.rs = s.rs) (hrank : sA.rank = s.rank)
    (hh : ∀ pid r, s.pools.get? pid = some r → sA.heap r = s.heap r) (me : Agent K) : sA.rankM = s.rankM ∧ eligiblePools sA me = eligiblePools s me := by
  have hrm : sA.rankM = s.rankM := by
    refine SKL.eq_of_perm hA.rankMSorted h.rankMSorted ?_ hA.rankM_unique
    refine hA.rankMPerm.trans (List.Perm.trans (List.Perm.of_eq ?_) h.rankMPerm.symm)
    unfold rankEntries
    rw [hp, hrs]
    congr 1
    apply List.map_congr_left
    intro e he
    rw [hh e.1 e.2 (Dict.get?_of_mem h.poolsNodup he)]
  have hr : rankingsOf sA me = rankingsOf s me := by unfold rankingsOf; rw [hrank, hrm]
  refine ⟨hrm, ?_⟩
  unfold eligiblePools
  rw [hr]
  apply List.filterMap_congr
  intro e he
  cases e with
  | none => rfl
  | some r =>
    have hp : ∃ pid, s.pools.get? pid = some r := by
      unfold rankingsOf at he
      split at he
      · exact h.rank_open he
      · exact h.rankM_open he
    obtain ⟨pid, hp⟩ := hp
    simp only [hh pid r hp]

theorem Reachable.evaluable {c : Config K} {s : State K} (h : Reachable c s) (hq : Books s) (h0 : ∀ e ∈ c.people, 0 < e.1) (hb : 0 < c.rs.beta)
    (ha0 : 0 ≤ s.rs.a0) {me : Nat} {ag : Agent K} {σ : Strategy K} (ha : s.agents.get? me = some ag) (hσ : ag.strategy = some σ) : AllEvaluable s σ := by
  intro pid r hp
  have hpl := h.pledge_pos h0 hb hp
  refine ⟨(h.shaped (fun e he => (h0 e he).le) hb).1, ha0, hpl.le, (h.fair r).margin_le, ?_⟩
  have hbal := h.balanced r
  rw [← (h.ready_of ha hσ (hq.inRecords ha hσ)).agree pid r hp]
  cases hx : (s.heap r).delegators.get? me with
  | none =>
    have := hbal.pledge_le
    simp only [Option.getD_none]; linarith
  | some x =>
    have h1 := Dict.total_erase hx
    have h2 : 0 ≤ ((s.heap r).delegators.erase me).total :=
      Dict.total_nonneg (fun e he => (pos_of_minUnit (hbal.min e ((Dict.erase_sublist _ _).subset he))).le)
    simp only [Option.getD_some]
    rw [hbal.stake]
    linarith

/-- Whoever decides to operate pools expects them to be profitable (when saturated). -/
theorem Reachable.plan_profitable {c : Config K} {s s₂ : State K} (h : Reachable c s) (hqb : Books s) (h0 : ∀ e ∈ c.people, 0 < e.1)
    (hb : 0 < c.rs.beta) (ha0 : 0 ≤ s.rs.a0) {me : Nat} {ag : Agent K} {σ : Strategy K} (ha : s.agents.get? me = some ag) (hσ : ag.strategy = some σ)
    {ord : List Nat → List Nat} (hord : ∀ l, (ord l).Perm l) {oν : Option (Strategy K)} (hpm : planMove ord s ag σ = .ok (s₂, oν)) {ν : Strategy K}
    (hν : oν = some ν) (hlen : 0 < ν.owned.length) {q co : K} (hq : pledgePerPool ag.stake s.rs.beta ν.owned.length = .ok q)
    (hco : costPerPool ν.owned.length ag.cost s.extraFrac = .ok co) : 0 < potentialProfit s.rs q co := by
  have hg := h.good minUnit_pos
  have hid := hg.inv.core.agentId me ag ha
  have ht := hg.inv.tidy me ag ha
  have hready : Ready (c.rs.k + 1) s ag.id σ := by rw [hid]; exact h.ready_of ha hσ (hqb.inRecords ha hσ)
  have heval := h.evaluable hqb h0 hb ha0 ha hσ
  have hbeta := (h.shaped (fun e he => (h0 e he).le) hb).1
  have hcalm2 := (h.plan_calm_of ha hσ (hqb.inRecords ha hσ) hord hpm).1
  obtain ⟨cur, exp, s₁, δ, du, ou, ω, hp⟩ := planMove_ok hpm
  have hdel := findDelegationMove_ok hp.delegate
  obtain ⟨hcalm1, -, -, hready1⟩ := hdel.calm hready
  obtain ⟨c1, sh1, -, hgood1, hδo⟩ := (findDelegationMove_spec hready.core ag σ hready.nodup ag.stake).of_ok hp.delegate
  simp only at c1 sh1 hgood1 hδo
  have hpl := Planned.of_shuf sh1
  obtain ⟨c2, -, -, hop⟩ := (choosePoolStrategy_spec c1 hord ag hready.nodup (ht.owned _ hσ) (by
    intro pid r hr; rw [hpl.pools]; exact (hg.inv.owned ha hσ hr).1)).of_ok hp.operate
  simp only at c2 hop
  have hpick := hp.pick
  rw [hν] at hpick
  by_contra hpp
  push Not at hpp
  have hag : 0 < ag.stake := h0 _ (List.mem_of_getElem? (hg.person ha))
  split at hpick
  · cases hpick
  · cases hpick
    rw [hδo] at hlen
    exact absurd hlen (lt_irrefl 0)
  · rename_i hmove
    cases hpick
    have hgt : du < ou := by
      unfold pickMove at hmove
      split at hmove
      rename_i m best hmb
      split at hmove
      · rename_i hob
        split at hmb
        · cases hmb; exact hob
        · rename_i hdc; cases hmb; exact lt_of_le_of_lt (not_lt.1 hdc) hob
      · subst hmove
        split at hmb <;> cases hmb
    obtain ⟨q', co', margins, u, -, hq', hco', -, -, -, hrest⟩ := hop.shape
    rw [hpl.rs] at hq'
    rw [hpl.extraFrac] at hco'
    rw [hq] at hq'; rw [hco] at hco'
    cases hq'; cases hco'
    have hqpos : 0 < q := pledgePerPool_pos hq hag hbeta
    -- utilities
    obtain ⟨o, -, ho, hou⟩ := expectedUtility_val (choosePoolStrategy_ok hp.operate).choose_spec.choose_spec.choose_spec.choose_spec.utility
    obtain ⟨o', ho', -, hdu⟩ := expectedUtility_val hp.dutility
    rw [ho' (by rw [hδo]; rfl), zero_add] at hdu
    have hsh := planMove_shaped hready.core hord hready.nodup (ht.owned _ hσ) (fun pid r hr => (hg.inv.owned ha hσ hr).1) hag.le hpm True hν
    have ho0 : o ≤ 0 := by
      refine operatorUtilityFromStrategy_nonpos (q := q) (c := co) (by rw [hcalm2.rs]; exact hbeta) (by rw [hcalm2.rs]; exact ha0) hqpos.le (fun r hr => ?_)
        (by rw [hcalm2.rs]; exact hpp) (ho hlen)
      exact ⟨(hsh.pools q co hq hco r hr).1, (hsh.pools q co hq hco r hr).2.1⟩
    have hv2 : ∀ pid x, delegValue s₂ ag σ pid x = delegValue s ag σ pid x := hcalm2.delegValue hready.core ag σ
    have hv1 : ∀ pid x, delegValue s₁ ag σ pid x = delegValue s ag σ pid x := hcalm1.delegValue hready.core ag σ
    simp only [hv2] at hou
    simp only [hv1] at hdu
    have hle : (ν.allocs.map (fun e => delegValue s ag σ e.1 e.2)).sum ≤ (δ.allocs.map (fun e => delegValue s ag σ e.1 e.2)).sum := by
      rcases hrest with ⟨-, hal⟩ | ⟨sA, sB, hpos, hcA, hplA, hheap, hfd⟩
      · rw [hal]
        refine value_mono hready.core heval (by simp [Dict.keys]) hgood1.nodup (by simp) (fun i => ?_)
        exact amount_nonneg (fun e hm => (hgood1.good _ _ (Dict.get?_of_mem hgood1.nodup hm)).1) i
      · have hh : ∀ pid r, s₁.pools.get? pid = some r → sA.heap r = s₁.heap r := fun pid r hp => hheap r (c1.poolRef _ _ hp).1
        have helig := (eligible_congr c1 hcA hplA.pools hplA.rs hplA.rank hh ag).2.trans (hcalm1.eligible hready.core ag)
        have hgB := ((findDelegationMove_spec hcA ag σ hready.nodup _).of_ok hfd).2.2.2.1
        exact Delegated.value_le (τ := { allocs := ν.allocs, owned := [] }) hready hready1 hcalm1 hcA hplA.pools hplA.rs hh helig heval hdel
          (findDelegationMove_ok hfd) (by
            have : 0 ≤ q * (ν.owned.length : K) := mul_nonneg hqpos.le (Nat.cast_nonneg _)
            linarith) hgood1 hgB
    rw [hou, hdu] at hgt
    linarith

/-! ### The invariant -/

/-- a number of pools that the agent may expect to be profitable -/
def Profitable (rs : RS K) (f : K) (ag : Agent K) (n : Nat) : Prop :=
  0 < n → ∀ q co, pledgePerPool ag.stake rs.beta n = .ok q → costPerPool n ag.cost f = .ok co → 0 < potentialProfit rs q co

structure AgentProfitable (rs : RS K) (f : K) (ag : Agent K) : Prop where
  strategy : ∀ σ, ag.strategy = some σ → Profitable rs f ag σ.owned.length
  staged : ∀ ν, ag.newStrategy = some ν → Profitable rs f ag ν.owned.length

theorem Profitable.congr {rs : RS K} {f : K} {ag ag' : Agent K} {n n' : Nat} (h : Profitable rs f ag n) (h1 : ag'.stake = ag.stake) (h2 : ag'.cost = ag.cost)
    (h3 : n' = n) : Profitable rs f ag' n' := by
  unfold Profitable at *
  rw [h1, h2, h3]; exact h

theorem executed_profitable {rs : RS K} {f : K} {n : Nat} {s s' : State K} {me : Nat} {ν : Strategy K} (hex : Executed n s s' me ν)
    (hν : ∀ ag, s.agents.get? me = some ag → ag.newStrategy = some ν) (h : ∀ b ag, s.agents.get? b = some ag → AgentProfitable rs f ag) :
    ∀ b ag, s'.agents.get? b = some ag → AgentProfitable rs f ag := by
  intro b ag' hb
  by_cases hbm : b = me
  · subst hbm
    have hsk := hex.mine
    rw [hb] at hsk
    cases h1 : s.agents.get? b with
    | none => rw [h1] at hsk; cases hsk
    | some ag =>
      rw [h1] at hsk
      simp only [Option.map_some, Option.some.injEq, Agent.skel, Prod.mk.injEq] at hsk
      obtain ⟨-, k1, k2, -, k3, k4⟩ := hsk
      refine ⟨fun σ' hσ' => ?_, fun ν' hν' => by rw [hν'] at k4; cases k4⟩
      rw [hσ'] at k3
      simp only [Option.map_some, Option.some.injEq] at k3
      exact ((h b ag h1).staged ν (hν ag h1)).congr k1 k2 (by rw [k3])
  · have hsk := hex.others b hbm
    rw [hb] at hsk
    cases h1 : s.agents.get? b with
    | none => rw [h1] at hsk; cases hsk
    | some ag =>
      rw [h1] at hsk
      simp only [Option.map_some, Option.some.injEq] at hsk
      obtain ⟨k1, k2, k3, k4⟩ := skel_eq hsk
      refine ⟨fun σ' hσ' => ?_, fun ν' hν' => ?_⟩
      · rw [hσ'] at k3
        cases hs : ag.strategy with
        | none => rw [hs] at k3; cases k3
        | some σ =>
          rw [hs] at k3
          exact ((h b ag h1).strategy σ hs).congr k1 k2 (congrArg List.length (Option.some.inj k3))
      · rw [hν'] at k4
        cases hs : ag.newStrategy with
        | none => rw [hs] at k4; cases k4
        | some σ =>
          rw [hs] at k4
          exact ((h b ag h1).staged σ hs).congr k1 k2 (congrArg List.length (Option.some.inj k4))

/-- The states of a single-phase simulation in which agents plan only while the books are straight. -/
inductive Clean (c : Config K) : State K → Prop
  | init : Clean c (initState c)
  | next {s s' ev} (hs : Clean c s) (hv : ev.Valid c.people.length) (hev : ∀ p, ev ≠ .phase p) (hq : ∀ me ord, ev = .step me ord → Books s)
      (he : exec s ev = .ok s') : Clean c s'

theorem Clean.single {c : Config K} {s : State K} (h : Clean c s) : ReachableSinglePhase c s := by
  induction h with
  | init => exact ⟨[], by simp, rfl⟩
  | next hs hv hev hq he ih => exact ih.next hv hev he

theorem Clean.many {c : Config K} {s s' : State K} (h : Clean c s) {es : List (Event K)} (hv : ∀ e ∈ es, e.Valid c.people.length)
    (hev : ∀ e ∈ es, ∀ me ord, e ≠ .step me ord ∧ ∀ p, e ≠ .phase p) (he : iterM exec s es = .ok s') : Clean c s' := by
  induction es generalizing s with
  | nil => cases he; exact h
  | cons e l ih =>
    unfold iterM at he
    cases h1 : exec s e with
    | error x => rw [h1] at he; cases he
    | ok s₁ =>
      rw [h1] at he
      refine ih (h.next (hv e (by simp)) (hev e (by simp) 0 id).2 (fun me ord hh => absurd hh (hev e (by simp) me ord).1) h1)
        (fun e he => hv e (List.mem_cons_of_mem _ he)) (fun e he => hev e (List.mem_cons_of_mem _ he)) he

theorem ReachableSinglePhase.clean {c : Config K} {s : State K} (h : ReachableSinglePhase c s) (hc : c.simultaneous = false) : Clean c s := by
  refine ReachableSinglePhase.induct (P := Clean c) minUnit_pos .init ?_ h
  intro s ev s' hr hg hg' hpar hs hv hev he hd
  exact hs.next hv hev (fun _ _ _ => (Reachable.of_single hr).books hc) he

theorem Clean.profitable {c : Config K} {s : State K} (h : Clean c s)
    (h0 : ∀ e ∈ c.people, 0 < e.1) (hb : 0 < c.rs.beta) (ha0 : 0 ≤ c.rs.a0) :
    ∀ b ag, s.agents.get? b = some ag → AgentProfitable c.rs c.extraFrac ag := by
  induction h with
  | init =>
    intro b ag hb
    obtain ⟨h1, h2⟩ := init_agent hb
    refine ⟨fun σ hσ h0 => ?_, fun ν hν => by rw [h1] at hν; cases hν⟩
    rw [(h2 σ hσ).2] at h0
    exact absurd h0 (lt_irrefl 0)
  | @next s s' ev hcl hv hev hbk he hs =>
    have hr := hcl.single
    have hg := (Reachable.of_single hr).good minUnit_pos
    have hpar := hr.params minUnit_pos
    have hd := ((hg.exec minUnit_pos hv).of_ok he).1
    have hplan : Books s → ∀ {me : Nat} {ag : Agent K} {σ : Strategy K} {oν : Option (Strategy K)} {s₁ s₂ : State K} {ord : List Nat → List Nat},
        (∀ l, (ord l).Perm l) → s.agents.get? me = some ag → ag.strategy = some σ → planMove ord s ag σ = .ok (s₁, oν) →
        StepPlan (c.rs.k + 1) s s₂ me ag σ oν s₁ → ∀ b ag, s₂.agents.get? b = some ag → AgentProfitable c.rs c.extraFrac ag := by
      intro hbk me ag σ oν s₁ s₂ ord hord ha hσ hpm hpl b ag' hb
      have hid : ag.id = me := hg.inv.core.agentId me ag ha
      rcases hpl.agent hid hb with ⟨-, rfl⟩ | ⟨-, hb⟩
      · refine ⟨fun σ' hσ' => ((hs me ag ha).strategy σ' hσ').congr rfl rfl rfl, fun ν hν hlen q co hq hco => ?_⟩
        have := (Reachable.of_single hr).plan_profitable hbk h0 ‹_› (by rw [hpar.rs]; exact ha0) ha hσ hord hpm hν hlen (q := q) (co := co)
          (by rw [hpar.rs]; exact hq) (by rw [hpar.extraFrac]; exact hco)
        rw [hpar.rs] at this
        exact this
      · exact hs b ag' hb
    cases hd with
    | idle => exact hs
    | plan me ord ag σ oν s₁ s' ha hp hσ hpm hpl => exact hplan (hbk _ _ rfl) hv.2 ha hσ hpm hpl
    | move me ord ag σ ν s₁ s₂ s₃ ha hp hσ hpm hpl hsim ht hex hd =>
      have hid : ag.id = me := hg.inv.core.agentId me ag ha
      have h3 : ∀ b ag, s₃.agents.get? b = some ag → AgentProfitable c.rs c.extraFrac ag := executed_profitable hd (fun ag' hag' => by
        rw [hpl.eq, get?_setAgent (me := me) (ag := { ag with newStrategy := some ν }) hid me, if_pos rfl] at hag'
        cases hag'; rfl) (hplan (hbk _ _ rfl) hv.2 ha hσ hpm hpl)
      exact h3
    | skip => exact hs
    | adv me ord ag σ ν s₃ ha hσ hν hex hd =>
      have h3 : ∀ b ag, s₃.agents.get? b = some ag → AgentProfitable c.rs c.extraFrac ag :=
        executed_profitable hd (fun ag' hag' => by rw [ha] at hag'; cases hag'; exact hν) hs
      exact h3
    | phase p => exact absurd rfl (hev p)
    | roundEnd => exact hs

/-- every open pool has a positive potential profit -/
theorem Clean.pp_pos {c : Config K} {s : State K} (hcl : Clean c s)
    (h0 : ∀ e ∈ c.people, 0 < e.1) (hb : 0 < c.rs.beta) (ha0 : 0 ≤ c.rs.a0) {pid : Nat} {r : Ref} (hp : s.pools.get? pid = some r) :
    0 < (s.heap r).pp ∧ (s.heap r).pp = potentialProfit c.rs (s.heap r).pledge (s.heap r).cost := by
  have h := hcl.single
  have hg := (Reachable.of_single h).good minUnit_pos
  obtain ⟨ag, σ, ha, hσ, ho⟩ := hg.inv.owner hp
  obtain ⟨rs, f, ⟨rfl, rfl⟩, hsh⟩ := (h.shaped (fun e he => (h0 e he).le) _ _ ha).strategy σ hσ
  have hr : r ∈ σ.owned.vals := List.mem_map.2 ⟨(pid, r), Dict.mem_of_get? ho, rfl⟩
  have hlen : 0 < σ.owned.length := by rw [← length_vals]; exact List.length_pos_of_mem hr
  obtain ⟨q, hq⟩ : ∃ q, pledgePerPool ag.stake c.rs.beta σ.owned.length = .ok q := by simp [pledgePerPool, hlen.ne']
  obtain ⟨co, hco⟩ : ∃ co, costPerPool σ.owned.length ag.cost c.extraFrac = .ok co := by simp [costPerPool, hlen.ne']
  obtain ⟨h1, h2, -, h4⟩ := hsh.pools q co hq hco r hr
  rw [h4 trivial, h1, h2]
  exact ⟨(hcl.profitable h0 hb ha0 _ _ ha).strategy σ hσ hlen q co hq hco, rfl⟩

theorem ReachableSinglePhase.pp_pos {c : Config K} {s : State K} (h : ReachableSinglePhase c s) (hc : c.simultaneous = false)
    (h0 : ∀ e ∈ c.people, 0 < e.1) (hb : 0 < c.rs.beta) (ha0 : 0 ≤ c.rs.a0) {pid : Nat} {r : Ref} (hp : s.pools.get? pid = some r) :
    0 < (s.heap r).pp ∧ (s.heap r).pp = potentialProfit c.rs (s.heap r).pledge (s.heap r).cost := (h.clean hc).pp_pos h0 hb ha0 hp

end RSE
