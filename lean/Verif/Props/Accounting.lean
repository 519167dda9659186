import Verif.Lemmas.Count
import Verif.Lemmas.Terms
import Verif.Model.Reporters
import Verif.Props.Rewards
import Verif.Spec.Demo

/-!
# C05, C20, C22, C23, C24, C51, C65, C68: where the stake and the rewards are

Exact arithmetic: `K` is any linearly ordered field.  Theorems about `F` hold in any arithmetic (with `RoundedArith F`: exact or rounding).
-/

set_option linter.unusedSectionVars false

namespace RSE.Props

variable {K : Type} [Field K] [LinearOrder K] [IsStrictOrderedRing K]

/-- C20.  The stake of an open pool is its pledge plus its delegations, whatever the activation mode and the phases. -/
theorem C20_stake_is_pledge_plus_delegations {c : Config K} {s : State K} (h : Reachable c s) {pid : Nat} {r : Ref} (_hp : s.pools.get? pid = some r) :
    (s.heap r).stake = (s.heap r).pledge + ((s.heap r).delegators.map (fun e => e.2)).sum :=
  (h.balanced r).stake

/-- C20.  Every delegation recorded in a pool is at least `MIN_STAKE_UNIT`, and no delegator is listed twice. -/
theorem C20_delegations_counted_once {c : Config K} {s : State K} (h : Reachable c s) {pid : Nat} {r : Ref} (_hp : s.pools.get? pid = some r) :
    ((s.heap r).delegators.map (fun e => e.1)).Nodup ∧ ∀ e ∈ (s.heap r).delegators, (minUnit : K) ≤ e.2 :=
  ⟨(h.balanced r).nodup, (h.balanced r).min⟩

/-- C22.  The delegations of an agent and the pledges of its pools together are at most its stake (any mode, any phases). -/
theorem C22_no_overcommitment {c : Config K} {s : State K} (h : Reachable c s) (h0 : ∀ e ∈ c.people, 0 ≤ e.1) (hb : 0 < c.rs.beta)
    {b : Nat} {ag : Agent K} {σ : Strategy K} (ha : s.agents.get? b = some ag) (hσ : ag.strategy = some σ) :
    (σ.allocs.map (fun e => e.2)).sum + (σ.owned.map (fun e => (s.heap e.2).pledge)).sum ≤ ag.stake := by
  obtain ⟨rs, f, -, hsh⟩ := ((h.shaped h0 hb).2 _ _ ha).strategy σ hσ
  have := hsh.budget
  simpa [Dict.total, pledges, Dict.vals, Function.comp_def] using this

theorem sum_le_sum_map {α : Type} (l : List α) (f g : α → K) (h : ∀ a ∈ l, f a ≤ g a) : (l.map f).sum ≤ (l.map g).sum :=
  List.sum_le_sum h

theorem stake_conserved {c : Config K} {s : State K} (h : Reachable c s) (hq : Books s) (h0 : ∀ e ∈ c.people, 0 ≤ e.1)
    (hb : 0 < c.rs.beta) : totalDelegatedStake s ≤ totalAgentStake s := by
  have hg := h.good minUnit_pos
  have h1 := total_stake_eq hg.inv hq h.balanced
  have h2 : totalDelegatedStake s = (s.pools.map (fun e => (s.heap e.2).stake)).sum := by
    simp [totalDelegatedStake, poolsList, FSum.fsum, Function.comp_def]
  have h3 : totalAgentStake s = (s.agents.map (fun e => e.2.stake)).sum := by
    simp [totalAgentStake, agentsList, FSum.fsum, Function.comp_def]
  rw [h2, h3, h1]
  apply sum_le_sum_map
  rintro ⟨b, ag⟩ he
  have ha := Dict.get?_of_mem hg.inv.core.agentsNodup he
  cases hs : ag.strategy with
  | none =>
    have := hg.stake_nonneg h0 ha
    simpa [allocsOf, ownedOf, hs, Dict.total] using this
  | some σ =>
    have := C22_no_overcommitment h h0 hb ha hs
    simpa [allocsOf, ownedOf, hs, Dict.total] using this

/-- C23.  The total stake in pools (metric 28) is at most the total stake of the agents (metric 29). -/
theorem C23_stake_conservation {c : Config K} (hc : c.simultaneous = false) {s : State K} (h : Reachable c s) (h0 : ∀ e ∈ c.people, 0 ≤ e.1)
    (hb : 0 < c.rs.beta) : totalDelegatedStake s ≤ totalAgentStake s :=
  stake_conserved h ((h.good minUnit_pos).seq hc).1.books h0 hb

/-- C24.  A private pool has no delegators, its stake is its pledge, and no agent says that it delegates to it. -/
theorem C24_private_pools_have_no_delegators {c : Config K} (hc : c.simultaneous = false) {s : State K} (h : Reachable c s) {pid : Nat} {r : Ref}
    (hp : s.pools.get? pid = some r) (hpr : (s.heap r).isPrivate = true) :
    (s.heap r).delegators = [] ∧ (s.heap r).stake = (s.heap r).pledge ∧ ∀ b x, ¬ Says s b pid x := by
  have hd := h.private_no_delegators hc hp hpr
  refine ⟨hd, ?_, ?_⟩
  · rw [(h.balanced r).stake, hd]; simp [Dict.total]
  · rintro b x ⟨ag, σ, ha, hσ, hx⟩
    obtain ⟨hq, -⟩ := (h.good minUnit_pos).seq hc
    have h1 : allocOf s b pid = some x := by rw [allocOf_eq_allocsOf ha]; simp [allocsOf, hσ, hx]
    rw [← hq.agree pid r hp, hd] at h1
    cases h1

/-- C64, for a pool that becomes private during an event (exact arithmetic; see C106 for floating point): afterwards nobody delegates to it. -/
theorem C64_private_pool_has_no_delegators {c : Config K} (hc : c.simultaneous = false) {s s' : State K} (h : Reachable c s) {ev : Event K}
    (hv : ev.Valid c.people.length) (he : exec s ev = .ok s') {pid : Nat} {r : Ref} (hp : s'.pools.get? pid = some r) (hpr : (s'.heap r).isPrivate = true) :
    ∀ b x, ¬ Says s' b pid x ∧ ¬ Records s' pid b x := by
  obtain ⟨h1, -, h3⟩ := C24_private_pools_have_no_delegators hc (h.next hv he) hp hpr
  refine fun b x => ⟨h3 b x, ?_⟩
  rintro ⟨r', hr', hx⟩
  rw [hp] at hr'
  cases hr'
  rw [h1] at hx
  cases hx

section
variable {F : Type} [LinearOrder F] [Zero F] [One F] [Add F] [Sub F] [Mul F] [Div F] [Neg F] [NatCast F] [FSum F]

theorem owned_ne {d : Dict Ref} {pid : Nat} {r : Ref} (h : d.get? pid = some r) : d ≠ [] := by rintro rfl; cases h

/-- C24.  Within one phase a pool is private iff its pledge reaches its saturation threshold (in any arithmetic). -/
theorem C24_private_iff_pledge_saturates (hmin : (0 : F) < minUnit) {c : Config F} {s : State F} (h : ReachableSinglePhase c s)
    {pid : Nat} {r : Ref} (hp : s.pools.get? pid = some r) :
    (s.heap r).isPrivate = true ↔ c.rs.sat (s.heap r).pledge ≤ (s.heap r).pledge := by
  have hg := (Reachable.of_single h).good hmin
  obtain ⟨ag, σ, ha, hσ, ho⟩ := hg.inv.owner hp
  obtain ⟨rs, f, ⟨rfl, rfl⟩, hsh⟩ := ((h.terms hmin) _ _ ha).strategy σ hσ
  obtain ⟨q, co, -, -, -, hall⟩ := hsh.exists_terms (owned_ne ho)
  obtain ⟨h1, -, h3, -⟩ := hall pid r ho
  rw [h3, h1]
  simp

/-- C65.  Within one phase: an agent with `n` pools has `min(stake / n, threshold)` as the pledge and
`calculate_cost_per_pool(n, cost, fraction)` as the cost of each of them, and the potential profit is the one computed from these (in any arithmetic). -/
theorem C65_pools_of_an_operator_are_alike (hmin : (0 : F) < minUnit) {c : Config F} {s : State F} (h : ReachableSinglePhase c s)
    {b pid : Nat} {ag : Agent F} {σ : Strategy F} {r : Ref} (ha : s.agents.get? b = some ag) (hσ : ag.strategy = some σ) (ho : σ.owned.get? pid = some r) :
    (s.heap r).pledge = min (ag.stake / (σ.owned.length : F)) c.rs.beta ∧
    costPerPool σ.owned.length ag.cost c.extraFrac = .ok (s.heap r).cost ∧
    (s.heap r).pp = potentialProfit c.rs (s.heap r).pledge (s.heap r).cost ∧ σ.owned.length ≤ c.rs.k := by
  obtain ⟨rs, f, ⟨rfl, rfl⟩, hsh⟩ := ((h.terms hmin) _ _ ha).strategy σ hσ
  obtain ⟨q, co, -, hco, hq, hall⟩ := hsh.exists_terms (owned_ne ho)
  obtain ⟨h1, h2, -, h4⟩ := hall pid r ho
  exact ⟨by rw [h1, hq], by rw [h2]; exact hco, by rw [h1, h2]; exact h4 trivial, hsh.len⟩

/-- C65.  In every phase, mode and arithmetic: any two pools of one operator have the same pledge and the same cost. -/
theorem C65_same_pledge_and_cost (hmin : (0 : F) < minUnit) {c : Config F} {s : State F} (h : Reachable c s)
    {pid pid' : Nat} {r r' : Ref} (hp : s.pools.get? pid = some r) (hp' : s.pools.get? pid' = some r') (ho : (s.heap r).owner = (s.heap r').owner) :
    (s.heap r).pledge = (s.heap r').pledge ∧ (s.heap r).cost = (s.heap r').cost := by
  have hg := h.good hmin
  obtain ⟨ag, σ, ha, hσ, h1⟩ := hg.inv.owner hp
  obtain ⟨ag', σ', ha', hσ', h1'⟩ := hg.inv.owner hp'
  rw [← ho, ha] at ha'
  cases ha'
  rw [hσ] at hσ'
  cases hσ'
  obtain ⟨rs, f, -, hsh⟩ := ((h.terms_any hmin) _ _ ha).strategy σ hσ
  obtain ⟨q, co, -, -, -, hall⟩ := hsh.exists_terms (owned_ne h1)
  obtain ⟨e1, e2, -⟩ := hall pid r h1
  obtain ⟨e1', e2', -⟩ := hall pid' r' h1'
  exact ⟨e1.trans e1'.symm, e2.trans e2'.symm⟩

end

/-- C68.  Margins are in `[0, 1]` (the initial `-1` of `Pool.__init__` never survives), and desirability is
`max((1 - margin) * potential profit, 0)`.  In exact arithmetic and in arithmetic that rounds. -/
theorem C68_margins_in_unit_interval {F : Type} [LinearOrder F] [Zero F] [One F] [Add F] [Sub F] [Mul F] [Div F] [Neg F] [NatCast F] [FSum F]
    [RoundedArith F] {c : Config F} {s : State F} (h : Reachable c s) {pid : Nat} {r : Ref} (_hp : s.pools.get? pid = some r) :
    0 ≤ (s.heap r).margin ∧ (s.heap r).margin ≤ 1 ∧ (s.heap r).des = max ((1 - (s.heap r).margin) * (s.heap r).pp) 0 := by
  exact ⟨(h.fair r).margin_nonneg, (h.fair r).margin_le, (h.fair r).des⟩

/-- the agents' current utilities, one after the other (agents with a strategy) -/
def allUtilities (s : State K) : Py (List K) := (s.agents.filterMap (fun e => e.2.strategy)).mapM (currentUtility s)

theorem utilities_add_up {c : Config K} {s : State K} (h : Reachable c s) (hq : Books s) (h0 : ∀ e ∈ c.people, 0 < e.1)
    (hb : 0 < c.rs.beta) :
    ∃ us, allUtilities s = .ok us ∧
      us.sum = (s.pools.map (fun e => s.rs.reward (s.heap e.2).pledge (s.heap e.2).stake - (s.heap e.2).cost)).sum := by
  have hg := h.good minUnit_pos
  have hpos : ∀ pid r, s.pools.get? pid = some r → 0 < (s.heap r).stake := fun pid r hp =>
    (h.pledge_pos h0 hb hp).trans_le (h.balanced r).pledge_le
  have hut : ∀ e ∈ s.agents, ∀ σ, e.2.strategy = some σ → currentUtility s σ =
      .ok ((σ.owned.map (fun e => opVal s.rs (s.heap e.2))).sum + (σ.allocs.map (fun e => delVal s.rs (poolAt s e.1) e.2)).sum) := by
    rintro ⟨b, ag⟩ he σ hσ
    replace hσ : ag.strategy = some σ := hσ
    have ha := Dict.get?_of_mem hg.inv.core.agentsNodup he
    refine currentUtility_ok ?_ ?_
    · intro r hr
      obtain ⟨⟨pid, r'⟩, hm, rfl⟩ := List.mem_map.1 hr
      have h1 := Dict.get?_of_mem (d := ownedOf ag) (hg.inv.tidy _ _ ha).ownedOf (show (pid, r') ∈ ownedOf ag by simpa [ownedOf, hσ] using hm)
      rw [← ownOf_eq_ownedOf ha] at h1
      exact (hpos pid _ ((hg.inv.own.own_iff _ _ _).1 h1).1).ne'
    · rintro ⟨pid, x⟩ hm
      have h1 := Dict.get?_of_mem (d := allocsOf ag) (hg.inv.tidy _ _ ha).allocsOf (show (pid, x) ∈ allocsOf ag by simpa [allocsOf, hσ] using hm)
      rw [← allocOf_eq_allocsOf ha] at h1
      obtain ⟨-, r, hp, -⟩ := hq.good _ _ _ h1
      exact ⟨r, hp, (hpos pid r hp).ne'⟩
  refine ⟨_, mapM_ok _ (g := fun σ => (σ.owned.map (fun e => opVal s.rs (s.heap e.2))).sum + (σ.allocs.map (fun e => delVal s.rs (poolAt s e.1) e.2)).sum) ?_, ?_⟩
  · intro σ hσ
    obtain ⟨e, he, hs⟩ := List.mem_filterMap.1 hσ
    exact hut e he σ hs
  · have hfm : ∀ l : Dict (Agent K), ((l.filterMap (fun e => e.2.strategy)).map (fun σ => (σ.owned.map (fun e => opVal s.rs (s.heap e.2))).sum +
        (σ.allocs.map (fun e => delVal s.rs (poolAt s e.1) e.2)).sum)).sum =
        (l.map (fun e => ((ownedOf e.2).map (fun e => opVal s.rs (s.heap e.2))).sum + ((allocsOf e.2).map (fun e => delVal s.rs (poolAt s e.1) e.2)).sum)).sum := by
      intro l
      induction l with
      | nil => rfl
      | cons e t ih =>
        rw [List.filterMap_cons]
        cases hs : e.2.strategy with
        | none => simp only [List.map_cons, List.sum_cons, ih]; simp [ownedOf, allocsOf, hs]
        | some σ => simp only [List.map_cons, List.sum_cons, ih]; simp [ownedOf, allocsOf, hs]
    rw [hfm, sum_map_add, ← sum_pools hg.inv (fun e => opVal s.rs (s.heap e.2)),
      ← sum_delegations hg.inv hq (fun t => delVal s.rs (poolAt s t.1) t.2.2), ← sum_map_add]
    congr 1
    apply List.map_congr_left
    rintro ⟨pid, r⟩ he
    have hp := Dict.get?_of_mem hg.inv.core.poolsNodup he
    have : poolAt s pid = s.heap r := by unfold poolAt; rw [hp]; rfl
    simp only [this]
    exact split_complete (h.balanced r) (h.fair r).margin_le (hpos pid r hp)

/-- C05.  The current utilities of all agents add up to the pools' profits (reward - cost); computing them raises no exception. -/
theorem C05_utilities_add_up {c : Config K} (hc : c.simultaneous = false) {s : State K} (h : Reachable c s) (h0 : ∀ e ∈ c.people, 0 < e.1)
    (hb : 0 < c.rs.beta) :
    ∃ us, allUtilities s = .ok us ∧
      us.sum = (s.pools.map (fun e => s.rs.reward (s.heap e.2).pledge (s.heap e.2).stake - (s.heap e.2).cost)).sum :=
  utilities_add_up h ((h.good minUnit_pos).seq hc).1.books h0 hb

/-- C05.  The rewards paid to all pools are at most the agents' total stake. -/
theorem C05_rewards_bounded {c : Config K} (hc : c.simultaneous = false) {s : State K} (h : Reachable c s) (h0 : ∀ e ∈ c.people, 0 < e.1)
    (hb : 0 < c.rs.beta) (ha0 : 0 ≤ s.rs.a0) :
    (s.pools.map (fun e => s.rs.reward (s.heap e.2).pledge (s.heap e.2).stake)).sum ≤ (s.agents.map (fun e => e.2.stake)).sum := by
  have hg := h.good minUnit_pos
  have h1 := C23_stake_conservation hc h (fun e he => (h0 e he).le) hb
  have h2 : totalDelegatedStake s = (s.pools.map (fun e => (s.heap e.2).stake)).sum := by
    simp [totalDelegatedStake, poolsList, FSum.fsum, Function.comp_def]
  have h3 : totalAgentStake s = (s.agents.map (fun e => e.2.stake)).sum := by
    simp [totalAgentStake, agentsList, FSum.fsum, Function.comp_def]
  rw [h2, h3] at h1
  refine le_trans ?_ h1
  apply sum_le_sum_map
  rintro ⟨pid, r⟩ he
  have hp := Dict.get?_of_mem hg.inv.core.poolsNodup he
  exact (C01_reward_bounds s.rs (h.shaped (fun e he => (h0 e he).le) hb).1 ha0 _ _ (h.pledge_pos h0 hb hp).le (h.balanced r).pledge_le).2.1

/-- C51.  Without pools the pledge rate is 0. -/
theorem C51_pledge_rate_without_pools (s : State K) (h : s.pools = []) : pledgeRate s = .ok 0 := by
  simp [pledgeRate, poolsList, h]

/-- C51.  With pools the pledge rate is the total pledge divided by the stake in pools, it is in `(0, 1]` and computing it raises no exception (any mode, any phases). -/
theorem C51_pledge_rate_in_unit_interval {c : Config K} {s : State K} (h : Reachable c s) (h0 : ∀ e ∈ c.people, 0 < e.1) (hb : 0 < c.rs.beta)
    (hne : s.pools ≠ []) : ∃ x, pledgeRate s = .ok x ∧ 0 < x ∧ x ≤ 1 ∧
      x * (s.pools.map (fun e => (s.heap e.2).stake)).sum = (s.pools.map (fun e => (s.heap e.2).pledge)).sum := by
  have hg := h.good minUnit_pos
  have hall : ∀ p ∈ poolsList s, 0 < p.pledge ∧ p.pledge ≤ p.stake := by
    intro p hp
    obtain ⟨⟨pid, r⟩, he, rfl⟩ := List.mem_map.1 hp
    exact ⟨h.pledge_pos h0 hb (Dict.get?_of_mem hg.inv.core.poolsNodup he), (h.balanced r).pledge_le⟩
  have hlen : (poolsList s).length ≠ 0 := by simpa [poolsList] using hne
  have hpos : 0 < ((poolsList s).map (fun p => p.pledge)).sum := by
    apply List.sum_pos
    · intro x hx
      obtain ⟨p, hp, rfl⟩ := List.mem_map.1 hx
      exact (hall p hp).1
    · intro h0; apply hlen; simpa using congrArg List.length h0
  have hle : ((poolsList s).map (fun p => p.pledge)).sum ≤ ((poolsList s).map (fun p => p.stake)).sum :=
    sum_le_sum_map _ _ _ (fun p hp => (hall p hp).2)
  have hpos' := hpos.trans_le hle
  refine ⟨_, ?_, div_pos hpos hpos', (div_le_one hpos').2 hle, ?_⟩
  swap
  · rw [show (s.pools.map (fun e => (s.heap e.2).stake)) = (poolsList s).map (fun p => p.stake) by simp [poolsList],
      show (s.pools.map (fun e => (s.heap e.2).pledge)) = (poolsList s).map (fun p => p.pledge) by simp [poolsList], div_mul_cancel₀ _ hpos'.ne']
  unfold pledgeRate pyDiv
  rw [if_neg hlen]
  change (if ((poolsList s).map (fun p => p.stake)).sum = 0 then _ else _) = _
  rw [if_neg hpos'.ne']
  rfl

/-! The hypotheses of the theorems above are met by a state with three pools, all of them with delegators, and five agents. -/

theorem demo_stakes (sim : Bool) : ∀ e ∈ (demo sim).people, 0 < e.1 := by cases sim <;> decide +kernel

example : ∃ s : State ℚ, ReachableSinglePhase (demo false) s ∧ (demo false).simultaneous = false ∧ 0 < (demo false).rs.beta ∧
    (∀ e ∈ (demo false).people, 0 < e.1) ∧ s.pools.length = 3 ∧ ∀ p ∈ poolsList s, p.delegators ≠ [] := by
  obtain ⟨s, hs, hv⟩ := demo_reachable
  refine ⟨s, hs, rfl, by decide +kernel, demo_stakes _, ?_, ?_⟩
  · simpa [demoView] using congrArg List.length hv
  · intro p hp
    obtain ⟨e, he, rfl⟩ := List.mem_map.1 hp
    have := List.mem_map_of_mem (f := fun e => (e.1, (s.heap e.2).owner, (s.heap e.2).stake, (s.heap e.2).delegators)) he
    change _ ∈ demoView s at this
    rw [hv] at this
    intro h0
    simp [h0] at this

/-- a private pool: one agent with all the stake, `k = 1` -/
def lonely : Config ℚ :=
  { rs := { scheme := .cardano, k := 1, beta := 1, a0 := 3/10 }, relThr := 0, absThr := 0, extraFrac := 1/2, simultaneous := false,
    people := [(1, 1/1000, .nonMyopic)], totalStake := 1 }

example : ∃ s : State ℚ, ReachableSinglePhase lonely s ∧ ∃ pid r, s.pools.get? pid = some r ∧ (s.heap r).isPrivate = true := by
  have key : (iterM exec (initState lonely) [.step 0 id]).toOption.map (fun s => (s.pools.get? 1).map (fun r => (s.heap r).isPrivate)) = some (some true) := by
    decide +kernel
  cases h : iterM exec (initState lonely) [.step 0 id] with
  | error e => rw [h] at key; cases key
  | ok s =>
    rw [h] at key
    refine ⟨s, ⟨[.step 0 id], ?_, h⟩, ?_⟩
    · intro e he
      rw [List.mem_singleton] at he
      subst he
      exact ⟨⟨by decide, fun l => List.Perm.refl _⟩, fun p hp => by cases hp⟩
    · have key' : (s.pools.get? 1).map (fun r => (s.heap r).isPrivate) = some true := by simpa [Except.toOption] using key
      cases hp : s.pools.get? 1 with
      | none => rw [hp] at key'; cases key'
      | some r => rw [hp] at key'; exact ⟨1, r, hp, by simpa using key'⟩

end RSE.Props
