import Verif.Props.Crash
import Verif.Props.Derived
import Verif.Props.Rational
import Mathlib.Combinatorics.Pigeonhole

/-!
# C87: only agents who could make a profit operate pools

Single-phase simulations with sequential or random activation, exact arithmetic.  Whether an agent could make a profit is a question about its stake,
its cost and the parameters alone.
-/

set_option linter.unusedSectionVars false

namespace RSE.Props

variable {K : Type} [Field K] [LinearOrder K] [IsStrictOrderedRing K]

/-- With `n` saturated pools, which share its stake as pledge, an agent would earn more than they cost in total: the first pool costs `cost`, each
further one the fraction `f` of it. -/
def Viable (c : Config K) (stake cost : K) (n : Nat) : Prop :=
  cost + ((n - 1 : Nat) : K) * c.extraFrac * cost < (n : K) * saturatedReward c.rs.scheme c.rs.beta c.rs.a0 (min (stake / (n : K)) c.rs.beta)

/-- agent `b` participates and could make a profit with some number of pools up to `k` -/
def CouldProfit (c : Config K) (b : Nat) : Prop :=
  ∃ e, c.people[b]? = some e ∧ e.2.2 ≠ .abstainer ∧ ∃ n, 1 ≤ n ∧ n ≤ c.rs.k ∧ Viable c e.1 e.2.1 n

/-- C87.  An agent that operates `n` pools could make a profit with `n` saturated pools. -/
theorem C87_operators_are_viable {c : Config K} {s : State K} (h : ReachableSinglePhase c s) (hc : c.simultaneous = false)
    (h0 : ∀ e ∈ c.people, 0 < e.1) (hb : 0 < c.rs.beta) (ha0 : 0 ≤ c.rs.a0) {b : Nat} {ag : Agent K} {σ : Strategy K}
    (ha : s.agents.get? b = some ag) (hσ : ag.strategy = some σ) (hne : σ.owned ≠ []) :
    σ.owned.length ≤ c.rs.k ∧ Viable c ag.stake ag.cost σ.owned.length := by
  have hg := (Reachable.of_single h).good minUnit_pos
  obtain ⟨⟨pid, r⟩, he⟩ := List.exists_mem_of_ne_nil _ hne
  have ho : σ.owned.get? pid = some r := Dict.get?_of_mem ((hg.inv.tidy b ag ha).owned _ hσ) he
  obtain ⟨e1, e2, e3, e4⟩ := C65_pools_of_an_operator_are_alike minUnit_pos h ha hσ ho
  refine ⟨e4, ?_⟩
  have hpos := (h.pp_pos hc h0 hb ha0 (hg.inv.owned ha hσ ho).1).1
  rw [e3, potentialProfit_eq hb, e1] at hpos
  have hn : σ.owned.length ≠ 0 := fun h => hne (List.length_eq_zero_iff.1 h)
  have hn' : (0 : K) < (σ.owned.length : K) := by exact_mod_cast Nat.pos_of_ne_zero hn
  unfold costPerPool at e2
  rw [if_neg hn] at e2
  have e2 := (Except.ok.inj e2)
  rw [← e2] at hpos
  unfold Viable
  rw [sub_pos, div_lt_iff₀ hn'] at hpos
  rw [mul_comm (σ.owned.length : K)]
  exact hpos

/-- C87.  The operators are among the agents who could make a profit. -/
theorem C87_operators_could_profit {c : Config K} {s : State K} (h : ReachableSinglePhase c s) (hc : c.simultaneous = false)
    (h0 : ∀ e ∈ c.people, 0 < e.1) (hb : 0 < c.rs.beta) (ha0 : 0 ≤ c.rs.a0) {pid : Nat} {r : Ref} (hp : s.pools.get? pid = some r) :
    CouldProfit c (s.heap r).owner := by
  have hg := (Reachable.of_single h).good minUnit_pos
  obtain ⟨ag, σ, ha, hσ, ho⟩ := hg.inv.owner hp
  have hne : σ.owned ≠ [] := by intro h; rw [h] at ho; cases ho
  obtain ⟨h1, h2⟩ := C87_operators_are_viable h hc h0 hb ha0 ha hσ hne
  refine ⟨_, hg.person ha, ?_, σ.owned.length, ?_, h1, h2⟩
  · intro hab
    have := (hg.inv.abst _ ag ha hab).1
    rw [hσ] at this; cases this
  · exact List.length_pos_iff.2 hne

/-- C87.  An agent whose cost is at least the total reward `k * beta` (1, with the usual threshold `1 / k`) never operates a pool
(if further pools cost no less than nothing). -/
theorem C87_too_expensive {c : Config K} {s : State K} (h : ReachableSinglePhase c s) (hc : c.simultaneous = false)
    (h0 : ∀ e ∈ c.people, 0 < e.1) (hb : 0 < c.rs.beta) (ha0 : 0 ≤ c.rs.a0) (hf : 0 ≤ c.extraFrac) {b : Nat} {ag : Agent K} {σ : Strategy K}
    (ha : s.agents.get? b = some ag) (hσ : ag.strategy = some σ) (hcost : (c.rs.k : K) * c.rs.beta ≤ ag.cost) : σ.owned = [] := by
  by_contra hne
  obtain ⟨h1, h2⟩ := C87_operators_are_viable h hc h0 hb ha0 ha hσ hne
  unfold Viable at h2
  have hsr : ∀ q, q ≤ c.rs.beta → saturatedReward c.rs.scheme c.rs.beta c.rs.a0 q ≤ c.rs.beta := by
    intro q hq
    unfold saturatedReward
    split
    · exact min_le_right _ _
    · rw [div_le_iff₀ (by linarith), min_eq_left hq]
      nlinarith
  have h3 := hsr _ (min_le_right (ag.stake / (σ.owned.length : K)) c.rs.beta)
  have hn : (0 : K) ≤ (σ.owned.length : K) := Nat.cast_nonneg _
  have hk : (σ.owned.length : K) ≤ (c.rs.k : K) := by exact_mod_cast h1
  have hcp : 0 ≤ ag.cost := le_trans (by positivity) hcost
  have h4 : 0 ≤ ((σ.owned.length - 1 : Nat) : K) * c.extraFrac * ag.cost := by positivity
  have h5 := mul_le_mul_of_nonneg_left h3 hn
  have h6 := mul_le_mul_of_nonneg_right hk hb.le
  linarith

open Classical in
/-- C87.  There are never more than `k` pools per agent who could make a profit. -/
theorem C87_number_of_pools {c : Config K} {s : State K} (h : ReachableSinglePhase c s) (hc : c.simultaneous = false)
    (h0 : ∀ e ∈ c.people, 0 < e.1) (hb : 0 < c.rs.beta) (ha0 : 0 ≤ c.rs.a0) :
    s.pools.length ≤ c.rs.k * ((Finset.range c.people.length).filter (CouldProfit c)).card := by
  have hr := Reachable.of_single h
  have hg := hr.good minUnit_pos
  have hnd := hg.inv.core.poolsNodup
  let own : Nat → Nat := fun pid => match s.pools.get? pid with
    | some r => (s.heap r).owner
    | none => 0
  have hcard : s.pools.keys.toFinset.card = s.pools.length := by
    rw [List.toFinset_card_of_nodup hnd]
    exact List.length_map _
  have hget : ∀ pid ∈ s.pools.keys.toFinset, ∃ r, s.pools.get? pid = some r := by
    intro pid hpid
    obtain ⟨e, he, rfl⟩ := List.mem_map.1 (List.mem_toFinset.1 hpid)
    exact ⟨e.2, Dict.get?_of_mem hnd he⟩
  rw [← hcard]
  refine Finset.card_le_mul_card_image_of_maps_to (f := own) ?_ _ ?_
  · intro pid hpid
    obtain ⟨r, hr'⟩ := hget pid hpid
    have ho : own pid = (s.heap r).owner := by simp only [own, hr']
    rw [Finset.mem_filter, Finset.mem_range, ho]
    exact ⟨C28_owner_exists minUnit_pos hr hr', C87_operators_could_profit h hc h0 hb ha0 hr'⟩
  · intro b _
    by_cases hz : (s.pools.keys.toFinset.filter (fun pid => own pid = b)) = ∅
    · rw [hz]; simp
    obtain ⟨pid, hpid⟩ := Finset.nonempty_iff_ne_empty.2 hz
    obtain ⟨h1, h2⟩ := Finset.mem_filter.1 hpid
    obtain ⟨r, hr'⟩ := hget pid h1
    have ho : (s.heap r).owner = b := by rw [← h2]; simp only [own, hr']
    obtain ⟨ag, σ, ha, hσ, hso⟩ := hg.inv.owner hr'
    rw [ho] at ha
    have hne : σ.owned ≠ [] := by intro h; rw [h] at hso; cases hso
    obtain ⟨h3, -⟩ := C87_operators_are_viable h hc h0 hb ha0 ha hσ hne
    have hn := (hg.inv.tidy b ag ha).owned _ hσ
    have hlen : σ.owned.keys.toFinset.card = σ.owned.length := by
      rw [List.toFinset_card_of_nodup hn]; exact List.length_map _
    refine le_trans (Finset.card_le_card ?_) (hlen.le.trans h3)
    intro pid' hpid'
    obtain ⟨g1, g2⟩ := Finset.mem_filter.1 hpid'
    obtain ⟨r', hr''⟩ := hget pid' g1
    have ho' : (s.heap r').owner = b := by rw [← g2]; simp only [own, hr'']
    have := (hg.inv.own.own_iff b pid' r').2 ⟨hr'', ho'⟩
    rw [ownOf_eq ha hσ] at this
    exact List.mem_toFinset.2 (Dict.mem_keys_of_get? this)

/-- C87.  If nobody could make a profit (and the absolute threshold is not negative), nothing ever happens: no pool is opened, and no agent ever
changes its strategy. -/
theorem C87_nobody_viable {c : Config K} {s : State K} (h : ReachableSinglePhase c s) (hc : c.simultaneous = false)
    (h0 : ∀ e ∈ c.people, 0 < e.1) (hb : 0 < c.rs.beta) (ha0 : 0 ≤ c.rs.a0) (habs : 0 ≤ c.absThr) (hnone : ∀ b, ¬ CouldProfit c b) :
    s.pools = [] ∧ s.idle = true ∧ ∀ b, s.agents.get? b = (initState c).agents.get? b := by
  have hempty : ∀ {s : State K}, ReachableSinglePhase c s → s.pools = [] := by
    intro s h
    by_contra hne
    obtain ⟨⟨pid, r⟩, he⟩ := List.exists_mem_of_ne_nil _ hne
    have hg := (Reachable.of_single h).good minUnit_pos
    exact hnone _ (C87_operators_could_profit h hc h0 hb ha0 (Dict.get?_of_mem hg.inv.core.poolsNodup he))
  have hown : ∀ {s : State K}, ReachableSinglePhase c s → ∀ {b ag σ}, s.agents.get? b = some ag → ag.strategy = some σ → σ.owned = [] := by
    intro s h b ag σ ha hσ
    by_contra hne
    have hg := (Reachable.of_single h).good minUnit_pos
    obtain ⟨⟨pid, r⟩, he⟩ := List.exists_mem_of_ne_nil _ hne
    have := (hg.inv.owned ha hσ (Dict.get?_of_mem ((hg.inv.tidy b ag ha).owned _ hσ) he)).1
    rw [hempty h] at this; cases this
  refine ⟨hempty h, ?_⟩
  refine ReachableSinglePhase.induct minUnit_pos (P := fun s => s.idle = true ∧ ∀ b, s.agents.get? b = (initState c).agents.get? b) ⟨rfl, fun _ => rfl⟩ ?_ h
  intro s ev s' hr hg hg' hpar hP hv hev he hd
  have hr' := hr.next hv hev he
  cases hd with
  | idle => exact hP
  | plan me ord ag σ oν s₁ s' ha hp hσ hpm hpl hsim ht =>
    have hn : oν = none := by
      rcases hsim with h1 | h1
      · rw [hg.fixed.simultaneous] at h1
        have : c.simultaneous = true := h1
        rw [hc] at this; cases this
      · exact h1
    subst hn
    have hnew := (hg.seq hc).2 me ag ha
    have hid := hg.inv.core.agentId me ag ha
    refine ⟨by rw [hpl.eq]; change s₁.idle = true; rw [hpl.planned.idle]; exact hP.1, fun b => ?_⟩
    rw [hpl.eq, get?_setAgent (me := me) (ag := { ag with newStrategy := none }) hid b]
    by_cases hb : b = me
    · rw [if_pos hb, hb, ← hP.2 me, ha, ← hnew]
    · rw [if_neg hb, hpl.planned.agents]; exact hP.2 b
  | move me ord ag σ ν s₁ s₂ s₃ ha hp hσ hpm hpl hsim ht hex hdx hinv hds =>
    exfalso
    -- the new strategy has no pools either
    have hνo : ν.owned = [] := by
      have hm := hdx.mine
      cases ha3 : s₃.agents.get? me with
      | none =>
        have := hg'.fixed.agents me
        rw [show ({ s₃ with idle := false } : State K).agents.get? me = s₃.agents.get? me from rfl, ha3, ← hg.fixed.agents me, ha] at this
        cases this
      | some ag₃ =>
        rw [ha3] at hm
        cases h2 : s₂.agents.get? me with
        | none => rw [h2] at hm; cases hm
        | some ag₂ =>
          rw [h2] at hm
          simp only [Option.map_some, Option.some.injEq, Agent.skel, Prod.mk.injEq] at hm
          obtain ⟨σ₃, hσ₃, hσo⟩ := Option.map_eq_some_iff.1 hm.2.2.2.2.1
          rw [← hσo]
          exact hown hr' (b := me) (ag := ag₃) ha3 hσ₃
    obtain ⟨cur, exp, s₀, δ, du, ω, ou, g1, g2, g3, g4, g5, g6, g7, g8, g9⟩ := C31_inertia hpm
    have hcur : cur = 0 := by
      unfold currentUtility at g1
      rw [hown hr ha hσ] at g1
      obtain ⟨u, k1, k2⟩ := bind_ok g1
      cases k1
      cases hal : σ.allocs with
      | nil => rw [hal] at k2; cases k2; rfl
      | cons e t =>
        rw [hal] at k2
        unfold accM at k2
        rw [hempty hr] at k2
        obtain ⟨y, k3, -⟩ := bind_ok k2
        cases k3
    have hzero : ∀ {t : State K} {u : K}, t.pools = [] → expectedUtility t ag σ ν = .ok u → u = 0 := by
      intro t u htp hu
      unfold expectedUtility at hu
      rw [hνo, htp] at hu
      obtain ⟨u₀, k1, k2⟩ := bind_ok hu
      cases k1
      have hnil : ν.allocs.filterMap (fun e => (Dict.get? ([] : Dict Ref) e.1).map (fun r => (r, e.2))) = [] :=
        List.filterMap_eq_nil_iff.2 (fun e _ => rfl)
      rw [hnil] at k2
      cases k2; rfl
    have hs0 : s₀.pools = [] := by rw [(findDelegationMove_next g3).2.2]; exact hempty hr
    have hs1 : s₁.pools = [] := by rw [hpl.planned.pools]; exact hempty hr
    have habs' : 0 ≤ s.absThr := by rw [hpar.absThr]; exact habs
    -- a strategy that is adopted is worth more than nothing
    by_cases hle : ou ≤ du
    · by_cases hbt : Beats s.relThr s.absThr cur exp du
      · have := g8 hbt hle
        cases this
        have hu := hzero hs0 g4
        have := hbt.2.1
        rw [hu, hcur] at this
        linarith
      · have hbt' : ¬ Beats s.relThr s.absThr cur exp ou := by
          rw [beats_iff] at hbt ⊢
          exact fun hcc => hbt (lt_of_lt_of_le hcc hle)
        exact absurd (g7.2 ⟨hbt, hbt'⟩) (by simp)
    · have hlt := not_le.1 hle
      by_cases hbt : Beats s.relThr s.absThr cur exp ou
      · have := g9 hbt hlt
        cases this
        have hu := hzero hs1 g6
        have := hbt.2.1
        rw [hu, hcur] at this
        linarith
      · have hbt' : ¬ Beats s.relThr s.absThr cur exp du := by
          rw [beats_iff] at hbt ⊢
          exact fun hcc => hbt (lt_trans hcc hlt)
        exact absurd (g7.2 ⟨hbt', hbt⟩) (by simp)
  | skip => exact hP
  | adv _ _ _ _ _ _ _ _ _ _ _ _ ht => exact absurd hc ht
  | phase p => exact absurd rfl (hev p)
  | roundEnd => exact ⟨rfl, hP.2⟩

/-! ### The hypotheses are met -/

/-- in the demo agent 3 could make a profit with one pool, and operates one (`demo_reachable`) -/
example : CouldProfit (demo false) 3 :=
  ⟨_, rfl, by decide, 1, le_rfl, by decide, by unfold Viable saturatedReward demo; decide +kernel⟩

/-- three agents, none of whom could make a profit -/
def expensive : Config ℚ :=
  { rs := { scheme := .cardano, k := 3, beta := 1/3, a0 := 3/10 }, relThr := 0, absThr := 0, extraFrac := 1/2, simultaneous := false,
    people := [(6/10, 1, .nonMyopic), (3/10, 9/10, .myopic), (1/10, 1/1000, .abstainer)], totalStake := 1 }

example : ∀ b, ¬ CouldProfit expensive b := by
  rintro b ⟨e, he, hab, n, h1, h2, hv⟩
  have hm := List.mem_of_getElem? he
  have h3 : n = 1 ∨ n = 2 ∨ n = 3 := by have : n ≤ 3 := h2; omega
  simp only [expensive, List.mem_cons, List.not_mem_nil, or_false] at hm
  rcases hm with rfl | rfl | rfl
  · rcases h3 with rfl | rfl | rfl <;> revert hv <;> unfold Viable saturatedReward expensive <;> decide +kernel
  · rcases h3 with rfl | rfl | rfl <;> revert hv <;> unfold Viable saturatedReward expensive <;> decide +kernel
  · exact hab rfl

end RSE.Props
