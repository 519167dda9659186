import Verif.Lemmas.Greedy
import Verif.Lemmas.PlanOk

/-!
# The terms of an operator's pools and the size of single delegations, in any arithmetic
-/

set_option linter.unusedSectionVars false

namespace RSE

variable {F : Type} [LinearOrder F] [Zero F] [One F] [Add F] [Sub F] [Mul F] [Div F] [Neg F] [NatCast F] [FSum F]

theorem greedy_le [RoundedArith F] (rs : RS F) (heap : Ref → Pool F) (b : F) : ∀ (l : List Ref) (stake : F) (best : Option Ref) (d : Dict F),
    minUnit ≤ stake → stake ≤ b → (∀ e ∈ d, e.2 ≤ b) → (greedy rs heap l stake best d).1 ≤ b ∧ ∀ e ∈ (greedy rs heap l stake best d).2.2, e.2 ≤ b
  | [], stake, best, d, _, hb, hd => ⟨hb, hd⟩
  | r :: t, stake, best, d, hst, hb, hd => by
    unfold greedy
    simp only
    split
    · exact greedy_le rs heap b t stake _ d hst hb hd
    · rename_i hroom
      have h0 : (0 : F) ≤ min stake (rs.sat (heap r).pledge - (heap r).stake) :=
        RoundedArith.minUnit_pos.le.trans (le_min hst (not_lt.1 hroom))
      have hle := (RoundedArith.sub_le (a := stake) h0).trans hb
      have hd' : ∀ e ∈ d.set (heap r).id (min stake (rs.sat (heap r).pledge - (heap r).stake)), e.2 ≤ b := by
        intro e he
        rcases Dict.mem_set he with rfl | he
        · exact (min_le_left _ _).trans hb
        · exact hd e he
      split
      · exact ⟨hle, hd'⟩
      · rename_i hge
        exact greedy_le rs heap b t _ best _ (not_lt.1 hge) hle hd'

theorem greedyAllocations_le [RoundedArith F] (rs : RS F) (heap : Ref → Pool F) (l : List Ref) {stake : F} (hst : minUnit ≤ stake) :
    ∀ e ∈ greedyAllocations rs heap l stake, e.2 ≤ stake := by
  have := greedy_le rs heap stake l stake none [] hst le_rfl (by simp)
  unfold greedyAllocations
  simp only
  intro e he
  split at he
  · split at he
    · rcases Dict.mem_set he with rfl | he
      · exact this.1
      · exact this.2 e he
    · exact this.2 e he
  · exact this.2 e he

/-- no delegation is larger than what there was to delegate -/
theorem Delegated.le [RoundedArith F] {s s' : State F} {me : Agent F} {σ δ : Strategy F} {stake : F} (h : Delegated s me σ stake s' δ) :
    ∀ e ∈ δ.allocs, e.2 ≤ stake := by
  cases h with
  | tiny _ _ hδ => rw [hδ]; simp
  | none _ _ _ hδ => rw [hδ]; simp
  | some s₁ hst he h1 h2 hδ => rw [hδ]; exact greedyAllocations_le _ _ _ hst

/-- The strategy `σ` of agent `ag`, decided under the reward scheme `rs` and the cost fraction `f`.  `one`: there is one phase; `B`: the arithmetic is one
of those considered. -/
structure Terms (one B : Prop) (rs : RS F) (f : F) (heap : Ref → Pool F) (ag : Agent F) (σ : Strategy F) : Prop where
  len : σ.owned.length ≤ rs.k
  pools : ∀ q c, pledgePerPool ag.stake rs.beta σ.owned.length = .ok q → costPerPool σ.owned.length ag.cost f = .ok c →
    ∀ r ∈ σ.owned.vals, (heap r).pledge = q ∧ (heap r).cost = c ∧ (heap r).isPrivate = decide (q ≥ rs.sat q) ∧
      (one → (heap r).pp = potentialProfit rs q c)
  le : B → ∀ e ∈ σ.allocs, e.2 ≤ ag.stake

/-- the parts of a pool that matter here -/
structure EqTerms (one : Prop) (p p' : Pool F) : Prop where
  pledge : p'.pledge = p.pledge
  cost : p'.cost = p.cost
  isPrivate : p'.isPrivate = p.isPrivate
  pp : one → p'.pp = p.pp

theorem SamePool.eqTerms {p p' : Pool F} (h : SamePool p p') (one : Prop) : EqTerms one p p' := ⟨h.pledge, h.cost, h.isPrivate, fun _ => h.pp⟩

theorem Terms.mono {one B : Prop} {rs : RS F} {f : F} {heap heap' : Ref → Pool F} {ag ag' : Agent F} {σ σ' : Strategy F} (h : Terms one B rs f heap ag σ)
    (hs : ag'.stake = ag.stake) (hc : ag'.cost = ag.cost) (ho : σ'.owned = σ.owned) (ha : List.Sublist σ'.allocs σ.allocs)
    (hh : ∀ r ∈ σ.owned.vals, EqTerms one (heap r) (heap' r)) : Terms one B rs f heap' ag' σ' := by
  refine ⟨by rw [ho]; exact h.len, ?_, fun hB e he => by rw [hs]; exact h.le hB e (ha.subset he)⟩
  rw [ho, hs, hc]
  intro q c hq hcc r hr
  obtain ⟨h1, h2, h3, h4⟩ := h.pools q c hq hcc r hr
  have hst := hh r hr
  exact ⟨by rw [hst.pledge, h1], by rw [hst.cost, h2], by rw [hst.isPrivate, h3], fun ho => by rw [hst.pp ho, h4 ho]⟩

theorem Dict.mem_vals_get {d : Dict Ref} (h : d.keys.Nodup) {r : Ref} (hr : r ∈ d.vals) : ∃ pid, d.get? pid = some r := by
  obtain ⟨⟨pid, r'⟩, he, rfl⟩ := List.mem_map.1 hr
  exact ⟨pid, Dict.get?_of_mem h he⟩

theorem pledge_nonneg [RoundedArith F] {stake beta q : F} {n : Nat} (h : pledgePerPool stake beta n = .ok q) (hs : 0 ≤ stake) (hb : 0 ≤ beta) : 0 ≤ q := by
  unfold pledgePerPool at h
  split at h
  · cases h
  · rename_i hn
    cases h
    exact le_min (RoundedArith.div_nonneg hs (RoundedArith.zero_lt_one.trans_le (RoundedArith.one_le_cast hn))) hb

/-- an operator's plan is in order -/
theorem OpPlan.terms {n : Nat} {s₁ s' : State F} {me : Agent F} {σ τ : Strategy F} (h : OpPlan n s₁ s' me σ τ) (one : Prop) {B : Prop}
    (hB : B → RoundedArith F ∧ 0 ≤ me.stake ∧ 0 ≤ s₁.rs.beta) : Terms one B s₁.rs s₁.extraFrac s'.heap me τ := by
  obtain ⟨q, c, margins, u, -, hq, hc, h0, hk, hd, hrest⟩ := h.shape
  have hp : ∀ r ∈ τ.owned.vals, (s'.heap r).pledge = q ∧ (s'.heap r).cost = c ∧ (s'.heap r).isPrivate = decide (q ≥ s₁.rs.sat q) ∧
      (one → (s'.heap r).pp = potentialProfit s₁.rs q c) := by
    intro r hr
    obtain ⟨pid, hpid⟩ := Dict.mem_vals_get h.nodup hr
    obtain ⟨-, -, m, -, ⟨r₀, -, he⟩ | ⟨-, -, he⟩⟩ := hd pid r hpid
    · rw [he]; exact ⟨rfl, rfl, rfl, fun _ => rfl⟩
    · rw [he]; exact ⟨rfl, rfl, rfl, fun _ => rfl⟩
  refine ⟨hk, ?_, ?_⟩
  · intro q' c' hq' hc'
    rw [hq] at hq'; rw [hc] at hc'
    cases hq'; cases hc'
    exact hp
  · intro hb e he
    obtain ⟨hR, hs, hbeta⟩ := hB hb
    rcases hrest with ⟨-, hal⟩ | ⟨sA, sB, hpos, hcA, -, -, hfd⟩
    · rw [hal] at he; cases he
    · exact ((findDelegationMove_ok hfd).le e he).trans (RoundedArith.sub_le (RoundedArith.mul_nonneg (pledge_nonneg hq hs hbeta) (RoundedArith.cast_nonneg _)))

/-- a delegator's plan is in order -/
theorem Delegated.terms {s s' : State F} {me : Agent F} {σ δ : Strategy F} (h : Delegated s me σ me.stake s' δ) (one : Prop) {B : Prop}
    (hB : B → RoundedArith F) (rs : RS F) (f : F) (heap : Ref → Pool F) : Terms one B rs f heap me δ := by
  refine ⟨by rw [h.owned]; exact Nat.zero_le _, ?_, fun hb => ?_⟩
  · intro q c _ _ r hr; rw [h.owned] at hr; cases hr
  · have := hB hb
    exact h.le

/-- whatever is staged by planning is in order -/
theorem planMove_terms {n : Nat} {s s' : State F} (h : Core n s) {ord : List Nat → List Nat} (hord : ∀ l, (ord l).Perm l)
    {me : Agent F} {σ : Strategy F} (hσ : σ.allocs.keys.Nodup) (hnd : σ.owned.keys.Nodup)
    (hown : ∀ pid r, σ.owned.get? pid = some r → s.pools.get? pid = some r) {oν : Option (Strategy F)}
    (hpm : planMove ord s me σ = .ok (s', oν)) (one : Prop) {B : Prop} (hB : B → RoundedArith F ∧ 0 ≤ me.stake ∧ 0 ≤ s.rs.beta)
    {ν : Strategy F} (hν : oν = some ν) : Terms one B s.rs s.extraFrac s'.heap me ν := by
  obtain ⟨cur, exp, s₁, δ, du, ou, ω, hp⟩ := planMove_ok hpm
  obtain ⟨c1, sh1, -, -, -⟩ := (findDelegationMove_spec h me σ hσ me.stake).of_ok hp.delegate
  simp only at c1 sh1
  have hpl := Planned.of_shuf sh1
  obtain ⟨-, -, -, hop⟩ := (choosePoolStrategy_spec c1 hord me hσ hnd (by rw [hpl.pools]; exact hown)).of_ok hp.operate
  have hpick := hp.pick
  rw [hν] at hpick
  split at hpick
  · cases hpick
  · cases hpick
    exact (findDelegationMove_ok hp.delegate).terms _ (fun hb => (hB hb).1) _ _ _
  · cases hpick
    have := hop.terms one (B := B) (by rw [hpl.rs]; exact hB)
    rw [hpl.rs, hpl.extraFrac] at this
    exact this

/-! ### The invariant -/

/-- every strategy, current or staged, is in order -/
structure AgentTerms (Φ : RS F → F → Prop) (one B : Prop) (heap : Ref → Pool F) (ag : Agent F) : Prop where
  strategy : ∀ σ, ag.strategy = some σ → ∃ rs f, Φ rs f ∧ Terms one B rs f heap ag σ
  staged : ∀ ν, ag.newStrategy = some ν → ∃ rs f, Φ rs f ∧ Terms one B rs f heap ag ν

/-- ... of every agent -/
def AllTerms (Φ : RS F → F → Prop) (one B : Prop) (s : State F) : Prop := ∀ b ag, s.agents.get? b = some ag → AgentTerms Φ one B s.heap ag

theorem skel_terms {ag ag' : Agent F} (h : ag'.skel = ag.skel) : ag'.stake = ag.stake ∧ ag'.cost = ag.cost ∧
    ag'.strategy.map (·.owned) = ag.strategy.map (·.owned) ∧ ag'.newStrategy.map (·.owned) = ag.newStrategy.map (·.owned) := by
  simp only [Agent.skel, Prod.mk.injEq] at h
  exact ⟨h.2.1, h.2.2.1, h.2.2.2.2.1, h.2.2.2.2.2⟩

theorem executed_terms {Φ : RS F → F → Prop} {one B : Prop} {n : Nat} {s s' : State F} {me : Nat} {ν : Strategy F} (hex : Executed n s s' me ν)
    (ht : Thinned s s' me) (hν : ∀ ag, s.agents.get? me = some ag → ag.newStrategy = some ν) (h : AllTerms Φ one B s) : AllTerms Φ one B s' := by
  intro b ag' hb
  by_cases hbm : b = me
  · subst hbm
    obtain ⟨ag, h1, h2, h3⟩ := ht.mine ag' hb
    refine ⟨fun σ' hσ' => ?_, fun ν' hν' => by rw [h2] at hν'; cases hν'⟩
    obtain ⟨ν₁, h4, h5⟩ := h3 σ' hσ'
    obtain ⟨rs, f, hΦ, hsh⟩ := (h _ _ h1).staged ν₁ h4
    have hsk := hex.mine
    rw [hb, h1] at hsk
    simp only [Option.map_some, Option.some.injEq, Agent.skel, Prod.mk.injEq, hσ'] at hsk
    have hνν : ν₁ = ν := by have := hν ag h1; rw [h4] at this; exact Option.some.inj this
    refine ⟨rs, f, hΦ, hsh.mono hsk.2.1 hsk.2.2.1 (by rw [hνν]; exact hsk.2.2.2.2.1) h5 (fun r _ => (hex.same r).eqTerms one)⟩
  · obtain ⟨ag, h1, h2⟩ := ht.others b ag' hbm hb
    have hsk := hex.others b hbm
    rw [hb, h1] at hsk
    simp only [Option.map_some, Option.some.injEq] at hsk
    obtain ⟨k1, k2, k3, k4⟩ := skel_terms hsk
    refine ⟨fun σ' hσ' => ?_, fun ν' hν' => ?_⟩
    · obtain ⟨σ, h3, h4⟩ := h2.strategy σ' hσ'
      obtain ⟨rs, f, hΦ, hsh⟩ := (h _ _ h1).strategy σ h3
      rw [hσ', h3] at k3
      exact ⟨rs, f, hΦ, hsh.mono k1 k2 (Option.some.inj k3) h4 (fun r _ => (hex.same r).eqTerms one)⟩
    · obtain ⟨σ, h3, h4⟩ := h2.staged ν' hν'
      obtain ⟨rs, f, hΦ, hsh⟩ := (h _ _ h1).staged σ h3
      rw [hν', h3] at k4
      exact ⟨rs, f, hΦ, hsh.mono k1 k2 (Option.some.inj k4) h4 (fun r _ => (hex.same r).eqTerms one)⟩

/-- objects of strategies are old objects -/
theorem Inv.owned_old {n : Nat} {s : State F} (h : Inv n s) {a : Nat} {ag : Agent F} (ha : s.agents.get? a = some ag) :
    (∀ σ, ag.strategy = some σ → ∀ r ∈ σ.owned.vals, r < s.next) ∧ (∀ ν, ag.newStrategy = some ν → ∀ r ∈ ν.owned.vals, r < s.next) := by
  refine ⟨fun σ hσ r hr => ?_, fun ν hν r hr => ?_⟩
  · obtain ⟨pid, hp⟩ := Dict.mem_vals_get ((h.tidy a ag ha).owned σ hσ) hr
    exact (h.core.poolRef _ _ (h.owned ha hσ hp).1).1
  · obtain ⟨pid, hp⟩ := Dict.mem_vals_get ((h.tidy a ag ha).newOwned ν hν) hr
    exact (h.own.stg_ok a pid r (by simp [stgOf, ha, hν, hp])).1

theorem stepPlan_terms {Φ : RS F → F → Prop} {one B : Prop} {n : Nat} {s s' s₁ : State F} {me : Nat} {ag : Agent F} {σ : Strategy F}
    {oν : Option (Strategy F)} (hpl : StepPlan n s s' me ag σ oν s₁) (hi : Inv n s) (ha : s.agents.get? me = some ag) (hσ : ag.strategy = some σ)
    {ord : List Nat → List Nat} (hord : ∀ l, (ord l).Perm l) (hpm : planMove ord s ag σ = .ok (s₁, oν)) (hΦ : Φ s.rs s.extraFrac)
    (hB : B → RoundedArith F ∧ 0 ≤ ag.stake ∧ 0 ≤ s.rs.beta) (h : AllTerms Φ one B s) : AllTerms Φ one B s' := by
  have hid : ag.id = me := hi.core.agentId me ag ha
  have hheap : s'.heap = s₁.heap := by rw [hpl.eq]; rfl
  have hold : ∀ b ag', s.agents.get? b = some ag' → AgentTerms Φ one B s'.heap ag' := by
    intro b ag' hb
    rw [hheap]
    obtain ⟨l1, l2⟩ := hi.owned_old hb
    refine ⟨fun σ' hσ' => ?_, fun ν' hν' => ?_⟩
    · obtain ⟨rs, f, h1, h2⟩ := (h b ag' hb).strategy σ' hσ'
      exact ⟨rs, f, h1, h2.mono rfl rfl rfl (List.Sublist.refl _) (fun r hr => (hpl.planned.same r (l1 σ' hσ' r hr)).eqTerms one)⟩
    · obtain ⟨rs, f, h1, h2⟩ := (h b ag' hb).staged ν' hν'
      exact ⟨rs, f, h1, h2.mono rfl rfl rfl (List.Sublist.refl _) (fun r hr => (hpl.planned.same r (l2 ν' hν' r hr)).eqTerms one)⟩
  intro b ag' hb
  rcases hpl.agent hid hb with ⟨-, rfl⟩ | ⟨-, hb⟩
  · refine ⟨fun σ' hσ' => ?_, fun ν hν => ?_⟩
    · obtain ⟨rs, f, h1, h2⟩ := (hold me ag ha).strategy σ' hσ'
      exact ⟨rs, f, h1, h2.mono rfl rfl rfl (List.Sublist.refl _) (fun r _ => (SamePool.refl _).eqTerms one)⟩
    · have ht := hi.tidy me ag ha
      have := planMove_terms hi.core hord (ht.allocs _ hσ) (ht.owned _ hσ) (fun pid r hr => (hi.owned ha hσ hr).1) hpm one hB hν
      rw [← hheap] at this
      exact ⟨_, _, hΦ, this.mono rfl rfl rfl (List.Sublist.refl _) (fun r _ => (SamePool.refl _).eqTerms one)⟩
  · exact hold b ag' hb

theorem Did.terms {Φ : RS F → F → Prop} {one B : Prop} {n m : Nat} {t : Prop} {s s' : State F} {ev : Event F} (hd : Did n t s ev s') (hi : Inv n s)
    (hv : ev.Valid m) (hΦ : Φ s.rs s.extraFrac) (hB : B → RoundedArith F ∧ 0 ≤ s.rs.beta ∧ ∀ b ag, s.agents.get? b = some ag → 0 ≤ ag.stake)
    (hone : one → ∀ p, ev ≠ .phase p) (h : AllTerms Φ one B s) : AllTerms Φ one B s' := by
  cases hd with
  | idle => exact h
  | plan me ord ag σ oν s₁ s' ha hp hσ hpm hpl =>
    exact stepPlan_terms hpl hi ha hσ hv.2 hpm hΦ (fun hb => ⟨(hB hb).1, (hB hb).2.2 me ag ha, (hB hb).2.1⟩) h
  | move me ord ag σ ν s₁ s₂ s₃ ha hp hσ hpm hpl hsim ht hex hd =>
    have hid : ag.id = me := hi.core.agentId me ag ha
    have h2 := stepPlan_terms hpl hi ha hσ hv.2 hpm hΦ (fun hb => ⟨(hB hb).1, (hB hb).2.2 me ag ha, (hB hb).2.1⟩) h
    have h3 : AllTerms Φ one B s₃ := executed_terms hd (executed_thinned hpl.inv hex) (fun ag' hag' => by
      rw [hpl.eq, get?_setAgent (me := me) (ag := { ag with newStrategy := some ν }) hid me, if_pos rfl] at hag'
      cases hag'; rfl) h2
    exact h3
  | skip => exact h
  | adv me ord ag σ ν s₃ ha hσ hν hex hd =>
    have h3 : AllTerms Φ one B s₃ := executed_terms hd (executed_thinned hi hex) (fun ag' hag' => by rw [ha] at hag'; cases hag'; exact hν) h
    exact h3
  | phase p s' hp hc =>
    intro b ag hb
    rw [hp.agents] at hb
    have hh : ∀ r, EqTerms one (s.heap r) (s'.heap r) := by
      intro r
      rw [hp.heap r]
      split
      · exact ⟨rfl, rfl, rfl, fun ho => absurd rfl (hone ho p)⟩
      · exact ⟨rfl, rfl, rfl, fun _ => rfl⟩
    refine ⟨fun σ hσ => ?_, fun ν hν => ?_⟩
    · obtain ⟨rs, f, h1, h2⟩ := (h b ag hb).strategy σ hσ
      exact ⟨rs, f, h1, h2.mono rfl rfl rfl (List.Sublist.refl _) (fun r _ => hh r)⟩
    · obtain ⟨rs, f, h1, h2⟩ := (h b ag hb).staged ν hν
      exact ⟨rs, f, h1, h2.mono rfl rfl rfl (List.Sublist.refl _) (fun r _ => hh r)⟩
  | roundEnd => exact h

theorem init_terms {Φ : RS F → F → Prop} {one B : Prop} {c : Config F} (hΦ : Φ c.rs c.extraFrac) : AllTerms Φ one B (initState c) := by
  intro b ag hb
  obtain ⟨h1, h2⟩ := init_agent hb
  refine ⟨fun σ hσ => ⟨_, _, hΦ, ?_⟩, fun ν hν => by rw [h1] at hν; cases hν⟩
  obtain ⟨h3, h4⟩ := h2 σ hσ
  exact ⟨by rw [h4]; exact Nat.zero_le _, (fun q c _ _ r hr => by rw [h4] at hr; cases hr), fun _ e he => by rw [h3] at he; cases he⟩

theorem Good.stake_ge {c : Config F} {s : State F} (h : Good c s) (h0 : ∀ e ∈ c.people, 0 ≤ e.1) {b : Nat} {ag : Agent F} (ha : s.agents.get? b = some ag) :
    0 ≤ ag.stake := h0 _ (List.mem_of_getElem? (h.person ha))

/-- the saturation threshold does not become negative -/
theorem Did.beta_nonneg [RoundedArith F] {n : Nat} {t : Prop} {s s' : State F} {ev : Event F} (hd : Did n t s ev s') (h : 0 ≤ s.rs.beta) : 0 ≤ s'.rs.beta := by
  cases hd with
  | idle => exact h
  | plan me ord ag σ oν s₁ s' ha hp hσ hpm hpl => rw [hpl.eq, hpl.planned.eq]; exact h
  | move me ord ag σ ν s₁ s₂ s₃ ha hp hσ hpm hpl hsim ht hex hd =>
    change 0 ≤ s₃.rs.beta
    rw [hd.frame]
    change 0 ≤ s₂.rs.beta
    rw [hpl.eq, hpl.planned.eq]; exact h
  | skip => exact h
  | adv me ord ag σ ν s₃ ha hσ hν hex hd =>
    change 0 ≤ s₃.rs.beta
    rw [hd.frame]; exact h
  | phase p s' hp hc hrs hk =>
    rw [hrs]
    unfold phaseRS
    cases h1 : p.k with
    | none => cases p.a0 <;> exact h
    | some k =>
      have hk0 : k ≠ 0 := fun hk0 => hk (by rw [h1, hk0])
      have : (0 : F) ≤ 1 / (k : F) := RoundedArith.div_nonneg RoundedArith.zero_lt_one.le (RoundedArith.zero_lt_one.trans_le (RoundedArith.one_le_cast hk0))
      cases p.a0 <;> exact this
  | roundEnd => exact h

/-- In every reachable state all strategies are in order, with respect to some reward scheme with a threshold that is not negative. -/
theorem Reachable.terms [RoundedArith F] {c : Config F} {s : State F} (h : Reachable c s) (h0 : ∀ e ∈ c.people, 0 ≤ e.1) (hb : 0 ≤ c.rs.beta) :
    0 ≤ s.rs.beta ∧ AllTerms (fun rs _ => 0 ≤ rs.beta) False True s := by
  refine Reachable.induct' (P := fun s => 0 ≤ s.rs.beta ∧ AllTerms (fun rs _ => 0 ≤ rs.beta) False True s) RoundedArith.minUnit_pos
    ⟨hb, init_terms hb⟩ ?_ h
  rintro s ev s' hr hg hg' ⟨hp, hs⟩ hv he hd
  exact ⟨hd.beta_nonneg hp, hd.terms hg.inv hv hp (fun _ => ⟨inferInstance, hp, fun b ag hb => hg.stake_ge h0 hb⟩) (fun h => h.elim) hs⟩

/-- ... and, in any arithmetic, with respect to some reward scheme. -/
theorem Reachable.terms_any (hmin : (0 : F) < minUnit) {c : Config F} {s : State F} (h : Reachable c s) : AllTerms (fun _ _ => True) False False s := by
  refine Reachable.induct' hmin (init_terms trivial) ?_ h
  intro s ev s' hr hg hg' hs hv he hd
  exact hd.terms hg.inv hv trivial (fun h => h.elim) (fun h => h.elim) hs

/-- In a single-phase simulation they are in order with respect to the parameters of the simulation. -/
theorem ReachableSinglePhase.terms (hmin : (0 : F) < minUnit) {c : Config F} {s : State F} (h : ReachableSinglePhase c s) :
    AllTerms (fun rs f => rs = c.rs ∧ f = c.extraFrac) True False s := by
  refine ReachableSinglePhase.induct hmin (init_terms ⟨rfl, rfl⟩) ?_ h
  intro s ev s' hr hg hg' hpar hs hv hev he hd
  exact hd.terms hg.inv hv ⟨hpar.rs, hpar.extraFrac⟩ (fun h => h.elim) (fun _ => hev) hs

/-- the pools of an operator who has some -/
theorem Terms.exists_terms {one B : Prop} {rs : RS F} {f : F} {heap : Ref → Pool F} {ag : Agent F} {σ : Strategy F} (h : Terms one B rs f heap ag σ)
    (hne : σ.owned ≠ []) : ∃ q c, pledgePerPool ag.stake rs.beta σ.owned.length = .ok q ∧ costPerPool σ.owned.length ag.cost f = .ok c ∧
      q = min (ag.stake / (σ.owned.length : F)) rs.beta ∧
      ∀ pid r, σ.owned.get? pid = some r → (heap r).pledge = q ∧ (heap r).cost = c ∧ (heap r).isPrivate = decide (q ≥ rs.sat q) ∧
        (one → (heap r).pp = potentialProfit rs q c) := by
  have hn : σ.owned.length ≠ 0 := by simpa using hne
  refine ⟨min (ag.stake / (σ.owned.length : F)) rs.beta, (ag.cost + ((σ.owned.length - 1 : Nat) : F) * f * ag.cost) / (σ.owned.length : F),
    by simp [pledgePerPool, hn], by simp [costPerPool, hn], rfl, fun pid r ho => ?_⟩
  exact h.pools _ _ (by simp [pledgePerPool, hn]) (by simp [costPerPool, hn]) r (List.mem_map.2 ⟨(pid, r), Dict.mem_of_get? ho, rfl⟩)

end RSE
