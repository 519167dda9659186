import Verif.Lemmas.Greedy
import Verif.Lemmas.PlanOk

/-!
# The shape of strategies: what an operator's pools look like and how much stake is committed
-/

set_option linter.unusedSectionVars false

namespace RSE

variable {K : Type} [Field K] [LinearOrder K] [IsStrictOrderedRing K]

/-- the pledges of the pools of a strategy -/
def pledges (heap : Ref → Pool K) (σ : Strategy K) : K := (σ.owned.vals.map (fun r => (heap r).pledge)).sum

/-- The strategy `σ` of agent `ag`, decided under the reward scheme `rs` and the cost fraction `f`. -/
structure Shaped (one : Prop) (rs : RS K) (f : K) (heap : Ref → Pool K) (ag : Agent K) (σ : Strategy K) : Prop where
  len : σ.owned.length ≤ rs.k
  pools : ∀ q c, pledgePerPool ag.stake rs.beta σ.owned.length = .ok q → costPerPool σ.owned.length ag.cost f = .ok c →
    ∀ r ∈ σ.owned.vals, (heap r).pledge = q ∧ (heap r).cost = c ∧ (heap r).isPrivate = decide (q ≥ rs.sat q) ∧
      (one → (heap r).pp = potentialProfit rs q c)
  budget : σ.allocs.total + pledges heap σ ≤ ag.stake

/-- the parts of a pool that matter here -/
structure SameTerms (one : Prop) (p p' : Pool K) : Prop where
  pledge : p'.pledge = p.pledge
  cost : p'.cost = p.cost
  isPrivate : p'.isPrivate = p.isPrivate
  pp : one → p'.pp = p.pp

theorem SamePool.terms {p p' : Pool K} (h : SamePool p p') (one : Prop) : SameTerms one p p' := ⟨h.pledge, h.cost, h.isPrivate, fun _ => h.pp⟩

theorem Shaped.mono {one : Prop} {rs : RS K} {f : K} {heap heap' : Ref → Pool K} {ag ag' : Agent K} {σ σ' : Strategy K} (h : Shaped one rs f heap ag σ)
    (hs : ag'.stake = ag.stake) (hc : ag'.cost = ag.cost) (ho : σ'.owned = σ.owned) (ha : σ'.allocs.total ≤ σ.allocs.total)
    (hh : ∀ r ∈ σ.owned.vals, SameTerms one (heap r) (heap' r)) : Shaped one rs f heap' ag' σ' := by
  refine ⟨by rw [ho]; exact h.len, ?_, ?_⟩
  · rw [ho, hs, hc]
    intro q c hq hcc r hr
    obtain ⟨h1, h2, h3, h4⟩ := h.pools q c hq hcc r hr
    have hst := hh r hr
    exact ⟨by rw [hst.pledge, h1], by rw [hst.cost, h2], by rw [hst.isPrivate, h3], fun ho => by rw [hst.pp ho, h4 ho]⟩
  · have : pledges heap' σ' = pledges heap σ := by
      unfold pledges
      rw [ho]
      congr 1
      exact List.map_congr_left (fun r hr => (hh r hr).pledge)
    rw [this, hs]
    exact (add_le_add_left ha _).trans h.budget

theorem length_vals {V : Type} (d : Dict V) : d.vals.length = d.length := by simp [Dict.vals]

theorem pledges_const {heap : Ref → Pool K} {σ : Strategy K} {q : K} (h : ∀ r ∈ σ.owned.vals, (heap r).pledge = q) :
    pledges heap σ = (σ.owned.length : K) * q := by
  unfold pledges
  rw [List.map_congr_left h, List.map_const', List.sum_replicate, length_vals, nsmul_eq_mul]

theorem pledge_mul_le {stake beta q : K} {n : Nat} (h : pledgePerPool stake beta n = .ok q) : (n : K) * q ≤ stake := by
  unfold pledgePerPool at h
  split at h
  · cases h
  · rename_i hn
    cases h
    have hn' : (0 : K) < (n : K) := Nat.cast_pos.2 (Nat.pos_of_ne_zero hn)
    calc (n : K) * min (stake / (n : K)) beta ≤ (n : K) * (stake / (n : K)) := mul_le_mul_of_nonneg_left (min_le_left _ _) hn'.le
      _ = stake := by field_simp

theorem Dict.mem_vals_iff {d : Dict Ref} (h : d.keys.Nodup) {r : Ref} : r ∈ d.vals ↔ ∃ pid, d.get? pid = some r := by
  constructor
  · intro hr
    obtain ⟨⟨pid, r'⟩, he, rfl⟩ := List.mem_map.1 hr
    exact ⟨pid, Dict.get?_of_mem h he⟩
  · rintro ⟨pid, hp⟩
    exact List.mem_map.2 ⟨(pid, r), Dict.mem_of_get? hp, rfl⟩

/-- an operator's plan is in shape -/
theorem OpPlan.shaped {n : Nat} {s₁ s' : State K} {me : Agent K} {σ τ : Strategy K} (h : OpPlan n s₁ s' me σ τ) (hσ : σ.allocs.keys.Nodup)
    (one : Prop) : Shaped one s₁.rs s₁.extraFrac s'.heap me τ := by
  obtain ⟨q, c, margins, u, -, hq, hc, h0, hk, hd, hrest⟩ := h.shape
  have hp : ∀ r ∈ τ.owned.vals, (s'.heap r).pledge = q ∧ (s'.heap r).cost = c ∧ (s'.heap r).isPrivate = decide (q ≥ s₁.rs.sat q) ∧
      (one → (s'.heap r).pp = potentialProfit s₁.rs q c) := by
    intro r hr
    obtain ⟨pid, hpid⟩ := (Dict.mem_vals_iff h.nodup).1 hr
    obtain ⟨-, -, m, -, ⟨r₀, -, he⟩ | ⟨-, -, he⟩⟩ := hd pid r hpid
    · rw [he]; exact ⟨rfl, rfl, rfl, fun _ => rfl⟩
    · rw [he]; exact ⟨rfl, rfl, rfl, fun _ => rfl⟩
  refine ⟨hk, ?_, ?_⟩
  · intro q' c' hq' hc'
    rw [hq] at hq'; rw [hc] at hc'
    cases hq'; cases hc'
    exact hp
  · rw [pledges_const (fun r hr => (hp r hr).1)]
    rcases hrest with ⟨-, hal⟩ | ⟨sA, sB, hpos, hcA, -, -, hfd⟩
    · rw [hal, Dict.total_nil, zero_add]; exact pledge_mul_le hq
    · have := (findDelegationMove_ok hfd).total hcA hσ hpos.le
      simp only at this
      rw [mul_comm] at this
      linarith

/-- a delegator's plan is in shape -/
theorem Delegated.shaped {n : Nat} {s s' : State K} {me : Agent K} {σ δ : Strategy K} (h : Delegated s me σ me.stake s' δ) (hc : Core n s)
    (hσ : σ.allocs.keys.Nodup) (h0 : 0 ≤ me.stake) (one : Prop) (rs : RS K) (f : K) (heap : Ref → Pool K) : Shaped one rs f heap me δ := by
  refine ⟨by rw [h.owned]; exact Nat.zero_le _, ?_, ?_⟩
  · intro q c _ _ r hr; rw [h.owned] at hr; cases hr
  · have : pledges heap δ = 0 := by unfold pledges; rw [h.owned]; rfl
    rw [this, add_zero]
    exact h.total hc hσ h0

/-- whatever is staged by planning is in shape -/
theorem planMove_shaped {n : Nat} {s s' : State K} (h : Core n s) {ord : List Nat → List Nat} (hord : ∀ l, (ord l).Perm l)
    {me : Agent K} {σ : Strategy K} (hσ : σ.allocs.keys.Nodup) (hnd : σ.owned.keys.Nodup)
    (hown : ∀ pid r, σ.owned.get? pid = some r → s.pools.get? pid = some r) (h0 : 0 ≤ me.stake) {oν : Option (Strategy K)}
    (hpm : planMove ord s me σ = .ok (s', oν)) (one : Prop) {ν : Strategy K} (hν : oν = some ν) : Shaped one s.rs s.extraFrac s'.heap me ν := by
  obtain ⟨cur, exp, s₁, δ, du, ou, ω, hp⟩ := planMove_ok hpm
  obtain ⟨c1, sh1, -, -, -⟩ := (findDelegationMove_spec h me σ hσ me.stake).of_ok hp.delegate
  simp only at c1 sh1
  have hpl := Planned.of_shuf sh1
  obtain ⟨-, -, -, hop⟩ := (choosePoolStrategy_spec c1 hord me hσ hnd (by rw [hpl.pools]; exact hown)).of_ok hp.operate
  have hpick := hp.pick
  rw [hν] at hpick
  split at hpick
  · cases hpick
  · cases hpick
    exact (findDelegationMove_ok hp.delegate).shaped h hσ h0 _ _ _ _
  · cases hpick
    have := hop.shaped hσ one
    rw [hpl.rs, hpl.extraFrac] at this
    exact this

/-! ### The invariant -/

/-- every strategy, current or staged, is in shape -/
structure AgentShaped (Φ : RS K → K → Prop) (one : Prop) (heap : Ref → Pool K) (ag : Agent K) : Prop where
  strategy : ∀ σ, ag.strategy = some σ → ∃ rs f, Φ rs f ∧ Shaped one rs f heap ag σ
  staged : ∀ ν, ag.newStrategy = some ν → ∃ rs f, Φ rs f ∧ Shaped one rs f heap ag ν

/-- ... of every agent -/
def AllShaped (Φ : RS K → K → Prop) (one : Prop) (s : State K) : Prop := ∀ b ag, s.agents.get? b = some ag → AgentShaped Φ one s.heap ag

theorem pos_of_minUnit {x : K} (h : minUnit ≤ x) : 0 < x := lt_of_lt_of_le minUnit_pos h

theorem skel_eq {ag ag' : Agent K} (h : ag'.skel = ag.skel) : ag'.stake = ag.stake ∧ ag'.cost = ag.cost ∧
    ag'.strategy.map (·.owned) = ag.strategy.map (·.owned) ∧ ag'.newStrategy.map (·.owned) = ag.newStrategy.map (·.owned) := by
  simp only [Agent.skel, Prod.mk.injEq] at h
  exact ⟨h.2.1, h.2.2.1, h.2.2.2.2.1, h.2.2.2.2.2⟩

theorem executed_shaped {Φ : RS K → K → Prop} {one : Prop} {n : Nat} {s s' : State K} {me : Nat} {ν : Strategy K} (hex : Executed n s s' me ν)
    (ht : Thinned s s' me) (hm : AllocsMin s) (hν : ∀ ag, s.agents.get? me = some ag → ag.newStrategy = some ν) (h : AllShaped Φ one s) : AllShaped Φ one s' := by
  have hle : ∀ {d d' : Dict K}, List.Sublist d' d → (∀ e ∈ d, minUnit ≤ e.2) → d'.total ≤ d.total :=
    fun hs hd => Dict.total_sublist hs (fun e he => (pos_of_minUnit (hd e he)).le)
  intro b ag' hb
  by_cases hbm : b = me
  · subst hbm
    obtain ⟨ag, h1, h2, h3⟩ := ht.mine ag' hb
    refine ⟨fun σ' hσ' => ?_, fun ν' hν' => by rw [h2] at hν'; cases hν'⟩
    obtain ⟨ν₁, h4, h5⟩ := h3 σ' hσ'
    obtain ⟨rs, f, hΦ, hsh⟩ := (h _ _ h1).staged ν₁ h4
    have hsk := hex.mine
    rw [hb, h1] at hsk
    simp only [Option.map_some, Option.some.injEq, Agent.skel, Prod.mk.injEq, hσ'] at hsk
    have hνν : ν₁ = ν := by have := hν ag h1; rw [h4] at this; exact Option.some.inj this
    refine ⟨rs, f, hΦ, hsh.mono hsk.2.1 hsk.2.2.1 (by rw [hνν]; exact hsk.2.2.2.2.1) (hle h5 (hm _ _ h1 |>.2 ν₁ h4)) (fun r _ => (hex.same r).terms one)⟩
  · obtain ⟨ag, h1, h2⟩ := ht.others b ag' hbm hb
    have hsk := hex.others b hbm
    rw [hb, h1] at hsk
    simp only [Option.map_some, Option.some.injEq] at hsk
    obtain ⟨k1, k2, k3, k4⟩ := skel_eq hsk
    refine ⟨fun σ' hσ' => ?_, fun ν' hν' => ?_⟩
    · obtain ⟨σ, h3, h4⟩ := h2.strategy σ' hσ'
      obtain ⟨rs, f, hΦ, hsh⟩ := (h _ _ h1).strategy σ h3
      rw [hσ', h3] at k3
      exact ⟨rs, f, hΦ, hsh.mono k1 k2 (Option.some.inj k3) (hle h4 (hm _ _ h1 |>.1 σ h3)) (fun r _ => (hex.same r).terms one)⟩
    · obtain ⟨σ, h3, h4⟩ := h2.staged ν' hν'
      obtain ⟨rs, f, hΦ, hsh⟩ := (h _ _ h1).staged σ h3
      rw [hν', h3] at k4
      exact ⟨rs, f, hΦ, hsh.mono k1 k2 (Option.some.inj k4) (hle h4 (hm _ _ h1 |>.2 σ h3)) (fun r _ => (hex.same r).terms one)⟩

/-- objects of strategies are old objects -/
theorem Inv.owned_lt {n : Nat} {s : State K} (h : Inv n s) {a : Nat} {ag : Agent K} (ha : s.agents.get? a = some ag) :
    (∀ σ, ag.strategy = some σ → ∀ r ∈ σ.owned.vals, r < s.next) ∧ (∀ ν, ag.newStrategy = some ν → ∀ r ∈ ν.owned.vals, r < s.next) := by
  refine ⟨fun σ hσ r hr => ?_, fun ν hν r hr => ?_⟩
  · obtain ⟨pid, hp⟩ := (Dict.mem_vals_iff ((h.tidy a ag ha).owned σ hσ)).1 hr
    exact (h.core.poolRef _ _ (h.owned ha hσ hp).1).1
  · obtain ⟨pid, hp⟩ := (Dict.mem_vals_iff ((h.tidy a ag ha).newOwned ν hν)).1 hr
    exact (h.own.stg_ok a pid r (by simp [stgOf, ha, hν, hp])).1

theorem stepPlan_shaped {Φ : RS K → K → Prop} {one : Prop} {n : Nat} {s s' s₁ : State K} {me : Nat} {ag : Agent K} {σ : Strategy K}
    {oν : Option (Strategy K)} (hpl : StepPlan n s s' me ag σ oν s₁) (hi : Inv n s) (ha : s.agents.get? me = some ag) (hσ : ag.strategy = some σ)
    {ord : List Nat → List Nat} (hord : ∀ l, (ord l).Perm l) (hpm : planMove ord s ag σ = .ok (s₁, oν)) (hΦ : Φ s.rs s.extraFrac) (h0 : 0 ≤ ag.stake)
    (h : AllShaped Φ one s) : AllShaped Φ one s' := by
  have hid : ag.id = me := hi.core.agentId me ag ha
  have hheap : s'.heap = s₁.heap := by rw [hpl.eq]; rfl
  have hold : ∀ b ag', s.agents.get? b = some ag' → AgentShaped Φ one s'.heap ag' := by
    intro b ag' hb
    rw [hheap]
    obtain ⟨l1, l2⟩ := hi.owned_lt hb
    refine ⟨fun σ' hσ' => ?_, fun ν' hν' => ?_⟩
    · obtain ⟨rs, f, h1, h2⟩ := (h b ag' hb).strategy σ' hσ'
      exact ⟨rs, f, h1, h2.mono rfl rfl rfl le_rfl (fun r hr => (hpl.planned.same r (l1 σ' hσ' r hr)).terms one)⟩
    · obtain ⟨rs, f, h1, h2⟩ := (h b ag' hb).staged ν' hν'
      exact ⟨rs, f, h1, h2.mono rfl rfl rfl le_rfl (fun r hr => (hpl.planned.same r (l2 ν' hν' r hr)).terms one)⟩
  intro b ag' hb
  rcases hpl.agent hid hb with ⟨-, rfl⟩ | ⟨-, hb⟩
  · refine ⟨fun σ' hσ' => ?_, fun ν hν => ?_⟩
    · obtain ⟨rs, f, h1, h2⟩ := (hold me ag ha).strategy σ' hσ'
      exact ⟨rs, f, h1, h2.mono rfl rfl rfl le_rfl (fun r _ => (SamePool.refl _).terms one)⟩
    · have ht := hi.tidy me ag ha
      have := planMove_shaped hi.core hord (ht.allocs _ hσ) (ht.owned _ hσ) (fun pid r hr => (hi.owned ha hσ hr).1) h0 hpm one hν
      rw [← hheap] at this
      exact ⟨_, _, hΦ, this.mono rfl rfl rfl le_rfl (fun r _ => (SamePool.refl _).terms one)⟩
  · exact hold b ag' hb

theorem Did.shaped {Φ : RS K → K → Prop} {one : Prop} {n m : Nat} {t : Prop} {s s' : State K} {ev : Event K} (hd : Did n t s ev s') (hi : Inv n s)
    (hm : AllocsMin s) (hv : ev.Valid m) (hΦ : Φ s.rs s.extraFrac) (h0 : ∀ b ag, s.agents.get? b = some ag → 0 ≤ ag.stake)
    (hone : one → ∀ p, ev ≠ .phase p) (h : AllShaped Φ one s) : AllShaped Φ one s' := by
  cases hd with
  | idle => exact h
  | plan me ord ag σ oν s₁ s' ha hp hσ hpm hpl => exact stepPlan_shaped hpl hi ha hσ hv.2 hpm hΦ (h0 me ag ha) h
  | move me ord ag σ ν s₁ s₂ s₃ ha hp hσ hpm hpl hsim ht hex hd =>
    have hid : ag.id = me := hi.core.agentId me ag ha
    have h2 := stepPlan_shaped hpl hi ha hσ hv.2 hpm hΦ (h0 me ag ha) h
    have h3 : AllShaped Φ one s₃ := executed_shaped hd (executed_thinned hpl.inv hex) (hpl.allocsMin hid ha hm) (fun ag' hag' => by
      rw [hpl.eq, get?_setAgent (me := me) (ag := { ag with newStrategy := some ν }) hid me, if_pos rfl] at hag'
      cases hag'; rfl) h2
    exact h3
  | skip => exact h
  | adv me ord ag σ ν s₃ ha hσ hν hex hd =>
    have h3 : AllShaped Φ one s₃ := executed_shaped hd (executed_thinned hi hex) hm (fun ag' hag' => by rw [ha] at hag'; cases hag'; exact hν) h
    exact h3
  | phase p s' hp hc =>
    intro b ag hb
    rw [hp.agents] at hb
    have hh : ∀ r, SameTerms one (s.heap r) (s'.heap r) := by
      intro r
      rw [hp.heap r]
      split
      · exact ⟨rfl, rfl, rfl, fun ho => absurd rfl (hone ho p)⟩
      · exact ⟨rfl, rfl, rfl, fun _ => rfl⟩
    refine ⟨fun σ hσ => ?_, fun ν hν => ?_⟩
    · obtain ⟨rs, f, h1, h2⟩ := (h b ag hb).strategy σ hσ
      exact ⟨rs, f, h1, h2.mono rfl rfl rfl le_rfl (fun r _ => hh r)⟩
    · obtain ⟨rs, f, h1, h2⟩ := (h b ag hb).staged ν hν
      exact ⟨rs, f, h1, h2.mono rfl rfl rfl le_rfl (fun r _ => hh r)⟩
  | roundEnd => exact h

theorem init_shaped {Φ : RS K → K → Prop} {one : Prop} {c : Config K} (hΦ : Φ c.rs c.extraFrac) (h0 : ∀ e ∈ c.people, 0 ≤ e.1) : AllShaped Φ one (initState c) := by
  intro b ag hb
  obtain ⟨h1, h2⟩ := init_agent hb
  refine ⟨fun σ hσ => ⟨_, _, hΦ, ?_⟩, fun ν hν => by rw [h1] at hν; cases hν⟩
  obtain ⟨h3, h4⟩ := h2 σ hσ
  have hs := (init_good c).person hb
  have := h0 _ (List.mem_of_getElem? hs)
  refine ⟨by rw [h4]; exact Nat.zero_le _, (fun q c _ _ r hr => by rw [h4] at hr; cases hr), ?_⟩
  have hp : pledges (initState c).heap σ = 0 := by unfold pledges; rw [h4]; rfl
  rw [hp, h3, Dict.total_nil, add_zero]
  exact this

theorem Good.stake_nonneg {c : Config K} {s : State K} (h : Good c s) (h0 : ∀ e ∈ c.people, 0 ≤ e.1) {b : Nat} {ag : Agent K} (ha : s.agents.get? b = some ag) :
    0 ≤ ag.stake := h0 _ (List.mem_of_getElem? (h.person ha))

/-- the saturation threshold stays positive -/
theorem Did.beta_pos {n : Nat} {t : Prop} {s s' : State K} {ev : Event K} (hd : Did n t s ev s') (h : 0 < s.rs.beta) : 0 < s'.rs.beta := by
  cases hd with
  | idle => exact h
  | plan me ord ag σ oν s₁ s' ha hp hσ hpm hpl => rw [hpl.eq, hpl.planned.eq]; exact h
  | move me ord ag σ ν s₁ s₂ s₃ ha hp hσ hpm hpl hsim ht hex hd =>
    change 0 < s₃.rs.beta
    rw [hd.frame]
    change 0 < s₂.rs.beta
    rw [hpl.eq, hpl.planned.eq]; exact h
  | skip => exact h
  | adv me ord ag σ ν s₃ ha hσ hν hex hd =>
    change 0 < s₃.rs.beta
    rw [hd.frame]; exact h
  | phase p s' hp hc hrs hk =>
    rw [hrs]
    unfold phaseRS
    cases h1 : p.k with
    | none => cases p.a0 <;> exact h
    | some k =>
      have hk0 : k ≠ 0 := fun hk0 => hk (by rw [h1, hk0])
      have : (0 : K) < 1 / (k : K) := div_pos one_pos (Nat.cast_pos.2 (Nat.pos_of_ne_zero hk0))
      cases p.a0 <;> exact this
  | roundEnd => exact h

/-- In every reachable state all strategies are in shape, with respect to some reward scheme with a positive threshold. -/
theorem Reachable.shaped {c : Config K} {s : State K} (h : Reachable c s) (h0 : ∀ e ∈ c.people, 0 ≤ e.1) (hb : 0 < c.rs.beta) :
    0 < s.rs.beta ∧ AllShaped (fun rs _ => 0 < rs.beta) False s := by
  refine Reachable.induct' (P := fun s => 0 < s.rs.beta ∧ AllShaped (fun rs _ => 0 < rs.beta) False s) minUnit_pos
    ⟨hb, init_shaped hb h0⟩ ?_ h
  rintro s ev s' hr hg hg' ⟨hp, hs⟩ hv he hd
  exact ⟨hd.beta_pos hp, hd.shaped hg.inv (hr.allocsMin minUnit_pos) hv hp (fun b ag hb => hg.stake_nonneg h0 hb) (fun h => h.elim) hs⟩

/-- In a single-phase simulation they are in shape with respect to the parameters of the simulation. -/
theorem ReachableSinglePhase.shaped {c : Config K} {s : State K} (h : ReachableSinglePhase c s) (h0 : ∀ e ∈ c.people, 0 ≤ e.1) :
    AllShaped (fun rs f => rs = c.rs ∧ f = c.extraFrac) True s := by
  refine ReachableSinglePhase.induct minUnit_pos (init_shaped ⟨rfl, rfl⟩ h0) ?_ h
  intro s ev s' hr hg hg' hpar hs hv hev he hd
  exact hd.shaped hg.inv ((Reachable.of_single hr).allocsMin minUnit_pos) hv ⟨hpar.rs, hpar.extraFrac⟩ (fun b ag hb => hg.stake_nonneg h0 hb) (fun _ => hev) hs

end RSE
