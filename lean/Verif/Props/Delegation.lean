import Verif.Lemmas.Ready
import Verif.Spec.Demo

/-!
# C17, C18: the delegation plans (`find_delegation_move`)

Exact arithmetic: `K` is any linearly ordered field.
-/

set_option linter.unusedSectionVars false

namespace RSE.Props

variable {K : Type} [Field K] [LinearOrder K] [IsStrictOrderedRing K]

/-- the pools an agent may delegate to: open, public, of somebody else -/
def Eligible (s : State K) (a pid : Nat) (r : Ref) : Prop :=
  s.pools.get? pid = some r ∧ (s.heap r).owner ≠ a ∧ (s.heap r).isPrivate = false

/-- what is missing to saturation, when the present delegation of the agent is taken out of the pool -/
def roomFor (s : State K) (σ : Strategy K) (pid : Nat) (r : Ref) : K :=
  s.rs.sat (s.heap r).pledge - ((s.heap r).stake - (σ.allocs.get? pid).getD 0)

/-- the ranking an agent goes by -/
def rankingFor (s : State K) (ag : Agent K) : List (Option Ref) :=
  if ag.profile = .nonMyopic then s.rank.vals else s.rankM.vals

theorem rankingFor_eq (s : State K) (ag : Agent K) : rankingsOf s ag = rankingFor s ag := by
  unfold rankingsOf rankingFor
  cases ag.profile <;> rfl

theorem mem_eligible_iff {n : Nat} {s : State K} (h : Core n s) {ag : Agent K} {r : Ref} :
    r ∈ eligiblePools s ag ↔ ∃ pid, Eligible s ag.id pid r := by
  have hmem : some r ∈ rankingsOf s ag ↔ ∃ pid, s.pools.get? pid = some r := by
    have key : ∀ {κ : Type} {l : List (κ × Option Ref)} {nk : κ} {kf : Pool K → κ}, l.Perm (rankEntries n nk kf s.pools s.heap) →
        (some r ∈ l.map Prod.snd ↔ ∃ pid, s.pools.get? pid = some r) := by
      intro κ l nk kf hp
      rw [(hp.map Prod.snd).mem_iff]
      constructor
      · intro hm
        obtain ⟨e, he, hee⟩ := List.mem_map.1 hm
        rcases List.mem_append.1 he with he | he
        · rw [List.eq_of_mem_replicate he] at hee; cases hee
        · obtain ⟨⟨pid, r'⟩, hm', rfl⟩ := List.mem_map.1 he
          simp only [Option.some.injEq] at hee; subst hee
          exact ⟨pid, Dict.get?_of_mem h.poolsNodup hm'⟩
      · rintro ⟨pid, hp⟩
        refine List.mem_map.2 ⟨_, List.mem_append_right _ (List.mem_map.2 ⟨(pid, r), Dict.mem_of_get? hp, rfl⟩), rfl⟩
    unfold rankingsOf
    split
    · exact key h.rankPerm
    · exact key h.rankMPerm
  unfold eligiblePools
  rw [List.mem_filterMap]
  constructor
  · rintro ⟨e, he, hee⟩
    cases e with
    | none => cases hee
    | some r' =>
      simp only at hee
      split at hee
      · rename_i hc
        cases hee
        obtain ⟨pid, hp⟩ := hmem.1 he
        exact ⟨pid, hp, hc.1, hc.2⟩
      · cases hee
  · rintro ⟨pid, h1, h2, h3⟩
    exact ⟨some r, hmem.2 ⟨pid, h1⟩, by simp [h2, h3]⟩

/-- the test in the comprehension of stakeholder.py:260-264 -/
def entryIfEligible (s : State K) (ag : Agent K) : Option Ref → Option Ref
  | none => none
  | some r => if (s.heap r).owner ≠ ag.id ∧ (s.heap r).isPrivate = false then some r else none

/-- what a plan looks like, in terms of the state before -/
theorem plan_filled {n : Nat} {s s' : State K} {ag : Agent K} {σ δ : Strategy K} {stake : K} (h : Ready n s ag.id σ)
    (hf : findDelegationMove s ag σ stake = .ok (s', δ)) :
    δ.owned = [] ∧
    ((stake < minUnit ∧ δ.allocs = []) ∨ (minUnit ≤ stake ∧ eligiblePools s ag = [] ∧ δ.allocs = []) ∨
     ∃ (s₁ : State K) (new : Dict K) (rest : K), minUnit ≤ stake ∧ TakenOut s s₁ ag.id σ ∧ Filled s.rs s₁.heap (eligiblePools s ag) stake rest new ∧
      ((eligiblePools s ag).map (fun r => (s₁.heap r).id)).Nodup ∧
      ((δ.allocs = new ∧ (minUnit ≤ rest → ∀ r ∈ eligiblePools s ag, minUnit ≤ roomOf s.rs (s₁.heap r))) ∨
       (minUnit ≤ rest ∧ ∃ b ∈ eligiblePools s ag, roomOf s.rs (s₁.heap b) < minUnit ∧ (s₁.heap b).id ∉ new.keys ∧ δ.allocs = new ++ [((s₁.heap b).id, rest)]))) := by
  have hd := findDelegationMove_ok hf
  refine ⟨hd.owned, ?_⟩
  cases hd with
  | tiny hlt _ hδ => exact Or.inl ⟨hlt, by rw [hδ]⟩
  | none hst he _ hδ => exact Or.inr (Or.inl ⟨hst, he, by rw [hδ]⟩)
  | some s₁ hst he h1 h2 hδ =>
    obtain ⟨ht, c1⟩ := h.takeOut h1
    have hnd := eligible_ids_nodup h.core ag ht.same
    obtain ⟨new, rest, hfl, hor⟩ := greedyAllocations_filled s₁.rs s₁.heap (eligiblePools s ag) stake hnd hst
    have hrs : s₁.rs = s.rs := ht.shuf.rs
    rw [hrs] at hfl hor
    refine Or.inr (Or.inr ⟨s₁, new, rest, hst, ht, hfl, hnd, ?_⟩)
    rw [hδ, hrs]
    exact hor

theorem room_eq {s s₁ : State K} {a : Nat} {σ : Strategy K} (ht : TakenOut s s₁ a σ) {pid : Nat} {r : Ref} (hp : s.pools.get? pid = some r) :
    roomOf s.rs (s₁.heap r) = roomFor s σ pid r := by
  unfold roomOf roomFor
  rw [ht.stake pid r hp, (ht.same r).pledge]

/-- C17.  Every plan allocates at least `MIN_STAKE_UNIT` to each chosen pool, only to open public pools of other agents, at most the
requested stake in total. -/
theorem C17_plan_feasible {c : Config K} {s s' : State K} (hr : Reachable c s) {a : Nat} {ag : Agent K}
    {σ δ : Strategy K} {stake : K} (ha : s.agents.get? a = some ag) (hσ : ag.strategy = some σ) (hc : c.simultaneous = false ∨ InRecords s a σ) (h0 : 0 ≤ stake)
    (hf : findDelegationMove s ag σ stake = .ok (s', δ)) :
    δ.owned = [] ∧ (∀ pid x, δ.allocs.get? pid = some x → minUnit ≤ x ∧ ∃ r, Eligible s a pid r) ∧ (δ.allocs.map (fun e => e.2)).sum ≤ stake := by
  have hrd := hr.ready_of ha hσ (hc.elim (fun hc => hr.inRecords hc ha hσ) _root_.id)
  have hid := (hr.good minUnit_pos).inv.core.agentId a ag ha
  refine ⟨(findDelegationMove_ok hf).owned, ?_, (findDelegationMove_ok hf).total hrd.core hrd.nodup h0⟩
  obtain ⟨-, sh, -, hga, -⟩ := (findDelegationMove_spec hrd.core ag σ hrd.nodup stake).of_ok hf
  intro pid x hx
  obtain ⟨h1, r, h2, h3, h4⟩ := hga.good pid x hx
  refine ⟨h1, r, by rw [← sh.pools]; exact h2, ?_, ?_⟩
  · rw [← (sh.same r).owner, ← hid]; exact h3
  · rw [← (sh.same r).isPrivate]; exact h4

/-- C17.  A plan never fills a pool beyond its saturation threshold, except possibly one pool, which was saturated already. -/
theorem C17_plan_respects_saturation {c : Config K} {s s' : State K} (hr : Reachable c s) {a : Nat} {ag : Agent K}
    {σ δ : Strategy K} {stake : K} (ha : s.agents.get? a = some ag) (hσ : ag.strategy = some σ) (hc : c.simultaneous = false ∨ InRecords s a σ)
    (hf : findDelegationMove s ag σ stake = .ok (s', δ)) :
    (∀ pid r x, δ.allocs.get? pid = some x → s.pools.get? pid = some r → minUnit ≤ roomFor s σ pid r →
      (s.heap r).stake - (σ.allocs.get? pid).getD 0 + x ≤ s.rs.sat (s.heap r).pledge) ∧
    (∀ pid r pid' r', s.pools.get? pid = some r → s.pools.get? pid' = some r' → pid ∈ δ.allocs.keys → pid' ∈ δ.allocs.keys →
      roomFor s σ pid r < minUnit → roomFor s σ pid' r' < minUnit → pid = pid') := by
  have hrd := hr.ready_of ha hσ (hc.elim (fun hc => hr.inRecords hc ha hσ) _root_.id)
  have hid := (hr.good minUnit_pos).inv.core.agentId a ag ha
  subst hid
  obtain ⟨-, ⟨-, hn⟩ | ⟨-, -, hn⟩ | ⟨s₁, new, rest, hst, ht, hfl, hnd, hor⟩⟩ := plan_filled hrd hf
  · rw [hn]; simp [Dict.keys]
  · rw [hn]; simp [Dict.keys]
  · have hids : ∀ {pid : Nat} {r : Ref}, s.pools.get? pid = some r → (s₁.heap r).id = pid := fun hp => by
      rw [(ht.same _).id]; exact (hrd.core.poolRef _ _ hp).2.1
    have heid : ∀ {r : Ref}, r ∈ eligiblePools s ag → s.pools.get? (s₁.heap r).id = some r := by
      intro r hm
      obtain ⟨pid, h1, -⟩ := (mem_eligible_iff hrd.core).1 hm
      rw [hids h1]; exact h1
    -- entries of the loop fit into the room of their pool
    have hnew : ∀ {e : Nat × K}, e ∈ new → ∀ {r : Ref}, s.pools.get? e.1 = some r → minUnit ≤ roomFor s σ e.1 r ∧ e.2 ≤ roomFor s σ e.1 r := by
      intro e he r hp
      obtain ⟨r', hr', h1, h2, h3⟩ := hfl.amounts e he
      have h4 := heid hr'
      rw [h1, hp] at h4
      cases h4
      rw [room_eq ht hp] at h3
      exact ⟨h2.trans h3, h3⟩
    rcases hor with ⟨he, -⟩ | ⟨hrest, b, hb, hroom, hnk, he⟩
    · rw [he]
      constructor
      · intro pid r x hx hp _
        have := (hnew (Dict.mem_of_get? hx) hp).2
        unfold roomFor at this
        linarith
      · intro pid r pid' r' hp hp' hm hm' hlt
        obtain ⟨x, hx⟩ := Dict.mem_keys_iff.1 hm
        exact absurd (hnew (Dict.mem_of_get? hx) hp).1 (not_le.2 hlt)
    · rw [he]
      have hbr := heid hb
      constructor
      · intro pid r x hx hp hge
        rcases List.mem_append.1 (Dict.mem_of_get? hx) with hm | hm
        · have := (hnew hm hp).2
          unfold roomFor at this
          simp only at this
          linarith
        · simp only [List.mem_singleton, Prod.mk.injEq] at hm
          obtain ⟨rfl, rfl⟩ := hm
          rw [hbr] at hp; cases hp
          rw [room_eq ht hbr] at hroom
          exact absurd hge (not_le.2 hroom)
      · have key : ∀ {pid : Nat} {r : Ref}, s.pools.get? pid = some r → pid ∈ Dict.keys (new ++ [((s₁.heap b).id, rest)]) → roomFor s σ pid r < minUnit →
            pid = (s₁.heap b).id := by
          intro pid r hp hm hlt
          simp only [Dict.keys, List.map_append, List.mem_append, List.map_cons, List.map_nil, List.mem_singleton] at hm
          rcases hm with hm | hm
          · obtain ⟨x, hx⟩ := Dict.mem_keys_iff.1 hm
            exact absurd (hnew (Dict.mem_of_get? hx) hp).1 (not_le.2 hlt)
          · exact hm
        intro pid r pid' r' hp hp' hm hm' hlt hlt'
        rw [key hp hm hlt, key hp' hm' hlt']

/-- C18.  What a plan leaves unallocated is less than `MIN_STAKE_UNIT`, unless no eligible pool was saturated and all of them are now filled. -/
theorem C18_plan_complete {c : Config K} {s s' : State K} (hr : Reachable c s) {a : Nat} {ag : Agent K}
    {σ δ : Strategy K} {stake : K} (ha : s.agents.get? a = some ag) (hσ : ag.strategy = some σ) (hc : c.simultaneous = false ∨ InRecords s a σ)
    (hf : findDelegationMove s ag σ stake = .ok (s', δ)) :
    stake - (δ.allocs.map (fun e => e.2)).sum < minUnit ∨
    ∀ pid r, Eligible s a pid r → minUnit ≤ roomFor s σ pid r ∧ δ.allocs.get? pid = some (roomFor s σ pid r) := by
  have hrd := hr.ready_of ha hσ (hc.elim (fun hc => hr.inRecords hc ha hσ) _root_.id)
  have hid := (hr.good minUnit_pos).inv.core.agentId a ag ha
  subst hid
  obtain ⟨-, ⟨hlt, hn⟩ | ⟨-, hnil, hn⟩ | ⟨s₁, new, rest, hst, ht, hfl, hnd, hor⟩⟩ := plan_filled hrd hf
  · left; rw [hn]; simpa using hlt
  · right
    intro pid r he
    have := (mem_eligible_iff hrd.core).2 ⟨pid, he⟩
    rw [hnil] at this; cases this
  · rcases hor with ⟨he, hall⟩ | ⟨hrest, b, hb, hroom, hnk, he⟩
    · by_cases hrest : minUnit ≤ rest
      · right
        intro pid r hel
        have hm := (mem_eligible_iff hrd.core).2 ⟨pid, hel⟩
        have hroom := hall hrest r hm
        have := hfl.full hrest r hm hroom
        rw [room_eq ht hel.1] at hroom this
        refine ⟨hroom, ?_⟩
        have hidr : (s₁.heap r).id = pid := by rw [(ht.same r).id]; exact (hrd.core.poolRef _ _ hel.1).2.1
        rw [hidr] at this
        rw [he]
        exact Dict.get?_of_mem (hnd.sublist hfl.keys) this
      · left
        have h1 : (new.map (fun e => e.2)).sum = stake - rest := hfl.sum
        rw [he, h1]
        simpa using not_le.1 hrest
    · left
      have h1 : (new.map (fun e => e.2)).sum = stake - rest := hfl.sum
      rw [he, List.map_append, List.sum_append, h1]
      simpa using minUnit_pos

/-- C18.  Pools are filled in the order of the agent's ranking: if a pool gets stake, every eligible pool before it that was not saturated is
filled up. -/
theorem C18_plan_in_ranking_order {c : Config K} {s s' : State K} (hr : Reachable c s) {a : Nat} {ag : Agent K}
    {σ δ : Strategy K} {stake : K} (ha : s.agents.get? a = some ag) (hσ : ag.strategy = some σ) (hc : c.simultaneous = false ∨ InRecords s a σ)
    (hf : findDelegationMove s ag σ stake = .ok (s', δ)) {pid pid' : Nat} {r r' : Ref} (hp : s.pools.get? pid = some r) (hget : pid ∈ δ.allocs.keys)
    (hel : Eligible s a pid' r') (hroom' : minUnit ≤ roomFor s σ pid' r') {before after : List (Option Ref)}
    (hrank : rankingFor s ag = before ++ some r' :: after) (hafter : some r ∈ after) :
    δ.allocs.get? pid' = some (roomFor s σ pid' r') := by
  have hrd := hr.ready_of ha hσ (hc.elim (fun hc => hr.inRecords hc ha hσ) _root_.id)
  have hid := (hr.good minUnit_pos).inv.core.agentId a ag ha
  subst hid
  have hsome : δ.allocs ≠ [] := by rintro hn; rw [hn] at hget; simp [Dict.keys] at hget
  obtain ⟨-, ⟨hlt, hn⟩ | ⟨-, hnil, hn⟩ | ⟨s₁, new, rest, hst, ht, hfl, hnd, hor⟩⟩ := plan_filled hrd hf
  · exact absurd hn hsome
  · exact absurd hn hsome
  have hm' := (mem_eligible_iff hrd.core).2 ⟨pid', hel⟩
  have hidr' : (s₁.heap r').id = pid' := by rw [(ht.same r').id]; exact (hrd.core.poolRef _ _ hel.1).2.1
  have hidr : (s₁.heap r).id = pid := by rw [(ht.same r).id]; exact (hrd.core.poolRef _ _ hp).2.1
  -- it suffices that the loop has filled the better pool
  have key : ((s₁.heap r').id, roomOf s.rs (s₁.heap r')) ∈ new → δ.allocs.get? pid' = some (roomFor s σ pid' r') := by
    intro hm
    rw [room_eq ht hel.1, hidr'] at hm
    have hnk := hnd.sublist hfl.keys
    rcases hor with ⟨he, -⟩ | ⟨-, b, hb, -, hnot, he⟩
    · rw [he]; exact Dict.get?_of_mem hnk hm
    · rw [he, Dict.get?_append, Dict.get?_of_mem hnk hm]; rfl
  have hroom1 : minUnit ≤ roomOf s.rs (s₁.heap r') := by rw [room_eq ht hel.1]; exact hroom'
  by_cases hin : pid ∈ new.keys
  · apply key
    obtain ⟨x, hx⟩ := Dict.mem_keys_iff.1 hin
    obtain ⟨r₂, hr₂, h1, -, -⟩ := hfl.amounts _ (Dict.mem_of_get? hx)
    have hr2 : r₂ = r := by
      obtain ⟨p2, h2, -⟩ := (mem_eligible_iff hrd.core).1 hr₂
      have h3 : (s₁.heap r₂).id = p2 := by rw [(ht.same r₂).id]; exact (hrd.core.poolRef _ _ h2).2.1
      simp only at h1
      rw [h1] at h3; subst h3
      rw [hp] at h2; cases h2; rfl
    subst hr2
    have hsplit : ∃ l₁ l₂ l₃, eligiblePools s ag = l₁ ++ r' :: l₂ ++ r₂ :: l₃ := by
      have hel2 : (s.heap r').owner ≠ ag.id ∧ (s.heap r').isPrivate = false := hel.2
      unfold eligiblePools at hr₂ ⊢
      rw [rankingFor_eq, hrank] at hr₂ ⊢
      obtain ⟨a1, a2, haft⟩ := List.append_of_mem hafter
      have hr2e : (s.heap r₂).owner ≠ ag.id ∧ (s.heap r₂).isPrivate = false := by
        obtain ⟨e, -, hee⟩ := List.mem_filterMap.1 hr₂
        cases e with
        | none => cases hee
        | some r3 =>
          simp only at hee
          split at hee
          · rename_i hcond; cases hee; exact hcond
          · cases hee
      rw [haft]
      refine ⟨before.filterMap (entryIfEligible s ag), a1.filterMap (entryIfEligible s ag), a2.filterMap (entryIfEligible s ag), ?_⟩
      change List.filterMap (entryIfEligible s ag) _ = _
      have e1 : entryIfEligible s ag (some r') = some r' := if_pos hel2
      have e2 : entryIfEligible s ag (some r₂) = some r₂ := if_pos hr2e
      simp only [List.filterMap_append, List.filterMap_cons, e1, e2, List.append_assoc, List.cons_append]
    obtain ⟨l₁, l₂, l₃, hl⟩ := hsplit
    exact hfl.order (l₁ ++ r' :: l₂) r₂ l₃ hl (by rw [hidr]; exact hin) r' (by simp) hroom1
  · rcases hor with ⟨he, -⟩ | ⟨hrest, b, hb, -, hnot, he⟩
    · rw [he] at hget; exact absurd hget hin
    · exact key (hfl.full hrest r' hm' hroom1)

/-- a plan made in the demo state: after two rounds, agent 2 wants to delegate 3/10 -/
def demoPlan : Option (List (Nat × ℚ) × List (Nat × ℚ)) := do
  let s ← (iterM exec (initState (demo false)) (demoRound ++ demoRound)).toOption
  let ag ← s.agents.get? 2
  let σ ← ag.strategy
  let res ← (findDelegationMove s ag σ ag.stake).toOption
  return (σ.allocs, res.2.allocs)

instance : DecidableEq (List (Nat × ℚ) × List (Nat × ℚ)) := instDecidableEqProd

/-- the hypotheses of the theorems above are met in a state with three open pools, by a plan that uses three pools -/
example : demoPlan = some ([(8, 1/30), (1, 2/15), (4, 2/15)], [(1, 2/15), (8, 1/30), (4, 2/15)]) := by decide +kernel

end RSE.Props
