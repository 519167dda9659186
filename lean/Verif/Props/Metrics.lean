import Verif.Lemmas.Metrics
import Verif.Lemmas.Private
import Verif.Spec.Demo

/-!
# C47, C49, C50, C53: who controls the stake in pools

Every statement speaks about the pools of the state and their owners, not about the dictionaries the reporters build.
-/

set_option linter.unusedSectionVars false

namespace RSE.Props

variable {K : Type} [Field K] [LinearOrder K] [IsStrictOrderedRing K]

/-- the stake in the pools of agent `a` -/
def controls (s : State K) (a : Nat) : K :=
  (s.pools.map (fun e => if (s.heap e.2).owner = a then (s.heap e.2).stake else 0)).sum

/-- the stake in all pools -/
def inPools (s : State K) : K := (s.pools.map (fun e => (s.heap e.2).stake)).sum

/-- every pool belongs to an agent, and no two agents share an id (true in every reachable state) -/
structure Owned (s : State K) : Prop where
  nodup : s.agents.keys.Nodup
  owner : ∀ e ∈ s.pools, (s.heap e.2).owner ∈ s.agents.keys

theorem owned_of_reachable {c : Config K} {s : State K} (h : Reachable c s) : Owned s :=
  ⟨(h.good minUnit_pos).inv.core.agentsNodup, fun e he => owner_mem_agents h (s.heap e.2) (List.mem_map.2 ⟨e, he, rfl⟩)⟩

theorem controls_eq (s : State K) (a : Nat) : controls s a = controlledIn (poolsList s) a := by
  unfold controls poolsList
  induction s.pools with
  | nil => simp [controlledIn]
  | cons e t ih => rw [List.map_cons, List.map_cons, List.sum_cons, controlledIn_cons, ih]

theorem inPools_eq (s : State K) : inPools s = ((poolsList s).map (fun p => p.stake)).sum := by
  simp [inPools, poolsList, Function.comp_def]

theorem Owned.mem {s : State K} (h : Owned s) : ∀ p ∈ poolsList s, p.owner ∈ s.agents.keys := by
  intro p hp
  obtain ⟨e, he, rfl⟩ := List.mem_map.1 hp
  exact h.owner e he

theorem sum_controls {s : State K} (h : Owned s) : (s.agents.keys.map (controls s)).sum = inPools s := by
  rw [inPools_eq, ← sum_controlledIn (poolsList s) s.agents.keys h.nodup h.mem]
  exact congrArg List.sum (List.map_congr_left (fun a _ => controls_eq s a))

theorem get?_zeros {ids : List Nat} {a : Nat} (ha : a ∈ ids) : Dict.get? (ids.map (fun i => (i, (0 : K)))) a = some 0 := by
  induction ids with
  | nil => cases ha
  | cons b t ih =>
    rw [List.map_cons, Dict.get?_cons]
    split
    · rfl
    · rename_i hne
      exact ih ((List.mem_cons.1 ha).resolve_left (fun h => hne h.symm))

theorem keys_zeros (ids : List Nat) : Dict.keys (ids.map (fun i => (i, (0 : K)))) = ids := by
  simp [Dict.keys, Function.comp_def]

theorem controlledStake_ok {s : State K} (h : Owned s) :
    ∃ d, controlledStake s = .ok d ∧ d.keys = s.agents.keys ∧ ∀ a ∈ s.agents.keys, d.get? a = some (controls s a) := by
  have hz : s.agents.map (fun e => (e.1, (0 : K))) = s.agents.keys.map (fun i => (i, (0 : K))) := by
    simp [Dict.keys, Function.comp_def]
  unfold controlledStake
  rw [hz]
  obtain ⟨d, h1, h2, h3⟩ := addStakes_spec (poolsList s) (s.agents.keys.map (fun i => (i, (0 : K)))) (fun p hp => by
    rw [keys_zeros]; exact h.mem p hp)
  refine ⟨d, h1, by rw [h2, keys_zeros], fun a ha => ?_⟩
  rw [h3 a 0 (get?_zeros ha), controls_eq, zero_add]

theorem final_ok {s : State K} (h : Owned s) : ∃ d, controlledStake s = .ok d ∧
    s.agents.mapM (fun e => d.getE e.1) = .ok (s.agents.keys.map (controls s)) := by
  obtain ⟨d, h1, -, h3⟩ := controlledStake_ok h
  refine ⟨d, h1, ?_⟩
  rw [mapM_ok_of (g := fun e => controls s e.1) (fun e he => Dict.getE_of (h3 e.1 (List.mem_map.2 ⟨e, he, rfl⟩)))]
  simp [Dict.keys, Function.comp_def]

theorem sum_eq_finset (f : Nat → K) (A : Finset Nat) : ∑ a ∈ A, f a = (A.toList.map f).sum := by
  rw [Finset.sum_map_toList]

/-- the front of a sorted list of values belongs to some set of as many keys -/
theorem front_set (f : Nat → K) {ids : List Nat} (hn : ids.Nodup) {m : Nat} (hm : m ≤ ids.length) :
    ∃ A : Finset Nat, (∀ a ∈ A, a ∈ ids) ∧ A.card = m ∧ ∑ a ∈ A, f a = (((ids.map f).insertionSort (· ≥ ·)).take m).sum := by
  set l := ids.insertionSort (fun a b => f a ≥ f b) with hl
  have hp : l.Perm ids := List.perm_insertionSort _ _
  have hnd : l.Nodup := hp.nodup_iff.2 hn
  have hmap : l.map f = (ids.map f).insertionSort (· ≥ ·) := by
    have : Std.Total (α := Nat) (fun a b => f a ≥ f b) := ⟨fun a b => le_total (f b) (f a)⟩
    have : IsTrans Nat (fun a b => f a ≥ f b) := ⟨fun a b c h g => le_trans g h⟩
    have hs1 : (l.map f).Pairwise (· ≥ ·) := by
      rw [List.pairwise_map]; exact List.pairwise_insertionSort _ _
    refine List.Perm.eq_of_pairwise (le := (· ≥ ·)) (fun a b _ _ h g => le_antisymm g h) hs1 (sorted_desc _) ?_
    exact (hp.map f).trans (List.perm_insertionSort _ _).symm
  refine ⟨(l.take m).toFinset, ?_, ?_, ?_⟩
  · intro a ha
    exact hp.mem_iff.1 (List.mem_of_mem_take (List.mem_toFinset.1 ha))
  · rw [List.toFinset_card_of_nodup (hnd.sublist (List.take_sublist _ _)), List.length_take, hp.length_eq]
    omega
  · rw [List.sum_toFinset _ (hnd.sublist (List.take_sublist _ _)), ← hmap, List.map_take]

theorem set_le_front (f : Nat → K) {ids : List Nat} (A : Finset Nat) (hA : ∀ a ∈ A, a ∈ ids) :
    ∑ a ∈ A, f a ≤ (((ids.map f).insertionSort (· ≥ ·)).take A.card).sum := by
  rw [sum_eq_finset]
  have h1 : A.toList.Subperm ids := List.subperm_of_subset A.nodup_toList (fun a ha => hA a (Finset.mem_toList.1 ha))
  have h2 : (A.toList.map f).Subperm ((ids.map f).insertionSort (· ≥ ·)) :=
    (show (A.toList.map f).Subperm (ids.map f) from by
      obtain ⟨m, p, q⟩ := h1
      exact ⟨m.map f, p.map f, q.map f⟩).trans (List.perm_insertionSort _ _).symm.subperm
  have h3 := subperm_sum_le_take h2 (sorted_desc _)
  rwa [List.length_map, Finset.length_toList] at h3

/-- `n` is the size of the smallest set of agents that together hold strictly more than half of `total`, agent `a` holding `f a` -/
def IsNakamoto (ids : List Nat) (f : Nat → K) (total : K) (n : Nat) : Prop :=
  (∃ A : Finset Nat, (∀ a ∈ A, a ∈ ids) ∧ A.card = n ∧ total / 2 < ∑ a ∈ A, f a) ∧
  ∀ A : Finset Nat, (∀ a ∈ A, a ∈ ids) → total / 2 < ∑ a ∈ A, f a → n ≤ A.card

/-- C47.  The Nakamoto coefficient of a state with stake in pools is the size of the smallest set of agents whose pools hold strictly
more than half of the stake in pools. -/
theorem C47_nakamoto {s : State K} (h : Owned s) (hpos : 0 < inPools s) :
    ∃ n, nakamoto s = .ok n ∧ 1 ≤ n ∧ n ≤ s.agents.length ∧ IsNakamoto s.agents.keys (controls s) (inPools s) n := by
  obtain ⟨d, h1, h2⟩ := final_ok h
  have hsum := sum_controls h
  obtain ⟨m, e1, e2, e3, e4, e5⟩ := majorityCount_spec (l := s.agents.keys.map (controls s)) (by rw [hsum]; exact hpos)
  rw [hsum] at e4 e5
  have hlen : s.agents.keys.length = s.agents.length := by simp [Dict.keys]
  rw [List.length_map] at e3
  refine ⟨m, ?_, e2, by omega, ?_, ?_⟩
  · unfold nakamoto
    rw [if_neg]
    · rw [h1]
      simp only [bind, Except.bind, h2, e1]
    · intro h0
      rw [inPools_eq, List.length_eq_zero_iff.1 h0] at hpos
      simp at hpos
  · obtain ⟨A, a1, a2, a3⟩ := front_set (controls s) h.nodup e3
    exact ⟨A, a1, a2, by rw [a3]; exact e4⟩
  · intro A hA hlt
    by_contra hc
    push Not at hc
    exact absurd (lt_of_lt_of_le hlt (set_le_front (controls s) A hA)) (not_lt.2 (e5 _ hc))

/-- C47.  Without pools it is 0. -/
theorem C47_no_pools (s : State K) (h : s.pools = []) : nakamoto s = .ok 0 := by
  simp [nakamoto, poolsList, h]

/-- C47.  Before pools exist the value is the same for the agents' own stakes: the smallest set of agents that hold a majority. -/
theorem C47_initial (s : State K) (hn : s.agents.keys.Nodup) (f : Nat → K) (hf : ∀ a ag, s.agents.get? a = some ag → f a = ag.stake)
    (hpos : 0 ≤ (s.agents.map (fun e => e.2.stake)).sum) :
    if 0 < (s.agents.map (fun e => e.2.stake)).sum then
      ∃ n, nakamotoInitial s = .ok n ∧ IsNakamoto s.agents.keys f (s.agents.map (fun e => e.2.stake)).sum n
    else (∀ e ∈ s.agents, 0 ≤ e.2.stake) → nakamotoInitial s = .error .index := by
  have hst : (agentsList s).map (fun a => a.stake) = s.agents.keys.map f := by
    simp only [agentsList, Dict.keys, List.map_map]
    exact List.map_congr_left (fun e he => (hf e.1 e.2 (Dict.get?_of_mem hn he)).symm)
  have hst' : s.agents.map (fun e => e.2.stake) = s.agents.keys.map f := by
    rw [← hst]; simp [agentsList, Function.comp_def]
  rw [hst'] at hpos ⊢
  set l := s.agents.keys.map f with hl
  have hperm : (l.insertionSort (· ≥ ·)).Perm l := List.perm_insertionSort _ _
  have hun : nakamotoInitial s = majorityLoop ((l.insertionSort (· ≥ ·)).sum / 2) (l.insertionSort (· ≥ ·)) 0 0 := by
    unfold nakamotoInitial
    rw [hst, ← two_cast (K := K)]; rfl
  rw [hun, hperm.sum_eq]
  split
  · rename_i hp
    obtain ⟨m, e1, e2, e3, e4⟩ := majorityLoop_spec (l.sum / 2) (l.insertionSort (· ≥ ·)) [] (by simp) (by
      rw [List.nil_append, hperm.sum_eq]; linarith)
    simp only [List.nil_append, List.sum_nil, List.length_nil] at e1 e2 e3 e4
    rw [hperm.length_eq, hl, List.length_map] at e2
    refine ⟨m, e1, ?_, ?_⟩
    · obtain ⟨A, a1, a2, a3⟩ := front_set f hn e2
      exact ⟨A, a1, a2, by rw [a3]; exact e3⟩
    · intro A hA hlt
      by_contra hc
      push Not at hc
      exact absurd (lt_of_lt_of_le hlt (set_le_front f A hA)) (not_lt.2 (e4 _ hc))
  · rename_i hp
    intro hnn
    have h0 : l.sum = 0 := le_antisymm (not_lt.1 hp) hpos
    have hall : ∀ x ∈ l.insertionSort (· ≥ ·), x = 0 := by
      have hnn' : ∀ x ∈ l, 0 ≤ x := by
        intro x hx
        rw [← hst'] at hx
        obtain ⟨e, he, rfl⟩ := List.mem_map.1 hx
        exact hnn e he
      intro x hx
      have hx' := hperm.mem_iff.1 hx
      have := List.single_le_sum hnn' x hx'
      exact le_antisymm (by rw [h0] at this; exact this) (hnn' x hx')
    rw [h0]
    have loop : ∀ (l : List K) (n : Nat), (∀ x ∈ l, x = 0) → majorityLoop ((0 : K) / 2) l 0 n = .error .index := by
      intro l
      induction l with
      | nil => intro n _; unfold majorityLoop; simp
      | cons y t ih =>
        intro n hy
        unfold majorityLoop
        rw [if_pos (by simp), hy y (by simp), add_zero]
        exact ih _ (fun x hx => hy x (by simp [hx]))
    exact loop _ 0 hall

/-- the demo state: three pools with 1/3, 7/30 and 1/3 of the stake; two agents are needed for a majority -/
example : ∃ s, ReachableSinglePhase (demo false) s ∧ Owned s ∧ 0 < inPools s ∧ nakamoto s = .ok 2 ∧ nakamotoInitial s = .ok 2 := by
  have key : (iterM exec (initState (demo false)) (demoRound ++ demoRound)).toOption.map
      (fun s => decide (0 < inPools s ∧ (nakamoto s).toOption = some 2 ∧ (nakamotoInitial s).toOption = some 2)) = some true := by decide +kernel
  obtain ⟨s, hs, hv⟩ := reachable_of_run (demoRounds_valid) key
  obtain ⟨h1, h2, h3⟩ := of_decide_eq_true hv
  exact ⟨s, hs, owned_of_reachable (Reachable.of_single hs), h1, toOption_ok h2, toOption_ok h3⟩

/-- the tie: two agents with half of the stake each need each other (strictly more than half) -/
example : (majorityCount [(1 : ℚ)/2, 1/2]).toOption = some 2 ∧ (majorityCount [(1 : ℚ)/4, 1/2, 1/4]).toOption = some 2 := by decide +kernel

/-! ### C49 -/

/-- C49.  'Stake per agent': one entry per agent, entry `i` is the stake in the pools of agent `i`, and the entries add up to the
total stake in pools (metric 28). -/
theorem C49_stake_per_agent {n : Nat} {s : State K} (h : ∀ e ∈ s.pools, (s.heap e.2).owner < n) :
    ∃ l, stakesByAgent n s = .ok l ∧ l.length = n ∧ (∀ i, i < n → l[i]? = some (controls s i)) ∧ l.sum = totalDelegatedStake s := by
  have hm : ∀ p ∈ poolsList s, p.owner < n := by
    intro p hp
    obtain ⟨e, he, rfl⟩ := List.mem_map.1 hp
    exact h e he
  obtain ⟨l, h1, h2, h3⟩ := addStakeAt_spec (poolsList s) (List.replicate n (0 : K)) (fun p hp => by
    rw [List.length_replicate]; exact hm p hp)
  rw [List.length_replicate] at h2
  have h4 : ∀ i, i < n → l[i]? = some (controls s i) := by
    intro i hi
    rw [h3 i 0 (by rw [List.getElem?_replicate, if_pos hi]), controls_eq, zero_add]
  refine ⟨l, h1, h2, h4, ?_⟩
  have hl : l = (List.range n).map (controlledIn (poolsList s)) := by
    refine List.ext_getElem? (fun i => ?_)
    rcases Nat.lt_or_ge i n with hi | hi
    · rw [h4 i hi, controls_eq, List.getElem?_map, List.getElem?_range hi]; rfl
    · rw [List.getElem?_eq_none (by omega), List.getElem?_eq_none (by simpa using hi)]
  rw [hl, sum_controlledIn (poolsList s) (List.range n) List.nodup_range (fun p hp => List.mem_range.2 (hm p hp))]
  rfl

/-- C49.  'Stake per agent id': the same values, keyed by the ids `0 .. n-1` in this order. -/
theorem C49_stake_per_agent_id {n : Nat} {s : State K} (h : ∀ e ∈ s.pools, (s.heap e.2).owner < n) :
    ∃ l, stakesByAgent n s = .ok l ∧ stakesByAgentId n s = .ok ((List.range n).zip l) := by
  obtain ⟨l, h1, h2, h3, -⟩ := C49_stake_per_agent h
  refine ⟨l, h1, ?_⟩
  obtain ⟨d, e1, e2, e3⟩ := addStakes_spec (poolsList s) ((List.range n).map (fun i => (i, (0 : K)))) (fun p hp => by
    rw [keys_zeros]
    obtain ⟨e, he, rfl⟩ := List.mem_map.1 hp
    exact List.mem_range.2 (h e he))
  unfold stakesByAgentId
  rw [e1]
  rw [keys_zeros] at e2
  congr 1
  have hdl : d.length = n := by
    have := congrArg List.length e2
    simpa [Dict.keys] using this
  refine List.ext_getElem? (fun i => ?_)
  rcases Nat.lt_or_ge i n with hi | hi
  · have hk : (d[i]'(by omega)).1 = i := by
      have : d.keys[i]'(by simp [Dict.keys]; omega) = i := by
        simp only [e2, List.getElem_range]
      simpa [Dict.keys] using this
    have hg : d.get? i = some (controls s i) := by
      rw [e3 i 0 (get?_zeros (List.mem_range.2 hi)), controls_eq, zero_add]
    have hm : d.get? i = some (d[i]'(by omega)).2 := by
      refine Dict.get?_of_mem (by rw [e2]; exact List.nodup_range) ?_
      have hx : (i, (d[i]'(by omega)).2) = d[i]'(by omega) := Prod.ext hk.symm rfl
      rw [hx]
      exact List.getElem_mem _
    rw [List.getElem?_eq_getElem (by omega)]
    have h5 := h3 i hi
    rw [List.getElem?_eq_getElem (by omega)] at h5
    rw [List.getElem?_eq_getElem (by simp; omega), List.getElem_zip, List.getElem_range]
    rw [hg] at hm
    rw [← h5] at hm
    exact congrArg some (Prod.ext hk (Option.some.inj hm).symm)
  · rw [List.getElem?_eq_none (by omega), List.getElem?_eq_none (by simp; omega)]

/-- C49.  If some owner is not among the agents both reporters raise (`IndexError`, `KeyError`). -/
theorem C49_unknown_owner {n : Nat} {s : State K} (h : ∃ e ∈ s.pools, n ≤ (s.heap e.2).owner) :
    stakesByAgent n s = .error .index ∧ stakesByAgentId n s = .error .key := by
  obtain ⟨e, he, hn⟩ := h
  have hm : ∃ p ∈ poolsList s, n ≤ p.owner := ⟨_, List.mem_map.2 ⟨e, he, rfl⟩, hn⟩
  clear he hn
  constructor
  · unfold stakesByAgent
    have : ∀ (l : List (Pool K)) (m : List K), m.length = n → (∃ p ∈ l, n ≤ p.owner) → iterM addStakeAt m l = .error .index := by
      intro l
      induction l with
      | nil => rintro m _ ⟨p, hp, _⟩; cases hp
      | cons q t ih =>
        intro m hl hex
        rw [iterM]
        cases hq : m[q.owner]? with
        | none => simp only [addStakeAt, hq]; rfl
        | some x =>
          simp only [addStakeAt, hq]
          refine ih _ (by simpa using hl) ?_
          obtain ⟨p, hp, hnp⟩ := hex
          rcases List.mem_cons.1 hp with rfl | hp
          · rw [List.getElem?_eq_none (by omega)] at hq; cases hq
          · exact ⟨p, hp, hnp⟩
    exact this _ _ (by simp) hm
  · unfold stakesByAgentId
    have : ∀ (l : List (Pool K)) (d : Dict K), d.keys = List.range n → (∃ p ∈ l, n ≤ p.owner) → iterM addStake d l = .error .key := by
      intro l
      induction l with
      | nil => rintro m _ ⟨p, hp, _⟩; cases hp
      | cons q t ih =>
        intro d hl hex
        rw [iterM]
        cases hq : d.get? q.owner with
        | none => simp only [addStake, Dict.getE, hq]; rfl
        | some x =>
          simp only [addStake, Dict.getE, hq]
          refine ih _ (by rw [Dict.keys_set_of_mem (Dict.mem_keys_of_get? hq)]; exact hl) ?_
          obtain ⟨p, hp, hnp⟩ := hex
          rcases List.mem_cons.1 hp with rfl | hp
          · have := Dict.mem_keys_of_get? hq
            rw [hl, List.mem_range] at this; omega
          · exact ⟨p, hp, hnp⟩
    exact this _ _ (keys_zeros _) hm

/-- C49 in reachable states: owners are among the `n` agents -/
theorem C49_reachable {c : Config K} {s : State K} (h : Reachable c s) : ∀ e ∈ s.pools, (s.heap e.2).owner < c.people.length :=
  fun e he => (mem_agents_iff h _).1 ((owned_of_reachable h).owner e he)

/-- non-trivial instance: three pools of agents 0, 1 and 3 of five -/
example : ∃ s, ReachableSinglePhase (demo false) s ∧ stakesByAgent 5 s = .ok [1/3, 7/30, 0, 1/3, 0] := by
  have key : (iterM exec (initState (demo false)) (demoRound ++ demoRound)).toOption.map
      (fun s => (stakesByAgent 5 s).toOption) = some (some [1/3, 7/30, 0, 1/3, 0]) := by decide +kernel
  obtain ⟨s, hs, hv⟩ := reachable_of_run (demoRounds_valid) key
  exact ⟨s, hs, toOption_ok hv⟩

/-! ### C50 -/

theorem foldl_max_ge : ∀ (t : List K) (a : K), a ≤ t.foldl max a ∧ ∀ y ∈ t, y ≤ t.foldl max a := by
  intro t
  induction t with
  | nil => intro a; simp
  | cons b t ih =>
    intro a
    rw [List.foldl_cons]
    refine ⟨(le_max_left a b).trans (ih _).1, ?_⟩
    intro y hy
    rcases List.mem_cons.1 hy with rfl | hy
    · exact (le_max_right _ _).trans (ih _).1
    · exact (ih _).2 y hy

theorem foldl_max_mem : ∀ (t : List K) (a : K), t.foldl max a = a ∨ t.foldl max a ∈ t := by
  intro t
  induction t with
  | nil => intro a; simp
  | cons b t ih =>
    intro a
    rw [List.foldl_cons]
    rcases ih (max a b) with h | h
    · rw [h]
      rcases max_choice a b with h | h
      · exact Or.inl h
      · rw [h]; exact Or.inr (by simp)
    · exact Or.inr (List.mem_cons_of_mem _ h)

theorem sum_le_length_mul {l : List K} {M : K} (h : ∀ x ∈ l, x ≤ M) : l.sum ≤ (l.length : K) * M := by
  induction l with
  | nil => simp
  | cons a t ih =>
    have h1 := ih (fun x hx => h x (by simp [hx]))
    have h2 := h a (by simp)
    rw [List.sum_cons, List.length_cons]; push_cast; linarith

theorem sum_eq_length_mul {l : List K} {M : K} (h : ∀ x ∈ l, x ≤ M) (he : l.sum = (l.length : K) * M) : ∀ x ∈ l, x = M := by
  induction l with
  | nil => simp
  | cons a t ih =>
    have h1 := sum_le_length_mul (fun x hx => h x (by simp [hx]) : ∀ x ∈ t, x ≤ M)
    have h2 := h a (by simp)
    rw [List.sum_cons, List.length_cons] at he
    push_cast at he
    have ha : a = M := le_antisymm h2 (by linarith)
    intro x hx
    rcases List.mem_cons.1 hx with rfl | hx
    · exact ha
    · exact ih (fun x hx => h x (by simp [hx])) (by linarith) x hx

/-- C50.  The homogeneity factor of pools with positive stakes: in `(0, 1]`, and 1 exactly if all pools have the same stake. -/
theorem C50_homogeneity {s : State K} (hne : s.pools ≠ []) (hpos : ∀ e ∈ s.pools, 0 < (s.heap e.2).stake) :
    ∃ x, homogeneityFactor s = .ok x ∧ 0 < x ∧ x ≤ 1 ∧
      (x = 1 ↔ ∀ e ∈ s.pools, ∀ e' ∈ s.pools, (s.heap e.2).stake = (s.heap e'.2).stake) := by
  have hl : (poolsList s).map (fun p => p.stake) = s.pools.map (fun e => (s.heap e.2).stake) := by simp [poolsList, Function.comp_def]
  cases hp : s.pools.map (fun e => (s.heap e.2).stake) with
  | nil => exact absurd (List.map_eq_nil_iff.1 hp) hne
  | cons x t =>
    have hall : ∀ y ∈ x :: t, 0 < y := by
      intro y hy
      rw [← hp] at hy
      obtain ⟨e, he, rfl⟩ := List.mem_map.1 hy
      exact hpos e he
    set M := t.foldl max x with hM
    have hMge : ∀ y ∈ x :: t, y ≤ M := by
      intro y hy
      rcases List.mem_cons.1 hy with rfl | hy
      · exact (foldl_max_ge t y).1
      · exact (foldl_max_ge t x).2 y hy
    have hMmem : M ∈ x :: t := by
      rcases foldl_max_mem t x with h | h
      · rw [hM, h]; simp
      · exact List.mem_cons_of_mem _ h
    have hMpos : 0 < M := hall M hMmem
    have hlen : (0 : K) < ((x :: t).length : K) := by exact_mod_cast Nat.succ_pos _
    have hden : (0 : K) < ((x :: t).length : K) * M := mul_pos hlen hMpos
    have hle := sum_le_length_mul hMge
    refine ⟨(x :: t).sum / (((x :: t).length : K) * M), ?_, ?_, ?_, ?_⟩
    · unfold homogeneityFactor
      rw [hl, hp]
      simp only [pyDiv]
      rw [if_neg hden.ne']
      rfl
    · refine div_pos ?_ hden
      exact List.sum_pos _ hall (by simp)
    · rw [div_le_one hden]; exact hle
    · rw [div_eq_one_iff_eq hden.ne']
      constructor
      · intro he
        have h1 := sum_eq_length_mul hMge he
        have h2 : ∀ e ∈ s.pools, (s.heap e.2).stake = M := fun e he => h1 _ (by rw [← hp]; exact List.mem_map.2 ⟨e, he, rfl⟩)
        intro e he e' he'
        rw [h2 e he, h2 e' he']
      · intro heq
        have h2 : ∀ y ∈ x :: t, y = M := by
          intro y hy
          rw [← hp] at hy hMmem
          obtain ⟨e, he, rfl⟩ := List.mem_map.1 hy
          obtain ⟨e', he', h'⟩ := List.mem_map.1 hMmem
          rw [heq e he e' he', h']
        rw [List.eq_replicate_of_mem h2]
        simp

/-- C50.  Without pools it is 0. -/
theorem C50_no_pools {s : State K} (h : s.pools = []) : homogeneityFactor s = .ok 0 := by
  simp [homogeneityFactor, poolsList, h]

/-- C50 in reachable states: the stakes of open pools are positive -/
theorem C50_reachable {c : Config K} {s : State K} (h : Reachable c s) (h0 : ∀ e ∈ c.people, 0 < e.1) (hb : 0 < c.rs.beta) :
    ∀ e ∈ s.pools, 0 < (s.heap e.2).stake := fun e he => by
  have hg := h.good minUnit_pos
  exact (h.pledge_pos h0 hb (Dict.get?_of_mem hg.inv.core.poolsNodup he)).trans_le (h.balanced e.2).pledge_le

/-! ### C53 -/

/-- C53.  The statistical distance: non-negative, at most half of the agents' stakes plus the stake in pools, and 0 exactly if every
agent controls exactly its own stake. -/
theorem C53_statistical_distance {s : State K} (h : Owned s) (hne : s.pools ≠ []) (h0 : ∀ e ∈ s.agents, 0 ≤ e.2.stake)
    (hpos : ∀ e ∈ s.pools, 0 ≤ (s.heap e.2).stake) :
    ∃ x, statDistance s = .ok x ∧ 0 ≤ x ∧ x ≤ ((s.agents.map (fun e => e.2.stake)).sum + inPools s) / 2 ∧
      (x = 0 ↔ ∀ a ag, s.agents.get? a = some ag → controls s a = ag.stake) ∧
      x = (s.agents.map (fun e => |controls s e.1 - e.2.stake|)).sum / 2 := by
  obtain ⟨d, h1, -, h3⟩ := controlledStake_ok h
  have hd : s.agents.mapM (fun e => (do let x ← d.getE e.1; return absF (x - e.2.stake) : Py K)) =
      .ok (s.agents.map (fun e => |controls s e.1 - e.2.stake|)) := by
    refine mapM_ok_of (fun e he => ?_)
    rw [Dict.getE_of (h3 e.1 (List.mem_map.2 ⟨e, he, rfl⟩))]
    rfl
  have hctl : ∀ a, 0 ≤ controls s a := by
    intro a
    refine List.sum_nonneg (fun x hx => ?_)
    obtain ⟨e, he, rfl⟩ := List.mem_map.1 hx
    split
    · exact hpos e he
    · exact le_refl _
  have hnn : 0 ≤ (s.agents.map (fun e => |controls s e.1 - e.2.stake|)).sum := by
    refine List.sum_nonneg (fun x hx => ?_)
    obtain ⟨e, -, rfl⟩ := List.mem_map.1 hx
    exact abs_nonneg _
  refine ⟨(s.agents.map (fun e => |controls s e.1 - e.2.stake|)).sum / 2, ?_, by positivity, ?_, ?_, rfl⟩
  · unfold statDistance
    rw [if_neg (by simpa [poolsList] using hne), h1]
    simp only [bind, Except.bind] at hd ⊢
    rw [hd, two_cast]
    rfl
  · have hs := sum_controls h
    have hk : (s.agents.keys.map (controls s)).sum = (s.agents.map (fun e => controls s e.1)).sum := by
      simp [Dict.keys, Function.comp_def]
    have : (s.agents.map (fun e => |controls s e.1 - e.2.stake|)).sum ≤ (s.agents.map (fun e => e.2.stake + controls s e.1)).sum := by
      refine List.sum_le_sum (fun e he => ?_)
      have := h0 e he
      have := hctl e.1
      rw [abs_le]; constructor <;> linarith
    rw [List.sum_map_add, ← hk, hs] at this
    linarith
  · rw [div_eq_zero_iff]
    simp only [OfNat.ofNat_ne_zero, or_false]
    constructor
    · intro hz a ag ha
      have hmem := Dict.mem_of_get? ha
      have := List.single_le_sum (l := s.agents.map (fun e => |controls s e.1 - e.2.stake|)) (fun x hx => by
        obtain ⟨e, -, rfl⟩ := List.mem_map.1 hx
        exact abs_nonneg _) _ (List.mem_map.2 ⟨(a, ag), hmem, rfl⟩)
      rw [hz] at this
      have := abs_nonpos_iff.1 this
      simp only at this
      linarith
    · intro hall
      have : s.agents.map (fun e => |controls s e.1 - e.2.stake|) = s.agents.map (fun _ => 0) := by
        refine List.map_congr_left (fun e he => ?_)
        rw [hall e.1 e.2 (Dict.get?_of_mem h.nodup he)]; simp
      rw [this]; simp

/-- C53.  Without pools it is 0. -/
theorem C53_no_pools {s : State K} (h : s.pools = []) : statDistance s = .ok 0 := by
  simp [statDistance, poolsList, h]

/-- the demo state meets the hypotheses of C50 and C53 -/
example : ∃ s, ReachableSinglePhase (demo false) s ∧ Owned s ∧ s.pools ≠ [] ∧ (∀ e ∈ s.agents, 0 ≤ e.2.stake) ∧
    (∀ e ∈ s.pools, 0 < (s.heap e.2).stake) ∧ statDistance s = .ok (7/20) ∧ homogeneityFactor s = .ok (9/10) := by
  have key : (iterM exec (initState (demo false)) (demoRound ++ demoRound)).toOption.map
      (fun s => decide (s.pools ≠ [] ∧ (∀ e ∈ s.agents, 0 ≤ e.2.stake) ∧ (∀ e ∈ s.pools, 0 < (s.heap e.2).stake) ∧
        (statDistance s).toOption = some (7/20) ∧ (homogeneityFactor s).toOption = some (9/10))) = some true := by decide +kernel
  obtain ⟨s, hs, hv⟩ := reachable_of_run (demoRounds_valid) key
  obtain ⟨h1, h2, h3, h4, h5⟩ := of_decide_eq_true hv
  exact ⟨s, hs, owned_of_reachable (Reachable.of_single hs), h1, h2, h3, toOption_ok h4, toOption_ok h5⟩

end RSE.Props
