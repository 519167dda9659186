import Verif.Model.Export
import Verif.Props.Table
import Verif.Props.Distr

/-!
# C75, C76: the files written at the end and at the beginning of a simulation
-/

set_option linter.unusedSectionVars false

namespace RSE.Props

variable {K : Type} [Field K] [LinearOrder K] [IsStrictOrderedRing K]

/-- the pools that an agent's strategy lists are the open pools of that agent -/
theorem owned_perm {n : Nat} {s : State K} (h : Inv n s) {a : Nat} {ag : Agent K} {σ : Strategy K} (ha : s.agents.get? a = some ag)
    (hσ : ag.strategy = some σ) : List.Perm σ.owned (s.pools.filter (fun e => decide ((s.heap e.2).owner = a))) := by
  have hn1 : σ.owned.keys.Nodup := (h.tidy a ag ha).owned σ hσ
  have hn2 := h.core.poolsNodup
  refine (List.perm_ext_iff_of_nodup (List.Nodup.of_map _ hn1) ((List.Nodup.of_map _ hn2).filter _)).2 ?_
  rintro ⟨pid, r⟩
  rw [List.mem_filter, decide_eq_true_eq]
  constructor
  · intro he
    obtain ⟨h1, h2⟩ := h.owned ha hσ (Dict.get?_of_mem hn1 he)
    exact ⟨Dict.mem_of_get? h1, h2⟩
  · rintro ⟨he, ho⟩
    have h1 := (h.own.own_iff a pid r).2 ⟨Dict.get?_of_mem hn2 he, ho⟩
    rw [ownOf_eq ha hσ] at h1
    exact Dict.mem_of_get? h1

theorem sum_filter_eq {α : Type} (f : α → K) (p : α → Prop) [DecidablePred p] (l : List α) :
    ((l.filter (fun e => decide (p e))).map f).sum = (l.map (fun e => if p e then f e else 0)).sum := by
  induction l with
  | nil => rfl
  | cons e t ih =>
    by_cases h : p e
    · simp [h, ih]
    · simp [h, ih]

theorem no_pools_of_abstainer {n : Nat} {s : State K} (h : Inv n s) {a : Nat} {ag : Agent K} (ha : s.agents.get? a = some ag)
    (hσ : ag.strategy = none) : ∀ e ∈ s.pools, (s.heap e.2).owner ≠ a := by
  rintro e he rfl
  obtain ⟨ag', σ, h1, h2, -⟩ := h.owner (Dict.get?_of_mem h.core.poolsNodup he)
  rw [ha] at h1; cases h1
  rw [hσ] at h2; cases h2

/-- what the row of agent `a` says -/
structure RowSays (rnd : K → K) (s : State K) (a : Nat) (ag : Agent K) (row : AgentRow K) : Prop where
  id : row.id = a
  stake : row.stake = rnd ag.stake
  cost : row.cost = rnd ag.cost
  profit : row.profit = rnd (potentialProfit s.rs ag.stake ag.cost)
  pools : row.pools = poolsOf s a
  poolStake : row.poolStake = controls s a
  abstainer : row.status = .abstainer ↔ ag.profile = .abstainer
  operator : row.status = .operator ↔ ∃ e ∈ s.pools, (s.heap e.2).owner = a
  splitting : row.splitting = splittingProfit s.rs.a0 s.extraFrac ag.cost ag.stake
  splitter : row.splitter = true ↔ 0 < splittingProfit s.rs.a0 s.extraFrac ag.cost ag.stake

theorem agentRow_says (rnd : K → K) {n : Nat} {s : State K} (h : Inv n s) {a : Nat} {ag : Agent K} (ha : s.agents.get? a = some ag) :
    ∃ row, agentRow rnd s a = .ok row ∧ RowSays rnd s a ag row := by
  have hg : s.agents.getE a = .ok ag := by unfold Dict.getE; rw [ha]
  refine ⟨_, by unfold agentRow; rw [hg]; rfl, ?_⟩
  cases hσ : ag.strategy with
  | none =>
    have hno := no_pools_of_abstainer h ha hσ
    have hprof : ag.profile = .abstainer := by
      by_contra hp
      obtain ⟨σ, hs⟩ := h.strat a ag ha hp
      rw [hσ] at hs; cases hs
    refine ⟨rfl, rfl, rfl, rfl, ?_, ?_, by simp [hprof], ?_, rfl, by simp⟩
    · unfold poolsOf
      rw [eq_comm]
      exact List.countP_eq_zero.2 (fun e he => by simpa using hno e he)
    · unfold controls
      rw [eq_comm]
      exact List.sum_eq_zero (fun x hx => by
        obtain ⟨e, he, rfl⟩ := List.mem_map.1 hx
        exact if_neg (hno e he))
    · simp only [reduceCtorEq, false_iff, not_exists, not_and]
      exact hno
  | some σ =>
    have hperm := owned_perm h ha hσ
    have hlen : σ.owned.length = poolsOf s a := by
      unfold poolsOf
      rw [hperm.length_eq, List.countP_eq_length_filter]
    have hprof : ag.profile ≠ .abstainer := fun hp => by
      rw [(h.abst a ag ha hp).1] at hσ; cases hσ
    refine ⟨rfl, rfl, rfl, rfl, hlen, ?_, ?_, ?_, rfl, by simp⟩
    · change (σ.owned.vals.map (fun r => (s.heap r).stake)).foldl (· + ·) 0 = _
      rw [foldl_add_eq_sum, zero_add]
      unfold controls Dict.vals
      rw [List.map_map, (hperm.map _).sum_eq]
      exact sum_filter_eq (fun e : Nat × Nat => (s.heap e.2).stake) (fun e => (s.heap e.2).owner = a) s.pools
    · simp only [hprof, iff_false]
      split <;> simp
    · have : σ.owned.length > 0 ↔ ∃ e ∈ s.pools, (s.heap e.2).owner = a := by
        rw [hlen]
        unfold poolsOf
        rw [gt_iff_lt, List.countP_pos_iff]
        simp
      by_cases hp : σ.owned.length > 0
      · simp [hp, this.1 hp]
      · simp only [hp, if_false, reduceCtorEq, false_iff]
        exact fun hh => hp (this.2 hh)

theorem sum_countP_owner {α : Type} (f : α → Nat) (l : List α) : ∀ (ids : List Nat), ids.Nodup → (∀ e ∈ l, f e ∈ ids) →
    (ids.map (fun a => l.countP (fun e => decide (f e = a)))).sum = l.length := by
  intro ids hn
  induction l with
  | nil => intro _; simp
  | cons e t ih =>
    intro hm
    have h1 := ih (fun x hx => hm x (List.mem_cons_of_mem _ hx))
    have h2 : (ids.map (fun a => if f e = a then 1 else 0)).sum = 1 := by
      have h0 : f e ∈ ids := hm e List.mem_cons_self
      clear h1 ih hm
      induction ids with
      | nil => cases h0
      | cons b s ih =>
        obtain ⟨hb, hn⟩ := List.nodup_cons.1 hn
        rw [List.map_cons, List.sum_cons]
        by_cases hbe : f e = b
        · rw [if_pos hbe]
          refine congrArg (1 + ·) (List.sum_eq_zero (fun x hx => ?_))
          obtain ⟨c, hc, rfl⟩ := List.mem_map.1 hx
          exact if_neg (by rintro rfl; exact hb (hbe ▸ hc))
        · rw [if_neg hbe, ih hn]
          rcases List.mem_cons.1 h0 with h | h
          · exact absurd h hbe
          · exact h
    have h3 : (ids.map (fun a => (e :: t).countP (fun e => decide (f e = a)))) =
        ids.map (fun a => t.countP (fun e => decide (f e = a)) + if f e = a then 1 else 0) := by
      refine List.map_congr_left (fun a _ => ?_)
      rw [List.countP_cons]
      simp
    rw [h3, List.sum_map_add, h1, h2, List.length_cons]

/-- C75.  final-state-stakeholders can be written in every reachable state (any mode and phase).  It has one row per agent, in the order of their ids;
the rows say what they should; "Pools owned" adds up to the number of pools and "Total pool stake" to the delegated stake, and the number of agents
with status "Operator" is the "Operator count". -/
theorem C75_agents_file (rnd : K → K) {c : Config K} {s : State K} (h : Reachable c s) :
    ∃ rows, agentsFile rnd s = .ok rows ∧ rows.length = c.people.length ∧
      (∀ (a : Nat) (row : AgentRow K), rows[a]? = some row → ∃ ag, s.agents.get? a = some ag ∧ RowSays rnd s a ag row) ∧
      (rows.map (fun row => row.pools)).sum = poolCount s ∧ (rows.map (fun row => row.poolStake)).sum = totalDelegatedStake s ∧
      rows.countP (fun row => row.status = .operator) = operatorCount s := by
  have hg := h.good minUnit_pos
  have hlen := agents_length h
  have hget : ∀ a < c.people.length, ∃ ag, s.agents.get? a = some ag := fun a ha => by
    rw [← Dict.mem_keys_iff]; exact (mem_agents_iff h a).2 ha
  obtain ⟨rows, h1, h2, h3⟩ := mapM_ok (l := List.range s.agents.length) (f := agentRow rnd s) (by
    intro a ha
    rw [List.mem_range, hlen] at ha
    obtain ⟨ag, hag⟩ := hget a ha
    obtain ⟨row, hr, -⟩ := agentRow_says rnd hg.inv hag
    exact ⟨row, hr⟩)
  rw [List.length_range, hlen] at h2
  have hsays : ∀ (a : Nat) (row : AgentRow K), rows[a]? = some row → ∃ ag, s.agents.get? a = some ag ∧ RowSays rnd s a ag row := by
    intro a row hr
    obtain ⟨a', g1, g2⟩ := h3 a row hr
    have ha : a < c.people.length := by rw [← h2]; exact (List.getElem?_eq_some_iff.1 hr).1
    rw [List.getElem?_range (by rw [hlen]; exact ha)] at g1
    cases g1
    obtain ⟨ag, hag⟩ := hget a ha
    obtain ⟨row', hr', hs⟩ := agentRow_says rnd hg.inv hag
    rw [hr'] at g2; cases g2
    exact ⟨ag, hag, hs⟩
  have hmap : ∀ {β : Type} (f : AgentRow K → β) (g : Nat → β), (∀ a ag row, s.agents.get? a = some ag → RowSays rnd s a ag row → f row = g a) →
      rows.map f = (List.range c.people.length).map g := by
    intro β f g hfg
    refine List.ext_getElem (by simp [h2]) (fun i hi hi' => ?_)
    have hi : i < rows.length := by simpa using hi
    obtain ⟨ag, hag, hs⟩ := hsays i rows[i] (List.getElem?_eq_getElem hi)
    simp only [List.getElem_map, List.getElem_range]
    exact hfg i ag _ hag hs
  have hown := C49_reachable h
  refine ⟨rows, h1, h2, hsays, ?_, ?_, ?_⟩
  · rw [hmap (fun row => row.pools) (poolsOf s) (fun a ag row _ hs => hs.pools)]
    exact sum_countP_owner (fun e : Nat × Nat => (s.heap e.2).owner) s.pools _ List.nodup_range (fun e he => List.mem_range.2 (hown e he))
  · rw [hmap (fun row => row.poolStake) (controls s) (fun a ag row _ hs => hs.poolStake)]
    rw [((agents_perm_range h).symm.map _).sum_eq, sum_controls (owned_of_reachable h), inPools_eq]
    rfl
  · have h5 : rows.countP (fun row => row.status = .operator) = (List.range c.people.length).countP (fun a => decide (a ∈ operators s)) := by
      have := hmap (fun row => decide (row.status = .operator)) (fun a => decide (a ∈ operators s)) (fun a ag row _ hs => by
        rw [decide_eq_decide, hs.operator]
        unfold operators
        rw [List.mem_dedup, List.mem_map])
      have h6 := congrArg (List.countP id) this
      rw [List.countP_map, List.countP_map] at h6
      exact h6
    rw [h5, (C52_operator_count s).1, List.countP_eq_length_filter]
    refine List.Perm.length_eq ((List.perm_ext_iff_of_nodup (List.nodup_range.filter _) (List.nodup_dedup _)).2 (fun a => ?_))
    rw [List.mem_filter, List.mem_range, decide_eq_true_eq]
    refine ⟨fun hh => hh.2, fun hh => ⟨?_, hh⟩⟩
    obtain ⟨e, he, rfl⟩ := List.mem_map.1 (List.mem_dedup.1 hh)
    exact hown e he

/-- C75.  final-state-pools can be written in every reachable state: one row per open pool, in the order of the pools; the row shows the attributes of the
pool and the stake and cost of its operator. -/
theorem C75_pools_file (rnd : K → K) {s : State K} (h : Owned s) :
    ∃ rows, poolsFile rnd s = .ok rows ∧ rows.length = poolCount s ∧
      ∀ (i : Nat) (hi : i < s.pools.length), ∃ ag row, rows[i]? = some row ∧ s.agents.get? (s.heap (s.pools[i]).2).owner = some ag ∧
        row.id = (s.heap (s.pools[i]).2).id ∧ row.owner = (s.heap (s.pools[i]).2).owner ∧ row.ownerStake = rnd ag.stake ∧ row.ownerCost = rnd ag.cost ∧
        row.pledge = rnd (s.heap (s.pools[i]).2).pledge ∧ row.stake = rnd (s.heap (s.pools[i]).2).stake ∧ row.cost = rnd (s.heap (s.pools[i]).2).cost ∧
        row.margin = rnd (s.heap (s.pools[i]).2).margin ∧ row.pp = (s.heap (s.pools[i]).2).pp ∧ row.des = (s.heap (s.pools[i]).2).des := by
  have hget : ∀ p ∈ poolsList s, ∃ ag, s.agents.get? p.owner = some ag := by
    intro p hp
    obtain ⟨e, he, rfl⟩ := List.mem_map.1 hp
    exact (Dict.mem_keys_iff).1 (h.owner e he)
  obtain ⟨rows, h1, h2, h3⟩ := mapM_ok (l := poolsList s) (f := fun p => (do
    let ag ← s.agents.getE p.owner
    return { id := p.id, owner := p.owner, ownerStake := rnd ag.stake, pledge := rnd p.pledge, stake := rnd p.stake, ownerCost := rnd ag.cost,
             cost := rnd p.cost, margin := rnd p.margin, pp := p.pp, des := p.des } : Py (PoolRow K))) (by
    intro p hp
    obtain ⟨ag, ha⟩ := hget p hp
    exact ⟨_, by unfold Dict.getE; rw [ha]; rfl⟩)
  refine ⟨rows, h1, h2.trans (by simp [poolsList, poolCount]), fun i hi => ?_⟩
  have hi' : i < (poolsList s).length := by simpa [poolsList] using hi
  have hp : (poolsList s)[i]? = some (s.heap (s.pools[i]).2) := by
    rw [List.getElem?_eq_getElem hi']; simp [poolsList]
  obtain ⟨ag, ha⟩ := hget (s.heap (s.pools[i]).2) (List.mem_map.2 ⟨_, List.getElem_mem hi, rfl⟩)
  have hlt : i < rows.length := by rw [h2]; exact hi'
  obtain ⟨p, g1, g2⟩ := h3 i rows[i] (List.getElem?_eq_getElem hlt)
  rw [hp] at g1; cases g1
  unfold Dict.getE at g2; rw [ha] at g2
  have g2 := Except.ok.inj g2
  refine ⟨ag, rows[i], List.getElem?_eq_getElem hlt, ha, ?_⟩
  rw [← g2]
  exact ⟨rfl, rfl, rfl, rfl, rfl, rfl, rfl, rfl, rfl, rfl⟩

/-- C75.  In every state that a simulation with positive stakes can reach, `wrap_up_execution` writes all its files without an exception.  The numbers of pools,
of operators and the Nakamoto coefficient in the final descriptors and in the experiment tracker are those of the metrics, and the files of pools and
agents have one row per pool and per agent. -/
theorem C75_wrap_up (rnd rnd4 : K → K) (converged : Bool) {c : Config K} {s : State K} (h : Reachable c s) (h0 : ∀ e ∈ c.people, 0 < e.1)
    (hb : 0 < c.rs.beta) : ∃ out nc, wrapUp rnd rnd4 converged s = .ok out ∧ nakamoto s = .ok nc ∧
      out.final = { equilibrium := converged, pools := poolCount s, operators := operatorCount s, nakamoto := nc, pledge := rnd4 (totalPledge s) } ∧
      out.tracker = (poolCount s, operatorCount s, nc) ∧ poolsFile rnd s = .ok out.pools ∧ agentsFile rnd s = .ok out.agents ∧
      out.pools.length = poolCount s ∧ out.agents.length = c.people.length := by
  have ho := owned_of_reachable h
  obtain ⟨prow, p1, p2, -⟩ := C75_pools_file rnd ho
  obtain ⟨arow, a1, a2, -⟩ := C75_agents_file rnd h
  have hnc : ∃ nc, nakamoto s = .ok nc := by
    by_cases hne : s.pools = []
    · exact ⟨_, C47_no_pools s hne⟩
    · have hpos : 0 < inPools s := by
        unfold inPools
        refine List.sum_pos _ ?_ (by simpa using hne)
        intro x hx; obtain ⟨e, he, rfl⟩ := List.mem_map.1 hx; exact C50_reachable h h0 hb e he
      obtain ⟨nc, e, -⟩ := C47_nakamoto ho hpos
      exact ⟨nc, e⟩
  obtain ⟨nc, hnc⟩ := hnc
  refine ⟨⟨prow, arow, _, _⟩, nc, ?_, hnc, rfl, rfl, p1, a1, p2, a2⟩
  unfold wrapUp finalDesc trackerRow
  rw [p1, a1, hnc]
  rfl

/-! ### The descriptors of the initial state -/

theorem npMax_spec {l : List K} (hne : l ≠ []) : ∃ m, npMax l = .ok m ∧ m ∈ l ∧ ∀ x ∈ l, x ≤ m := by
  cases l with
  | nil => exact absurd rfl hne
  | cons x t =>
    refine ⟨_, rfl, ?_, ?_⟩
    · rcases foldl_max_mem t x with h | h
      · rw [h]; exact List.mem_cons_self
      · exact List.mem_cons_of_mem _ h
    · intro y hy
      rcases List.mem_cons.1 hy with rfl | h
      · exact (foldl_max_ge t y).1
      · exact (foldl_max_ge t x).2 y h

theorem foldl_min_le : ∀ (t : List K) (a : K), t.foldl min a ≤ a ∧ ∀ y ∈ t, t.foldl min a ≤ y := by
  intro t
  induction t with
  | nil => intro a; exact ⟨le_rfl, fun y hy => by cases hy⟩
  | cons b t ih =>
    intro a
    obtain ⟨h1, h2⟩ := ih (min a b)
    refine ⟨h1.trans (min_le_left _ _), fun y hy => ?_⟩
    rcases List.mem_cons.1 hy with rfl | h
    · exact h1.trans (min_le_right _ _)
    · exact h2 y h

theorem foldl_min_mem : ∀ (t : List K) (a : K), t.foldl min a = a ∨ t.foldl min a ∈ t := by
  intro t
  induction t with
  | nil => intro a; exact Or.inl rfl
  | cons b t ih =>
    intro a
    rcases ih (min a b) with h | h
    · rcases min_choice a b with h' | h'
      · left; rw [List.foldl_cons, h, h']
      · right; rw [List.foldl_cons, h, h']; exact List.mem_cons_self
    · right; rw [List.foldl_cons]; exact List.mem_cons_of_mem _ h

theorem npMin_spec {l : List K} (hne : l ≠ []) : ∃ m, npMin l = .ok m ∧ m ∈ l ∧ ∀ x ∈ l, m ≤ x := by
  cases l with
  | nil => exact absurd rfl hne
  | cons x t =>
    refine ⟨_, rfl, ?_, ?_⟩
    · rcases foldl_min_mem t x with h | h
      · rw [h]; exact List.mem_cons_self
      · exact List.mem_cons_of_mem _ h
    · intro y hy
      rcases List.mem_cons.1 hy with rfl | h
      · exact (foldl_min_le t y).1
      · exact (foldl_min_le t x).2 y h

theorem npVariance_spec {l : List K} (hne : l ≠ []) {m : K} (hm : meanOf l = .ok m) : ∃ v, npVariance l = .ok v ∧
    v * (l.length : K) = (l.map (fun x => (x - m) ^ 2)).sum ∧ 0 ≤ v ∧ (v = 0 ↔ ∀ x ∈ l, x = m) := by
  have hne' : l.map (fun x => (x - m) * (x - m)) ≠ [] := by simpa using hne
  obtain ⟨v, hv, hs, -⟩ := meanOf_spec hne'
  have hpos : (0 : K) < (l.length : K) := by exact_mod_cast List.length_pos_iff.2 hne
  rw [List.length_map] at hs
  have hs' : v * (l.length : K) = (l.map (fun x => (x - m) ^ 2)).sum := by
    rw [hs]; congr 1; exact List.map_congr_left (fun x _ => (sq (x - m)).symm)
  have hnn : ∀ y ∈ l.map (fun x => (x - m) ^ 2), 0 ≤ y := by
    intro y hy; obtain ⟨x, _, rfl⟩ := List.mem_map.1 hy; exact sq_nonneg _
  refine ⟨v, by unfold npVariance; rw [hm]; exact hv, hs', ?_, ?_⟩
  · have h0 := List.sum_nonneg hnn
    rw [← hs'] at h0
    exact nonneg_of_mul_nonneg_left h0 hpos
  · constructor
    · intro h0 x hx
      rw [h0, zero_mul] at hs'
      have h1 : (x - m) ^ 2 ≤ 0 := hs' ▸ List.single_le_sum hnn _ (List.mem_map.2 ⟨x, hx, rfl⟩)
      have h2 : (x - m) ^ 2 = 0 := le_antisymm h1 (sq_nonneg _)
      exact sub_eq_zero.1 (pow_eq_zero_iff (two_ne_zero) |>.1 h2)
    · intro h0
      have h1 : (l.map (fun x => (x - m) ^ 2)).sum = 0 := List.sum_eq_zero (fun y hy => by
        obtain ⟨x, hx, rfl⟩ := List.mem_map.1 hy
        rw [h0 x hx, sub_self]; exact zero_pow two_ne_zero)
      rw [h1] at hs'
      exact (mul_eq_zero.1 hs').resolve_right hpos.ne'

/-- what the descriptors of the initial state say about the stakes of the agents -/
structure DescSays (stakes : List K) (d : InitDesc K) : Prop where
  active : d.active = stakes.sum
  max_mem : d.max ∈ stakes
  max_ge : ∀ x ∈ stakes, x ≤ d.max
  min_mem : d.min ∈ stakes
  min_le : ∀ x ∈ stakes, d.min ≤ x
  mean : d.mean * (stakes.length : K) = d.active
  mean_between : d.min ≤ d.mean ∧ d.mean ≤ d.max
  median_low : stakes.length ≤ 2 * stakes.countP (fun x => decide (x ≤ d.median))
  median_high : stakes.length ≤ 2 * stakes.countP (fun x => decide (d.median ≤ x))
  median_between : d.min ≤ d.median ∧ d.median ≤ d.max
  variance : d.variance * (stakes.length : K) = (stakes.map (fun x => (x - d.mean) ^ 2)).sum
  variance_nonneg : 0 ≤ d.variance
  variance_zero : d.variance = 0 ↔ d.min = d.max

/-- C76.  With at least one agent and non-negative stakes that are not all zero, `export_initial_state_desc_file` raises no exception, the Nakamoto coefficient is
that of the stakes of the agents, and the statistics are the ones their names announce. -/
theorem C76_initial_descriptors (s : State K) (hn : s.agents.keys.Nodup) (f : Nat → K) (hf : ∀ a ag, s.agents.get? a = some ag → f a = ag.stake)
    (hpos : 0 < (s.agents.map (fun e => e.2.stake)).sum) :
    ∃ d, initDesc s = .ok d ∧ DescSays (s.agents.map (fun e => e.2.stake)) d ∧
      IsNakamoto s.agents.keys f (s.agents.map (fun e => e.2.stake)).sum d.nakamoto ∧
      d.efficient = s.agents.countP (fun e => decide (0 < potentialProfit s.rs e.2.stake e.2.cost)) := by
  have hne : s.agents.map (fun e => e.2.stake) ≠ [] := by
    intro h; rw [h] at hpos; simp at hpos
  have hst : (agentsList s).map (fun a => a.stake) = s.agents.map (fun e => e.2.stake) := by
    simp [agentsList, List.map_map]
  have h47 := C47_initial s hn f hf hpos.le
  rw [if_pos hpos] at h47
  obtain ⟨nc, hnc, hN⟩ := h47
  obtain ⟨mx, x1, x2, x3⟩ := npMax_spec hne
  obtain ⟨mn, n1, n2, n3⟩ := npMin_spec hne
  obtain ⟨me, m1, m2, m3⟩ := meanOf_spec hne
  obtain ⟨md, d1, d2, d3, d4⟩ := medianOf_spec hne
  obtain ⟨v, v1, v2, v3, v4⟩ := npVariance_spec hne m1
  refine ⟨⟨totalAgentStake s, mx, mn, me, md, v, nc, costEfficientCount s⟩, ?_, ?_, hN, ?_⟩
  · unfold initDesc
    simp only [hst, x1, n1, m1, d1, v1, hnc]
    rfl
  · have hact : totalAgentStake s = (s.agents.map (fun e => e.2.stake)).sum := by
      unfold totalAgentStake; rw [hst]; rfl
    have hb := m3 mn mx (fun x hx => ⟨n3 x hx, x3 x hx⟩)
    refine ⟨hact, x2, x3, n2, n3, by rw [hact]; exact m2, hb, d2, d3, d4 mn mx (fun x hx => ⟨n3 x hx, x3 x hx⟩), v2, v3, ?_⟩
    change v = 0 ↔ mn = mx
    rw [v4]
    constructor
    · intro h; rw [h mn n2, h mx x2]
    · intro h x hx
      have e1 := n3 x hx
      have e2 := x3 x hx
      rw [← h] at e2 hb
      rw [le_antisymm e2 e1, le_antisymm hb.2 hb.1]
  · change costEfficientCount s = _
    unfold costEfficientCount agentsList
    rw [List.map_map, List.filter_map, List.length_map, List.countP_eq_length_filter]
    rfl

/-- C76.  Without agents it raises `ValueError`. -/
theorem C76_no_agents (s : State K) (h : s.agents = []) : initDesc s = .error .value := by
  unfold initDesc agentsList
  rw [h]
  rfl

/-! ### Concrete cases -/

/-- the hypotheses of `C75_wrap_up` are met by a state with three pools; the row of the operator of one of them, a delegator and an abstainer -/
example : ∃ s, Reachable (demo false) s ∧ (∀ e ∈ (demo false).people, 0 < e.1) ∧ 0 < (demo false).rs.beta ∧
    ((agentsFile id s).toOption.map (fun rows => rows.map (fun r => r.status)) = some [.operator, .operator, .delegator, .operator, .abstainer]) ∧
    ((agentsFile id s).toOption.map (fun rows => rows.map (fun r => r.poolStake)) = some [1/3, 7/30, 0, 1/3, 0]) := by
  obtain ⟨s, ⟨es, h1, h2⟩, h3⟩ := reachable_of_run demoRounds_valid
    (f := fun s => decide (((agentsFile id s).toOption.map (fun rows => rows.map (fun r => r.status)) =
        some [.operator, .operator, .delegator, .operator, .abstainer]) ∧
      ((agentsFile id s).toOption.map (fun rows => rows.map (fun r => r.poolStake)) = some [1/3, 7/30, 0, 1/3, 0])))
    (v := true) (by decide +kernel)
  exact ⟨s, ⟨es, fun e he => (h1 e he).1, h2⟩, demo_stakes _, by decide +kernel, of_decide_eq_true h3⟩

/-- the hypotheses of `C76_initial_descriptors` are met by the agents of the example -/
example : (initState (demo false)).agents.keys.Nodup ∧ 0 < ((initState (demo false)).agents.map (fun e => e.2.stake)).sum ∧
    (initDesc (initState (demo false))).toOption = some ⟨1, 3/10, 1/10, 1/5, 1/5, 1/125, 2, 5⟩ := by
  refine ⟨by decide +kernel, by decide +kernel, by decide +kernel⟩

end RSE.Props
