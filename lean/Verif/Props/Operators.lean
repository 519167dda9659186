import Verif.Props.Gini
import Verif.Props.Ranking

/-!
# C52, C54, C70: operators, ranks of pool owners, means and medians
-/

set_option linter.unusedSectionVars false

namespace RSE.Props

variable {K : Type} [Field K] [LinearOrder K] [IsStrictOrderedRing K]

/-! ### C52 -/

theorem owners_eq (s : State K) : owners s = s.pools.map (fun e => (s.heap e.2).owner) := by
  simp [owners, poolsList, Function.comp_def]

theorem counter_vals (s : State K) : (counter (owners s)).vals.Perm ((operators s).map (poolsOf s)) := by
  have h : counter (owners s) = poolsOwned s := by
    unfold counter owners poolsOwned
    rw [List.foldl_map]
  rw [h]
  exact poolsOwned_vals s

theorem mem_operators {s : State K} {a : Nat} : a ∈ operators s ↔ 1 ≤ poolsOf s a := by
  unfold operators poolsOf
  rw [List.mem_dedup, Nat.one_le_iff_ne_zero, ← Nat.pos_iff_ne_zero, List.countP_pos_iff]
  simp

theorem sum_poolsOf (s : State K) : ((operators s).map (poolsOf s)).sum = s.pools.length := by
  have h : ∀ (l : List (Nat × Ref)) (ids : List Nat), ids.Nodup → (∀ e ∈ l, (s.heap e.2).owner ∈ ids) →
      (ids.map (fun a => l.countP (fun e => decide ((s.heap e.2).owner = a)))).sum = l.length := by
    intro l
    induction l with
    | nil => intro ids _ _; simp
    | cons e t ih =>
      intro ids hn hm
      have h1 := ih ids hn (fun e he => hm e (by simp [he]))
      simp only [List.countP_cons, List.length_cons]
      rw [List.sum_map_add, h1]
      have : (ids.map (fun a => if decide ((s.heap e.2).owner = a) = true then 1 else 0)).sum = 1 := by
        rw [← countP_eq_sum]
        have := List.count_eq_one_of_mem hn (hm e (by simp))
        unfold List.count at this
        rw [← this]
        refine List.countP_congr (fun a _ => ?_)
        simp only [decide_eq_true_eq, beq_iff_eq]
        exact eq_comm
      rw [this]
  exact h s.pools (operators s) (List.nodup_dedup _) (fun e he => List.mem_dedup.2 (List.mem_map.2 ⟨e, he, rfl⟩))

theorem nat_foldl_max_ge : ∀ (t : List Nat) (a : Nat), a ≤ t.foldl max a ∧ ∀ y ∈ t, y ≤ t.foldl max a := by
  intro t
  induction t with
  | nil => intro a; simp
  | cons b t ih =>
    intro a
    rw [List.foldl_cons]
    refine ⟨(le_max_left a b).trans (ih _).1, ?_⟩
    intro y hy
    rcases List.mem_cons.1 hy with rfl | hy
    · exact (le_max_right _ _).trans (ih _).1
    · exact (ih _).2 y hy

theorem nat_foldl_max_mem : ∀ (t : List Nat) (a : Nat), t.foldl max a ∈ a :: t := by
  intro t
  induction t with
  | nil => intro a; simp
  | cons b t ih =>
    intro a
    rw [List.foldl_cons]
    rcases List.mem_cons.1 (ih (max a b)) with h | h
    · rw [h]
      rcases max_choice a b with h | h <;> rw [h] <;> simp
    · exact List.mem_cons_of_mem _ (List.mem_cons_of_mem _ h)

/-- C52.  'Operator count' is the number of agents with a pool, at most the number of pools. -/
theorem C52_operator_count (s : State K) : operatorCount s = (operators s).length ∧ (∀ a, a ∈ operators s ↔ 1 ≤ poolsOf s a) ∧
    (operators s).Nodup ∧ operatorCount s ≤ poolCount s := by
  have h : operatorCount s = (operators s).length := by unfold operatorCount operators; rw [owners_eq]
  refine ⟨h, fun a => mem_operators, List.nodup_dedup _, ?_⟩
  rw [h]
  have := (List.dedup_sublist (s.pools.map (fun e => (s.heap e.2).owner))).length_le
  rw [List.length_map] at this
  exact this

/-- C52.  With pools: 'Max pools per operator' is the largest number of pools of one agent. -/
theorem C52_max {s : State K} (hne : s.pools ≠ []) : ∃ m, maxPoolsPerOperator s = .ok m ∧ (∃ a, poolsOf s a = m) ∧ (∀ a, poolsOf s a ≤ m) ∧
    1 ≤ m ∧ poolCount s ≤ operatorCount s * m := by
  have hperm := counter_vals s
  have hops : operators s ≠ [] := by
    intro h
    obtain ⟨e, he⟩ := List.exists_mem_of_ne_nil _ hne
    have : (s.heap e.2).owner ∈ operators s := List.mem_dedup.2 (List.mem_map.2 ⟨e, he, rfl⟩)
    rw [h] at this; cases this
  unfold maxPoolsPerOperator
  rw [if_neg (by simpa [poolsList] using hne)]
  cases hv : (counter (owners s)).vals with
  | nil =>
    rw [hv] at hperm
    have := hperm.length_eq
    rw [List.length_map] at this
    exact absurd (List.length_eq_zero_iff.1 this.symm) hops
  | cons x t =>
    simp only
    set m := t.foldl max x with hm
    rw [hv] at hperm
    have hmem : m ∈ (operators s).map (poolsOf s) := hperm.mem_iff.1 (nat_foldl_max_mem t x)
    have hle : ∀ y ∈ (operators s).map (poolsOf s), y ≤ m := by
      intro y hy
      rcases List.mem_cons.1 (hperm.mem_iff.2 hy) with rfl | h
      · exact (nat_foldl_max_ge t y).1
      · exact (nat_foldl_max_ge t x).2 y h
    obtain ⟨a, ha, hma⟩ := List.mem_map.1 hmem
    have hall : ∀ b, poolsOf s b ≤ m := by
      intro b
      by_cases hb : b ∈ operators s
      · exact hle _ (List.mem_map.2 ⟨b, hb, rfl⟩)
      · have : ¬ 1 ≤ poolsOf s b := fun h => hb (mem_operators.2 h)
        omega
    refine ⟨m, rfl, ⟨a, hma⟩, hall, ?_, ?_⟩
    · rw [← hma]; exact mem_operators.1 ha
    · rw [(C52_operator_count s).1, poolCount, ← sum_poolsOf s]
      have : ∀ l : List Nat, (∀ y ∈ l, y ≤ m) → l.sum ≤ l.length * m := by
        intro l
        induction l with
        | nil => simp
        | cons y t ih =>
          intro h
          have h1 := h y (by simp)
          have h2 := ih (fun z hz => h z (by simp [hz]))
          rw [List.sum_cons, List.length_cons, Nat.succ_mul]; omega
      have := this _ hle
      rwa [List.length_map] at this

/-- C52.  With pools: 'Average pools per operator' times the number of operators is the number of pools; it is at least 1 and at most the
maximum, and so is 'Median pools per operator'. -/
theorem C52_average_and_median {s : State K} (hne : s.pools ≠ []) : ∃ (m : Nat) (avg med : K), maxPoolsPerOperator s = .ok m ∧
    avgPoolsPerOperator s = .ok avg ∧ medianPoolsPerOperator s = .ok med ∧ avg * (operatorCount s : K) = (poolCount s : K) ∧
    1 ≤ avg ∧ avg ≤ m ∧ 1 ≤ med ∧ med ≤ m := by
  obtain ⟨m, h1, ⟨a, ha⟩, h3, h4, h5⟩ := C52_max hne
  obtain ⟨o1, -, -, o2⟩ := C52_operator_count s
  have hops : operators s ≠ [] := by
    intro h
    obtain ⟨e, he⟩ := List.exists_mem_of_ne_nil _ hne
    have : (s.heap e.2).owner ∈ operators s := List.mem_dedup.2 (List.mem_map.2 ⟨e, he, rfl⟩)
    rw [h] at this; cases this
  have hopos : (0 : K) < (operatorCount s : K) := by
    rw [o1]; exact_mod_cast List.length_pos_iff.2 hops
  have hlen : (poolsList s).length = poolCount s := by simp [poolsList, poolCount]
  have hvals : (counter (owners s)).vals.map (fun n : Nat => (n : K)) ≠ [] := by
    intro h
    have := (counter_vals s).length_eq
    rw [List.map_eq_nil_iff.1 h, List.length_map] at this
    exact hops (List.length_eq_zero_iff.1 this.symm)
  obtain ⟨med, m1, -, -, m2⟩ := medianOf_spec hvals
  have hmed := m2 1 (m : K) (by
    intro x hx
    obtain ⟨n, hn, rfl⟩ := List.mem_map.1 hx
    obtain ⟨b, hb, rfl⟩ := List.mem_map.1 ((counter_vals s).mem_iff.1 hn)
    constructor
    · exact_mod_cast mem_operators.1 hb
    · exact_mod_cast h3 b)
  refine ⟨m, (poolCount s : K) / (operatorCount s : K), med, h1, ?_, ?_, div_mul_cancel₀ _ hopos.ne', ?_, ?_, hmed.1, hmed.2⟩
  · unfold avgPoolsPerOperator
    rw [if_neg (by simpa [poolsList] using hne), pyDiv, if_neg (show ((owners s).dedup.length : K) ≠ 0 from hopos.ne'), hlen]
    rfl
  · unfold medianPoolsPerOperator
    rw [if_neg (by simpa [poolsList] using hne)]
    exact m1
  · rw [one_le_div hopos]; exact_mod_cast o2
  · rw [div_le_iff₀ hopos, mul_comm]; exact_mod_cast h5

/-- C52.  'Number of pool splitters' is the number of agents with at least two pools; at most the number of operators, and 0 exactly if no
agent has more than one pool. -/
theorem C52_splitters (s : State K) : splitterCount s = (operators s).countP (fun a => decide (2 ≤ poolsOf s a)) ∧
    splitterCount s ≤ operatorCount s ∧ (splitterCount s = 0 ↔ ∀ a, poolsOf s a ≤ 1) := by
  have h1 : splitterCount s = (operators s).countP (fun a => decide (2 ≤ poolsOf s a)) := by
    unfold splitterCount
    split
    · rename_i h
      have : s.pools = [] := by simpa [poolsList] using h
      simp [operators, this]
    · have h2 : ((counter (owners s)).filter (fun e => decide (e.2 > 1))).length = (counter (owners s)).vals.countP (fun n => decide (n > 1)) := by
        rw [← List.countP_eq_length_filter, Dict.vals, List.countP_map]; rfl
      rw [h2, (counter_vals s).countP_eq, List.countP_map]
      rfl
  refine ⟨h1, ?_, ?_⟩
  · rw [h1, (C52_operator_count s).1]; exact List.countP_le_length
  · rw [h1, List.countP_eq_zero]
    constructor
    · intro h a
      by_cases ha : a ∈ operators s
      · have := h a ha
        simp only [decide_eq_true_eq] at this
        omega
      · have : ¬ 1 ≤ poolsOf s a := fun h => ha (mem_operators.2 h)
        omega
    · intro h a _
      have := h a
      simp only [decide_eq_true_eq]
      omega

/-- C52.  Without pools everything is 0. -/
theorem C52_no_pools {s : State K} (h : s.pools = []) : operatorCount s = 0 ∧ avgPoolsPerOperator s = .ok 0 ∧ maxPoolsPerOperator s = .ok 0 ∧
    medianPoolsPerOperator s = .ok 0 ∧ splitterCount s = 0 := by
  simp [operatorCount, owners, avgPoolsPerOperator, maxPoolsPerOperator, medianPoolsPerOperator, splitterCount, poolsList, h]

/-! ### C54 -/

/-- how many agents come before agent `a` when agents are ordered by `f`, highest first, then by id -/
def placeBy (f : Agent K → K) (s : State K) (ag : Agent K) (a : Nat) : Nat :=
  1 + s.agents.countP (fun e => decide (f ag < f e.2 ∨ (f e.2 = f ag ∧ e.1 < a)))

theorem countP_range' (n i : Nat) (h1 : 1 ≤ i) (h2 : i ≤ n + 1) : (List.range' 1 n).countP (fun x => decide (x < i)) = i - 1 := by
  obtain ⟨j, rfl⟩ : ∃ j, n = (i - 1) + j := ⟨n - (i - 1), by omega⟩
  rw [← List.range'_append_1, List.countP_append, List.countP_eq_length.2, List.countP_eq_zero.2]
  · simp
  · intro x hx
    rw [List.mem_range'_1] at hx
    simp only [decide_eq_true_eq]; omega
  · intro x hx
    rw [List.mem_range'_1] at hx
    simp only [decide_eq_true_eq]; omega

theorem get?_agents_map {s : State K} (f : Agent K → K) (a : Nat) :
    Dict.get? (s.agents.map (fun e => (e.1, f e.2))) a = (s.agents.get? a).map f := by
  induction s.agents with
  | nil => rfl
  | cons e t ih =>
    rw [List.map_cons, Dict.get?_cons]
    obtain ⟨k, v⟩ := e
    rw [Dict.get?_cons]
    split
    · rfl
    · exact ih

/-- the ranks that the metrics look up: an agent's place in the ordering -/
theorem ranks_are_places {s : State K} (hn : s.agents.keys.Nodup) (f : Agent K → K) :
    ∃ ranks, calculateRanks (s.agents.map (fun e => (e.1, f e.2))) [] true = .ok ranks ∧
      ∀ a ag, s.agents.get? a = some ag → ranks.get? a = some (placeBy f s ag a) ∧ 1 ≤ placeBy f s ag a ∧ placeBy f s ag a ≤ s.agents.length := by
  classical
  set d : Dict K := s.agents.map (fun e => (e.1, f e.2)) with hd
  have hk : Dict.keys d = s.agents.keys := by simp [hd, Dict.keys, Function.comp_def]
  obtain ⟨ranks, h1, h2, h3, h4⟩ := C14_ranks d [] (by rw [hk]; exact hn) (by simp)
  have hrn : ranks.keys.Nodup := by rw [h2.nodup_iff, hk]; exact hn
  refine ⟨ranks, h1, fun a ag ha => ?_⟩
  have hak : a ∈ ranks.keys := by rw [h2.mem_iff, hk]; exact Dict.mem_keys_of_get? ha
  obtain ⟨i, hi⟩ := Dict.mem_keys_iff.1 hak
  have hi' : i ∈ List.range' 1 d.length := by
    rw [← h3]; exact List.mem_map.2 ⟨(a, i), Dict.mem_of_get? hi, rfl⟩
  rw [List.mem_range'_1] at hi'
  have hdl : d.length = s.agents.length := by simp [hd]
  have hcount : ranks.countP (fun e => decide (e.2 < i)) = i - 1 := by
    rw [← countP_range' d.length i (by omega) (by omega), ← h3, Dict.vals, List.countP_map]
    rfl
  have hplace : placeBy f s ag a = i := by
    unfold placeBy
    have e1 : s.agents.countP (fun e => decide (f ag < f e.2 ∨ (f e.2 = f ag ∧ e.1 < a))) =
        s.agents.keys.countP (fun b => decide (RankBefore [d] b a)) := by
      rw [Dict.keys, List.countP_map]
      refine List.countP_congr (fun e he => ?_)
      have hb : Dict.get? d e.1 = some (f e.2) := by
        rw [hd, get?_agents_map, Dict.get?_of_mem hn he]; rfl
      have haa : Dict.get? d a = some (f ag) := by rw [hd, get?_agents_map, ha]; rfl
      simp only [Function.comp_apply, decide_eq_true_eq, RankBefore, hb, haa, Option.some.injEq]
      constructor
      · rintro (h | h)
        · exact ⟨_, _, rfl, rfl, Or.inl h⟩
        · exact ⟨_, _, rfl, rfl, Or.inr h⟩
      · rintro ⟨x, y, rfl, rfl, h⟩
        exact h
    have e2 : s.agents.keys.countP (fun b => decide (RankBefore [d] b a)) = ranks.countP (fun e => decide (e.2 < i)) := by
      rw [← hk, ← h2.countP_eq, Dict.keys, List.countP_map]
      refine List.countP_congr (fun e he => ?_)
      simp only [Function.comp_apply, decide_eq_true_eq]
      exact (h4 e.1 a e.2 i (Dict.get?_of_mem hrn he) hi).symm
    rw [e1, e2, hcount]; omega
  rw [hplace]
  exact ⟨hi, by omega, by omega⟩

/-- the places of the pools' owners, pool by pool -/
def ownerPlaces (f : Agent K → K) (s : State K) : List ℚ :=
  s.pools.filterMap (fun e => (s.agents.get? (s.heap e.2).owner).map (fun ag => (placeBy f s ag (s.heap e.2).owner : ℚ)))

theorem ownerRanks_ok {s : State K} (h : Owned s) (f : Agent K → K) {ranks : Dict Nat}
    (hr : ∀ a ag, s.agents.get? a = some ag → ranks.get? a = some (placeBy f s ag a)) : ownerRanks ranks s = .ok (ownerPlaces f s) := by
  unfold ownerRanks ownerPlaces poolsList
  have hown := h.owner
  generalize s.pools = l at hown ⊢
  induction l with
  | nil => rfl
  | cons e t ih =>
    obtain ⟨ag, hag⟩ := Dict.mem_keys_iff.1 (hown e (by simp))
    have ih' := ih (fun e he => hown e (by simp [he]))
    simp only [bind, Except.bind] at ih' ⊢
    rw [List.map_cons, List.mapM_cons, ih', Dict.getE_of (hr _ _ hag)]
    rw [List.filterMap_cons_some (b := (placeBy f s ag (s.heap e.2).owner : ℚ)) (by rw [hag]; rfl)]
    rfl

theorem ownerPlaces_mem {s : State K} (h : Owned s) (f : Agent K → K) : ∀ x ∈ ownerPlaces f s, 1 ≤ x ∧ x ≤ (s.agents.length : ℚ) := by
  intro x hx
  obtain ⟨e, he, hx⟩ := List.mem_filterMap.1 hx
  obtain ⟨ag, hag, rfl⟩ := Option.map_eq_some_iff.1 hx
  obtain ⟨ranks, -, h2⟩ := ranks_are_places h.nodup f
  obtain ⟨-, h3, h4⟩ := h2 _ _ hag
  exact ⟨by exact_mod_cast h3, by exact_mod_cast h4⟩

theorem ownerPlaces_length {s : State K} (h : Owned s) (f : Agent K → K) : (ownerPlaces f s).length = s.pools.length := by
  unfold ownerPlaces
  have hown := h.owner
  generalize s.pools = l at hown ⊢
  induction l with
  | nil => rfl
  | cons e t ih =>
    obtain ⟨ag, hag⟩ := Dict.mem_keys_iff.1 (hown e (by simp))
    rw [List.filterMap_cons_some (b := (placeBy f s ag (s.heap e.2).owner : ℚ)) (by rw [hag]; rfl), List.length_cons, List.length_cons,
      ih (fun e he => hown e (by simp [he]))]

theorem rankStatistic_ok {s : State K} (h : Owned s) (hne : s.pools ≠ []) (f : Agent K → K) {stat : List ℚ → Py ℚ} {x : ℚ}
    (hx : stat (ownerPlaces f s) = .ok x) (hr : 1 ≤ x ∧ x ≤ (s.agents.length : ℚ)) :
    ∃ r, rankStatistic stat (calculateRanks (s.agents.map (fun e => (e.1, f e.2))) [] true) s = .ok r ∧ r = roundHalfEven x ∧ 1 ≤ r ∧ r ≤ s.agents.length := by
  obtain ⟨ranks, h1, h2⟩ := ranks_are_places h.nodup f
  have h3 := ownerRanks_ok h f (fun a ag ha => (h2 a ag ha).1)
  refine ⟨roundHalfEven x, ?_, rfl, roundHalfEven_mem (a := 1) (b := (s.agents.length : Int)) (by exact_mod_cast hr.1) (by exact_mod_cast hr.2)⟩
  unfold rankStatistic
  rw [h1]
  simp only [bind, Except.bind, h3]
  rw [if_pos (by rw [ownerPlaces_length h f]; exact List.length_pos_iff.2 hne), hx]
  rfl

/-- the rounding of the metrics: to the nearest integer, ties to the even one -/
theorem C54_rounding (q : ℚ) : |q - roundHalfEven q| ≤ 1 / 2 ∧ (|q - roundHalfEven q| = 1 / 2 → roundHalfEven q % 2 = 0) := by
  have h1 := Int.floor_le q
  have h2 := Int.lt_floor_add_one q
  unfold roundHalfEven
  simp only
  split
  · rename_i h
    refine ⟨?_, fun he => ?_⟩
    · rw [abs_le]; constructor <;> linarith
    · rw [abs_of_nonneg (by linarith)] at he; linarith
  · rename_i h
    split
    · rename_i h'
      push_cast
      refine ⟨?_, fun he => ?_⟩
      · rw [abs_le]; constructor <;> linarith
      · rw [abs_of_nonpos (by linarith)] at he; linarith
    · rename_i h'
      have heq : q - ⌊q⌋ = 1 / 2 := le_antisymm (not_lt.1 h') (not_lt.1 h)
      split
      · rename_i h0
        exact ⟨by rw [heq]; norm_num, fun _ => h0⟩
      · rename_i h0
        push_cast
        refine ⟨?_, fun _ => by omega⟩
        rw [abs_le]; constructor <;> linarith

/-- C54.  With pools: the mean and median ranks of the pool owners are the rounded means and medians of their places among the agents
(by stake, or by cost with the cheapest first; ties by id), and lie between 1 and the number of agents. -/
theorem C54_ranks {s : State K} (h : Owned s) (hne : s.pools ≠ []) :
    ∃ (r₁ r₂ r₃ r₄ : Int) (x₁ x₂ x₃ x₄ : ℚ),
      avgStakeRank s = .ok r₁ ∧ avgCostRank s = .ok r₂ ∧ medianStakeRank s = .ok r₃ ∧ medianCostRank s = .ok r₄ ∧
      meanOf (ownerPlaces (fun ag => ag.stake) s) = .ok x₁ ∧ meanOf (ownerPlaces (fun ag => -ag.cost) s) = .ok x₂ ∧
      medianOf (ownerPlaces (fun ag => ag.stake) s) = .ok x₃ ∧ medianOf (ownerPlaces (fun ag => -ag.cost) s) = .ok x₄ ∧
      r₁ = roundHalfEven x₁ ∧ r₂ = roundHalfEven x₂ ∧ r₃ = roundHalfEven x₃ ∧ r₄ = roundHalfEven x₄ ∧
      ∀ r, r = r₁ ∨ r = r₂ ∨ r = r₃ ∨ r = r₄ → 1 ≤ r ∧ r ≤ s.agents.length := by
  have hnn : ∀ f : Agent K → K, ownerPlaces f s ≠ [] := by
    intro f h0
    have := ownerPlaces_length h f
    rw [h0] at this
    exact hne (List.length_eq_zero_iff.1 this.symm)
  have mean : ∀ f : Agent K → K, _ := fun f => meanOf_spec (hnn f)
  have med : ∀ f : Agent K → K, _ := fun f => medianOf_spec (hnn f)
  obtain ⟨x₁, a1, -, a2⟩ := mean (fun ag => ag.stake)
  obtain ⟨x₂, b1, -, b2⟩ := mean (fun ag => -ag.cost)
  obtain ⟨x₃, c1, -, -, c2⟩ := med (fun ag => ag.stake)
  obtain ⟨x₄, d1, -, -, d2⟩ := med (fun ag => -ag.cost)
  obtain ⟨r₁, a3, a4, a5⟩ := rankStatistic_ok h hne _ a1 (a2 1 _ (ownerPlaces_mem h _))
  obtain ⟨r₂, b3, b4, b5⟩ := rankStatistic_ok h hne _ b1 (b2 1 _ (ownerPlaces_mem h _))
  obtain ⟨r₃, c3, c4, c5⟩ := rankStatistic_ok h hne _ c1 (c2 1 _ (ownerPlaces_mem h _))
  obtain ⟨r₄, d3, d4, d5⟩ := rankStatistic_ok h hne _ d1 (d2 1 _ (ownerPlaces_mem h _))
  refine ⟨r₁, r₂, r₃, r₄, x₁, x₂, x₃, x₄, a3, b3, c3, d3, a1, b1, c1, d1, a4, b4, c4, d4, ?_⟩
  rintro r (rfl | rfl | rfl | rfl)
  · exact a5
  · exact b5
  · exact c5
  · exact d5

/-- C54.  Without pools they are 0. -/
theorem C54_no_pools {s : State K} (hn : s.agents.keys.Nodup) (h : s.pools = []) :
    avgStakeRank s = .ok 0 ∧ avgCostRank s = .ok 0 ∧ medianStakeRank s = .ok 0 ∧ medianCostRank s = .ok 0 := by
  obtain ⟨r1, h1, -⟩ := ranks_are_places hn (fun ag => ag.stake)
  obtain ⟨r2, h2, -⟩ := ranks_are_places hn (fun ag => -ag.cost)
  unfold avgStakeRank avgCostRank medianStakeRank medianCostRank rankStatistic stakeRanks costRanks ownerRanks poolsList
  rw [h1, h2, h]
  exact ⟨rfl, rfl, rfl, rfl⟩

/-- the demo state has three pools of agents 0, 1 and 3, whose places by stake are 3, 4 and 2 -/
example : ∃ s, ReachableSinglePhase (demo false) s ∧ Owned s ∧ s.pools ≠ [] ∧ ownerPlaces (fun ag => ag.stake) s = [3, 4, 2] ∧
    avgStakeRank s = .ok 3 ∧ maxPoolsPerOperator s = .ok 1 := by
  have key : (iterM exec (initState (demo false)) (demoRound ++ demoRound)).toOption.map
      (fun s => decide (s.pools ≠ [] ∧ ownerPlaces (fun ag => ag.stake) s = [3, 4, 2] ∧ (avgStakeRank s).toOption = some 3 ∧
        (maxPoolsPerOperator s).toOption = some 1)) = some true := by decide +kernel
  obtain ⟨s, hs, hv⟩ := reachable_of_run (demoRounds_valid) key
  obtain ⟨h1, h2, h3, h4⟩ := of_decide_eq_true hv
  exact ⟨s, hs, owned_of_reachable (Reachable.of_single hs), h1, h2, toOption_ok h3, toOption_ok h4⟩

end RSE.Props
