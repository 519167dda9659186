import Verif.Props.Table
import Verif.Props.Averages

/-!
# C91: every metric is what its number and its name say
-/

set_option linter.unusedSectionVars false

namespace RSE.Props

variable {K : Type} [Field K] [LinearOrder K] [IsStrictOrderedRing K]

/-! ### The meaning of the 30 metrics

`pools f s` are the values of the open pools, pool by pool.  Every metric about pools is 0 if there are none. -/

/-- the values of an attribute of the open pools -/
def poolValues (f : Pool K → K) (s : State K) : List K := s.pools.map (fun e => f (s.heap e.2))

/-- the mean of a list, 0 if it is empty -/
def MeanIs (l : List K) (x : K) : Prop := (l = [] → x = 0) ∧ x * (l.length : K) = l.sum

/-- the median of a list (the middle value, or the number half way between the two middle values, of the sorted list), 0 if it is empty -/
def MedianIs (l : List K) (x : K) : Prop := (l = [] → x = 0) ∧ (l ≠ [] → ∃ sorted : List K, sorted.Perm l ∧ sorted.Pairwise (· ≤ ·) ∧
  ∃ a ∈ sorted[(l.length - 1) / 2]?, ∃ b ∈ sorted[l.length / 2]?, x + x = a + b)

/-- the maximum of a list, 0 if it is empty -/
def MaxIs {α : Type} [LinearOrder α] [Zero α] (l : List α) (x : α) : Prop := (l = [] → x = 0) ∧ (l ≠ [] → x ∈ l ∧ ∀ y ∈ l, y ≤ x)

/-- half the relative mean absolute difference of a list, -1 if its sum is 0 -/
def GiniIs (l : List K) (x : K) : Prop := (l.sum = 0 → x = -1) ∧
  (l.sum ≠ 0 → x * (2 * (l.length : K) * l.sum) = (l.map (fun a => (l.map (fun b => |a - b|)).sum)).sum)

/-- `r` is `q` rounded to the nearest integer (of two, the even one) -/
def RoundedIs (q : ℚ) (r : Int) : Prop := |q - r| ≤ 1 / 2 ∧ (|q - r| = 1 / 2 → r % 2 = 0)

/-- the name and the meaning of each metric, in the order of the numbers from 1 to 30 -/
def meanings (env : MetricEnv K) (s : State K) : List (String × (MetricValue K → Prop)) :=
  [("Pool count", fun v => v = .nat s.pools.length),
   ("Total pledge", fun v => v = .num (poolValues (fun p => p.pledge) s).sum),
   ("Mean pledge", fun v => ∃ x, v = .num x ∧ MeanIs (poolValues (fun p => p.pledge) s) x),
   ("Median pledge", fun v => ∃ x, v = .num x ∧ MedianIs (poolValues (fun p => p.pledge) s) x),
   ("Average pools per operator", fun v => ∃ x, v = .num x ∧ MeanIs ((operators s).map (fun a => (poolsOf s a : K))) x),
   ("Max pools per operator", fun v => ∃ m, v = .nat m ∧ MaxIs ((operators s).map (poolsOf s)) m),
   ("Median pools per operator", fun v => ∃ x, v = .num x ∧ MedianIs ((operators s).map (fun a => (poolsOf s a : K))) x),
   ("Average saturation rate", fun v => ∃ x, v = .num x ∧ MeanIs (poolValues (fun p => p.stake / s.rs.sat p.pledge) s) x),
   ("Nakamoto coefficient", fun v => ∃ n, v = .nat n ∧ (s.pools = [] → n = 0) ∧
     (s.pools ≠ [] → IsNakamoto s.agents.keys (controls s) (inPools s) n)),
   ("Statistical distance", fun v => ∃ x, v = .num x ∧ (s.pools = [] → x = 0) ∧
     (s.pools ≠ [] → x + x = (s.agents.map (fun e => |controls s e.1 - e.2.stake|)).sum)),
   ("Min-aggregate pledge", fun v => ∃ x, v = .num x),
   ("Pledge rate", fun v => ∃ x, v = .num x ∧ (s.pools = [] → x = 0) ∧
     x * (poolValues (fun p => p.stake) s).sum = (poolValues (fun p => p.pledge) s).sum),
   ("Pool homogeneity factor", fun v => ∃ x m, v = .num x ∧ MaxIs (poolValues (fun p => p.stake) s) m ∧ (s.pools = [] → x = 0) ∧
     x * ((s.pools.length : K) * m) = (poolValues (fun p => p.stake) s).sum),
   ("Iterations", fun v => v = .nat env.steps),
   ("Mean stake rank", fun v => ∃ q r, v = .int r ∧ RoundedIs q r ∧ MeanIs (ownerPlaces (fun ag => ag.stake) s) q),
   ("Mean cost rank", fun v => ∃ q r, v = .int r ∧ RoundedIs q r ∧ MeanIs (ownerPlaces (fun ag => -ag.cost) s) q),
   ("Median stake rank", fun v => ∃ q r, v = .int r ∧ RoundedIs q r ∧ MedianIs (ownerPlaces (fun ag => ag.stake) s) q),
   ("Median cost rank", fun v => ∃ q r, v = .int r ∧ RoundedIs q r ∧ MedianIs (ownerPlaces (fun ag => -ag.cost) s) q),
   ("Number of pool splitters", fun v => v = .nat ((operators s).countP (fun a => decide (2 ≤ poolsOf s a)))),
   ("Cost efficient stakeholders", fun v =>
     v = .nat (s.agents.countP (fun e => decide (e.2.cost < s.rs.reward e.2.stake (s.rs.sat e.2.stake))))),
   ("StakePairs", fun v => ∃ p, v = .pairs p ∧ p.x.map some = s.pools.map (fun e => (s.agents.get? (s.heap e.2).owner).map (fun ag => ag.stake)) ∧
     p.y = poolValues (fun p => p.stake) s ∧ p.r = poolValues (fun p => p.margin) s ∧ p.poolId = s.pools.map (fun e => (s.heap e.2).id) ∧
     p.ownerId = s.pools.map (fun e => (s.heap e.2).owner)),
   ("Gini-id", fun v => ∃ x, v = .num x ∧ GiniIs ((operators s).map (fun a => (poolsOf s a : K))) x),
   ("Gini-id stake", fun v => ∃ x, v = .num x ∧ GiniIs ((operators s).map (controls s)) x),
   ("Mean margin", fun v => ∃ x, v = .num x ∧ MeanIs (poolValues (fun p => p.margin) s) x),
   ("Median margin", fun v => ∃ x, v = .num x ∧ MedianIs (poolValues (fun p => p.margin) s) x),
   ("Stake per agent", fun v => v = .nums ((List.range s.agents.length).map (controls s))),
   ("Stake per agent id", fun v => v = .dict ((List.range s.agents.length).map (fun a => (a, controls s a)))),
   ("Total delegated stake", fun v => v = .num (poolValues (fun p => p.stake) s).sum),
   ("Total agent stake", fun v => v = .num (s.agents.map (fun e => e.2.stake)).sum),
   ("Operator count", fun v => v = .nat (operators s).length)]

/-! ### The reporters have these meanings -/

theorem meanOf_means {l : List K} (hne : l ≠ []) : ∃ x, meanOf l = .ok x ∧ MeanIs l x := by
  obtain ⟨x, h1, h2, -⟩ := meanOf_spec hne
  exact ⟨x, h1, fun h => absurd h hne, h2⟩

theorem medianOf_means {l : List K} (hne : l ≠ []) : ∃ x, medianOf l = .ok x ∧ MedianIs l x := by
  have hp := List.perm_insertionSort (· ≤ ·) l
  have hlen := hp.length_eq
  have hpos : 0 < l.length := List.length_pos_iff.2 hne
  suffices ∃ x, medianOf l = .ok x ∧ ∃ a ∈ (l.insertionSort (· ≤ ·))[(l.length - 1) / 2]?, ∃ b ∈ (l.insertionSort (· ≤ ·))[l.length / 2]?, x + x = a + b by
    obtain ⟨x, h1, h2⟩ := this
    exact ⟨x, h1, fun h => absurd h hne, fun _ => ⟨_, hp, sorted_asc l, h2⟩⟩
  unfold medianOf
  simp only [hlen]
  rw [if_neg (by omega)]
  by_cases hodd : l.length % 2 = 1
  · rw [if_pos hodd]
    have e : (l.length - 1) / 2 = l.length / 2 := by omega
    rw [e, List.getElem?_eq_getElem (by omega)]
    exact ⟨_, rfl, _, rfl, _, rfl, rfl⟩
  · rw [if_neg hodd]
    have e : (l.length - 1) / 2 = l.length / 2 - 1 := by omega
    rw [e, List.getElem?_eq_getElem (by omega), List.getElem?_eq_getElem (by omega)]
    refine ⟨_, rfl, _, rfl, _, rfl, ?_⟩
    rw [two_cast]
    ring

theorem MedianIs.perm {l l' : List K} {x : K} (h : l.Perm l') (hm : MedianIs l x) : MedianIs l' x := by
  refine ⟨fun h' => hm.1 (by subst h'; exact h.eq_nil), fun h' => ?_⟩
  obtain ⟨d, h1, h2, h3⟩ := hm.2 (fun h0 => h' (by subst h0; exact h.symm.eq_nil))
  rw [h.length_eq] at h3
  exact ⟨d, h1.trans h, h2, h3⟩

theorem MeanIs.nil : MeanIs ([] : List K) 0 := ⟨fun _ => rfl, by simp⟩

theorem MedianIs.nil : MedianIs ([] : List K) 0 := ⟨fun _ => rfl, fun h => absurd rfl h⟩

theorem gini_means (l : List K) : ∃ x, giniCoefficient l = .ok x ∧ GiniIs l x := by
  by_cases h : l.sum = 0
  · exact ⟨_, C48_zero_sum h, fun _ => rfl, fun h' => absurd h h'⟩
  · refine ⟨_, C48_relative_mean_difference h, fun h' => absurd h' h, fun _ => ?_⟩
    have hl : (l.length : K) ≠ 0 := by
      intro h0
      have : l.length = 0 := by exact_mod_cast h0
      rw [List.length_eq_zero_iff] at this
      rw [this] at h
      exact h (by simp)
    change _ = pairDiffs l
    field_simp

theorem poolValues_eq (f : Pool K → K) (s : State K) : (poolsList s).map f = poolValues f s := map_poolsList s f

theorem poolValues_nil {f : Pool K → K} {s : State K} : poolValues f s = [] ↔ s.pools = [] := by simp [poolValues]

theorem mean_metric (f : Pool K → K) (s : State K) :
    ∃ x, (if ((poolsList s).map f).length > 0 then meanOf ((poolsList s).map f) else .ok 0) = .ok x ∧ MeanIs (poolValues f s) x := by
  rw [poolValues_eq]
  by_cases h : poolValues f s = []
  · rw [h]; exact ⟨0, rfl, MeanIs.nil⟩
  · rw [if_pos (List.length_pos_iff.2 h)]; exact meanOf_means h

theorem median_metric (f : Pool K → K) (s : State K) :
    ∃ x, (if ((poolsList s).map f).length > 0 then medianOf ((poolsList s).map f) else .ok 0) = .ok x ∧ MedianIs (poolValues f s) x := by
  rw [poolValues_eq]
  by_cases h : poolValues f s = []
  · rw [h]; exact ⟨0, rfl, MedianIs.nil⟩
  · rw [if_pos (List.length_pos_iff.2 h)]; exact medianOf_means h

theorem operators_nil {s : State K} : operators s = [] ↔ s.pools = [] := by
  constructor
  · intro h
    by_contra hne
    obtain ⟨e, he⟩ := List.exists_mem_of_ne_nil _ hne
    have : (s.heap e.2).owner ∈ operators s := List.mem_dedup.2 (List.mem_map.2 ⟨e, he, rfl⟩)
    rw [h] at this; cases this
  · intro h; simp [operators, h]

theorem cast_natSum (l : List Nat) : ((l.sum : Nat) : K) = (l.map (fun n : Nat => (n : K))).sum := by
  induction l with
  | nil => simp
  | cons a l ih => simp [ih]

theorem operators_metric (s : State K) :
    (∃ x, avgPoolsPerOperator s = .ok x ∧ MeanIs ((operators s).map (fun a => (poolsOf s a : K))) x) ∧
    (∃ m, maxPoolsPerOperator s = .ok m ∧ MaxIs ((operators s).map (poolsOf s)) m) ∧
    (∃ x, medianPoolsPerOperator s = .ok x ∧ MedianIs ((operators s).map (fun a => (poolsOf s a : K))) x) := by
  by_cases hne : s.pools = []
  · obtain ⟨-, b1, b2, b3, -⟩ := C52_no_pools hne
    rw [operators_nil.2 hne]
    exact ⟨⟨0, b1, MeanIs.nil⟩, ⟨0, b2, fun _ => rfl, fun h => absurd rfl h⟩, ⟨0, b3, MedianIs.nil⟩⟩
  · have hops : operators s ≠ [] := fun h => hne (operators_nil.1 h)
    obtain ⟨_, avg, _, -, h2, -, h4, -⟩ := C52_average_and_median (s := s) hne
    obtain ⟨m, g1, ⟨a, g2⟩, g3, g4, -⟩ := C52_max (s := s) hne
    refine ⟨⟨avg, h2, fun h => absurd (List.map_eq_nil_iff.1 h) hops, ?_⟩, ⟨m, g1, fun h => absurd (List.map_eq_nil_iff.1 h) hops, fun _ => ⟨?_, ?_⟩⟩, ?_⟩
    · rw [List.length_map, ← (C52_operator_count s).1, h4]
      have := sum_poolsOf s
      rw [poolCount, ← this, cast_natSum, List.map_map]
      rfl
    · exact List.mem_map.2 ⟨a, mem_operators.2 (by omega), g2⟩
    · intro y hy
      obtain ⟨b, -, rfl⟩ := List.mem_map.1 hy
      exact g3 b
    · have hperm : ((counter (owners s)).vals.map (fun n : Nat => (n : K))).Perm ((operators s).map (fun a => (poolsOf s a : K))) := by
        have := (counter_vals s).map (fun n : Nat => (n : K))
        rwa [List.map_map] at this
      have hv : (counter (owners s)).vals.map (fun n : Nat => (n : K)) ≠ [] := by
        intro h
        rw [h] at hperm
        exact hops (List.map_eq_nil_iff.1 hperm.symm.eq_nil)
      obtain ⟨x, h1, h2⟩ := medianOf_means hv
      refine ⟨x, ?_, h2.perm hperm⟩
      unfold medianPoolsPerOperator
      rw [if_neg (by simpa [poolsList] using hne)]
      exact h1

theorem rank_metric {s : State K} (h : Owned s) (f : Agent K → K) {stat : List ℚ → Py ℚ} {P : List ℚ → ℚ → Prop} (h0 : P [] 0)
    (hs : ∀ {l : List ℚ}, l ≠ [] → ∃ x, stat l = .ok x ∧ P l x) :
    ∃ r, rankStatistic stat (calculateRanks (s.agents.map (fun e => (e.1, f e.2))) [] true) s = .ok r ∧ ∃ q, RoundedIs q r ∧ P (ownerPlaces f s) q := by
  obtain ⟨ranks, h1, h2⟩ := ranks_are_places h.nodup f
  have h3 := ownerRanks_ok h f (fun a ag ha => (h2 a ag ha).1)
  unfold rankStatistic
  rw [h1]
  simp only [bind, Except.bind, h3]
  by_cases hn : ownerPlaces f s = []
  · rw [hn]
    exact ⟨0, rfl, 0, by simp [RoundedIs], h0⟩
  · obtain ⟨x, g1, g2⟩ := hs hn
    rw [if_pos (List.length_pos_iff.2 hn), g1]
    exact ⟨roundHalfEven x, rfl, x, C54_rounding x, g2⟩

/-- C91.  Meanings are given for all numbers from 1 to 30, and other numbers stand for no metric. -/
theorem C91_all (env : MetricEnv K) (s : State K) : (meanings env s).length = 30 ∧ ∀ i, (∃ name, reporterName i = .ok name) ↔ 1 ≤ i ∧ i ≤ 30 := by
  refine ⟨rfl, fun i => ⟨?_, ?_⟩⟩
  · rintro ⟨name, h⟩
    by_contra hn
    have : reporterIds.lookup i = none := by
      rw [List.lookup_eq_none_iff]
      intro e he
      simp only [ne_eq, bne_iff_ne]
      rintro rfl
      have : ∀ e ∈ reporterIds, 1 ≤ e.1 ∧ e.1 ≤ 30 := by decide
      exact hn (this e he)
    unfold reporterName at h
    rw [this] at h
    cases h
  · rintro ⟨h1, h2⟩
    have : ∀ i : Fin 31, 1 ≤ i.1 → (reporterIds.lookup i.1).isSome = true := by decide
    have := this ⟨i, by omega⟩ h1
    obtain ⟨name, hn⟩ := Option.isSome_iff_exists.1 this
    exact ⟨name, by unfold reporterName; simp only at hn; rw [hn]⟩

/-- C91.  In every state that a simulation with positive stakes can reach (as in C74), metric number `i` has the `i`-th name and the `i`-th meaning.  (Of the
eleventh one, which an external solver computes, only that it is a number.) -/
theorem C91_meaning {c : Config K} {s : State K} (h : Reachable c s) (h0 : ∀ e ∈ c.people, 0 < e.1) (hb : 0 < c.rs.beta)
    (hcip : s.rs.scheme = .cip50 → 0 < s.rs.a0) (env : MetricEnv K) (hn : env.n = c.people.length) :
    ∀ (i : Nat) (name : String) (P : MetricValue K → Prop), (meanings env s)[i]? = some (name, P) →
      reporterName (i + 1) = .ok name ∧ ∃ v, reportColumn env s name = .ok v ∧ P v := by
  have ho := owned_of_reachable h
  have hg := h.good minUnit_pos
  have hpool := C50_reachable h h0 hb
  have hlen : s.agents.length = env.n := by rw [hn]; exact agents_length h
  have hown : ∀ e ∈ s.pools, (s.heap e.2).owner < env.n := by rw [hn]; exact C49_reachable h
  have hag : ∀ e ∈ s.agents, 0 ≤ e.2.stake := by
    intro e he
    have := hg.person (Dict.get?_of_mem hg.inv.core.agentsNodup he)
    exact (h0 _ (List.mem_of_getElem? this)).le
  have hpos : s.pools ≠ [] → 0 < inPools s := by
    intro hne
    have : ∀ x ∈ s.pools.map (fun e => (s.heap e.2).stake), 0 < x := by
      intro x hx; obtain ⟨e, he, rfl⟩ := List.mem_map.1 hx; exact hpool e he
    exact List.sum_pos _ this (by simpa using hne)
  obtain ⟨⟨av, o1, o1'⟩, ⟨mx, o2, o2'⟩, ⟨md, o3, o3'⟩⟩ := operators_metric s
  obtain ⟨l, l1, l2, l3, -⟩ := C49_stake_per_agent hown
  obtain ⟨l', q1, q2⟩ := C49_stake_per_agent_id hown
  rw [l1] at q1
  cases q1
  have hl : l = (List.range s.agents.length).map (controls s) := by
    apply List.ext_getElem? 
    intro j
    by_cases hj : j < env.n
    · rw [l3 j hj, List.getElem?_map, List.getElem?_range (by omega)]; rfl
    · rw [List.getElem?_eq_none (by omega), List.getElem?_eq_none (by simp; omega)]
  have sat : ∃ x, avgSatRate s = .ok x ∧ MeanIs (poolValues (fun p => p.stake / s.rs.sat p.pledge) s) x := by
    by_cases hne : s.pools = []
    · exact ⟨0, (C70_no_pools hne).2.2.2.2, by rw [poolValues_nil.2 hne]; exact MeanIs.nil⟩
    · have hbeta := (h.shaped (fun e he => (h0 e he).le) hb).1
      obtain ⟨x, a5, a6⟩ := (C70_saturation (s := s) hne).2 (by
        rintro ⟨e, he, hz⟩
        have hp := h.pledge_pos h0 hb (Dict.get?_of_mem hg.inv.core.poolsNodup he)
        unfold RS.sat at hz
        split at hz
        · rename_i hs
          exact absurd hz (lt_min (mul_pos (hcip hs) hp) hbeta).ne'
        · exact hbeta.ne' hz)
      exact ⟨x, a5, fun h => absurd (poolValues_nil.1 h) hne, by rw [poolValues, List.length_map]; exact a6⟩
  have nak : ∃ n, nakamoto s = .ok n ∧ (s.pools = [] → n = 0) ∧ (s.pools ≠ [] → IsNakamoto s.agents.keys (controls s) (inPools s) n) := by
    by_cases hne : s.pools = []
    · exact ⟨0, C47_no_pools s hne, fun _ => rfl, fun h => absurd hne h⟩
    · obtain ⟨n, d1, -, -, d2⟩ := C47_nakamoto ho (hpos hne)
      exact ⟨n, d1, fun h => absurd h hne, fun _ => d2⟩
  have dist : ∃ x, statDistance s = .ok x ∧ (s.pools = [] → x = 0) ∧ (s.pools ≠ [] → x + x = (s.agents.map (fun e => |controls s e.1 - e.2.stake|)).sum) := by
    by_cases hne : s.pools = []
    · exact ⟨0, C53_no_pools hne, fun _ => rfl, fun h => absurd hne h⟩
    · obtain ⟨x, d1, -, -, -, d2⟩ := C53_statistical_distance ho hne hag (fun e he => (hpool e he).le)
      exact ⟨x, d1, fun h => absurd h hne, fun _ => by rw [d2]; ring⟩
  have rate : ∃ x, pledgeRate s = .ok x ∧ (s.pools = [] → x = 0) ∧
      x * (poolValues (fun p => p.stake) s).sum = (poolValues (fun p => p.pledge) s).sum := by
    unfold pledgeRate
    by_cases hne : s.pools = []
    · exact ⟨0, by simp [poolsList, hne], fun _ => rfl, by simp [poolValues, hne]⟩
    · rw [if_neg (by simpa [poolsList] using hne)]
      have e1 : totalDelegatedStake s = (poolValues (fun p => p.stake) s).sum := by
        unfold totalDelegatedStake; rw [poolValues_eq (fun p => p.stake)]; rfl
      have e2 : totalPledge s = (poolValues (fun p => p.pledge) s).sum := by
        unfold totalPledge; rw [poolValues_eq (fun p => p.pledge)]; rfl
      have e3 : (poolValues (fun p => p.stake) s).sum ≠ 0 := (hpos hne).ne'
      rw [e1, e2, pyDiv, if_neg e3]
      exact ⟨_, rfl, fun h => absurd h hne, div_mul_cancel₀ _ e3⟩
  have hom : ∃ x, homogeneityFactor s = .ok x ∧ ∃ m, MaxIs (poolValues (fun p => p.stake) s) m ∧ (s.pools = [] → x = 0) ∧
      x * ((s.pools.length : K) * m) = (poolValues (fun p => p.stake) s).sum := by
    by_cases hne : s.pools = []
    · exact ⟨0, C50_no_pools hne, 0, ⟨fun _ => rfl, fun h => absurd (poolValues_nil.2 hne) h⟩, fun _ => rfl, by simp [poolValues, hne]⟩
    · unfold homogeneityFactor
      rw [poolValues_eq (fun p => p.stake)]
      have hlen' : (poolValues (fun p : Pool K => p.stake) s).length = s.pools.length := by simp [poolValues]
      have hp' : ∀ y ∈ poolValues (fun p => p.stake) s, 0 < y := by
        intro y hy; obtain ⟨e, he, rfl⟩ := List.mem_map.1 hy; exact hpool e he
      cases hv : poolValues (fun p => p.stake) s with
      | nil => exact absurd (poolValues_nil.1 hv) hne
      | cons y t =>
        rw [hv] at hlen' hp'
        have hge : ∀ (t : List K) (a : K), a ≤ t.foldl max a ∧ ∀ z ∈ t, z ≤ t.foldl max a := by
          intro t
          induction t with
          | nil => intro a; simp
          | cons b t ih =>
            intro a
            rw [List.foldl_cons]
            refine ⟨(le_max_left a b).trans (ih _).1, ?_⟩
            intro z hz
            rcases List.mem_cons.1 hz with rfl | hz
            · exact (le_max_right _ _).trans (ih _).1
            · exact (ih _).2 z hz
        have hmem : ∀ (t : List K) (a : K), t.foldl max a ∈ a :: t := by
          intro t
          induction t with
          | nil => intro a; simp
          | cons b t ih =>
            intro a
            rw [List.foldl_cons]
            rcases List.mem_cons.1 (ih (max a b)) with h | h
            · rw [h]
              rcases max_choice a b with h | h <;> rw [h] <;> simp
            · exact List.mem_cons_of_mem _ (List.mem_cons_of_mem _ h)
        have hm : 0 < t.foldl max y := hp' _ (hmem t y)
        have hl0 : (0 : K) < ((y :: t).length : K) := by exact_mod_cast Nat.succ_pos _
        have hz : ((y :: t).length : K) * t.foldl max y ≠ 0 := (mul_pos hl0 hm).ne'
        simp only
        rw [pyDiv, if_neg hz]
        refine ⟨_, rfl, t.foldl max y, ⟨fun h => (List.cons_ne_nil _ _ h).elim, fun _ => ⟨hmem t y, ?_⟩⟩, fun h => absurd h hne, ?_⟩
        · intro z hz
          rcases List.mem_cons.1 hz with rfl | hz
          · exact (hge t z).1
          · exact (hge t y).2 z hz
        · rw [← hlen']
          exact div_mul_cancel₀ _ hz
  have eff : costEfficientCount s = s.agents.countP (fun e => decide (e.2.cost < s.rs.reward e.2.stake (s.rs.sat e.2.stake))) := by
    unfold costEfficientCount agentsList
    rw [← List.countP_eq_length_filter, List.map_map, List.countP_map]
    refine List.countP_congr (fun e _ => ?_)
    simp [potentialProfit]
  have sp : ∃ p, stakePairs s = .ok p ∧ p.x.map some = s.pools.map (fun e => (s.agents.get? (s.heap e.2).owner).map (fun ag => ag.stake)) ∧
     p.y = poolValues (fun p => p.stake) s ∧ p.r = poolValues (fun p => p.margin) s ∧ p.poolId = s.pools.map (fun e => (s.heap e.2).id) ∧
     p.ownerId = s.pools.map (fun e => (s.heap e.2).owner) := by
    obtain ⟨p, p1, x1, y1, r1, i1, w1, p2⟩ := C74_stake_pairs ho
    have len : ∀ {α β : Type} (l : List α) (f : Nat × Ref → α) (_ : l.length = poolCount s) (_ : ∀ (i : Nat) (hi : i < s.pools.length),
        l[i]? = some (f s.pools[i])), l = s.pools.map f := by
      intro α β l f hl hi
      apply List.ext_getElem?
      intro j
      by_cases hj : j < s.pools.length
      · rw [hi j hj, List.getElem?_map, List.getElem?_eq_getElem hj]; rfl
      · rw [List.getElem?_eq_none (by rw [hl]; exact Nat.le_of_not_lt hj), List.getElem?_eq_none (by simpa using hj)]
    refine ⟨p, p1, len (β := Nat) _ _ (by rw [List.length_map]; exact x1) (fun i hi => ?_), len (β := Nat) _ _ y1 (fun i hi => ?_), len (β := Nat) _ _ r1 (fun i hi => ?_),
      len (β := Nat) _ _ i1 (fun i hi => ?_), len (β := Nat) _ _ w1 (fun i hi => ?_)⟩
    all_goals obtain ⟨ag, g1, g2, g3, g4, g5, g6⟩ := p2 i hi
    · rw [List.getElem?_map, g2, g1]; rfl
    · exact g3
    · exact g4
    · exact g5
    · exact g6
  obtain ⟨g1, g2, -, -⟩ := C48_metrics s
  obtain ⟨ap, m1, m1'⟩ := mean_metric (fun p => p.pledge) s
  obtain ⟨mp, m2, m2'⟩ := median_metric (fun p => p.pledge) s
  obtain ⟨am, m3, m3'⟩ := mean_metric (fun p => p.margin) s
  obtain ⟨mm, m4, m4'⟩ := median_metric (fun p => p.margin) s
  obtain ⟨sr, s1, s1'⟩ := sat
  obtain ⟨nk, n1, n1'⟩ := nak
  obtain ⟨sd, d1, d1'⟩ := dist
  obtain ⟨pr, t1, t1'⟩ := rate
  obtain ⟨hf, u1, mmm, u1'⟩ := hom
  obtain ⟨p, p1, p2⟩ := sp
  obtain ⟨r₁, k1, x₁, k1'⟩ := rank_metric ho (fun ag => ag.stake) (stat := meanOf) (P := MeanIs) MeanIs.nil meanOf_means
  obtain ⟨r₂, k2, x₂, k2'⟩ := rank_metric ho (fun ag => -ag.cost) (stat := meanOf) (P := MeanIs) MeanIs.nil meanOf_means
  obtain ⟨r₃, k3, x₃, k3'⟩ := rank_metric ho (fun ag => ag.stake) (stat := medianOf) (P := MedianIs) MedianIs.nil medianOf_means
  obtain ⟨r₄, k4, x₄, k4'⟩ := rank_metric ho (fun ag => -ag.cost) (stat := medianOf) (P := MedianIs) MedianIs.nil medianOf_means
  obtain ⟨gp, v1, v1'⟩ := gini_means ((operators s).map (fun a => (poolsOf s a : K)))
  obtain ⟨gs, v2, v2'⟩ := gini_means ((operators s).map (controls s))
  rw [← g1] at v1
  rw [← g2] at v2
  intro i name P hi
  have hcol : ∀ {name : String} {x : Py (MetricValue K)} {v : MetricValue K}, (allReporters env s).lookup name = some x → x = .ok v →
      reportColumn env s name = .ok v := by
    intro name x v h1 h2
    unfold reportColumn
    rw [h1]; exact h2
  match i with
  | 0 => cases hi; exact ⟨rfl, _, hcol rfl rfl, rfl⟩
  | 1 => cases hi; exact ⟨rfl, _, hcol rfl rfl, by unfold totalPledge; rw [poolValues_eq (fun p => p.pledge)]; rfl⟩
  | 2 => cases hi; exact ⟨rfl, _, hcol rfl (by unfold avgPledge; rw [m1]; rfl), ap, rfl, m1'⟩
  | 3 => cases hi; exact ⟨rfl, _, hcol rfl (by unfold medianPledge; rw [m2]; rfl), mp, rfl, m2'⟩
  | 4 => cases hi; exact ⟨rfl, _, hcol rfl (by rw [o1]; rfl), av, rfl, o1'⟩
  | 5 => cases hi; exact ⟨rfl, _, hcol rfl (by rw [o2]; rfl), mx, rfl, o2'⟩
  | 6 => cases hi; exact ⟨rfl, _, hcol rfl (by rw [o3]; rfl), md, rfl, o3'⟩
  | 7 => cases hi; exact ⟨rfl, _, hcol rfl (by rw [s1]; rfl), sr, rfl, s1'⟩
  | 8 => cases hi; exact ⟨rfl, _, hcol rfl (by rw [n1]; rfl), nk, rfl, n1'⟩
  | 9 => cases hi; exact ⟨rfl, _, hcol rfl (by rw [d1]; rfl), sd, rfl, d1'⟩
  | 10 => cases hi; exact ⟨rfl, _, hcol rfl rfl, _, rfl⟩
  | 11 => cases hi; exact ⟨rfl, _, hcol rfl (by rw [t1]; rfl), pr, rfl, t1'⟩
  | 12 => cases hi; exact ⟨rfl, _, hcol rfl (by rw [u1]; rfl), hf, mmm, rfl, u1'⟩
  | 13 => cases hi; exact ⟨rfl, _, hcol rfl rfl, rfl⟩
  | 14 => cases hi; exact ⟨rfl, _, hcol rfl (by unfold avgStakeRank stakeRanks; rw [k1]; rfl), x₁, r₁, rfl, k1'⟩
  | 15 => cases hi; exact ⟨rfl, _, hcol rfl (by unfold avgCostRank costRanks; rw [k2]; rfl), x₂, r₂, rfl, k2'⟩
  | 16 => cases hi; exact ⟨rfl, _, hcol rfl (by unfold medianStakeRank stakeRanks; rw [k3]; rfl), x₃, r₃, rfl, k3'⟩
  | 17 => cases hi; exact ⟨rfl, _, hcol rfl (by unfold medianCostRank costRanks; rw [k4]; rfl), x₄, r₄, rfl, k4'⟩
  | 18 => cases hi; exact ⟨rfl, _, hcol rfl rfl, by rw [(C52_splitters s).1]⟩
  | 19 => cases hi; exact ⟨rfl, _, hcol rfl rfl, by rw [eff]⟩
  | 20 => cases hi; exact ⟨rfl, _, hcol rfl (by rw [p1]; rfl), p, rfl, p2⟩
  | 21 => cases hi; exact ⟨rfl, _, hcol rfl (by rw [v1]; rfl), gp, rfl, v1'⟩
  | 22 => cases hi; exact ⟨rfl, _, hcol rfl (by rw [v2]; rfl), gs, rfl, v2'⟩
  | 23 => cases hi; exact ⟨rfl, _, hcol rfl (by unfold avgMargin; rw [m3]; rfl), am, rfl, m3'⟩
  | 24 => cases hi; exact ⟨rfl, _, hcol rfl (by unfold medianMargin; rw [m4]; rfl), mm, rfl, m4'⟩
  | 25 => cases hi; exact ⟨rfl, _, hcol rfl (by rw [l1]; rfl), by rw [hl]⟩
  | 26 =>
    cases hi
    refine ⟨rfl, _, hcol rfl (by rw [q2]; rfl), ?_⟩
    rw [hl, ← hlen]
    congr 1
    apply List.ext_getElem?
    intro j
    simp only [List.zip_eq_zipWith, List.getElem?_zipWith, List.getElem?_map]
    by_cases hj : j < s.agents.length
    · rw [List.getElem?_range hj]; rfl
    · rw [List.getElem?_eq_none (by simpa using hj)]; rfl
  | 27 => cases hi; exact ⟨rfl, _, hcol rfl rfl, by unfold totalDelegatedStake; rw [poolValues_eq (fun p => p.stake)]; rfl⟩
  | 28 => cases hi; exact ⟨rfl, _, hcol rfl rfl, by unfold totalAgentStake agentsList; rw [List.map_map]; rfl⟩
  | 29 => cases hi; exact ⟨rfl, _, hcol rfl rfl, by rw [(C52_operator_count s).1]⟩
  | i + 30 => exact absurd hi (by simp [meanings])

/-- the numerical metrics as rational numbers -/
def numeric : MetricValue ℚ → Option ℚ
  | .nat n => some n
  | .int i => some i
  | .num x => some x
  | _ => none

/-- the hypotheses of C91 hold of a state after two rounds in which three agents operate a pool each; its numerical metrics: -/
example : ∃ s, Reachable (demo false) s ∧ (∀ e ∈ (demo false).people, 0 < e.1) ∧ 0 < (demo false).rs.beta ∧ (s.rs.scheme = .cip50 → 0 < s.rs.a0) ∧
    (List.range 30).map (fun i => ((do reportColumn ⟨5, 2, fun _ => 0⟩ s (← reporterName (i + 1)) : Py (MetricValue ℚ)).toOption.bind numeric)) =
      [some 3, some (3/5), some (1/5), some (1/5), some 1, some 1, some 1, some (9/10), some 2, some (7/20),
       some 0, some (2/3), some (9/10), some 2, some 3, some 3, some 3, some 3, some 0, some 5, none, some 0,
       some (2/27), some (3869423968829/56893061274000), some (939/11761), none, none, some (9/10), some 1, some 3] := by
  obtain ⟨s, ⟨es, h1, h2⟩, h3⟩ := reachable_of_run demoRounds_valid (f := fun s => (decide (s.rs.scheme = .cip50),
      (List.range 30).map (fun i => ((do reportColumn ⟨5, 2, fun _ => 0⟩ s (← reporterName (i + 1)) : Py (MetricValue ℚ)).toOption.bind numeric))))
    (v := (false, [some 3, some (3/5), some (1/5), some (1/5), some 1, some 1, some 1, some (9/10), some 2, some (7/20),
       some 0, some (2/3), some (9/10), some 2, some 3, some 3, some 3, some 3, some 0, some 5, none, some 0,
       some (2/27), some (3869423968829/56893061274000), some (939/11761), none, none, some (9/10), some 1, some 3])) (by decide +kernel)
  simp only [Prod.mk.injEq, decide_eq_false_iff_not] at h3
  exact ⟨s, ⟨es, fun e he => (h1 e he).1, h2⟩, demo_stakes _, by decide +kernel, fun h => absurd h h3.1, h3.2⟩

end RSE.Props
