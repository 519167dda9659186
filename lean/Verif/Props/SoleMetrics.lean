import Verif.Props.SoleTogether
import Verif.Props.Operators
import Verif.Props.Accounting
import Verif.Props.Averages

/-!
# C138: the metrics of the equilibria of C113 and C136

With `n` agents that would operate exactly one pool, saturated by its pledge, the metrics of the state that a simulation of this family ends in are functions of
`n` and the saturation threshold alone.
-/

set_option linter.unusedSectionVars false

namespace RSE.Props

variable {K : Type} [Field K] [LinearOrder K] [IsStrictOrderedRing K]

open Classical in
/-- the agents that would operate exactly one pool -/
noncomputable def soleAgents (c : Config K) : Finset Nat := (Finset.range c.people.length).filter (fun b => ∃ e, c.people[b]? = some e ∧ Sole c e)

open Classical in
theorem mem_soleAgents {c : Config K} {b : Nat} : b ∈ soleAgents c ↔ ∃ e, c.people[b]? = some e ∧ Sole c e := by
  unfold soleAgents
  rw [Finset.mem_filter, Finset.mem_range]
  exact ⟨fun h => h.2, fun ⟨e, h1, h2⟩ => ⟨(List.getElem?_eq_some_iff.1 h1).1, e, h1, h2⟩⟩

theorem OnePoolEach.owners {c : Config K} {s : State K} (h : OnePoolEach c s) (hn : s.pools.keys.Nodup) :
    (s.pools.map (fun e => (s.heap e.2).owner)).Nodup ∧ (s.pools.map (fun e => (s.heap e.2).owner)).toFinset = soleAgents c := by
  constructor
  · have hnd : s.pools.Nodup := List.Nodup.of_map _ hn
    refine (List.nodup_map_iff_inj_on hnd).2 (fun e he e' he' heq => ?_)
    have g1 := Dict.get?_of_mem hn he
    have g2 := Dict.get?_of_mem hn he'
    obtain ⟨⟨p, k1, k2, -⟩, -⟩ := h.pools _ _ g1
    obtain ⟨pid, -, hu⟩ := h.one _ p k1 k2
    have hid : e.1 = e'.1 := (hu e.1 ⟨e.2, g1, rfl⟩).trans (hu e'.1 ⟨e'.2, g2, heq.symm⟩).symm
    rw [hid, g2] at g1
    exact Prod.ext hid (Option.some.inj g1).symm
  · ext b
    rw [List.mem_toFinset, mem_soleAgents, List.mem_map]
    constructor
    · rintro ⟨e, he, rfl⟩
      obtain ⟨⟨p, k1, k2, -⟩, -⟩ := h.pools _ _ (Dict.get?_of_mem hn he)
      exact ⟨p, k1, k2⟩
    · rintro ⟨p, k1, k2⟩
      obtain ⟨pid, ⟨r, g1, g2⟩, -⟩ := h.one _ p k1 k2
      exact ⟨(pid, r), Dict.mem_of_get? g1, g2⟩

/-- what the metrics say about `n` saturated private pools of as many operators -/
structure SaturatedPools (n : Nat) (b : K) (s : State K) : Prop where
  pools : poolCount s = n
  operators : operatorCount s = n
  pledge : totalPledge s = n * b
  stake : totalDelegatedStake s = n * b
  splitters : splitterCount s = 0
  pledgeRate : 0 < n → pledgeRate s = .ok 1
  homogeneity : 0 < n → homogeneityFactor s = .ok 1
  average : 0 < n → avgPledge s = .ok b ∧ medianPledge s = .ok b
  saturation : 0 < n → avgSatRate s = .ok 1
  perOperator : 0 < n → maxPoolsPerOperator s = .ok 1 ∧ avgPoolsPerOperator s = .ok 1
  nakamoto : 0 < n → nakamoto s = .ok (n / 2 + 1)
  gini : 0 < n → giniStake s = .ok 0 ∧ giniPoolCount s = .ok 0

theorem sum_const_map {α : Type} {f : α → K} {b : K} {l : List α} (h : ∀ e ∈ l, f e = b) : (l.map f).sum = l.length * b := by
  rw [List.map_congr_left h]
  simp

theorem OnePoolEach.metrics {c : Config K} (hb : 0 < c.rs.beta) (hsch : c.rs.scheme ≠ .cip50) {s : State K} (h : OnePoolEach c s) (hrs : s.rs = c.rs) (hn : s.pools.keys.Nodup) (hown : Owned s) :
    SaturatedPools (soleAgents c).card c.rs.beta s := by
  obtain ⟨hnd, hfin⟩ := h.owners hn
  have hp : ∀ e ∈ s.pools, (s.heap e.2).pledge = c.rs.beta ∧ (s.heap e.2).stake = c.rs.beta := fun e he => by
    obtain ⟨-, k1, k2, -⟩ := h.pools _ _ (Dict.get?_of_mem hn he)
    exact ⟨k1, k2⟩
  have hcard : s.pools.length = (soleAgents c).card := by
    rw [← hfin, List.toFinset_card_of_nodup hnd, List.length_map]
  have hops : operators s = s.pools.map (fun e => (s.heap e.2).owner) := List.dedup_eq_self.2 hnd
  have hoc : operatorCount s = (soleAgents c).card := by
    rw [(C52_operator_count s).1, hops, List.length_map, hcard]
  have htp : totalPledge s = (soleAgents c).card * c.rs.beta := by
    have : totalPledge s = (s.pools.map (fun e => (s.heap e.2).pledge)).sum := by
      change ((s.pools.map (fun e => s.heap e.2)).map (fun p => p.pledge)).sum = _
      rw [List.map_map]; rfl
    rw [this, sum_const_map (fun e he => (hp e he).1), hcard]
  have hin : inPools s = (soleAgents c).card * c.rs.beta := by
    unfold inPools
    rw [sum_const_map (fun e he => (hp e he).2), hcard]
  have hts : totalDelegatedStake s = (soleAgents c).card * c.rs.beta := by
    have : totalDelegatedStake s = inPools s := by
      change ((s.pools.map (fun e => s.heap e.2)).map (fun p => p.stake)).sum = _
      rw [List.map_map]; rfl
    rw [this, hin]
  have hof : ∀ a, poolsOf s a ≤ 1 := fun a => by
    have := List.nodup_iff_count_le_one.1 hnd a
    unfold poolsOf
    rw [List.count_eq_countP, List.countP_map] at this
    refine le_trans (le_of_eq ?_) this
    refine List.countP_congr (fun e _ => ?_)
    simp
  have hcon : ∀ a, controls s a = if a ∈ soleAgents c then c.rs.beta else 0 := by
    intro a
    have e1 : controls s a = (s.pools.map (fun e => if (s.heap e.2).owner = a then c.rs.beta else 0)).sum := by
      unfold controls
      congr 1
      exact List.map_congr_left (fun e he => by rw [(hp e he).2])
    have e2 : s.pools.map (fun e => if (s.heap e.2).owner = a then c.rs.beta else (0 : K)) =
        (s.pools.map (fun e => (s.heap e.2).owner)).map (fun o => if o = a then c.rs.beta else 0) := by
      rw [List.map_map]; rfl
    rw [e1, e2, ← List.sum_toFinset _ hnd, hfin, Finset.sum_ite_eq' (soleAgents c) a]
  have hne : 0 < (soleAgents c).card → s.pools ≠ [] := fun h0 hnil => by
    rw [hnil] at hcard; simp at hcard; omega
  have hkeys : ∀ a ∈ soleAgents c, a ∈ s.agents.keys := fun a ha => by
    rw [← hfin, List.mem_toFinset, List.mem_map] at ha
    obtain ⟨e, he, rfl⟩ := ha
    exact hown.owner e he
  have hcast : ∀ {m : Nat}, 0 < m → (0 : K) < m := fun h => by exact_mod_cast h
  refine ⟨hcard, hoc, htp, hts, (C52_splitters s).2.2.2 hof, fun h0 => ?_, fun h0 => ?_, fun h0 => ?_, fun h0 => ?_, fun h0 => ?_, fun h0 => ?_, fun h0 => ?_⟩
  · unfold RSE.pledgeRate
    have hpl : (poolsList s).length ≠ 0 := by
      have : (poolsList s).length = s.pools.length := by simp [poolsList]
      rw [this, hcard]; omega
    have hpos : (0 : K) < (soleAgents c).card * c.rs.beta := mul_pos (hcast h0) hb
    rw [if_neg hpl, htp, hts]
    unfold pyDiv
    rw [if_neg hpos.ne', div_self hpos.ne']
  · obtain ⟨x, k1, -, -, k4⟩ := C50_homogeneity (hne h0) (fun e he => by rw [(hp e he).2]; exact hb)
    rw [k1, k4.2 (fun e he e' he' => (hp e he).2.trans (hp e' he').2.symm)]
  · obtain ⟨avg', a1, -, a3⟩ := mean_pools (hne h0) (fun p => p.pledge)
    obtain ⟨med', b1, -, b3⟩ := median_pools (hne h0) (fun p => p.pledge)
    obtain ⟨a4, a5⟩ := a3 c.rs.beta c.rs.beta (fun e he => ⟨(hp e he).1.ge, (hp e he).1.le⟩)
    obtain ⟨b4, b5⟩ := b3 c.rs.beta c.rs.beta (fun e he => ⟨(hp e he).1.ge, (hp e he).1.le⟩)
    have hlen : ((poolsList s).map (fun p => p.pledge)).length > 0 := by
      have : ((poolsList s).map (fun p => p.pledge)).length = (soleAgents c).card := by simp [poolsList, hcard]
      omega
    unfold avgPledge medianPledge
    rw [if_pos hlen, if_pos hlen, a1, b1, le_antisymm a5 a4, le_antisymm b5 b4]
    exact ⟨rfl, rfl⟩
  · have hsat : ∀ p : K, s.rs.sat p = c.rs.beta := fun p => by
      rw [hrs]; unfold RS.sat
      split
      · rename_i h'; exact absurd h' hsch
      · rfl
    obtain ⟨avg, k1, k2⟩ := (C70_saturation (hne h0)).2 (by rintro ⟨e, -, he⟩; rw [hsat] at he; exact hb.ne' he)
    have hsum : (s.pools.map (fun e => (s.heap e.2).stake / s.rs.sat (s.heap e.2).pledge)).sum = (s.pools.length : K) * 1 :=
      sum_const_map (fun e he => by rw [hsat, (hp e he).2, div_self hb.ne'])
    have hpc : (poolCount s : K) = (s.pools.length : K) := rfl
    rw [hsum, hpc, mul_one, hcard] at k2
    have : avg = 1 := mul_right_cancel₀ (hcast h0).ne' (by rw [k2, one_mul])
    rw [k1, this]
  · obtain ⟨m, avg, med, k1, k2, -, k4, k5, k6, -⟩ := C52_average_and_median (hne h0)
    obtain ⟨m', q1, ⟨a, q2⟩, -, q4, -⟩ := C52_max (hne h0)
    rw [k1] at q1
    cases q1
    have hm : m = 1 := le_antisymm (q2 ▸ hof a) q4
    subst hm
    have : avg = 1 := le_antisymm (by simpa using k6) k5
    rw [k1, k2, this]
    exact ⟨rfl, rfl⟩
  · obtain ⟨m, g1, -, -, ⟨A, a1, a2, a3⟩, g4⟩ := C47_nakamoto hown (by rw [hin]; exact mul_pos (hcast h0) hb)
    have hsum : ∀ A : Finset Nat, ∑ a ∈ A, controls s a = ((A ∩ soleAgents c).card : K) * c.rs.beta := by
      intro A
      rw [Finset.sum_congr rfl (fun a _ => hcon a), Finset.sum_ite_mem, Finset.sum_const, nsmul_eq_mul]
    have hmaj : ∀ {i : Nat}, ((soleAgents c).card : K) * c.rs.beta / 2 < (i : K) * c.rs.beta ↔ (soleAgents c).card < 2 * i := by
      intro i
      rw [div_lt_iff₀ (by norm_num : (0 : K) < 2), mul_right_comm, mul_lt_mul_iff_left₀ hb]
      rw [mul_comm (i : K)]
      exact_mod_cast Iff.rfl
    have hlow : (soleAgents c).card / 2 + 1 ≤ m := by
      rw [hsum, hin, hmaj] at a3
      have := Finset.card_le_card (Finset.inter_subset_left (s₁ := A) (s₂ := soleAgents c))
      omega
    have hup : m ≤ (soleAgents c).card / 2 + 1 := by
      obtain ⟨B, b1, b2⟩ := Finset.exists_subset_card_eq (s := soleAgents c) (n := (soleAgents c).card / 2 + 1) (by omega)
      have := g4 B (fun a ha => hkeys a (b1 ha)) (by
        rw [hsum, hin, hmaj, Finset.inter_eq_left.2 b1]; omega)
      omega
    rw [g1, le_antisymm hup hlow]
  · have hmem : ∀ a ∈ operators s, a ∈ soleAgents c := fun a ha => by
      rw [← hfin, List.mem_toFinset, ← hops]; exact ha
    obtain ⟨k1, k2, -⟩ := C48_metrics s
    have hz : ∀ {l : List K} {x : K}, 0 < x → l ≠ [] → (∀ y ∈ l, y = x) → giniCoefficient l = .ok 0 := by
      intro l x hx hl hall
      have hs : 0 < l.sum := by
        have := sum_const_map (f := fun y : K => y) hall
        simp only [List.map_id'] at this
        rw [this]
        exact mul_pos (hcast (List.length_pos_iff.2 hl)) hx
      obtain ⟨g, e1, -, -, e4⟩ := C48_range (fun y hy => by rw [hall y hy]; exact hx.le) hs
      rw [e1, e4.2 (fun y hy y' hy' => (hall y hy).trans (hall y' hy').symm)]
    have hone : operators s ≠ [] := by
      rw [hops]; intro hc; exact hne h0 (List.map_eq_nil_iff.1 hc)
    rw [k1, k2]
    refine ⟨hz hb (by simpa using hone) (fun y hy => ?_), hz one_pos (by simpa using hone) (fun y hy => ?_)⟩
    · obtain ⟨a, ha, rfl⟩ := List.mem_map.1 hy
      rw [hcon, if_pos (hmem a ha)]
    · obtain ⟨a, ha, rfl⟩ := List.mem_map.1 hy
      have h1 := ((C52_operator_count s).2.1 a).1 ha
      have : poolsOf s a = 1 := le_antisymm (hof a) h1
      rw [this]; norm_num

/-- C138, sequential or random activation.  After one round, in any order, the metrics are those of as many saturated private pools as there are agents that would
operate exactly one. -/
theorem C138_sequential {c : Config K} (hw : SoleWorld c) {ords : Nat → List Nat → List Nat} (hords : ∀ i l, (ords i l).Perm l) {order : List Nat}
    (hfull : ∀ a, a ∈ order ↔ a < c.people.length) :
    ∃ s, roundSequential ords order (initState c) = .ok s ∧ SaturatedPools (soleAgents c).card c.rs.beta s := by
  obtain ⟨s, h1, h2, h3, -⟩ := C113_first_round hw hords hfull
  have hr := Reachable.of_single h2
  exact ⟨s, h1, h3.metrics hw.beta hw.scheme (h2.params minUnit_pos).rs (hr.good minUnit_pos).inv.core.poolsNodup (owned_of_reachable hr)⟩

variable {R : Type}

/-- C138, sequential or random activation, all rounds of a run.  The state `w` that follows any number of rounds but none has these metrics. -/
theorem C138_rounds {c : Config K} (hw : SoleWorld c) {ords : Nat → Nat → List Nat → List Nat} (hords : ∀ i j l, (ords i j l).Perm l)
    {order : Nat → List Nat} (hfull : ∀ i a, a ∈ order i ↔ a < c.people.length) {report : State K → Py R} {conv : Int}
    {phases : Nat → PhaseParams K} {h : List (Round (State K))} {w : State K}
    (hh : History (simEnv (seqRounds ords order) report conv 1 phases (fun _ => none)) (initState c) h w) (hnc : ∀ r ∈ h, r.phaseChange = false) (hne : h ≠ []) :
    SaturatedPools (soleAgents c).card c.rs.beta w := by
  obtain ⟨g1, -, -, g4, -⟩ := sole_history hw hords hfull hh hnc
  have hr := Reachable.of_single g1
  exact (g4 hne).metrics hw.beta hw.scheme (g1.params minUnit_pos).rs (hr.good minUnit_pos).inv.core.poolsNodup (owned_of_reachable hr)

/-- C138, simultaneous and semi-simultaneous activation, all rounds of a run: the same metrics. -/
theorem C138_batches {c : Config K} (hw : SoleWorld c) {ords : Nat → Nat → Nat → List Nat → List Nat} (hords : ∀ i j m l, (ords i j m l).Perm l) {bs : Nat → List (List Nat)}
    (hf : ∀ i, FullRound c.people.length (bs i)) {report : State K → Py R} {conv : Int}
    {phases : Nat → PhaseParams K} {h : List (Round (State K))} {w : State K}
    (hh : History (batchesEnv ords bs report conv 1 phases) (initState (together c)) h w) (hnc : ∀ r ∈ h, r.phaseChange = false) (hne : h ≠ []) :
    SaturatedPools (soleAgents c).card c.rs.beta w := by
  obtain ⟨g1, -, -, -, g5, -⟩ := together_history hw hords hf hh hnc
  have hr := Reachable.of_single g1.clean.single
  exact (g1.onePoolEach hw (g5 hne)).metrics hw.beta hw.scheme (g1.clean.single.params minUnit_pos).rs (hr.good minUnit_pos).inv.core.poolsNodup (owned_of_reachable hr)

/-- C138, comparison.  In no state, whatever its pools, can the Nakamoto coefficient be larger than that: with `n` operators it is at most `n / 2 + 1`. -/
theorem C138_largest {s : State K} (hown : Owned s) (hne : s.pools ≠ []) (hpos : ∀ e ∈ s.pools, 0 < (s.heap e.2).stake) :
    ∃ m, nakamoto s = .ok m ∧ m ≤ operatorCount s / 2 + 1 := by
  have hnn : ∀ y ∈ s.pools.map (fun e => (s.heap e.2).stake), 0 < y := fun y hy => by
    obtain ⟨e, he, rfl⟩ := List.mem_map.1 hy; exact hpos e he
  have hin : 0 < inPools s := List.sum_pos _ hnn (by simpa using hne)
  obtain ⟨m, g1, -, -, -, g4⟩ := C47_nakamoto hown hin
  refine ⟨m, g1, ?_⟩
  have hcard : (operators s).toFinset.card = operatorCount s := by
    rw [List.toFinset_card_of_nodup (C52_operator_count s).2.2.1, (C52_operator_count s).1]
  have hmem : ∀ {a}, a ∈ (operators s).toFinset ↔ ∃ e ∈ s.pools, (s.heap e.2).owner = a := fun {a} => by
    rw [List.mem_toFinset]; unfold operators; rw [List.mem_dedup, List.mem_map]
  have hkeys : ∀ a ∈ (operators s).toFinset, a ∈ s.agents.keys := fun a ha => by
    obtain ⟨e, he, rfl⟩ := hmem.1 ha
    exact hown.owner e he
  have hcp : ∀ a ∈ (operators s).toFinset, 0 < controls s a := fun a ha => by
    obtain ⟨e, he, rfl⟩ := hmem.1 ha
    unfold controls
    refine lt_of_lt_of_le (hpos e he) ?_
    refine le_trans (le_of_eq (if_pos rfl).symm) (List.single_le_sum (l := s.pools.map (fun e' => if (s.heap e'.2).owner = (s.heap e.2).owner then (s.heap e'.2).stake else 0))
      (fun y hy => ?_) _ (List.mem_map.2 ⟨e, he, rfl⟩))
    obtain ⟨e', he', rfl⟩ := List.mem_map.1 hy
    split
    · exact (hpos e' he').le
    · exact le_rfl
  have htot : ∑ a ∈ (operators s).toFinset, controls s a = inPools s := by
    have h1 := sum_controls hown
    rw [← List.sum_toFinset _ hown.nodup] at h1
    rw [← h1]
    refine Finset.sum_subset (fun a ha => List.mem_toFinset.2 (hkeys a ha)) (fun a _ ha => ?_)
    unfold controls
    refine List.sum_eq_zero (fun y hy => ?_)
    obtain ⟨e, he, rfl⟩ := List.mem_map.1 hy
    exact if_neg (fun h => ha (hmem.2 ⟨e, he, h⟩))
  have hn : 0 < operatorCount s := by
    rw [← hcard, Finset.card_pos]
    obtain ⟨e, he⟩ := List.exists_mem_of_ne_nil _ hne
    exact ⟨_, hmem.2 ⟨e, he, rfl⟩⟩
  obtain ⟨A, a1, a2⟩ := Finset.exists_subset_card_eq (s := (operators s).toFinset) (n := operatorCount s / 2 + 1) (by omega)
  by_cases hA : inPools s / 2 < ∑ a ∈ A, controls s a
  · exact (g4 A (fun a ha => hkeys a (a1 ha)) hA).trans a2.le
  · obtain ⟨a, ha⟩ : A.Nonempty := by rw [← Finset.card_pos]; omega
    have hsplit := Finset.sum_sdiff (f := controls s) a1
    have hna : a ∉ (operators s).toFinset \ A := fun h => (Finset.mem_sdiff.1 h).2 ha
    have h1 := g4 (insert a ((operators s).toFinset \ A)) (fun b hb => by
      rcases Finset.mem_insert.1 hb with rfl | hb
      · exact hkeys _ (a1 ha)
      · exact hkeys _ (Finset.mem_sdiff.1 hb).1) (by
      rw [Finset.sum_insert hna]
      have := hcp a (a1 ha)
      rw [htot] at hsplit
      push Not at hA
      linarith)
    rw [Finset.card_insert_of_notMem hna, Finset.card_sdiff_of_subset a1] at h1
    omega

/-! ### A simulation that the theorems are about -/

theorem soleDemo_soles : Sole soleDemo (1/3, 3/10, .nonMyopic) ∧ Sole soleDemo (2/5, 3/10, .nonMyopic) := by
  have hne : ¬ Scheme.cardano = Scheme.cip50 := by decide
  constructor
  · refine ⟨rfl, ?_, ?_, ?_, ?_, ?_, fun n h1 h2 => ?_⟩
    · norm_num [soleDemo]
    · norm_num [soleDemo]
    · norm_num [soleDemo]
    · norm_num [soleDemo]
    · norm_num [soleDemo]
    · have h2 : n ≤ 3 := h2
      interval_cases n <;> norm_num [soleDemo, saturatedReward, hne]
  · refine ⟨rfl, ?_, ?_, ?_, ?_, ?_, fun n h1 h2 => ?_⟩
    · norm_num [soleDemo]
    · norm_num [soleDemo]
    · norm_num [soleDemo]
    · norm_num [soleDemo]
    · norm_num [soleDemo]
    · have h2 : n ≤ 3 := h2
      interval_cases n <;> norm_num [soleDemo, saturatedReward, hne]

/-- the demonstration of C113 has two agents that would operate exactly one pool -/
theorem soleAgents_demo : (soleAgents soleDemo).card = 2 := by
  have hSole := soleDemo_soles
  have : soleAgents soleDemo = {1, 3} := by
    ext b
    rw [mem_soleAgents]
    constructor
    · rintro ⟨e, h1, h2⟩
      have hb : b < 4 := (List.getElem?_eq_some_iff.1 h1).1
      interval_cases b
      · simp only [soleDemo, List.getElem?_cons_zero, Option.some.injEq] at h1
        subst h1; exact absurd h2.1 (by decide)
      · simp
      · simp only [soleDemo, List.getElem?_cons_succ, List.getElem?_cons_zero, Option.some.injEq] at h1
        subst h1; exact absurd h2.1 (by decide)
      · simp
    · intro hb
      simp only [Finset.mem_insert, Finset.mem_singleton] at hb
      rcases hb with rfl | rfl
      · exact ⟨_, rfl, hSole.1⟩
      · exact ⟨_, rfl, hSole.2⟩
  rw [this]; rfl

/-- so there are two pools, of stake 2/3 in total, and the Nakamoto coefficient is 2 -/
example : ∃ s, roundSequential (fun _ => id) [3, 0, 2, 1] (initState soleDemo) = .ok s ∧ poolCount s = 2 ∧ totalDelegatedStake s = 2 / 3 ∧ nakamoto s = .ok 2 ∧
    giniStake s = .ok 0 := by
  obtain ⟨s, h1, h2⟩ := C138_sequential soleDemo_world.1 (ords := fun _ => id) (fun _ l => List.Perm.refl l) (order := [3, 0, 2, 1]) (by
    intro a
    change a ∈ [3, 0, 2, 1] ↔ a < 4
    simp only [List.mem_cons, List.not_mem_nil, or_false]
    omega)
  rw [soleAgents_demo] at h2
  refine ⟨s, h1, h2.pools, ?_, h2.nakamoto (by decide), (h2.gini (by decide)).1⟩
  rw [h2.stake]; norm_num [soleDemo]

/-- the state after that round meets the hypotheses of `C138_largest`, and reaches the bound -/
example : ∃ s, roundSequential (fun _ => id) [3, 0, 2, 1] (initState soleDemo) = .ok s ∧ Owned s ∧ s.pools ≠ [] ∧ (∀ e ∈ s.pools, 0 < (s.heap e.2).stake) ∧
    operatorCount s = 2 ∧ nakamoto s = .ok 2 := by
  have hfull : ∀ a, a ∈ [3, 0, 2, 1] ↔ a < soleDemo.people.length := by
    intro a
    change a ∈ [3, 0, 2, 1] ↔ a < 4
    simp only [List.mem_cons, List.not_mem_nil, or_false]
    omega
  obtain ⟨s, h1, h2⟩ := C138_sequential soleDemo_world.1 (ords := fun _ => id) (fun _ l => List.Perm.refl l) hfull
  obtain ⟨s', k1, k2, k3, -⟩ := C113_first_round soleDemo_world.1 (ords := fun _ => id) (fun _ l => List.Perm.refl l) hfull
  rw [h1] at k1
  cases k1
  rw [soleAgents_demo] at h2
  have hr := Reachable.of_single k2
  refine ⟨s, h1, owned_of_reachable hr, fun hnil => ?_, fun e he => ?_, h2.operators, h2.nakamoto (by decide)⟩
  · have := h2.pools
    simp [poolCount, hnil] at this
  · rw [(k3.pools _ _ (Dict.get?_of_mem (hr.good minUnit_pos).inv.core.poolsNodup he)).2.2.1]
    exact soleDemo_world.1.beta

end RSE.Props
