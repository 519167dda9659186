import Verif.Props.Rational
import Verif.Props.Accounting
import Verif.Props.BestCount
import Verif.Props.Longer

/-!
# C132: how many pools there are in an equilibrium
-/

set_option linter.unusedSectionVars false

namespace RSE.Props

open RSE

variable {K : Type} [Field K] [LinearOrder K] [IsStrictOrderedRing K] {R : Type}

/-! ### Statement -/

/-- what all pools cost, and what they are paid -/
def allCosts (s : State K) : K := (s.pools.map (fun e => (s.heap e.2).cost)).sum
def allRewards (s : State K) : K := (s.pools.map (fun e => s.rs.reward (s.heap e.2).pledge (s.heap e.2).stake)).sum

/-- nobody looks further than the present -/
def Shortsighted (c : Config K) : Prop := ∀ e ∈ c.people, e.2.2 = .myopic ∨ e.2.2 = .abstainer

/-! ### Proof -/

theorem sum_ge_of_forall₂ {α : Type} {f : α → Py K} {d : K} : ∀ {l : List α} {us : List K}, List.Forall₂ (fun x y => f x = .ok y) l us →
    (∀ x ∈ l, ∀ y, f x = .ok y → -d ≤ y) → -((l.length : K) * d) ≤ us.sum
  | [], _, .nil, _ => by simp
  | x :: l, y :: us, .cons h hs, hx => by
    have h1 := hx x (by simp) y h
    have h2 := sum_ge_of_forall₂ hs (fun x hm => hx x (by simp [hm]))
    rw [List.length_cons, List.sum_cons]
    push_cast
    linarith

theorem sum_sub_map {α : Type} (f g : α → K) (l : List α) : (l.map (fun e => f e - g e)).sum = (l.map f).sum - (l.map g).sum := by
  induction l with
  | nil => simp
  | cons x l ih => simp only [List.map_cons, List.sum_cons, ih]; ring

/-- nobody loses more than the threshold, so all pools together lose at most that times the number of agents -/
theorem Resting.costs {c : Config K} (hc : c.simultaneous = false) {ord : List Nat → List Nat} {t : State K} (h : Resting c ord t)
    (habs : 0 ≤ t.absThr) (hrel : -1 < t.relThr) (h0 : ∀ e ∈ c.people, 0 < e.1) (hb : 0 < c.rs.beta) (hm : Shortsighted c) :
    allCosts t ≤ allRewards t + (c.people.length : K) * t.absThr := by
  obtain ⟨us, h1, h2⟩ := C05_utilities_add_up hc h.1 h0 hb
  have hg := h.1.good minUnit_pos
  have h3 : -(((t.agents.filterMap (fun e => e.2.strategy)).length : K) * t.absThr) ≤ us.sum := by
    refine sum_ge_of_forall₂ (mapM_all h1) ?_
    intro σ hσ y hy
    obtain ⟨⟨a, ag⟩, ha, hσ⟩ := List.mem_filterMap.1 hσ
    have hget := Dict.get?_of_mem hg.inv.core.agentsNodup ha
    have hp := hg.person hget
    have halt : a < c.people.length := (List.getElem?_eq_some_iff.1 hp).1
    obtain ⟨ag', q1, q2⟩ := h.no_loss habs hrel halt
    rw [hget] at q1
    cases q1
    rcases q2 with q2 | ⟨σ', cur, exp, q3, q4, q5, q6⟩
    · have := (hg.inv.abst _ _ hget q2).1
      rw [this] at hσ; cases hσ
    · have hσ' : σ' = σ := by rw [q3] at hσ; exact Option.some.inj hσ
      subst hσ'
      rw [q4] at hy; cases hy
      rcases hm _ (List.mem_of_getElem? hp) with hp' | hp'
      · have := C86_myopic_beliefs hc h.1 hget hp' q3
        rw [q4, q5] at this
        cases this
        rwa [max_self] at q6
      · have := (hg.inv.abst _ _ hget hp').1
        rw [this] at hσ; cases hσ
  have h4 : ((t.agents.filterMap (fun e => e.2.strategy)).length : K) ≤ (c.people.length : K) := by
    rw [← agents_length h.1]
    exact_mod_cast List.length_filterMap_le _ _
  have h5 := mul_le_mul_of_nonneg_right h4 habs
  rw [h2, sum_sub_map (fun e : Nat × Nat => t.rs.reward (t.heap e.2).pledge (t.heap e.2).stake) (fun e => (t.heap e.2).cost)] at h3
  unfold allCosts allRewards
  linarith

/-- what a pool costs if its operator has at most `k` of them -/
theorem cost_share {cost cmin f x : K} {m k : Nat} (h : costPerPool m cost f = .ok x) (hmk : m ≤ k) (hc0 : 0 ≤ cmin) (hc : cmin ≤ cost) (hf0 : 0 ≤ f) (hf1 : f ≤ 1) :
    cmin * (1 + ((k : K) - 1) * f) / k ≤ x := by
  unfold costPerPool at h
  split at h
  · cases h
  · rename_i hm
    cases h
    have hm' : (0 : K) < m := by exact_mod_cast Nat.pos_of_ne_zero hm
    have hk' : (m : K) ≤ k := by exact_mod_cast hmk
    have hk0 : (0 : K) < k := lt_of_lt_of_le hm' hk'
    have h1 : (((m - 1 : Nat) : K)) = (m : K) - 1 := by rw [Nat.cast_sub (by omega)]; simp
    rw [h1]
    have e1 : cmin * (1 + ((k : K) - 1) * f) / k = cmin * (f + (1 - f) / k) := by field_simp; ring
    have e2 : (cost + ((m : K) - 1) * f * cost) / m = cost * (f + (1 - f) / m) := by field_simp; ring
    rw [e1, e2]
    have h2 : (1 - f) / k ≤ (1 - f) / m := div_le_div_of_nonneg_left (by linarith) hm' hk'
    have h3 : 0 ≤ (1 - f) / (m : K) := div_nonneg (by linarith) hm'.le
    calc cmin * (f + (1 - f) / k) ≤ cmin * (f + (1 - f) / m) := mul_le_mul_of_nonneg_left (by linarith) hc0
      _ ≤ cost * (f + (1 - f) / m) := mul_le_mul_of_nonneg_right hc (by linarith)

/-! ### Theorems -/

/-- C132.  If nobody looks further than the present, then in the final state of a run that reports an equilibrium (sequential or random activation; at least one round in the last phase) the pools together cost
no more than they are paid, up to the absolute threshold for each agent; and they are paid no more than the agents' total stake. -/
theorem C132_costs_covered {c : Config K} (hc : c.simultaneous = false) {ord : List Nat → List Nat} (hord : ∀ l, (ord l).Perm l)
    {order : Nat → List Nat} (hfull : ∀ i a, a ∈ order i ↔ a < c.people.length) {report : State K → Py R} {conv : Int} (h1 : 1 ≤ conv)
    {totalPhases : Nat} {phases : Nat → PhaseParams K} {m : Int} (h0 : 0 ≤ m) {fuel : Nat} {l : Loop (State K) R}
    (hl : Loop.runModel (seqEnv ord order report conv totalPhases phases) fuel (Loop.init (initState c) m) = .ok l)
    (hyes : l.exports = [true]) (hpiv : ∀ p ∈ l.pivots, p < l.steps) (habs : 0 ≤ l.world.absThr) (hrel : -1 < l.world.relThr)
    (hst : ∀ e ∈ c.people, 0 < e.1) (hb : 0 < c.rs.beta) (ha0 : 0 ≤ l.world.rs.a0) (hm : Shortsighted c) :
    allCosts l.world ≤ allRewards l.world + (c.people.length : K) * l.world.absThr ∧ allRewards l.world ≤ (l.world.agents.map (fun e => e.2.stake)).sum := by
  obtain ⟨-, -, -, -, hrest, -, -⟩ := reported hc hord hfull h1 h0 hl hyes hpiv
  exact ⟨hrest.costs hc habs hrel hst hb hm, C05_rewards_bounded hc hrest.1 hst hb ha0⟩

/-- C132.  Nobody looks further than the present, nobody's costs are below `cmin`, and there is one phase: after an idle round in which everybody has a turn the number of pools, times the least that a pool can
cost (that of one of `k` pools of an operator), is at most the total stake, up to the absolute threshold for each agent. -/
theorem C132_count {c : Config K} (hc : c.simultaneous = false) {ord : List Nat → List Nat} (hord : ∀ l, (ord l).Perm l)
    {s t : State K} (hs : ReachableSinglePhase c s) {order : List Nat} (hfull : ∀ a, a ∈ order ↔ a < c.people.length)
    (he : roundSequential (fun _ => ord) order s = .ok t) (hi : t.idle = true) (habs : 0 ≤ c.absThr) (hrel : -1 < c.relThr)
    (hst : ∀ e ∈ c.people, 0 < e.1) (hb : 0 < c.rs.beta) (ha0 : 0 ≤ c.rs.a0) (hf0 : 0 ≤ c.extraFrac) (hf1 : c.extraFrac ≤ 1) (hm : Shortsighted c)
    {cmin : K} (hc0 : 0 ≤ cmin) (hcm : ∀ e ∈ c.people, cmin ≤ e.2.1) :
    (t.pools.length : K) * (cmin * (1 + ((c.rs.k : K) - 1) * c.extraFrac) / c.rs.k) ≤ (t.agents.map (fun e => e.2.stake)).sum + (c.people.length : K) * c.absThr := by
  have hsteps : ∀ (l : List Nat) {s t : State K}, ReachableSinglePhase c s → (∀ a ∈ l, a < c.people.length) → iterM exec s (l.map (fun a => Event.step a ord)) = .ok t →
      ReachableSinglePhase c t := by
    intro l
    induction l with
    | nil => intro s t h _ h2; cases h2; exact h
    | cons a l ih =>
      intro s t h hv h2
      simp only [List.map_cons, iterM] at h2
      obtain ⟨s₁, g1, g2⟩ := bind_ok h2
      exact ih (h.next (ev := .step a ord) ⟨hv a (by simp), hord⟩ (by simp) g1) (fun b hb => hv b (by simp [hb])) g2
  rw [round_steps] at he
  have ht := hsteps order hs (fun a ha => (hfull a).1 ha) he
  obtain ⟨-, -, hrt, hall⟩ := idle_turns hc hord order (Reachable.of_single hs) (fun a ha => (hfull a).1 ha) he hi
  have hrest : Resting c ord t := ⟨hrt, fun a ha => hall a ((hfull a).2 ha)⟩
  have hpar := ht.params minUnit_pos
  have hg := hrt.good minUnit_pos
  have h1 := hrest.costs hc (by rw [hpar.absThr]; exact habs) (by rw [hpar.relThr]; exact hrel) hst hb hm
  rw [hpar.absThr] at h1
  have h2 : allRewards t ≤ _ := C05_rewards_bounded hc hrt hst hb (by rw [hpar.rs]; exact ha0)
  have h3 : (t.pools.length : K) * (cmin * (1 + ((c.rs.k : K) - 1) * c.extraFrac) / c.rs.k) ≤ allCosts t := by
    have key : ∀ e ∈ t.pools, cmin * (1 + ((c.rs.k : K) - 1) * c.extraFrac) / c.rs.k ≤ (t.heap e.2).cost := by
      rintro ⟨pid, r⟩ he
      have hp := Dict.get?_of_mem hg.inv.core.poolsNodup he
      obtain ⟨ag, σ, ha, hσ, ho⟩ := hg.inv.owner hp
      obtain ⟨-, e2, -, e4⟩ := C65_pools_of_an_operator_are_alike minUnit_pos ht ha hσ ho
      exact cost_share e2 e4 hc0 (hcm _ (List.mem_of_getElem? (hg.person ha))) hf0 hf1
    have := List.card_nsmul_le_sum (t.pools.map (fun e => (t.heap e.2).cost)) (cmin * (1 + ((c.rs.k : K) - 1) * c.extraFrac) / c.rs.k) (by
      intro x hx
      obtain ⟨e, he, rfl⟩ := List.mem_map.1 hx
      exact key e he)
    rw [List.length_map, nsmul_eq_mul] at this
    exact this
  linarith

/-! ### It is not `k` -/

/-- equal stakes, `k = 3`, default thresholds and reward scheme, and the lowest costs possible -/
def countArgs (n : Nat) (weights : Option (List ℚ)) (cost : ℚ) : Args ℚ :=
  { n := .one n, k := .one 3, a0 := .one (3/10), relThr := .one 0, absThr := .one (1/10^9), maxIter := .one 2000, extraFrac := .one (2/5),
    order := .one .sequential, scheme := 0, weights := weights, inactive := 0, known := false, costMin := cost, costMax := 9/10, source := .flat,
    metrics := none, conv := 10 }

abbrev countRun (n : Nat) (weights : Option (List ℚ)) (cost : ℚ) : Py (Loop (Nat × Nat × State ℚ) (List (MetricValue ℚ))) :=
  simulate (countArgs n weights cost) lossDraws (fun _ => 0) ⟨fun _ l => l, fun _ l _ => l, fun _ _ _ => id⟩ 2001

/-- C132.  "Equilibrium reached: Yes" is reported by whole executions for `k = 3` with five pools (three non-myopic agents), twelve (four myopic agents), and none (three myopic agents with higher costs). -/
theorem C132_not_k :
    (∃ l, countRun 3 none (1/100) = .ok l ∧ l.exports = [true] ∧ l.world.2.2.pools.length = 5) ∧
    (∃ l, countRun 4 (some [0, 1, 0]) (1/10) = .ok l ∧ l.exports = [true] ∧ l.world.2.2.pools.length = 12) ∧
    (∃ l, countRun 3 (some [0, 1, 0]) (1/5) = .ok l ∧ l.exports = [true] ∧ l.world.2.2.pools.length = 0) := by
  have key : ∀ {n : Nat} {w : Option (List ℚ)} {x : ℚ} {p : Nat},
      (countRun n w x).toOption.map (fun l => decide (l.exports = [true] ∧ l.world.2.2.pools.length = p)) = some true →
      ∃ l, countRun n w x = .ok l ∧ l.exports = [true] ∧ l.world.2.2.pools.length = p := by
    intro n w x p h
    obtain ⟨l, hl, hv⟩ := Option.map_eq_some_iff.1 h
    obtain ⟨h1, h2⟩ := of_decide_eq_true hv
    exact ⟨l, toOption_ok hl, h1, h2⟩
  exact ⟨key (by decide +kernel), key (by decide +kernel), key (by decide +kernel)⟩

/-- C132.  For agents who look further than the present the costs need not be covered: an equilibrium is reported in which all pools together cost more than they are paid, by far more than the threshold allows. -/
theorem C132_costs_not_covered : ∃ l, hopefulRun = .ok l ∧ l.exports = [true] ∧ l.pivots = [] ∧ allRewards l.world + 2 * l.world.absThr + 7/100 < allCosts l.world := by
  have key : hopefulRun.toOption.map (fun l => decide (l.exports = [true] ∧ l.pivots = [] ∧ allRewards l.world + 2 * l.world.absThr + 7/100 < allCosts l.world)) = some true := by
    decide +kernel
  obtain ⟨l, hl, hv⟩ := Option.map_eq_some_iff.1 key
  obtain ⟨h1, h2, h3⟩ := of_decide_eq_true hv
  exact ⟨l, toOption_ok hl, h1, h2, h3⟩

/-! ### The hypotheses are met -/

/-- four equal myopic agents as above, and one who abstains -/
def crowdCfg : Config ℚ :=
  { rs := { scheme := .cardano, k := 3, beta := 1/3, a0 := 3/10 }, relThr := 0, absThr := 1/10^9, extraFrac := 2/5, simultaneous := false,
    people := [(6/25, 1/10, .myopic), (6/25, 1/10, .myopic), (6/25, 1/10, .myopic), (6/25, 1/10, .myopic), (1/25, 1/10, .abstainer)], totalStake := 1 }

example : crowdCfg.simultaneous = false ∧ (0 : ℚ) ≤ crowdCfg.absThr ∧ -1 < crowdCfg.relThr ∧ (∀ e ∈ crowdCfg.people, 0 < e.1) ∧ 0 < crowdCfg.rs.beta ∧ 0 ≤ crowdCfg.rs.a0 ∧
    0 ≤ crowdCfg.extraFrac ∧ crowdCfg.extraFrac ≤ 1 ∧ Shortsighted crowdCfg ∧ ∀ e ∈ crowdCfg.people, (1/10 : ℚ) ≤ e.2.1 := by
  refine ⟨rfl, ?_, ?_, ?_, ?_, ?_, ?_, ?_, ?_, ?_⟩ <;> simp [crowdCfg, Shortsighted] <;> norm_num

/-- a run that reports an equilibrium, with twelve pools -/
example : ∃ l, Loop.runModel (seqEnv (fun l => l) (fun _ => List.range 5) (fun s => .ok s.pools.length) 3 1 (fun _ => {})) 21 (Loop.init (initState crowdCfg) 20) = .ok l ∧
    l.exports = [true] ∧ l.pivots = [] ∧ l.world.pools.length = 12 ∧ 0 ≤ l.world.absThr ∧ -1 < l.world.relThr ∧ 0 ≤ l.world.rs.a0 := by
  have key : (Loop.runModel (seqEnv (fun l => l) (fun _ => List.range 5) (fun s => .ok s.pools.length) 3 1 (fun _ => {})) 21 (Loop.init (initState crowdCfg) 20)).toOption.map
      (fun l => decide (l.exports = [true] ∧ l.pivots = [] ∧ l.world.pools.length = 12 ∧ 0 ≤ l.world.absThr ∧ -1 < l.world.relThr ∧ 0 ≤ l.world.rs.a0)) = some true := by decide +kernel
  obtain ⟨l, hl, hv⟩ := Option.map_eq_some_iff.1 key
  exact ⟨l, toOption_ok hl, of_decide_eq_true hv⟩

/-- the second round is idle; with `cmin = 1/10` the bound allows sixteen pools -/
example : ∃ s s' t, roundSequential (fun _ l => l) (List.range 5) (initState crowdCfg) = .ok s ∧ exec s .roundEnd = .ok s' ∧ roundSequential (fun _ l => l) (List.range 5) s' = .ok t ∧
    t.idle = true ∧ t.pools.length = 12 := by
  have key : (do
      let s ← roundSequential (fun _ l => l) (List.range 5) (initState crowdCfg)
      let s' ← exec s .roundEnd
      roundSequential (fun _ l => l) (List.range 5) s' : Py (State ℚ)).toOption.map (fun t => decide (t.idle = true ∧ t.pools.length = 12)) = some true := by decide +kernel
  obtain ⟨t, ht, hv⟩ := Option.map_eq_some_iff.1 key
  obtain ⟨s, h1, h2⟩ := bind_ok (toOption_ok ht)
  obtain ⟨s', h3, h4⟩ := bind_ok h2
  obtain ⟨h5, h6⟩ := of_decide_eq_true hv
  exact ⟨s, s', t, h1, h3, h4, h5, h6⟩

end RSE.Props
