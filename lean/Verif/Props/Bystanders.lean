import Verif.Props.Placed
import Verif.Props.Beliefs

/-!
# C116: who stays out of an equilibrium

The specifications are those of C90 (what agents expect) and C94 (where they would delegate).
-/

set_option linter.unusedSectionVars false

namespace RSE.Props

variable {K : Type} [Field K] [LinearOrder K] [IsStrictOrderedRing K]

/-- if an agent rests, planning in any later state that looks the same gives no new strategy either -/
theorem Rests.plans {c : Config K} {s t : State K} (hs : Reachable c s) (ht : Reachable c t) (hq : Quiet s t) {ord : List Nat → List Nat} {a : Nat} (hr : Rests ord s a) :
    Rests ord t a := by
  obtain ⟨ag, ha, hag⟩ := hr
  have hta : t.agents.get? a = some ag := by rw [hq.1.agents]; exact ha
  refine ⟨ag, hta, hag.imp_right ?_⟩
  rintro ⟨σ, s₁, hσ, hpm⟩
  have hg := ht.good minUnit_pos
  have hsg := hs.good minUnit_pos
  have htw := hq.twin hsg.inv.core hg.inv.core
  have hown : ∀ e ∈ σ.owned, s.pools.get? e.1 = some e.2 := by
    intro e he
    have hn := (hsg.inv.tidy a ag ha).owned _ hσ
    exact ((hsg.inv.owned ha hσ (Dict.get?_of_mem hn he)).1)
  have hrel := planMove_twin htw ord ag hown
  rw [hpm] at hrel
  cases hpt : planMove ord t ag σ with
  | error e => rw [hpt] at hrel; exact hrel.elim
  | ok o =>
    obtain ⟨t₁, oν⟩ := o
    rw [hpt] at hrel
    have hn : oν = none := hrel.2
    subst hn
    exact ⟨σ, t₁, hσ, hpt⟩

/-- two dictionaries that say the same hold the same entries -/
theorem perm_of_get? {V : Type} {d d' : Dict V} (h : d.keys.Nodup) (h' : d'.keys.Nodup) (he : ∀ k, d.get? k = d'.get? k) : d.Perm d' := by
  have hn : d.Nodup := List.Nodup.of_map _ h
  have hn' : d'.Nodup := List.Nodup.of_map _ h'
  refine (List.perm_ext_iff_of_nodup hn hn').2 (fun e => ⟨fun hm => ?_, fun hm => ?_⟩)
  · exact Dict.mem_of_get? (by rw [← he]; exact Dict.get?_of_mem h hm)
  · exact Dict.mem_of_get? (by rw [he]; exact Dict.get?_of_mem h' hm)

theorem expectation_perm (rs : RS K) (total : K) (pools : Dict (Pool K)) (me : Agent K) (before : Dict K) (mine : List (Pool K)) {d d' : Dict K} (h : d.Perm d') :
    expectation rs total pools me before mine d = expectation rs total pools me before mine d' := by
  unfold expectation
  rw [(h.map _).sum_eq]

theorem delegating_nonneg (rs : RS K) (total : K) (profile : Profile) (all : List (Pool K)) (before x : K) (p : Pool K) :
    0 ≤ delegating rs total profile all before x p := by
  unfold delegating
  cases profile <;> exact le_max_right _ _

/-- an agent that rests has no better delegation -/
theorem Rests.no_better {c : Config K} (hc : c.simultaneous = false) {t : State K} (ht : Reachable c t) {ord : List Nat → List Nat} (hord : ∀ l, (ord l).Perm l) {a : Nat}
    (hr : Rests ord t a) : ∃ ag, t.agents.get? a = some ag ∧ (ag.profile = .abstainer ∨ ∃ σ, ag.strategy = some σ ∧
      (∃ d, PlacedAll t.rs (openPools t) ag σ.allocs ag.stake d) ∧
      ∀ d, PlacedAll t.rs (openPools t) ag σ.allocs ag.stake d →
        ¬ Beats t.relThr t.absThr (income t σ)
          (expectation t.rs t.totalStake (openPools t) ag σ.allocs (σ.owned.map (fun e => t.heap e.2)) σ.allocs)
          (expectation t.rs t.totalStake (openPools t) ag σ.allocs [] d)) := by
  obtain ⟨ag, ha, hag⟩ := hr
  refine ⟨ag, ha, hag.imp_right ?_⟩
  rintro ⟨σ, s₁, hσ, hpm⟩
  obtain ⟨s₂, δ, ω, h1, -, -, -, h2, -, -⟩ := C90_plan ht ha hσ (Or.inl hc) hord hpm
  obtain ⟨s₃, δ', ω', ou, h1', -, -, h3, -⟩ := C94_plan ht ha hσ (Or.inl hc) hord hpm
  rw [h1] at h1'
  cases h1'
  refine ⟨σ, hσ, ⟨δ.allocs, h3⟩, fun d hd => ?_⟩
  rw [expectation_perm _ _ _ _ _ _ (perm_of_get? hd.1 h3.1 (fun k => by rw [hd.2, h3.2]))]
  exact (h2.1 rfl).1

/-- C116, everybody.  In the final state of a run that reports an equilibrium (sequential or random activation; at least one round in the last phase), no agent but an abstainer could do
better, by both thresholds and by its own expectations (C90), by delegating all its stake as it would (C94) instead of what it does. -/
theorem C116_delegation {R : Type} {c : Config K} (hc : c.simultaneous = false) {ord : List Nat → List Nat} (hord : ∀ l, (ord l).Perm l)
    {order : Nat → List Nat} (hfull : ∀ i a, a ∈ order i ↔ a < c.people.length) {report : State K → Py R} {conv : Int} (h1 : 1 ≤ conv)
    {totalPhases : Nat} {phases : Nat → PhaseParams K} {m : Int} (h0 : 0 ≤ m) {fuel : Nat} {l : Loop (State K) R}
    (hl : Loop.runModel (seqEnv ord order report conv totalPhases phases) fuel (Loop.init (initState c) m) = .ok l)
    (hyes : l.exports = [true]) (hpiv : ∀ p ∈ l.pivots, p < l.steps) {a : Nat} (ha : a < c.people.length) :
    ∃ ag, l.world.agents.get? a = some ag ∧ (ag.profile = .abstainer ∨ ∃ σ, ag.strategy = some σ ∧
      (∃ d, PlacedAll l.world.rs (openPools l.world) ag σ.allocs ag.stake d) ∧
      ∀ d, PlacedAll l.world.rs (openPools l.world) ag σ.allocs ag.stake d →
        ¬ Beats l.world.relThr l.world.absThr (income l.world σ)
          (expectation l.world.rs l.world.totalStake (openPools l.world) ag σ.allocs (σ.owned.map (fun e => l.world.heap e.2)) σ.allocs)
          (expectation l.world.rs l.world.totalStake (openPools l.world) ag σ.allocs [] d)) := by
  obtain ⟨-, -, -, -, hrest, -, -⟩ := reported hc hord hfull h1 h0 hl hyes hpiv
  obtain ⟨s, hs, hq, hr⟩ := hrest.2 a ha
  exact (hr.plans hs hrest.1 hq).no_better hc hrest.1 hord

/-- C116, those who stay out.  An agent that neither operates nor delegates at a reported equilibrium and is no abstainer expects at most the absolute threshold of delegating its stake as it would:
of all of it together, and so of what it would place in any single pool.  With threshold 0, it expects nothing at all. -/
theorem C116_bystanders {R : Type} {c : Config K} (hc : c.simultaneous = false) {ord : List Nat → List Nat} (hord : ∀ l, (ord l).Perm l)
    {order : Nat → List Nat} (hfull : ∀ i a, a ∈ order i ↔ a < c.people.length) {report : State K → Py R} {conv : Int} (h1 : 1 ≤ conv)
    {totalPhases : Nat} {phases : Nat → PhaseParams K} {m : Int} (h0 : 0 ≤ m) {fuel : Nat} {l : Loop (State K) R}
    (hl : Loop.runModel (seqEnv ord order report conv totalPhases phases) fuel (Loop.init (initState c) m) = .ok l)
    (hyes : l.exports = [true]) (hpiv : ∀ p ∈ l.pivots, p < l.steps) (habs : 0 ≤ l.world.absThr) {a : Nat} (ha : a < c.people.length) {ag : Agent K} {σ : Strategy K}
    (hag : l.world.agents.get? a = some ag) (hσ : ag.strategy = some σ) (hout : σ.owned = [] ∧ σ.allocs = []) :
    (∀ d, PlacedAll l.world.rs (openPools l.world) ag [] ag.stake d →
      expectation l.world.rs l.world.totalStake (openPools l.world) ag [] [] d ≤ l.world.absThr) ∧
    ∀ pid p x, (openPools l.world).get? pid = some p → placed l.world.rs ag.profile (openPools l.world).vals a [] ag.stake p = some x →
      delegating l.world.rs l.world.totalStake ag.profile (openPools l.world).vals 0 x p ≤ l.world.absThr := by
  obtain ⟨ag', hag', hrest⟩ := C116_delegation hc hord hfull h1 h0 hl hyes hpiv ha
  obtain ⟨-, -, -, -, hreach, -, -⟩ := reported hc hord hfull h1 h0 hl hyes hpiv
  rw [hag] at hag'
  cases hag'
  have hg := hreach.1.good minUnit_pos
  have hid := hg.inv.core.agentId a ag hag
  rcases hrest with hp | ⟨σ', hσ', ⟨d₀, hd₀⟩, hbest⟩
  · have := (hg.inv.abst a ag hag hp).1
    rw [hσ] at this; cases this
  · rw [hσ] at hσ'
    cases hσ'
    have hall : ∀ d, PlacedAll l.world.rs (openPools l.world) ag [] ag.stake d →
        expectation l.world.rs l.world.totalStake (openPools l.world) ag [] [] d ≤ l.world.absThr := by
      intro d hd
      have hb := hbest d (by rw [hout.2]; exact hd)
      have hi : income l.world σ = 0 := by simp [income, hout.1, hout.2]
      have he : expectation l.world.rs l.world.totalStake (openPools l.world) ag σ.allocs (σ.owned.map (fun e => l.world.heap e.2)) σ.allocs = 0 := by
        simp [expectation, hout.1, hout.2]
      rw [hi, he, hout.2] at hb
      unfold Beats at hb
      simp only [mul_zero, zero_add] at hb
      by_contra hcon
      exact hb ⟨lt_of_le_of_lt habs (not_le.1 hcon), not_le.1 hcon, lt_of_le_of_lt habs (not_le.1 hcon), not_le.1 hcon⟩
    refine ⟨hall, fun pid p x hp hx => ?_⟩
    rw [hout.2] at hd₀
    have h2 := hall d₀ hd₀
    have hget : d₀.get? pid = some x := by
      rw [hd₀.2, hp, hid]; exact hx
    refine le_trans ?_ h2
    unfold expectation
    simp only [List.map_nil, List.sum_nil, zero_add]
    have hmem := List.mem_map_of_mem (f := fun e : Nat × K => match (openPools l.world).get? e.1 with
      | some p => delegating l.world.rs l.world.totalStake ag.profile (openPools l.world).vals ((Dict.get? ([] : Dict K) e.1).getD 0) e.2 p
      | none => 0) (Dict.mem_of_get? hget)
    simp only [hp] at hmem
    refine List.single_le_sum (fun y hy => ?_) _ hmem
    obtain ⟨e, -, rfl⟩ := List.mem_map.1 hy
    cases (openPools l.world).get? e.1 with
    | none => exact le_rfl
    | some q => exact delegating_nonneg _ _ _ _ _ _ _

/-- three agents that operate, one with little stake and high costs, and an abstainer; an absolute threshold of 1/100 -/
def bystander : Config ℚ :=
  { demo false with
    absThr := 1/100
    people := [(3/10, 1/1000, .nonMyopic), (3/10, 1/500, .nonMyopic), (39/100, 1/100, .myopic), (1/100, 1/50, .nonMyopic), (0, 1/1000, .abstainer)] }

/-- what is shown of an agent: the number of its pools, the number of its delegations, and what it expects of delegating all its stake to the pool `pid` -/
def standing (s : State ℚ) (a pid : Nat) : Option (Nat × Nat × ℚ) :=
  (s.agents.get? a).bind (fun ag => ag.strategy.map (fun σ =>
    (σ.owned.length, σ.allocs.length, expectation s.rs s.totalStake (openPools s) ag [] [] [(pid, ag.stake)])))

instance standingDec : DecidableEq (Nat × Nat × ℚ) := instDecidableEqProd
instance standingDec' : DecidableEq (List Bool × List Nat × ℚ × Nat × Option (Nat × Nat × ℚ)) := instDecidableEqProd

/-- The hypotheses are met: five pools are open at the equilibrium, and agent 3 stays out, though it expects something of delegating, for instance to pool 4. -/
example : ∃ l, Loop.runModel (demoEnv 2 1 {} none) 21 (Loop.init (initState bystander) 20) = .ok l ∧ l.exports = [true] ∧ l.pivots = [] ∧
    l.world.absThr = 1/100 ∧ poolCount l.world = 5 ∧ standing l.world 3 4 = some (0, 0, 5437/650000) := by
  have key : (Loop.runModel (demoEnv 2 1 {} none) 21 (Loop.init (initState bystander) 20)).toOption.map
      (fun l => (l.exports, l.pivots, l.world.absThr, poolCount l.world, standing l.world 3 4)) = some ([true], [], 1/100, 5, some (0, 0, 5437/650000)) := by
    decide +kernel
  cases h : Loop.runModel (demoEnv 2 1 {} none) 21 (Loop.init (initState bystander) 20) with
  | error e => rw [h] at key; cases key
  | ok l =>
    rw [h] at key
    simp only [Except.toOption, Option.map_some, Option.some.injEq, Prod.mk.injEq] at key
    exact ⟨l, rfl, key⟩

end RSE.Props
