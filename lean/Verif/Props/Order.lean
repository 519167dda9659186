import Verif.Model.Order
import Verif.Lemmas.Reach
import Verif.Props.Loop

/-!
# C73: changing the activation order between phases
-/

set_option linter.unusedSectionVars false

namespace RSE.Props

variable {F : Type} [LinearOrder F] [Zero F] [One F] [Add F] [Sub F] [Mul F] [Div F] [Neg F] [NatCast F] [FSum F]

/-- the strategy that agent `a` follows -/
def strategyOf (s : State F) (a : Nat) : Option (Strategy F) := (s.agents.get? a).bind (·.strategy)

/-- nobody's strategy and no pool has changed: pools keep their operators, pledges, costs, margins and profits, and their ranking -/
structure Frozen (s s' : State F) : Prop where
  strategies : ∀ a, strategyOf s' a = strategyOf s a
  pools : s'.pools = s.pools
  pool : ∀ pid r, s.pools.get? pid = some r → SamePool (s.heap r) (s'.heap r)
  rank : s'.rank = s.rank
  idle : s.idle = true → s'.idle = true
  simultaneous : s'.simultaneous = s.simultaneous

theorem setOrder_inv {n : Nat} {s : State F} (h : Inv n s) (b : Bool) : Inv n (setOrder s b) := by
  obtain ⟨hc, ho, h1, h2, h3, h4⟩ := h
  refine ⟨⟨hc.1, hc.2, hc.3, hc.4, hc.5, hc.6, hc.7, hc.8, hc.9⟩, ?_, h1, h2, h3, h4⟩
  constructor <;> first | exact ho.1 | exact ho.2 | exact ho.3 | exact ho.4 | exact ho.5

theorem setOrder_good {c : Config F} {s : State F} (h : Good c s) : Good { c with simultaneous := true } (setOrder s true) :=
  ⟨setOrder_inv h.inv true, fun h => (by cases h), ⟨h.fixed.agents, h.fixed.totalStake, rfl, h.fixed.idSeq⟩⟩

/-- an event of a scheduler that knows nothing of staged strategies -/
def Plain : Event F → Prop
  | .step _ _ => True
  | .roundEnd => True
  | _ => False

/-- C73.  A simulation with the sequential or the random scheduler switches to a simultaneous order in a new phase.  From then on, in whatever order and
however often the agents are activated by that scheduler, nobody's strategy and no pool ever changes, and every round counts as idle. -/
theorem C73_frozen (hmin : (0 : F) < minUnit) {c : Config F} {s s' : State F} (h : Reachable c s) {es : List (Event F)}
    (hes : ∀ e ∈ es, e.Valid c.people.length ∧ Plain e) (hrun : iterM exec (setOrder s true) es = .ok s') : Frozen (setOrder s true) s' := by
  let c' : Config F := { c with simultaneous := true }
  refine (iterM_induct (P := fun s' => Good c' s' ∧ Frozen (setOrder s true) s') (V := fun e => e.Valid c.people.length ∧ Plain e) ?_
    ⟨setOrder_good (h.good hmin), ⟨fun _ => rfl, rfl, fun _ _ _ => SamePool.refl _, rfl, fun h => h, rfl⟩⟩ hes hrun).2
  rintro s₁ ev s₂ ⟨hg, hf⟩ ⟨hv, hp⟩ he
  obtain ⟨hd, hg'⟩ := (hg.exec hmin (ev := ev) hv).of_ok he
  refine ⟨hg', ?_⟩
  have hsim : s₁.simultaneous = true := hf.simultaneous
  cases hd with
  | idle => exact hf
  | plan me ord ag σ oν s₃ _ ha hprof hσ hpm hpl =>
    have hid := hg.inv.core.agentId me ag ha
    have hpd := hpl.planned
    refine ⟨fun a => ?_, ?_, ?_, ?_, ?_, ?_⟩
    · rw [← hf.strategies a]
      unfold strategyOf
      rw [hpl.eq, get?_setAgent (me := me) (ag := { ag with newStrategy := oν }) hid a, hpd.agents]
      split
      · rename_i hb; subst hb; rw [ha]; rfl
      · rfl
    · rw [hpl.eq]; exact hpd.pools.trans hf.pools
    · intro pid r hr
      have hr1 : s₁.pools.get? pid = some r := by rw [hf.pools]; exact hr
      rw [hpl.eq]
      exact (hf.pool pid r hr).trans (hpd.same r (hg.inv.core.poolRef _ _ hr1).1)
    · rw [hpl.eq]; exact hpd.rank.trans hf.rank
    · intro hi; rw [hpl.eq]; exact hpd.idle.trans (hf.idle hi)
    · rw [hpl.eq]; exact hpd.simultaneous.trans hf.simultaneous
  | move me ord ag σ ν s₃ s₄ s₅ ha hprof hσ hpm hpl hs => rw [hsim] at hs; cases hs
  | skip => cases hp
  | adv => cases hp
  | phase => cases hp
  | roundEnd => exact ⟨hf.strategies, hf.pools, hf.pool, hf.rank, fun _ => rfl, hf.simultaneous⟩

/-- nobody has staged a strategy -/
def NothingStaged (s : State F) : Prop := ∀ a ag, s.agents.get? a = some ag → ag.newStrategy = none

/-- a turn in a state whose order is not simultaneous -/
theorem thawed_turn (hmin : (0 : F) < minUnit) {n m : Nat} {s s' : State F} (h : Inv n s) (hs : s.simultaneous = false) (hn : NothingStaged s)
    (hm : ∀ a < m, (s.agents.get? a).isSome) {a : Nat} {ord : List Nat → List Nat} (hv : (Event.step (F := F) a ord).Valid m)
    (he : agentStep ord s a = .ok s') :
    Inv n s' ∧ s'.simultaneous = false ∧ NothingStaged s' ∧ ∀ a < m, (s'.agents.get? a).isSome := by
  have hd := (exec_did hmin h hv hm (t := False) (fun hf => hf.elim)).of_ok (show exec s (.step a ord) = .ok s' from he)
  cases hd with
  | idle => exact ⟨h, hs, hn, hm⟩
  | plan me _ ag σ oν s₃ _ ha hprof hσ hpm hpl hsim =>
    have hid := h.core.agentId _ ag ha
    have hget : ∀ b, s'.agents.get? b = if b = a then some { ag with newStrategy := oν } else s.agents.get? b := by
      intro b; rw [hpl.eq, get?_setAgent (me := a) (ag := { ag with newStrategy := oν }) hid b, hpl.planned.agents]
    have ho : oν = none := by
      rcases hsim with hsim | ho
      · rw [hs] at hsim; cases hsim
      · exact ho
    subst ho
    refine ⟨hpl.inv, ?_, fun b ag' hb => ?_, fun b hb => ?_⟩
    · rw [hpl.eq]; exact hpl.planned.simultaneous.trans hs
    · rw [hget] at hb
      split at hb
      · cases hb; rfl
      · exact hn b ag' hb
    · rw [hget]; split
      · rfl
      · exact hm b hb
  | move me _ ag σ ν s₁ s₂ s₃ ha hprof hσ hpm hpl hsim ht hex hd hinv =>
    have hid := h.core.agentId _ ag ha
    have hget : ∀ b, s₂.agents.get? b = if b = a then some { ag with newStrategy := some ν } else s.agents.get? b := by
      intro b; rw [hpl.eq, get?_setAgent (me := a) (ag := { ag with newStrategy := some ν }) hid b, hpl.planned.agents]
    have hsome : ∀ b, (s₃.agents.get? b).isSome = (s₂.agents.get? b).isSome := by
      intro b
      by_cases hb : b = a
      · subst hb; have := congrArg Option.isSome hd.mine; simpa using this
      · have := congrArg Option.isSome (hd.others b hb); simpa using this
    refine ⟨hinv, ?_, fun b ag' hb => ?_, fun b hb => ?_⟩
    · change s₃.simultaneous = false
      rw [hd.frame]; change s₂.simultaneous = false
      rw [hpl.eq]; exact hpl.planned.simultaneous.trans hs
    · have hb : s₃.agents.get? b = some ag' := hb
      by_cases hba : b = a
      · subst hba
        have := hd.mine
        rw [hb, hget, if_pos rfl] at this
        simp only [Option.map_some, Option.some.injEq, Agent.skel, Prod.mk.injEq] at this
        exact Option.map_eq_none_iff.1 this.2.2.2.2.2
      · have := hd.others b hba
        rw [hb, hget, if_neg hba] at this
        cases hag : s.agents.get? b with
        | none => rw [hag] at this; cases this
        | some ag₀ =>
          rw [hag] at this
          have h0 := hn b ag₀ hag
          simp only [Option.map_some, Option.some.injEq, Agent.skel, Prod.mk.injEq, h0, Option.map_none] at this
          exact Option.map_eq_none_iff.1 this.2.2.2.2.2
    · change (s₃.agents.get? b).isSome
      rw [hsome, hget]; split
      · rfl
      · exact hm b hb

theorem advance_nothing {ord : List Nat → List Nat} {s : State F} (hn : NothingStaged s) {a : Nat} (ha : (s.agents.get? a).isSome) :
    advance ord s a = .ok s := by
  obtain ⟨ag, ha⟩ := Option.isSome_iff_exists.1 ha
  unfold advance
  have : s.agents.getE a = .ok ag := by unfold Dict.getE; rw [ha]
  rw [this]
  simp only [bind, Except.bind, hn a ag ha]
  rfl

theorem iterM_fixed {α σ : Type} {f : σ → α → Py σ} {s : σ} {l : List α} (h : ∀ a ∈ l, f s a = .ok s) : iterM f s l = .ok s := by
  induction l with
  | nil => rfl
  | cons a t ih =>
    simp only [iterM, h a (by simp), bind, Except.bind]
    exact ih (fun a ha => h a (List.mem_cons_of_mem _ ha))

/-- C73, the other direction.  A simulation with the simultaneous scheduler switches, between two rounds (nobody has staged a strategy), to
"sequential" or "random" in a new phase: its rounds are then those of the sequential scheduler, agents take turns one after the other. -/
theorem C73_thawed (hmin : (0 : F) < minUnit) {c : Config F} {s : State F} (h : Reachable c s) (hn : NothingStaged s)
    {ords : Nat → List Nat → List Nat} (hords : ∀ i l, (ords i l).Perm l) {order : List Nat} (ho : ∀ a ∈ order, a < c.people.length) :
    roundSimultaneous ords order (setOrder s false) = roundSequential ords order (setOrder s false) := by
  have hg := h.good hmin
  have hm : ∀ a < c.people.length, ((setOrder s false).agents.get? a).isSome := fun a ha => by
    have h1 := isSome_init c ha
    have h2 := hg.fixed.agents a
    have := congrArg Option.isSome h2
    simp only [Option.isSome_map] at this
    change (s.agents.get? a).isSome
    rw [this]; exact h1
  unfold roundSimultaneous roundSequential
  cases hr : iterM (fun s (e : Nat × Nat) => agentStep (ords e.2) s e.1) (setOrder s false) order.zipIdx with
  | error e => rfl
  | ok s' =>
    have hmem : ∀ e ∈ order.zipIdx, e.1 < c.people.length := fun e he => by
      have := List.mem_zipIdx_iff_getElem?.1 he
      exact ho _ (List.mem_of_getElem? this)
    have := iterM_induct (P := fun s' => Inv (c.rs.k + 1) s' ∧ s'.simultaneous = false ∧ NothingStaged s' ∧ ∀ a < c.people.length, (s'.agents.get? a).isSome)
      (V := fun e : Nat × Nat => e.1 < c.people.length) (fun s₁ e s₂ hp hv he => thawed_turn hmin hp.1 hp.2.1 hp.2.2.1 hp.2.2.2 ⟨hv, hords e.2⟩ he)
      ⟨setOrder_inv hg.inv false, rfl, hn, hm⟩ hmem hr
    exact iterM_fixed (fun e he => advance_nothing this.2.2.1 (this.2.2.2 _ (hmem e he)))

/-! ### The hypotheses are met, and the consequences -/

/-- `demo false` with two phases, the second one with `k = 2` and possibly another order, played by the sequential scheduler -/
def orderDemo (o : Option Bool) : Env (State ℚ) Nat :=
  orderEnv (fun _ => roundSequential (fun _ => id) [0, 1, 2, 3, 4]) (fun s => .ok (poolCount s)) 2 2 (fun _ => { k := some 2 }) (fun _ => o)

instance : DecidableEq (List Int × List Bool × Nat × Bool) := instDecidableEqProd
instance : DecidableEq (Nat × Bool × Option Nat) := instDecidableEqProd

/-- `C73_frozen` is not vacuous and matters: with the order changed to "simultaneous" in the second phase, the simulation reports an equilibrium with
four pools although agent 3 wants to move (they have staged a strategy that is never executed).  With the order left alone the same agents move, and
two pools remain. -/
theorem C73_spurious_equilibrium :
    (∃ l, Loop.runModel (orderDemo (some true)) 21 (Loop.init (initState (demo false)) 20) = .ok l ∧ l.exports = [true] ∧
      poolCount l.world = 4 ∧ ∃ ag ν, l.world.agents.get? 3 = some ag ∧ ag.newStrategy = some ν) ∧
    ∃ l, Loop.runModel (orderDemo none) 21 (Loop.init (initState (demo false)) 20) = .ok l ∧ l.exports = [true] ∧ poolCount l.world = 2 := by
  have key : ∀ (o : Option Bool) v, ((Loop.runModel (orderDemo o) 21 (Loop.init (initState (demo false)) 20)).toOption.map
      (fun l => (l.eqSteps, l.exports, poolCount l.world, (((l.world.agents.get? 3).bind (·.newStrategy)).isSome))) = some v) →
      ∃ l, Loop.runModel (orderDemo o) 21 (Loop.init (initState (demo false)) 20) = .ok l ∧
        (l.eqSteps, l.exports, poolCount l.world, (((l.world.agents.get? 3).bind (·.newStrategy)).isSome)) = v := by
    intro o v h
    cases hx : Loop.runModel (orderDemo o) 21 (Loop.init (initState (demo false)) 20) with
    | error e => rw [hx] at h; cases h
    | ok l => rw [hx] at h; exact ⟨l, rfl, by simpa [Except.toOption] using h⟩
  constructor
  · obtain ⟨l, h1, h2⟩ := key (some true) ([2, 3], [true], 4, true) (by decide +kernel)
    simp only [Prod.mk.injEq] at h2
    obtain ⟨ν, hν⟩ := Option.isSome_iff_exists.1 h2.2.2.2
    obtain ⟨ag, ha, hν⟩ := Option.bind_eq_some_iff.1 hν
    exact ⟨l, h1, h2.2.1, h2.2.2.1, ag, ν, ha, hν⟩
  · obtain ⟨l, h1, h2⟩ := key none ([2, 6], [true], 2, false) (by decide +kernel)
    simp only [Prod.mk.injEq] at h2
    exact ⟨l, h1, h2.2.1, h2.2.2.1⟩

/-- a frozen round of five turns in a state with three pools -/
example : ∃ s s', Reachable (demo false) s ∧ s.pools.length = 3 ∧ iterM exec (setOrder s true) demoRound = .ok s' ∧
    (s'.agents.any fun e => e.2.newStrategy.isSome) = true := by
  obtain ⟨s, ⟨es, h1, h2⟩, h3⟩ := reachable_of_run demoRounds_valid
    (f := fun s => (s.pools.length, (iterM exec (setOrder s true) demoRound).toOption.map (fun s' => s'.agents.any fun e => e.2.newStrategy.isSome)))
    (v := (3, some true)) (by decide +kernel)
  simp only [Prod.mk.injEq] at h3
  cases hx : iterM exec (setOrder s true) demoRound with
  | error e => rw [hx] at h3; cases h3.2
  | ok s' =>
    rw [hx] at h3
    exact ⟨s, s', ⟨es, fun e he => (h1 e he).1, h2⟩, h3.1, hx, by simpa [Except.toOption] using h3.2⟩

/-- a simultaneous round: everybody plans, then everybody moves -/
def demoAdvance : List (Event ℚ) := [.step 0 id, .step 1 id, .step 2 id, .step 3 id, .step 4 id,
  .advance 0 id, .advance 1 id, .advance 2 id, .advance 3 id, .advance 4 id]

/-- after it nobody has staged anything, and the next round succeeds with the order changed -/
example : ∃ s, Reachable (demo true) s ∧ NothingStaged s ∧ s.pools.length = 12 ∧
    (∃ s', roundSimultaneous (fun _ => id) [0, 1, 2, 3, 4] (setOrder s false) = .ok s' ∧ s'.pools.length = 5) := by
  have hv : ∀ e ∈ demoAdvance, e.Valid (demo true).people.length ∧ ∀ p, e ≠ .phase p := by
    intro e he
    simp only [demoAdvance, List.mem_cons, List.not_mem_nil, or_false] at he
    rcases he with rfl | rfl | rfl | rfl | rfl | rfl | rfl | rfl | rfl | rfl <;>
      exact ⟨⟨by simp [demo], fun l => List.Perm.refl _⟩, fun p => by simp⟩
  obtain ⟨s, ⟨es, h1, h2⟩, h3⟩ := reachable_of_run hv
    (f := fun s => (s.pools.length, s.agents.all fun e => e.2.newStrategy.isNone,
      (roundSimultaneous (fun _ => id) [0, 1, 2, 3, 4] (setOrder s false)).toOption.map (fun s' => s'.pools.length)))
    (v := (12, true, some 5)) (by decide +kernel)
  simp only [Prod.mk.injEq] at h3
  refine ⟨s, ⟨es, fun e he => (h1 e he).1, h2⟩, fun a ag ha => ?_, h3.1, ?_⟩
  · have := List.all_eq_true.1 h3.2.1 _ (Dict.mem_of_get? ha)
    simpa using this
  · cases hx : roundSimultaneous (fun _ => id) [0, 1, 2, 3, 4] (setOrder s false) with
    | error e => rw [hx] at h3; cases h3.2.2
    | ok s' => rw [hx] at h3; exact ⟨s', rfl, by simpa [Except.toOption] using h3.2.2⟩

end RSE.Props
