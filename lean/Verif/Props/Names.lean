import Verif.Lemmas.Rename
import Verif.Model.Construct
import Verif.Props.Rounds
import Verif.Spec.Demo

/-!
# C85: pool ids are only names

Pools are numbered in the order in which plans create them.  Ids decide between pools that are equal in all other respects of the rankings, and
dictionaries of pools are sorted by the time of insertion; so numbers that are in the same order must give the same simulation.  Proved here for
numbering that starts at any number: all rows of metrics, the equilibrium and the phases are the same, and the states differ only in the ids.

`ord` is the order in which a set of ids is iterated.  The theorems ask for orders that do not depend on the numbers themselves
(`∀ l, ord (l.map g) = (ord l).map g`; `id` and sorting are such orders).  In CPython the iteration order of a set of small numbers does depend on
them, through their hash values.
-/

set_option linter.unusedSectionVars false

namespace RSE.Props

section
variable {F : Type} [LinearOrder F] [Zero F] [One F] [Add F] [Sub F] [Mul F] [Div F] [Neg F] [NatCast F] [FSum F]

/-- Numbering that starts `j` later.  0 is not the id of a pool; it fills the third place of the key of the `None`s in a ranking. -/
def later (j p : Nat) : Nat := if p = 0 then 0 else p + j

/-- a strategy with the pools numbered differently -/
def Strategy.relabel (g : Nat → Nat) (σ : Strategy F) : Strategy F :=
  { allocs := σ.allocs.map (fun e => (g e.1, e.2)), owned := σ.owned.map (fun e => (g e.1, e.2)) }

/-- the states are the same except for the ids of pools -/
structure SameButIds (g : Nat → Nat) (s s' : State F) : Prop where
  rs : s'.rs = s.rs
  relThr : s'.relThr = s.relThr
  absThr : s'.absThr = s.absThr
  extraFrac : s'.extraFrac = s.extraFrac
  totalStake : s'.totalStake = s.totalStake
  simultaneous : s'.simultaneous = s.simultaneous
  idle : s'.idle = s.idle
  agents : s'.agents = s.agents.map (fun e => (e.1, { e.2 with
    strategy := e.2.strategy.map (Strategy.relabel g), newStrategy := e.2.newStrategy.map (Strategy.relabel g) }))
  pools : s'.pools = s.pools.map (fun e => (g e.1, e.2))
  heap : ∀ r, s'.heap r = { s.heap r with id := g (s.heap r).id }
  /-- the rankings list the same pools in the same order -/
  rank : s'.rank.map Prod.snd = s.rank.map Prod.snd
  rankM : s'.rankM.map Prod.snd = s.rankM.map Prod.snd

/-- the naming in which ids are `j` larger and objects the same -/
def laterNaming (j : Nat) : Naming where
  f := id
  g := later j
  f_inj := Function.injective_id
  g_mono := by
    intro a b h
    simp only [later]
    repeat' split
    all_goals omega
  g_zero := rfl

theorem Renamed.sameButIds {j : Nat} {s s' : State F} (h : Renamed (laterNaming j) s s') : SameButIds (later j) s s' where
  rs := h.rs
  relThr := h.relThr
  absThr := h.absThr
  extraFrac := h.extraFrac
  totalStake := h.totalStake
  simultaneous := h.simultaneous
  idle := h.idle
  agents := h.agents
  pools := h.pools
  heap := h.heap
  rank := by
    rw [h.rank]
    unfold Naming.rank
    rw [List.map_map]
    refine List.map_congr_left fun e _ => ?_
    simp [Naming.ref, laterNaming]
  rankM := by
    rw [h.rankM]
    unfold Naming.rankM
    rw [List.map_map]
    refine List.map_congr_left fun e _ => ?_
    simp [Naming.ref, laterNaming]

theorem init_renamed (c : Config F) (j : Nat) : Renamed (laterNaming j) (initState c) { initState c with idSeq := j } where
  rs := rfl
  relThr := rfl
  absThr := rfl
  extraFrac := rfl
  totalStake := rfl
  simultaneous := rfl
  idle := rfl
  agents := by
    simp only [initState, Dict.rename, List.map_map]
    refine List.map_congr_left fun e _ => ?_
    simp only [Function.comp_apply, newAgent]
    split <;> rfl
  pools := rfl
  heap := fun _ => rfl
  next := fun _ => rfl
  rank := by
    simp only [initState, Naming.rank, List.map_replicate]
    rfl
  rankM := by
    simp only [initState, Naming.rankM, List.map_replicate]
    rfl
  idSeq := by
    intro i
    simp only [laterNaming, later, initState]
    rw [if_neg (by omega)]
    omega

/-- the event iterates sets in an order that does not depend on the numbers -/
def Event.Natural (g : Nat → Nat) : Event F → Prop
  | .step _ ord => ∀ l, ord (l.map g) = (ord l).map g
  | .advance _ ord => ∀ l, ord (l.map g) = (ord l).map g
  | .phase _ => True
  | .roundEnd => True

/-- C85.  If the ids of pools start `j` later, the same events lead to the same exception, or to states that differ only in the ids. -/
theorem C85_events (c : Config F) (j : Nat) {es : List (Event F)} (hes : ∀ e ∈ es, Event.Natural (later j) e) :
    Rel (SameButIds (later j)) (iterM exec (initState c) es) (iterM exec { initState c with idSeq := j } es) := by
  have h := run_alike (es := es) (es' := es) (init_renamed c j) (by
    rw [List.forall₂_same]
    intro e he
    have := hes e he
    cases e with
    | step a ord => exact ⟨rfl, this⟩
    | advance a ord => exact ⟨rfl, this⟩
    | phase p => exact rfl
    | roundEnd => trivial)
  cases h1 : iterM exec (initState c) es with
  | error e => cases h2 : iterM exec { initState c with idSeq := j } es with
    | error e' => rw [h1, h2] at h; exact h
    | ok t => rw [h1, h2] at h; exact h.elim
  | ok s => cases h2 : iterM exec { initState c with idSeq := j } es with
    | error e' => rw [h1, h2] at h; exact h.elim
    | ok t => rw [h1, h2] at h; exact Renamed.sameButIds h

/-! ### The metrics do not read ids -/

section
variable {ρ : Naming} {s s' : State F} (h : Renamed ρ s s')
include h

theorem renamed_poolsList : poolsList s' = (poolsList s).map ρ.pool := by
  unfold poolsList
  rw [h.pools]
  simp only [Naming.owned, Dict.rename, List.map_map]
  exact List.map_congr_left fun e _ => h.heap e.2

theorem renamed_length : (poolsList s').length = (poolsList s).length := by rw [renamed_poolsList h, List.length_map]

theorem renamed_map {α : Type} (f : Pool F → α) (hf : ∀ p, f (ρ.pool p) = f p) : (poolsList s').map f = (poolsList s).map f := by
  rw [renamed_poolsList h, List.map_map]
  exact List.map_congr_left fun p _ => hf p

theorem renamed_mapM {α : Type} (f : Pool F → Py α) (hf : ∀ p, f (ρ.pool p) = f p) : (poolsList s').mapM f = (poolsList s).mapM f := by
  rw [renamed_poolsList h]
  exact mapM_map (fun p _ => hf p)

theorem renamed_iterM {σ : Type} (f : σ → Pool F → Py σ) (hf : ∀ x p, f x (ρ.pool p) = f x p) (x : σ) :
    iterM f x (poolsList s') = iterM f x (poolsList s) := by
  rw [renamed_poolsList h, iterM_map]
  congr 1
  funext x p
  exact hf x p

theorem renamed_foldl {σ : Type} (f : σ → Pool F → σ) (hf : ∀ x p, f x (ρ.pool p) = f x p) (x : σ) :
    (poolsList s').foldl f x = (poolsList s).foldl f x := by
  rw [renamed_poolsList h, List.foldl_map]
  congr 1
  funext x p
  exact hf x p

theorem renamed_agents {α : Type} (f : Nat → Agent F → α) (hf : ∀ i a, f i (ρ.agent a) = f i a) :
    s'.agents.map (fun e => f e.1 e.2) = s.agents.map (fun e => f e.1 e.2) := by
  rw [h.agents]
  simp only [Dict.rename, List.map_map]
  exact List.map_congr_left fun e _ => hf e.1 e.2

theorem renamed_controlled : controlledStake s' = controlledStake s := by
  unfold controlledStake
  rw [renamed_agents h (fun i _ => (i, (0 : F))) (fun _ _ => rfl)]
  exact renamed_iterM h _ (fun _ _ => rfl) _

theorem renamed_agentsM {α : Type} (f : Nat × Agent F → Py α) (hf : ∀ i a, f (i, ρ.agent a) = f (i, a)) : s'.agents.mapM f = s.agents.mapM f := by
  rw [h.agents]
  exact mapM_map (fun e _ => hf e.1 e.2)

theorem renamed_rankStatistic (stat : List ℚ → Py ℚ) {r r' : Py (Dict Nat)} (hr : r' = r) : rankStatistic stat r' s' = rankStatistic stat r s := by
  subst hr
  unfold rankStatistic ownerRanks
  congr 1; funext d
  rw [renamed_mapM h _ (fun _ => rfl)]

/-- no metric but "StakePairs", which lists ids, depends on the names of pools -/
theorem renamed_reporter (env : MetricEnv F) (hsol : env.solver s' = env.solver s) {name : String} (hn : name ≠ "StakePairs") :
    reportColumn env s' name = reportColumn env s name := by
  have hpl : totalPledge s' = totalPledge s := by unfold totalPledge; rw [renamed_map h _ (fun _ => rfl)]
  have hds : totalDelegatedStake s' = totalDelegatedStake s := by unfold totalDelegatedStake; rw [renamed_map h _ (fun _ => rfl)]
  have how : owners s' = owners s := renamed_map h _ (fun _ => rfl)
  have hpo : poolsOwned s' = poolsOwned s := renamed_foldl h _ (fun _ _ => rfl) _
  have hso : stakeOwned s' = stakeOwned s := renamed_foldl h _ (fun _ _ => rfl) _
  have hlen := renamed_length h
  have hag : ∀ {α : Type} (f : Agent F → α), (∀ a, f (ρ.agent a) = f a) → (agentsList s').map f = (agentsList s).map f := by
    intro α f hf
    unfold agentsList
    rw [List.map_map, List.map_map]
    exact renamed_agents h (fun _ a => f a) (fun _ a => hf a)
  have hsr : stakeRanks s' = stakeRanks s := by unfold stakeRanks; rw [renamed_agents h (fun i a => (i, a.stake)) (fun _ _ => rfl)]
  have hcr : costRanks s' = costRanks s := by unfold costRanks; rw [renamed_agents h (fun i a => (i, -a.cost)) (fun _ _ => rfl)]
  have m1 : poolCount s' = poolCount s := by unfold poolCount; rw [h.pools]; exact List.length_map _
  have m3 : avgPledge s' = avgPledge s := by unfold avgPledge; rw [renamed_map h _ (fun _ => rfl)]
  have m4 : medianPledge s' = medianPledge s := by unfold medianPledge; rw [renamed_map h _ (fun _ => rfl)]
  have m5 : avgPoolsPerOperator s' = avgPoolsPerOperator s := by unfold avgPoolsPerOperator; rw [how, hlen]
  have m6 : maxPoolsPerOperator s' = maxPoolsPerOperator s := by unfold maxPoolsPerOperator; rw [how, hlen]
  have m7 : medianPoolsPerOperator s' = medianPoolsPerOperator s := by unfold medianPoolsPerOperator; rw [how, hlen]
  have m8 : avgSatRate s' = avgSatRate s := by unfold avgSatRate; rw [hlen, h.rs, renamed_mapM h _ (fun _ => rfl)]
  have m9 : nakamoto s' = nakamoto s := by
    unfold nakamoto
    rw [hlen, renamed_controlled h]
    split
    · rfl
    · congr 1; funext d; rw [renamed_agentsM h _ (fun _ _ => rfl)]
  have m10 : statDistance s' = statDistance s := by
    unfold statDistance
    rw [hlen, renamed_controlled h]
    split
    · rfl
    · congr 1; funext d; rw [renamed_agentsM h _ (fun _ _ => rfl)]
  have m12 : pledgeRate s' = pledgeRate s := by unfold pledgeRate; rw [hlen, hpl, hds]
  have m13 : homogeneityFactor s' = homogeneityFactor s := by unfold homogeneityFactor; rw [renamed_map h _ (fun _ => rfl)]
  have m15 : avgStakeRank s' = avgStakeRank s := renamed_rankStatistic h _ hsr
  have m16 : avgCostRank s' = avgCostRank s := renamed_rankStatistic h _ hcr
  have m17 : medianStakeRank s' = medianStakeRank s := renamed_rankStatistic h _ hsr
  have m18 : medianCostRank s' = medianCostRank s := renamed_rankStatistic h _ hcr
  have m19 : splitterCount s' = splitterCount s := by unfold splitterCount; rw [how, hlen]
  have m20 : costEfficientCount s' = costEfficientCount s := by unfold costEfficientCount; rw [h.rs, hag _ (fun _ => rfl)]
  have m21 : giniPoolCount s' = giniPoolCount s := by unfold giniPoolCount; rw [hpo]
  have m22 : giniStake s' = giniStake s := by unfold giniStake; rw [hso]
  have m23 : giniPoolCountK s' = giniPoolCountK s := by unfold giniPoolCountK; rw [hpo, h.rs]
  have m24 : giniStakeK s' = giniStakeK s := by unfold giniStakeK; rw [hso, h.rs]
  have m25 : avgMargin s' = avgMargin s := by unfold avgMargin; rw [renamed_map h _ (fun _ => rfl)]
  have m26 : medianMargin s' = medianMargin s := by unfold medianMargin; rw [renamed_map h _ (fun _ => rfl)]
  have m27 : stakesByAgent env.n s' = stakesByAgent env.n s := renamed_iterM h _ (fun _ _ => rfl) _
  have m28 : stakesByAgentId env.n s' = stakesByAgentId env.n s := renamed_iterM h _ (fun _ _ => rfl) _
  have m31 : totalAgentStake s' = totalAgentStake s := by unfold totalAgentStake; rw [hag _ (fun _ => rfl)]
  have m32 : operatorCount s' = operatorCount s := by unfold operatorCount; rw [how]
  have hb : (name == "StakePairs") = false := by simpa using hn
  unfold reportColumn allReporters
  simp only [List.lookup, hb, hpl, hds, m1, m3, m4, m5, m6, m7, m8, m9, m10, m12, m13, m15, m16, m17, m18, m19, m20, m21, m22, m23, m24, m25, m26, m27, m28,
    m31, m32, hsol]

/-- C85.  A row of the data collector does not depend on the names of pools, unless "StakePairs" is asked for, which lists them. -/
theorem C85_row (env : MetricEnv F) (hsol : env.solver s' = env.solver s) {cols : List String} (hc : "StakePairs" ∉ cols) :
    collectRow env cols s' = collectRow env cols s := by
  unfold collectRow
  induction cols with
  | nil => rfl
  | cons c t ih =>
    rw [List.mapM_cons, List.mapM_cons, renamed_reporter h env hsol (fun e => hc (e ▸ List.mem_cons_self)), ih (fun hm => hc (List.mem_cons_of_mem _ hm))]

end

end

/-! ### Whole runs -/

section Loops
variable {W R : Type}

/-- two runs that agree in everything but their worlds, which are related -/
structure LoopRel (T : W → W → Prop) (l l' : Loop W R) : Prop where
  world : T l.world l'.world
  rest : l' = { l with world := l'.world }

/-- two worlds that are related behave in the same way -/
structure Bisim (env : Env W R) (T : W → W → Prop) : Prop where
  round : ∀ i w w', T w w' → Rel T (env.round i w) (env.round i w')
  idle : ∀ w w', T w w' → env.idle w' = env.idle w
  rearm : ∀ w w', T w w' → T (env.rearm w) (env.rearm w')
  report : ∀ w w', T w w' → env.report w' = env.report w
  phase : ∀ p w w', T w w' → Rel T (env.newPhase p w) (env.newPhase p w')

theorem Bisim.step {env : Env W R} {T : W → W → Prop} (hb : Bisim env T) {l l' : Loop W R} (h : LoopRel T l l') :
    Rel (LoopRel T) (l.step env) (l'.step env) := by
  obtain ⟨hw, hr⟩ := h
  generalize l'.world = w' at hw hr
  subst hr
  unfold Loop.step
  refine Rel.bind (Rel.of_eq' (hb.report _ _ hw)) ?_
  rintro row _ _ _ rfl
  simp only
  split
  · exact ⟨hw, rfl⟩
  · refine Rel.bind (hb.round _ _ _ hw) ?_
    intro w₁ w₁' _ _ h₁
    simp only [hb.idle _ _ h₁, Loop.hasConverged]
    split
    · by_cases hc : env.conv ≤ ((l.idleCount + 1 : Nat) : Int)
      · simp only [hc, decide_true, if_true]
        split
        · unfold Loop.changePhase
          refine Rel.bind (R := LoopRel T) (Rel.bind (hb.phase _ _ _ h₁) ?_) ?_
          · intro w₂ w₂' _ _ h₂
            exact ⟨h₂, rfl⟩
          · rintro l₂ l₂' _ _ ⟨h₂, e₂⟩
            generalize l₂'.world = w₂' at h₂ e₂
            subst e₂
            exact ⟨hb.rearm _ _ h₂, rfl⟩
        · exact ⟨h₁, rfl⟩
      · simp only [hc, decide_false, Bool.false_eq_true, if_false]
        exact ⟨hb.rearm _ _ h₁, rfl⟩
    · exact ⟨hb.rearm _ _ h₁, rfl⟩

theorem Bisim.loop {env : Env W R} {T : W → W → Prop} (hb : Bisim env T) (fuel : Nat) : ∀ {l l' : Loop W R}, LoopRel T l l' →
    Rel (LoopRel T) (Loop.loop env fuel l) (Loop.loop env fuel l') := by
  induction fuel with
  | zero =>
    intro l l' h
    unfold Loop.loop
    have e1 : l'.steps = l.steps := by rw [h.rest]
    have e2 : l'.maxIter = l.maxIter := by rw [h.rest]
    have e3 : l'.running = l.running := by rw [h.rest]
    rw [e1, e2, e3]
    split
    · exact rfl
    · exact h
  | succ fuel ih =>
    intro l l' h
    unfold Loop.loop
    have e1 : l'.steps = l.steps := by rw [h.rest]
    have e2 : l'.maxIter = l.maxIter := by rw [h.rest]
    have e3 : l'.running = l.running := by rw [h.rest]
    rw [e1, e2, e3]
    split
    · exact Rel.bind (hb.step h) (fun _ _ _ _ h₁ => ih h₁)
    · exact h

end Loops

section
variable {K : Type} [Field K] [LinearOrder K] [IsStrictOrderedRing K]

/-- set iteration orders that do not depend on the numbers -/
def Turns.Natural (g : Nat → Nat) (t : Turns) : Prop := ∀ i j m l, t.ords i j m (l.map g) = (t.ords i j m l).map g

theorem order_round_alike {ρ : Naming} {t : Turns} (ht : Turns.Natural ρ.g t) (o : Order) (n i : Nat) {s s' : State K} (h : Renamed ρ s s') :
    Rel (Renamed ρ) (o.round n t i s) (o.round n t i s') := by
  have steps : ∀ (ords : Nat → List Nat → List Nat), (∀ m l, ords m (l.map ρ.g) = (ords m l).map ρ.g) → ∀ (l : List (Nat × Nat)) {s s' : State K},
      Renamed ρ s s' → Rel (Renamed ρ) (iterM (fun s (e : Nat × Nat) => agentStep (ords e.2) s e.1) s l)
        (iterM (fun s (e : Nat × Nat) => agentStep (ords e.2) s e.1) s' l) := by
    intro ords ho l s s' hs
    have := iterM_alike (φ := id) (f := fun (s : State K) (e : Nat × Nat) => agentStep (ords e.2) s e.1)
      (f' := fun (s : State K) (e : Nat × Nat) => agentStep (ords e.2) s e.1) (fun s s' (e : Nat × Nat) hs => agentStep_alike (ho e.2) hs e.1) l hs
    rwa [List.map_id] at this
  have advs : ∀ (ords : Nat → List Nat → List Nat), (∀ m l, ords m (l.map ρ.g) = (ords m l).map ρ.g) → ∀ (k : Nat) (l : List (Nat × Nat)) {s s' : State K},
      Renamed ρ s s' → Rel (Renamed ρ) (iterM (fun s (e : Nat × Nat) => advance (ords (k + e.2)) s e.1) s l)
        (iterM (fun s (e : Nat × Nat) => advance (ords (k + e.2)) s e.1) s' l) := by
    intro ords ho k l s s' hs
    have := iterM_alike (φ := id) (f := fun (s : State K) (e : Nat × Nat) => advance (ords (k + e.2)) s e.1)
      (f' := fun (s : State K) (e : Nat × Nat) => advance (ords (k + e.2)) s e.1) (fun s s' (e : Nat × Nat) hs => advance_alike (ho (k + e.2)) hs e.1) l hs
    rwa [List.map_id] at this
  cases o with
  | sequential => exact steps _ (ht i 0) _ h
  | random => exact steps _ (ht i 0) _ h
  | simultaneous => exact Rel.bind (steps _ (ht i 0) _ h) (fun _ _ _ _ h₁ => advs _ (ht i 0) _ _ h₁)
  | semisimultaneous =>
    unfold Order.round roundSemi
    have := iterM_alike (φ := id) (ρ := ρ) (f := fun (s : State K) (e : List Nat × Nat) => runBatch (t.ords i e.2) s e.1)
      (f' := fun (s : State K) (e : List Nat × Nat) => runBatch (t.ords i e.2) s e.1)
      (fun s s' e hs => Rel.bind (steps _ (ht i e.2) _ hs) (fun _ _ _ _ h₁ => advs _ (ht i e.2) _ _ h₁))
      (batches 5 (t.sample i) (List.range n).length (List.range n)).zipIdx h
    rwa [List.map_id] at this

/-- C85.  A whole run, with any activation order, any phases and any metrics but "StakePairs", does not depend on the number at which ids of pools
start: either both runs end with the same exception, or both have the same rows of metrics, the same number of rounds, the same equilibria, the same
phases and the same verdict, and their final states differ only in the ids. -/
theorem C85_runs (a : Args K) (b : Built K) (j : Nat) {solver : State K → K} (hsol : ∀ s s', SameButIds (later j) s s' → solver s' = solver s)
    (hcols : "StakePairs" ∉ b.cols) {t : Turns} (ht : Turns.Natural (later j) t) (fuel : Nat) :
    Rel (fun l l' => l' = { l with world := l'.world } ∧ l'.world.1 = l.world.1 ∧ l'.world.2.1 = l.world.2.1 ∧
        SameButIds (later j) l.world.2.2 l'.world.2.2)
      (Loop.loop (runEnv a b solver t) fuel (Loop.init (0, b.n, initState b.config) b.maxIter))
      (Loop.loop (runEnv a b solver t) fuel (Loop.init (0, b.n, { initState b.config with idSeq := j }) b.maxIter)) := by
  have hb : Bisim (runEnv a b solver t) (fun w w' => w'.1 = w.1 ∧ w'.2.1 = w.2.1 ∧ Renamed (laterNaming j) w.2.2 w'.2.2) := by
    refine ⟨?_, ?_, ?_, ?_, ?_⟩
    · rintro i ⟨x, n, s⟩ ⟨x', n', s'⟩ ⟨(rfl : x' = x), (rfl : n' = n), h⟩
      have hlen : s'.agents.length = s.agents.length := by rw [h.agents]; exact List.length_map _
      change Rel _ (b.order.round s.agents.length t i s >>= _) (b.order.round s'.agents.length t i s' >>= _)
      rw [hlen]
      exact Rel.bind (order_round_alike (ρ := laterNaming j) ht b.order _ i h) (fun _ _ _ _ h₁ => ⟨rfl, rfl, h₁⟩)
    · rintro w w' ⟨-, -, h⟩; exact h.idle
    · rintro w w' ⟨e1, e2, h⟩; exact ⟨e1, e2, h.withIdle true⟩
    · rintro ⟨x, n, s⟩ ⟨x', n', s'⟩ ⟨(rfl : x' = x), (rfl : n' = n), h⟩
      exact C85_row h _ (hsol _ _ (Renamed.sameButIds h)) hcols
    · rintro p ⟨x, n, s⟩ ⟨x', n', s'⟩ ⟨(rfl : x' = x), (rfl : n' = n), h⟩
      refine Rel.bind (changePhase_alike (a.phase p) h) (fun s₁ s₁' _ _ h₁ => ?_)
      refine ⟨rfl, rfl, ?_⟩
      simp only
      split
      · exact { h₁ with simultaneous := rfl }
      · exact h₁
  have := hb.loop fuel (l := Loop.init (0, b.n, initState b.config) b.maxIter) (l' := Loop.init (0, b.n, { initState b.config with idSeq := j }) b.maxIter)
    ⟨⟨rfl, rfl, init_renamed b.config j⟩, rfl⟩
  revert this
  generalize Loop.loop (runEnv a b solver t) fuel (Loop.init (0, b.n, initState b.config) b.maxIter) = x
  generalize Loop.loop (runEnv a b solver t) fuel (Loop.init (0, b.n, { initState b.config with idSeq := j }) b.maxIter) = y
  intro h
  cases x <;> cases y
  · exact h
  · exact h.elim
  · exact h.elim
  · obtain ⟨⟨h1, h2, h3⟩, h4⟩ := h
    exact ⟨h4, h1, h2, Renamed.sameButIds h3⟩

end

/-- Numbering from 101: after two rounds the same three pools as in `demo_reachable` are open, with other ids. -/
example : (iterM exec { initState (demo false) with idSeq := 100 } (demoRound ++ demoRound)).toOption.map demoView =
    some [(101, 0, 1/3, [(2, 2/15)]), (104, 1, 7/30, [(2, 2/15)]), (108, 3, 1/3, [(2, 1/30)])] := by decide +kernel

/-- the hypotheses of `C85_events` hold for these rounds -/
example (j : Nat) : ∀ e ∈ demoRound ++ demoRound, Event.Natural (later j) e := by
  intro e he
  simp only [demoRound, List.mem_append, List.mem_cons, List.not_mem_nil, or_false, or_self] at he
  rcases he with rfl | rfl | rfl | rfl | rfl | rfl <;> first | trivial | exact fun _ => rfl

/-- sorting is an order as the theorems ask for -/
example (j : Nat) (l : List Nat) : (l.map (later j)).insertionSort (· ≤ ·) = (l.insertionSort (· ≤ ·)).map (later j) := by
  exact (List.map_insertionSort (· ≤ ·) (· ≤ ·) (later j) l (fun a _ b _ => ((laterNaming j).g_mono.le_iff_le (a := a) (b := b)).symm)).symm

/-- the default metrics qualify -/
example : (columns defaultMetrics).toOption.map (fun c => decide ("StakePairs" ∈ c)) = some false := by decide +kernel

end RSE.Props
