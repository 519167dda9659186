import Verif.Model.Viz
import Verif.Props.Graphs

/-!
# C83: the interactive visualisation
-/

set_option linter.unusedSectionVars false

namespace RSE.Props

section Server
variable {V M S : Type}

/-- `Played c m ms`: the models `ms` are reached from the running model `m` by one step after the other, without an exception -/
inductive Played (c : ModelClass V M S) : M → List M → Prop
  | done {m} : Played c m []
  | step {m m' ms} : c.running m = true → c.step m = (m', none) → Played c m' ms → Played c m (m' :: ms)

/-- C83.  Each `get_step` message makes the model do one step and is answered with the charts of the new model, until the model has stopped; all further
messages are answered with 'end' and change nothing. -/
theorem C83_steps {c : ModelClass V M S} {s : Server V M} {ms : List M} (hp : Played c s.model ms) (hstop : c.running (ms.getLastD s.model) = false)
    {xs : List S} (hx : List.Forall₂ (fun m x => c.render m = .ok x) ms xs) (k : Nat) :
    s.serve c (List.replicate (ms.length + k) .getStep) =
      ({ s with model := ms.getLastD s.model }, xs.map (fun x => ([.vizState x], none)) ++ List.replicate k ([.finished], none)) := by
  obtain ⟨kw, m⟩ := s
  replace hp : Played c m ms := hp
  replace hstop : c.running (ms.getLastD m) = false := hstop
  change Server.serve c ⟨kw, m⟩ _ = (⟨kw, ms.getLastD m⟩, _)
  induction hp generalizing xs with
  | @done m =>
    cases hx
    have hstop : c.running m = false := hstop
    rw [List.length_nil, Nat.zero_add, List.map_nil, List.nil_append]
    induction k with
    | zero => rfl
    | succ k ih =>
      rw [List.replicate_succ, List.replicate_succ]
      have h1 : Server.onMessage c ⟨kw, m⟩ .getStep = (⟨kw, m⟩, [.finished], none) := by
        unfold Server.onMessage
        simp [hstop]
      rw [Server.serve, h1]
      simp only [ih]
  | @step m m' ms h1 h2 h3 ih =>
    cases hx with
    | @cons _ x _ xs hx1 hx2 =>
      have hstop' : c.running (ms.getLastD m') = false := by
        cases ms <;> exact hstop
      have hs : Server.onMessage c ⟨kw, m⟩ .getStep = (⟨kw, m'⟩, [.vizState x], none) := by
        unfold Server.onMessage
        simp [h1, h2, Server.show, hx1]
      have hlen : (m' :: ms).length + k = ms.length + k + 1 := by simp; omega
      rw [hlen, List.replicate_succ, Server.serve, hs]
      simp only [ih hx2 hstop']
      cases ms <;> rfl

theorem lookup_update {p : String} {v : V} {st : Bool} {x : V} {co : V → V} : ∀ {kw : List (String × VizParam V)}, kw.lookup p = some (.settable st x co) →
    (kw.map (fun e : String × VizParam V => if e.1 = p then (e.1, e.2.set v) else e)).lookup p = some (.settable st (co v) co)
  | [], h => by cases h
  | (q, y) :: t, h => by
    rw [List.lookup_cons] at h
    by_cases hq : q = p
    · subst hq
      simp only [beq_self_eq_true] at h
      obtain rfl := Option.some.inj h
      simp [VizParam.set]
    · have hb : (p == q) = false := beq_false_of_ne (Ne.symm hq)
      rw [hb] at h
      rw [List.map_cons, if_neg hq, List.lookup_cons, hb]
      exact lookup_update h

theorem lookup_other {p q : String} {v : V} (hq : q ≠ p) : ∀ {kw : List (String × VizParam V)},
    (kw.map (fun e : String × VizParam V => if e.1 = p then (e.1, e.2.set v) else e)).lookup q = kw.lookup q
  | [] => rfl
  | (r, y) :: t => by
    rw [List.map_cons, List.lookup_cons]
    by_cases hr : r = p
    · subst hr
      have hb : (q == r) = false := beq_false_of_ne hq
      rw [if_pos rfl, List.lookup_cons, hb]
      exact lookup_other hq
    · rw [if_neg hr, List.lookup_cons]
      cases q == r with
      | true => rfl
      | false => exact lookup_other hq

/-- C83.  A new value for a parameter is ignored unless the browser may set it; if it may, a model is built from the new values, which are the old ones
except for this one; nothing is sent to the browser.  If the constructor rejects the values, they stay, and so does the old model. -/
theorem C83_submit (c : ModelClass V M S) (s : Server V M) (p : String) (v : V) :
    ((∀ st x co, s.kwargs.lookup p ≠ some (.settable st x co)) → s.onMessage c (.submit p v) = (s, [], none)) ∧
    (∀ st x co, s.kwargs.lookup p = some (.settable st x co) →
      ∃ kw, kw.map Prod.fst = s.kwargs.map Prod.fst ∧ kw.lookup p = some (.settable st (co v) co) ∧ (∀ q, q ≠ p → kw.lookup q = s.kwargs.lookup q) ∧
        (∀ m, c.make (modelParams kw) = .ok m → s.onMessage c (.submit p v) = (⟨kw, m⟩, [], none)) ∧
        (∀ e, c.make (modelParams kw) = .error e → s.onMessage c (.submit p v) = (⟨kw, s.model⟩, [], some e))) := by
  constructor
  · intro h
    unfold Server.onMessage
    cases hl : s.kwargs.lookup p with
    | none => simp [hl]
    | some y =>
      cases y with
      | settable st x co => exact absurd hl (h st x co)
      | fixed x => simp [hl, VizParam.isSettable]
  · intro st x co hl
    let kw := s.kwargs.map (fun e : String × VizParam V => if e.1 = p then (e.1, e.2.set v) else e)
    have hmsg : s.onMessage c (.submit p v) = ((Server.resetModel c ⟨kw, s.model⟩).1, [], (Server.resetModel c ⟨kw, s.model⟩).2) := by
      simp [Server.onMessage, hl, VizParam.isSettable, kw]
    refine ⟨kw, ?_, ?_, ?_, ?_, ?_⟩
    · rw [List.map_map]
      refine List.map_congr_left (fun e he => ?_)
      simp only [Function.comp]
      split <;> rfl
    · exact lookup_update hl
    · exact fun q hq => lookup_other hq
    · intro m hm
      rw [hmsg]
      simp [Server.resetModel, hm]
    · intro e he
      rw [hmsg]
      simp [Server.resetModel, he]

/-- C83.  `reset` builds a new model from the current values (static texts are not passed to it) and shows it; other messages change nothing. -/
theorem C83_reset (c : ModelClass V M S) (s : Server V M) :
    (∀ m x, c.make (modelParams s.kwargs) = .ok m → c.render m = .ok x → s.onMessage c .reset = (⟨s.kwargs, m⟩, [.vizState x], none)) ∧
    (∀ e, c.make (modelParams s.kwargs) = .error e → s.onMessage c .reset = (s, [], some e)) ∧
    s.onMessage c .other = (s, [], none) ∧
    ∀ q v, (q, v) ∈ modelParams s.kwargs ↔ (q, .fixed v) ∈ s.kwargs ∨ ∃ co, (q, .settable false v co) ∈ s.kwargs := by
  refine ⟨fun m x hm hx => ?_, fun e he => ?_, rfl, fun q v => ?_⟩
  · simp [Server.onMessage, Server.resetModel, hm, Server.show, hx]
  · simp [Server.onMessage, Server.resetModel, he, Server.show]
  · unfold modelParams
    rw [List.mem_filterMap]
    constructor
    · rintro ⟨⟨q', y⟩, he, hy⟩
      cases y with
      | fixed x => cases hy; exact .inl he
      | settable st x co =>
        cases st with
        | true => cases hy
        | false => cases hy; exact .inr ⟨co, he⟩
    · rintro (he | ⟨co, he⟩)
      · exact ⟨_, he, rfl⟩
      · exact ⟨_, he, rfl⟩

end Server


section Simulation
variable {K : Type} [Field K] [LinearOrder K] [IsStrictOrderedRing K]

/-- C83.  Playing a simulation step by step leads to the same results as running it: if the loop of `run_model` (without the reset of the id sequence, which changes
nothing right after the constructor) ends with `l'`, then the steps played one after the other end with `l'`; and so for the loop of the batch runner. -/
theorem C83_same_as_run {V W : Type} (make : List (String × V) → Py (Env W (List (MetricValue K)) × List String × Loop W (List (MetricValue K)))) (env : Env W (List (MetricValue K)))
    (cols : List String) (fuel : Nat) (l l' : Loop W (List (MetricValue K))) :
    (Loop.loop env fuel l = .ok l' → ∃ ms, Played (simClass make) (env, cols, l) ms ∧ ms.getLastD (env, cols, l) = (env, cols, l')) ∧
    ∀ maxSteps, Loop.batchLoop env maxSteps fuel l = .ok l' → ∃ ms, Played (simClass make) (env, cols, l) ms ∧ ms.getLastD (env, cols, l) = (env, cols, l') := by
  have one : ∀ {l l₁ : Loop W (List (MetricValue K))} {ms}, l.running = true → l.step env = .ok l₁ → Played (simClass make) (env, cols, l₁) ms →
      Played (simClass make) (env, cols, l) ((env, cols, l₁) :: ms) := by
    intro l l₁ ms hr hs hp
    refine .step hr ?_ hp
    simp [simClass, hs]
  constructor
  · induction fuel generalizing l with
    | zero =>
      intro h
      unfold Loop.loop at h
      split at h
      · cases h
      · cases h; exact ⟨[], .done, rfl⟩
    | succ fuel ih =>
      intro h
      unfold Loop.loop at h
      split at h
      · rename_i hc
        obtain ⟨l₁, h1, h2⟩ := bind_ok h
        obtain ⟨ms, a1, a2⟩ := ih l₁ h2
        refine ⟨_, one (by simp at hc; exact hc.2) h1 a1, ?_⟩
        cases ms <;> exact a2
      · cases h; exact ⟨[], .done, rfl⟩
  · intro maxSteps
    induction fuel generalizing l with
    | zero =>
      intro h
      unfold Loop.batchLoop at h
      split at h
      · cases h
      · cases h; exact ⟨[], .done, rfl⟩
    | succ fuel ih =>
      intro h
      unfold Loop.batchLoop at h
      split at h
      · rename_i hc
        obtain ⟨l₁, h1, h2⟩ := bind_ok h
        obtain ⟨ms, a1, a2⟩ := ih l₁ h2
        refine ⟨_, one (by simp at hc; exact hc.1) h1 a1, ?_⟩
        cases ms <;> exact a2
      · cases h; exact ⟨[], .done, rfl⟩

/-- a step collects exactly one row: that of the state before the round -/
theorem step_rows {W R : Type} {env : Env W R} {l l' : Loop W R} (h : l.step env = .ok l') : ∃ row, env.report l.world = .ok row ∧ l'.rows = l.rows ++ [row] := by
  unfold Loop.step at h
  obtain ⟨row, h1, h⟩ := bind_ok h
  refine ⟨row, h1, ?_⟩
  simp only at h
  split at h
  · cases h; rfl
  · obtain ⟨w, -, h⟩ := bind_ok h
    split at h
    · split at h
      · split at h
        · obtain ⟨l₂, h2, h⟩ := bind_ok h
          cases h
          unfold Loop.changePhase at h2
          obtain ⟨w', -, h2⟩ := bind_ok h2
          cases h2
          rfl
        · cases h; rfl
      · cases h; rfl
    · cases h; rfl

theorem latest_none {cols : List String} {name : String} (h : name ∉ cols) (rows : List (List (MetricValue K))) : latest cols rows name = none := by
  unfold latest
  rw [List.idxOf?_eq_none_iff.2 h]

theorem latest_some {cols : List String} {name : String} (h : name ∈ cols) {env : MetricEnv K} {s : State K} {row : List (MetricValue K)}
    (hr : collectRow env cols s = .ok row) (rows : List (List (MetricValue K))) :
    ∃ v, latest cols (rows ++ [row]) name = some v ∧ reportColumn env s name = .ok v := by
  cases hj : cols.idxOf? name with
  | none => exact absurd h (List.idxOf?_eq_none_iff.1 hj)
  | some j =>
    have hc : cols[j]? = some name := by
      obtain ⟨h1, h2, -⟩ := List.idxOf?_eq_some_iff.1 hj
      rw [List.getElem?_eq_getElem h1, h2]
    obtain ⟨v, h1, h2⟩ := forall₂_at (forall₂_of_mapM hr) hc
    refine ⟨v, ?_, h2⟩
    unfold latest
    rw [hj]
    simp [h1]

/-- what the charts must show of a state: nothing for metrics that are not collected -/
structure Shown (cols : List String) (n : Nat) (s : State K) (v : VizState K) : Prop where
  pools : v.pools = if "Pool count" ∈ cols then [.nat s.pools.length] else []
  /-- the agents, and the stake in the pools of each -/
  stacked : v.stacked = if "Stake per agent id" ∈ cols then (List.range n, (List.range n).map (controls s)) else ([], [])
  /-- five numbers per pool: the stake of its operator, its stake, its margin, its id and its operator -/
  bubbles : if "StakePairs" ∈ cols then
      ∃ parts, v.bubbles = parts.flatten ∧ List.Forall₂ (fun (e : Nat × Ref) ps => ∃ ag, s.agents.get? (s.heap e.2).owner = some ag ∧
        ps = [MetricValue.num ag.stake, .num (s.heap e.2).stake, .num (s.heap e.2).margin, .nat (s.heap e.2).id, .nat (s.heap e.2).owner]) s.pools parts
    else v.bubbles = []

theorem forall₂_of_range {α β : Type} {R : α → β → Prop} {l : List α} {bs : List β}
    (h : List.Forall₂ (fun i b => ∃ e, l[i]? = some e ∧ R e b) (List.range l.length) bs) : List.Forall₂ R l bs := by
  have hlen := h.length_eq
  rw [List.length_range] at hlen
  rw [List.forall₂_iff_get]
  refine ⟨hlen, fun i h1 h2 => ?_⟩
  obtain ⟨b, b1, e, e1, e2⟩ := forall₂_at h (i := i) (a := i) (by rw [List.getElem?_range h1])
  rw [List.getElem?_eq_getElem h2] at b1
  rw [List.getElem?_eq_getElem h1] at e1
  cases b1; cases e1
  exact e2

theorem bubbles_ok {s : State K} (h : Owned s) {p : StakePairs K} (hp : stakePairs s = .ok p) :
    ∃ parts, bubbleOne (.pairs p) = .ok parts.flatten ∧ List.Forall₂ (fun (e : Nat × Ref) ps => ∃ ag, s.agents.get? (s.heap e.2).owner = some ag ∧
        ps = [MetricValue.num ag.stake, .num (s.heap e.2).stake, .num (s.heap e.2).margin, .nat (s.heap e.2).id, .nat (s.heap e.2).owner]) s.pools parts := by
  obtain ⟨p', q1, q2, -, -, -, -, q3⟩ := C74_stake_pairs h
  rw [hp] at q1
  cases q1
  have hlen : p.x.length = s.pools.length := by rw [q2]; unfold poolCount; simp
  obtain ⟨parts, a1, a2⟩ := mapM_forall₂ (f := bubble p) (l := List.range s.pools.length)
    (Q := fun i ps => ∃ e, s.pools[i]? = some e ∧ ∃ ag, s.agents.get? (s.heap e.2).owner = some ag ∧
        ps = [MetricValue.num ag.stake, .num (s.heap e.2).stake, .num (s.heap e.2).margin, .nat (s.heap e.2).id, .nat (s.heap e.2).owner]) (by
      intro i hi
      have hi := List.mem_range.1 hi
      obtain ⟨ag, g0, g1, g2, g3, g4, g5⟩ := q3 i hi
      exact ⟨_, by unfold bubble; rw [g1, g2, g3, g4, g5], s.pools[i], List.getElem?_eq_getElem hi, ag, g0, rfl⟩)
  refine ⟨parts, ?_, forall₂_of_range a2⟩
  unfold bubbleOne
  simp only [hlen, a1]
  rfl

/-- C83.  After a step the charts show the state in which the step began (not the one it led to): a row is collected at the beginning of a step. -/
theorem C83_charts {a : Args K} {b : Built K} {solver : State K → K} {t : Turns} {l l' : Loop (Nat × Nat × State K) (List (MetricValue K))}
    (hs : l.step (runEnv a b solver t) = .ok l') (hr : Reachable b.config l.world.2.2) (hn : l.world.2.1 = b.config.people.length) :
    ∃ v, renderModel b.cols l'.rows = .ok v ∧ Shown b.cols l.world.2.1 l.world.2.2 v := by
  obtain ⟨row, h1, h2⟩ := step_rows hs
  have h1 : collectRow ⟨l.world.2.1, l.world.1, solver⟩ b.cols l.world.2.2 = .ok row := h1
  obtain ⟨kl, k1, k2, k3, -⟩ := C49_stake_per_agent (n := l.world.2.1) (s := l.world.2.2) (by rw [hn]; exact C49_reachable hr)
  obtain ⟨kl', k1', k4⟩ := C49_stake_per_agent_id (n := l.world.2.1) (s := l.world.2.2) (by rw [hn]; exact C49_reachable hr)
  rw [k1] at k1'
  cases k1'
  have hkl : kl = (List.range l.world.2.1).map (controls l.world.2.2) := by
    refine List.ext_getElem? (fun i => ?_)
    rw [List.getElem?_map]
    rcases Nat.lt_or_ge i l.world.2.1 with hi | hi
    · rw [k3 i hi, List.getElem?_range hi]; rfl
    · rw [List.getElem?_eq_none (by omega), List.getElem?_eq_none (by simpa using hi)]; rfl
  have hA : chartRender ["Pool count"] b.cols l'.rows = if "Pool count" ∈ b.cols then [.nat l.world.2.2.pools.length] else [] := by
    unfold chartRender
    split
    · rename_i hm
      obtain ⟨v, v1, v2⟩ := latest_some hm h1 l.rows
      cases v2
      rw [h2, List.filterMap_cons, v1]
      simp [poolCount]
    · rename_i hm
      rw [List.filterMap_cons, latest_none hm]
      rfl
  have hB : stackedRender ["Stake per agent id"] b.cols l'.rows = .ok (if "Stake per agent id" ∈ b.cols then (List.range l.world.2.1, (List.range l.world.2.1).map (controls l.world.2.2)) else ([], [])) := by
    unfold stackedRender
    split
    · rename_i hm
      obtain ⟨v, v1, v2⟩ := latest_some hm h1 l.rows
      have v3 : (stakesByAgentId l.world.2.1 l.world.2.2).map MetricValue.dict = .ok v := v2
      rw [k4] at v3
      cases v3
      rw [h2]
      simp only [iterM, v1, stackedOne]
      have e1 : ((List.range l.world.2.1).zip kl).map Prod.fst = List.range l.world.2.1 := List.map_fst_zip (by simp [k2])
      have e2 : ((List.range l.world.2.1).zip kl).map Prod.snd = kl := List.map_snd_zip (by simp [k2])
      rw [e1, e2, hkl]
      rfl
    · rename_i hm
      simp only [iterM, latest_none hm]
      rfl
  by_cases hm : "StakePairs" ∈ b.cols
  · obtain ⟨v, v1, v2⟩ := latest_some hm h1 l.rows
    have v3 : (stakePairs l.world.2.2).map MetricValue.pairs = .ok v := v2
    obtain ⟨p, hp⟩ : ∃ p, stakePairs l.world.2.2 = .ok p := by
      obtain ⟨p, hp, -⟩ := C74_stake_pairs (owned_of_reachable hr)
      exact ⟨p, hp⟩
    rw [hp] at v3
    cases v3
    obtain ⟨parts, p1, p2⟩ := bubbles_ok (owned_of_reachable hr) hp
    refine ⟨⟨chartRender ["Pool count"] b.cols l'.rows, (if "Stake per agent id" ∈ b.cols then (List.range l.world.2.1, (List.range l.world.2.1).map (controls l.world.2.2)) else ([], [])),
      parts.flatten⟩, ?_, ⟨hA, rfl, ?_⟩⟩
    · unfold renderModel
      rw [hB]
      unfold bubbleRender
      simp only [iterM, h2, v1, p1]
      rfl
    · rw [if_pos hm]; exact ⟨parts, rfl, p2⟩
  · refine ⟨⟨chartRender ["Pool count"] b.cols l'.rows, (if "Stake per agent id" ∈ b.cols then (List.range l.world.2.1, (List.range l.world.2.1).map (controls l.world.2.2)) else ([], [])),
      []⟩, ?_, ⟨hA, rfl, ?_⟩⟩
    · unfold renderModel
      rw [hB]
      unfold bubbleRender
      simp only [iterM, latest_none hm]
      rfl
    · rw [if_neg hm]

/-- C83.  With the default metrics, which runViz.py does not change, two of its three charts stay empty for ever: the stacked chart and the bubble chart ask
for metrics that are not collected. -/
theorem C83_empty_charts {cols : List String} (hc : columns defaultMetrics = .ok cols) (rows : List (List (MetricValue K))) :
    ∃ v, renderModel cols rows = .ok v ∧ v.stacked = ([], []) ∧ v.bubbles = [] := by
  have hcols : cols = ["Pool count", "Total pledge", "Max pools per operator", "Nakamoto coefficient", "Median stake rank", "Median cost rank", "Median margin"] := by
    have : columns defaultMetrics = .ok ["Pool count", "Total pledge", "Max pools per operator", "Nakamoto coefficient", "Median stake rank", "Median cost rank", "Median margin"] := by
      rfl
    rw [this] at hc
    exact (Except.ok.inj hc).symm
  have h1 : latest cols rows "Stake per agent id" = none := latest_none (by rw [hcols]; decide) rows
  have h2 : latest cols rows "StakePairs" = none := latest_none (by rw [hcols]; decide) rows
  refine ⟨⟨chartRender ["Pool count"] cols rows, ([], []), []⟩, ?_, rfl, rfl⟩
  unfold renderModel stackedRender bubbleRender
  simp [iterM, h1, h2]
  rfl

end Simulation


/-! ### Examples -/

/-- a model that counts to two; it cannot be made to start at 5 or more -/
def counter : ModelClass Nat Nat Nat where
  make := fun kw => match kw.lookup "start" with
    | some v => if v < 5 then .ok v else .error .value
    | none => .error .type
  running := fun m => decide (m < 2)
  step := fun m => (m + 1, none)
  render := fun m => .ok (10 * m)

def counterServer : Server Nat Nat := ⟨[("text", .settable true 7 id), ("start", .settable false 0 (min 6)), ("size", .fixed 3)], 0⟩

example : (counterServer.serve counter (List.replicate 4 .getStep)).1.model = 2 ∧
    (counterServer.serve counter (List.replicate 4 .getStep)).2 = [([.vizState 10], none), ([.vizState 20], none), ([.finished], none), ([.finished], none)] := by
  have := C83_steps (c := counter) (s := counterServer) (ms := [1, 2]) (.step rfl rfl (.step rfl rfl .done)) rfl (xs := [10, 20]) (.cons rfl (.cons rfl .nil)) 2
  exact ⟨congrArg (·.1.model) this, congrArg Prod.snd this⟩

/-- 9 is cut off to 6, which the constructor rejects: the parameter is 6 now, the model still the old one -/
example : (counterServer.onMessage counter (.submit "start" 9)).1.model = 0 ∧ modelParams (counterServer.onMessage counter (.submit "start" 9)).1.kwargs = [("start", 6), ("size", 3)] ∧
    (counterServer.onMessage counter (.submit "start" 9)).2 = ([], some .value) := ⟨rfl, rfl, rfl⟩

example : (counterServer.onMessage counter (.submit "start" 1)).1.model = 1 ∧ (counterServer.onMessage counter (.submit "size" 1)) = (counterServer, [], none) := ⟨rfl, rfl⟩

/-- the demo simulation with the metrics of all three charts -/
def vizBuilt : Built ℚ :=
  { config := demo false, n := 5, order := .sequential, maxIter := 50, totalPhases := 1, cols := ["Pool count", "Stake per agent id", "StakePairs"],
    desc := ⟨0, 0, 0, 0, 0, 0, 0, 0⟩ }

def vizEnv : Env (Nat × Nat × State ℚ) (List (MetricValue ℚ)) := runEnv cliArgs vizBuilt (fun _ => 0) cliTurns

/-- the number of pools, and the number that the chart shows -/
def countAndChart (l : Loop (Nat × Nat × State ℚ) (List (MetricValue ℚ))) : Nat × Option (List (Option Nat)) :=
  (l.world.2.2.pools.length, (renderModel vizBuilt.cols l.rows).toOption.map (fun v => v.pools.map (fun x => match x with | .nat n => some n | _ => none)))

/-- C83, the lag: after the first step there are eight pools, but the chart shows none; after the second there are three and the chart shows eight. -/
theorem C83_lag : ∃ l₁ l₂, (Loop.init (0, 5, initState (demo false)) 50 : Loop (Nat × Nat × State ℚ) (List (MetricValue ℚ))).step vizEnv = .ok l₁ ∧
    l₁.step vizEnv = .ok l₂ ∧ countAndChart l₁ = (8, some [some 0]) ∧ countAndChart l₂ = (3, some [some 8]) := by
  have key : ((Loop.init (0, 5, initState (demo false)) 50 : Loop (Nat × Nat × State ℚ) (List (MetricValue ℚ))).step vizEnv).toOption.map
      (fun l₁ => decide (countAndChart l₁ = (8, some [some 0]) ∧ (l₁.step vizEnv).toOption.map countAndChart = some (3, some [some 8]))) = some true := by
    decide +kernel
  cases h₁ : (Loop.init (0, 5, initState (demo false)) 50 : Loop (Nat × Nat × State ℚ) (List (MetricValue ℚ))).step vizEnv with
  | error e => rw [h₁] at key; cases key
  | ok l₁ =>
    rw [h₁] at key
    obtain ⟨k1, k2⟩ := of_decide_eq_true (Option.some.inj key)
    cases h₂ : l₁.step vizEnv with
    | error e => rw [h₂] at k2; cases k2
    | ok l₂ =>
      rw [h₂] at k2
      exact ⟨l₁, l₂, rfl, h₂, k1, Option.some.inj k2⟩

end RSE.Props
