import Verif.Props.Equilibrium

/-!
# C86: nobody rests at a loss

Delegating everything (or nothing) never costs anything, so it is always an alternative worth at least 0.  Hence a plan that is carried out is
expected to earn something, and in a round in which everybody keeps their strategy nobody expects, now and in the long run, to lose more than the
absolute threshold.  A myopic agent expects what it earns now.  A non-myopic operator may well lose money in a reported equilibrium, in the hope
for delegations that never come (`C86_loss_in_equilibrium`).
-/

set_option linter.unusedSectionVars false

namespace RSE.Props

variable {K : Type} [Field K] [LinearOrder K] [IsStrictOrderedRing K]

/-! ### What an agent earns, stated independently of the model -/

/-- what the operator of a pool keeps: all of a loss; of a profit its margin and, of the rest, its share by pledge -/
def operatorIncome (rs : RS K) (p : Pool K) : K :=
  if rs.reward p.pledge p.stake ≤ p.cost then rs.reward p.pledge p.stake - p.cost
  else (rs.reward p.pledge p.stake - p.cost) * (p.margin + (1 - p.margin) * (p.pledge / p.stake))

/-- what a delegation of `x` earns: its share of a profit, after the margin; nothing of a loss -/
def delegatorIncome (rs : RS K) (p : Pool K) (x : K) : K :=
  max ((1 - p.margin) * (x / p.stake) * (rs.reward p.pledge p.stake - p.cost)) 0

/-- what an agent with strategy `σ` earns at present -/
def income (s : State K) (σ : Strategy K) : K :=
  (σ.owned.map (fun e => operatorIncome s.rs (s.heap e.2))).sum +
    (σ.allocs.map (fun e => match s.pools.get? e.1 with
      | some r => delegatorIncome s.rs (s.heap r) e.2
      | none => 0)).sum

theorem accM_ok {α : Type} {f : α → Py K} {g : α → K} (l : List α) : ∀ {u v : K}, accM f l u = .ok v → (∀ x ∈ l, ∀ y, f x = .ok y → y = g x) →
    v = u + (l.map g).sum := by
  induction l with
  | nil => intro u v h _; cases h; simp
  | cons x t ih =>
    intro u v h hf
    unfold accM at h
    obtain ⟨y, h1, h2⟩ := bind_ok h
    rw [ih h2 (fun z hz => hf z (List.mem_cons_of_mem _ hz)), hf x List.mem_cons_self y h1, List.map_cons, List.sum_cons]
    ring

theorem accM_nonneg {α : Type} {f : α → Py K} (l : List α) : ∀ {u v : K}, accM f l u = .ok v → (∀ x ∈ l, ∀ y, f x = .ok y → 0 ≤ y) → u ≤ v := by
  induction l with
  | nil => intro u v h _; cases h; exact le_rfl
  | cons x t ih =>
    intro u v h hf
    unfold accM at h
    obtain ⟨y, h1, h2⟩ := bind_ok h
    have := ih h2 (fun z hz => hf z (List.mem_cons_of_mem _ hz))
    have := hf x List.mem_cons_self y h1
    linarith

theorem delegatorUtility_nonneg {rs : RS K} {x stake pledge margin cost y : K} (h : delegatorUtility rs x stake pledge margin cost = .ok y) : 0 ≤ y := by
  unfold delegatorUtility at h
  obtain ⟨f, -, h2⟩ := bind_ok h
  cases h2
  exact le_max_right _ _

/-- C86.  Whatever the state and whatever the agent's beliefs, an agent that operates no pools expects to lose nothing. -/
theorem C86_delegating_is_free {s : State K} {me : Agent K} {σ τ : Strategy K} (hτ : τ.owned = []) {u : K} (h : expectedUtility s me σ τ = .ok u) :
    0 ≤ u := by
  unfold expectedUtility at h
  rw [hτ] at h
  obtain ⟨u₀, h1, h2⟩ := bind_ok h
  cases h1
  refine accM_nonneg _ h2 (fun e _ y hy => ?_)
  unfold delegatorUtilityFromPool at hy
  simp only at hy
  cases hp : me.profile with
  | nonMyopic =>
    rw [hp] at hy
    obtain ⟨nm, -, h4⟩ := bind_ok hy
    exact delegatorUtility_nonneg h4
  | myopic => rw [hp] at hy; exact delegatorUtility_nonneg hy
  | abstainer => rw [hp] at hy; exact delegatorUtility_nonneg hy

/-- C86.  A strategy that is adopted is expected to earn at least 0, and more than 0 if pools are operated with it (in the state in which the plan is
complete, which has the same agents and open pools as before). -/
theorem C86_adopted_plans_pay {ord : List Nat → List Nat} {s s' : State K} {me : Agent K} {σ ν : Strategy K}
    (h : planMove ord s me σ = .ok (s', some ν)) :
    (∀ u, expectedUtility s' me σ ν = .ok u → 0 ≤ u) ∧ (ν.owned ≠ [] → ∃ u, expectedUtility s' me σ ν = .ok u ∧ 0 < u) := by
  obtain ⟨cur, exp, s₁, δ, du, ω, ou, -, -, g3, g4, -, g6, g7, g8, g9⟩ := C31_inertia h
  have hδ := (findDelegationMove_next g3).2.1
  have hdu := C86_delegating_is_free hδ g4
  by_cases hlt : du < ou
  · by_cases hb : Beats s.relThr s.absThr cur exp ou
    · have := g9 hb hlt
      cases this
      refine ⟨fun u hu => ?_, fun _ => ⟨ou, g6, lt_of_le_of_lt hdu hlt⟩⟩
      rw [g6] at hu
      cases hu
      exact hdu.trans hlt.le
    · have hb' : ¬ Beats s.relThr s.absThr cur exp du := by
        rw [beats_iff] at hb ⊢
        exact fun hc => hb (hc.trans hlt)
      exact absurd (g7.2 ⟨hb', hb⟩) (by simp)
  · have hle := not_lt.1 hlt
    by_cases hb : Beats s.relThr s.absThr cur exp du
    · have := g8 hb hle
      cases this
      exact ⟨fun u hu => C86_delegating_is_free hδ hu, fun hne => absurd hδ hne⟩
    · have hb' : ¬ Beats s.relThr s.absThr cur exp ou := by
        rw [beats_iff] at hb ⊢
        exact fun hc => hb (lt_of_lt_of_le hc hle)
      exact absurd (g7.2 ⟨hb, hb'⟩) (by simp)

theorem pyDiv_eq {a b c : K} (h : pyDiv a b = .ok c) : c = a / b := by
  unfold pyDiv at h
  split at h
  · cases h
  · cases h; rfl

theorem operatorUtility_income {rs : RS K} {p : Pool K} {y : K} (h : operatorUtility rs p.stake p.pledge p.margin p.cost = .ok y) :
    y = operatorIncome rs p := by
  unfold operatorUtility at h
  obtain ⟨f, h1, h2⟩ := bind_ok h
  cases h2
  rw [pyDiv_eq h1]
  unfold operatorReward operatorIncome
  simp only [sub_nonpos]

theorem delegatorUtility_income {rs : RS K} {p : Pool K} {x y : K} (h : delegatorUtility rs x p.stake p.pledge p.margin p.cost = .ok y) :
    y = delegatorIncome rs p x := by
  unfold delegatorUtility at h
  obtain ⟨f, h1, h2⟩ := bind_ok h
  cases h2
  rw [pyDiv_eq h1]
  rfl

/-- C86.  The utility an agent computes for the present is what it earns. -/
theorem C86_current_utility {s : State K} {σ : Strategy K} {cur : K} (h : currentUtility s σ = .ok cur) : cur = income s σ := by
  unfold currentUtility at h
  obtain ⟨u, h1, h2⟩ := bind_ok h
  have e1 := accM_ok (g := fun r => operatorIncome s.rs (s.heap r)) _ h1 (fun r _ y hy => operatorUtility_income hy)
  have e2 := accM_ok (g := fun (e : Nat × K) => match s.pools.get? e.1 with
      | some r => delegatorIncome s.rs (s.heap r) e.2
      | none => 0) _ h2 (fun e _ y hy => by
    obtain ⟨r, h3, h4⟩ := bind_ok hy
    unfold Dict.getE at h3
    cases hg : s.pools.get? e.1 with
    | none => rw [hg] at h3; cases h3
    | some r' => rw [hg] at h3; cases h3; exact delegatorUtility_income h4)
  rw [e2, e1, zero_add]
  unfold income Dict.vals
  rw [List.map_map]
  rfl

/-- C86.  A myopic agent expects to go on earning what it earns now (sequential or random activation). -/
theorem C86_myopic_beliefs {c : Config K} (hc : c.simultaneous = false) {s : State K} (hs : Reachable c s) {a : Nat} {ag : Agent K}
    (ha : s.agents.get? a = some ag) (hp : ag.profile = .myopic) {σ : Strategy K} (hσ : ag.strategy = some σ) :
    expectedUtility s ag σ σ = currentUtility s σ := by
  have hg := hs.good minUnit_pos
  obtain ⟨hq, -⟩ := hg.seq hc
  have hn := (hg.inv.tidy a ag ha).allocs _ hσ
  have hopen : ∀ e ∈ σ.allocs, ∃ r, s.pools.get? e.1 = some r ∧ (s.heap r).id = e.1 := by
    intro e he
    obtain ⟨-, r, h2, -⟩ := hq.good a e.1 e.2 (says_iff.1 ⟨ag, σ, ha, hσ, Dict.get?_of_mem hn he⟩)
    exact ⟨r, h2, (hg.inv.core.poolRef _ _ h2).2.1⟩
  have hal : ∀ (l : List (Nat × K)), (∀ e ∈ l, e ∈ σ.allocs) → ∀ u, accM (fun (e : Ref × K) => delegatorUtilityFromPool s ag σ e.1 e.2)
      (l.filterMap (fun e => (s.pools.get? e.1).map (fun r => (r, e.2)))) u = accM (fun (e : Nat × K) => do
        let r ← s.pools.getE e.1
        let p := s.heap r
        delegatorUtility s.rs e.2 p.stake p.pledge p.margin p.cost) l u := by
    intro l
    induction l with
    | nil => intro _ u; rfl
    | cons e t ih =>
      intro hl u
      obtain ⟨r, h1, h2⟩ := hopen e (hl e List.mem_cons_self)
      have hx : σ.allocs.get? e.1 = some e.2 := Dict.get?_of_mem hn (hl e List.mem_cons_self)
      have hd : delegatorUtilityFromPool s ag σ r e.2 = delegatorUtility s.rs e.2 (s.heap r).stake (s.heap r).pledge (s.heap r).margin (s.heap r).cost := by
        unfold delegatorUtilityFromPool
        simp only [hp, h2, hx, sub_add_cancel]
      rw [List.filterMap_cons_some (b := (r, e.2)) (by rw [h1]; rfl)]
      unfold accM
      simp only [Dict.getE_of h1, bind, Except.bind, hd]
      cases delegatorUtility s.rs e.2 (s.heap r).stake (s.heap r).pledge (s.heap r).margin (s.heap r).cost with
      | error e => rfl
      | ok y => exact ih (fun e' he' => hl e' (List.mem_cons_of_mem _ he')) (u + y)
  unfold expectedUtility currentUtility operatorUtilityFromStrategy
  simp only [hp]
  split
  · cases accM (fun r => operatorUtility s.rs (s.heap r).stake (s.heap r).pledge (s.heap r).margin (s.heap r).cost) σ.owned.vals 0 with
    | error e => rfl
    | ok u =>
      simp only [Except.map, bind, Except.bind, zero_add]
      exact hal _ (fun _ h => h) u
  · rename_i hlen
    have : σ.owned = [] := List.length_eq_zero_iff.1 (by omega)
    rw [this]
    simp only [Dict.vals, List.map_nil, accM, bind, Except.bind]
    exact hal _ (fun _ h => h) 0

/-- what agents at rest expect -/
theorem Rests.no_loss {ord : List Nat → List Nat} {s : State K} {a : Nat} (h : Rests ord s a) (habs : 0 ≤ s.absThr) (hrel : -1 < s.relThr) :
    ∃ ag, s.agents.get? a = some ag ∧ (ag.profile = .abstainer ∨ ∃ σ cur exp, ag.strategy = some σ ∧ currentUtility s σ = .ok cur ∧
      expectedUtility s ag σ σ = .ok exp ∧ -s.absThr ≤ max cur exp) := by
  obtain ⟨ag, ha, hag⟩ := h
  refine ⟨ag, ha, ?_⟩
  rcases hag with hp | ⟨σ, s₁, hσ, hpm⟩
  · exact Or.inl hp
  right
  obtain ⟨cur, exp, s₁, δ, du, ω, ou, g1, g2, g3, g4, -, -, g7, -⟩ := C31_inertia hpm
  refine ⟨σ, cur, exp, hσ, g1, g2, ?_⟩
  have hdu := C86_delegating_is_free ((findDelegationMove_next g3).2.1) g4
  have hnb := (g7.1 rfl).1
  by_contra hcon
  rw [not_le, max_lt_iff] at hcon
  obtain ⟨h1, h2⟩ := hcon
  refine hnb ⟨?_, by linarith, ?_, by linarith⟩
  · have : (1 + s.relThr) * cur < 0 := mul_neg_of_pos_of_neg (by linarith) (by linarith)
    linarith
  · have : (1 + s.relThr) * exp < 0 := mul_neg_of_pos_of_neg (by linarith) (by linarith)
    linarith

/-- the same in a later state that looks the same -/
theorem Resting.no_loss {c : Config K} {ord : List Nat → List Nat} {t : State K} (h : Resting c ord t)
    (habs : 0 ≤ t.absThr) (hrel : -1 < t.relThr) {a : Nat} (ha : a < c.people.length) :
    ∃ ag, t.agents.get? a = some ag ∧ (ag.profile = .abstainer ∨ ∃ σ cur exp, ag.strategy = some σ ∧ currentUtility t σ = .ok cur ∧
      expectedUtility t ag σ σ = .ok exp ∧ -t.absThr ≤ max cur exp) := by
  obtain ⟨s, hs, hq, hr⟩ := h.2 a ha
  have hsg := hs.good minUnit_pos
  have htw := hq.twin hsg.inv.core (h.1.good minUnit_pos).inv.core
  rw [← hq.1.absThr.symm] at habs
  rw [← hq.1.relThr.symm] at hrel
  obtain ⟨ag, hag, h2⟩ := hr.no_loss habs hrel
  refine ⟨ag, by rw [hq.1.agents]; exact hag, ?_⟩
  rcases h2 with hp | ⟨σ, cur, exp, hσ, h3, h4, h5⟩
  · exact Or.inl hp
  have hown : ∀ e ∈ σ.owned, s.pools.get? e.1 = some e.2 := fun e he =>
    (hsg.inv.owned hag hσ (Dict.get?_of_mem ((hsg.inv.tidy a ag hag).owned _ hσ) he)).1
  refine Or.inr ⟨σ, cur, exp, hσ, ?_, ?_, by rw [hq.1.absThr]; exact h5⟩
  · rw [currentUtility_twin htw (fun r hr => ?_)]
    · exact h3
    · obtain ⟨e, he, rfl⟩ := List.mem_map.1 hr
      exact (htw.pool _ _ (hown e he)).1
  · have hst : (⟨s.next, t.next - s.next, s.idSeq, t.idSeq - s.idSeq⟩ : Shift).strat σ = σ := by
      unfold Shift.strat Shift.owned
      have : σ.owned.map (fun e => ((⟨s.next, t.next - s.next, s.idSeq, t.idSeq - s.idSeq⟩ : Shift).pid e.1,
          (⟨s.next, t.next - s.next, s.idSeq, t.idSeq - s.idSeq⟩ : Shift).ref e.2)) = σ.owned := by
        conv_rhs => rw [← List.map_id σ.owned]
        apply List.map_congr_left
        intro e he
        obtain ⟨h6, h7⟩ := htw.pool _ _ (hown e he)
        rw [Shift.ref_old h6.1, Shift.pid_old (by rw [← h7]; exact h6.2)]
        rfl
      rw [this]
    rw [← h4]
    conv_lhs => rw [← hst]
    conv_lhs => arg 3; rw [hst]
    exact expectedUtility_twin htw ag σ (fun r hr => by
      obtain ⟨e, he, rfl⟩ := List.mem_map.1 hr
      exact (htw.pool _ _ (hown e he)).1.known htw)

/-- C86.  In the final state of a run that reports an equilibrium (sequential or random activation; at least one round in the last phase), every agent
but the abstainers has a strategy with which it expects, at present or in the long run, to lose at most the absolute threshold; for a myopic agent
this is true of what it earns at present. -/
theorem C86_no_loss_in_equilibrium {R : Type} {c : Config K} (hc : c.simultaneous = false) {ord : List Nat → List Nat} (hord : ∀ l, (ord l).Perm l)
    {order : Nat → List Nat} (hfull : ∀ i a, a ∈ order i ↔ a < c.people.length) {report : State K → Py R} {conv : Int} (h1 : 1 ≤ conv)
    {totalPhases : Nat} {phases : Nat → PhaseParams K} {m : Int} (h0 : 0 ≤ m) {fuel : Nat} {l : Loop (State K) R}
    (hl : Loop.runModel (seqEnv ord order report conv totalPhases phases) fuel (Loop.init (initState c) m) = .ok l)
    (hyes : l.exports = [true]) (hpiv : ∀ p ∈ l.pivots, p < l.steps) (habs : 0 ≤ l.world.absThr) (hrel : -1 < l.world.relThr)
    {a : Nat} (ha : a < c.people.length) :
    ∃ ag, l.world.agents.get? a = some ag ∧ (ag.profile = .abstainer ∨ ∃ σ exp, ag.strategy = some σ ∧
      expectedUtility l.world ag σ σ = .ok exp ∧ -l.world.absThr ≤ max (income l.world σ) exp ∧
      (ag.profile = .myopic → -l.world.absThr ≤ income l.world σ)) := by
  obtain ⟨-, -, -, -, hrest, -, -⟩ := reported hc hord hfull h1 h0 hl hyes hpiv
  obtain ⟨ag, hag, h2⟩ := hrest.no_loss habs hrel ha
  refine ⟨ag, hag, h2.imp_right ?_⟩
  rintro ⟨σ, cur, exp, hσ, h3, h4, h5⟩
  have hcur := C86_current_utility h3
  refine ⟨σ, exp, hσ, h4, by rw [← hcur]; exact h5, fun hp => ?_⟩
  have := C86_myopic_beliefs hc hrest.1 hag hp hσ
  rw [h3, h4] at this
  cases this
  rw [max_self] at h5
  rw [← hcur]; exact h5

/-! ### The hypotheses are met; the claim about present earnings fails for non-myopic agents -/

/-- a run (default thresholds, `k = 1`) of a small non-myopic stakeholder with high costs, among agents who do not participate -/
def hopeful : Config ℚ :=
  { rs := { scheme := .cardano, k := 1, beta := 1, a0 := 3/10 }, relThr := 0, absThr := 1/1000000000, extraFrac := 1/2, simultaneous := false,
    people := [(1/10, 15/100, .nonMyopic), (9/10, 1/10, .abstainer)], totalStake := 1 }

abbrev hopefulRun : Py (Loop (State ℚ) Nat) :=
  Loop.runModel (seqEnv (fun l => l) (fun _ => [0, 1]) (fun s => .ok s.pools.length) 3 1 (fun _ => {})) 21 (Loop.init (initState hopeful) 20)

/-- what agent `a` earns at present and expects in the long run -/
def earnings (s : State ℚ) (a : Nat) : Option (ℚ × ℚ) := do
  let ag ← s.agents.get? a
  let σ ← ag.strategy
  let exp ← (expectedUtility s ag σ σ).toOption
  return (income s σ, exp)

instance : DecidableEq (List Bool × List Nat × Nat × Nat × Option (ℚ × ℚ)) := instDecidableEqProd

/-- C86, the negative part.  An equilibrium is reported in which the (non-myopic) operator of a pool loses money at present: it expects delegations
that nobody will ever make. -/
theorem C86_loss_in_equilibrium : ∃ l, hopefulRun = .ok l ∧ l.exports = [true] ∧ l.pivots = [] ∧ l.steps = 4 ∧ l.world.pools.length = 1 ∧
    earnings l.world 0 = some (-947/13000, 83499883/130000000) := by
  have key : hopefulRun.toOption.map (fun l => (l.exports, l.pivots, l.steps, l.world.pools.length, earnings l.world 0)) =
      some ([true], [], 4, 1, some (-947/13000, 83499883/130000000)) := by decide +kernel
  cases h : hopefulRun with
  | error e => rw [h] at key; cases key
  | ok l =>
    rw [h] at key
    simp only [Except.toOption, Option.map_some, Option.some.injEq, Prod.mk.injEq] at key
    exact ⟨l, rfl, key⟩

instance : DecidableEq (List Bool × List Nat × ℚ × ℚ × Option (ℚ × ℚ)) := instDecidableEqProd

/-- the hypotheses of `C86_no_loss_in_equilibrium` are met by the demo run; agent 2 is myopic and operates a pool (`demoIdle`) -/
example : ∃ l, Loop.runModel (demoEnv 2 1 {} none) 21 (Loop.init (initState (demo false)) 20) = .ok l ∧ l.exports = [true] ∧ l.pivots = [] ∧
    l.world.absThr = 0 ∧ l.world.relThr = 0 ∧ earnings l.world 2 = some (3599/13000, 3599/13000) := by
  have key : (Loop.runModel (demoEnv 2 1 {} none) 21 (Loop.init (initState (demo false)) 20)).toOption.map
      (fun l => (l.exports, l.pivots, l.world.absThr, l.world.relThr, earnings l.world 2)) = some ([true], [], 0, 0, some (3599/13000, 3599/13000)) := by
    decide +kernel
  cases h : Loop.runModel (demoEnv 2 1 {} none) 21 (Loop.init (initState (demo false)) 20) with
  | error e => rw [h] at key; cases key
  | ok l =>
    rw [h] at key
    simp only [Except.toOption, Option.map_some, Option.some.injEq, Prod.mk.injEq] at key
    exact ⟨l, rfl, key⟩

end RSE.Props
