import Verif.Lemmas.Ready
import Verif.Spec.Demo

/-!
# C19 (stakes), C31, C35: planning leaves no trace; when a move is made; idle rounds
-/

set_option linter.unusedSectionVars false

namespace RSE.Props

section Any

variable {F : Type} [LinearOrder F] [Zero F] [One F] [Add F] [Sub F] [Mul F] [Div F] [Neg F] [NatCast F] [FSum F]

/-- a utility beats the present strategy, whose current and expected utilities are `cur` and `exp`, by both thresholds -/
def Beats (rel abs cur exp u : F) : Prop := (1 + rel) * cur < u ∧ cur + abs < u ∧ (1 + rel) * exp < u ∧ exp + abs < u

theorem beats_iff (rel abs cur exp u : F) : Beats rel abs cur exp u ↔ augmented rel abs cur exp < u := by
  unfold Beats augmented
  simp only [max_lt_iff, and_assoc]

/-- C31.  Whenever planning returns, two candidates have been evaluated, the best delegation `δ` and the operator strategy `ω`.  The agent
adopts nothing iff neither of them beats its present strategy by the thresholds; it adopts `δ` if that beats it and is at least as good as `ω`,
and `ω` if that beats it and is strictly better than `δ`. -/
theorem C31_inertia {ord : List Nat → List Nat} {s s' : State F} {me : Agent F} {σ : Strategy F} {oν : Option (Strategy F)}
    (h : planMove ord s me σ = .ok (s', oν)) :
    ∃ cur exp s₁ δ du ω ou, currentUtility s σ = .ok cur ∧ expectedUtility s me σ σ = .ok exp ∧
      findDelegationMove s me σ me.stake = .ok (s₁, δ) ∧ expectedUtility s₁ me σ δ = .ok du ∧
      choosePoolStrategy ord s₁ me σ = .ok (s', ou, ω) ∧ expectedUtility s' me σ ω = .ok ou ∧
      (oν = none ↔ ¬ Beats s.relThr s.absThr cur exp du ∧ ¬ Beats s.relThr s.absThr cur exp ou) ∧
      (Beats s.relThr s.absThr cur exp du → ou ≤ du → oν = some δ) ∧
      (Beats s.relThr s.absThr cur exp ou → du < ou → oν = some ω) := by
  obtain ⟨cur, exp, s₁, δ, du, ou, ω, hp⟩ := planMove_ok h
  obtain ⟨m, margins, s₂, copies, hch⟩ := choosePoolStrategy_ok hp.operate
  refine ⟨cur, exp, s₁, δ, du, ω, ou, hp.current, hp.expected, hp.delegate, hp.dutility, hp.operate, hch.utility, ?_⟩
  have hpick := hp.pick
  simp only [beats_iff]
  generalize augmented s.relThr s.absThr cur exp = bar at hpick
  rw [hpick]
  unfold pickMove
  by_cases h1 : bar < du
  · by_cases h2 : du < ou
    · refine ⟨?_, ?_, ?_⟩ <;> simp [h1, h2, not_le.2 h2]
    · have h3 : ¬ ou > du := h2
      refine ⟨?_, ?_, ?_⟩ <;> simp [h1, h2, not_lt.1 h2]
  · by_cases h2 : bar < ou
    · have h3 : du < ou := lt_of_le_of_lt (not_lt.1 h1) h2
      refine ⟨?_, ?_, ?_⟩ <;> simp [h1, h2]
    · refine ⟨?_, ?_, ?_⟩ <;> simp [h1, h2]

/-- C31, as seen in the agent.  After `update_strategy`, a staged strategy beats the present one by the thresholds. -/
theorem C31_staged_strategy_beats {ord : List Nat → List Nat} {s s' : State F} {a : Nat} {me me' : Agent F} {σ ν : Strategy F}
    (ha : s.agents.get? a = some me) (hid : me.id = a) (hp : me.profile ≠ .abstainer) (hσ : me.strategy = some σ) (h : updateStrategy ord s a = .ok s')
    (ha' : s'.agents.get? a = some me') (hν : me'.newStrategy = some ν) :
    ∃ cur exp t u, currentUtility s σ = .ok cur ∧ expectedUtility s me σ σ = .ok exp ∧ expectedUtility t me σ ν = .ok u ∧
      Beats s.relThr s.absThr cur exp u := by
  unfold updateStrategy at h
  obtain ⟨me₁, h1, h⟩ := bind_ok h
  have : me₁ = me := by
    unfold Dict.getE at h1
    rw [ha] at h1
    cases h1; rfl
  subst this
  have h' : (planMove ord s me₁ σ >>= fun res => pure (res.1.setAgent { me₁ with newStrategy := res.2 })) = .ok s' := by
    rw [← h]
    cases hpr : me₁.profile with
    | abstainer => exact absurd hpr hp
    | nonMyopic => simp only [hσ]
    | myopic => simp only [hσ]
  obtain ⟨⟨s₂, oν⟩, h2, h3⟩ := bind_ok h'
  cases h3
  have hoν : oν = some ν := by
    rw [get?_setAgent (me := a) (ag := { me₁ with newStrategy := oν }) hid a, if_pos rfl] at ha'
    cases ha'
    exact hν
  subst hoν
  obtain ⟨cur, exp, s₁, δ, du, ω, ou, g1, g2, g3, g4, g5, g6, g7, g8, g9⟩ := C31_inertia h2
  by_cases hb1 : Beats s.relThr s.absThr cur exp du ∧ ou ≤ du
  · have := g8 hb1.1 hb1.2
    cases this
    exact ⟨cur, exp, s₁, du, g1, g2, g4, hb1.1⟩
  · by_cases hb2 : Beats s.relThr s.absThr cur exp ou ∧ du < ou
    · have := g9 hb2.1 hb2.2
      cases this
      exact ⟨cur, exp, s₂, ou, g1, g2, g6, hb2.1⟩
    · exfalso
      have hn : some ν = none := by
        rw [g7]
        simp only [beats_iff] at hb1 hb2 ⊢
        constructor
        · intro h; exact hb2 ⟨lt_of_lt_of_le h (not_le.1 (fun hh => hb1 ⟨h, hh⟩)).le, not_le.1 (fun hh => hb1 ⟨h, hh⟩)⟩
        · intro h
          have : ou ≤ du := not_lt.1 (fun hh => hb2 ⟨h, hh⟩)
          exact hb1 ⟨lt_of_lt_of_le h this, this⟩
      cases hn

/-- the two states look the same: same parameters, pools, rankings, agents and strategies; the open pools agree in everything (delegators may
be listed in another order).  Only the id counter and the memory for pool objects may differ. -/
structure LooksSame (s s' : State F) : Prop where
  rest : s' = { s with heap := s'.heap, next := s'.next, idSeq := s'.idSeq }
  pool : ∀ pid r, s.pools.get? pid = some r → ∃ ds, ds.Perm (s.heap r).delegators ∧ s'.heap r = { s.heap r with delegators := ds }

theorem Calm.looksSame {n : Nat} {s s' : State F} (h : Calm s s') (hc : Core n s) : LooksSame s s' := by
  refine ⟨h.eq, fun pid r hp => ?_⟩
  have hr := (hc.poolRef _ _ hp).1
  refine ⟨(s'.heap r).delegators, h.dels r hr, ?_⟩
  have hs := (h.alike r hr).same
  have h0 := (h.alike r hr).stake
  have h1 := hs.id; have h2 := hs.owner; have h3 := hs.pledge; have h4 := hs.cost; have h5 := hs.margin; have h6 := hs.pp
  have h7 := hs.des; have h8 := hs.isPrivate
  cases hx : s'.heap r; cases hy : s.heap r
  rw [hx, hy] at h0 h1 h2 h3 h4 h5 h6 h7 h8
  simp_all

theorem Dict.set_same {V : Type} {d : Dict V} {k : Nat} {v : V} (h : d.get? k = some v) : d.set k v = d := by
  induction d with
  | nil => cases h
  | cons e t ih =>
    obtain ⟨k', v'⟩ := e
    rw [Dict.get?_cons] at h
    unfold Dict.set
    split at h
    · rename_i hk; cases h; subst hk; simp
    · rename_i hk
      simp only [hk, if_false]
      rw [ih h]

/-- a turn without a move, if planning leaves no trace -/
theorem turn_idle_of (hmin : (0 : F) < minUnit) {c : Config F} (hc : c.simultaneous = false) {s s' : State F} (h : Reachable c s) {a : Nat} {ord : List Nat → List Nat}
    (hv : (Event.step (F := F) a ord).Valid c.people.length) (he : exec s (.step a ord) = .ok s') (hi : s'.idle = true)
    (hcalm' : ∀ ag σ s₁ oν, s.agents.get? a = some ag → ag.strategy = some σ → planMove ord s ag σ = .ok (s₁, oν) → Calm s s₁) :
    Calm s s' ∧ ∃ ag, s.agents.get? a = some ag ∧ (ag.profile = .abstainer ∨ ∃ σ s₁, ag.strategy = some σ ∧ planMove ord s ag σ = .ok (s₁, none)) := by
  have hg := h.good hmin
  have hd := hg.exec hmin hv
  rw [he] at hd
  cases hd.1 with
  | idle _ _ ag ha hp => exact ⟨Calm.refl _, ag, ha, Or.inl hp⟩
  | plan _ _ ag σ oν s₁ _ ha hp hσ hpm hpl hsim ht =>
    have hn : oν = none := by
      rcases hsim with h1 | h1
      · rw [hg.fixed.simultaneous] at h1
        have : c.simultaneous = true := h1
        rw [hc] at this; cases this
      · exact h1
    subst hn
    have hcalm := hcalm' ag σ s₁ none ha hσ hpm
    have hnew := (hg.seq hc).2 a ag ha
    have hid := hg.inv.core.agentId a ag ha
    have heq : s' = s₁ := by
      rw [hpl.eq]
      have h2 : ({ ag with newStrategy := none } : Agent F) = ag := by rw [← hnew]
      rw [h2]
      unfold State.setAgent
      rw [hid, Dict.set_same (by rw [hcalm.agents]; exact ha)]
    rw [heq]
    exact ⟨hcalm, ag, ha, Or.inr ⟨σ, s₁, hσ, hpm⟩⟩
  | move => cases hi

theorem exec_idle_of (hmin : (0 : F) < minUnit) {s s' : State F} {a : Nat} {ord : List Nat → List Nat} {c : Config F} (h : Reachable c s)
    (hv : (Event.step (F := F) a ord).Valid c.people.length) (he : exec s (.step a ord) = .ok s') (hi : s'.idle = true) : s.idle = true := by
  have hd := (h.good hmin).exec hmin hv
  rw [he] at hd
  cases hd.1 with
  | idle => exact hi
  | plan _ _ ag σ oν s₁ _ ha hp hσ hpm hpl => rw [hpl.eq] at hi; rw [← hpl.planned.idle]; exact hi
  | move => cases hi

end Any

variable {K : Type} [Field K] [LinearOrder K] [IsStrictOrderedRing K]

/-- C19, exact arithmetic.  Planning also leaves the stakes of all pools and the myopic ranking as they were: after `planMove` the state looks the
same as before. -/
theorem C19_planning_exact {c : Config K} {s s' : State K} (h : Reachable c s) {a : Nat} {ag : Agent K}
    {σ : Strategy K} (ha : s.agents.get? a = some ag) (hσ : ag.strategy = some σ) (hc : c.simultaneous = false ∨ InRecords s a σ) {ord : List Nat → List Nat} (hord : ∀ l, (ord l).Perm l)
    {oν : Option (Strategy K)} (hp : planMove ord s ag σ = .ok (s', oν)) : LooksSame s s' :=
  Calm.looksSame (h.plan_calm_of ha hσ (hc.elim (fun hc => h.inRecords hc ha hσ) _root_.id) hord hp).1 (h.good minUnit_pos).inv.core

/-- a turn without a move -/
theorem turn_idle {c : Config K} (hc : c.simultaneous = false) {s s' : State K} (h : Reachable c s) {a : Nat} {ord : List Nat → List Nat}
    (hv : (Event.step (F := K) a ord).Valid c.people.length) (he : exec s (.step a ord) = .ok s') (hi : s'.idle = true) :
    Calm s s' ∧ ∃ ag, s.agents.get? a = some ag ∧ (ag.profile = .abstainer ∨ ∃ σ s₁, ag.strategy = some σ ∧ planMove ord s ag σ = .ok (s₁, none)) :=
  turn_idle_of minUnit_pos hc h hv he hi (fun _ _ _ _ ha hσ hpm => (h.plan_calm hc ha hσ hv.2 hpm).1)

theorem exec_idle {s s' : State K} {a : Nat} {ord : List Nat → List Nat} {c : Config K} (h : Reachable c s)
    (hv : (Event.step (F := K) a ord).Valid c.people.length) (he : exec s (.step a ord) = .ok s') (hi : s'.idle = true) : s.idle = true :=
  exec_idle_of minUnit_pos h hv he hi

/-- C35.  If a round (sequential or random: any list of agents and set orders) is idle, then afterwards the state looks the same as before it,
and each agent that had its turn was asked in a state that looked the same and found that neither candidate beats its strategy by the thresholds. -/
theorem C35_idle_round {c : Config K} (hc : c.simultaneous = false) (turns : List (Nat × (List Nat → List Nat))) : ∀ {s s' : State K}, Reachable c s →
    (∀ t ∈ turns, t.1 < c.people.length ∧ ∀ l, (t.2 l).Perm l) →
    iterM exec s (turns.map (fun t => Event.step t.1 t.2)) = .ok s' → s'.idle = true →
    LooksSame s s' ∧ ∀ t ∈ turns, ∃ s₀, LooksSame s s₀ ∧ ∃ ag, s.agents.get? t.1 = some ag ∧ (ag.profile = .abstainer ∨
      ∃ σ cur exp s₁ δ du ou ω s₂, ag.strategy = some σ ∧ currentUtility s₀ σ = .ok cur ∧ expectedUtility s₀ ag σ σ = .ok exp ∧
        findDelegationMove s₀ ag σ ag.stake = .ok (s₁, δ) ∧ expectedUtility s₁ ag σ δ = .ok du ∧ choosePoolStrategy t.2 s₁ ag σ = .ok (s₂, ou, ω) ∧
        ¬ Beats s.relThr s.absThr cur exp du ∧ ¬ Beats s.relThr s.absThr cur exp ou) := by
  -- first with `Calm`
  have key : ∀ (turns : List (Nat × (List Nat → List Nat))) {s s' : State K}, Reachable c s →
      (∀ t ∈ turns, t.1 < c.people.length ∧ ∀ l, (t.2 l).Perm l) →
      iterM exec s (turns.map (fun t => Event.step t.1 t.2)) = .ok s' → s'.idle = true →
      s.idle = true ∧ Calm s s' ∧ ∀ t ∈ turns, ∃ s₀, Calm s s₀ ∧ ∃ ag, s.agents.get? t.1 = some ag ∧ (ag.profile = .abstainer ∨
        ∃ σ s₁, ag.strategy = some σ ∧ planMove t.2 s₀ ag σ = .ok (s₁, none)) := by
    intro turns
    induction turns with
    | nil => intro s s' _ _ he hi; cases he; exact ⟨hi, Calm.refl _, by simp⟩
    | cons t ts ih =>
      intro s s' hr hv he hi
      simp only [List.map_cons, iterM] at he
      obtain ⟨s₁, h1, h2⟩ := bind_ok he
      have hv1 : (Event.step (F := K) t.1 t.2).Valid c.people.length := hv t List.mem_cons_self
      have hr1 : Reachable c s₁ := by
        obtain ⟨es, h3, h4⟩ := hr
        refine ⟨es ++ [.step t.1 t.2], ?_, ?_⟩
        · intro e he; rcases List.mem_append.1 he with he | he
          · exact h3 e he
          · simp at he; subst he; exact hv1
        · rw [iterM_append, h4]; simp only [Except.bind, iterM, h1, bind]
      obtain ⟨hi1, hc1, hall⟩ := ih hr1 (fun t' ht' => hv t' (List.mem_cons_of_mem _ ht')) h2 hi
      obtain ⟨hc0, ag, ha, hag⟩ := turn_idle hc hr hv1 h1 hi1
      refine ⟨exec_idle hr hv1 h1 hi1, hc0.trans hc1, ?_⟩
      intro t' ht'
      rcases List.mem_cons.1 ht' with rfl | ht'
      · exact ⟨s, Calm.refl _, ag, ha, hag⟩
      · obtain ⟨s₀, h5, ag', ha', h6⟩ := hall t' ht'
        exact ⟨s₀, hc0.trans h5, ag', by rw [← hc0.agents]; exact ha', h6⟩
  intro s s' hr hv he hi
  have hcore := (hr.good minUnit_pos).inv.core
  obtain ⟨-, h1, h2⟩ := key turns hr hv he hi
  refine ⟨Calm.looksSame h1 hcore, fun t ht => ?_⟩
  obtain ⟨s₀, h3, ag, ha, h4⟩ := h2 t ht
  refine ⟨s₀, Calm.looksSame h3 hcore, ag, ha, ?_⟩
  rcases h4 with h4 | ⟨σ, s₁, h5, h6⟩
  · exact Or.inl h4
  · obtain ⟨cur, exp, s₁, δ, du, ω, ou, g1, g2, g3, g4, g5, g6, g7, -⟩ := C31_inertia h6
    obtain ⟨g8, g9⟩ := g7.1 rfl
    rw [h3.relThr, h3.absThr] at g8 g9
    exact Or.inr ⟨σ, cur, exp, s₁, δ, du, ou, ω, _, h5, g1, g2, g3, g4, g5, g8, g9⟩

/-- the fourth round of the demo is idle, with four pools open: the hypotheses of `C35_idle_round` are met -/
def demoIdle : Option (Bool × List (Nat × Nat × ℚ × List (Nat × ℚ))) := do
  let s ← (iterM exec (initState (demo false)) (demoRound ++ demoRound ++ demoRound)).toOption
  let s' ← (iterM exec s (([0, 1, 2, 3, 4].map (fun a => (a, id))).map (fun t => Event.step t.1 t.2))).toOption
  return (s'.idle, demoView s')

instance : DecidableEq (Bool × List (Nat × Nat × ℚ × List (Nat × ℚ))) := instDecidableEqProd

example : demoIdle = some (true, [(1, 0, 1/5, []), (4, 1, 1/10, []), (8, 3, 3/10, []), (14, 2, 3/10, [])]) := by decide +kernel

/-- and so are those of `C31_staged_strategy_beats`: in the state after two rounds agent 2 stages a new strategy -/
def demoStaged : Option Nat := do
  let s ← (iterM exec (initState (demo false)) (demoRound ++ demoRound)).toOption
  let s' ← (updateStrategy id s 2).toOption
  let ag ← s'.agents.get? 2
  let ν ← ag.newStrategy
  return ν.owned.length

example : demoStaged = some 1 := by decide +kernel

end RSE.Props
