import Verif.Props.Accounting
import Verif.Props.Structure

/-!
# C25: stake accounting under (semi)simultaneous activation
-/

set_option linter.unusedSectionVars false

namespace RSE.Props

/-- `n` rounds of the simultaneous scheduler with agents `order` -/
def simRounds (n : Nat) (order : List Nat) (s : State ℚ) : Py (State ℚ) :=
  iterM (fun s (_ : Nat) => roundSimultaneous (fun _ => id) order s) s (List.range n)

/-- `n` rounds of the semi-simultaneous scheduler with its default of five simultaneous moves; the sample is drawn in the given order -/
def semiRounds (n : Nat) (order : List Nat) (s : State ℚ) : Py (State ℚ) :=
  iterM (fun s (_ : Nat) => roundSemi 5 (fun l k => l.take k) (fun _ _ => id) order s) s (List.range n)

/-- For at most five agents the two are the same. -/
theorem semiRounds_eq (n : Nat) {order : List Nat} (h : order.length ≤ 5) (s : State ℚ) : semiRounds n order s = simRounds n order s := by
  unfold semiRounds simRounds
  have hround : ∀ s : State ℚ, roundSemi 5 (fun l k => l.take k) (fun _ _ => id) order s = roundSimultaneous (fun _ => id) order s := by
    intro s
    unfold roundSemi
    cases order with
    | nil => rfl
    | cons a t =>
      have hk : (if 5 < (a :: t).length then 5 else (a :: t).length) = (a :: t).length := if_neg (not_lt.2 h)
      have hf : (a :: t).filter (fun key => !(a :: t).contains key) = [] := by
        rw [List.filter_eq_nil_iff]
        intro x hx
        simp only [Bool.not_eq_true', Bool.not_eq_false, List.contains_iff_mem]
        exact hx
      have hb : batches 5 (fun l k => l.take k) (a :: t).length (a :: t) = [a :: t] := by
        rw [List.length_cons, batches, if_pos (by simp), hk]
        change List.take (a :: t).length (a :: t) :: batches _ _ _ (List.filter (fun key => !(List.take (a :: t).length (a :: t)).contains key) _) = _
        rw [List.take_length, hf]
        cases t.length <;> simp [batches]
      rw [hb]
      change iterM _ s [(a :: t, 0)] = _
      unfold iterM
      change (runBatch (fun _ => id) s (a :: t)).bind _ = _
      unfold runBatch roundSimultaneous
      simp only [bind, Except.bind]
      cases iterM (fun s (e : Nat × Nat) => agentStep id s e.1) s (a :: t).zipIdx with
      | error e => rfl
      | ok s₁ =>
        simp only
        cases iterM (fun s (e : Nat × Nat) => advance id s e.1) s₁ (a :: t).zipIdx <;> rfl
  simp only [hround]

/-- three agents -/
def phantomCfg : Config ℚ := { demo true with people := [(8/23, 1/500, .nonMyopic), (6/23, 17/1000, .nonMyopic), (9/23, 3/200, .myopic)] }

/-- C25, what fails: after three simultaneous (or semi-simultaneous) rounds the open pools hold more stake than the agents own.  Pool 7 counts 1/69 of
agent 0, who has withdrawn it: the operator's copy of the pool, made before the withdrawal, came into effect after it. -/
theorem C25_total_stake_exceeded : ∃ s, simRounds 3 [0, 1, 2] (initState phantomCfg) = .ok s ∧ semiRounds 3 [0, 1, 2] (initState phantomCfg) = .ok s ∧
    totalAgentStake s < totalDelegatedStake s ∧ Records s 7 0 (1/69) ∧ ∀ x, ¬ Says s 0 7 x := by
  have key : (simRounds 3 [0, 1, 2] (initState phantomCfg)).toOption.map (fun s => (decide (totalAgentStake s < totalDelegatedStake s),
      (s.pools.get? 7).bind (fun r => (s.heap r).delegators.get? 0), ((s.agents.get? 0).bind (·.strategy)).map (fun σ => σ.allocs.get? 7))) =
      some (true, some (1/69), some none) := by decide +kernel
  cases h : simRounds 3 [0, 1, 2] (initState phantomCfg) with
  | error e => rw [h] at key; cases key
  | ok s =>
    rw [h] at key
    simp only [Except.toOption, Option.map_some, Option.some.injEq, Prod.mk.injEq, decide_eq_true_eq] at key
    obtain ⟨h1, h2, h3⟩ := key
    refine ⟨s, rfl, by rw [semiRounds_eq _ (by decide), h], h1, Option.bind_eq_some_iff.1 h2, ?_⟩
    rintro x ⟨ag, σ, k1, k2, k3⟩
    rw [k1, Option.bind_some, k2, Option.map_some, k3] at h3
    cases h3

/-- four agents -/
def lostCfg : Config ℚ :=
  { demo true with people := [(1/10, 13/1000, .nonMyopic), (1/5, 1/1000, .myopic), (3/10, 13/1000, .nonMyopic), (2/5, 17/1000, .nonMyopic)] }

/-- ... and conversely: agent 0 delegates 1/30 to the open pool 7, whose delegators do not include them. -/
theorem C25_delegation_lost : ∃ s, simRounds 3 [0, 1, 2, 3] (initState lostCfg) = .ok s ∧ semiRounds 3 [0, 1, 2, 3] (initState lostCfg) = .ok s ∧
    Says s 0 7 (1/30) ∧ IsOpen s 7 ∧ ∀ x, ¬ Records s 7 0 x := by
  have key : (simRounds 3 [0, 1, 2, 3] (initState lostCfg)).toOption.map (fun s =>
      (((s.agents.get? 0).bind (·.strategy)).bind (fun σ => σ.allocs.get? 7), (s.pools.get? 7).map (fun r => (s.heap r).delegators.get? 0))) =
      some (some (1/30), some none) := by decide +kernel
  cases h : simRounds 3 [0, 1, 2, 3] (initState lostCfg) with
  | error e => rw [h] at key; cases key
  | ok s =>
    rw [h] at key
    simp only [Except.toOption, Option.map_some, Option.some.injEq, Prod.mk.injEq] at key
    obtain ⟨h1, h2⟩ := key
    refine ⟨s, rfl, by rw [semiRounds_eq _ (by decide), h], ?_, ?_, ?_⟩
    · obtain ⟨σ, k1, k2⟩ := Option.bind_eq_some_iff.1 h1
      obtain ⟨ag, k3, k4⟩ := Option.bind_eq_some_iff.1 k1
      exact ⟨ag, σ, k3, k4, k2⟩
    · obtain ⟨r, k1, -⟩ := Option.map_eq_some_iff.1 h2
      exact ⟨r, k1⟩
    · rintro x ⟨r, k1, k2⟩
      rw [k1, Option.map_some, k2] at h2
      cases h2

/-- five agents -/
def keyErrorCfg : Config ℚ :=
  { demo true with people := [(1/27, 1/250, .nonMyopic), (7/27, 3/500, .myopic), (8/27, 13/1000, .nonMyopic), (4/27, 3/500, .myopic), (7/27, 7/500, .nonMyopic)] }

/-- ... and the inconsistency makes the simulation crash: in the fifth round a pool that lists a delegator who does not delegate to it is closed. -/
theorem C25_key_error : simRounds 5 [0, 1, 2, 3, 4] (initState keyErrorCfg) = .error .key ∧
    semiRounds 5 [0, 1, 2, 3, 4] (initState keyErrorCfg) = .error .key := by
  have key : (match simRounds 5 [0, 1, 2, 3, 4] (initState keyErrorCfg) with | .ok _ => none | .error e => some e) = some .key := by decide +kernel
  rw [semiRounds_eq _ (by decide)]
  cases h : simRounds 5 [0, 1, 2, 3, 4] (initState keyErrorCfg) with
  | ok s => rw [h] at key; cases key
  | error e => rw [h] at key; cases key; exact ⟨rfl, rfl⟩

variable {K : Type} [Field K] [LinearOrder K] [IsStrictOrderedRing K]

/-- C25, what holds.  Under any activation, simultaneous or not, every open pool's stake is its pledge plus what it
records as delegations; no agent commits, according to its own strategy, more than it owns; and every open pool is operated by exactly one agent. -/
theorem C25_what_remains {c : Config K} {s : State K} (h : Reachable c s) (h0 : ∀ e ∈ c.people, 0 ≤ e.1) (hb : 0 < c.rs.beta) :
    (∀ pid r, s.pools.get? pid = some r → (s.heap r).stake = (s.heap r).pledge + ((s.heap r).delegators.map (fun e => e.2)).sum ∧ ∃! a, Operates s a pid r) ∧
    (∀ b ag σ, s.agents.get? b = some ag → ag.strategy = some σ →
      (σ.allocs.map (fun e => e.2)).sum + (σ.owned.map (fun e => (s.heap e.2).pledge)).sum ≤ ag.stake) :=
  ⟨fun _ _ hp => ⟨C20_stake_is_pledge_plus_delegations h hp, (C28_open_pool_has_one_operator minUnit_pos h hp).1⟩,
    fun _ _ _ ha hσ => C22_no_overcommitment h h0 hb ha hσ⟩

/-- ... and in particular the pledges alone never exceed the agents' stake. -/
theorem C25_pledges {c : Config K} {s : State K} (h : Reachable c s) (h0 : ∀ e ∈ c.people, 0 ≤ e.1) (hb : 0 < c.rs.beta)
    {b : Nat} {ag : Agent K} {σ : Strategy K} (ha : s.agents.get? b = some ag) (hσ : ag.strategy = some σ) :
    (σ.owned.map (fun e => (s.heap e.2).pledge)).sum ≤ ag.stake := by
  have h1 := C22_no_overcommitment h h0 hb ha hσ
  have h2 : 0 ≤ (σ.allocs.map (fun e => e.2)).sum := by
    refine List.sum_nonneg ?_
    intro x hx
    obtain ⟨e, he, rfl⟩ := List.mem_map.1 hx
    exact (pos_of_minUnit ((h.allocsMin minUnit_pos b ag ha).1 σ hσ e he)).le
  linarith

end RSE.Props
