import Verif.Spec.Sim
import Mathlib.Algebra.Order.Field.Rat

/-!
# A concrete simulation

Used to show that the hypotheses of theorems about reachable states are met by non-trivial states.
-/

namespace RSE

instance demoDec : DecidableEq (ℚ × List (Nat × ℚ)) := inferInstance
instance demoDec' : DecidableEq (Nat × Nat × ℚ × List (Nat × ℚ)) := instDecidableEqProd

/-- five agents of all three profiles, `k = 3` -/
def demo (sim : Bool) : Config ℚ :=
  { rs := { scheme := .cardano, k := 3, beta := 1/3, a0 := 3/10 }, relThr := 0, absThr := 0, extraFrac := 1/2, simultaneous := sim,
    people := [(2/10, 1/1000, .nonMyopic), (1/10, 1/500, .nonMyopic), (3/10, 1/100, .myopic), (3/10, 1/50, .nonMyopic), (1/10, 1/1000, .abstainer)],
    totalStake := 1 }

/-- a round of turns in the order of the ids -/
def demoRound : List (Event ℚ) := [.step 0 id, .step 1 id, .step 2 id, .step 3 id, .step 4 id, .roundEnd]

theorem demoRound_valid (sim : Bool) : ∀ e ∈ demoRound, e.Valid (demo sim).people.length := by
  intro e he
  simp only [demoRound, List.mem_cons, List.not_mem_nil, or_false] at he
  rcases he with rfl | rfl | rfl | rfl | rfl | rfl <;>
    first | trivial | exact ⟨by simp [demo], fun l => List.Perm.refl _⟩

theorem minUnit_pos_rat : (0 : ℚ) < minUnit := by decide +kernel

/-- what is shown of a state: id, owner, stake and delegations of the open pools -/
def demoView (s : State ℚ) : List (Nat × Nat × ℚ × List (Nat × ℚ)) :=
  s.pools.map (fun e => (e.1, (s.heap e.2).owner, (s.heap e.2).stake, (s.heap e.2).delegators))

/-- running a list of agent turns (none of them a phase change) leads to a reachable state -/
theorem reachable_of_run {α : Type} {c : Config ℚ} {es : List (Event ℚ)} (hes : ∀ e ∈ es, e.Valid c.people.length ∧ ∀ p, e ≠ .phase p)
    {f : State ℚ → α} {v : α} (h : (iterM exec (initState c) es).toOption.map f = some v) : ∃ s, ReachableSinglePhase c s ∧ f s = v := by
  cases hs : iterM exec (initState c) es with
  | error e => rw [hs] at h; cases h
  | ok s =>
    rw [hs] at h
    exact ⟨s, ⟨es, hes, hs⟩, by simpa [Except.toOption] using h⟩

/-- the turns of the agents `l` -/
def turns (l : List Nat) : List (Event ℚ) := l.map (fun a => .step a id)

theorem turns_valid {n : Nat} {l : List Nat} (h : ∀ a ∈ l, a < n) : ∀ e ∈ turns l, e.Valid n ∧ ∀ p, e ≠ .phase p := by
  intro e he
  obtain ⟨a, ha, rfl⟩ := List.mem_map.1 he
  exact ⟨⟨h a ha, fun _ => List.Perm.refl _⟩, fun p => by simp⟩

/-- After two sequential rounds three pools are open, all with a delegation of agent 2. -/
theorem demo_reachable : ∃ s, ReachableSinglePhase (demo false) s ∧
    demoView s =
      [(1, 0, 1/3, [(2, 2/15)]), (4, 1, 7/30, [(2, 2/15)]), (8, 3, 1/3, [(2, 1/30)])] := by
  have key : (iterM exec (initState (demo false)) (demoRound ++ demoRound)).toOption.map
      demoView =
      some [(1, 0, 1/3, [(2, 2/15)]), (4, 1, 7/30, [(2, 2/15)]), (8, 3, 1/3, [(2, 1/30)])] := by decide +kernel
  cases h : iterM exec (initState (demo false)) (demoRound ++ demoRound) with
  | error e => rw [h] at key; cases key
  | ok s =>
    rw [h] at key
    refine ⟨s, ⟨demoRound ++ demoRound, fun e he => ?_, h⟩, by simpa [Except.toOption] using key⟩
    have he' : e ∈ demoRound := by
      rcases List.mem_append.1 he with h | h <;> exact h
    refine ⟨demoRound_valid false e he', ?_⟩
    intro p hp
    subst hp
    simp [demoRound] at he'

theorem demoRounds_valid : ∀ e ∈ demoRound ++ demoRound, e.Valid (demo false).people.length ∧ ∀ p, e ≠ .phase p := by
  intro e he
  have he' : e ∈ demoRound := by
    rcases List.mem_append.1 he with h | h <;> exact h
  refine ⟨demoRound_valid false e he', ?_⟩
  rintro p rfl
  simp [demoRound] at he'

theorem toOption_ok {α : Type} {x : Py α} {a : α} (h : x.toOption = some a) : x = .ok a := by
  cases x with
  | error e => cases h
  | ok b => cases h; rfl

end RSE
