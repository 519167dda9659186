import Verif.Props.Loop
import Verif.Props.Structure

/-!
# C27: `run_model` resets the sequence of pool ids
-/

set_option linter.unusedSectionVars false

namespace RSE.Props

variable {F : Type} [LinearOrder F] [Zero F] [One F] [Add F] [Sub F] [Mul F] [Div F] [Neg F] [NatCast F] [FSum F]

theorem Good.withIds {c : Config F} {s : State F} (h : Good c s) (hc : c.simultaneous = false) {n : Nat}
    (hn : ∀ pid, IsOpen s pid → pid ≤ n) : Good c { s with idSeq := n } := by
  have hno : ∀ a pid, stgOf s a pid = none := by
    intro a pid
    unfold stgOf
    cases ha : s.agents.get? a with
    | none => rfl
    | some ag => simp [(h.seq hc).2 a ag ha]
  refine ⟨⟨⟨h.inv.core.agentsNodup, h.inv.core.agentId, h.inv.core.poolsNodup, ?_, h.inv.core.rankSorted, h.inv.core.rankPerm, h.inv.core.rankMSorted,
    h.inv.core.rankMPerm, h.inv.core.delNodup⟩, ⟨h.inv.own.own_iff, h.inv.own.stg_ok, ?_, h.inv.own.stg_pool, h.inv.own.stg_uniq⟩, h.inv.tidy, h.inv.del,
    h.inv.abst, h.inv.strat⟩, fun hc => ?_, ⟨h.fixed.agents, h.fixed.totalStake, h.fixed.simultaneous, Nat.zero_le _⟩⟩
  · intro pid r hp
    obtain ⟨h1, h2, h3, -⟩ := h.inv.core.poolRef pid r hp
    exact ⟨h1, h2, h3, hn pid ⟨r, hp⟩⟩
  · intro a pid r hs
    have hs' : stgOf s a pid = some r := hs
    rw [hno] at hs'
    cases hs'
  · obtain ⟨h1, h2⟩ := h.seq hc
    exact ⟨⟨h1.seq, h1.agree, h1.good⟩, h2⟩

/-- C27 (the condition on the new value of the sequence is needed, see `C27_ids_clash`).  Setting the sequence of pool ids of a sequential simulation to any `n` that is at least every id in use, then going on in whatever way, never leads to
two agents that operate a pool of the same id. -/
theorem C27_ids_distinct (hmin : (0 : F) < minUnit) {c : Config F} {s s' : State F} (h : Reachable c s) (hc : c.simultaneous = false) {n : Nat}
    (hn : ∀ pid, IsOpen s pid → pid ≤ n) {es : List (Event F)} (hes : ∀ e ∈ es, e.Valid c.people.length)
    (hrun : iterM exec { s with idSeq := n } es = .ok s') {a b pid : Nat} {r r' : Ref} (ha : Operates s' a pid r) (hb : Operates s' b pid r') :
    a = b ∧ r = r' := by
  have hg : Good c s' := iterM_induct (P := Good c) (V := fun e => e.Valid c.people.length)
    (fun s e s' hs hv he => ((hs.exec hmin hv).of_ok he).2) (Good.withIds (h.good hmin) hc hn) hes hrun
  have h1 := (hg.inv.own.own_iff a pid r).1 (operates_iff.1 ha)
  have h2 := (hg.inv.own.own_iff b pid r').1 (operates_iff.1 hb)
  have hr : r = r' := by
    have := h1.1
    rw [h2.1] at this
    exact (Option.some.inj this).symm
  exact ⟨by rw [← h1.2, ← h2.2, hr], hr⟩

/-- `run_model` on a model that has no open pools, for instance on a new one, with any way of playing rounds that consists of turns of the agents -/
theorem C27_no_pools (hmin : (0 : F) < minUnit) {c : Config F} {s s' : State F} (h : Reachable c s) (hc : c.simultaneous = false) (h0 : s.pools = [])
    {es : List (Event F)} (hes : ∀ e ∈ es, e.Valid c.people.length) (hrun : iterM exec { s with idSeq := 0 } es = .ok s') {a b pid : Nat} {r r' : Ref}
    (ha : Operates s' a pid r) (hb : Operates s' b pid r') : a = b ∧ r = r' :=
  C27_ids_distinct hmin h hc (fun pid ⟨r, hr⟩ => by rw [h0] at hr; cases hr) hes hrun ha hb

/-- On a new model the reset does nothing: `run_model` plays the same rounds as repeated calls of `step`. -/
theorem C27_new_model {R : Type} (c : Config F) (round : Nat → State F → Py (State F)) (report : State F → Py R) (conv : Int) (totalPhases : Nat)
    (phases : Nat → PhaseParams F) (newMax : Nat → Option Int) (fuel : Nat) (m : Int) :
    Loop.runModel (simEnv round report conv totalPhases phases newMax) fuel (Loop.init (initState c) m) =
      Loop.loop (simEnv round report conv totalPhases phases newMax) fuel (Loop.init (initState c) m) := rfl

/-! ### The claim is false -/

/-- three agents -/
def threeRich : Config ℚ := { demo false with people := [(1/3, 3/500, .nonMyopic), (1/15, 1/1000, .nonMyopic), (3/5, 3/200, .nonMyopic)] }

/-- sequential rounds -/
def threeEnv : Env (State ℚ) Nat :=
  simEnv (fun _ => roundSequential (fun _ => id) [0, 1, 2]) (fun s => .ok (poolCount s)) 10 1 (fun _ => {}) (fun _ => none)

/-- After one call of `step`, calling `run_model` (here it plays one more round) makes agent 2 open a pool of id 1.  It replaces the pool 1 of agent 0,
which is closed for everybody else, while agent 0 still believes to operate it. -/
theorem C27_ids_clash : ∃ l₁ l₂, Loop.step threeEnv (Loop.init (initState threeRich) 2) = .ok l₁ ∧ Loop.runModel threeEnv 5 l₁ = .ok l₂ ∧
    (∃ r, Operates l₂.world 0 1 r) ∧ (∃ r, Operates l₂.world 2 1 r) ∧ ∃ r, l₂.world.pools.get? 1 = some r ∧ (l₂.world.heap r).owner = 2 := by
  have key : ((Loop.step threeEnv (Loop.init (initState threeRich) 2)).bind (fun l => Loop.runModel threeEnv 5 l)).toOption.map
      (fun l => (((l.world.agents.get? 0).bind (·.strategy)).bind (fun σ => σ.owned.get? 1) |>.isSome,
        ((l.world.agents.get? 2).bind (·.strategy)).bind (fun σ => σ.owned.get? 1) |>.isSome, (l.world.pools.get? 1).map (fun r => (l.world.heap r).owner))) =
      some (true, true, some 2) := by decide +kernel
  have op : ∀ {s : State ℚ} {a : Nat}, (((s.agents.get? a).bind (·.strategy)).bind (fun σ => σ.owned.get? 1)).isSome = true → ∃ r, Operates s a 1 r := by
    intro s a h
    obtain ⟨r, hr⟩ := Option.isSome_iff_exists.1 h
    obtain ⟨σ, h1, h2⟩ := Option.bind_eq_some_iff.1 hr
    obtain ⟨ag, h3, h4⟩ := Option.bind_eq_some_iff.1 h1
    exact ⟨r, ag, σ, h3, h4, h2⟩
  cases h₁ : Loop.step threeEnv (Loop.init (initState threeRich) 2) with
  | error e => rw [h₁] at key; cases key
  | ok l₁ =>
    rw [h₁] at key
    simp only [Except.bind] at key
    cases h₂ : Loop.runModel threeEnv 5 l₁ with
    | error e => rw [h₂] at key; cases key
    | ok l₂ =>
      rw [h₂] at key
      simp only [Except.toOption, Option.map_some, Option.some.injEq, Prod.mk.injEq] at key
      obtain ⟨r, h3, h4⟩ := Option.map_eq_some_iff.1 key.2.2
      exact ⟨l₁, l₂, rfl, h₂, op key.1, op key.2.1, r, h3, h4⟩

/-! Hypotheses are met: after two rounds of the demo the pools 1, 4 and 8 are open. -/

example : ∃ s, Reachable (demo false) s ∧ s.pools.length = 3 ∧ ∀ pid, IsOpen s pid → pid ≤ 8 := by
  obtain ⟨s, hs, hv⟩ := demo_reachable
  refine ⟨s, Reachable.of_single hs, by simpa [demoView] using congrArg List.length hv, fun pid ⟨r, hr⟩ => ?_⟩
  have hm : pid ∈ (demoView s).map Prod.fst := by
    unfold demoView
    rw [List.map_map]
    exact List.mem_map.2 ⟨(pid, r), Dict.mem_of_get? hr, rfl⟩
  rw [hv] at hm
  simp at hm
  omega

end RSE.Props
