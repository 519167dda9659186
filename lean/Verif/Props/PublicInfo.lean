import Verif.Lemmas.Public
import Verif.Spec.Demo

/-!
# C112: agents decide on public figures and on their own records

What an agent plans depends on the parameters, on the figures of the open pools (stake, pledge, cost, margin, ...), on which of the pools are its own and on
its own stake, cost, strategy and delegations.  It depends in no other way on the other agents: not on their number, stakes, costs, profiles, strategies or
plans, not on who has delegated the stake of a pool, and not on which of the other pools belong to the same operator.
-/

set_option linter.unusedSectionVars false

namespace RSE.Props

section
variable {F : Type} [LinearOrder F] [Zero F] [One F] [Add F] [Sub F] [Mul F] [Div F] [Neg F] [NatCast F] [FSum F]

/-- The two states agree on everything but what concerns agents other than `a`: nothing is said about the agents, and of a pool only which figures it has,
whether it is a pool of `a`, and what `a` has delegated to it. -/
structure SamePublic (a : Nat) (s t : State F) : Prop where
  rs : s.rs = t.rs
  relThr : s.relThr = t.relThr
  absThr : s.absThr = t.absThr
  extraFrac : s.extraFrac = t.extraFrac
  totalStake : s.totalStake = t.totalStake
  pools : s.pools = t.pools
  rank : s.rank = t.rank
  rankM : s.rankM = t.rankM
  next : s.next = t.next
  idSeq : s.idSeq = t.idSeq
  id : ∀ r, (s.heap r).id = (t.heap r).id
  cost : ∀ r, (s.heap r).cost = (t.heap r).cost
  pledge : ∀ r, (s.heap r).pledge = (t.heap r).pledge
  stake : ∀ r, (s.heap r).stake = (t.heap r).stake
  isPrivate : ∀ r, (s.heap r).isPrivate = (t.heap r).isPrivate
  pp : ∀ r, (s.heap r).pp = (t.heap r).pp
  margin : ∀ r, (s.heap r).margin = (t.heap r).margin
  des : ∀ r, (s.heap r).des = (t.heap r).des
  mine : ∀ r, (s.heap r).owner = a ↔ (t.heap r).owner = a
  delegated : ∀ r, (s.heap r).delegators.filter (fun e => e.1 = a) = (t.heap r).delegators.filter (fun e => e.1 = a)

theorem samePublic_view {a : Nat} {s t : State F} (h : SamePublic a s t) : s.view a = t.view a := by
  have hh : (fun r => (s.heap r).hide a) = fun r => (t.heap r).hide a := by
    funext r
    unfold Pool.hide ownEntries
    rw [h.id r, h.cost r, h.pledge r, h.stake r, h.isPrivate r, h.pp r, h.margin r, h.des r, h.delegated r]
    by_cases ho : (t.heap r).owner = a
    · rw [if_pos ho, if_pos ((h.mine r).2 ho)]
    · rw [if_neg ho, if_neg (fun hs => ho ((h.mine r).1 hs))]
  unfold State.view
  rw [hh, h.rs, h.relThr, h.absThr, h.extraFrac, h.totalStake, h.pools, h.rank, h.rankM, h.next, h.idSeq]

theorem samePublic_of_view {a : Nat} {s t : State F} (h : s.view a = t.view a) : SamePublic a s t := by
  have g : ∀ {β : Type} (f : State F → β), f (s.view a) = f (t.view a) := fun f => congrArg f h
  have hr : ∀ r, (s.heap r).hide a = (t.heap r).hide a := fun r => congrFun (g State.heap) r
  have q : ∀ {β : Type} (f : Pool F → β) r, f ((s.heap r).hide a) = f ((t.heap r).hide a) := fun f r => congrArg f (hr r)
  exact ⟨g State.rs, g State.relThr, g State.absThr, g State.extraFrac, g State.totalStake, g State.pools, g State.rank, g State.rankM, g State.next,
    g State.idSeq, q Pool.id, q Pool.cost, q Pool.pledge, q Pool.stake, q Pool.isPrivate, q Pool.pp, q Pool.margin, q Pool.des,
    fun r => by rw [← Pool.hide_owner, hr r, Pool.hide_owner], q Pool.delegators⟩

/-- C112.  An agent that is asked in two states that agree but for what concerns others plans the same in both (with the same exception if one is raised), and
planning leaves states that still agree. -/
theorem C112_same_plan {a : Nat} {s t : State F} (h : SamePublic a s t) {me : Agent F} (hme : me.id = a) (σ : Strategy F) (ord : List Nat → List Nat) :
    Rel (fun y z => y.2 = z.2 ∧ SamePublic a y.1 z.1) (planMove ord s me σ) (planMove ord t me σ) := by
  have h1 := planMove_view hme s σ ord
  rw [samePublic_view h, planMove_view hme t σ ord] at h1
  cases hs : planMove ord s me σ with
  | error e =>
    cases ht : planMove ord t me σ with
    | error e' =>
      rw [hs, ht] at h1
      exact (Except.error.inj h1).symm
    | ok z =>
      rw [hs, ht] at h1
      cases h1
  | ok y =>
    cases ht : planMove ord t me σ with
    | error e' =>
      rw [hs, ht] at h1
      cases h1
    | ok z =>
      rw [hs, ht] at h1
      have h2 := Except.ok.inj h1
      exact ⟨(congrArg Prod.snd h2).symm, samePublic_of_view (congrArg Prod.fst h2).symm⟩

/-- C112.  So what is staged is the same, whatever the other agents of the two simulations are. -/
theorem C112_same_decision {a : Nat} {s t : State F} (h : SamePublic a s t) {ag : Agent F} (hid : ag.id = a) (hs : s.agents.get? a = some ag)
    (ht : t.agents.get? a = some ag) (ord : List Nat → List Nat) :
    Rel (fun s' t' => s'.agents.get? a = t'.agents.get? a ∧ SamePublic a s' t') (updateStrategy ord s a) (updateStrategy ord t a) := by
  have key : ∀ σ : Strategy F, Rel (fun s' t' => s'.agents.get? a = t'.agents.get? a ∧ SamePublic a s' t')
      (planMove ord s ag σ >>= fun y => pure (y.1.setAgent { ag with newStrategy := y.2 }))
      (planMove ord t ag σ >>= fun y => pure (y.1.setAgent { ag with newStrategy := y.2 })) := by
    intro σ
    refine Rel.bind (C112_same_plan h hid σ ord) ?_
    rintro y z - - ⟨h2, hp⟩
    refine ⟨?_, samePublic_of_view ?_⟩
    · show (y.1.agents.set ag.id _).get? a = (z.1.agents.set ag.id _).get? a
      rw [hid, Dict.get?_set_self, Dict.get?_set_self, h2]
    · have hv := samePublic_view hp
      exact hv
  unfold updateStrategy
  simp only [Dict.getE, hs, ht, bind, Except.bind]
  cases hp : ag.profile with
  | abstainer => exact ⟨by rw [hs, ht], h⟩
  | nonMyopic =>
    cases hσ : ag.strategy with
    | none => exact rfl
    | some σ =>
      have hk := key σ
      simp only [bind, Except.bind, hp, hσ] at hk
      exact hk
  | myopic =>
    cases hσ : ag.strategy with
    | none => exact rfl
    | some σ =>
      have hk := key σ
      simp only [bind, Except.bind, hp, hσ] at hk
      exact hk

/-- C112, the first move of a simulation.  It depends on the agent and on the parameters only, not on the other people in the system (who may be more or fewer,
richer or poorer, as long as the stakes sum up to the same total). -/
theorem C112_first_move {c c' : Config F} (hc : c' = { c with people := c'.people }) {a : Nat} {x : F × F × Profile} (ha : c.people[a]? = some x)
    (ha' : c'.people[a]? = some x) (ord : List Nat → List Nat) :
    Rel (fun s' t' => s'.agents.get? a = t'.agents.get? a ∧ SamePublic a s' t') (updateStrategy ord (initState c) a) (updateStrategy ord (initState c') a) := by
  have hl : a < c.people.length := (List.getElem?_eq_some_iff.1 ha).1
  have hl' : a < c'.people.length := (List.getElem?_eq_some_iff.1 ha').1
  have hg : ∀ (d : Config F), d.people[a]? = some x → (initState d).agents.get? a = some (newAgent a x.1 x.2.1 x.2.2) := by
    intro d hd
    have gen : ∀ (l : List (F × F × Profile)) (i a : Nat), Dict.get? ((l.zipIdx i).map (fun e => (e.2, newAgent e.2 e.1.1 e.1.2.1 e.1.2.2))) (i + a) =
        (l[a]?).map (fun x => newAgent (i + a) x.1 x.2.1 x.2.2) := by
      intro l
      induction l with
      | nil => intro i a; simp
      | cons x t ih =>
        intro i a
        simp only [List.zipIdx_cons, List.map_cons, Dict.get?_cons]
        cases a with
        | zero => simp
        | succ a =>
          rw [if_neg (by omega), show i + (a + 1) = (i + 1) + a by omega, ih]
          simp
    have h0 := gen d.people 0 a
    rw [Nat.zero_add, hd] at h0
    exact h0
  refine C112_same_decision ?_ (ag := newAgent a x.1 x.2.1 x.2.2) rfl (hg c ha) (hg c' ha') ord
  rw [hc]
  exact ⟨rfl, rfl, rfl, rfl, rfl, rfl, rfl, rfl, rfl, rfl, fun _ => rfl, fun _ => rfl, fun _ => rfl, fun _ => rfl, fun _ => rfl, fun _ => rfl, fun _ => rfl, fun _ => rfl,
    fun r => by
      show c.people.length = a ↔ c'.people.length = a
      omega, fun _ => rfl⟩

end

/-! ### Examples -/

/-- agent 0 of `demo` in a world with two others instead of four -/
def otherWorld : Config ℚ := { demo false with people := [(2/10, 1/1000, .nonMyopic), (7/10, 1/3, .myopic), (1/10, 0, .nonMyopic)] }

example : ∃ s' t', updateStrategy _root_.id (initState (demo false)) 0 = .ok s' ∧ updateStrategy _root_.id (initState otherWorld) 0 = .ok t' ∧
    ((s'.agents.get? 0).bind Agent.newStrategy).isSome = true ∧ s'.agents.get? 0 = t'.agents.get? 0 := by
  have h := C112_first_move (c := demo false) (c' := otherWorld) rfl (a := 0) rfl rfl _root_.id
  have hk : ((updateStrategy _root_.id (initState (demo false)) 0).toOption.map (fun s => ((s.agents.get? 0).bind Agent.newStrategy).isSome)) = some true := by
    decide +kernel
  cases hs : updateStrategy _root_.id (initState (demo false)) 0 with
  | error e => rw [hs] at hk; cases hk
  | ok s' =>
    rw [hs] at h hk
    cases ht : updateStrategy _root_.id (initState otherWorld) 0 with
    | error e => rw [ht] at h; exact h.elim
    | ok t' =>
      rw [ht] at h
      exact ⟨s', t', rfl, rfl, by simpa [Except.toOption] using hk, h.1⟩

/-- the pools of agent 3 given to agent 1, the delegations of agent 2 written to the name of agent 3, and everybody but agent 0 forgotten -/
def reassigned (s : State ℚ) : State ℚ :=
  { s with
    agents := s.agents.filter (fun e => e.1 = 0)
    heap := fun r => { s.heap r with
      owner := if (s.heap r).owner = 3 then 1 else (s.heap r).owner
      delegators := (s.heap r).delegators.map (fun e => (if e.1 = 2 then 3 else e.1, e.2)) } }

theorem reassigned_samePublic (s : State ℚ) : SamePublic 0 s (reassigned s) := by
  refine ⟨rfl, rfl, rfl, rfl, rfl, rfl, rfl, rfl, rfl, rfl, fun _ => rfl, fun _ => rfl, fun _ => rfl, fun _ => rfl, fun _ => rfl, fun _ => rfl, fun _ => rfl, fun _ => rfl, ?_, ?_⟩
  · intro r
    show _ ↔ (if (s.heap r).owner = 3 then 1 else (s.heap r).owner) = 0
    split <;> omega
  · intro r
    show _ = ((s.heap r).delegators.map (fun e => (if e.1 = 2 then 3 else e.1, e.2))).filter _
    induction (s.heap r).delegators with
    | nil => rfl
    | cons e t ih =>
      simp only [List.map_cons, List.filter_cons]
      by_cases h0 : e.1 = 0
      · simp [h0, ih]
        exact Prod.ext h0 rfl
      · by_cases h2 : e.1 = 2
        · simp [h2, ih]
        · simp [h0, h2, ih]

example : ∃ s, ReachableSinglePhase (demo false) s ∧ SamePublic 0 s (reassigned s) ∧
    demoView s = [(1, 0, 1/3, [(2, 2/15)]), (4, 1, 7/30, [(2, 2/15)]), (8, 3, 1/3, [(2, 1/30)])] ∧
    demoView (reassigned s) = [(1, 0, 1/3, [(3, 2/15)]), (4, 1, 7/30, [(3, 2/15)]), (8, 1, 1/3, [(3, 1/30)])] := by
  have key : (iterM exec (initState (demo false)) (demoRound ++ demoRound)).toOption.map (fun s => (demoView s, demoView (reassigned s))) =
      some ([(1, 0, 1/3, [(2, 2/15)]), (4, 1, 7/30, [(2, 2/15)]), (8, 3, 1/3, [(2, 1/30)])],
        [(1, 0, 1/3, [(3, 2/15)]), (4, 1, 7/30, [(3, 2/15)]), (8, 1, 1/3, [(3, 1/30)])]) := by decide +kernel
  obtain ⟨s, hs, hv⟩ := reachable_of_run demoRounds_valid key
  exact ⟨s, hs, reassigned_samePublic s, congrArg Prod.fst hv, congrArg Prod.snd hv⟩

end RSE.Props
