import Verif.Lemmas.Alias
import Verif.Model.Reporters
import Verif.Spec.Demo
import Mathlib.Logic.Equiv.Fintype

/-!
# C108: ids of agents are only names

Nothing that agents plan or do looks at the numbers of the agents, except to tell whether two of them are the same.  So if the same people are
numbered in another way, and the renumbered agents move in the same turns, then the simulation is the same up to the numbers.  Numbers matter
only where the code takes them for the order of the turns ("sequential" and "simultaneous" activation); `C108_position_matters` shows that they do.
-/

set_option linter.unusedSectionVars false

namespace RSE.Props

section
variable {F : Type} [LinearOrder F] [Zero F] [One F] [Add F] [Sub F] [Mul F] [Div F] [Neg F] [NatCast F] [FSum F]

/-- the states are the same, with agent `π b` of the second in the place of agent `b` of the first -/
structure SameButNames (π : Nat → Nat) (s t : State F) : Prop where
  rs : t.rs = s.rs
  relThr : t.relThr = s.relThr
  absThr : t.absThr = s.absThr
  extraFrac : t.extraFrac = s.extraFrac
  totalStake : t.totalStake = s.totalStake
  simultaneous : t.simultaneous = s.simultaneous
  idle : t.idle = s.idle
  /-- the same ids and objects of pools, in the same order -/
  pools : t.pools = s.pools
  /-- pools differ in the names of the owner and of the delegators only -/
  heap : ∀ r, t.heap r = { s.heap r with
    owner := π (s.heap r).owner
    delegators := (s.heap r).delegators.map (fun e => (π e.1, e.2)) }
  rank : t.rank = s.rank
  rankM : t.rankM = s.rankM
  idSeq : t.idSeq = s.idSeq
  /-- the agents have the same stake, cost, profile, strategy and plan -/
  agents : ∀ b, t.agents.get? (π b) = (s.agents.get? b).map (fun a => { a with id := π a.id })

theorem Aliased.sameButNames {π : Equiv.Perm Nat} {s t : State F} (h : Aliased π s t) : SameButNames π s t := by
  refine ⟨?_, ?_, ?_, ?_, ?_, ?_, ?_, ?_, fun r => ?_, ?_, ?_, ?_, h.agents⟩
  all_goals rw [h.eq]; rfl

/-- the same people, numbered differently: the one that `c` numbers `b` is numbered `π b` in `c'` -/
structure Renumbered (π : Equiv.Perm Nat) (c c' : Config F) : Prop where
  people : ∀ b, c'.people[π b]? = c.people[b]?
  fixed : ∀ b, c.people.length ≤ b → π b = b
  rest : c' = { c with people := c'.people }

theorem Renumbered.length {π : Equiv.Perm Nat} {c c' : Config F} (h : Renumbered π c c') : c'.people.length = c.people.length := by
  apply le_antisymm
  · by_contra hlt
    push Not at hlt
    have h1 := h.people c.people.length
    rw [h.fixed _ le_rfl, List.getElem?_eq_none_iff.2 (le_refl c.people.length), List.getElem?_eq_none_iff] at h1
    omega
  · by_contra hlt
    push Not at hlt
    have h2 := h.people (π.symm c'.people.length)
    rw [Equiv.apply_symm_apply, List.getElem?_eq_none_iff.2 (le_refl c'.people.length), eq_comm, List.getElem?_eq_none_iff] at h2
    have h3 := h.fixed _ h2
    rw [Equiv.apply_symm_apply] at h3
    omega

theorem get?_initAgents (l : List (F × F × Profile)) (b : Nat) : ∀ k : Nat,
    Dict.get? ((l.zipIdx k).map (fun e => (e.2, newAgent e.2 e.1.1 e.1.2.1 e.1.2.2))) (k + b) = (l[b]?).map (fun e => newAgent (k + b) e.1 e.2.1 e.2.2) := by
  induction l generalizing b with
  | nil => intro k; rfl
  | cons x t ih =>
    intro k
    simp only [List.zipIdx_cons, List.map_cons, Dict.get?]
    cases b with
    | zero => simp
    | succ b =>
      rw [if_neg (by omega)]
      have := ih b (k + 1)
      rw [show k + 1 + b = k + (b + 1) by omega] at this
      rw [this]
      rfl

theorem init_aliased {π : Equiv.Perm Nat} {c c' : Config F} (h : Renumbered π c c') : Aliased π (initState c) (initState c') := by
  have hb : (fun _ => blankPool c'.people.length : Ref → Pool F) = fun _ => (blankPool c.people.length : Pool F).alias π := by
    funext r
    unfold Pool.alias blankPool
    simp only [h.length, h.fixed _ le_rfl]
    rfl
  refine ⟨?_, fun b => ?_⟩
  · have hr := h.rest
    generalize c'.people = ps at hr hb
    subst hr
    unfold initState State.alias
    simp only [hb]
  · have key : ∀ (c : Config F) (b : Nat), (initState c).agents.get? b = (c.people[b]?).map (fun e => newAgent b e.1 e.2.1 e.2.2) := by
      intro c b
      have := get?_initAgents c.people b 0
      rw [Nat.zero_add] at this
      exact this
    rw [key, key, h.people]
    cases c.people[b]? with
    | none => rfl
    | some e => rfl

theorem Rel.mono {α β : Type} {R S : α → β → Prop} (hRS : ∀ a b, R a b → S a b) {x : Py α} {y : Py β} (h : Rel R x y) : Rel S x y := by
  cases x <;> cases y
  · exact h
  · exact h.elim
  · exact h.elim
  · exact hRS _ _ h

/-- the event with the agent renumbered -/
def Event.renumber (π : Nat → Nat) : Event F → Event F
  | .step a ord => .step (π a) ord
  | .advance a ord => .advance (π a) ord
  | e => e

/-- C108.  The same people with other numbers, moving in the same turns, end with the same exception or in the same state up to the numbers. -/
theorem C108_events {π : Equiv.Perm Nat} {c c' : Config F} (h : Renumbered π c c') (es : List (Event F)) :
    Rel (SameButNames π) (iterM exec (initState c) es) (iterM exec (initState c') (es.map (Event.renumber π))) := by
  have e : (Event.renumber π : Event F → Event F) = Event.alias π := by funext e; cases e <;> rfl
  rw [e]
  exact Rel.mono (fun _ _ => Aliased.sameButNames) (run_aliased es (init_aliased h))

/-- C108.  Two agents with the same stake, cost and profile are interchangeable: if each takes the turns of the other, each ends up with what the
other would have had. -/
theorem C108_alike {c : Config F} {i j : Nat} (hi : i < c.people.length) (hj : j < c.people.length) (hij : c.people[i]? = c.people[j]?) (es : List (Event F)) :
    Rel (SameButNames (Equiv.swap i j)) (iterM exec (initState c) es) (iterM exec (initState c) (es.map (Event.renumber (Equiv.swap i j)))) := by
  refine C108_events ⟨fun b => ?_, fun b hb => ?_, rfl⟩ es
  · by_cases h1 : b = i
    · subst h1; rw [Equiv.swap_apply_left, hij]
    · by_cases h2 : b = j
      · subst h2; rw [Equiv.swap_apply_right, hij]
      · rw [Equiv.swap_apply_of_ne_of_ne h1 h2]
  · exact Equiv.swap_apply_of_ne_of_ne (by omega) (by omega)

/-! ### The metrics of pools and operators -/

theorem foldl_set_rename {V : Type} {g : Nat → Nat} (hg : Function.Injective g) {P : Type} (k : P → Nat) (v : V → P → V) (z : V) : ∀ (l : List P) (d : Dict V),
    l.foldl (fun d p => d.set (g (k p)) (v ((d.get? (g (k p))).getD z) p)) (d.rename g id) = (l.foldl (fun d p => d.set (k p) (v ((d.get? (k p)).getD z) p)) d).rename g id
  | [], _ => rfl
  | p :: t, d => by
    simp only [List.foldl_cons]
    have h1 : (d.rename g id).get? (g (k p)) = d.get? (k p) := by rw [Dict.get?_rename hg]; simp
    rw [h1]
    have h2 := Dict.set_rename (φ := (id : V → V)) hg d (k p) (v ((d.get? (k p)).getD z) p)
    simp only [id] at h2
    rw [h2]
    exact foldl_set_rename hg k v z t _

section
variable {π : Nat → Nat} {s t : State F} (hπ : Function.Injective π) (h : SameButNames π s t)
include h

theorem named_map {α : Type} (f : Pool F → α) (hf : ∀ (p : Pool F) o d, f { p with owner := o, delegators := d } = f p) :
    (poolsList t).map f = (poolsList s).map f := by
  unfold poolsList
  rw [h.pools, List.map_map, List.map_map]
  refine List.map_congr_left fun e _ => ?_
  simp only [Function.comp, h.heap]
  exact hf _ _ _

theorem named_length : (poolsList t).length = (poolsList s).length := by unfold poolsList; rw [h.pools]; simp

theorem named_owners : owners t = (owners s).map π := by
  unfold owners poolsList
  rw [h.pools, List.map_map, List.map_map, List.map_map]
  refine List.map_congr_left fun e _ => ?_
  simp only [Function.comp, h.heap]

include hπ

theorem named_counter : (counter (owners t)) = (counter (owners s)).rename π id := by
  rw [named_owners h]
  unfold counter
  rw [List.foldl_map]
  exact foldl_set_rename hπ (fun a => a) (fun n _ => n + 1) 0 (owners s) []

theorem named_poolsOwned : (poolsOwned t).vals = (poolsOwned s).vals := by
  have e : poolsOwned t = (poolsOwned s).rename π id := by
    unfold poolsOwned poolsList
    rw [h.pools, List.foldl_map, List.foldl_map]
    simp only [h.heap]
    exact foldl_set_rename hπ (fun e : Nat × Ref => (s.heap e.2).owner) (fun n _ => n + 1) 0 s.pools []
  rw [e, Dict.vals_rename, List.map_id]

theorem named_stakeOwned : (stakeOwned t).vals = (stakeOwned s).vals := by
  have e : stakeOwned t = (stakeOwned s).rename π id := by
    unfold stakeOwned poolsList
    rw [h.pools, List.foldl_map, List.foldl_map]
    simp only [h.heap]
    exact foldl_set_rename hπ (fun e : Nat × Ref => (s.heap e.2).owner) (fun x e => x + (s.heap e.2).stake) 0 s.pools []
  rw [e, Dict.vals_rename, List.map_id]

/-- C108.  The metrics of pools and operators do not depend on the numbers of the agents. -/
theorem C108_metrics : poolCount t = poolCount s ∧ totalPledge t = totalPledge s ∧ totalDelegatedStake t = totalDelegatedStake s ∧
    pledgeRate t = pledgeRate s ∧ homogeneityFactor t = homogeneityFactor s ∧ avgMargin t = avgMargin s ∧ medianMargin t = medianMargin s ∧
    avgPledge t = avgPledge s ∧ medianPledge t = medianPledge s ∧ avgSatRate t = avgSatRate s ∧ operatorCount t = operatorCount s ∧
    avgPoolsPerOperator t = avgPoolsPerOperator s ∧ maxPoolsPerOperator t = maxPoolsPerOperator s ∧
    medianPoolsPerOperator t = medianPoolsPerOperator s ∧ splitterCount t = splitterCount s ∧ giniPoolCount t = giniPoolCount s ∧
    giniStake t = giniStake s ∧ giniPoolCountK t = giniPoolCountK s ∧ giniStakeK t = giniStakeK s := by
  have hlen := named_length h
  have hpl : totalPledge t = totalPledge s := by unfold totalPledge; rw [named_map h _ (fun _ _ _ => rfl)]
  have hds : totalDelegatedStake t = totalDelegatedStake s := by unfold totalDelegatedStake; rw [named_map h _ (fun _ _ _ => rfl)]
  have hcv : (counter (owners t)).vals = (counter (owners s)).vals := by rw [named_counter hπ h, Dict.vals_rename, List.map_id]
  have hop : (owners t).dedup.length = (owners s).dedup.length := by rw [named_owners h, List.dedup_map_of_injective hπ, List.length_map]
  have hsat : avgSatRate t = avgSatRate s := by
    unfold avgSatRate
    have : ∀ f : Pool F → Py F, (∀ (p : Pool F) o d, f { p with owner := o, delegators := d } = f p) → (poolsList t).mapM f = (poolsList s).mapM f := by
      intro f hf
      have e := named_map h f hf
      rw [← List.mapM'_eq_mapM, ← List.mapM'_eq_mapM]
      revert e
      generalize poolsList t = l₁
      generalize poolsList s = l₂
      intro e
      induction l₁ generalizing l₂ with
      | nil => cases l₂ with
        | nil => rfl
        | cons _ _ => cases e
      | cons x l₁ ih => cases l₂ with
        | nil => cases e
        | cons y l₂ =>
          simp only [List.map_cons, List.cons.injEq] at e
          simp only [List.mapM'_cons, e.1, ih _ e.2]
    rw [hlen, h.rs, this _ (fun _ _ _ => rfl)]
  refine ⟨?_, hpl, hds, ?_, ?_, ?_, ?_, ?_, ?_, hsat, hop, ?_, ?_, ?_, ?_, ?_, ?_, ?_, ?_⟩
  · unfold poolCount; rw [h.pools]
  · unfold pledgeRate; rw [hlen, hpl, hds]
  · unfold homogeneityFactor; rw [named_map h _ (fun _ _ _ => rfl)]
  · unfold avgMargin; rw [named_map h _ (fun _ _ _ => rfl)]
  · unfold medianMargin; rw [named_map h _ (fun _ _ _ => rfl)]
  · unfold avgPledge; rw [named_map h _ (fun _ _ _ => rfl)]
  · unfold medianPledge; rw [named_map h _ (fun _ _ _ => rfl)]
  · unfold avgPoolsPerOperator; rw [hlen, hop]
  · unfold maxPoolsPerOperator; rw [hlen, hcv]
  · unfold medianPoolsPerOperator; rw [hlen, hcv]
  · unfold splitterCount
    rw [hlen, named_counter hπ h]
    unfold Dict.rename
    rw [List.filter_map, List.length_map]
    rfl
  · unfold giniPoolCount; rw [named_poolsOwned hπ h]
  · unfold giniStake; rw [named_stakeOwned hπ h]
  · unfold giniPoolCountK; rw [named_poolsOwned hπ h, h.rs]
  · unfold giniStakeK; rw [named_stakeOwned hπ h, h.rs]

end

end

/-! ### The position in the schedule does matter -/

/-- two agents that are alike in every respect -/
def alikePair : Config ℚ :=
  { rs := { scheme := .cardano, k := 2, beta := 1/2, a0 := 3/10 }, relThr := 0, absThr := 0, extraFrac := 1/2, simultaneous := false,
    people := [(1/2, 1/1000, .nonMyopic), (1/2, 1/1000, .nonMyopic)], totalStake := 1 }

/-- C108.  In "sequential" activation the numbers are the order of the turns, and then they matter: of two agents that are alike the one with the
lower number ends up with two pools and the other with one, and it stays so in the next rounds. -/
theorem C108_position_matters :
    (iterM exec (initState alikePair) (turns [0, 1])).toOption.map demoView = some [(1, 0, 1/4, []), (2, 0, 1/4, []), (3, 1, 1/2, [])] ∧
    (iterM exec (initState alikePair) (turns [0, 1, 0, 1, 0, 1])).toOption.map demoView = some [(1, 0, 1/4, []), (2, 0, 1/4, []), (3, 1, 1/2, [])] := by
  decide +kernel

/-- if the other one begins, it gets the two pools (as `C108_alike` says) -/
example : (iterM exec (initState alikePair) (turns [1, 0])).toOption.map demoView = some [(1, 1, 1/4, []), (2, 1, 1/4, []), (3, 0, 1/2, [])] := by
  decide +kernel

/-- `C108_alike` applies to this pair -/
example : alikePair.people[0]? = alikePair.people[1]? := rfl

/-- the five agents of `demo` with agents 0 and 3 renumbered -/
def demoSwapped : Config ℚ :=
  { demo false with people := [(3/10, 1/50, .nonMyopic), (1/10, 1/500, .nonMyopic), (3/10, 1/100, .myopic), (2/10, 1/1000, .nonMyopic), (1/10, 1/1000, .abstainer)] }

/-- the hypothesis of `C108_events` -/
example : Renumbered (Equiv.swap 0 3) (demo false) demoSwapped := by
  refine ⟨fun b => ?_, fun b hb => ?_, rfl⟩
  · match b with
    | 0 => rfl
    | 1 => rfl
    | 2 => rfl
    | 3 => rfl
    | 4 => rfl
    | n + 5 =>
      rw [Equiv.swap_apply_of_ne_of_ne (by omega) (by omega)]
      rfl
  · have : 5 ≤ b := hb
    exact Equiv.swap_apply_of_ne_of_ne (by omega) (by omega)

/-- two rounds in which the renumbered agents move in the same turns: the pools of `demo_reachable`, with 0 and 3 exchanged -/
example : (iterM exec (initState demoSwapped) (turns [3, 1, 2, 0, 4, 3, 1, 2, 0, 4])).toOption.map demoView =
    some [(1, 3, 1/3, [(2, 2/15)]), (4, 1, 7/30, [(2, 2/15)]), (8, 0, 1/3, [(2, 1/30)])] := by decide +kernel

end RSE.Props
