import Verif.Lemmas.Rename
import Verif.Lemmas.Thin

/-!
# Ids of agents are only names

Renaming the agents by a permutation `π` of ids commutes with everything that agents do: ids of agents are compared for equality only.
-/

set_option linter.unusedSectionVars false

namespace RSE

variable {F : Type} [LinearOrder F] [Zero F] [One F] [Add F] [Sub F] [Mul F] [Div F] [Neg F] [NatCast F] [FSum F]

/-- the pool with its owner and its delegators renamed -/
def Pool.alias (π : Equiv.Perm Nat) (p : Pool F) : Pool F := { p with owner := π p.owner, delegators := p.delegators.rename π _root_.id }

/-- the agent renamed -/
def Agent.alias (π : Equiv.Perm Nat) (a : Agent F) : Agent F := { a with id := π a.id }

/-- the state with renamed agents, except for the dictionary of the agents, which is given -/
def State.alias (π : Equiv.Perm Nat) (A : Dict (Agent F)) (s : State F) : State F := { s with heap := fun r => (s.heap r).alias π, agents := A }

variable (π : Equiv.Perm Nat)

/-- the result of planning with renamed agents -/
abbrev aliasFst {α : Type} (A : Dict (Agent F)) (x : State F × α) : State F × α := (x.1.alias π A, x.2)

theorem Pool.updateDelegation_alias (p : Pool F) (x : F) (a : Nat) : (p.alias π).updateDelegation x (π a) = (p.updateDelegation x a).alias π := by
  unfold Pool.updateDelegation Pool.alias
  have h1 : (Dict.rename π (_root_.id : F → F) p.delegators).get? (π a) = p.delegators.get? a := by
    rw [Dict.get?_rename π.injective]; simp
  have h2 : (Dict.rename π (_root_.id : F → F) p.delegators).set (π a) x = (p.delegators.set a x).rename π _root_.id := Dict.set_rename (φ := _root_.id) π.injective _ _ x
  simp only [h1, h2]
  congr 1
  split
  · exact Dict.erase_rename π.injective _ _
  · rfl

theorem State.setPool_alias (A : Dict (Agent F)) (s : State F) (r : Ref) (p : Pool F) : (s.alias π A).setPool r (p.alias π) = (s.setPool r p).alias π A := by
  unfold State.setPool State.alias
  simp only [State.mk.injEq, and_true, true_and]
  funext q
  by_cases h : q = r
  · subst h; simp
  · simp [h]

theorem State.alloc_alias (A : Dict (Agent F)) (s : State F) (p : Pool F) : (s.alias π A).alloc (p.alias π) = (s.alloc p).alias π A := by
  unfold State.alloc State.alias
  simp only [State.mk.injEq, and_true, true_and]
  funext q
  by_cases h : q = s.next
  · subst h; simp
  · simp [h]

/-! ### Planning -/

theorem entrySat_alias (rs : RS F) (heap : Ref → Pool F) : entrySat rs (fun r => (heap r).alias π) = entrySat rs heap := by
  funext e; cases e <;> rfl

theorem nonMyopicStake_alias (rs : RS F) (total : F) (heap : Ref → Pool F) (l : SKL (Key F) (Option Ref)) (r : Ref) :
    nonMyopicStake rs total (fun r => (heap r).alias π) l r = nonMyopicStake rs total heap l r := by
  unfold nonMyopicStake
  rw [entrySat_alias]
  rfl

theorem tempRankings_alias (A : Dict (Agent F)) (s : State F) (me : Agent F) (owned : List Ref) :
    tempRankings (s.alias π A) (me.alias π) owned = tempRankings s me owned := by
  unfold tempRankings
  have h : s.rank.vals.filter (fun e => match e with
      | none => false
      | some r => decide (((s.alias π A).heap r).owner ≠ (me.alias π).id)) = s.rank.vals.filter (fun e => match e with
      | none => false
      | some r => decide ((s.heap r).owner ≠ me.id)) := by
    apply List.filter_congr
    rintro (_ | r) _
    · rfl
    · simp [State.alias, Pool.alias, Agent.alias]
  exact congrArg (fun vs : List (Option Ref) => owned.foldl (fun l r => SKL.add (poolKey (s.heap r)) (some r) l) (vs.foldl (fun l e => match e with
    | none => l
    | some r => SKL.add (poolKey (s.heap r)) (some r) l) [])) h

theorem operatorUtilityFromStrategy_alias (A : Dict (Agent F)) (s : State F) (me : Agent F) (τ : Strategy F) :
    operatorUtilityFromStrategy (s.alias π A) (me.alias π) τ = operatorUtilityFromStrategy s me τ := by
  unfold operatorUtilityFromStrategy
  simp only [tempRankings_alias]
  have : (s.alias π A).heap = fun r => (s.heap r).alias π := rfl
  simp only [this, nonMyopicStake_alias]
  rfl

theorem delegatorUtilityFromPool_alias (A : Dict (Agent F)) (s : State F) (me : Agent F) (σ : Strategy F) (r : Ref) (x : F) :
    delegatorUtilityFromPool (s.alias π A) (me.alias π) σ r x = delegatorUtilityFromPool s me σ r x := by
  unfold delegatorUtilityFromPool
  have : (s.alias π A).heap = fun r => (s.heap r).alias π := rfl
  simp only [this, nonMyopicStake_alias]
  rfl

theorem currentUtility_alias (A : Dict (Agent F)) (s : State F) (σ : Strategy F) : currentUtility (s.alias π A) σ = currentUtility s σ := rfl

theorem expectedUtility_alias (A : Dict (Agent F)) (s : State F) (me : Agent F) (σ τ : Strategy F) :
    expectedUtility (s.alias π A) (me.alias π) σ τ = expectedUtility s me σ τ := by
  unfold expectedUtility
  simp only [operatorUtilityFromStrategy_alias, delegatorUtilityFromPool_alias]
  rfl

theorem rankingsOf_alias (A : Dict (Agent F)) (s : State F) (me : Agent F) : rankingsOf (s.alias π A) (me.alias π) = rankingsOf s me := rfl

theorem setDelegation_alias (A : Dict (Agent F)) (s : State F) (pid : Nat) (x : F) (a : Nat) :
    setDelegation (s.alias π A) pid x (π a) = (setDelegation s pid x a).map (State.alias π A) := by
  unfold setDelegation
  have hp : (s.alias π A).pools = s.pools := rfl
  rw [hp]
  cases s.pools.getE pid with
  | error e => rfl
  | ok r =>
    change ((s.rankM.remove (poolKeyM s.rs (s.heap r)) (some r)) >>= _) = ((s.rankM.remove (poolKeyM s.rs (s.heap r)) (some r)) >>= _).map _
    cases s.rankM.remove (poolKeyM s.rs (s.heap r)) (some r) with
    | error e => rfl
    | ok l =>
      have h1 : ((s.alias π A).heap r).updateDelegation x (π a) = ((s.heap r).updateDelegation x a).alias π := Pool.updateDelegation_alias π _ _ _
      change Except.ok _ = Except.ok _
      rw [h1, State.setPool_alias]
      rfl

theorem setDelegations_alias (A : Dict (Agent F)) (a : Nat) : ∀ (l : List (Nat × F)) (s : State F),
    setDelegations (s.alias π A) (π a) l = (setDelegations s a l).map (State.alias π A)
  | [], _ => rfl
  | (pid, x) :: t, s => by
    unfold setDelegations
    rw [setDelegation_alias]
    cases setDelegation s pid x a with
    | error e => rfl
    | ok s₁ => exact setDelegations_alias A a t s₁

theorem greedy_alias (rs : RS F) (heap : Ref → Pool F) : ∀ (l : List Ref) (stake : F) (best : Option Ref) (d : Dict F),
    greedy rs (fun r => (heap r).alias π) l stake best d = greedy rs heap l stake best d
  | [], _, _, _ => rfl
  | r :: t, stake, best, d => by
    unfold greedy
    simp only [greedy_alias rs heap t]
    rfl

theorem greedyAllocations_alias (rs : RS F) (heap : Ref → Pool F) (l : List Ref) (stake : F) :
    greedyAllocations rs (fun r => (heap r).alias π) l stake = greedyAllocations rs heap l stake := by
  unfold greedyAllocations
  rw [greedy_alias]
  rfl

theorem eligiblePools_alias (A : Dict (Agent F)) (s : State F) (me : Agent F) : eligiblePools (s.alias π A) (me.alias π) = eligiblePools s me := by
  unfold eligiblePools
  rw [rankingsOf_alias]
  apply List.filterMap_congr
  rintro (_ | r) _
  · rfl
  · simp [State.alias, Pool.alias, Agent.alias]

theorem fixedPools_alias (A : Dict (Agent F)) (s : State F) (me : Agent F) : fixedPools (s.alias π A) (me.alias π) = fixedPools s me := by
  unfold fixedPools
  rw [rankingsOf_alias]
  apply List.filter_congr
  rintro (_ | r) _
  · rfl
  · simp [State.alias, Pool.alias, Agent.alias]

theorem determineStakeAllocations_alias (A : Dict (Agent F)) (s : State F) (me : Agent F) (σ : Strategy F) (stake : F) :
    determineStakeAllocations (s.alias π A) (me.alias π) σ stake = (determineStakeAllocations s me σ stake).map (aliasFst π A) := by
  unfold determineStakeAllocations
  rw [eligiblePools_alias]
  have hid : (me.alias π).id = π me.id := rfl
  simp only [hid]
  split
  · rfl
  · rw [setDelegations_alias]
    cases setDelegations s me.id (σ.allocs.map (fun e => (e.1, (0 : F)))) with
    | error e => rfl
    | ok s₁ =>
      change (setDelegations (s₁.alias π A) (π me.id) σ.allocs >>= _) = _
      rw [setDelegations_alias]
      change _ = (setDelegations s₁ me.id σ.allocs >>= _).map _
      cases setDelegations s₁ me.id σ.allocs with
      | error e => rfl
      | ok s₂ =>
        change Except.ok _ = Except.ok _
        have : (s₁.alias π A).heap = fun r => (s₁.heap r).alias π := rfl
        rw [this, greedyAllocations_alias]
        rfl

theorem findDelegationMove_alias (A : Dict (Agent F)) (s : State F) (me : Agent F) (σ : Strategy F) (stake : F) :
    findDelegationMove (s.alias π A) (me.alias π) σ stake = (findDelegationMove s me σ stake).map (aliasFst π A) := by
  unfold findDelegationMove
  split
  · rfl
  · rw [determineStakeAllocations_alias]
    cases determineStakeAllocations s me σ stake <;> rfl

theorem marginNM_alias (A : Dict (Agent F)) (s : State F) (me : Agent F) : marginNM (s.alias π A) (me.alias π) = marginNM s me := by
  funext pledge cost pp t
  unfold marginNM
  rw [fixedPools_alias]
  rfl

theorem marginM_alias (A : Dict (Agent F)) (s : State F) (me : Agent F) : marginM (s.alias π A) (me.alias π) = marginM s me := by
  funext pledge cost pp t
  unfold marginM
  rw [fixedPools_alias]
  rfl

theorem marginsAndUtility_alias (A : Dict (Agent F)) (s : State F) (me : Agent F) (σ : Strategy F) :
    marginsAndUtility (s.alias π A) (me.alias π) σ = marginsAndUtility s me σ := by
  funext n
  unfold marginsAndUtility
  rw [marginNM_alias, marginM_alias]
  rfl

theorem marginAt_alias (A : Dict (Agent F)) (s : State F) (me : Agent F) (margins : List F) (i : Nat) (p : Pool F) :
    marginAt (s.alias π A) (me.alias π) margins i (p.alias π) = marginAt s me margins i p := rfl

theorem copyPools_alias (A : Dict (Agent F)) : ∀ (l : List (Nat × Ref)) (s : State F), copyPools (s.alias π A) l = aliasFst π A (copyPools s l)
  | [], _ => rfl
  | (pid, r) :: t, s => by
    unfold copyPools
    have h : (s.alias π A).alloc ((s.alias π A).heap r) = (s.alloc (s.heap r)).alias π A := State.alloc_alias π A s _
    simp only [h, copyPools_alias A t]
    rfl

theorem determinePoolsToKeep_alias (ord : List Nat → List Nat) (A : Dict (Agent F)) (s : State F) (σ : Strategy F) (n : Nat) :
    determinePoolsToKeep ord (s.alias π A) σ n = (determinePoolsToKeep ord s σ n).map (aliasFst π A) := by
  unfold determinePoolsToKeep
  split
  · have h : topPoolIds (s.alias π A).heap σ.owned n = topPoolIds s.heap σ.owned n := rfl
    rw [h]
    simp only [copyPools_alias]
    generalize (ord (topPoolIds s.heap σ.owned n)).mapM (fun pid => do
      let r ← σ.owned.getE pid
      return (pid, r)) = x
    cases x <;> rfl
  · rw [copyPools_alias]; rfl

theorem reworkPools_alias (A : Dict (Agent F)) (me : Agent F) (pledge cost : F) (margins : List F) : ∀ (l : List (Nat × Ref)) (i : Nat) (s : State F),
    reworkPools (me.alias π) pledge cost margins (s.alias π A) i l = (reworkPools me pledge cost margins s i l).map (State.alias π A)
  | [], _, _ => rfl
  | (pid, r) :: t, i, s => by
    unfold reworkPools
    have h : reworkPool (s.alias π A).rs pledge cost ((s.alias π A).heap r) = (reworkPool s.rs pledge cost (s.heap r)).alias π := rfl
    simp only [h, marginAt_alias]
    cases marginAt s me margins i (reworkPool s.rs pledge cost (s.heap r)) with
    | error e => rfl
    | ok m =>
      change reworkPools (me.alias π) pledge cost margins ((s.alias π A).setPool r (((reworkPool s.rs pledge cost (s.heap r)).setMargin m).alias π)) (i + 1) t = _
      rw [State.setPool_alias]
      exact reworkPools_alias A me pledge cost margins t (i + 1) _

theorem draftPools_alias (A : Dict (Agent F)) (me : Agent F) (pledge cost : F) (margins : List F) : ∀ (cnt : Nat) (s : State F) (i : Nat) (owned : Dict Ref),
    draftPools (me.alias π) pledge cost margins cnt (s.alias π A) i owned = (draftPools me pledge cost margins cnt s i owned).map (aliasFst π A)
  | 0, _, _, _ => rfl
  | cnt + 1, s, i, owned => by
    unfold draftPools
    have h : Pool.create ((s.alias π A).idSeq + 1) cost pledge (me.alias π).id (s.alias π A).rs (decide (pledge ≥ (s.alias π A).rs.sat pledge)) =
        (Pool.create (s.idSeq + 1) cost pledge me.id s.rs (decide (pledge ≥ s.rs.sat pledge))).alias π := rfl
    simp only [h]
    have h2 : ({ s.alias π A with idSeq := (s.alias π A).idSeq + 1 } : State F) = ({ s with idSeq := s.idSeq + 1 } : State F).alias π A := rfl
    rw [h2]
    have h3 := marginAt_alias π A { s with idSeq := s.idSeq + 1 } me margins i (Pool.create (s.idSeq + 1) cost pledge me.id s.rs (decide (pledge ≥ s.rs.sat pledge)))
    rw [h3]
    cases marginAt { s with idSeq := s.idSeq + 1 } me margins i (Pool.create (s.idSeq + 1) cost pledge me.id s.rs (decide (pledge ≥ s.rs.sat pledge))) with
    | error e => rfl
    | ok m =>
      change draftPools (me.alias π) pledge cost margins cnt ((({ s with idSeq := s.idSeq + 1 } : State F).alias π A).alloc
        (((Pool.create (s.idSeq + 1) cost pledge me.id s.rs (decide (pledge ≥ s.rs.sat pledge))).setMargin m).alias π)) (i + 1) _ = _
      rw [State.alloc_alias]
      exact draftPools_alias A me pledge cost margins cnt _ (i + 1) _

theorem findOperatorMove_alias (A : Dict (Agent F)) (s : State F) (me : Agent F) (σ : Strategy F) (n : Nat) (owned : Dict Ref) (margins : List F) :
    findOperatorMove (s.alias π A) (me.alias π) σ n owned margins = (findOperatorMove s me σ n owned margins).map (aliasFst π A) := by
  unfold findOperatorMove
  have h1 : (me.alias π).stake = me.stake := rfl
  have h2 : (me.alias π).cost = me.cost := rfl
  have h3 : (s.alias π A).rs = s.rs := rfl
  have h4 : (s.alias π A).extraFrac = s.extraFrac := rfl
  rw [h1, h2, h3, h4]
  cases pledgePerPool me.stake s.rs.beta n with
  | error e => rfl
  | ok pledge =>
    cases costPerPool n me.cost s.extraFrac with
    | error e => rfl
    | ok cost =>
      change (reworkPools (me.alias π) pledge cost margins (s.alias π A) 0 owned >>= _) = (reworkPools me pledge cost margins s 0 owned >>= _).map _
      rw [reworkPools_alias]
      cases reworkPools me pledge cost margins s 0 owned with
      | error e => rfl
      | ok s₁ =>
        change (draftPools (me.alias π) pledge cost margins (n - owned.length) (s₁.alias π A) owned.length owned >>= _) =
          (draftPools me pledge cost margins (n - owned.length) s₁ owned.length owned >>= _).map _
        rw [draftPools_alias]
        cases draftPools me pledge cost margins (n - owned.length) s₁ owned.length owned with
        | error e => rfl
        | ok x =>
          obtain ⟨s₂, owned₂⟩ := x
          by_cases hrem : me.stake - pledge * (n : F) > 0
          · change (if me.stake - pledge * (n : F) > 0 then findDelegationMove (s₂.alias π A) (me.alias π) σ _ >>= _ else _) =
              (if me.stake - pledge * (n : F) > 0 then findDelegationMove s₂ me σ _ >>= _ else _ : Py _).map _
            rw [if_pos hrem, if_pos hrem, findDelegationMove_alias]
            cases findDelegationMove s₂ me σ (me.stake - pledge * (n : F)) <;> rfl
          · change (if me.stake - pledge * (n : F) > 0 then findDelegationMove (s₂.alias π A) (me.alias π) σ _ >>= _ else _) =
              (if me.stake - pledge * (n : F) > 0 then findDelegationMove s₂ me σ _ >>= _ else _ : Py _).map _
            rw [if_neg hrem, if_neg hrem]
            rfl

theorem choosePoolStrategy_alias (ord : List Nat → List Nat) (A : Dict (Agent F)) (s : State F) (me : Agent F) (σ : Strategy F) :
    choosePoolStrategy ord (s.alias π A) (me.alias π) σ = (choosePoolStrategy ord s me σ).map (aliasFst π A) := by
  unfold choosePoolStrategy
  rw [marginsAndUtility_alias]
  have h3 : (s.alias π A).rs = s.rs := rfl
  rw [h3]
  cases searchPools (marginsAndUtility s me σ) (s.rs.k + 1) 1 s.rs.k with
  | error e => rfl
  | ok x =>
    obtain ⟨n, margins⟩ := x
    change (determinePoolsToKeep ord (s.alias π A) σ n >>= _) = (determinePoolsToKeep ord s σ n >>= _).map _
    rw [determinePoolsToKeep_alias]
    cases determinePoolsToKeep ord s σ n with
    | error e => rfl
    | ok y =>
      obtain ⟨s₁, copies⟩ := y
      change (findOperatorMove (s₁.alias π A) (me.alias π) σ n copies margins >>= _) = (findOperatorMove s₁ me σ n copies margins >>= _).map _
      rw [findOperatorMove_alias]
      cases findOperatorMove s₁ me σ n copies margins with
      | error e => rfl
      | ok z =>
        obtain ⟨s₂, τ⟩ := z
        change (expectedUtility (s₂.alias π A) (me.alias π) σ τ >>= _) = (expectedUtility s₂ me σ τ >>= _).map _
        rw [expectedUtility_alias]
        cases expectedUtility s₂ me σ τ <;> rfl

theorem planMove_alias (ord : List Nat → List Nat) (A : Dict (Agent F)) (s : State F) (me : Agent F) (σ : Strategy F) :
    planMove ord (s.alias π A) (me.alias π) σ = (planMove ord s me σ).map (aliasFst π A) := by
  unfold planMove
  rw [currentUtility_alias]
  cases currentUtility s σ with
  | error e => rfl
  | ok cur =>
    change (expectedUtility (s.alias π A) (me.alias π) σ σ >>= _) = (expectedUtility s me σ σ >>= _).map _
    rw [expectedUtility_alias]
    cases expectedUtility s me σ σ with
    | error e => rfl
    | ok exp =>
      change (findDelegationMove (s.alias π A) (me.alias π) σ me.stake >>= _) = (findDelegationMove s me σ me.stake >>= _).map _
      rw [findDelegationMove_alias]
      cases findDelegationMove s me σ me.stake with
      | error e => rfl
      | ok x =>
        obtain ⟨s₁, δ⟩ := x
        change (expectedUtility (s₁.alias π A) (me.alias π) σ δ >>= _) = (expectedUtility s₁ me σ δ >>= _).map _
        rw [expectedUtility_alias]
        cases expectedUtility s₁ me σ δ with
        | error e => rfl
        | ok du =>
          change (choosePoolStrategy ord (s₁.alias π A) (me.alias π) σ >>= _) = (choosePoolStrategy ord s₁ me σ >>= _).map _
          rw [choosePoolStrategy_alias]
          cases choosePoolStrategy ord s₁ me σ <;> rfl

/-! ### Executing -/

/-- the second state is the first one with renamed agents; the order in which the dictionary of the agents lists them does not matter -/
structure Aliased (π : Equiv.Perm Nat) (s t : State F) : Prop where
  eq : t = s.alias π t.agents
  agents : ∀ b, t.agents.get? (π b) = (s.agents.get? b).map (Agent.alias π)

namespace Aliased
variable {π} {s t : State F}

theorem mk' {A : Dict (Agent F)} (h : ∀ b, A.get? (π b) = (s.agents.get? b).map (Agent.alias π)) : Aliased π s (s.alias π A) := ⟨rfl, h⟩

theorem getAgent (h : Aliased π s t) (a : Nat) : t.agents.getE (π a) = (s.agents.getE a).map (Agent.alias π) := by
  unfold Dict.getE
  rw [h.agents a]
  cases s.agents.get? a <;> rfl

theorem heap (h : Aliased π s t) (r : Ref) : t.heap r = (s.heap r).alias π := by rw [h.eq]; rfl
theorem rs (h : Aliased π s t) : t.rs = s.rs := by rw [h.eq]; rfl
theorem pools (h : Aliased π s t) : t.pools = s.pools := by rw [h.eq]; rfl
theorem rank (h : Aliased π s t) : t.rank = s.rank := by rw [h.eq]; rfl
theorem rankM (h : Aliased π s t) : t.rankM = s.rankM := by rw [h.eq]; rfl
theorem simultaneous (h : Aliased π s t) : t.simultaneous = s.simultaneous := by rw [h.eq]; rfl
theorem poolKey (h : Aliased π s t) (r : Ref) : RSE.poolKey (t.heap r) = RSE.poolKey (s.heap r) := by rw [h.heap]; rfl
theorem poolKeyM (h : Aliased π s t) (r : Ref) : RSE.poolKeyM t.rs (t.heap r) = RSE.poolKeyM s.rs (s.heap r) := by rw [h.heap, h.rs]; rfl

theorem setAgent (h : Aliased π s t) (a : Agent F) : Aliased π (s.setAgent a) (t.setAgent (a.alias π)) := by
  refine ⟨?_, ?_⟩
  · conv_lhs => rw [h.eq]
    rfl
  · intro b
    change (t.agents.set (π a.id) (a.alias π)).get? (π b) = ((s.agents.set a.id a).get? b).map _
    by_cases hb : b = a.id
    · subst hb; simp [Dict.get?_set_self]
    · rw [Dict.get?_set_ne _ _ (fun e => hb (π.injective e).symm), Dict.get?_set_ne _ _ (Ne.symm hb), h.agents]

theorem setPool (h : Aliased π s t) (r : Ref) (p : Pool F) : Aliased π (s.setPool r p) (t.setPool r (p.alias π)) := by
  refine ⟨?_, h.agents⟩
  conv_lhs => rw [h.eq]
  exact State.setPool_alias π _ s r p

theorem withRanks (h : Aliased π s t) (l : SKL (Key F) (Option Ref)) (lm : SKL (KeyM F) (Option Ref)) (d : Dict Ref) :
    Aliased π { s with rank := l, rankM := lm, pools := d } { t with rank := l, rankM := lm, pools := d } := by
  refine ⟨?_, h.agents⟩
  conv_lhs => rw [h.eq]
  rfl

end Aliased

variable {π}

theorem Rel.same {α γ δ : Type} {S : γ → δ → Prop} {x : Py α} {f : α → Py γ} {g : α → Py δ} (h : ∀ a, Rel S (f a) (g a)) : Rel S (x >>= f) (x >>= g) := by
  cases x with
  | ok a => exact h a
  | error e => exact rfl

theorem State.alias_refl (s : State F) : s.alias (Equiv.refl Nat) s.agents = s := by
  have h : (fun r => (s.heap r).alias (Equiv.refl Nat)) = s.heap := by
    funext r
    unfold Pool.alias Dict.rename
    simp
  unfold State.alias
  rw [h]

theorem planMove_agents {ord : List Nat → List Nat} {s s₁ : State F} {me : Agent F} {σ : Strategy F} {oν : Option (Strategy F)}
    (h : planMove ord s me σ = .ok (s₁, oν)) : s₁.agents = s.agents := by
  have e := planMove_alias (Equiv.refl Nat) ord s.agents s me σ
  have em : me.alias (Equiv.refl Nat) = me := rfl
  rw [s.alias_refl, em, h] at e
  have := congrArg (fun x : State F × Option (Strategy F) => x.1.agents) (Except.ok.inj e)
  exact this

theorem Aliased.planned {s t : State F} {α : Type} (h : Aliased π s t) {x : Py (State F × α)} {y : Py (State F × α)}
    (hx : ∀ s₁ a, x = .ok (s₁, a) → s₁.agents = s.agents) (hy : y = x.map (aliasFst π t.agents)) :
    Rel (fun p q => Aliased π p.1 q.1 ∧ q.2 = p.2) x y := by
  subst hy
  cases x with
  | error e => exact rfl
  | ok p =>
    refine ⟨⟨rfl, ?_⟩, rfl⟩
    rw [hx p.1 p.2 rfl]
    exact h.agents

theorem iterM_aliased {α : Type} {f g : State F → α → Py (State F)}
    (hf : ∀ s t a, Aliased π s t → Rel (Aliased π) (f s a) (g t a)) : ∀ (l : List α) {s t : State F}, Aliased π s t →
    Rel (Aliased π) (iterM f s l) (iterM g t l)
  | [], _, _, h => h
  | a :: l, s, t, h => by
    unfold iterM
    exact Rel.bind (hf s t a h) (fun _ _ _ _ h₁ => iterM_aliased hf l h₁)

theorem undelegateAll_aliased (r : Ref) : ∀ (l : List Nat) {s t : State F}, Aliased π s t →
    Rel (Aliased π) (undelegateAll s r l) (undelegateAll t r (l.map π))
  | [], _, _, h => h
  | aid :: l, s, t, h => by
    rw [List.map_cons]
    unfold undelegateAll
    refine Rel.bind (Rel.of_map (h.getAgent aid)) ?_
    rintro a _ _ _ rfl
    have hs : (a.alias π).strategy = a.strategy := rfl
    rw [hs]
    cases a.strategy with
    | none => exact rfl
    | some σ =>
      have e : (t.heap r).id = (s.heap r).id := by rw [h.heap]; rfl
      simp only [e]
      refine Rel.same ?_
      intro allocs
      have h₂ := (h.setAgent { a with strategy := some { σ with allocs := allocs } }).setPool r ((s.heap r).updateDelegation 0 aid)
      have e2 : ((s.heap r).updateDelegation 0 aid).alias π = ((t.setAgent { a.alias π with strategy := some { σ with allocs := allocs } }).heap r).updateDelegation 0 (π aid) := by
        change _ = (t.heap r).updateDelegation 0 (π aid)
        rw [h.heap, Pool.updateDelegation_alias]
      rw [e2] at h₂
      exact undelegateAll_aliased r l h₂

theorem removeDelegations_aliased (r : Ref) {s t : State F} (h : Aliased π s t) : Rel (Aliased π) (removeDelegations s r) (removeDelegations t r) := by
  unfold removeDelegations
  have e : (t.heap r).delegators.keys = (s.heap r).delegators.keys.map π := by rw [h.heap]; exact Dict.keys_rename _
  rw [e]
  refine Rel.bind (undelegateAll_aliased r _ h) ?_
  intro s₁ t₁ _ _ h₁
  have hsim := h₁.simultaneous
  by_cases hc : s₁.simultaneous = true
  · rw [if_pos hc, if_pos (hsim.trans hc)]
    refine ⟨?_, ?_⟩
    · exact congrArg (fun u : State F => { u with agents := List.map (fun e : Nat × Agent F => (e.1, unstage (t₁.heap r).id e.2)) t₁.agents }) h₁.eq
    · intro b
      have key : ∀ (d : Dict (Agent F)) (pid c : Nat), Dict.get? (d.map (fun e => (e.1, unstage pid e.2))) c = (d.get? c).map (unstage pid) :=
        fun d pid c => Dict.get?_map_snd d (fun _ v => unstage pid v) c
      simp only [key]
      rw [h₁.agents, h₁.heap]
      cases s₁.agents.get? b <;> rfl
  · rw [if_neg hc, if_neg (fun hn => hc (hsim.symm.trans hn))]
    exact h₁

theorem closePool_aliased {s t : State F} (pid : Nat) (h : Aliased π s t) : Rel (Aliased π) (closePool s pid) (closePool t pid) := by
  unfold closePool
  rw [h.pools]
  refine Rel.same ?_
  intro r
  rw [h.rank, h.rankM, h.poolKey, h.poolKeyM]
  refine Rel.same ?_
  intro l
  refine Rel.same ?_
  intro lm
  have h' := h.withRanks l lm s.pools
  refine Rel.bind (removeDelegations_aliased r h') ?_
  intro s₁ t₁ _ _ h₁
  rw [h₁.pools]
  refine Rel.same ?_
  intro d
  have h₂ := h₁.withRanks s₁.rank s₁.rankM d
  have e : ({ t₁ with rank := s₁.rank, rankM := s₁.rankM, pools := d } : State F) = { t₁ with pools := d } := by rw [← h₁.rank, ← h₁.rankM]
  rw [e] at h₂
  exact h₂

theorem updatePool_aliased {s t : State F} (aid pid : Nat) (h : Aliased π s t) : Rel (Aliased π) (updatePool s aid pid) (updatePool t (π aid) pid) := by
  unfold updatePool
  refine Rel.bind (Rel.of_map (h.getAgent aid)) ?_
  rintro me _ _ _ rfl
  have hs : (me.alias π).newStrategy = me.newStrategy := rfl
  rw [hs]
  cases me.newStrategy with
  | none => exact rfl
  | some ν =>
    refine Rel.same ?_
    intro r'
    refine Rel.bind (R := Aliased π) ?_ ?_
    · rw [h.heap]
      have : (((s.heap r').alias π).isPrivate = true ∧ ((s.heap r').alias π).stake > ((s.heap r').alias π).pledge) ↔
          ((s.heap r').isPrivate = true ∧ (s.heap r').stake > (s.heap r').pledge) := Iff.rfl
      by_cases hc : (s.heap r').isPrivate = true ∧ (s.heap r').stake > (s.heap r').pledge
      · rw [if_pos hc, if_pos (this.2 hc)]; exact removeDelegations_aliased r' h
      · rw [if_neg hc, if_neg (fun hn => hc (this.1 hn))]; exact h
    · intro s₁ t₁ _ _ h₁
      have h₂ : Aliased π { s₁ with pools := s₁.pools.set pid r' } { t₁ with pools := t₁.pools.set pid r' } := by
        have := h₁.withRanks s₁.rank s₁.rankM (s₁.pools.set pid r')
        rw [← h₁.rank, ← h₁.rankM] at this
        rw [h₁.pools]
        refine ⟨?_, h₁.agents⟩
        conv_lhs => rw [h₁.eq]
        rfl
      refine Rel.bind (Rel.of_map (h₂.getAgent aid)) ?_
      rintro me₂ _ _ _ rfl
      have hs₂ : (me₂.alias π).strategy = me₂.strategy := rfl
      rw [hs₂]
      cases me₂.strategy with
      | none => exact rfl
      | some σ =>
        refine Rel.same ?_
        intro r
        have e1 := h₁.poolKey
        have e2 := h₁.poolKeyM
        simp only [h₁.rank, h₁.rankM, e1, e2, h₁.pools]
        refine Rel.same ?_
        intro l
        refine Rel.same ?_
        intro lm
        exact h₁.withRanks _ _ _

theorem openPool_aliased {s t : State F} (aid pid : Nat) (h : Aliased π s t) : Rel (Aliased π) (openPool s aid pid) (openPool t (π aid) pid) := by
  unfold openPool
  refine Rel.bind (Rel.of_map (h.getAgent aid)) ?_
  rintro me _ _ _ rfl
  have hs : (me.alias π).strategy = me.strategy := rfl
  rw [hs]
  cases me.strategy with
  | none => exact rfl
  | some σ =>
    refine Rel.same ?_
    intro r
    rw [h.rank, h.rankM, h.poolKey, h.poolKeyM, h.pools]
    exact h.withRanks _ _ _

theorem setDelegations_aliased (a : Nat) (l : List (Nat × F)) {s t : State F} (h : Aliased π s t) :
    Rel (Aliased π) (setDelegations s a l) (setDelegations t (π a) l) := by
  have e : setDelegations t (π a) l = (setDelegations s a l).map (State.alias π t.agents) := by
    conv_lhs => rw [h.eq]
    exact setDelegations_alias π _ a l s
  rw [e]
  cases h1 : setDelegations s a l with
  | error e => exact rfl
  | ok s₁ =>
    refine ⟨rfl, ?_⟩
    have : s₁.agents = s.agents := (setDelegations_agents a l s).of_ok h1
    rw [this]
    exact h.agents

theorem executeStrategy_aliased (ord : List Nat → List Nat) {s t : State F} (h : Aliased π s t) (aid : Nat) :
    Rel (Aliased π) (executeStrategy ord s aid) (executeStrategy ord t (π aid)) := by
  unfold executeStrategy
  refine Rel.bind (Rel.of_map (h.getAgent aid)) ?_
  rintro me _ _ _ rfl
  have hs : (me.alias π).strategy = me.strategy := rfl
  have hn : (me.alias π).newStrategy = me.newStrategy := rfl
  rw [hs, hn]
  cases me.strategy with
  | none => cases me.newStrategy <;> exact rfl
  | some σ =>
    cases me.newStrategy with
    | none => exact rfl
    | some ν =>
      refine Rel.bind (setDelegations_aliased aid _ h) ?_
      intro s₁ t₁ _ _ h₁
      refine Rel.bind (setDelegations_aliased aid ν.allocs h₁) ?_
      intro s₂ t₂ _ _ h₂
      refine Rel.bind (iterM_aliased (fun _ _ pid ht => closePool_aliased pid ht) _ h₂) ?_
      intro s₃ t₃ _ _ h₃
      refine Rel.bind (iterM_aliased (fun _ _ pid ht => updatePool_aliased aid pid ht) _ h₃) ?_
      intro s₄ t₄ _ _ h₄
      refine Rel.bind (Rel.of_map (h₄.getAgent aid)) ?_
      rintro me₄ _ _ _ rfl
      exact iterM_aliased (fun _ _ pid ht => openPool_aliased aid pid ht) _ (h₄.setAgent { me₄ with strategy := me₄.newStrategy, newStrategy := none })

theorem advance_aliased (ord : List Nat → List Nat) {s t : State F} (h : Aliased π s t) (aid : Nat) :
    Rel (Aliased π) (advance ord s aid) (advance ord t (π aid)) := by
  unfold advance
  refine Rel.bind (Rel.of_map (h.getAgent aid)) ?_
  rintro me _ _ _ rfl
  have hn : (me.alias π).newStrategy = me.newStrategy := rfl
  rw [hn]
  cases me.newStrategy with
  | none => exact h
  | some ν =>
    refine Rel.bind (executeStrategy_aliased ord h aid) ?_
    intro s₁ t₁ _ _ h₁
    refine ⟨?_, h₁.agents⟩
    conv_lhs => rw [h₁.eq]
    rfl

theorem updateStrategy_aliased (ord : List Nat → List Nat) {s t : State F} (h : Aliased π s t) (aid : Nat) :
    Rel (Aliased π) (updateStrategy ord s aid) (updateStrategy ord t (π aid)) := by
  unfold updateStrategy
  refine Rel.bind (Rel.of_map (h.getAgent aid)) ?_
  rintro ⟨id, stake, cost, profile, strategy, newStrategy⟩ _ _ _ rfl
  have key : ∀ (p : Profile) (σ : Strategy F), Rel (Aliased π)
      (do
        let (s, ν) ← planMove ord s ⟨id, stake, cost, p, some σ, newStrategy⟩ σ
        return s.setAgent ⟨id, stake, cost, p, some σ, ν⟩)
      (do
        let (s, ν) ← planMove ord t ⟨π id, stake, cost, p, some σ, newStrategy⟩ σ
        return s.setAgent ⟨π id, stake, cost, p, some σ, ν⟩) := by
    intro p σ
    have e : planMove ord t ⟨π id, stake, cost, p, some σ, newStrategy⟩ σ =
        (planMove ord s ⟨id, stake, cost, p, some σ, newStrategy⟩ σ).map (aliasFst π t.agents) := by
      conv_lhs => rw [h.eq]
      exact planMove_alias π ord _ s ⟨id, stake, cost, p, some σ, newStrategy⟩ σ
    refine Rel.bind (h.planned (fun s₁ a h1 => planMove_agents h1) e) ?_
    rintro ⟨s₁, ν⟩ ⟨t₁, ν'⟩ _ _ ⟨h₁, h₂⟩
    simp only at h₁ h₂
    subst h₂
    exact h₁.setAgent ⟨id, stake, cost, p, some σ, _⟩
  cases profile with
  | abstainer => exact h
  | nonMyopic => cases strategy with
    | none => exact rfl
    | some σ => exact key .nonMyopic σ
  | myopic => cases strategy with
    | none => exact rfl
    | some σ => exact key .myopic σ

theorem agentStep_aliased (ord : List Nat → List Nat) {s t : State F} (h : Aliased π s t) (aid : Nat) :
    Rel (Aliased π) (agentStep ord s aid) (agentStep ord t (π aid)) := by
  unfold agentStep
  refine Rel.bind (updateStrategy_aliased ord h aid) ?_
  intro s₁ t₁ _ _ h₁
  rw [h₁.simultaneous]
  split
  · exact h₁
  · exact advance_aliased ord h₁ aid

/-! ### Phases and events -/

theorem unrank_aliased {s t : State F} (r : Ref) (h : Aliased π s t) : Rel (Aliased π) (unrank s r) (unrank t r) := by
  unfold unrank
  rw [h.rank, h.rankM, h.poolKey, h.poolKeyM]
  refine Rel.same ?_
  intro l
  refine Rel.same ?_
  intro lm
  refine ⟨?_, h.agents⟩
  conv_lhs => rw [h.eq]
  rfl

theorem rerank_aliased {s t : State F} (r : Ref) (h : Aliased π s t) : Rel (Aliased π) (rerank s r) (rerank t r) := by
  refine ⟨?_, h.agents⟩
  conv_lhs => rw [h.eq]
  have e := State.setPool_alias π t.agents s r (((s.heap r).setProfit s.rs).setDesirability)
  exact congrArg (fun u : State F => { u with
    rank := s.rank.add (poolKey (((s.heap r).setProfit s.rs).setDesirability)) (some r)
    rankM := s.rankM.add (poolKeyM s.rs (((s.heap r).setProfit s.rs).setDesirability)) (some r) }) e

theorem applyPhase_aliased {s t : State F} (p : PhaseParams F) (h : Aliased π s t) : Rel (Aliased π) (applyPhase s p) (applyPhase t p) := by
  unfold applyPhase
  have key : ∀ rs : RS F, Aliased π { s with rs := rs, relThr := p.relThr.getD s.relThr, absThr := p.absThr.getD s.absThr, extraFrac := p.extraFrac.getD s.extraFrac }
      { t with rs := rs, relThr := p.relThr.getD t.relThr, absThr := p.absThr.getD t.absThr, extraFrac := p.extraFrac.getD t.extraFrac } := fun rs => by
    refine ⟨?_, h.agents⟩
    conv_lhs => rw [h.eq]
    rfl
  cases p.k with
  | none =>
    have e : (Except.ok t.rs : Py (RS F)) = Except.ok s.rs := by rw [h.rs]
    refine Rel.bind (Rel.of_eq' e) ?_
    rintro rs _ _ _ rfl
    exact key _
  | some k =>
    have e : t.rs.setK k = s.rs.setK k := by rw [h.rs]
    refine Rel.bind (Rel.of_eq' e) ?_
    rintro rs _ _ _ rfl
    exact key _

theorem changePhase_aliased {s t : State F} (p : PhaseParams F) (h : Aliased π s t) : Rel (Aliased π) (changePhase s p) (changePhase t p) := by
  unfold changePhase
  rw [h.pools]
  refine Rel.bind (iterM_aliased (fun _ _ r ht => unrank_aliased r ht) _ h) ?_
  intro s₁ t₁ _ _ h₁
  refine Rel.bind (applyPhase_aliased p h₁) ?_
  intro s₂ t₂ _ _ h₂
  rw [h₂.pools]
  exact iterM_aliased (fun _ _ r ht => rerank_aliased r ht) _ h₂

/-- the same event for the renamed agent -/
def Event.alias (π : Equiv.Perm Nat) : Event F → Event F
  | .step a ord => .step (π a) ord
  | .advance a ord => .advance (π a) ord
  | .phase p => .phase p
  | .roundEnd => .roundEnd

theorem exec_aliased {s t : State F} (ev : Event F) (h : Aliased π s t) : Rel (Aliased π) (exec s ev) (exec t (ev.alias π)) := by
  cases ev with
  | step a ord => exact agentStep_aliased ord h a
  | advance a ord => exact advance_aliased ord h a
  | phase p => exact changePhase_aliased p h
  | roundEnd =>
    refine ⟨?_, h.agents⟩
    conv_lhs => rw [h.eq]
    rfl

theorem run_aliased : ∀ (es : List (Event F)) {s t : State F}, Aliased π s t → Rel (Aliased π) (iterM exec s es) (iterM exec t (es.map (Event.alias π)))
  | [], _, _, h => h
  | e :: l, _, _, h => by
    rw [List.map_cons]
    unfold iterM
    exact Rel.bind (exec_aliased e h) (fun _ _ _ _ h₁ => run_aliased l h₁)

end RSE
