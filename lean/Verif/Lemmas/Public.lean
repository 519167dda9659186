import Verif.Lemmas.Rename

/-!
# Planning looks at pools and at the agent's own records only

Whatever concerns other agents (their stakes, costs, profiles, strategies and plans, who of them owns which pool and who holds which part of its delegated stake)
can be taken out of the state before an agent plans.  No law of arithmetic is used.
-/

set_option linter.unusedSectionVars false

namespace RSE

variable {F : Type} [LinearOrder F] [Zero F] [One F] [Add F] [Sub F] [Mul F] [Div F] [Neg F] [NatCast F] [FSum F]

/-- the entries of `a` in a dictionary of delegators -/
def ownEntries (a : Nat) (d : Dict F) : Dict F := d.filter (fun e => e.1 = a)

theorem ownEntries_get? (a : Nat) (d : Dict F) : (ownEntries a d).get? a = d.get? a := by
  induction d with
  | nil => rfl
  | cons e t ih =>
    by_cases h : e.1 = a
    · simp [ownEntries, h, Dict.get?]
    · simp only [ownEntries, List.filter_cons, h, decide_false, Bool.false_eq_true, if_false, Dict.get?]
      exact ih

theorem ownEntries_set (a : Nat) (d : Dict F) (x : F) : ownEntries a (d.set a x) = (ownEntries a d).set a x := by
  induction d with
  | nil => simp [ownEntries, Dict.set]
  | cons e t ih =>
    by_cases h : e.1 = a
    · simp [ownEntries, h, Dict.set]
    · simp only [ownEntries, List.filter_cons, h, decide_false, Bool.false_eq_true, if_false, Dict.set]
      exact ih

theorem ownEntries_erase (a : Nat) (d : Dict F) : ownEntries a (d.erase a) = (ownEntries a d).erase a := by
  induction d with
  | nil => rfl
  | cons e t ih =>
    by_cases h : e.1 = a
    · simp [ownEntries, h, Dict.erase]
    · simp only [ownEntries, List.filter_cons, h, decide_false, Bool.false_eq_true, if_false, Dict.erase]
      exact ih

/-- a pool without the names of the other delegators, and of the owner unless it is `a` -/
def Pool.hide (a : Nat) (p : Pool F) : Pool F :=
  { p with delegators := ownEntries a p.delegators, owner := if p.owner = a then a else a + 1 }

theorem Pool.hide_owner (a : Nat) (p : Pool F) : (p.hide a).owner = a ↔ p.owner = a := by
  unfold Pool.hide
  by_cases h : p.owner = a
  · simp [h]
  · simp [h]

theorem Pool.hide_updateDelegation (a : Nat) (p : Pool F) (x : F) : (p.updateDelegation x a).hide a = (p.hide a).updateDelegation x a := by
  unfold Pool.updateDelegation Pool.hide
  simp only [ownEntries_get?]
  by_cases h : x < minUnit
  · simp only [h, if_true, ownEntries_erase, ownEntries_set]
  · simp only [h, if_false, ownEntries_set]

/-- what `a` looks at -/
def State.view (a : Nat) (s : State F) : State F :=
  { s with agents := [], heap := fun r => (s.heap r).hide a, idle := true, simultaneous := false }

theorem State.view_setPool (a : Nat) (s : State F) (r : Ref) (p : Pool F) : (s.setPool r p).view a = (s.view a).setPool r (p.hide a) := by
  unfold State.view State.setPool
  have h : (fun r' => (Function.update s.heap r p r').hide a) = Function.update (fun r' => (s.heap r').hide a) r (p.hide a) := by
    funext r'
    by_cases hr : r' = r
    · subst hr; simp
    · simp [hr]
  simp only [h]

theorem State.view_alloc (a : Nat) (s : State F) (p : Pool F) : (s.alloc p).view a = (s.view a).alloc (p.hide a) := by
  unfold State.view State.alloc
  have h : (fun r' => (Function.update s.heap s.next p r').hide a) = Function.update (fun r' => (s.heap r').hide a) s.next (p.hide a) := by
    funext r'
    by_cases hr : r' = s.next
    · subst hr; simp
    · simp [hr]
  simp only [h]

section
variable {a : Nat} {me : Agent F} (hme : me.id = a) (s : State F) (σ : Strategy F)
include hme

theorem setDelegation_view (pid : Nat) (x : F) : setDelegation (s.view a) pid x a = (setDelegation s pid x a).map (State.view a) := by
  unfold setDelegation
  show (s.pools.getE pid >>= fun r => _) = _
  cases s.pools.getE pid with
  | error e => rfl
  | ok r =>
    show (SKL.remove (poolKeyM s.rs (s.heap r)) (some r) s.rankM >>= fun l => _) = (SKL.remove (poolKeyM s.rs (s.heap r)) (some r) s.rankM >>= fun l => _).map _
    cases SKL.remove (poolKeyM s.rs (s.heap r)) (some r) s.rankM with
    | error e => rfl
    | ok l =>
      simp only [bind, Except.bind, pure, Except.pure, Except.map]
      have h1 := State.view_setPool a s r ((s.heap r).updateDelegation x a)
      have h2 : ((s.view a).heap r).updateDelegation x a = ((s.heap r).updateDelegation x a).hide a := (Pool.hide_updateDelegation a _ x).symm
      rw [h2]
      have hh := congrArg State.heap h1
      simp only [State.view, State.setPool] at hh ⊢
      rw [hh]
      rfl

theorem setDelegations_view (l : List (Nat × F)) : setDelegations (s.view a) a l = (setDelegations s a l).map (State.view a) := by
  induction l generalizing s with
  | nil => rfl
  | cons e t ih =>
    simp only [setDelegations]
    rw [setDelegation_view hme]
    cases setDelegation s e.1 e.2 a with
    | error e => rfl
    | ok s₁ => exact ih s₁

theorem greedy_view (l : List Ref) (x : F) (b : Option Ref) (d : Dict F) : greedy (s.view a).rs (s.view a).heap l x b d = greedy s.rs s.heap l x b d := by
  induction l generalizing x b d with
  | nil => rfl
  | cons r t ih =>
    simp only [greedy, ih]
    rfl

theorem greedyAllocations_view (l : List Ref) (x : F) : greedyAllocations (s.view a).rs (s.view a).heap l x = greedyAllocations s.rs s.heap l x := by
  unfold greedyAllocations
  rw [greedy_view hme]
  rfl

theorem view_owner (r : Ref) : ((s.view a).heap r).owner = me.id ↔ (s.heap r).owner = me.id := by
  rw [hme]
  exact Pool.hide_owner a _

theorem eligiblePools_view : eligiblePools (s.view a) me = eligiblePools s me := by
  unfold eligiblePools
  show (rankingsOf s me).filterMap _ = _
  congr 1
  funext e
  cases e with
  | none => rfl
  | some r =>
    simp only [ne_eq, view_owner hme]
    rfl

theorem fixedPools_view : fixedPools (s.view a) me = fixedPools s me := by
  unfold fixedPools
  show (rankingsOf s me).filter _ = _
  congr 1
  funext e
  cases e with
  | none => rfl
  | some r => simp only [ne_eq, view_owner hme]

theorem tempRankings_view (owned : List Ref) : tempRankings (s.view a) me owned = tempRankings s me owned := by
  unfold tempRankings
  have h : ∀ {X Y : List (Option Ref)}, X = Y → ∀ f : SKL (Key F) (Option Ref) → Option Ref → SKL (Key F) (Option Ref),
      ∀ g : SKL (Key F) (Option Ref) → Ref → SKL (Key F) (Option Ref), (List.foldl g (List.foldl f [] X) owned) = List.foldl g (List.foldl f [] Y) owned := by
    rintro X Y rfl f g
    rfl
  refine h ?_ _ _
  show s.rank.vals.filter _ = s.rank.vals.filter _
  congr 1
  funext e
  cases e with
  | none => rfl
  | some r => simp only [ne_eq, view_owner hme]

theorem determineStakeAllocations_view (x : F) :
    determineStakeAllocations (s.view a) me σ x = (determineStakeAllocations s me σ x).map (fun y => (y.1.view a, y.2)) := by
  unfold determineStakeAllocations
  simp only [eligiblePools_view hme]
  by_cases h : (eligiblePools s me).length = 0
  · simp only [h, if_true]; rfl
  · simp only [h, if_false]
    rw [hme, setDelegations_view hme]
    cases setDelegations s a (σ.allocs.map fun e => (e.1, 0)) with
    | error e => rfl
    | ok s₁ =>
      simp only [Except.map, bind, Except.bind]
      rw [setDelegations_view hme, greedyAllocations_view hme]
      cases setDelegations s₁ a σ.allocs with
      | error e => rfl
      | ok s₂ => rfl

theorem findDelegationMove_view (x : F) : findDelegationMove (s.view a) me σ x = (findDelegationMove s me σ x).map (fun y => (y.1.view a, y.2)) := by
  unfold findDelegationMove
  by_cases h : x < minUnit
  · simp only [h, if_true]; rfl
  · simp only [h, if_false]
    rw [determineStakeAllocations_view hme]
    cases determineStakeAllocations s me σ x with
    | error e => rfl
    | ok y => rfl

theorem operatorUtilityFromStrategy_view (τ : Strategy F) : operatorUtilityFromStrategy (s.view a) me τ = operatorUtilityFromStrategy s me τ := by
  unfold operatorUtilityFromStrategy
  simp only [tempRankings_view hme]
  rfl

theorem expectedUtility_view (τ : Strategy F) : expectedUtility (s.view a) me σ τ = expectedUtility s me σ τ := by
  unfold expectedUtility
  simp only [operatorUtilityFromStrategy_view hme]
  rfl

theorem currentUtility_view : currentUtility (s.view a) σ = currentUtility s σ := rfl

theorem marginNM_view (pledge cost pp : F) : marginNM (s.view a) me pledge cost pp = marginNM s me pledge cost pp := by
  funext t
  unfold marginNM
  rw [fixedPools_view hme]
  rfl

theorem marginM_view (pledge cost profit : F) : marginM (s.view a) me pledge cost profit = marginM s me pledge cost profit := by
  funext t
  unfold marginM
  rw [fixedPools_view hme]
  rfl

theorem marginsAndUtility_view : marginsAndUtility (s.view a) me σ = marginsAndUtility s me σ := by
  funext n
  unfold marginsAndUtility
  simp only [marginNM_view hme, marginM_view hme]
  rfl

theorem copyPools_view (l : List (Nat × Ref)) : copyPools (s.view a) l = ((copyPools s l).1.view a, (copyPools s l).2) := by
  induction l generalizing s with
  | nil => rfl
  | cons e t ih =>
    simp only [copyPools]
    have h : (s.view a).alloc ((s.view a).heap e.2) = (s.alloc (s.heap e.2)).view a := (State.view_alloc a s _).symm
    rw [h, ih]
    rfl

theorem determinePoolsToKeep_view (ord : List Nat → List Nat) (n : Nat) :
    determinePoolsToKeep ord (s.view a) σ n = (determinePoolsToKeep ord s σ n).map (fun y => (y.1.view a, y.2)) := by
  unfold determinePoolsToKeep
  by_cases hn : n < σ.owned.length
  · simp only [hn, if_true]
    rw [show topPoolIds (s.view a).heap σ.owned n = topPoolIds s.heap σ.owned n from rfl]
    cases List.mapM (fun pid => do let r ← σ.owned.getE pid; return (pid, r)) (ord (topPoolIds s.heap σ.owned n)) with
    | error e => rfl
    | ok l =>
      simp only [bind, Except.bind, pure, Except.pure, Except.map]
      rw [copyPools_view hme]
  · simp only [hn, if_false, Except.map]
    rw [copyPools_view hme]

theorem reworkPools_view (pledge cost : F) (margins : List F) (i : Nat) (l : List (Nat × Ref)) :
    reworkPools me pledge cost margins (s.view a) i l = (reworkPools me pledge cost margins s i l).map (State.view a) := by
  induction l generalizing s i with
  | nil => rfl
  | cons e t ih =>
    simp only [reworkPools]
    show (marginAt s me margins i (reworkPool s.rs pledge cost (s.heap e.2)) >>= _) = (marginAt s me margins i (reworkPool s.rs pledge cost (s.heap e.2)) >>= _).map _
    cases marginAt s me margins i (reworkPool s.rs pledge cost (s.heap e.2)) with
    | error e => rfl
    | ok m =>
      simp only [bind, Except.bind]
      rw [← ih, State.view_setPool]
      rfl

theorem draftPools_view (pledge cost : F) (margins : List F) (n : Nat) (i : Nat) (owned : Dict Ref) :
    draftPools me pledge cost margins n (s.view a) i owned = (draftPools me pledge cost margins n s i owned).map (fun y => (y.1.view a, y.2)) := by
  induction n generalizing s i owned with
  | zero => rfl
  | succ n ih =>
    simp only [draftPools]
    generalize hq : Pool.create (s.idSeq + 1) cost pledge me.id s.rs (decide (pledge ≥ s.rs.sat pledge)) = q
    have hd : ∀ m, (q.setMargin m).hide a = q.setMargin m := by
      intro m
      subst hq
      subst hme
      simp [Pool.hide, Pool.create, Pool.setMargin, Pool.setDesirability, Pool.setProfit, ownEntries]
    show (marginAt s me margins i (Pool.create (s.idSeq + 1) cost pledge me.id s.rs (decide (pledge ≥ s.rs.sat pledge))) >>= _) = (marginAt s me margins i q >>= _).map _
    rw [hq]
    cases marginAt s me margins i q with
    | error e => rfl
    | ok m =>
      simp only [bind, Except.bind]
      have h := State.view_alloc a { s with idSeq := s.idSeq + 1 } (q.setMargin m)
      rw [hd] at h
      have ih' := ih ({ s with idSeq := s.idSeq + 1 }.alloc (q.setMargin m)) (i + 1) (owned.set (s.idSeq + 1) s.next)
      rw [h] at ih'
      show draftPools me pledge cost margins n (({ s with idSeq := s.idSeq + 1 } : State F).view a |>.alloc ((Pool.create (s.idSeq + 1) cost pledge me.id s.rs (decide (pledge ≥ s.rs.sat pledge))).setMargin m)) (i + 1) (owned.set (s.idSeq + 1) s.next) = _
      rw [hq]
      exact ih'

theorem findOperatorMove_view (n : Nat) (owned : Dict Ref) (margins : List F) :
    findOperatorMove (s.view a) me σ n owned margins = (findOperatorMove s me σ n owned margins).map (fun y => (y.1.view a, y.2)) := by
  unfold findOperatorMove
  show (pledgePerPool me.stake s.rs.beta n >>= _) = (pledgePerPool me.stake s.rs.beta n >>= _).map _
  cases pledgePerPool me.stake s.rs.beta n with
  | error e => rfl
  | ok pledge =>
    show (costPerPool n me.cost s.extraFrac >>= _) = (costPerPool n me.cost s.extraFrac >>= _).map _
    cases costPerPool n me.cost s.extraFrac with
    | error e => rfl
    | ok cost =>
      simp only [bind, Except.bind]
      rw [reworkPools_view hme]
      cases reworkPools me pledge cost margins s 0 owned with
      | error e => rfl
      | ok s₁ =>
        simp only [Except.map]
        rw [draftPools_view hme]
        cases draftPools me pledge cost margins (n - owned.length) s₁ owned.length owned with
        | error e => rfl
        | ok y =>
          simp only [Except.map]
          by_cases hrem : me.stake - pledge * (n : F) > 0
          · simp only [hrem, if_true]
            rw [findDelegationMove_view hme]
            cases findDelegationMove y.1 me σ (me.stake - pledge * (n : F)) with
            | error e => rfl
            | ok z => rfl
          · simp only [hrem, if_false]; rfl

theorem choosePoolStrategy_view (ord : List Nat → List Nat) :
    choosePoolStrategy ord (s.view a) me σ = (choosePoolStrategy ord s me σ).map (fun y => (y.1.view a, y.2)) := by
  unfold choosePoolStrategy
  rw [marginsAndUtility_view hme]
  show (searchPools (marginsAndUtility s me σ) (s.rs.k + 1) 1 s.rs.k >>= _) = (searchPools (marginsAndUtility s me σ) (s.rs.k + 1) 1 s.rs.k >>= _).map _
  cases searchPools (marginsAndUtility s me σ) (s.rs.k + 1) 1 s.rs.k with
  | error e => rfl
  | ok n =>
    simp only [bind, Except.bind]
    rw [determinePoolsToKeep_view hme]
    cases determinePoolsToKeep ord s σ n.1 with
    | error e => rfl
    | ok y =>
      simp only [Except.map]
      rw [findOperatorMove_view hme]
      cases findOperatorMove y.1 me σ n.1 y.2 n.2 with
      | error e => rfl
      | ok z =>
        simp only [Except.map]
        rw [expectedUtility_view hme]
        cases expectedUtility z.1 me σ z.2 with
        | error e => rfl
        | ok u => rfl

/-- planning after taking out what concerns others -/
theorem planMove_view (ord : List Nat → List Nat) : planMove ord (s.view a) me σ = (planMove ord s me σ).map (fun y => (y.1.view a, y.2)) := by
  unfold planMove
  rw [currentUtility_view hme, expectedUtility_view hme]
  cases currentUtility s σ with
  | error e => rfl
  | ok cur =>
    cases expectedUtility s me σ σ with
    | error e => rfl
    | ok ex =>
      simp only [bind, Except.bind]
      rw [findDelegationMove_view hme]
      cases findDelegationMove s me σ me.stake with
      | error e => rfl
      | ok y =>
        simp only [Except.map]
        rw [expectedUtility_view hme]
        cases expectedUtility y.1 me σ y.2 with
        | error e => rfl
        | ok du =>
          simp only []
          rw [choosePoolStrategy_view hme]
          cases choosePoolStrategy ord y.1 me σ with
          | error e => rfl
          | ok z => rfl

end

end RSE
