import Verif.Model.Tests
import Verif.Py.ExceptEq

/-!
# C119: what the project's own tests say

The tests are closed computations, but for the agents that `Simulation()` draws, the draws of the tests themselves and the order in which sets are iterated; the theorems are about all of these.
-/

set_option linter.unusedSectionVars false

namespace RSE.Props

open Tests

/-- C119.  The tests of the helper functions that pass. -/
theorem C119_helper_pass :
    rewardVariableStake = true ∧ rewardVariablePledge = true ∧ rewardVariableStakeA0Zero = true ∧ rewardVariablePledgeA0Zero = true ∧ ranks = .ok true ∧
      ranksWithTieBreaking = .ok true ∧ costs = .ok true ∧ nonMyopicPoolStake = .ok true ∧ rewardCip50 = true ∧ targetPool = true := by
  refine ⟨?_, ?_, ?_, ?_, ?_, ?_, ?_, ?_, ?_, ?_⟩ <;> decide +kernel

/-- C119.  The test of the Pareto distribution passes, whatever is drawn. -/
theorem C119_pareto (z z' : Nat → B64) (fuel : Nat) : generateStakeDistr z z' fuel = .ok true := by
  have h : ¬ ((-1 : B64) > 0) := by decide +kernel
  simp [generateStakeDistr, stakesPareto, h, bind, Except.bind, pure, Except.pure]

/-- C119.  The test of the flat distribution draws a number from 1 to 100.  It passes unless this is 100; then it raises `IndexError`. -/
theorem C119_flat_is_flaky (i : Nat) (h1 : 1 ≤ i) (h2 : i ≤ 100) : generateStakeDistrFlat i = if i = 100 then .error .index else .ok true := by
  have key : ∀ j : Fin 101, 1 ≤ j.val → generateStakeDistrFlat j.val = if j.val = 100 then .error .index else .ok true := by decide +kernel
  exact key ⟨i, by omega⟩ h1

/-- C119.  The tests of the metrics pass, whatever agents `Simulation()` draws. -/
theorem C119_metrics_pass (people : List (B64 × B64 × Profile)) (total : B64) :
    statDist (simulation 100 people total) = .ok true ∧ splitters (simulation 100 people total) = true ∧ gini = .ok true ∧
      giniCount (simulation 100 people total) = .ok true ∧ giniStakes (simulation 100 people total) = .ok true ∧
      giniCountK (simulation 5 people total) = .ok true ∧ medianRank (simulation 100 people total) = .ok true := by
  refine ⟨?_, ?_, ?_, ?_, ?_, ?_, ?_⟩
  · rw [show statDist (simulation 100 people total) = statDist (simulation 100 [] 1) from rfl]; decide +kernel
  · rw [show splitters (simulation 100 people total) = splitters (simulation 100 [] 1) from rfl]; decide +kernel
  · decide +kernel
  · rw [show giniCount (simulation 100 people total) = giniCount (simulation 100 [] 1) from rfl]; decide +kernel
  · rw [show giniStakes (simulation 100 people total) = giniStakes (simulation 100 [] 1) from rfl]; decide +kernel
  · rw [show giniCountK (simulation 5 people total) = giniCountK (simulation 5 [] 1) from rfl]; decide +kernel
  · rw [show medianRank (simulation 100 people total) = medianRank (simulation 100 [] 1) from rfl]; decide +kernel

theorem keys_of_kept {s : State B64} {ord : List Nat → List Nat} {n : Nat} {ids : List Nat} (hn : n < 3) (ht : ord (topPoolIds s.heap [(1, 0), (2, 1), (3, 2)] n) = ids)
    (hids : ∀ i ∈ ids, i = 1 ∨ i = 2 ∨ i = 3) : (determinePoolsToKeep ord s { owned := [(1, 0), (2, 1), (3, 2)] } n).map (fun r => r.2.keys) = .ok ids := by
  have hm : ids.mapM (fun pid => (do
      let r ← Dict.getE [(1, 0), (2, 1), (3, 2)] pid
      return (pid, r) : Py (Nat × Nat))) = .ok (ids.map (fun i => (i, i - 1))) := by
    clear ht
    induction ids with
    | nil => rfl
    | cons a t ih =>
      have ha : (Dict.getE [(1, 0), (2, 1), (3, 2)] a : Py Nat) = .ok (a - 1) := by
        rcases hids a (by simp) with rfl | rfl | rfl <;> rfl
      rw [List.mapM_cons, ih (fun i hi => hids i (by simp [hi])), ha]
      rfl
  have hk : ∀ (l : List (Nat × Nat)) (s : State B64), (copyPools s l).2.keys = l.map Prod.fst := by
    intro l
    induction l with
    | nil => intro _; rfl
    | cons a t ih => intro s; simpa [copyPools, Dict.keys] using ih _
  simp only [determinePoolsToKeep, List.length_cons, List.length_nil, if_pos hn, ht]
  rw [hm]
  simp [Except.map, bind, Except.bind, pure, Except.pure, hk, Function.comp_def]

/-- C119.  The test of `determine_pools_to_keep` passes, whatever agents `Simulation()` draws and in whatever order the sets of ids are iterated. -/
theorem C119_keep_passes (people : List (B64 × B64 × Profile)) (total : B64) {ord : List Nat → List Nat} (hord : ∀ l, (ord l).Perm l) :
    keep ord (simulation 100 people total) = .ok true := by
  have h1 : ord [3] = [3] := List.perm_singleton.1 (hord _)
  have h2 : ord [3, 1] = [3, 1] ∨ ord [3, 1] = [1, 3] := by
    have := hord [3, 1]
    have hl := this.length_eq
    match h : ord [3, 1], hl with
    | [a, b], _ =>
      rw [h] at this
      have ha : a ∈ [3, 1] := this.subset (by simp)
      have hb : b ∈ [3, 1] := this.subset (by simp)
      have hnd : [a, b].Nodup := this.nodup_iff.2 (by decide)
      simp only [List.mem_cons, List.not_mem_nil, or_false, List.nodup_cons, not_false_eq_true, List.nodup_nil, and_true] at ha hb hnd
      rcases ha with rfl | rfl <;> rcases hb with rfl | rfl <;> simp_all
  let p (i : Nat) (m : B64) : Nat × Pool B64 := (i, pool i (dec 1 3) (dec 1 3) 1 (defaultScheme 100) m)
  let s := withPools (simulation 100 people total) [p 1 (dec 2 1), p 2 (dec 2 1), p 3 (dec 1 1)]
  have t1 : topPoolIds s.heap [(1, 0), (2, 1), (3, 2)] 1 = [3] := by
    rw [show s.heap = heapOf [(p 1 (dec 2 1)).2, (p 2 (dec 2 1)).2, (p 3 (dec 1 1)).2] from rfl]; decide +kernel
  have t2 : topPoolIds s.heap [(1, 0), (2, 1), (3, 2)] 2 = [3, 1] := by
    rw [show s.heap = heapOf [(p 1 (dec 2 1)).2, (p 2 (dec 2 1)).2, (p 3 (dec 1 1)).2] from rfl]; decide +kernel
  have k1 := keys_of_kept (s := s) (ord := ord) (n := 1) (ids := [3]) (by omega) (by rw [t1, h1]) (by simp)
  have k2 : ∃ ids, (determinePoolsToKeep ord s { owned := [(1, 0), (2, 1), (3, 2)] } 2).map (fun r => r.2.keys) = .ok ids ∧ (ids = [3, 1] ∨ ids = [1, 3]) :=
    ⟨_, keys_of_kept (s := s) (ord := ord) (n := 2) (by omega) rfl (by rw [t2]; rcases h2 with h | h <;> rw [h] <;> simp), by rw [t2]; exact h2⟩
  obtain ⟨ids, k2, h2⟩ := k2
  have e : keep ord (simulation 100 people total) = (do
      let c ← (determinePoolsToKeep ord s { owned := [(1, 0), (2, 1), (3, 2)] } 1).map (fun r => r.2.keys)
      let d ← (determinePoolsToKeep ord s { owned := [(1, 0), (2, 1), (3, 2)] } 2).map (fun r => r.2.keys)
      let same (a b : List Nat) : Bool := a.all (fun x => b.contains x) && b.all (fun x => a.contains x)
      return same [1, 2, 3] [1, 2, 3] && same [1, 2, 3] [1, 2, 3] && same c [3] && same d [1, 3]) := rfl
  rw [e, k1, k2]
  rcases h2 with rfl | rfl <;> rfl

/-- C119.  The test of `calculate_operator_utility_from_strategy` fails: the utility is another one than expected. -/
theorem C119_utility_fails (people : List (B64 × B64 × Profile)) (total : B64) : Tests.operatorUtility (simulation 100 people total) = .ok false := by
  let p := pool 555 (dec 1 3) (dec 1 1) 156 (defaultScheme 100) (dec 1 1)
  let s := withPools (simulation 100 people total) [(555, p)]
  have ht : tempRankings s (agent 156 (dec 1 1)) [0] = [(poolKey p, some 0)] := rfl
  have hi : SKL.index (poolKey p) (some 0) [(poolKey p, some 0)] = .ok 0 := by simp [SKL.index]
  have h0 : s.heap 0 = p := rfl
  have hr : s.rs = defaultScheme 100 := rfl
  have hst : nonMyopicStake s.rs s.totalStake s.heap [(poolKey p, some 0)] 0 = .ok (dec 1 1) := by
    simp only [nonMyopicStake, h0, hi, hr]
    simp only [bind, Except.bind, List.take_zero, List.mapM_nil, pure, Except.pure]
    have : ∀ top, nonMyopicStakeFromRank p.pledge p.stake ((defaultScheme 100).sat p.pledge) top = dec 1 1 := by
      intro top; cases top <;> decide +kernel
    rw [this]
  have hs : operatorUtilityFromStrategy s (agent 156 (dec 1 1)) { owned := [(555, 0)] } =
      (do let y ← (do
            let st ← nonMyopicStake s.rs s.totalStake s.heap (tempRankings s (agent 156 (dec 1 1)) [0]) 0
            RSE.operatorUtility s.rs st (s.heap 0).pledge (s.heap 0).margin (s.heap 0).cost)
          return 0 + y) := rfl
  rw [ht, hst, h0, hr] at hs
  change (do let u ← operatorUtilityFromStrategy s (agent 156 (dec 1 1)) { owned := [(555, 0)] }; return decide (u = dec 148638461538461537 19) : Py Bool) = _
  rw [hs]
  decide +kernel

/-- C119.  The test of `calculate_margin` fails at its first assertion. -/
theorem C119_margin_fails (people : List (B64 × B64 × Profile)) (total : B64) : margin (simulation 2 people total) = .ok false := by
  rw [show margin (simulation 2 people total) = margin (simulation 2 [] 1) from rfl]; decide +kernel

theorem remove_unranked (key k₀ : Key B64) (r n : Nat) : SKL.remove key (some r) (List.replicate n (k₀, none)) = .error .value := by
  induction n with
  | zero => rfl
  | succ n ih =>
    simp only [List.replicate_succ, SKL.remove]
    split
    · rfl
    · simp [ih, Except.map]

theorem unranked_update {s : State B64} {ord : List Nat → List Nat} (h0 : ord [] = []) (h1 : ord [1] = [1]) {a : Agent B64} (ha : s.agents.get? 1 = some a)
    (hσ : a.strategy = some { owned := [(1, 0)] }) (hν : a.newStrategy = some { owned := [(1, 2)] }) (hp : (s.heap 2).isPrivate = false)
    (hr : ∀ key r, SKL.remove key (some r) s.rank = .error .value) (f : State B64 → Py Bool) : (executeStrategy ord s 1 >>= f) = .error .value := by
  simp [executeStrategy, Dict.getE, ha, hσ, hν, bind, Except.bind, Dict.keys, Dict.contains, Dict.get?, h0, h1, setDelegations, iterM, updatePool, hp, hr]

/-- C119.  The tests of `close_pool` and `execute_strategy` end in a `ValueError` that they do not expect: their pools are not in the rankings, from which they are to be removed. -/
theorem C119_unranked (people : List (B64 × B64 × Profile)) (total : B64) (ord : List Nat → List Nat) (hord : ∀ l, (ord l).Perm l) :
    close (simulation 100 people total) = .error .value ∧ executeMargin ord (simulation 100 people total) = .error .value := by
  have hrem : ∀ key r, SKL.remove key (some r) (simulation 100 people total).rank = .error .value := fun key r => remove_unranked key _ r 101
  constructor
  · have h : ∀ ps, (withPools (simulation 100 people total) ps).rank = (simulation 100 people total).rank := fun _ => rfl
    unfold close closePool
    simp only [h, hrem]
    rfl
  · have h1 : ord [1] = [1] := List.perm_singleton.1 (hord _)
    have h0 : ord [] = [] := List.perm_nil.1 (hord _)
    refine unranked_update (a := { agent 1 (dec 3 3) with strategy := some { owned := [(1, 0)] }, newStrategy := some { owned := [(1, 2)] } }) h0 h1 ?_ rfl rfl ?_ ?_ _
    · rfl
    · rfl
    · exact hrem

/-- C119.  For the same reason the test of `find_delegation_move` fails: the agent finds no pool to delegate to. -/
theorem C119_delegation_fails (people : List (B64 × B64 × Profile)) (total : B64) : delegationMove (simulation 10 people total) = .ok false := by
  have he : ∀ ps, eligiblePools (withPools (simulation 10 people total) ps) (agent 159 (dec 1 4)) = [] := fun _ => rfl
  have hs : ¬ (dec 1 4 < (minUnit : B64)) := by decide +kernel
  simp only [delegationMove, findDelegationMove, determineStakeAllocations, he, if_neg hs]
  rfl

/-- C119.  The test of `read_stake_distr_from_file` fails with a `TypeError` where it expects `FileNotFoundError`, and the one of test_sim.py always fails. -/
theorem C119_others_fail : readStakeDistr = .error .type ∧ reviseBeliefs = .ok false := by decide +kernel

end RSE.Props
