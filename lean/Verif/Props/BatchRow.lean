import Verif.Props.Loop
import Verif.Props.Planning
import Verif.Props.Rounds
import Verif.Lemmas.Metrics

/-!
# C37: what a batch run reports about one simulation
-/

set_option linter.unusedSectionVars false

namespace RSE.Props

variable {W R : Type}

theorem step_maxIter {env : Env W R} (hm : ∀ p, env.newMax p = none) {l l' : Loop W R} (hs : l.step env = .ok l') : l'.maxIter = l.maxIter := by
  unfold Loop.step at hs
  obtain ⟨row, hrow, hs⟩ := bind_ok hs
  simp only at hs
  split at hs
  · cases hs; rfl
  · obtain ⟨w₂, hw, hs⟩ := bind_ok hs
    split at hs
    · split at hs
      · split at hs
        · obtain ⟨l₃, hl₃, hs⟩ := bind_ok hs
          unfold Loop.changePhase at hl₃
          obtain ⟨w₃, hw₃, hl₃⟩ := bind_ok hl₃
          cases hl₃; cases hs
          simp [hm]
        · cases hs; rfl
      · cases hs; rfl
    · cases hs; rfl

/-- with `max_steps = max_iterations` (as batch-run.py passes it) the batch runner's loop is the loop of `run_model` -/
theorem batchLoop_eq {env : Env W R} (hm : ∀ p, env.newMax p = none) (m : Int) (fuel : Nat) (l : Loop W R) (h : l.maxIter = m) :
    Loop.batchLoop env m fuel l = Loop.loop env fuel l := by
  induction fuel generalizing l with
  | zero =>
    unfold Loop.batchLoop Loop.loop
    rw [h, Bool.and_comm]
  | succ fuel ih =>
    unfold Loop.batchLoop Loop.loop
    rw [h, Bool.and_comm]
    split
    · cases hs : l.step env with
      | error e => rfl
      | ok l' => exact ih l' ((step_maxIter hm hs).trans h)
    · rfl

/-- C37, the general shape.  With the default collection period (end of the run) the batch runner writes exactly one row.  If the run converged it
holds the metrics of the state in which the last round (an idle one) started.  If `max_iterations` was hit it holds the metrics of the state in
which the last round started (not those of the final state). -/
theorem C37_row (env : Env W R) (hm : ∀ p, env.newMax p = none) (w : W) (m : Int) (h0 : 0 < m) (fuel : Nat) (l : Loop W R)
    (data : List (Int × R)) (agg : List R) (hl : Loop.batchRun env m (-1) fuel (Loop.init w m) = .ok (l, data, agg)) :
    ∃ h w', History env w h w' ∧ h.length = l.steps ∧ ∃ row, agg = [row] ∧ data = [((l.steps : Int) - 1, row)] ∧
      ∃ r ∈ h.getLast?, env.report r.before = .ok row ∧
      ((LastIdle env h env.conv ∧ r.Idle env ∧ r.after = l.world) ∨ ((l.steps : Int) = m ∧ w' = l.world)) := by
  unfold Loop.batchRun at hl
  obtain ⟨l₁, hl₁, hl⟩ := bind_ok hl
  rw [batchLoop_eq hm m fuel _ rfl] at hl₁
  obtain ⟨steps, hst, hl⟩ := bind_ok hl
  obtain ⟨data', hd, hl⟩ := bind_ok hl
  cases hl
  obtain ⟨h, -, hmeq, hle, hh⟩ := (Track.init env w m).loop_max hm fuel (by simpa [Loop.init] using h0.le) hl₁
  -- one step is sampled
  have hsteps : steps = [(l.steps : Int) - 1] := by
    unfold Loop.sampledSteps at hst
    simp at hst
    exact hst.symm
  subst hsteps
  -- the row exists
  have main : ∀ (hs : l.steps = h.length) (hpos : 0 < h.length) (rs : List R),
      List.Forall₂ (fun r row => env.report r.before = .ok row) h rs → (∀ i, i < h.length → l.rows[i]? = rs[i]?) →
      ∃ row, data = [((l.steps : Int) - 1, row)] ∧ ∃ r ∈ h.getLast?, env.report r.before = .ok row := by
    intro hs hpos rs hf hrs
    have hlt : h.length - 1 < rs.length := by rw [← hf.length_eq]; omega
    have hget : l.rows[h.length - 1]? = some rs[h.length - 1] := by
      rw [hrs _ (by omega)]; exact List.getElem?_eq_getElem hlt
    have hidx : Loop.pyIndex l.rows ((l.steps : Int) - 1) = .ok rs[h.length - 1] := by
      unfold Loop.pyIndex
      have h1 : ¬ ((l.steps : Int) - 1 < 0) := by omega
      have h2 : ((l.steps : Int) - 1).toNat = h.length - 1 := by omega
      simp only [h1, if_false, h2, hget]
    refine ⟨rs[h.length - 1], ?_, h[h.length - 1], ?_, ?_⟩
    · simp only [List.mapM_cons, List.mapM_nil, hidx] at hd
      cases hd; rfl
    · rw [List.getLast?_eq_getElem?]; exact List.getElem?_eq_getElem (by omega)
    · exact hf.get (by omega) hlt
  rcases hh with hh | hh
  · have hlen : (h.length : Int) = m := by have := hh.max; rw [hmeq] at this; exact le_antisymm hle this
    obtain ⟨row, hrow, rs, hrs, hf⟩ := hh.rows
    obtain ⟨row', h1, r, h2, h3⟩ := main hh.steps (by omega) rs hf (by
      intro i hi; rw [hrs, List.getElem?_append_left (by rw [← hf.length_eq]; exact hi)])
    refine ⟨h, _, hh.hist, hh.steps.symm, row', by rw [h1]; simp, h1, r, h2, h3, .inr ⟨?_, rfl⟩⟩
    rw [hh.steps]; exact hlen
  · obtain ⟨h₀, w₀, hpre, -⟩ := hh.prefix'
    have hpos : 0 < h.length := by rw [hpre]; simp
    obtain ⟨row', h1, r, h2, h3⟩ := main hh.steps hpos l.rows hh.rows (fun _ _ => rfl)
    have hr : r = ⟨w₀, l.world, false⟩ := by rw [hpre] at h2; simpa using h2.symm
    refine ⟨h, _, hh.hist, hh.steps.symm, row', by rw [h1]; simp, h1, r, h2, h3, .inl ⟨hh.last, ?_, ?_⟩⟩
    · rw [hr]; exact hh.idle
    · rw [hr]

/-! ### The simulation -/

section
variable {F : Type} [LinearOrder F] [Zero F] [One F] [Add F] [Sub F] [Mul F] [Div F] [Neg F] [NatCast F] [FSum F]

/-- sequential or random rounds: in round `i` the agents act in the order `order i`, sets are iterated in the orders `ords i` -/
def seqRounds (ords : Nat → Nat → List Nat → List Nat) (order : Nat → List Nat) : Nat → State F → Py (State F) :=
  fun i => roundSequential (ords i) (order i)

/-- the states between the rounds of a run with one phase are reachable -/
theorem history_reachable {c : Config F} {ords : Nat → Nat → List Nat → List Nat} {order : Nat → List Nat}
    (hv : ∀ i, ∀ a ∈ order i, a < c.people.length) (hp : ∀ i j l, (ords i j l).Perm l) {report : State F → Py R} {conv : Int} {phases newMax}
    {h : List (Round (State F))} {s : State F}
    (hh : History (simEnv (seqRounds ords order) report conv 1 phases newMax) (initState c) h s) :
    (Reachable c s) ∧ ∀ r ∈ h, Reachable c r.before := by
  have hround : ∀ i s s', Reachable c s → seqRounds ords order i s = .ok s' → Reachable c s' := by
    intro i s s' hr he
    obtain ⟨es, h1, h2, h3⟩ := C40_sequential (ords i) (order i) (order i) (List.Perm.refl _) s
    refine rounds_reachable hr (es := stepEvents (ords i) (order i)) ?_ ?_
    · intro e he
      obtain ⟨⟨a, j⟩, hm, rfl⟩ := List.mem_map.1 he
      have ha : a ∈ order i := by
        have := List.mem_map_of_mem (f := Prod.fst) hm
        rwa [List.zipIdx_map_fst] at this
      exact ⟨hv i a ha, fun l => hp i j l⟩
    · unfold stepEvents; rw [iterM_map]; exact he
  have hend : ∀ s : State F, Reachable c s → Reachable c { s with idle := true } := by
    intro s hr
    exact rounds_reachable hr (es := [Event.roundEnd]) (by simp [Event.Valid]) rfl
  induction hh with
  | start => exact ⟨⟨[], by simp, rfl⟩, by simp⟩
  | @round h w₁ w₂ hh he ih =>
    refine ⟨hend _ (hround _ _ _ ih.1 he), fun r hr => ?_⟩
    rcases List.mem_append.1 hr with hr | hr
    · exact ih.2 r hr
    · simp only [List.mem_singleton] at hr; subst hr; exact ih.1
  | @change h w₁ w₂ w₃ hh he hc ih =>
    refine ⟨hend _ ?_, fun r hr => ?_⟩
    · have h1 := hround _ _ _ ih.1 he
      exact rounds_reachable h1 (es := [Event.phase (phases (changes h + 1))]) (by simp [Event.Valid]) (by
        change (RSE.changePhase w₂ (phases (changes h + 1))).bind Except.ok = Except.ok w₃
        change RSE.changePhase w₂ (phases (changes h + 1)) = Except.ok w₃ at hc
        rw [hc]; rfl)
    · rcases List.mem_append.1 hr with hr | hr
      · exact ih.2 r hr
      · simp only [List.mem_singleton] at hr; subst hr; exact ih.1

end

variable {F : Type} [LinearOrder F] [Zero F] [One F] [Add F] [Sub F] [Mul F] [Div F] [Neg F] [NatCast F] [FSum F]

/-- the metric does not depend on ids still to be given, unused pool objects, or the order of delegators within a pool -/
def Insensitive {α : Type} (f : State F → α) : Prop := ∀ s s', s.pools.keys.Nodup → LooksSame s s' → f s' = f s

/-- every round of a history was run from its `before` to its `after` -/
theorem history_round {env : Env W R} {w : W} {h : List (Round W)} {w' : W} (hh : History env w h w') :
    ∀ r ∈ h, ∃ i, env.round i r.before = .ok r.after := by
  induction hh with
  | start => simp
  | round hh he ih =>
    intro r hr
    rcases List.mem_append.1 hr with hr | hr
    · exact ih r hr
    · simp only [List.mem_singleton] at hr; subst hr; exact ⟨_, he⟩
  | change hh he hc ih =>
    intro r hr
    rcases List.mem_append.1 hr with hr | hr
    · exact ih r hr
    · simp only [List.mem_singleton] at hr; subst hr; exact ⟨_, he⟩

/-- C37, when the run converged (sequential or random activation, exact arithmetic): the row written by the batch runner holds the metrics of the
final state. -/
theorem C37_converged {K : Type} [Field K] [LinearOrder K] [IsStrictOrderedRing K] {c : Config K} (hc : c.simultaneous = false) {ords : Nat → Nat → List Nat → List Nat} {order : Nat → List Nat}
    (hv : ∀ i, ∀ a ∈ order i, a < c.people.length) (hp : ∀ i j l, (ords i j l).Perm l) {report : State K → Py R} (hrep : Insensitive report)
    {conv : Int} {phases : Nat → PhaseParams K} {m : Int} (h0 : 0 < m) {fuel : Nat} {l : Loop (State K) R} {data : List (Int × R)} {agg : List R}
    (hl : Loop.batchRun (simEnv (seqRounds ords order) report conv 1 phases (fun _ => none)) m (-1) fuel (Loop.init (initState c) m)
      = .ok (l, data, agg)) (hend : (l.steps : Int) < m) :
    ∃ row, agg = [row] ∧ report l.world = .ok row := by
  obtain ⟨h, w', hh, hlen, row, hagg, -, r, hr, hrow, hcase | hcase⟩ := C37_row _ (fun _ => rfl) _ _ h0 _ _ _ _ hl
  · obtain ⟨hlast, hidle, hafter⟩ := hcase
    refine ⟨row, hagg, ?_⟩
    have hmem : r ∈ h := List.mem_of_getLast? hr
    have hreach := (history_reachable hv hp hh).2 r hmem
    obtain ⟨i, hi⟩ := history_round hh r hmem
    have hev : iterM exec r.before (((order i).zipIdx.map (fun e => (e.1, ords i e.2))).map (fun t => Event.step t.1 t.2)) = .ok r.after := by
      rw [List.map_map, iterM_map]; exact hi
    have := (C35_idle_round hc _ hreach (by
      intro t ht
      obtain ⟨⟨a, j⟩, hm, rfl⟩ := List.mem_map.1 ht
      have ha : a ∈ order i := by
        have := List.mem_map_of_mem (f := Prod.fst) hm
        rwa [List.zipIdx_map_fst] at this
      exact ⟨hv i a ha, fun l => hp i j l⟩) hev hidle).1
    rw [← hafter, hrep _ _ (hreach.good minUnit_pos).inv.core.poolsNodup this]
    exact hrow
  · omega

/-! ### The metrics qualify -/

/-- a pool without its delegations -/
def bare (p : Pool F) : Pool F := { p with delegators := [] }

theorem LooksSame.bare {s s' : State F} (h : LooksSame s s') (hn : s.pools.keys.Nodup) :
    (poolsList s').map bare = (poolsList s).map bare := by
  unfold poolsList
  rw [List.map_map, List.map_map]
  have hp : s'.pools = s.pools := by rw [h.rest]
  rw [hp]
  refine List.map_congr_left fun e he => ?_
  have := Dict.get?_of_mem hn (k := e.1) (v := e.2) he
  obtain ⟨ds, -, h2⟩ := h.pool _ _ this
  simp only [Function.comp_apply, Props.bare, h2]

theorem Insensitive.of {α : Type} {f : State F → α}
    (h : ∀ s s' : State F, (poolsList s').map bare = (poolsList s).map bare → s'.agents = s.agents → s'.rs = s.rs → f s' = f s) :
    Insensitive f :=
  fun s s' hn hl => h s s' (hl.bare hn) (by rw [hl.rest]) (by rw [hl.rest])

section
variable {s s' : State F} (h : (poolsList s').map bare = (poolsList s).map bare)
include h

theorem bare_map {α : Type} (f : Pool F → α) (hf : ∀ p, f (bare p) = f p) : (poolsList s').map f = (poolsList s).map f := by
  have := congrArg (List.map f) h
  rw [List.map_map, List.map_map] at this
  have e : f ∘ bare = f := funext hf
  rwa [e] at this

theorem bare_length : (poolsList s').length = (poolsList s).length := by
  have := congrArg List.length h
  simpa using this

theorem bare_mapM {α : Type} (f : Pool F → Py α) (hf : ∀ p, f (bare p) = f p) : (poolsList s').mapM f = (poolsList s).mapM f := by
  have := congrArg (List.mapM f) h
  rw [List.mapM_map, List.mapM_map] at this
  have e : f ∘ bare = f := funext hf
  rwa [e] at this

theorem bare_iterM {σ : Type} (f : σ → Pool F → Py σ) (hf : ∀ x p, f x (bare p) = f x p) (x : σ) :
    iterM f x (poolsList s') = iterM f x (poolsList s) := by
  have := congrArg (iterM f x) h
  rw [iterM_map, iterM_map] at this
  have e : (fun x p => f x (bare p)) = f := by funext x p; exact hf x p
  rwa [e] at this

theorem bare_foldl {σ : Type} (f : σ → Pool F → σ) (hf : ∀ x p, f x (bare p) = f x p) (x : σ) :
    (poolsList s').foldl f x = (poolsList s).foldl f x := by
  have := congrArg (List.foldl f x) h
  rw [List.foldl_map, List.foldl_map] at this
  have e : (fun x p => f x (bare p)) = f := by funext x p; exact hf x p
  rwa [e] at this

end

/-- C37.  All metrics the data collector can be asked for (except the one that calls an external solver) are insensitive in the sense of
`C37_converged`. -/
theorem C37_metrics : Insensitive (F := F) poolCount ∧ Insensitive (F := F) totalPledge ∧ Insensitive (F := F) totalDelegatedStake ∧
    Insensitive (F := F) totalAgentStake ∧ Insensitive (F := F) pledgeRate ∧ Insensitive (F := F) homogeneityFactor ∧
    Insensitive (F := F) avgMargin ∧ Insensitive (F := F) medianMargin ∧ Insensitive (F := F) avgPledge ∧ Insensitive (F := F) medianPledge ∧
    Insensitive (F := F) avgSatRate ∧ Insensitive (F := F) operatorCount ∧ Insensitive (F := F) avgPoolsPerOperator ∧
    Insensitive (F := F) maxPoolsPerOperator ∧ Insensitive (F := F) medianPoolsPerOperator ∧ Insensitive (F := F) splitterCount ∧
    Insensitive (F := F) costEfficientCount ∧ Insensitive (F := F) statDistance ∧ Insensitive (F := F) nakamoto ∧
    Insensitive (F := F) giniPoolCount ∧ Insensitive (F := F) giniPoolCountK ∧ Insensitive (F := F) giniStake ∧ Insensitive (F := F) giniStakeK ∧
    Insensitive (F := F) avgStakeRank ∧ Insensitive (F := F) avgCostRank ∧ Insensitive (F := F) medianStakeRank ∧
    Insensitive (F := F) medianCostRank ∧ (∀ n, Insensitive (F := F) (stakesByAgent n)) ∧ ∀ n, Insensitive (F := F) (stakesByAgentId n) := by
  have pl : Insensitive (F := F) totalPledge := .of fun s s' h _ _ => by unfold totalPledge; rw [bare_map h _ (fun _ => rfl)]
  have ds : Insensitive (F := F) totalDelegatedStake := .of fun s s' h _ _ => by unfold totalDelegatedStake; rw [bare_map h _ (fun _ => rfl)]
  have ow : ∀ {s s' : State F}, (poolsList s').map bare = (poolsList s).map bare → owners s' = owners s := fun h => bare_map h _ (fun _ => rfl)
  have po : ∀ {s s' : State F}, (poolsList s').map bare = (poolsList s).map bare → poolsOwned s' = poolsOwned s :=
    fun h => bare_foldl h _ (fun _ _ => rfl) _
  have so : ∀ {s s' : State F}, (poolsList s').map bare = (poolsList s).map bare → stakeOwned s' = stakeOwned s :=
    fun h => bare_foldl h _ (fun _ _ => rfl) _
  have cs : ∀ {s s' : State F}, (poolsList s').map bare = (poolsList s).map bare → s'.agents = s.agents → controlledStake s' = controlledStake s := by
    intro s s' h ha; unfold controlledStake; rw [ha]; exact bare_iterM h _ (fun _ _ => rfl) _
  have rk : ∀ {s s' : State F} (stat : List ℚ → Py ℚ) {r r' : Py (Dict Nat)}, (poolsList s').map bare = (poolsList s).map bare → r' = r →
      rankStatistic stat r' s' = rankStatistic stat r s := by
    intro s s' stat r r' h hr
    subst hr
    unfold rankStatistic ownerRanks
    congr 1; funext d
    rw [bare_mapM h _ (fun _ => rfl)]
  refine ⟨?_, pl, ds, ?_, ?_, ?_, ?_, ?_, ?_, ?_, ?_, ?_, ?_, ?_, ?_, ?_, ?_, ?_, ?_, ?_, ?_, ?_, ?_, ?_, ?_, ?_, ?_, ?_, ?_⟩
  · intro s s' _ h; unfold poolCount; rw [h.rest]
  · exact .of fun s s' h ha _ => by unfold totalAgentStake agentsList; rw [ha]
  · intro s s' hn hl
    unfold pledgeRate; rw [bare_length (hl.bare hn), pl s s' hn hl, ds s s' hn hl]
  · exact .of fun s s' h _ _ => by unfold homogeneityFactor; rw [bare_map h _ (fun _ => rfl)]
  · exact .of fun s s' h _ _ => by unfold avgMargin; rw [bare_map h _ (fun _ => rfl)]
  · exact .of fun s s' h _ _ => by unfold medianMargin; rw [bare_map h _ (fun _ => rfl)]
  · exact .of fun s s' h _ _ => by unfold avgPledge; rw [bare_map h _ (fun _ => rfl)]
  · exact .of fun s s' h _ _ => by unfold medianPledge; rw [bare_map h _ (fun _ => rfl)]
  · exact .of fun s s' h _ hr => by unfold avgSatRate; rw [bare_length h, hr, bare_mapM h _ (fun _ => rfl)]
  · exact .of fun s s' h _ _ => by unfold operatorCount; rw [ow h]
  · exact .of fun s s' h _ _ => by unfold avgPoolsPerOperator; rw [ow h, bare_length h]
  · exact .of fun s s' h _ _ => by unfold maxPoolsPerOperator; rw [ow h, bare_length h]
  · exact .of fun s s' h _ _ => by unfold medianPoolsPerOperator; rw [ow h, bare_length h]
  · exact .of fun s s' h _ _ => by unfold splitterCount; rw [ow h, bare_length h]
  · exact .of fun s s' h ha hr => by unfold costEfficientCount agentsList; rw [ha, hr]
  · exact .of fun s s' h ha _ => by unfold statDistance; rw [bare_length h, cs h ha, ha]
  · exact .of fun s s' h ha _ => by unfold nakamoto; rw [bare_length h, cs h ha, ha]
  · exact .of fun s s' h _ _ => by unfold giniPoolCount; rw [po h]
  · exact .of fun s s' h _ hr => by unfold giniPoolCountK; rw [po h, hr]
  · exact .of fun s s' h _ _ => by unfold giniStake; rw [so h]
  · exact .of fun s s' h _ hr => by unfold giniStakeK; rw [so h, hr]
  · exact .of fun s s' h ha _ => rk _ h (by unfold stakeRanks; rw [ha])
  · exact .of fun s s' h ha _ => rk _ h (by unfold costRanks; rw [ha])
  · exact .of fun s s' h ha _ => rk _ h (by unfold stakeRanks; rw [ha])
  · exact .of fun s s' h ha _ => rk _ h (by unfold costRanks; rw [ha])
  · intro n; exact .of fun s s' h _ _ => bare_iterM h _ (fun _ _ => rfl) _
  · intro n; exact .of fun s s' h _ _ => bare_iterM h _ (fun _ _ => rfl) _

/-! ### Concrete runs -/

/-- final state's pool count and the rows that the batch runner writes -/
def batchView (x : Loop (State ℚ) Nat × List (Int × Nat) × List Nat) : Nat × Nat × List Nat := (x.1.steps, poolCount x.1.world, x.2.2)

instance : DecidableEq (Nat × Nat × List Nat) := instDecidableEqProd

/-- The hypotheses of `C37_converged` are met: the run of `demo false` converges after 5 of 20 rounds, the row reports the final 4 pools. -/
example : (Loop.batchRun (demoEnv 2 1 {} none) 20 (-1) 21 (Loop.init (initState (demo false)) 20)).toOption.map batchView = some (5, 4, [4]) := by
  decide +kernel

/-- C37 is false for runs that hit `max_iterations`: with `max_iterations = 2` the run below ends with 3 pools, the row reports the 8 pools
from before the last round. -/
theorem C37_stale_row : ∃ (l : Loop (State ℚ) Nat) (data : List (Int × Nat)) (agg : List Nat),
    Loop.batchRun (demoEnv 2 1 {} none) 2 (-1) 3 (Loop.init (initState (demo false)) 2) = .ok (l, data, agg) ∧
    poolCount l.world = 3 ∧ agg = [8] := by
  have key : (Loop.batchRun (demoEnv 2 1 {} none) 2 (-1) 3 (Loop.init (initState (demo false)) 2)).toOption.map batchView = some (2, 3, [8]) := by
    decide +kernel
  cases h : Loop.batchRun (demoEnv 2 1 {} none) 2 (-1) 3 (Loop.init (initState (demo false)) 2) with
  | error e => rw [h] at key; cases key
  | ok x =>
    rw [h] at key
    simp only [Except.toOption, Option.map_some, Option.some.injEq, batchView, Prod.mk.injEq] at key
    exact ⟨x.1, x.2.1, x.2.2, rfl, key.2.1, key.2.2⟩

end RSE.Props
