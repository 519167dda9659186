import Verif.Props.Phases

/-!
# C111: when a larger `k` stops the simulation
-/

set_option linter.unusedSectionVars false

namespace RSE.Props

section
variable {F : Type} [LinearOrder F] [Zero F] [One F] [Add F] [Sub F] [Mul F] [Div F] [Neg F] [NatCast F] [FSum F]

/-- the number of open pools whose owner is not `a` -/
def poolsOfOthers (s : State F) (a : Nat) : Nat := (s.pools.filter (fun e => (s.heap e.2).owner ≠ a)).length

theorem othersPools_eq (s : State F) (a : Nat) : othersPools s a = poolsOfOthers s a := by
  unfold othersPools poolsOfOthers Dict.vals
  rw [List.countP_map, List.countP_eq_length_filter]
  rfl

/-- C111.  If `k` exceeds the number of place-holders (the `k` of the first phase, plus 1) and open pools of other agents, an agent cannot take its
turn, unless it abstains.  For every kind of activation and every arithmetic. -/
theorem C111_no_turn (hmin : (0 : F) < minUnit) {c : Config F} {s : State F} (hr : Reachable c s) {a : Nat} {ag : Agent F} (ha : s.agents.get? a = some ag)
    (hp : ag.profile ≠ .abstainer) (h : c.rs.k + 1 + poolsOfOthers s a < s.rs.k) (ord : List Nat → List Nat) (s' : State F) :
    exec s (.step a ord) ≠ .ok s' := by
  intro he
  have hg := hr.good hmin
  have hid : ag.id = a := hg.inv.core.agentId a ag ha
  obtain ⟨σ, hσ⟩ := hg.inv.strat a ag ha hp
  change agentStep ord s a = .ok s' at he
  unfold agentStep at he
  obtain ⟨s₁, hu, -⟩ := bind_ok he
  unfold updateStrategy at hu
  rw [Dict.getE_of ha] at hu
  cases hpm : planMove ord s ag σ with
  | error e =>
    simp only [bind, Except.bind, hσ, hpm] at hu
    cases hu
  | ok res =>
    refine planMove_short hg.inv.core ((hg.inv.tidy a ag ha).allocs _ hσ) ?_ ord res hpm
    rw [othersPools_eq, hid]; exact h

/-- C111.  So a phase that raises `k` to more than (`k` of the first phase) + 1 + (number of open pools) stops the simulation: after it no agent can take
a turn, unless it abstains. -/
theorem C111_phase (hmin : (0 : F) < minUnit) {c : Config F} {s s₁ : State F} (hr : Reachable c s) {p : PhaseParams F} {k : Nat} (hk : p.k = some k)
    (h : c.rs.k + 1 + s.pools.length < k) (h₁ : exec s (.phase p) = .ok s₁) {a : Nat} {ag : Agent F} (ha : s.agents.get? a = some ag)
    (hp : ag.profile ≠ .abstainer) (ord : List Nat → List Nat) (s' : State F) : exec s₁ (.step a ord) ≠ .ok s' := by
  obtain ⟨hc₁, hph, hrs, -⟩ := (changePhase_spec (hr.good hmin).inv.core p).of_ok h₁
  refine C111_no_turn hmin (hr.next (ev := .phase p) trivial h₁) (by rw [hph.agents]; exact ha) hp ?_ ord s'
  have hk₁ : s₁.rs.k = k := by rw [hrs]; unfold phaseRS; rw [hk]; cases p.a0 <;> rfl
  have hle : poolsOfOthers s₁ a ≤ s.pools.length := by unfold poolsOfOthers; rw [hph.pools]; exact List.length_filter_le _ _
  omega

/-- C111, for the documented example `python main.py --k 100 200` (docs/examples.md:16): it stops when the second phase begins, if fewer than 99 pools are
open then. -/
theorem C111_documented (hmin : (0 : F) < minUnit) {c : Config F} (hk : c.rs.k = 100) {s s₁ : State F} (hr : Reachable c s) (h : s.pools.length < 99)
    {p : PhaseParams F} (hp : p.k = some 200) (h₁ : exec s (.phase p) = .ok s₁) {a : Nat} {ag : Agent F} (ha : s.agents.get? a = some ag)
    (hne : ag.profile ≠ .abstainer) (ord : List Nat → List Nat) (s' : State F) : exec s₁ (.step a ord) ≠ .ok s' :=
  C111_phase hmin hr hp (by omega) h₁ ha hne ord s'

end

section
variable {K : Type} [Field K] [LinearOrder K] [IsStrictOrderedRing K]

/-- C111.  Exact arithmetic, sequential or random activation, any phases, positive stakes, `k ≥ 1`, `a0 ≥ 0` (positive for CIP-50), and every open pool would
make a profit if it were saturated.  Then the turn of an agent that does not abstain raises IndexError if `k` exceeds the number of place-holders and open
pools of other agents, and succeeds otherwise. -/
theorem C111_exact {c : Config K} {s : State K} (hr : Reachable c s) (hc : c.simultaneous = false) (h0 : ∀ e ∈ c.people, 0 < e.1) (hb : 0 < c.rs.beta)
    (hk : 1 ≤ s.rs.k) (ha0 : 0 ≤ s.rs.a0) (hcip : s.rs.scheme = .cip50 → 0 < s.rs.a0) (hpp : ∀ pid r, s.pools.get? pid = some r → 0 < (s.heap r).pp)
    {a : Nat} {ag : Agent K} (ha : s.agents.get? a = some ag) (hp : ag.profile ≠ .abstainer) {ord : List Nat → List Nat} (hord : ∀ l, (ord l).Perm l) :
    (exec s (.step a ord) = .error .index ↔ c.rs.k + 1 + poolsOfOthers s a < s.rs.k) ∧
    ((∃ s', exec s (.step a ord) = .ok s') ↔ s.rs.k ≤ c.rs.k + 1 + poolsOfOthers s a) := by
  have hg := hr.good minUnit_pos
  have hbs := (hr.shaped (fun e he => (h0 e he).le) hb).1
  have hid : ag.id = a := hg.inv.core.agentId a ag ha
  have hbad : c.rs.k + 1 + poolsOfOthers s a < s.rs.k → exec s (.step a ord) = .error .index := by
    intro h
    obtain ⟨σ, hσ⟩ := hg.inv.strat a ag ha hp
    have hq := hr.books hc
    have hready : Ready (c.rs.k + 1) s ag.id σ := by rw [hid]; exact hr.ready_of ha hσ (hq.inRecords ha hσ)
    have hsound : Sound s σ := by
      intro pid r hp
      have hpl := hr.pledge_pos h0 hb hp
      have hev := hr.evaluable hq h0 hb ha0 ha hσ pid r hp
      exact ⟨hpl, lt_of_lt_of_le hpl (hr.balanced r).pledge_le, hev.rest, hpp pid r hp, (hr.fair r).des_nonneg⟩
    have hpm := planMove_error hready hsound (ord := ord) ((hg.inv.tidy a ag ha).owned _ hσ) (fun pid r hr => (hg.inv.owned ha hσ hr).1)
      (fun s₁ hcalm hready₁ => choosePoolStrategy_short hready₁.core
        (by rw [hcalm.rs, hcalm.others hready.core, othersPools_eq, hid]; exact h) ord)
    exact step_error ha hp hσ hpm
  have hgood : s.rs.k ≤ c.rs.k + 1 + poolsOfOthers s a → ∃ s', exec s (.step a ord) = .ok s' := by
    intro h
    have hlt : a < c.people.length := by
      have := hg.person ha
      exact (List.getElem?_eq_some_iff.1 this).1
    refine hr.never hc hk h0 hb ha0 hpp (fun b ag ha _ => satOK_of (h0 _ (List.mem_of_getElem? (hg.person ha))) hbs hcip) (fun me o he => ?_)
      (ev := .step a ord) ⟨hlt, hord⟩ (fun p => by simp)
    cases he
    rw [othersPools_eq]; exact h
  refine ⟨⟨fun he => ?_, hbad⟩, ⟨fun ⟨s', he⟩ => ?_, hgood⟩⟩
  · by_contra hn
    obtain ⟨s', hs'⟩ := hgood (not_lt.1 hn)
    rw [hs'] at he; cases he
  · by_contra hn
    rw [hbad (not_le.1 hn)] at he; cases he

/-- a pool that would not make a profit ranks after the place-holders -/
theorem none_lt_poolKey {p : Pool K} (h1 : p.pp ≤ 0) (h2 : p.des = 0) (h3 : 1 ≤ p.id) : noneKey < poolKey p := by
  unfold poolKey noneKey
  rw [Prod.Lex.toLex_lt_toLex]
  right
  refine ⟨by simp [h2], ?_⟩
  rw [Prod.Lex.toLex_lt_toLex]
  rcases lt_or_eq_of_le h1 with h | h
  · left; simpa using h
  · right; exact ⟨by simp [h], by simpa using Nat.lt_of_lt_of_le Nat.zero_lt_one h3⟩

theorem nonMyopicStake_stuck {n : Nat} {s : State K} (hc : Core (n + 1) s) {pid : Nat} {r : Ref} (hp : s.pools.get? pid = some r)
    (h1 : (s.heap r).pp ≤ 0) (h2 : (s.heap r).des = 0) (v : K) : nonMyopicStake s.rs s.totalStake s.heap s.rank r ≠ .ok v := by
  intro he
  unfold nonMyopicStake at he
  obtain ⟨i, hi, he⟩ := bind_ok he
  obtain ⟨sats, hm, -⟩ := bind_ok he
  have hnone : (noneKey, none) ∈ s.rank := by
    rw [hc.rankPerm.mem_iff]; exact List.mem_append_left _ (by simp [List.replicate_succ])
  have hlt := none_lt_poolKey h1 h2 (by rw [(hc.poolRef _ _ hp).2.1]; exact (hc.poolRef _ _ hp).2.2.1)
  obtain ⟨j, hj, hget, -⟩ := SKL.index_ok hc.rankSorted (hc.mem_rank hp)
  rw [hj] at hi
  obtain rfl : j = i := Except.ok.inj hi
  have hmem : (noneKey, none) ∈ s.rank.take j := by
    rw [← List.take_append_drop j s.rank] at hnone
    rcases List.mem_append.1 hnone with h | h
    · exact h
    · exfalso
      have hs := hc.rankSorted
      unfold SKL.Sorted at hs
      obtain ⟨hjl, hje⟩ := List.getElem?_eq_some_iff.1 hget
      rw [List.drop_eq_getElem_cons hjl, hje] at h
      rcases List.mem_cons.1 h with h | h
      · exact absurd (congrArg Prod.snd h) (by simp)
      · rw [← List.take_append_drop (j + 1) s.rank, List.pairwise_append] at hs
        have := hs.2.2 _ (List.mem_take_iff_getElem.2 ⟨j, by simp [hjl], hje⟩) _ h
        exact absurd this (not_le.2 hlt)
  have hv : (none : Option Ref) ∈ s.rank.vals.take j := by
    unfold SKL.vals
    rw [← List.map_take]
    exact List.mem_map.2 ⟨_, hmem, rfl⟩
  have hall : ∀ (l : List (Option Ref)) (ys : List K), l.mapM (entrySat s.rs s.heap) = .ok ys → none ∉ l := by
    intro l
    induction l with
    | nil => simp
    | cons x t ih =>
      intro ys hys
      rw [List.mapM_cons] at hys
      obtain ⟨y, hy, hys⟩ := bind_ok hys
      obtain ⟨ys', hys', -⟩ := bind_ok hys
      cases x with
      | none => cases hy
      | some q => simpa using ih _ hys'
  exact hall _ _ hm hv

/-- C111.  The other cause: a non-myopic agent that delegates to a pool which would not make a profit even if it were saturated (a phase can make such a pool of
a profitable one) cannot take its turn.  For every kind of activation. -/
theorem C111_stuck_delegator {c : Config K} {s : State K} (hr : Reachable c s) {a : Nat} {ag : Agent K} {σ : Strategy K} (ha : s.agents.get? a = some ag)
    (hp : ag.profile = .nonMyopic) (hσ : ag.strategy = some σ) {pid : Nat} {x : K} (hx : σ.allocs.get? pid = some x) {r : Ref}
    (hpid : s.pools.get? pid = some r) (hpp : (s.heap r).pp ≤ 0) (ord : List Nat → List Nat) (s' : State K) : exec s (.step a ord) ≠ .ok s' := by
  intro he
  have hg := hr.good minUnit_pos
  have hf := hr.fair r
  have hdes : (s.heap r).des = 0 := by
    rw [hf.des, desirability]
    exact max_eq_right (mul_nonpos_of_nonneg_of_nonpos (by linarith [hf.margin_le]) hpp)
  change agentStep ord s a = .ok s' at he
  unfold agentStep at he
  obtain ⟨s₁, hu, -⟩ := bind_ok he
  unfold updateStrategy at hu
  rw [Dict.getE_of ha] at hu
  simp only [bind, Except.bind, hσ, hp] at hu
  cases hpm : planMove ord s ag σ with
  | error e => rw [hpm] at hu; cases hu
  | ok res =>
    unfold planMove at hpm
    obtain ⟨cur, -, hpm⟩ := bind_ok hpm
    obtain ⟨exp, hexp, -⟩ := bind_ok hpm
    unfold expectedUtility at hexp
    obtain ⟨u, -, hacc⟩ := bind_ok hexp
    have hstop : ∀ (l : List (Ref × K)) (u v : K), accM (fun (e : Ref × K) => delegatorUtilityFromPool s ag σ e.1 e.2) l u = .ok v → ∀ y, (r, y) ∉ l := by
      intro l
      induction l with
      | nil => simp
      | cons e t ih =>
        intro u v hv y hy
        unfold accM at hv
        obtain ⟨z, hz, hv⟩ := bind_ok hv
        rcases List.mem_cons.1 hy with h | h
        · rw [← h] at hz
          unfold delegatorUtilityFromPool at hz
          simp only [hp] at hz
          obtain ⟨nm, hnm, -⟩ := bind_ok hz
          exact nonMyopicStake_stuck hg.inv.core hpid hpp hdes nm hnm
        · exact ih _ _ hv y h
    refine hstop _ _ _ hacc x (List.mem_filterMap.2 ⟨(pid, x), Dict.mem_of_get? hx, ?_⟩)
    simp [hpid]

end

/-! Hypotheses are met, on both sides of the bound.  After two rounds of the demo (`k = 3`, hence four place-holders) three pools are open, of
agents 0, 1 and 3; then `k` becomes 7: agent 2 sees seven entries and can move, the others see six and cannot. -/

/-- two rounds, then `k` becomes 7 -/
def demoSeven : Py (State ℚ) := iterM exec (initState (demo false)) (demoRound ++ demoRound ++ [.phase { k := some 7 }])

theorem C111_seven : demoSeven.toOption.map (fun s => ((List.range 4).map (poolsOfOthers s), s.rs.k)) = some ([2, 2, 3, 2], 7) ∧
    (demoSeven.toOption.map (fun s => s.pools.vals.map (fun r => decide (0 < (s.heap r).pp)))) = some [true, true, true] ∧
    (List.range 4).map (fun a => raised (do let s ← demoSeven; exec s (.step a _root_.id))) = [some .index, some .index, none, some .index] := by
  decide +kernel

example : ∃ s, Reachable (demo false) s ∧ (List.range 4).map (poolsOfOthers s) = [2, 2, 3, 2] ∧ s.rs.k = 7 := by
  have key := C111_seven.1
  cases h : demoSeven with
  | error e => rw [h] at key; cases key
  | ok s =>
    rw [h] at key
    have h2 := Prod.mk.inj (Option.some.inj key)
    refine ⟨s, ⟨_, fun e he => ?_, h⟩, h2.1, h2.2⟩
    rcases List.mem_append.1 he with he | he
    · exact (demoRounds_valid e he).1
    · rw [List.mem_singleton.1 he]; trivial

/-- `k = 3`; agents 1 and 2 have high costs and delegate to the pools of agent 0 -/
def costlyPools : Config ℚ := { demo false with
  people := [(1/10, 1/8, .nonMyopic), (1/10, 1/3, .nonMyopic), (4/10, 1/5, .nonMyopic), (3/10, 1/50, .nonMyopic), (1/10, 1/1000, .abstainer)] }

/-- two rounds, then `a0` becomes 10 -/
def costlyTen : Py (State ℚ) := iterM exec (initState costlyPools) (demoRound ++ demoRound ++ [.phase { a0 := some 10 }])

/-- The pools 1, 2 and 3 do not make a profit any more; the agents 1 and 2 delegate to them and cannot move. -/
theorem C111_stuck : costlyTen.toOption.map (fun s => s.pools.map (fun e => (e.1, decide ((s.heap e.2).pp ≤ 0)))) =
      some [(1, true), (2, true), (3, true), (10, false), (11, false), (12, false)] ∧
    costlyTen.toOption.map (fun s => s.agents.map (fun e => (e.2.strategy.map (·.allocs)))) =
      some [some [], some [(1, 1/10)], some [(1, 1/5), (2, 1/5)], some [], none] ∧
    (List.range 4).map (fun a => raised (do let s ← costlyTen; exec s (.step a _root_.id))) = [none, some .attr, some .attr, some .attr] := by
  decide +kernel

end RSE.Props
