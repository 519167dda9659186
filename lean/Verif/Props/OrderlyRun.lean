import Verif.Props.Orderly
import Verif.Props.Crash

/-!
# C101: simultaneous simulations crash only after a conflict

`C29` is about sequential and random activation.  Here is its counterpart for simultaneous and semi-simultaneous activation, in exact
arithmetic: in a single-phase simulation no batch raises an exception, as long as no batch so far has had a conflict in the sense of C100.
-/

set_option linter.unusedSectionVars false

namespace RSE.Props

variable {K : Type} [Field K] [LinearOrder K] [IsStrictOrderedRing K]

/-- The states between the batches of a single-phase simulation with simultaneous or semi-simultaneous activation in which no batch has had
a conflict. -/
inductive OrderlySinglePhase (c : Config K) : State K → Prop
  | init : OrderlySinglePhase c (initState c)
  | batch {s s₁ s₂ ords batch} (hs : OrderlySinglePhase c s) (ho : BatchOK c ords batch) (h₁ : plansOf ords batch s = .ok s₁)
      (hq : batch.Pairwise (fun a b => ¬ Clash s₁ a b)) (h₂ : movesOf ords batch s₁ = .ok s₂) : OrderlySinglePhase c s₂
  | roundEnd {s s'} (hs : OrderlySinglePhase c s) (h : exec s .roundEnd = .ok s') : OrderlySinglePhase c s'

theorem OrderlySinglePhase.orderly {c : Config K} {s : State K} (h : OrderlySinglePhase c s) : Orderly c s := by
  induction h with
  | init => exact .init
  | batch _ ho h₁ hq h₂ ih => exact .batch ih ho h₁ hq h₂
  | roundEnd _ he ih => exact .roundEnd ih he

/-- what the parameters of the simulation have to satisfy -/
structure Sane (c : Config K) : Prop where
  sim : c.simultaneous = true
  k : 1 ≤ c.rs.k
  beta : 0 < c.rs.beta
  a0 : 0 ≤ c.rs.a0
  stakes : ∀ e ∈ c.people, 0 < e.1
  scheme : SaneScheme c

theorem Clean.plansOf {c : Config K} (hc : Sane c) {ords : Nat → List Nat → List Nat} (hords : ∀ i l, (ords i l).Perm l) :
    ∀ (l : List Nat) (i : Nat) (s : State K), (∀ a ∈ l, a < c.people.length) → Clean c s → Batch (c.rs.k + 1) s →
    ∃ s', iterM (fun s (e : Nat × Nat) => agentStep (ords e.2) s e.1) s (l.zipIdx i) = .ok s' ∧ Clean c s'
  | [], _, s, _, h, _ => ⟨s, rfl, h⟩
  | me :: l, i, s, hl, h, hB => by
    have hg := (Reachable.of_single h.single).good minUnit_pos
    have hme := hl me (by simp)
    obtain ⟨ag, ha⟩ : ∃ ag, s.agents.get? me = some ag := by
      have : (s.agents.get? me).isSome := by rw [hg.fixed.isSome]; exact isSome_init c hme
      exact Option.isSome_iff_exists.1 this
    obtain ⟨s₁, h₁⟩ := h.plan_never hB.books hc.k hc.stakes hc.beta hc.a0 (fun b ag hb hne => satOK hc.scheme hg hc.stakes hc.beta hb hne) hme (hords i)
    have hstep := hB.step (hords i) ha
    cases h2 : agentStep (ords i) s me with
    | error e =>
      exfalso
      unfold agentStep at h2
      rw [h₁] at h2
      simp only [bind, Except.bind] at h2
      have hsim : s₁.simultaneous = true := by
        rcases (updateStrategy_books hB.inv (hords i) ha (t := True) (fun _ => hB.books)).of_ok h₁ with ⟨-, rfl⟩ | ⟨-, σ, oν, s₂, -, hpl, -⟩
        · exact hB.sim
        · rw [hpl.eq]; exact hpl.planned.simultaneous.trans hB.sim
      rw [if_pos hsim] at h2
      cases h2
    | ok s₂ =>
      have hcl : Clean c s₂ := h.next (ev := .step me (ords i)) ⟨hme, hords i⟩ (fun p => by simp) (fun _ _ _ => hB.books) h2
      obtain ⟨s', k1, k2⟩ := Clean.plansOf hc hords l (i + 1) s₂ (fun a ha => hl a (List.mem_cons_of_mem _ ha)) hcl (hstep.of_ok h2).1.1
      refine ⟨s', ?_, k2⟩
      rw [List.zipIdx_cons]
      unfold iterM
      rw [h2]; exact k1

theorem OrderlySinglePhase.plans {c : Config K} (hc : Sane c) {s : State K} (h : OrderlySinglePhase c s) (hcl : Clean c s)
    {ords : Nat → List Nat → List Nat} {batch : List Nat} (ho : BatchOK c ords batch) : ∃ s₁, plansOf ords batch s = .ok s₁ ∧ Clean c s₁ := by
  obtain ⟨h1, h2, h3⟩ := C100_orderly minUnit_pos hc.sim h.orderly
  obtain ⟨s', k1, k2⟩ := Clean.plansOf hc ho.ords batch 0 s ho.agents hcl (batch_of minUnit_pos h1 hc.sim h2 h3)
  refine ⟨s', ?_, k2⟩
  unfold Props.plansOf stepEvents
  rw [iterM_map]
  exact k1

theorem OrderlySinglePhase.clean {c : Config K} (hc : Sane c) {s : State K} (h : OrderlySinglePhase c s) : Clean c s := by
  induction h with
  | init => exact .init
  | @batch s s₁ s₂ ords batch hs ho h₁ hq h₂ ih =>
    obtain ⟨s₁', k1, k2⟩ := hs.plans hc ih ho
    rw [h₁] at k1; cases k1
    refine k2.many ho.moves_valid (fun e he me ord => ?_) h₂
    obtain ⟨⟨a, i⟩, -, rfl⟩ := List.mem_map.1 he
    exact ⟨by simp, by simp⟩
  | roundEnd hs he ih => exact ih.next (ev := .roundEnd) trivial (by simp) (by simp) he

/-- C101.  A batch of a single-phase simulation with simultaneous moves, after batches without conflicts: all agents can plan; and if their
plans do not conflict either, then they can be carried out and the next batch is in the same situation. -/
theorem C101_batch {c : Config K} (hc : Sane c) {s : State K} (h : OrderlySinglePhase c s) {ords : Nat → List Nat → List Nat} {batch : List Nat}
    (ho : BatchOK c ords batch) : ∃ s₁, plansOf ords batch s = .ok s₁ ∧
      (batch.Pairwise (fun a b => ¬ Clash s₁ a b) → ∃ s₂, runBatch ords s batch = .ok s₂ ∧ OrderlySinglePhase c s₂) := by
  obtain ⟨s₁, h₁, -⟩ := h.plans hc (h.clean hc) ho
  refine ⟨s₁, h₁, fun hq => ?_⟩
  obtain ⟨k1, k2, k3⟩ := C100_orderly minUnit_pos hc.sim h.orderly
  obtain ⟨s₂, h₂, -⟩ := C100_batch minUnit_pos k1 hc.sim k2 k3 ho h₁ hq
  refine ⟨s₂, ?_, .batch h ho h₁ hq h₂⟩
  rw [runBatch_halves, h₁]
  exact h₂

/-- C101.  So if a batch raises an exception, the plans of two of its agents conflict. -/
theorem C101_blame {c : Config K} (hc : Sane c) {s : State K} (h : OrderlySinglePhase c s) {ords : Nat → List Nat → List Nat} {batch : List Nat}
    (ho : BatchOK c ords batch) {e : Err} (he : runBatch ords s batch = .error e) :
    ∃ s₁, plansOf ords batch s = .ok s₁ ∧ ∃ before a between b after, batch = before ++ a :: (between ++ b :: after) ∧ Clash s₁ a b := by
  obtain ⟨s₁, h₁, -⟩ := h.plans hc (h.clean hc) ho
  obtain ⟨k1, k2, k3⟩ := C100_orderly minUnit_pos hc.sim h.orderly
  refine ⟨s₁, h₁, C100_blame minUnit_pos k1 hc.sim k2 k3 ho h₁ (Or.inl ⟨e, ?_⟩)⟩
  rw [runBatch_halves, h₁] at he
  exact he

/-- C101.  A batch in which only the first agent operates pools raises nothing -- in particular the first round of a simultaneous simulation. -/
theorem C101_no_operators {c : Config K} (hc : Sane c) {s : State K} (h : OrderlySinglePhase c s) {ords : Nat → List Nat → List Nat} {batch : List Nat}
    (ho : BatchOK c ords batch) (hno : ∀ b ∈ batch.tail, ∀ pid r, ¬ Operates s b pid r) :
    ∃ s₂, runBatch ords s batch = .ok s₂ ∧ OrderlySinglePhase c s₂ := by
  obtain ⟨s₁, h₁, h2⟩ := C101_batch hc h ho
  exact h2 (C100_no_operators minUnit_pos (C100_orderly minUnit_pos hc.sim h.orderly).1 hc.sim ho h₁ hno)

theorem C101_first_round {c : Config K} (hc : Sane c) {ords : Nat → List Nat → List Nat} {order : List Nat} (ho : BatchOK c ords order) :
    ∃ s, roundSimultaneous ords order (initState c) = .ok s ∧ OrderlySinglePhase c s := by
  obtain ⟨s, h1, h2⟩ := C101_no_operators hc .init ho (fun b _ pid r hop => by
    obtain ⟨ag, σ, k1, k2, k3⟩ := hop
    rw [((init_agent k1).2 σ k2).2] at k3
    cases k3)
  exact ⟨s, h1, h2⟩

/-- C101.  Semi-simultaneous rounds with one move at a time never raise anything. -/
theorem C101_one_at_a_time {c : Config K} (hc : Sane c) {s : State K} (h : OrderlySinglePhase c s) {sample : List Nat → Nat → List Nat}
    (hs : SampleOK sample) {ords : Nat → Nat → List Nat → List Nat} (hords : ∀ i j l, (ords i j l).Perm l) :
    ∃ s', roundSemi 1 sample ords (List.range c.people.length) s = .ok s' ∧ OrderlySinglePhase c s' := by
  obtain ⟨hperm, hlen⟩ := batches_spec (z := 1) le_rfl hs (List.range c.people.length).length (List.range c.people.length) List.nodup_range le_rfl
  have : ∀ (l : List (List Nat × Nat)), (∀ e ∈ l, e.1.length = 1 ∧ ∀ a ∈ e.1, a < c.people.length) → ∀ s, OrderlySinglePhase c s →
      ∃ s', iterM (fun s (e : List Nat × Nat) => runBatch (ords e.2) s e.1) s l = .ok s' ∧ OrderlySinglePhase c s' := by
    intro l
    induction l with
    | nil => intro _ s hs; exact ⟨s, rfl, hs⟩
    | cons e l ih =>
      intro hl s hs
      obtain ⟨b, i⟩ := e
      obtain ⟨hb1, hb2⟩ := hl (b, i) (by simp)
      obtain ⟨a, rfl⟩ := List.length_eq_one_iff.1 hb1
      obtain ⟨s₁, h1, h2⟩ := C101_batch hc hs ⟨hb2, List.nodup_singleton a, hords i⟩
      obtain ⟨s₂, h3, h4⟩ := h2 (List.pairwise_singleton _ _)
      obtain ⟨s', h5, h6⟩ := ih (fun e he => hl e (List.mem_cons_of_mem _ he)) s₂ h4
      refine ⟨s', ?_, h6⟩
      unfold iterM
      simp only
      rw [h3]; exact h5
  refine this _ (fun e he => ?_) s h
  have hm := List.mem_map_of_mem (f := Prod.fst) he
  rw [List.zipIdx_map_fst] at hm
  obtain ⟨k1, k2⟩ := hlen e.1 hm
  refine ⟨by omega, fun a ha => ?_⟩
  exact List.mem_range.1 (hperm.mem_iff.1 (List.mem_flatten.2 ⟨e.1, hm, ha⟩))

/-- C101.  Between batches of such a simulation every open pool would make a profit if it were saturated (C66). -/
theorem C101_open_pools_profitable {c : Config K} (hc : Sane c) {s : State K} (h : OrderlySinglePhase c s) {pid : Nat} {r : Ref}
    (hp : s.pools.get? pid = some r) : (s.heap r).cost < c.rs.reward (s.heap r).pledge (c.rs.sat (s.heap r).pledge) := by
  obtain ⟨h1, h2⟩ := (h.clean hc).pp_pos hc.stakes hc.beta hc.a0 hp
  rw [h2] at h1
  unfold potentialProfit at h1
  linarith

/-! ### Witnesses -/

theorem demo_sane : Sane (demo true) := by
  refine ⟨rfl, by decide, by decide +kernel, by decide +kernel, by decide +kernel, ?_⟩
  intro h; exact absurd h (by decide)

theorem orderlyRounds_single {c : Config ℚ} {order : List Nat} (ho : BatchOK c (fun _ => id) order) : ∀ (n : Nat) {s s' : State ℚ},
    OrderlySinglePhase c s → orderlyRounds order n s = some s' → OrderlySinglePhase c s'
  | 0, s, s', h, he => by cases he; exact h
  | n + 1, s, s', h, he => by
    unfold orderlyRounds at he
    obtain ⟨s₁, h1, he⟩ := Option.bind_eq_some_iff.1 he
    split at he
    · rename_i hq
      obtain ⟨s₂, h2, he⟩ := Option.bind_eq_some_iff.1 he
      exact orderlyRounds_single ho n (.batch h ho (toOption_ok h1) (noClash_spec hq) (toOption_ok h2)) he
    · cases he

/-- Three simultaneous rounds of the demonstration have no conflict, and they end with three pools, all of them with delegations. -/
example : ∃ s, OrderlySinglePhase (demo true) s ∧ demoView s = [(1, 0, 1/3, [(2, 2/15)]), (4, 1, 7/30, [(2, 2/15)]), (10, 3, 1/3, [(2, 1/30)])] := by
  have key : (orderlyRounds [0, 1, 2, 3, 4] 3 (initState (demo true))).map demoView =
      some [(1, 0, 1/3, [(2, 2/15)]), (4, 1, 7/30, [(2, 2/15)]), (10, 3, 1/3, [(2, 1/30)])] := by decide +kernel
  obtain ⟨s, h1, h2⟩ := Option.map_eq_some_iff.1 key
  exact ⟨s, orderlyRounds_single ⟨by decide, by decide, fun _ _ => List.Perm.refl _⟩ 3 .init h1, h2⟩

theorem clash_of {s : State ℚ} {a b : Nat} (h : clashes s a b = true) : Clash s a b := by
  unfold clashes at h
  split at h
  · rename_i aa bb h1 h2
    split at h
    · rename_i ν σb νb k1 k2 k3
      obtain ⟨p, hp, hne⟩ := List.any_eq_true.1 h
      obtain ⟨hp1, hp2⟩ := List.mem_filter.1 hp
      obtain ⟨r, hr⟩ := Dict.mem_keys_iff.1 hp1
      obtain ⟨r', hr'⟩ := Dict.mem_keys_iff.1 (Dict.contains_iff.1 hp2)
      refine ⟨p, ⟨⟨r, bb, σb, h2, k2, hr⟩, bb, νb, r', h2, k3, hr'⟩, ⟨aa, ν, h1, k1⟩, fun hall => ?_⟩
      rw [decide_eq_true_eq] at hne
      apply hne
      have e1 : newOf s a p = ν.allocs.get? p := newOf_eq h1 k1 p
      have e2 : allocOf s a p = aa.strategy.bind (fun σ => σ.allocs.get? p) := by unfold allocOf; rw [h1]
      rw [← e1, ← e2]
      exact Option.ext (fun x => by rw [← plans_iff, ← says_iff]; exact hall x)
    · cases h
  · cases h

/-- The condition is needed.  The simulation of `C25_key_error`, which stops in its fifth round with a KeyError, has three rounds without
conflict; in the fourth, agents 1 and 4 conflict (and others). -/
theorem C101_needed : Sane keyErrorCfg ∧ ∃ s s₁ s₂ : State ℚ, OrderlySinglePhase keyErrorCfg s ∧ plansOf (fun _ => id) [0, 1, 2, 3, 4] s = .ok s₁ ∧
    Clash s₁ 1 4 ∧ roundSimultaneous (fun _ => id) [0, 1, 2, 3, 4] s = .ok s₂ ∧ roundSimultaneous (fun _ => id) [0, 1, 2, 3, 4] s₂ = .error .key := by
  refine ⟨⟨rfl, by decide, by decide +kernel, by decide +kernel, by decide +kernel, fun h => absurd h (by decide)⟩, ?_⟩
  have key : (orderlyRounds [0, 1, 2, 3, 4] 3 (initState keyErrorCfg)).bind (fun s => (plansOf (fun _ => id) [0, 1, 2, 3, 4] s).toOption.bind (fun s₁ =>
      (roundSimultaneous (fun _ => id) [0, 1, 2, 3, 4] s).toOption.map (fun s₂ => (clashes s₁ 1 4,
        (roundSimultaneous (fun _ => id) [0, 1, 2, 3, 4] s₂).map (fun _ => ()))))) = some (true, .error .key) := by decide +kernel
  obtain ⟨s, h0, key⟩ := Option.bind_eq_some_iff.1 key
  obtain ⟨s₁, h1, key⟩ := Option.bind_eq_some_iff.1 key
  obtain ⟨s₂, h2, key⟩ := Option.map_eq_some_iff.1 key
  obtain ⟨k1, k2⟩ := Prod.mk.inj key
  refine ⟨s, s₁, s₂, orderlyRounds_single ⟨by decide, by decide, fun _ _ => List.Perm.refl _⟩ 3 .init h0, toOption_ok h1, clash_of k1, toOption_ok h2, ?_⟩
  cases h3 : roundSimultaneous (fun _ => id) [0, 1, 2, 3, 4] s₂ with
  | ok x => rw [h3] at k2; cases k2
  | error e => rw [h3] at k2; cases k2; rfl

end RSE.Props
