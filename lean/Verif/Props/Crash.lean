import Verif.Lemmas.NoCrash
import Verif.Props.Accounting

/-!
# C66, C29: only profitable pools are open; single-phase simulations do not crash
-/

set_option linter.unusedSectionVars false

namespace RSE.Props

variable {K : Type} [Field K] [LinearOrder K] [IsStrictOrderedRing K]

/-- C66.  In a single-phase simulation with sequential activation every open pool would make a profit if it were saturated: the reward
for its pledge and the saturation threshold exceeds its cost.  The potential profit recorded in the pool says so. -/
theorem C66_open_pools_profitable {c : Config K} {s : State K} (h : ReachableSinglePhase c s) (hc : c.simultaneous = false)
    (h0 : ∀ e ∈ c.people, 0 < e.1) (hb : 0 < c.rs.beta) (ha0 : 0 ≤ c.rs.a0) {pid : Nat} {r : Ref} (hp : s.pools.get? pid = some r) :
    (s.heap r).cost < c.rs.reward (s.heap r).pledge (c.rs.sat (s.heap r).pledge) ∧
    (s.heap r).pp = c.rs.reward (s.heap r).pledge (c.rs.sat (s.heap r).pledge) - (s.heap r).cost := by
  obtain ⟨h1, h2⟩ := h.pp_pos hc h0 hb ha0 hp
  rw [h2] at h1
  unfold potentialProfit at h1 h2
  exact ⟨by linarith, h2⟩

/-- ... and hence pools rank strictly before the place-holders of the ranking -/
theorem C66_before_placeholders {c : Config K} {s : State K} (h : ReachableSinglePhase c s) (hc : c.simultaneous = false)
    (h0 : ∀ e ∈ c.people, 0 < e.1) (hb : 0 < c.rs.beta) (ha0 : 0 ≤ c.rs.a0) {i j : Nat} {r : Ref} (hi : s.rank.vals[i]? = some (some r))
    (hj : s.rank.vals[j]? = some none) : i < j := by
  have hg := (Reachable.of_single h).good minUnit_pos
  have hcore := hg.inv.core
  obtain ⟨pid, hp⟩ := hcore.rank_open (List.mem_of_getElem? hi)
  by_contra hlt
  push Not at hlt
  unfold SKL.vals at hi hj
  rw [List.getElem?_map] at hi hj
  obtain ⟨⟨k, o⟩, h1, h2⟩ := Option.map_eq_some_iff.1 hi
  obtain ⟨⟨k', o'⟩, h3, h4⟩ := Option.map_eq_some_iff.1 hj
  simp only at h2 h4
  subst h2; subst h4
  have hk' := hcore.rank_none (List.mem_of_getElem? h3)
  have hk : k = poolKey (s.heap r) := by
    have hm := List.mem_of_getElem? h1
    rw [hcore.rankPerm.mem_iff] at hm
    rcases List.mem_append.1 hm with hm | hm
    · cases (Prod.mk.inj (List.eq_of_mem_replicate hm)).2
    · obtain ⟨e, -, he⟩ := List.mem_map.1 hm
      cases he; rfl
  have hlt2 := poolKey_lt_none (h.pp_pos hc h0 hb ha0 hp).1 ((Reachable.of_single h).fair r).des_nonneg
  rw [← hk, ← hk'] at hlt2
  rcases lt_or_eq_of_le hlt with hlt | rfl
  · have hs := hcore.rankSorted
    unfold SKL.Sorted at hs
    rw [List.pairwise_iff_getElem] at hs
    obtain ⟨l1, e1⟩ := List.getElem?_eq_some_iff.1 h1
    obtain ⟨l3, e3⟩ := List.getElem?_eq_some_iff.1 h3
    have := hs j i l3 l1 hlt
    rw [e1, e3] at this
    exact absurd this (not_le.2 hlt2)
  · rw [h1] at h3
    cases h3

/-- the saturation threshold is positive, or else nobody looks at it: it is 0 only for CIP-50 with `a0 = 0` -/
def SaneScheme (c : Config K) : Prop :=
  c.rs.scheme = .cip50 → 0 < c.rs.a0 ∨ (0 ≤ c.extraFrac ∧ ∀ e ∈ c.people, e.2.2 ≠ .myopic ∧ 0 ≤ e.2.1)

theorem costPerPool_nonneg {n : Nat} {cost f co : K} (hc : 0 ≤ cost) (hf : 0 ≤ f) (h : costPerPool n cost f = .ok co) : 0 ≤ co := by
  unfold costPerPool at h
  split at h
  · cases h
  · cases h; positivity

theorem satOK {c : Config K} {s : State K} (hs : SaneScheme c) (hg : Good c s) (h0 : ∀ e ∈ c.people, 0 < e.1) (hb : 0 < c.rs.beta) {b : Nat} {ag : Agent K}
    (ha : s.agents.get? b = some ag) (hne : ag.profile ≠ .abstainer) : SatOK c.rs c.extraFrac ag := by
  intro m q co hq hco
  have hmem := List.mem_of_getElem? (hg.person ha)
  have hqpos := pledgePerPool_pos hq (h0 _ hmem) hb
  by_cases hsch : c.rs.scheme = .cip50
  · rcases hs hsch with h | ⟨hf, h⟩
    · left
      unfold RS.sat
      rw [hsch]
      exact (lt_min (mul_pos h hqpos) hb).ne'
    · obtain ⟨h1, h2⟩ := h _ hmem
      by_cases hz : c.rs.sat q = 0
      · right
        refine ⟨?_, ?_⟩
        · cases hp : ag.profile with
          | nonMyopic => rfl
          | myopic => exact absurd hp h1
          | abstainer => exact absurd hp hne
        · have := costPerPool_nonneg h2 hf hco
          unfold potentialProfit RS.reward
          rw [hsch]
          simp only [hz, min_self, mul_zero]
          linarith
      · exact Or.inl hz
  · left
    have : c.rs.sat q = c.rs.beta := by
      unfold RS.sat
      split
      · rename_i h; exact absurd h hsch
      · rfl
    rw [this]; exact hb.ne'

/-- C29 (for CIP-50 with `a0 = 0` myopic agents are excluded here; `C29_cip50_exact` is about them).  A sequential or random single-phase
simulation with `k ≥ 1`, `a0 ≥ 0` and positive stakes never raises: every sequence of turns of agents, in any order and for any iteration
order of sets, leads to a state. -/
theorem C29_never_crashes {c : Config K} (hc : c.simultaneous = false) (hk : 1 ≤ c.rs.k) (hb : 0 < c.rs.beta) (ha0 : 0 ≤ c.rs.a0)
    (h0 : ∀ e ∈ c.people, 0 < e.1) (hs : SaneScheme c) (es : List (Event K)) (hes : ∀ e ∈ es, e.Valid c.people.length ∧ ∀ p, e ≠ .phase p) :
    ∃ s, iterM exec (initState c) es = .ok s := by
  have key : ∀ (es : List (Event K)) (s : State K), ReachableSinglePhase c s → (∀ e ∈ es, e.Valid c.people.length ∧ ∀ p, e ≠ .phase p) →
      ∃ s', iterM exec s es = .ok s' := by
    intro es
    induction es with
    | nil => intro s _ _; exact ⟨s, rfl⟩
    | cons e t ih =>
      intro s hr hes
      obtain ⟨hv, hp⟩ := hes e List.mem_cons_self
      have hg := (Reachable.of_single hr).good minUnit_pos
      obtain ⟨s₁, h₁⟩ := hr.never hc hk h0 hb ha0 (fun b ag ha hne => satOK hs hg h0 hb ha hne) hv hp
      obtain ⟨s', h'⟩ := ih s₁ (hr.next hv hp h₁) (fun e he => hes e (List.mem_cons_of_mem _ he))
      exact ⟨s', by unfold iterM; rw [h₁]; exact h'⟩
  exact key es _ ⟨[], by simp, rfl⟩ hes

/-- The same for rounds as the scheduler runs them. -/
theorem C29_rounds_never_crash {c : Config K} (hc : c.simultaneous = false) (hk : 1 ≤ c.rs.k) (hb : 0 < c.rs.beta) (ha0 : 0 ≤ c.rs.a0)
    (h0 : ∀ e ∈ c.people, 0 < e.1) (hs : SaneScheme c) {s : State K} (hr : ReachableSinglePhase c s) {ords : Nat → List Nat → List Nat}
    (hords : ∀ i l, (ords i l).Perm l) {order : List Nat} (ho : ∀ a ∈ order, a < c.people.length) :
    ∃ s', roundSequential ords order s = .ok s' ∧ ReachableSinglePhase c s' := by
  have key : ∀ (l : List (Nat × Nat)) (s : State K), ReachableSinglePhase c s → (∀ e ∈ l, e.1 < c.people.length) →
      ∃ s', iterM (fun s (e : Nat × Nat) => agentStep (ords e.2) s e.1) s l = .ok s' ∧ ReachableSinglePhase c s' := by
    intro l
    induction l with
    | nil => intro s hr _; exact ⟨s, rfl, hr⟩
    | cons e t ih =>
      intro s hr hl
      have hv : (Event.step e.1 (ords e.2) : Event K).Valid c.people.length := ⟨hl e List.mem_cons_self, hords _⟩
      have hp : ∀ p, (Event.step e.1 (ords e.2) : Event K) ≠ .phase p := fun p h => by cases h
      have hg := (Reachable.of_single hr).good minUnit_pos
      obtain ⟨s₁, h₁⟩ := hr.never hc hk h0 hb ha0 (fun b ag ha hne => satOK hs hg h0 hb ha hne) hv hp
      obtain ⟨s', h', hr'⟩ := ih s₁ (hr.next hv hp h₁) (fun e he => hl e (List.mem_cons_of_mem _ he))
      refine ⟨s', ?_, hr'⟩
      unfold iterM
      change agentStep (ords e.2) s e.1 = .ok s₁ at h₁
      rw [h₁]; exact h'
  exact key _ s hr (fun e he => ho _ (List.fst_mem_of_mem_zipIdx he))

/-- the excluded case: the turn of a myopic agent raises -/
theorem cip50_myopic {c : Config K} {s : State K} (hr : ReachableSinglePhase c s) (hc : c.simultaneous = false) (hk : 1 ≤ c.rs.k) (hb : 0 < c.rs.beta)
    (h0 : ∀ e ∈ c.people, 0 < e.1) (hs : c.rs.scheme = .cip50) (h00 : c.rs.a0 = 0)
    {a : Nat} {ag : Agent K} (ha : s.agents.get? a = some ag) (hp : ag.profile = .myopic) (ord : List Nat → List Nat) :
    exec s (.step a ord) = .error .zeroDiv := by
  have hR := Reachable.of_single hr
  have hg := hR.good minUnit_pos
  have hpar := hr.params minUnit_pos
  have hne : ag.profile ≠ .abstainer := by rw [hp]; simp
  have hid : ag.id = a := hg.inv.core.agentId a ag ha
  obtain ⟨σ, hσ⟩ := hg.inv.strat a ag ha hne
  have hq := hR.books hc
  have ha0 : 0 ≤ c.rs.a0 := h00.ge
  have hready : Ready (c.rs.k + 1) s ag.id σ := by rw [hid]; exact hR.ready_of ha hσ (hq.inRecords ha hσ)
  have hsound : Sound s σ := by
    intro pid r hp
    have hpl := hR.pledge_pos h0 hb hp
    have hev := hR.evaluable hq h0 hb (by rw [hpar.rs]; exact ha0) ha hσ pid r hp
    exact ⟨hpl, lt_of_lt_of_le hpl (hR.balanced r).pledge_le, hev.rest, (hr.pp_pos hc h0 hb ha0 hp).1, (hR.fair r).des_nonneg⟩
  refine step_error ha hne hσ (planMove_error hready hsound ((hg.inv.tidy a ag ha).owned _ hσ) (fun pid r hr => (hg.inv.owned ha hσ hr).1)
    (fun s₁ hcalm hready₁ => choosePoolStrategy_zero hready₁.core ?_ ?_ hp (fun q => ?_) ord))
  · rw [hcalm.rs, hpar.rs]; omega
  · rw [hcalm.rs, hpar.rs]; exact hk
  · rw [hcalm.rs, hpar.rs]
    unfold RS.sat
    rw [hs]
    simp only [h00, zero_mul]
    exact min_eq_left hb.le

/-- C29, the exceptional case: CIP-50 with `a0 = 0`.  A sequential or random single-phase simulation with `k ≥ 1`, positive stakes and non-negative costs raises
ZeroDivisionError as soon as a myopic agent gets a turn, and nothing before. -/
theorem C29_cip50_exact {c : Config K} (hc : c.simultaneous = false) (hk : 1 ≤ c.rs.k) (hb : 0 < c.rs.beta) (h0 : ∀ e ∈ c.people, 0 < e.1)
    (hcost : ∀ e ∈ c.people, 0 ≤ e.2.1) (hf : 0 ≤ c.extraFrac) (hs : c.rs.scheme = .cip50) (h00 : c.rs.a0 = 0)
    (es : List (Event K)) (hes : ∀ e ∈ es, e.Valid c.people.length ∧ ∀ p, e ≠ .phase p) :
    ((∃ s, iterM exec (initState c) es = .ok s) ↔ ∀ a ord, .step a ord ∈ es → ∀ p, c.people[a]? = some p → p.2.2 ≠ .myopic) ∧
    (iterM exec (initState c) es = .error .zeroDiv ↔ ∃ a ord p, .step a ord ∈ es ∧ c.people[a]? = some p ∧ p.2.2 = .myopic) := by
  have key : ∀ (es : List (Event K)) (s : State K), ReachableSinglePhase c s → (∀ e ∈ es, e.Valid c.people.length ∧ ∀ p, e ≠ .phase p) →
      ((∃ s', iterM exec s es = .ok s') ∧ ∀ a ord, .step a ord ∈ es → ∀ p, c.people[a]? = some p → p.2.2 ≠ .myopic) ∨
      (iterM exec s es = .error .zeroDiv ∧ ∃ a ord p, .step a ord ∈ es ∧ c.people[a]? = some p ∧ p.2.2 = .myopic) := by
    intro es
    induction es with
    | nil => intro s _ _; exact .inl ⟨⟨s, rfl⟩, by simp⟩
    | cons e t ih =>
      intro s hr hes
      obtain ⟨hv, hp⟩ := hes e List.mem_cons_self
      have hR := Reachable.of_single hr
      have hg := hR.good minUnit_pos
      have hpar := hr.params minUnit_pos
      by_cases hmy : ∃ a ord p, e = .step a ord ∧ c.people[a]? = some p ∧ p.2.2 = .myopic
      · obtain ⟨a, ord, p, rfl, hpe, hmyo⟩ := hmy
        right
        refine ⟨?_, a, ord, p, List.mem_cons_self, hpe, hmyo⟩
        obtain ⟨ag, ha⟩ : ∃ ag, s.agents.get? a = some ag := by
          have : (s.agents.get? a).isSome := by rw [hg.fixed.isSome]; exact isSome_init c hv.1
          exact Option.isSome_iff_exists.1 this
        have hper := hg.person ha
        rw [hpe] at hper
        unfold iterM
        rw [cip50_myopic hr hc hk hb h0 hs h00 ha (by rw [Option.some.inj hper] at hmyo; exact hmyo) ord]
        rfl
      · obtain ⟨s₁, h₁⟩ := hR.never' hc (by rw [hpar.rs]; exact hk) h0 hb (by rw [hpar.rs]; exact h00.ge)
          (fun pid r hp => (hr.pp_pos hc h0 hb h00.ge hp).1) (ev := e) (fun b ag ⟨ord, hev⟩ ha hne m q co hq hco => by
            have hper := hg.person ha
            have hmem := List.mem_of_getElem? hper
            have hz : s.rs.sat q = 0 := by
              rw [hpar.rs]
              unfold RS.sat
              rw [hs]
              simp only [h00, zero_mul]
              exact min_eq_left hb.le
            refine .inr ⟨?_, ?_⟩
            · cases hprof : ag.profile with
              | nonMyopic => rfl
              | myopic => exact absurd ⟨b, ord, _, hev, hper, hprof⟩ hmy
              | abstainer => exact absurd hprof hne
            · have := costPerPool_nonneg (hcost _ hmem) (by rw [hpar.extraFrac]; exact hf) hco
              unfold potentialProfit RS.reward
              rw [hz]
              rw [hpar.rs] at hz ⊢
              rw [hs]
              simp only [min_self, mul_zero]
              linarith) (fun me _ _ => by rw [hpar.rs]; omega) hv hp
        have hstep : iterM exec s (e :: t) = iterM exec s₁ t := by
          conv_lhs => unfold iterM
          rw [h₁]; rfl
        rw [hstep]
        rcases ih s₁ (hr.next hv hp h₁) (fun e he => hes e (List.mem_cons_of_mem _ he)) with ⟨h1, h2⟩ | ⟨h1, a, ord, p, h2, h3⟩
        · refine .inl ⟨h1, fun a ord hm p hpe hmyo => ?_⟩
          rcases List.mem_cons.1 hm with rfl | hm
          · exact hmy ⟨a, ord, p, rfl, hpe, hmyo⟩
          · exact h2 a ord hm p hpe hmyo
        · exact .inr ⟨h1, a, ord, p, List.mem_cons_of_mem _ h2, h3⟩
  rcases key es _ ⟨[], by simp, rfl⟩ hes with ⟨⟨s, h1⟩, h2⟩ | ⟨h1, a, ord, p, h2, h3, h4⟩
  · refine ⟨⟨fun _ => h2, fun _ => ⟨s, h1⟩⟩, ⟨fun h => ?_, fun ⟨a, ord, p, h3, h4, h5⟩ => absurd h5 (h2 a ord h3 p h4)⟩⟩
    rw [h1] at h; cases h
  · refine ⟨⟨fun ⟨s, h⟩ => ?_, fun h => absurd h4 (h a ord h2 p h3)⟩, ⟨fun _ => ⟨a, ord, p, h2, h3, h4⟩, fun _ => h1⟩⟩
    rw [h1] at h; cases h

/-- The excluded case does raise: one myopic agent, CIP-50, `a0 = 0` -/
def cip50Zero : Config ℚ :=
  { rs := { scheme := .cip50, k := 2, beta := 1/2, a0 := 0 }, relThr := 0, absThr := 0, extraFrac := 1/2, simultaneous := false,
    people := [(1/2, 1/1000, .myopic), (1/2, 1/1000, .nonMyopic)], totalStake := 1 }

theorem C29_cip50_crashes : exec (initState cip50Zero) (.step 0 id) = .error .zeroDiv := by
  have key : (match exec (initState cip50Zero) (.step 0 id) with | .ok _ => none | .error e => some e) = some .zeroDiv := by decide +kernel
  cases h : exec (initState cip50Zero) (.step 0 id) with
  | ok s => rw [h] at key; cases key
  | error e => rw [h] at key; rw [Option.some.inj key]

/-! Hypotheses are met: the simulation of `Spec/Demo.lean`, with three open pools, and CIP-50 in its intended use. -/

example : SaneScheme (demo false) ∧ 1 ≤ (demo false).rs.k ∧ 0 < (demo false).rs.beta ∧ 0 ≤ (demo false).rs.a0 ∧ (∀ e ∈ (demo false).people, 0 < e.1) ∧
    ∃ s, ReachableSinglePhase (demo false) s ∧ s.pools.length = 3 := by
  refine ⟨(fun h => nomatch h), by decide, by decide +kernel, by decide +kernel, demo_stakes _, ?_⟩
  obtain ⟨s, hs, hv⟩ := demo_reachable
  exact ⟨s, hs, by simpa [demoView] using congrArg List.length hv⟩

example : SaneScheme { cip50Zero with rs := { cip50Zero.rs with a0 := 100 } } ∧ SaneScheme { cip50Zero with people := [(1/2, 1/1000, .nonMyopic)] } :=
  ⟨fun _ => Or.inl (by decide +kernel), fun _ => Or.inr ⟨by decide +kernel, by decide +kernel⟩⟩

end RSE.Props
