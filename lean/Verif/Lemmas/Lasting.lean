import Verif.Lemmas.Terms

/-!
# Properties of plans that last

A property of an agent's strategy that every plan has when it is made, and that survives that other agents close pools, holds for all strategies, current and
staged.
-/

set_option linter.unusedSectionVars false

namespace RSE

variable {F : Type} [LinearOrder F] [Zero F] [One F] [Add F] [Sub F] [Mul F] [Div F] [Neg F] [NatCast F] [FSum F]

/-- what becomes of a strategy does not spoil `Q` -/
def Lasting (Q : (Ref → Pool F) → Agent F → Strategy F → Prop) : Prop :=
  ∀ heap heap' ag ag' σ σ', Q heap ag σ → ag'.stake = ag.stake → ag'.cost = ag.cost → σ'.owned = σ.owned → List.Sublist σ'.allocs σ.allocs →
    (∀ r ∈ σ.owned.vals, EqTerms False (heap r) (heap' r)) → Q heap' ag' σ'

/-- every strategy, current or staged, has the property `Q` -/
def AllPlans (Q : (Ref → Pool F) → Agent F → Strategy F → Prop) (s : State F) : Prop :=
  ∀ b ag, s.agents.get? b = some ag → (∀ σ, ag.strategy = some σ → Q s.heap ag σ) ∧ (∀ ν, ag.newStrategy = some ν → Q s.heap ag ν)

theorem executed_plans {Q : (Ref → Pool F) → Agent F → Strategy F → Prop} (hQ : Lasting Q) {n : Nat} {s s' : State F} {me : Nat} {ν : Strategy F}
    (hex : Executed n s s' me ν) (ht : Thinned s s' me) (hν : ∀ ag, s.agents.get? me = some ag → ag.newStrategy = some ν) (h : AllPlans Q s) :
    AllPlans Q s' := by
  intro b ag' hb
  by_cases hbm : b = me
  · subst hbm
    obtain ⟨ag, h1, h2, h3⟩ := ht.mine ag' hb
    refine ⟨fun σ' hσ' => ?_, fun ν' hν' => by rw [h2] at hν'; cases hν'⟩
    obtain ⟨ν₁, h4, h5⟩ := h3 σ' hσ'
    have hsk := hex.mine
    rw [hb, h1] at hsk
    simp only [Option.map_some, Option.some.injEq, Agent.skel, Prod.mk.injEq, hσ'] at hsk
    have hνν : ν₁ = ν := by have := hν ag h1; rw [h4] at this; exact Option.some.inj this
    exact hQ _ _ _ _ _ _ ((h _ _ h1).2 ν₁ h4) hsk.2.1 hsk.2.2.1 (by rw [hνν]; exact hsk.2.2.2.2.1) h5 (fun r _ => (hex.same r).eqTerms _)
  · obtain ⟨ag, h1, h2⟩ := ht.others b ag' hbm hb
    have hsk := hex.others b hbm
    rw [hb, h1] at hsk
    simp only [Option.map_some, Option.some.injEq] at hsk
    obtain ⟨k1, k2, k3, k4⟩ := skel_terms hsk
    refine ⟨fun σ' hσ' => ?_, fun ν' hν' => ?_⟩
    · obtain ⟨σ, h3, h4⟩ := h2.strategy σ' hσ'
      rw [hσ', h3] at k3
      exact hQ _ _ _ _ _ _ ((h _ _ h1).1 σ h3) k1 k2 (Option.some.inj k3) h4 (fun r _ => (hex.same r).eqTerms _)
    · obtain ⟨σ, h3, h4⟩ := h2.staged ν' hν'
      rw [hν', h3] at k4
      exact hQ _ _ _ _ _ _ ((h _ _ h1).2 σ h3) k1 k2 (Option.some.inj k4) h4 (fun r _ => (hex.same r).eqTerms _)

theorem stepPlan_plans {Q : (Ref → Pool F) → Agent F → Strategy F → Prop} (hQ : Lasting Q) {n : Nat} {s s' s₁ : State F} {me : Nat} {ag : Agent F}
    {σ : Strategy F} {oν : Option (Strategy F)} (hpl : StepPlan n s s' me ag σ oν s₁) (hi : Inv n s) (ha : s.agents.get? me = some ag)
    (hnew : ∀ ν, oν = some ν → Q s₁.heap ag ν) (h : AllPlans Q s) : AllPlans Q s' := by
  have hid : ag.id = me := hi.core.agentId me ag ha
  have hheap : s'.heap = s₁.heap := by rw [hpl.eq]; rfl
  have hold : ∀ b ag', s.agents.get? b = some ag' → (∀ σ, ag'.strategy = some σ → Q s'.heap ag' σ) ∧ (∀ ν, ag'.newStrategy = some ν → Q s'.heap ag' ν) := by
    intro b ag' hb
    rw [hheap]
    obtain ⟨l1, l2⟩ := hi.owned_old hb
    exact ⟨fun σ' hσ' => hQ _ _ _ _ _ _ ((h b ag' hb).1 σ' hσ') rfl rfl rfl (List.Sublist.refl _)
        (fun r hr => (hpl.planned.same r (l1 σ' hσ' r hr)).eqTerms _),
      fun ν' hν' => hQ _ _ _ _ _ _ ((h b ag' hb).2 ν' hν') rfl rfl rfl (List.Sublist.refl _)
        (fun r hr => (hpl.planned.same r (l2 ν' hν' r hr)).eqTerms _)⟩
  intro b ag' hb
  rcases hpl.agent hid hb with ⟨-, rfl⟩ | ⟨-, hb⟩
  · refine ⟨fun σ' hσ' => ?_, fun ν hν => ?_⟩
    · exact hQ _ _ _ _ _ _ ((hold me ag ha).1 σ' hσ') rfl rfl rfl (List.Sublist.refl _) (fun r _ => (SamePool.refl _).eqTerms _)
    · have := hnew ν hν
      rw [← hheap] at this
      exact hQ _ _ _ _ _ _ this rfl rfl rfl (List.Sublist.refl _) (fun r _ => (SamePool.refl _).eqTerms _)
  · exact hold b ag' hb

theorem Did.plans {Q : (Ref → Pool F) → Agent F → Strategy F → Prop} (hQ : Lasting Q) {n m : Nat} {t : Prop} {s s' : State F} {ev : Event F}
    (hd : Did n t s ev s') (hi : Inv n s) (hv : ev.Valid m)
    (hnew : ∀ me ord ag σ s₁ ν, s.agents.get? me = some ag → ag.strategy = some σ → (∀ l, (ord l).Perm l) → planMove ord s ag σ = .ok (s₁, some ν) →
      Q s₁.heap ag ν) (h : AllPlans Q s) : AllPlans Q s' := by
  cases hd with
  | idle => exact h
  | plan me ord ag σ oν s₁ s' ha hp hσ hpm hpl =>
    exact stepPlan_plans hQ hpl hi ha (fun ν hν => by subst hν; exact hnew me ord ag σ s₁ ν ha hσ hv.2 hpm) h
  | move me ord ag σ ν s₁ s₂ s₃ ha hp hσ hpm hpl hsim ht hex hd =>
    have hid : ag.id = me := hi.core.agentId me ag ha
    have h2 := stepPlan_plans hQ hpl hi ha (fun ν' hν' => by cases hν'; exact hnew me ord ag σ s₁ ν ha hσ hv.2 hpm) h
    have h3 : AllPlans Q s₃ := executed_plans hQ hd (executed_thinned hpl.inv hex) (fun ag' hag' => by
      rw [hpl.eq, get?_setAgent (me := me) (ag := { ag with newStrategy := some ν }) hid me, if_pos rfl] at hag'
      cases hag'; rfl) h2
    exact h3
  | skip => exact h
  | adv me ord ag σ ν s₃ ha hσ hν hex hd =>
    have h3 : AllPlans Q s₃ := executed_plans hQ hd (executed_thinned hi hex) (fun ag' hag' => by rw [ha] at hag'; cases hag'; exact hν) h
    exact h3
  | phase p s' hp hc =>
    intro b ag hb
    rw [hp.agents] at hb
    have hh : ∀ r, EqTerms False (s.heap r) (s'.heap r) := by
      intro r
      rw [hp.heap r]
      split
      · exact ⟨rfl, rfl, rfl, fun h => h.elim⟩
      · exact ⟨rfl, rfl, rfl, fun _ => rfl⟩
    exact ⟨fun σ hσ => hQ _ _ _ _ _ _ ((h b ag hb).1 σ hσ) rfl rfl rfl (List.Sublist.refl _) (fun r _ => hh r),
      fun ν hν => hQ _ _ _ _ _ _ ((h b ag hb).2 ν hν) rfl rfl rfl (List.Sublist.refl _) (fun r _ => hh r)⟩
  | roundEnd => exact h

/-- the states that a run visits -/
def Visited (s : State F) (es : List (Event F)) (s₁ : State F) : Prop := ∃ es₁ es₂, es = es₁ ++ es₂ ∧ iterM exec s es₁ = .ok s₁

theorem run_plans (hmin : (0 : F) < minUnit) {c : Config F} {Q : (Ref → Pool F) → Agent F → Strategy F → Prop} (hQ : Lasting Q) {V : State F → Prop}
    (hnew : ∀ s, Reachable c s → V s → ∀ me ord ag σ s₁ ν, s.agents.get? me = some ag → ag.strategy = some σ → (∀ l, (ord l).Perm l) →
      planMove ord s ag σ = .ok (s₁, some ν) → Q s₁.heap ag ν) :
    ∀ (es : List (Event F)) {s s' : State F}, Reachable c s → AllPlans Q s → (∀ ev ∈ es, ev.Valid c.people.length) →
    (∀ s₁, Visited s es s₁ → V s₁) → iterM exec s es = .ok s' → AllPlans Q s'
  | [], s, s', _, h, _, _, he => by cases he; exact h
  | ev :: t, s, s', hr, h, hv, hV, he => by
    simp only [iterM, bind, Except.bind] at he
    cases h1 : exec s ev with
    | error e => rw [h1] at he; cases he
    | ok s₁ =>
      rw [h1] at he
      have hv1 := hv ev List.mem_cons_self
      have hg := hr.good hmin
      have hd := ((hg.exec hmin hv1).of_ok h1).1
      refine run_plans hmin hQ hnew t (hr.next hv1 h1) (hd.plans hQ hg.inv hv1 (hnew s hr (hV s ⟨[], ev :: t, rfl, rfl⟩)) h)
        (fun e he => hv e (List.mem_cons_of_mem _ he)) ?_ he
      rintro s₂ ⟨es₁, es₂, rfl, h2⟩
      exact hV s₂ ⟨ev :: es₁, es₂, rfl, by simp [iterM, bind, Except.bind, h1, h2]⟩

theorem init_plans {c : Config F} {Q : (Ref → Pool F) → Agent F → Strategy F → Prop} (hQ : ∀ heap b ag, (initState c).agents.get? b = some ag →
    Q heap ag { allocs := [], owned := [] }) : AllPlans Q (initState c) := by
  intro b ag hb
  obtain ⟨h1, h2⟩ := init_agent hb
  refine ⟨fun σ hσ => ?_, fun ν hν => by rw [h1] at hν; cases hν⟩
  obtain ⟨h3, h4⟩ := h2 σ hσ
  have : σ = { allocs := [], owned := [] } := by cases σ; simp_all
  rw [this]
  exact hQ _ b ag hb

end RSE
