import Verif.Lemmas.Thin

/-!
# Predicates on pools and on allocations that hold in all reachable states
-/

set_option linter.unusedSectionVars false

namespace RSE

variable {F : Type} [LinearOrder F] [Zero F] [One F] [Add F] [Sub F] [Mul F] [Div F] [Neg F] [NatCast F] [FSum F]

theorem Reachable.of_single {c : Config F} {s : State F} (h : ReachableSinglePhase c s) : Reachable c s := by
  obtain ⟨es, h1, h2⟩ := h
  exact ⟨es, fun e he => (h1 e he).1, h2⟩

theorem Reachable.init (c : Config F) : Reachable c (initState c) := ⟨[], by simp, rfl⟩

/-- `Reachable.induct` with the knowledge that the states are reachable -/
theorem Reachable.induct' (hmin : (0 : F) < minUnit) {c : Config F} {P : State F → Prop} (h0 : P (initState c))
    (hstep : ∀ s ev s', Reachable c s → Good c s → Good c s' → P s → ev.Valid c.people.length → exec s ev = .ok s' →
      Did (c.rs.k + 1) (c.simultaneous = false) s ev s' → P s')
    {s : State F} (h : Reachable c s) : P s :=
  (Reachable.induct (P := fun s => Reachable c s ∧ P s) hmin ⟨Reachable.init c, h0⟩
    (fun s ev s' hg hg' hp hv he hd => ⟨hp.1.next hv he, hstep s ev s' hp.1 hg hg' hp.2 hv he hd⟩) h).2

/-- no allocation, current or staged, is below one unit -/
def Agent.AllocsMin (ag : Agent F) : Prop :=
  (∀ σ, ag.strategy = some σ → ∀ e ∈ σ.allocs, minUnit ≤ e.2) ∧ (∀ ν, ag.newStrategy = some ν → ∀ e ∈ ν.allocs, minUnit ≤ e.2)

theorem Agent.AllocsMin.thinner {ag ag' : Agent F} (h : ag.AllocsMin) (ht : Thinner ag ag') : ag'.AllocsMin := by
  refine ⟨fun σ' hσ' e he => ?_, fun ν' hν' e he => ?_⟩
  · obtain ⟨σ, h1, h2⟩ := ht.strategy σ' hσ'
    exact h.1 σ h1 e (h2.subset he)
  · obtain ⟨σ, h1, h2⟩ := ht.staged ν' hν'
    exact h.2 σ h1 e (h2.subset he)

def AllocsMin (s : State F) : Prop := ∀ b ag, s.agents.get? b = some ag → ag.AllocsMin

theorem Thinned.allocsMin {s s' : State F} {me : Nat} (h : Thinned s s' me) (hm : AllocsMin s) : AllocsMin s' := by
  intro b ag' hb
  by_cases hbm : b = me
  · subst hbm
    obtain ⟨ag, h1, h2, h3⟩ := h.mine ag' hb
    refine ⟨fun σ' hσ' e he => ?_, fun ν' hν' => by rw [h2] at hν'; cases hν'⟩
    obtain ⟨ν, h4, h5⟩ := h3 σ' hσ'
    exact (hm _ _ h1).2 ν h4 e (h5.subset he)
  · obtain ⟨ag, h1, h2⟩ := h.others b ag' hbm hb
    exact (hm _ _ h1).thinner h2

theorem executed_thinned {n : Nat} {s s' : State F} (h : Inv n s) {ord : List Nat → List Nat} {me : Nat} (he : executeStrategy ord s me = .ok s') :
    Thinned s s' me := (executeStrategy_thin h.core.agentId ord me).of_ok he

theorem StepPlan.agent {n : Nat} {s s' s₁ : State F} {me : Nat} {ag : Agent F} {σ : Strategy F} {oν : Option (Strategy F)} (h : StepPlan n s s' me ag σ oν s₁)
    (hid : ag.id = me) {b : Nat} {ag' : Agent F} (hb : s'.agents.get? b = some ag') :
    (b = me ∧ ag' = { ag with newStrategy := oν }) ∨ (b ≠ me ∧ s.agents.get? b = some ag') := by
  rw [h.eq, get?_setAgent (me := me) (ag := { ag with newStrategy := oν }) hid b, h.planned.agents] at hb
  split at hb
  · rename_i hbm; cases hb; exact Or.inl ⟨hbm, rfl⟩
  · rename_i hbm; exact Or.inr ⟨hbm, hb⟩

theorem StepPlan.allocsMin {n : Nat} {s s' s₁ : State F} {me : Nat} {ag : Agent F} {σ : Strategy F} {oν : Option (Strategy F)} (h : StepPlan n s s' me ag σ oν s₁)
    (hid : ag.id = me) (ha : s.agents.get? me = some ag) (hm : AllocsMin s) : AllocsMin s' := by
  intro b ag' hb
  rcases h.agent hid hb with ⟨-, rfl⟩ | ⟨-, hb⟩
  · refine ⟨(hm _ _ ha).1, fun ν hν e he => ?_⟩
    have hg := (h.new ν hν).allocs
    exact (hg.good e.1 e.2 (Dict.get?_of_mem hg.nodup he)).1
  · exact hm _ _ hb

theorem Did.allocsMin {n : Nat} {t : Prop} {s s' : State F} {ev : Event F} (hd : Did n t s ev s') (h : Inv n s) (hm : AllocsMin s) : AllocsMin s' := by
  cases hd with
  | idle => exact hm
  | plan me ord ag σ oν s₁ s' ha hp hσ hpm hpl => exact hpl.allocsMin (h.core.agentId me ag ha) ha hm
  | move me ord ag σ ν s₁ s₂ s₃ ha hp hσ hpm hpl hsim ht hex hd =>
    exact (executed_thinned hpl.inv hex).allocsMin (hpl.allocsMin (h.core.agentId me ag ha) ha hm)
  | skip => exact hm
  | adv me ord ag σ ν s₃ ha hσ hν hex hd => exact (executed_thinned h hex).allocsMin hm
  | phase p s' hp hc =>
    intro b ag hb
    rw [hp.agents] at hb
    exact hm b ag hb
  | roundEnd => exact hm

theorem init_agent {c : Config F} {b : Nat} {ag : Agent F} (h : (initState c).agents.get? b = some ag) :
    ag.newStrategy = none ∧ ∀ σ, ag.strategy = some σ → σ.allocs = [] ∧ σ.owned = [] := by
  have hm := Dict.mem_of_get? h
  obtain ⟨e, -, he⟩ := List.mem_map.1 hm
  simp only [Prod.mk.injEq] at he
  rw [← he.2]
  refine ⟨rfl, ?_⟩
  unfold newAgent
  simp only
  intro σ hσ
  split at hσ
  · cases hσ
  · cases hσ; exact ⟨rfl, rfl⟩

theorem init_allocsMin (c : Config F) : AllocsMin (initState c) := by
  intro b ag hb
  obtain ⟨h1, h2⟩ := init_agent hb
  refine ⟨fun σ hσ e he => ?_, fun ν hν => by rw [h1] at hν; cases hν⟩
  rw [(h2 σ hσ).1] at he; cases he

theorem Reachable.allocsMin (hmin : (0 : F) < minUnit) {c : Config F} {s : State F} (h : Reachable c s) : AllocsMin s :=
  Reachable.induct hmin (init_allocsMin c) (fun _ _ _ hg _ hp _ _ hd => hd.allocsMin hg.inv hp) h

/-- the decisions of the agents of a simulation are good for `P` -/
def SimDecides (c : Config F) (P : Pool F → Prop) : Prop :=
  ∀ (s s₁ : State F) (me : Nat) (ag : Agent F) (σ : Strategy F), Reachable c s → s.agents.get? me = some ag → ag.strategy = some σ →
    Core (c.rs.k + 1) s₁ → AllPools P s₁ → Planned me σ.allocs.keys s s₁ → DecidesAt P s₁ ag σ

theorem Reachable.allPools (hmin : (0 : F) < minUnit) {c : Config F} {P : Pool F → Prop} (hu : UpdOK P) (h0 : P (blankPool c.people.length))
    (hre : ∀ rs p, P p → P (p.reeval rs)) (hdec : SimDecides c P) {s : State F} (h : Reachable c s) : AllPools P s := by
  refine (Reachable.induct' (P := fun s => AllocsMin s ∧ AllPools P s) hmin ⟨init_allocsMin c, fun _ => h0⟩ ?_ h).2
  rintro s ev s' hrc hg hg' ⟨hm, hp⟩ hv he hd
  refine ⟨hd.allocsMin hg.inv hm, ?_⟩
  have hplan : ∀ me ord ag σ oν s₁, (∀ l, (ord l).Perm l) → s.agents.get? me = some ag → ag.strategy = some σ →
      planMove ord s ag σ = .ok (s₁, oν) → AllPools P s₁ := by
    intro me ord ag σ oν s₁ hord ha hσ hpm
    have hid : ag.id = me := hg.inv.core.agentId me ag ha
    have ht := hg.inv.tidy me ag ha
    refine (planMove_all hu hg.inv.core hp hord ag (ht.allocs _ hσ) (ht.owned _ hσ) (fun pid r hr => (hg.inv.owned ha hσ hr).1)
      (fun e he => Or.inr ((hm me ag ha).1 σ hσ e he)) ?_).of_ok hpm
    intro s₂ hc2 ha2 hp2
    rw [hid] at hp2
    exact hdec s s₂ me ag σ hrc ha hσ hc2 ha2 hp2
  cases hd with
  | idle => exact hp
  | plan me ord ag σ oν s₁ s' ha hpr hσ hpm hpl =>
    rw [hpl.eq]
    exact hplan me ord ag σ oν s₁ hv.2 ha hσ hpm
  | move me ord ag σ ν s₁ s₂ s₃ ha hpr hσ hpm hpl hsim ht hex hd =>
    have hid : ag.id = me := hg.inv.core.agentId me ag ha
    have h2 : AllPools P s₂ := by rw [hpl.eq]; exact hplan me ord ag σ _ s₁ hv.2 ha hσ hpm
    have ha2 : s₂.agents.get? me = some { ag with newStrategy := some ν } := by
      rw [hpl.eq, get?_setAgent (me := me) (ag := { ag with newStrategy := some ν }) hid me, if_pos rfl]
    have h3 : AllPools P s₃ := (executeStrategy_all hu h2 ord ha2 (fun ν' hν' e he =>
      Or.inr ((hpl.allocsMin hid ha hm me _ ha2).2 ν' hν' e he))).of_ok hex
    exact h3
  | skip => exact hp
  | adv me ord ag σ ν s₃ ha hσ hν hex hd =>
    have h3 : AllPools P s₃ := (executeStrategy_all hu hp ord ha (fun ν' hν' e he => Or.inr ((hm me ag ha).2 ν' hν' e he))).of_ok hex
    exact h3
  | phase p s' hph hc =>
    intro r
    rw [hph.heap r]
    split
    · exact hre _ _ (hp r)
    · exact hp r
  | roundEnd => exact hp

end RSE
