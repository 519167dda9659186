import Verif.Lemmas.HeapPred

/-!
# Executing a strategy only ever removes entries from the allocations of the other agents
-/

set_option linter.unusedSectionVars false

namespace RSE

variable {F : Type} [LinearOrder F] [Zero F] [One F] [Add F] [Sub F] [Mul F] [Div F] [Neg F] [NatCast F] [FSum F]

theorem Dict.erase_sublist {V : Type} (d : Dict V) (k : Nat) : List.Sublist (d.erase k) d := by
  induction d with
  | nil => exact List.Sublist.refl _
  | cons e t ih =>
    obtain ⟨k', v⟩ := e
    simp only [Dict.erase]
    split
    · exact List.sublist_cons_self _ _
    · exact ih.cons_cons _

theorem Dict.popE_sublist {V : Type} {d d' : Dict V} {k : Nat} (h : d.popE k = .ok d') : List.Sublist d' d := by
  unfold Dict.popE at h
  cases hg : d.get? k with
  | none => rw [hg] at h; cases h
  | some v => rw [hg] at h; cases h; exact Dict.erase_sublist d k

/-- `ag'` has the delegations of `ag` or fewer -/
structure Thinner (ag ag' : Agent F) : Prop where
  strategy : ∀ σ', ag'.strategy = some σ' → ∃ σ, ag.strategy = some σ ∧ List.Sublist σ'.allocs σ.allocs
  staged : ∀ ν', ag'.newStrategy = some ν' → ∃ ν, ag.newStrategy = some ν ∧ List.Sublist ν'.allocs ν.allocs

theorem Thinner.refl (ag : Agent F) : Thinner ag ag := ⟨fun σ h => ⟨σ, h, List.Sublist.refl _⟩, fun σ h => ⟨σ, h, List.Sublist.refl _⟩⟩
theorem Thinner.trans {a b c : Agent F} (h : Thinner a b) (g : Thinner b c) : Thinner a c := by
  refine ⟨fun σ hσ => ?_, fun σ hσ => ?_⟩
  · obtain ⟨σ₁, h1, h2⟩ := g.strategy σ hσ
    obtain ⟨σ₂, h3, h4⟩ := h.strategy σ₁ h1
    exact ⟨σ₂, h3, h2.trans h4⟩
  · obtain ⟨σ₁, h1, h2⟩ := g.staged σ hσ
    obtain ⟨σ₂, h3, h4⟩ := h.staged σ₁ h1
    exact ⟨σ₂, h3, h2.trans h4⟩

/-- agents are stored under their ids, and have the delegations of `s` or fewer -/
structure Thin (s s' : State F) : Prop where
  ids : ∀ b ag, s'.agents.get? b = some ag → ag.id = b
  thin : ∀ b ag', s'.agents.get? b = some ag' → ∃ ag, s.agents.get? b = some ag ∧ Thinner ag ag'

theorem Thin.of_agents {s s₁ s₂ : State F} (h : Thin s s₁) (he : s₂.agents = s₁.agents) : Thin s s₂ :=
  ⟨fun b ag hb => h.ids b ag (by rw [← he]; exact hb), fun b ag hb => h.thin b ag (by rw [← he]; exact hb)⟩

theorem setDelegations_agents (a : Nat) : ∀ (l : List (Nat × F)) (s : State F), Sat AnyErr (setDelegations s a l) (fun s' => s'.agents = s.agents)
  | [], s => rfl
  | (pid, x) :: t, s => by
    unfold setDelegations
    refine Sat.bind (P := fun s' : State F => s'.agents = s.agents) ?_ (fun s₁ h₁ => ?_)
    · unfold setDelegation
      refine Sat.bind (P := fun _ => True) (Sat.any fun _ _ => trivial) (fun r _ => ?_)
      exact Sat.bind (P := fun _ => True) (Sat.any fun _ _ => trivial) (fun l _ => rfl)
    · exact (setDelegations_agents a t s₁).imp (fun s' h => h.trans h₁)

theorem undelegateAll_thin {s₀ : State F} (r : Ref) : ∀ (l : List Nat) {s : State F}, Thin s₀ s → Sat AnyErr (undelegateAll s r l) (Thin s₀)
  | [], s, h => h
  | aid :: t, s, h => by
    unfold undelegateAll
    refine Sat.bind (P := fun a => s.agents.get? aid = some a) (Sat.any fun a ha => Dict.getE_ok.1 ha) (fun a ha => ?_)
    cases hσ : a.strategy with
    | none => trivial
    | some σ =>
      simp only
      refine Sat.bind (P := fun al => List.Sublist al σ.allocs) (Sat.any fun al hal => Dict.popE_sublist hal) (fun al hal => ?_)
      apply undelegateAll_thin r t
      have hid := h.ids _ _ ha
      refine Thin.of_agents (s₁ := s.setAgent { a with strategy := some { σ with allocs := al } }) ?_ rfl
      have hget := fun b => get?_setAgent (s := s) (me := aid) (ag := { a with strategy := some { σ with allocs := al } }) hid b
      refine ⟨fun b ag hb => ?_, fun b ag hb => ?_⟩
      · rw [hget] at hb
        split at hb
        · rename_i he; cases hb; subst he; exact hid
        · exact h.ids _ _ hb
      · rw [hget] at hb
        split at hb
        · rename_i he; cases hb; subst he
          obtain ⟨ag₀, h1, h2⟩ := h.thin _ _ ha
          refine ⟨ag₀, h1, h2.trans ⟨?_, fun ν hν => ⟨ν, hν, List.Sublist.refl _⟩⟩⟩
          intro σ' hσ'
          simp only [Option.some.injEq] at hσ'
          subst hσ'
          exact ⟨σ, hσ, hal⟩
        · exact h.thin _ _ hb

theorem unstage_thinner (pid : Nat) (ag : Agent F) : Thinner ag (unstage pid ag) := by
  refine ⟨fun σ hσ => ⟨σ, hσ, List.Sublist.refl _⟩, fun ν' hν' => ?_⟩
  unfold unstage at hν'
  simp only [Option.map_eq_some_iff] at hν'
  obtain ⟨ν, h1, h2⟩ := hν'
  subst h2
  exact ⟨ν, h1, Dict.erase_sublist _ _⟩

theorem removeDelegations_thin {s₀ : State F} (r : Ref) {s : State F} (h : Thin s₀ s) : Sat AnyErr (removeDelegations s r) (Thin s₀) := by
  unfold removeDelegations
  refine Sat.bind (undelegateAll_thin r _ h) (fun s₁ h₁ => ?_)
  split
  · refine ⟨fun b ag hb => ?_, fun b ag hb => ?_⟩
    · simp only at hb
      rw [Dict.get?_map_snd s₁.agents (fun _ v => unstage (s₁.heap r).id v)] at hb
      obtain ⟨ag₁, h2, rfl⟩ := Option.map_eq_some_iff.1 hb
      exact (h₁.ids b ag₁ h2 : ag₁.id = b)
    · simp only at hb
      rw [Dict.get?_map_snd s₁.agents (fun _ v => unstage (s₁.heap r).id v)] at hb
      obtain ⟨ag₁, h2, rfl⟩ := Option.map_eq_some_iff.1 hb
      obtain ⟨ag₀, h3, h4⟩ := h₁.thin _ _ h2
      exact ⟨ag₀, h3, h4.trans (unstage_thinner _ _)⟩
  · exact h₁

theorem closePool_thin {s₀ : State F} (pid : Nat) {s : State F} (h : Thin s₀ s) : Sat AnyErr (closePool s pid) (Thin s₀) := by
  unfold closePool
  refine Sat.bind (P := fun _ => True) (Sat.any fun _ _ => trivial) (fun r _ => ?_)
  refine Sat.bind (P := fun _ => True) (Sat.any fun _ _ => trivial) (fun l _ => ?_)
  refine Sat.bind (P := fun _ => True) (Sat.any fun _ _ => trivial) (fun lm _ => ?_)
  refine Sat.bind (removeDelegations_thin r (s := { s with rank := l, rankM := lm }) (h.of_agents rfl)) (fun s₁ h₁ => ?_)
  exact Sat.bind (P := fun _ => True) (Sat.any fun _ _ => trivial) (fun _ _ => h₁.of_agents rfl)

theorem updatePool_thin {s₀ : State F} (aid pid : Nat) {s : State F} (h : Thin s₀ s) : Sat AnyErr (updatePool s aid pid) (Thin s₀) := by
  unfold updatePool
  refine Sat.bind (P := fun _ => True) (Sat.any fun _ _ => trivial) (fun me _ => ?_)
  cases me.newStrategy with
  | none => trivial
  | some ν =>
    simp only
    refine Sat.bind (P := fun _ => True) (Sat.any fun _ _ => trivial) (fun r' _ => ?_)
    refine Sat.bind (P := Thin s₀) ?_ (fun s₁ h₁ => ?_)
    · split
      · exact removeDelegations_thin r' h
      · exact h
    · refine Sat.bind (P := fun _ => True) (Sat.any fun _ _ => trivial) (fun me _ => ?_)
      cases me.strategy with
      | none => trivial
      | some σ =>
        simp only
        refine Sat.bind (P := fun _ => True) (Sat.any fun _ _ => trivial) (fun r _ => ?_)
        refine Sat.bind (P := fun _ => True) (Sat.any fun _ _ => trivial) (fun l _ => ?_)
        exact Sat.bind (P := fun _ => True) (Sat.any fun _ _ => trivial) (fun lm _ => h₁.of_agents rfl)

/-- what `execute_strategy` of agent `me` leaves of everybody's allocations -/
structure Thinned (s s' : State F) (me : Nat) : Prop where
  others : ∀ b ag', b ≠ me → s'.agents.get? b = some ag' → ∃ ag, s.agents.get? b = some ag ∧ Thinner ag ag'
  mine : ∀ ag', s'.agents.get? me = some ag' → ∃ ag, s.agents.get? me = some ag ∧ ag'.newStrategy = none ∧
    ∀ σ', ag'.strategy = some σ' → ∃ ν, ag.newStrategy = some ν ∧ List.Sublist σ'.allocs ν.allocs

theorem executeStrategy_thin {s : State F} (hids : ∀ b ag, s.agents.get? b = some ag → ag.id = b) (ord : List Nat → List Nat) (aid : Nat) :
    Sat AnyErr (executeStrategy ord s aid) (fun s' => Thinned s s' aid) := by
  have h0 : Thin s s := ⟨hids, fun b ag hb => ⟨ag, hb, Thinner.refl _⟩⟩
  unfold executeStrategy
  refine Sat.bind (P := fun a => s.agents.get? aid = some a) (Sat.any fun a ha => Dict.getE_ok.1 ha) (fun me ha => ?_)
  cases hs : me.strategy with
  | none => trivial
  | some σ =>
    cases hn : me.newStrategy with
    | none => trivial
    | some ν =>
      simp only
      refine Sat.bind (setDelegations_agents aid _ s) (fun s₁ h₁ => ?_)
      refine Sat.bind (setDelegations_agents aid _ s₁) (fun s₂ h₂ => ?_)
      refine Sat.bind (iterM_all (Q := Thin s) (fun s pid hs => closePool_thin pid hs) _ (h0.of_agents (h₂.trans h₁))) (fun s₃ h₃ => ?_)
      refine Sat.bind (iterM_all (Q := Thin s) (fun s pid hs => updatePool_thin aid pid hs) _ h₃) (fun s₄ h₄ => ?_)
      refine Sat.bind (P := fun a => s₄.agents.get? aid = some a) (Sat.any fun a ha => Dict.getE_ok.1 ha) (fun me' ha' => ?_)
      have hid := h₄.ids _ _ ha'
      have hget := fun b => get?_setAgent (s := s₄) (me := aid) (ag := { me' with strategy := me'.newStrategy, newStrategy := none }) hid b
      have hfin : Thinned s (s₄.setAgent { me' with strategy := me'.newStrategy, newStrategy := none }) aid := by
        refine ⟨fun b ag' hne hb => ?_, fun ag' hb => ?_⟩
        · rw [hget, if_neg hne] at hb
          exact h₄.thin _ _ hb
        · rw [hget, if_pos rfl] at hb
          cases hb
          obtain ⟨ag, h5, h6⟩ := h₄.thin _ _ ha'
          exact ⟨ag, h5, rfl, fun σ' hσ' => h6.staged σ' hσ'⟩
      refine iterM_all (Q := fun s' => Thinned s s' aid) (fun s₅ pid h₅ => ?_) _ (s := s₄.setAgent _) hfin
      unfold openPool
      refine Sat.bind (P := fun _ => True) (Sat.any fun _ _ => trivial) (fun me _ => ?_)
      cases me.strategy with
      | none => trivial
      | some σ =>
        simp only
        exact Sat.bind (P := fun _ => True) (Sat.any fun _ _ => trivial) (fun r _ => ⟨h₅.others, h₅.mine⟩)

end RSE
