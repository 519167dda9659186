import Verif.Lemmas.AllPools

/-!
# The intermediate results of planning; induction over single-phase simulations
-/

set_option linter.unusedSectionVars false

namespace RSE

variable {F : Type} [LinearOrder F] [Zero F] [One F] [Add F] [Sub F] [Mul F] [Div F] [Neg F] [NatCast F] [FSum F]

theorem bind_ok {α β : Type} {x : Py α} {f : α → Py β} {b : β} (h : (x >>= f) = .ok b) : ∃ a, x = .ok a ∧ f a = .ok b := by
  cases x with
  | error e => cases h
  | ok a => exact ⟨a, rfl, h⟩

/-- what `choose_pool_strategy` computes on the way -/
structure Chosen (ord : List Nat → List Nat) (s : State F) (me : Agent F) (σ : Strategy F) (s' : State F) (u : F) (τ : Strategy F)
    (m : Nat) (margins : List F) (s₁ : State F) (copies : Dict Ref) : Prop where
  search : searchPools (marginsAndUtility s me σ) (s.rs.k + 1) 1 s.rs.k = .ok (m, margins)
  keep : determinePoolsToKeep ord s σ m = .ok (s₁, copies)
  find : findOperatorMove s₁ me σ m copies margins = .ok (s', τ)
  utility : expectedUtility s' me σ τ = .ok u

theorem choosePoolStrategy_ok {ord : List Nat → List Nat} {s s' : State F} {me : Agent F} {σ τ : Strategy F} {u : F}
    (h : choosePoolStrategy ord s me σ = .ok (s', u, τ)) : ∃ m margins s₁ copies, Chosen ord s me σ s' u τ m margins s₁ copies := by
  unfold choosePoolStrategy at h
  obtain ⟨⟨m, margins⟩, h1, h⟩ := bind_ok h
  obtain ⟨⟨s₁, copies⟩, h2, h⟩ := bind_ok h
  obtain ⟨⟨s₂, τ'⟩, h3, h⟩ := bind_ok h
  obtain ⟨u', h4, h⟩ := bind_ok h
  cases h
  exact ⟨m, margins, s₁, copies, h1, h2, h3, h4⟩

/-- what `update_strategy` computes on the way -/
structure Planning (ord : List Nat → List Nat) (s : State F) (me : Agent F) (σ : Strategy F) (s' : State F) (oν : Option (Strategy F))
    (cur exp : F) (s₁ : State F) (δ : Strategy F) (du ou : F) (ω : Strategy F) : Prop where
  current : currentUtility s σ = .ok cur
  expected : expectedUtility s me σ σ = .ok exp
  delegate : findDelegationMove s me σ me.stake = .ok (s₁, δ)
  dutility : expectedUtility s₁ me σ δ = .ok du
  operate : choosePoolStrategy ord s₁ me σ = .ok (s', ou, ω)
  pick : oν = match pickMove (augmented s.relThr s.absThr cur exp) du ou with
    | .current => none
    | .delegator => some δ
    | .operator => some ω

theorem planMove_ok {ord : List Nat → List Nat} {s s' : State F} {me : Agent F} {σ : Strategy F} {oν : Option (Strategy F)}
    (h : planMove ord s me σ = .ok (s', oν)) : ∃ cur exp s₁ δ du ou ω, Planning ord s me σ s' oν cur exp s₁ δ du ou ω := by
  unfold planMove at h
  obtain ⟨cur, h1, h⟩ := bind_ok h
  obtain ⟨exp, h2, h⟩ := bind_ok h
  obtain ⟨⟨s₁, δ⟩, h3, h⟩ := bind_ok h
  obtain ⟨du, h4, h⟩ := bind_ok h
  obtain ⟨⟨s₂, ou, ω⟩, h5, h⟩ := bind_ok h
  cases h
  exact ⟨cur, exp, s₁, δ, du, ou, ω, h1, h2, h3, h4, h5, rfl⟩

/-- the parameters of the configuration are in force -/
structure Params (c : Config F) (s : State F) : Prop where
  rs : s.rs = c.rs
  relThr : s.relThr = c.relThr
  absThr : s.absThr = c.absThr
  extraFrac : s.extraFrac = c.extraFrac

theorem Did.params {c : Config F} {n : Nat} {t : Prop} {s s' : State F} {ev : Event F} (hd : Did n t s ev s') (hev : ∀ p, ev ≠ .phase p)
    (h : Params c s) : Params c s' := by
  have key : ∀ {me : Nat} {ag : Agent F} {σ : Strategy F} {oν : Option (Strategy F)} {s₁ s₂ : State F},
      StepPlan n s s₂ me ag σ oν s₁ → Params c s₂ := by
    intro me ag σ oν s₁ s₂ hpl
    rw [hpl.eq, hpl.planned.eq]
    exact ⟨h.rs, h.relThr, h.absThr, h.extraFrac⟩
  have key2 : ∀ {me : Nat} {ν : Strategy F} {s₂ s₃ : State F}, Params c s₂ → Executed n s₂ s₃ me ν → Params c s₃ := by
    intro me ν s₂ s₃ h2 hex
    rw [hex.frame]
    exact ⟨h2.rs, h2.relThr, h2.absThr, h2.extraFrac⟩
  cases hd with
  | idle => exact h
  | plan me ord ag σ oν s₁ s' ha hp hσ hpm hpl => exact key hpl
  | move me ord ag σ ν s₁ s₂ s₃ ha hp hσ hpm hpl hsim ht hex hd =>
    have := key2 (key hpl) hd
    exact ⟨this.rs, this.relThr, this.absThr, this.extraFrac⟩
  | skip => exact h
  | adv me ord ag σ ν s₃ ha hσ hν hex hd =>
    have := key2 h hd
    exact ⟨this.rs, this.relThr, this.absThr, this.extraFrac⟩
  | phase p => exact absurd rfl (hev p)
  | roundEnd => exact ⟨h.rs, h.relThr, h.absThr, h.extraFrac⟩

theorem ReachableSinglePhase.next {c : Config F} {s s' : State F} {ev : Event F} (h : ReachableSinglePhase c s) (hv : ev.Valid c.people.length)
    (hev : ∀ p, ev ≠ .phase p) (he : exec s ev = .ok s') : ReachableSinglePhase c s' := by
  obtain ⟨es, h1, h2⟩ := h
  refine ⟨es ++ [ev], ?_, ?_⟩
  · intro e he; rcases List.mem_append.1 he with he | he
    · exact h1 e he
    · simp at he; subst he; exact ⟨hv, hev⟩
  · rw [iterM_append, h2]; simp [Except.bind, iterM, he, bind]

/-- induction over the states of a single-phase simulation -/
theorem ReachableSinglePhase.induct (hmin : (0 : F) < minUnit) {c : Config F} {P : State F → Prop} (h0 : P (initState c))
    (hstep : ∀ s ev s', ReachableSinglePhase c s → Good c s → Good c s' → Params c s → P s → ev.Valid c.people.length → (∀ p, ev ≠ .phase p) →
      exec s ev = .ok s' → Did (c.rs.k + 1) (c.simultaneous = false) s ev s' → P s')
    {s : State F} (h : ReachableSinglePhase c s) : P s := by
  obtain ⟨es, hv, he⟩ := h
  refine (iterM_induct (P := fun s => ReachableSinglePhase c s ∧ Params c s ∧ P s) (V := fun ev => Event.Valid c.people.length ev ∧ ∀ p, ev ≠ .phase p) ?_
    ⟨⟨[], by simp, rfl⟩, ⟨rfl, rfl, rfl, rfl⟩, h0⟩ hv he).2.2
  rintro s ev s' ⟨hr, hpar, hp⟩ ⟨hv, hev⟩ he
  have hg := (Reachable.of_single hr).good hmin
  have := hg.exec hmin hv
  rw [he] at this
  have hr' := hr.next hv hev he
  exact ⟨hr', this.1.params hev hpar, hstep s ev s' hr hg this.2 hpar hp hv hev he this.1⟩

theorem ReachableSinglePhase.params (hmin : (0 : F) < minUnit) {c : Config F} {s : State F} (h : ReachableSinglePhase c s) : Params c s :=
  ReachableSinglePhase.induct hmin (P := Params c) ⟨rfl, rfl, rfl, rfl⟩ (fun _ _ _ _ _ _ _ hp _ hev _ hd => hd.params hev hp) h

/-- the stake and cost of an agent never change -/
theorem Good.person {c : Config F} {s : State F} (h : Good c s) {b : Nat} {ag : Agent F} (ha : s.agents.get? b = some ag) :
    c.people[b]? = some (ag.stake, ag.cost, ag.profile) := by
  have h1 := h.fixed.agents b
  rw [ha] at h1
  cases h0 : (initState c).agents.get? b with
  | none => rw [h0] at h1; cases h1
  | some ag₀ =>
    rw [h0] at h1
    have hm := Dict.mem_of_get? h0
    obtain ⟨e, he, hee⟩ := List.mem_map.1 hm
    obtain ⟨⟨st, co, pr⟩, i⟩ := e
    simp only [Prod.mk.injEq] at hee
    obtain ⟨rfl, hee⟩ := hee
    have hx := List.mk_mem_zipIdx_iff_getElem?.1 he
    rw [hx]
    rw [← hee] at h1
    simp only [newAgent, Agent.fixed, Option.map_some, Option.some.injEq, Prod.mk.injEq] at h1
    simp [h1]

end RSE
