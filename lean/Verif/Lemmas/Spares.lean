import Verif.Lemmas.HeapPred

/-!
# What carrying out a strategy leaves alone

Whatever the state of the books, carrying out the strategy of agent `me` changes delegations of other agents only at pools that `me` closes or
turns into private ones.
-/

set_option linter.unusedSectionVars false

namespace RSE

variable {F : Type} [LinearOrder F] [Zero F] [One F] [Add F] [Sub F] [Mul F] [Div F] [Neg F] [NatCast F] [FSum F]

/-- keys are ids -/
structure Keyed (me : Nat) (s : State F) : Prop where
  agents : ∀ b ag, s.agents.get? b = some ag → ag.id = b
  nodup : s.pools.keys.Nodup
  pools : ∀ pid r, s.pools.get? pid = some r → (s.heap r).id = pid
  drafts : ∀ pid r, stgOf s me pid = some r → (s.heap r).id = pid

/-- the state `s'` differs from `s`, for agents other than `me`, only at the pools in `P`; delegations of `me` may also differ at the objects in `T` -/
structure Spares (me : Nat) (T : Ref → Prop) (P : Nat → Prop) (s s' : State F) : Prop where
  alloc : ∀ b, b ≠ me → ∀ pid, ¬ P pid → allocOf s' b pid = allocOf s b pid
  plan : ∀ b pid, ¬ P pid → newOf s' b pid = newOf s b pid
  draft : ∀ b pid, stgOf s' b pid = stgOf s b pid
  del : ∀ r b, b ≠ me ∨ ¬ T r → ¬ P (s.heap r).id → (s'.heap r).delegators.get? b = (s.heap r).delegators.get? b
  id : ∀ r, (s'.heap r).id = (s.heap r).id
  priv : ∀ r, (s'.heap r).isPrivate = (s.heap r).isPrivate

theorem Spares.refl (me : Nat) (T : Ref → Prop) (P : Nat → Prop) (s : State F) : Spares me T P s s :=
  ⟨fun _ _ _ _ => rfl, fun _ _ _ => rfl, fun _ _ => rfl, fun _ _ _ _ => rfl, fun _ => rfl, fun _ => rfl⟩

theorem Spares.trans {me : Nat} {T : Ref → Prop} {P : Nat → Prop} {s s₁ s₂ : State F} (h : Spares me T P s s₁) (g : Spares me T P s₁ s₂) : Spares me T P s s₂ :=
  ⟨fun b hb p hp => (g.alloc b hb p hp).trans (h.alloc b hb p hp), fun b p hp => (g.plan b p hp).trans (h.plan b p hp),
    fun b p => (g.draft b p).trans (h.draft b p),
    fun r b hb hp => (g.del r b hb (by rw [h.id]; exact hp)).trans (h.del r b hb hp), fun r => (g.id r).trans (h.id r), fun r => (g.priv r).trans (h.priv r)⟩

theorem Spares.mono {me : Nat} {T : Ref → Prop} {P Q : Nat → Prop} {s s' : State F} (h : Spares me T P s s') (hpq : ∀ p, P p → Q p) : Spares me T Q s s' :=
  ⟨fun b hb p hp => h.alloc b hb p (fun k => hp (hpq p k)), fun b p hp => h.plan b p (fun k => hp (hpq p k)), h.draft,
    fun r b hb hp => h.del r b hb (fun k => hp (hpq _ k)), h.id, h.priv⟩

/-- only pools, rankings and the like have changed -/
theorem Spares.same {me : Nat} {T : Ref → Prop} {P : Nat → Prop} {s s' : State F} (ha : s'.agents = s.agents) (hh : s'.heap = s.heap) : Spares me T P s s' := by
  refine ⟨fun b _ p _ => ?_, fun b p _ => ?_, fun b p => ?_, fun r b _ _ => ?_, fun r => ?_, fun r => ?_⟩
  · unfold allocOf; rw [ha]
  · unfold newOf; rw [ha]
  · unfold stgOf; rw [ha]
  all_goals rw [hh]

theorem heap_setPool (s : State F) (r r' : Ref) (p : Pool F) : (s.setPool r p).heap r' = if r' = r then p else s.heap r' := by
  unfold State.setPool
  simp only [Function.update_apply]

theorem setPool_spares {me : Nat} {T : Ref → Prop} {P : Nat → Prop} {s : State F} (h : Keyed me s) {r : Ref} (x : F) {a : Nat} (ha : (a = me ∧ T r) ∨ P (s.heap r).id) :
    Spares me T P s (s.setPool r ((s.heap r).updateDelegation x a)) ∧ Keyed me (s.setPool r ((s.heap r).updateDelegation x a)) := by
  have hid : ∀ r', ((s.setPool r ((s.heap r).updateDelegation x a)).heap r').id = (s.heap r').id := by
    intro r'; rw [heap_setPool]; split
    · rename_i e; subst e; rfl
    · rfl
  have hpr : ∀ r', ((s.setPool r ((s.heap r).updateDelegation x a)).heap r').isPrivate = (s.heap r').isPrivate := by
    intro r'; rw [heap_setPool]; split
    · rename_i e; subst e; rfl
    · rfl
  refine ⟨⟨fun _ _ _ _ => rfl, fun _ _ _ => rfl, fun _ _ => rfl, fun r' b hb hp => ?_, hid, hpr⟩,
    h.agents, h.nodup, fun p r' hp => by rw [hid]; exact h.pools p r' hp, fun p r' hp => by rw [hid]; exact h.drafts p r' hp⟩
  rw [heap_setPool]
  split
  · rename_i e; subst e
    rcases ha with ⟨rfl, hT⟩ | ha
    · exact get?_updateDelegation_ne _ _ (hb.resolve_right (fun h => h hT)).symm
    · exact absurd ha hp
  · rfl

theorem setDelegations_spares {me : Nat} {T : Ref → Prop} {P : Nat → Prop} : ∀ (l : List (Nat × F)) {s : State F}, Keyed me s → (∀ pid r, s.pools.get? pid = some r → T r) →
    Sat AnyErr (setDelegations s me l) (fun s' => Spares me T P s s' ∧ Keyed me s' ∧ s'.pools = s.pools)
  | [], s, h, _ => ⟨.refl _ _ _ _, h, rfl⟩
  | (pid, x) :: t, s, h, hT => by
    unfold setDelegations
    refine Sat.bind (P := fun s' => Spares me T P s s' ∧ Keyed me s' ∧ s'.pools = s.pools) ?_ (fun s₁ h₁ => ?_)
    · unfold setDelegation
      refine Sat.bind (P := fun r => s.pools.get? pid = some r) (Sat.any fun a ha => Dict.getE_ok.1 ha) (fun r hr => ?_)
      refine Sat.bind (P := fun _ => True) (Sat.any fun _ _ => trivial) (fun l _ => ?_)
      obtain ⟨k1, k2⟩ := setPool_spares (T := T) (P := P) h (r := r) x (a := me) (Or.inl ⟨rfl, hT pid r hr⟩)
      exact ⟨k1.trans (.same rfl rfl), ⟨k2.agents, k2.nodup, k2.pools, k2.drafts⟩, rfl⟩
    · exact (setDelegations_spares t h₁.2.1 (by rw [h₁.2.2]; exact hT)).imp (fun s' h' => ⟨h₁.1.trans h'.1, h'.2.1, h'.2.2.trans h₁.2.2⟩)

/-- taking back the delegation of one agent -/
theorem dropAgent_spares {me : Nat} {T : Ref → Prop} {P : Nat → Prop} {s : State F} (h : Keyed me s) {aid : Nat} {a : Agent F} (ha : s.agents.get? aid = some a)
    {σ : Strategy F} (hσ : a.strategy = some σ) {pid : Nat} (hP : P pid) {allocs : Dict F} (hal : σ.allocs.popE pid = .ok allocs) :
    Spares me T P s (s.setAgent { a with strategy := some { σ with allocs := allocs } }) ∧
      Keyed me (s.setAgent { a with strategy := some { σ with allocs := allocs } }) := by
  have hid := h.agents aid a ha
  have hget : ∀ b, (s.setAgent { a with strategy := some { σ with allocs := allocs } }).agents.get? b =
      if b = aid then some { a with strategy := some { σ with allocs := allocs } } else s.agents.get? b := fun b => get?_setAgent (me := aid) (ag := { a with strategy := some { σ with allocs := allocs } }) hid b
  have hstg : ∀ b p, stgOf (s.setAgent { a with strategy := some { σ with allocs := allocs } }) b p = stgOf s b p := by
    intro b p
    unfold stgOf
    rw [hget]
    by_cases hb : b = aid
    · subst hb; rw [if_pos rfl, ha]; rfl
    · rw [if_neg hb]
  refine ⟨⟨fun b _ p hp => ?_, fun b p _ => ?_, hstg, fun _ _ _ _ => rfl, fun _ => rfl, fun _ => rfl⟩, fun b ag hb => ?_, h.nodup, h.pools, fun p r hr => ?_⟩
  · unfold allocOf
    rw [hget]
    by_cases hb : b = aid
    · subst hb
      rw [if_pos rfl, ha]
      simp only [hσ, Option.bind_some]
      have hne : pid ≠ p := fun e => hp (e ▸ hP)
      unfold Dict.popE at hal
      split at hal
      · cases hal; exact Dict.get?_erase_ne _ hne
      · cases hal
    · rw [if_neg hb]
  · unfold newOf
    rw [hget]
    by_cases hb : b = aid
    · subst hb; rw [if_pos rfl, ha]
    · rw [if_neg hb]
  · rw [hget] at hb
    split at hb
    · rename_i e; cases hb; subst e; exact hid
    · exact h.agents b ag hb
  · rw [hstg] at hr; exact h.drafts p r hr

theorem undelegateAll_spares {me : Nat} {T : Ref → Prop} {P : Nat → Prop} {r : Ref} : ∀ (l : List Nat) {s : State F}, Keyed me s → P (s.heap r).id →
    Sat AnyErr (undelegateAll s r l) (fun s' => Spares me T P s s' ∧ Keyed me s')
  | [], s, h, _ => ⟨.refl _ _ _ _, h⟩
  | aid :: t, s, h, hP => by
    unfold undelegateAll
    refine Sat.bind (P := fun a => s.agents.get? aid = some a) (Sat.any fun a ha => Dict.getE_ok.1 ha) (fun a ha => ?_)
    cases hσ : a.strategy with
    | none => trivial
    | some σ =>
      simp only
      refine Sat.bind (P := fun al => σ.allocs.popE (s.heap r).id = .ok al) (Sat.any fun _ h => h) (fun al hal => ?_)
      obtain ⟨k1, k2⟩ := dropAgent_spares (T := T) (P := P) h ha hσ hP hal
      have hP' : P ((s.setAgent { a with strategy := some { σ with allocs := al } }).heap r).id := by rw [k1.id]; exact hP
      obtain ⟨g1, g2⟩ := setPool_spares (T := T) (P := P) k2 (r := r) 0 (a := aid) (Or.inr hP')
      exact (undelegateAll_spares t g2 (by rw [g1.id]; exact hP')).imp (fun s' h' => ⟨(k1.trans g1).trans h'.1, h'.2⟩)

theorem removeDelegations_spares {me : Nat} {T : Ref → Prop} {P : Nat → Prop} {r : Ref} {s : State F} (h : Keyed me s) (hP : P (s.heap r).id) :
    Sat AnyErr (removeDelegations s r) (fun s' => Spares me T P s s' ∧ Keyed me s') := by
  unfold removeDelegations
  refine Sat.bind (undelegateAll_spares (T := T) _ h hP) (fun s₁ h₁ => ?_)
  obtain ⟨h₁, k₁⟩ := h₁
  have hP' : P (s₁.heap r).id := by rw [h₁.id]; exact hP
  split
  · have hget : ∀ b, Dict.get? (s₁.agents.map (fun e => (e.1, unstage (s₁.heap r).id e.2))) b = (s₁.agents.get? b).map (unstage (s₁.heap r).id) :=
      fun b => Dict.get?_map_snd s₁.agents (fun _ => unstage (s₁.heap r).id) b
    have hstg : ∀ b p, stgOf { s₁ with agents := s₁.agents.map (fun e => (e.1, unstage (s₁.heap r).id e.2)) } b p = stgOf s₁ b p := by
      intro b p
      unfold stgOf
      simp only [hget]
      cases s₁.agents.get? b with
      | none => rfl
      | some ag => simp only [Option.map_some, Option.bind_some, unstage]; cases ag.newStrategy <;> rfl
    refine ⟨h₁.trans ⟨fun b _ p _ => ?_, fun b p hp => ?_, hstg, fun _ _ _ _ => rfl, fun _ => rfl, fun _ => rfl⟩,
      fun b ag hb => ?_, k₁.nodup, k₁.pools, fun p r' hr => ?_⟩
    · unfold allocOf
      simp only [hget]
      cases s₁.agents.get? b <;> rfl
    · unfold newOf
      simp only [hget]
      cases s₁.agents.get? b with
      | none => rfl
      | some ag =>
        simp only [Option.map_some, unstage]
        cases ag.newStrategy with
        | none => rfl
        | some ν =>
          simp only [Option.map_some, Option.bind_some]
          exact Dict.get?_erase_ne _ (fun e => hp (e ▸ hP'))
    · change Dict.get? (s₁.agents.map (fun e => (e.1, unstage (s₁.heap r).id e.2))) b = some ag at hb
      rw [hget] at hb
      obtain ⟨ag', hb', rfl⟩ := Option.map_eq_some_iff.1 hb
      exact k₁.agents b ag' hb'
    · rw [hstg] at hr; exact k₁.drafts p r' hr
  · exact ⟨h₁, k₁⟩

theorem closePool_spares {me : Nat} {T : Ref → Prop} {P : Nat → Prop} {pid : Nat} {s : State F} (h : Keyed me s) (hP : P pid) :
    Sat AnyErr (closePool s pid) (fun s' => Spares me T P s s' ∧ Keyed me s') := by
  unfold closePool
  refine Sat.bind (P := fun r => s.pools.get? pid = some r) (Sat.any fun a ha => Dict.getE_ok.1 ha) (fun r hr => ?_)
  refine Sat.bind (P := fun _ => True) (Sat.any fun _ _ => trivial) (fun l _ => ?_)
  refine Sat.bind (P := fun _ => True) (Sat.any fun _ _ => trivial) (fun lm _ => ?_)
  have hk : Keyed me { s with rank := l, rankM := lm } := ⟨h.agents, h.nodup, h.pools, h.drafts⟩
  have hsp : Spares me T P s { s with rank := l, rankM := lm } := .same rfl rfl
  refine Sat.bind (removeDelegations_spares (T := T) hk (r := r) (by
    change P (s.heap r).id
    rw [h.pools pid r hr]; exact hP)) (fun s₁ h₁ => ?_)
  obtain ⟨h₁, k₁⟩ := h₁
  refine Sat.bind (P := fun pools => s₁.pools.popE pid = .ok pools) (Sat.any fun _ h => h) (fun pools hp => ?_)
  unfold Dict.popE at hp
  split at hp
  · cases hp
    refine ⟨(hsp.trans h₁).trans (.same rfl rfl), k₁.agents, Dict.nodup_erase k₁.nodup _, fun p r' hr' => ?_, k₁.drafts⟩
    change (s₁.heap r').id = p
    have hr' : (s₁.pools.erase pid).get? p = some r' := hr'
    rw [Dict.get?_erase k₁.nodup] at hr'
    split at hr'
    · cases hr'
    · exact k₁.pools p r' hr'
  · cases hp

theorem updatePool_spares {me : Nat} {T : Ref → Prop} {P : Nat → Prop} {pid : Nat} {s : State F} (h : Keyed me s)
    (hP : ∀ r', stgOf s me pid = some r' → (s.heap r').isPrivate = true → P pid) :
    Sat AnyErr (updatePool s me pid) (fun s' => Spares me T P s s' ∧ Keyed me s') := by
  unfold updatePool
  refine Sat.bind (P := fun a => s.agents.get? me = some a) (Sat.any fun a ha => Dict.getE_ok.1 ha) (fun ag ha => ?_)
  cases hν : ag.newStrategy with
  | none => trivial
  | some ν =>
    simp only
    refine Sat.bind (P := fun r => ν.owned.get? pid = some r) (Sat.any fun a ha => Dict.getE_ok.1 ha) (fun r' hr' => ?_)
    have hstg : stgOf s me pid = some r' := by simp [stgOf, ha, hν, hr']
    have hid := h.drafts pid r' hstg
    refine Sat.bind (P := fun s' => Spares me T P s s' ∧ Keyed me s') ?_ (fun s₁ h₁ => ?_)
    · split
      · rename_i hx
        exact removeDelegations_spares h (by rw [hid]; exact hP r' hstg hx.1)
      · exact ⟨.refl _ _ _ _, h⟩
    · obtain ⟨h₁, k₁⟩ := h₁
      refine Sat.bind (P := fun _ => True) (Sat.any fun _ _ => trivial) (fun ag₁ _ => ?_)
      cases ag₁.strategy with
      | none => trivial
      | some σ =>
        simp only
        refine Sat.bind (P := fun _ => True) (Sat.any fun _ _ => trivial) (fun r _ => ?_)
        refine Sat.bind (P := fun _ => True) (Sat.any fun _ _ => trivial) (fun l _ => ?_)
        refine Sat.bind (P := fun _ => True) (Sat.any fun _ _ => trivial) (fun lm _ => ?_)
        refine ⟨h₁.trans (.same rfl rfl), k₁.agents, Dict.nodup_set (Dict.nodup_set k₁.nodup _ _) _ _, fun p r'' hp => ?_, k₁.drafts⟩
        change (s₁.heap r'').id = p
        have hp : ((s₁.pools.set pid r').set pid r').get? p = some r'' := hp
        rw [Dict.get?_set] at hp
        split at hp
        · rename_i e; cases hp; subst e
          rw [h₁.id]; exact hid
        · rename_i hne
          rw [Dict.get?_set, if_neg hne] at hp
          exact k₁.pools p r'' hp

theorem iterM_spares {me : Nat} {T : Ref → Prop} {P : Nat → Prop} {f : State F → Nat → Py (State F)} {s₀ : State F} : ∀ (l : List Nat),
    (∀ s, Keyed me s → Spares me T P s₀ s → ∀ p ∈ l, Sat AnyErr (f s p) (fun s' => Spares me T P s s' ∧ Keyed me s')) →
    ∀ {s : State F}, Keyed me s → Spares me T P s₀ s → Sat AnyErr (iterM f s l) (fun s' => Spares me T P s₀ s' ∧ Keyed me s')
  | [], _, s, h, hs => ⟨hs, h⟩
  | p :: l, hf, s, h, hs => by
    unfold iterM
    refine Sat.bind (hf s h hs p (by simp)) (fun s₁ h₁ => ?_)
    exact iterM_spares l (fun s hs hh q hq => hf s hs hh q (List.mem_cons_of_mem _ hq)) h₁.2 (hs.trans h₁.1)

theorem openPool_keeps {me pid : Nat} {s : State F} : Sat AnyErr (openPool s me pid) (fun s' => s'.agents = s.agents ∧ s'.heap = s.heap) := by
  unfold openPool
  refine Sat.bind (P := fun _ => True) (Sat.any fun _ _ => trivial) (fun ag _ => ?_)
  cases ag.strategy with
  | none => trivial
  | some σ =>
    simp only
    refine Sat.bind (P := fun _ => True) (Sat.any fun _ _ => trivial) (fun r _ => ?_)
    exact ⟨rfl, rfl⟩

theorem openPools_keep {me : Nat} : ∀ (l : List Nat) {s : State F},
    Sat AnyErr (iterM (fun s pid => openPool s me pid) s l) (fun s' => s'.agents = s.agents ∧ s'.heap = s.heap)
  | [], s => ⟨rfl, rfl⟩
  | p :: l, s => by
    unfold iterM
    refine Sat.bind openPool_keeps (fun s₁ h₁ => ?_)
    exact (openPools_keep l).imp (fun s' h' => ⟨h'.1.trans h₁.1, h'.2.trans h₁.2⟩)

/-- the pools of `σ` that `ν` closes or makes private -/
def Shuts (s : State F) (σ ν : Strategy F) (pid : Nat) : Prop :=
  pid ∈ σ.owned.keys ∧ (pid ∉ ν.owned.keys ∨ ∃ r', ν.owned.get? pid = some r' ∧ (s.heap r').isPrivate = true)

/-- what carrying out a strategy leaves alone -/
structure LeavesAlone (me : Nat) (P : Nat → Prop) (s s' : State F) : Prop where
  alloc : ∀ b, b ≠ me → ∀ pid, ¬ P pid → allocOf s' b pid = allocOf s b pid
  plan : ∀ b, b ≠ me → ∀ pid, ¬ P pid → newOf s' b pid = newOf s b pid
  mine : ∀ pid, ¬ P pid → allocOf s' me pid = newOf s me pid
  del : ∀ r b, b ≠ me ∨ (∀ pid, s.pools.get? pid ≠ some r) → ¬ P (s.heap r).id → (s'.heap r).delegators.get? b = (s.heap r).delegators.get? b

theorem executeStrategy_spares {n : Nat} {s : State F} (h : Inv n s) {ord : List Nat → List Nat} (hord : ∀ l, (ord l).Perm l)
    {me : Nat} {ag : Agent F} (ha : s.agents.get? me = some ag) {σ ν : Strategy F} (hσ : ag.strategy = some σ) (hν : ag.newStrategy = some ν) :
    Sat AnyErr (executeStrategy ord s me) (LeavesAlone me (Shuts s σ ν) s) := by
  have hk : Keyed me s := ⟨h.core.agentId, h.core.poolsNodup, fun p r hp => (h.core.poolRef p r hp).2.1, fun p r hp => (h.own.stg_ok me p r hp).2.1⟩
  have hstge : ∀ p, stgOf s me p = ν.owned.get? p := by intro p; simp [stgOf, ha, hν]
  unfold executeStrategy
  rw [Dict.getE_of ha]
  simp only [bind, Except.bind, hσ, hν]
  have hT : ∀ pid r, s.pools.get? pid = some r → ∃ pid, s.pools.get? pid = some r := fun pid r h => ⟨pid, h⟩
  refine Sat.bind (setDelegations_spares (T := fun r => ∃ pid, s.pools.get? pid = some r) (P := Shuts s σ ν) _ hk hT) (fun s₁ h₁ => ?_)
  refine Sat.bind (setDelegations_spares (T := fun r => ∃ pid, s.pools.get? pid = some r) (P := Shuts s σ ν) _ h₁.2.1 (by
    rw [h₁.2.2]; exact hT)) (fun s₂ h₂ => ?_)
  refine Sat.bind (iterM_spares (s₀ := s) (P := Shuts s σ ν) _ (fun t ht _ p hp => closePool_spares ht ?_) h₂.2.1 (h₁.1.trans h₂.1)) (fun s₃ h₃ => ?_)
  · rw [(hord _).mem_iff, List.mem_filter] at hp
    refine ⟨hp.1, Or.inl (fun hc => ?_)⟩
    have := hp.2
    rw [Dict.contains_iff.2 hc] at this
    cases this
  refine Sat.bind (iterM_spares (s₀ := s) (P := Shuts s σ ν) _ (fun t ht hts p hp => updatePool_spares ht ?_) h₃.2 h₃.1) (fun s₄ h₄ => ?_)
  · intro r' hr' hpr
    rw [(hord _).mem_iff, List.mem_filter] at hp
    refine ⟨Dict.contains_iff.1 hp.2, Or.inr ⟨r', ?_, by rw [← hts.priv]; exact hpr⟩⟩
    rw [← hstge, ← hts.draft]; exact hr'
  obtain ⟨h₄, k₄⟩ := h₄
  refine Sat.bind (P := fun a => s₄.agents.get? me = some a) (Sat.any fun a ha => Dict.getE_ok.1 ha) (fun ag₄ ha₄ => ?_)
  have hid := k₄.agents me ag₄ ha₄
  have hget : ∀ b, (s₄.setAgent { ag₄ with strategy := ag₄.newStrategy, newStrategy := none }).agents.get? b =
      if b = me then some { ag₄ with strategy := ag₄.newStrategy, newStrategy := none } else s₄.agents.get? b :=
    fun b => get?_setAgent (me := me) (ag := { ag₄ with strategy := ag₄.newStrategy, newStrategy := none }) hid b
  refine (openPools_keep _).imp (fun s₅ h₅ => ?_)
  obtain ⟨g1, g2⟩ := h₅
  refine ⟨fun b hb p hp => ?_, fun b hb p hp => ?_, fun p hp => ?_, fun r b hb hp => ?_⟩
  · rw [← h₄.alloc b hb p hp]
    unfold allocOf; rw [g1, hget, if_neg hb]
  · rw [← h₄.plan b p hp]
    unfold newOf; rw [g1, hget, if_neg hb]
  · rw [← h₄.plan me p hp]
    unfold allocOf newOf; rw [g1, hget, if_pos rfl, ha₄]
  · rw [g2]
    exact h₄.del r b (hb.imp_right (fun h ⟨p, hp⟩ => h p hp)) hp

end RSE
