import Verif.Lemmas.PlanMove

/-!
# Executing a strategy: the single operations
-/

set_option linter.unusedSectionVars false

namespace RSE

variable {F : Type} [LinearOrder F] [Zero F] [One F] [Add F] [Sub F] [Mul F] [Div F] [Neg F] [NatCast F] [FSum F]

theorem Dict.set_eq_map {V : Type} : ∀ {d : Dict V} {k : Nat} {v : V} (w : V), d.keys.Nodup → d.get? k = some v →
    d.set k w = d.map (fun e => (e.1, if e.1 = k then w else e.2))
  | [], _, _, _, _, h => by simp at h
  | (k', v') :: t, k, v, w, hn, h => by
    simp only [Dict.keys, List.map_cons, List.nodup_cons] at hn
    simp only [Dict.set, List.map_cons]
    by_cases hk : k' = k
    · subst hk
      simp only [if_true, List.cons.injEq, true_and]
      symm
      apply (List.map_congr_left (g := id) _).trans (List.map_id _)
      rintro ⟨a, b⟩ he
      have : a ≠ k' := fun h => hn.1 (List.mem_map.2 ⟨_, he, h⟩)
      simp [this]
    · simp only [if_neg hk, List.cons.injEq, true_and]
      refine Dict.set_eq_map (v := v) w hn.2 ?_
      rw [Dict.get?_cons, if_neg hk] at h; exact h

/-- the pool object after the loop of `remove_delegations` -/
def clearAll (p : Pool F) (ds : List Nat) : Pool F := ds.foldl (fun p d => p.updateDelegation 0 d) p

/-- an agent whose delegation to `pid` was cancelled -/
def dropAlloc (pid : Nat) (a : Agent F) : Agent F :=
  { a with strategy := a.strategy.map (fun σ => { σ with allocs := σ.allocs.erase pid }) }

/-- the agent has a strategy (it is not an abstainer) -/
def HasStrat (s : State F) (aid : Nat) : Prop := ∃ a σ, s.agents.get? aid = some a ∧ a.strategy = some σ

theorem samePool_clearAll : ∀ (ds : List Nat) (p : Pool F), SamePool p (clearAll p ds)
  | [], _ => SamePool.refl _
  | d :: t, p => (samePool_updateDelegation p 0 d).trans (samePool_clearAll t _)

theorem nodup_clearAll : ∀ (ds : List Nat) (p : Pool F), p.delegators.keys.Nodup → (clearAll p ds).delegators.keys.Nodup
  | [], _, h => h
  | d :: t, _, h => nodup_clearAll t _ (nodup_updateDelegation h 0 d)

theorem get?_clearAll (hmin : (0 : F) < minUnit) : ∀ (ds : List Nat) (p : Pool F), p.delegators.keys.Nodup → ∀ b,
    (clearAll p ds).delegators.get? b = if b ∈ ds then none else p.delegators.get? b
  | [], p, _, b => by simp [clearAll]
  | d :: t, p, h, b => by
    have ih := get?_clearAll hmin t _ (nodup_updateDelegation h 0 d) b
    have : clearAll p (d :: t) = clearAll (p.updateDelegation 0 d) t := rfl
    rw [this, ih]
    by_cases hb : d = b
    · subst hb
      rw [get?_updateDelegation_self h, if_pos hmin]
      simp
    · rw [get?_updateDelegation_ne p 0 hb]
      by_cases hbt : b ∈ t
      · simp [hbt]
      · have : b ∉ d :: t := by simp [hbt, Ne.symm hb]
        simp [hbt, this]

theorem clearAll_keys (hmin : (0 : F) < minUnit) {p : Pool F} (h : p.delegators.keys.Nodup) :
    (clearAll p p.delegators.keys).delegators = [] := by
  have : (clearAll p p.delegators.keys).delegators.keys = [] := by
    apply List.eq_nil_iff_forall_not_mem.2
    intro b hb
    obtain ⟨x, hx⟩ := Dict.mem_keys_iff.1 hb
    rw [get?_clearAll hmin _ _ h] at hx
    split at hx
    · cases hx
    · rename_i hn; exact hn (Dict.mem_keys_of_get? hx)
  exact List.map_eq_nil_iff.1 this

/-- the loop of `remove_delegations` -/
theorem undelegateAll_spec {r : Ref} : ∀ (ds : List Nat) (s : State F), s.agents.keys.Nodup →
    (∀ aid a, s.agents.get? aid = some a → a.id = aid) → ds.Nodup → (∀ d ∈ ds, HasStrat s d) →
    Sat (fun e => e = .key ∧ ∃ d ∈ ds, ∃ a σ, s.agents.get? d = some a ∧ a.strategy = some σ ∧ σ.allocs.get? (s.heap r).id = none)
      (undelegateAll s r ds) (fun s' => s' = { s with
        agents := s.agents.map (fun e => (e.1, if e.1 ∈ ds then dropAlloc (s.heap r).id e.2 else e.2))
        heap := Function.update s.heap r (clearAll (s.heap r) ds) })
  | [], s, _, _, _, _ => by
    simp only [undelegateAll, Sat, List.not_mem_nil, if_false]
    have h1 : s.agents.map (fun e => (e.1, e.2)) = s.agents := by simp
    rw [h1]
    have h2 : Function.update s.heap r (clearAll (s.heap r) []) = s.heap := Function.update_eq_self _ _
    rw [h2]
  | d :: t, s, hn, hid, hnd, hs => by
    rw [List.nodup_cons] at hnd
    obtain ⟨a, σ, ha, hσ⟩ := hs d List.mem_cons_self
    unfold undelegateAll
    rw [Dict.getE_of ha]
    simp only [bind, Except.bind, hσ]
    cases hal : σ.allocs.get? (s.heap r).id with
    | none =>
      simp only [Dict.popE, hal]
      exact ⟨rfl, d, List.mem_cons_self, a, σ, ha, hσ, hal⟩
    | some x =>
      rw [Dict.popE_of hal]
      simp only
      have hda : ({ a with strategy := some { σ with allocs := σ.allocs.erase (s.heap r).id } } : Agent F) = dropAlloc (s.heap r).id a := by
        simp [dropAlloc, hσ]
      rw [hda]
      have haid : (dropAlloc (s.heap r).id a).id = d := hid d a ha
      set s₁ : State F := (s.setAgent (dropAlloc (s.heap r).id a)).setPool r ((s.heap r).updateDelegation 0 d) with hs₁
      have hag : s₁.agents = s.agents.map (fun e => (e.1, if e.1 = d then dropAlloc (s.heap r).id a else e.2)) := by
        simp only [hs₁, State.setAgent, State.setPool]
        rw [haid]; exact Dict.set_eq_map _ hn ha
      have hget : ∀ b, s₁.agents.get? b = (s.agents.get? b).map (fun v => if b = d then dropAlloc (s.heap r).id a else v) := by
        intro b; rw [hag]; exact Dict.get?_map_snd s.agents (fun k v => if k = d then dropAlloc (s.heap r).id a else v) b
      have hheap : s₁.heap r = (s.heap r).updateDelegation 0 d := by simp [hs₁, State.setPool]
      have hhid : (s₁.heap r).id = (s.heap r).id := by rw [hheap]; rfl
      have hk1 : s₁.agents.keys.Nodup := by rw [hag, Dict.keys_map_snd s.agents (fun k v => if k = d then dropAlloc (s.heap r).id a else v)]; exact hn
      have hother : ∀ b, b ≠ d → s₁.agents.get? b = s.agents.get? b := by
        intro b hb; rw [hget b]; simp [hb]
      refine Sat.mono (undelegateAll_spec t s₁ hk1 ?_ hnd.2 ?_) ?_ ?_
      · intro b v hv
        by_cases hb : b = d
        · subst hb
          rw [hget b, ha] at hv
          simp only [if_true, Option.map_some, Option.some.injEq] at hv
          rw [← hv]; exact haid
        · rw [hother b hb] at hv; exact hid b v hv
      · intro b hb
        have hbd : b ≠ d := fun h => hnd.1 (h ▸ hb)
        obtain ⟨a', σ', h1, h2⟩ := hs b (List.mem_cons_of_mem _ hb)
        exact ⟨a', σ', by rw [hother b hbd]; exact h1, h2⟩
      · rintro e ⟨rfl, b, hb, a', σ', h1, h2, h3⟩
        have hbd : b ≠ d := fun h => hnd.1 (h ▸ hb)
        rw [hother b hbd] at h1
        rw [hhid] at h3
        exact ⟨rfl, b, List.mem_cons_of_mem _ hb, a', σ', h1, h2, h3⟩
      · rintro s' rfl
        rw [hhid, hheap, hag]
        have e1 : Function.update s₁.heap r (clearAll ((s.heap r).updateDelegation 0 d) t) =
            Function.update s.heap r (clearAll (s.heap r) (d :: t)) := by
          simp only [hs₁, State.setPool, State.setAgent, Function.update_idem]; rfl
        rw [e1]
        have e2 : (s.agents.map (fun e => (e.1, if e.1 = d then dropAlloc (s.heap r).id a else e.2))).map
            (fun e => (e.1, if e.1 ∈ t then dropAlloc (s.heap r).id e.2 else e.2)) =
            s.agents.map (fun e => (e.1, if e.1 ∈ d :: t then dropAlloc (s.heap r).id e.2 else e.2)) := by
          rw [List.map_map]
          apply List.map_congr_left
          rintro ⟨b, v⟩ hm
          simp only [Function.comp_apply, Prod.mk.injEq, true_and]
          by_cases hb : b = d
          · subst hb
            have := Dict.get?_of_mem hn hm
            rw [ha] at this; cases this
            simp [hnd.1]
          · simp [hb]
        rw [e2]; rfl

/-- an agent after `remove_delegations` of pool `pid` with delegators `ds` -/
def rmAgent (sim : Bool) (pid : Nat) (ds : List Nat) (aid : Nat) (a : Agent F) : Agent F :=
  let a := if aid ∈ ds then dropAlloc pid a else a
  if sim then unstage pid a else a

/-- `remove_delegations` -/
theorem removeDelegations_spec {s : State F} {r : Ref} (hn : s.agents.keys.Nodup) (hid : ∀ aid a, s.agents.get? aid = some a → a.id = aid)
    (hnd : (s.heap r).delegators.keys.Nodup) (hs : ∀ d ∈ (s.heap r).delegators.keys, HasStrat s d) :
    Sat (fun e => e = .key ∧ ∃ d ∈ (s.heap r).delegators.keys, ∃ a σ, s.agents.get? d = some a ∧ a.strategy = some σ ∧
        σ.allocs.get? (s.heap r).id = none)
      (removeDelegations s r) (fun s' => s' = { s with
        agents := s.agents.map (fun e => (e.1, rmAgent s.simultaneous (s.heap r).id (s.heap r).delegators.keys e.1 e.2))
        heap := Function.update s.heap r (clearAll (s.heap r) (s.heap r).delegators.keys) }) := by
  unfold removeDelegations
  refine Sat.bind (undelegateAll_spec _ s hn hid hnd hs) ?_
  rintro _ rfl
  have hid' : (clearAll (s.heap r) (s.heap r).delegators.keys).id = (s.heap r).id := (samePool_clearAll _ _).id
  simp only [Function.update_self, hid']
  split
  · rename_i hsim
    simp only [Sat.pure_iff, List.map_map, rmAgent, hsim, if_true]
    rfl
  · rename_i hsim
    simp only [Sat.pure_iff, rmAgent, hsim, if_false, Bool.false_eq_true]

end RSE
