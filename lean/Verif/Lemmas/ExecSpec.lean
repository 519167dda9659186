import Verif.Lemmas.Mid

/-!
# Executing a strategy
-/

set_option linter.unusedSectionVars false

namespace RSE

variable {F : Type} [LinearOrder F] [Zero F] [One F] [Add F] [Sub F] [Mul F] [Div F] [Neg F] [NatCast F] [FSum F]

/-- the object that the strategy of agent `a` has under id `pid` -/
def ownOf (s : State F) (a pid : Nat) : Option Ref := (s.agents.get? a).bind (fun ag => ag.strategy.bind (fun σ => σ.owned.get? pid))

/-- the object that the staged strategy of agent `a` has under id `pid` -/
def stgOf (s : State F) (a pid : Nat) : Option Ref := (s.agents.get? a).bind (fun ag => ag.newStrategy.bind (fun ν => ν.owned.get? pid))

/-- The structural invariant of a simulation. -/
structure Inv (n : Nat) (s : State F) : Prop where
  core : Core n s
  own : Own s (ownOf s) (stgOf s)
  tidy : ∀ a ag, s.agents.get? a = some ag → ag.Tidy
  del : ∀ r, Live (ownOf s) (stgOf s) r → ∀ d ∈ (s.heap r).delegators.keys, HasStrat s d
  abst : ∀ a ag, s.agents.get? a = some ag → ag.profile = .abstainer → ag.strategy = none ∧ ag.newStrategy = none
  strat : ∀ a ag, s.agents.get? a = some ag → ag.profile ≠ .abstainer → ∃ σ, ag.strategy = some σ

/-- Delegations agree with strategies. -/
structure Books (s : State F) : Prop where
  agree : ∀ pid r, s.pools.get? pid = some r → ∀ b, (s.heap r).delegators.get? b = allocOf s b pid
  good : ∀ b pid x, allocOf s b pid = some x → minUnit ≤ x ∧ ∃ r, s.pools.get? pid = some r ∧ (s.heap r).owner ≠ b

/-- Delegations agree with strategies; holds between the turns of a sequential simulation. -/
structure SeqInv (s : State F) : Prop where
  seq : s.simultaneous = false
  agree : ∀ pid r, s.pools.get? pid = some r → ∀ b, (s.heap r).delegators.get? b = allocOf s b pid
  good : ∀ b pid x, allocOf s b pid = some x → minUnit ≤ x ∧ ∃ r, s.pools.get? pid = some r ∧ (s.heap r).owner ≠ b

theorem SeqInv.books {s : State F} (h : SeqInv s) : Books s := ⟨h.agree, h.good⟩

/-- what an agent has staged fits the current state -/
structure Staged (s : State F) (me : Nat) (σ ν : Strategy F) : Prop where
  allocs : ∀ pid x, ν.allocs.get? pid = some x → minUnit ≤ x ∧ ∃ r, s.pools.get? pid = some r ∧ (s.heap r).owner ≠ me
  copies : ∀ pid r r', σ.owned.get? pid = some r → ν.owned.get? pid = some r' → ∀ b, (s.heap r').delegators.get? b = (s.heap r).delegators.get? b
  fresh : ∀ pid r', σ.owned.get? pid = none → ν.owned.get? pid = some r' → (s.heap r').delegators = []

/-- the pools whose delegators are sent away when `ν` replaces `σ` -/
def Gone (s : State F) (σ ν : Strategy F) (pid : Nat) : Prop :=
  pid ∈ σ.owned.keys ∧ (pid ∉ ν.owned.keys ∨ ∃ r', ν.owned.get? pid = some r' ∧ Expels s r')

theorem ownOf_of_skel {s s' : State F} {a : Nat} (h : (s'.agents.get? a).map Agent.skel = (s.agents.get? a).map Agent.skel) (pid : Nat) :
    ownOf s' a pid = ownOf s a pid ∧ stgOf s' a pid = stgOf s a pid := by
  unfold ownOf stgOf
  cases h1 : s.agents.get? a with
  | none =>
    rw [h1] at h
    cases h2 : s'.agents.get? a with
    | none => simp
    | some _ => rw [h2] at h; cases h
  | some ag =>
    rw [h1] at h
    cases h2 : s'.agents.get? a with
    | none => rw [h2] at h; cases h
    | some ag' =>
      rw [h2] at h
      simp only [Option.map_some, Option.some.injEq, Agent.skel, Prod.mk.injEq] at h
      obtain ⟨-, -, -, -, h3, h4⟩ := h
      simp only [Option.bind_some]
      constructor
      · cases h5 : ag.strategy <;> cases h6 : ag'.strategy <;> simp [h5, h6] at h3 ⊢
        rw [h3]
      · cases h5 : ag.newStrategy <;> cases h6 : ag'.newStrategy <;> simp [h5, h6] at h4 ⊢
        rw [h4]

/-! ### Delegations -/

theorem setDelegations_mid {n : Nat} {s₀ s : State F} {me : Nat} {own stg : Nat → Nat → Option Ref} (h : Mid n s₀ s own stg)
    {t : Prop} {view : Nat → Nat → Option F} {gone : Nat → Prop} (ht : t → Trk s₀ s me own stg view gone) (hme : HasStrat s₀ me)
    {l : Dict F} (hl : l.keys.Nodup) (hgood : t → ∀ pid ∈ l.keys, ∃ r, s.pools.get? pid = some r ∧ (s.heap r).owner ≠ me) :
    Sat (fun e => e = .key ∧ ¬ t) (setDelegations s me l) (fun s' => Mid n s₀ s' own stg ∧ s'.agents = s.agents ∧ s'.pools = s.pools ∧
      (t → Trk s₀ s' me own stg (fun b p => if b = me then (match l.get? p with
        | none => view b p
        | some x => recorded x) else view b p) gone)) := by
  refine (setDelegations_spec me l s h.core hl).mono ?_ ?_
  · rintro e ⟨rfl, pid, hm, hno⟩
    refine ⟨rfl, fun htt => ?_⟩
    obtain ⟨r, hr, -⟩ := hgood htt pid hm
    rw [hno] at hr; cases hr
  rintro s' ⟨c, sh, hv⟩
  have hmid : Mid n s₀ s' own stg := by
    refine ⟨c, ⟨?_, ?_, ?_, ?_, h.own.stg_uniq⟩, ?_, ?_, ?_, ?_, fun r => (h.same r).trans (sh.same r)⟩
    · intro a pid r; rw [sh.pools, (sh.same r).owner]; exact h.own.own_iff a pid r
    · intro a pid r; rw [sh.pools, (sh.same r).owner, (sh.same r).id, sh.next]; exact h.own.stg_ok a pid r
    · intro a pid r; rw [sh.idSeq]; exact h.own.stg_id a pid r
    · intro a pid r hr q; rw [sh.pools, (sh.same q).owner]; exact h.own.stg_pool a pid r hr q
    · rw [sh.eq, h.frame]
    · intro a; rw [sh.agents]; exact h.skel a
    · intro a ag; rw [sh.agents]; exact h.tidy a ag
    · intro r hr d hd
      by_cases hdm : d = me
      · subst hdm; exact hme
      · obtain ⟨x, hx⟩ := Dict.mem_keys_iff.1 hd
        rw [sh.others r d hdm] at hx
        exact h.del r hr d (Dict.mem_keys_of_get? hx)
  refine ⟨hmid, sh.agents, sh.pools, fun htt => ?_⟩
  have T := ht htt
  have hun : ∀ q, (∀ pid, s.pools.get? pid = some q → (s.heap q).owner = me) → s'.heap q = s.heap q := by
    intro q hq
    apply sh.untouched
    intro pid hm hp
    obtain ⟨r, hr, ho⟩ := hgood htt pid hm
    rw [hp] at hr; cases hr
    exact ho (hq _ hp)
  have hunStg : ∀ {b} p q, stg b p = some q → s'.heap q = s.heap q := fun {b} p q hq =>
    hun q (fun pid hp => absurd hp ((h.own.stg_ok _ _ _ hq).2.2.2 pid))
  refine ⟨?_, ?_, ?_, ?_, ?_, ?_, ?_, ?_⟩
  · intro p r hp b
    rw [sh.pools] at hp
    by_cases hb : b = me
    · subst hb
      rw [if_pos rfl, hv p r hp, T.agree p r hp]
      cases l.get? p <;> rfl
    · rw [if_neg hb, sh.others r b hb]; exact T.agree p r hp b
  · intro b p x hx
    split at hx
    · rename_i hb; subst hb
      cases hl : l.get? p with
      | none =>
        rw [hl] at hx
        obtain ⟨g1, r, g2, g3⟩ := T.good _ _ _ hx
        exact ⟨g1, r, by rw [sh.pools]; exact g2, by rw [(sh.same r).owner]; exact g3⟩
      | some y =>
        rw [hl] at hx
        simp only [recorded] at hx
        split at hx
        · cases hx
        · rename_i hy; cases hx
          obtain ⟨r, g2, g3⟩ := hgood htt p (Dict.mem_keys_of_get? hl)
          exact ⟨not_lt.1 hy, r, by rw [sh.pools]; exact g2, by rw [(sh.same r).owner]; exact g3⟩
    · obtain ⟨g1, r, g2, g3⟩ := T.good _ _ _ hx
      exact ⟨g1, r, by rw [sh.pools]; exact g2, by rw [(sh.same r).owner]; exact g3⟩
  · intro b hb p
    rw [if_neg hb, T.link b hb p]; unfold allocOf; rw [sh.agents]
  · intro b hb p
    rw [if_neg hb]; exact T.was b hb p
  · intro p r r' hr hr' b
    rw [hunStg _ _ hr', hun r, T.copies p r r' hr hr' b]
    intro pid hp
    exact ((h.own.own_iff _ _ _).1 hr).2
  · intro p r' ho hr'
    rw [hunStg _ _ hr']; exact T.fresh p r' ho hr'
  · intro b p r' hr'
    rw [hunStg _ _ hr']; exact T.draft b p r' hr'
  · intro b hb p
    have e : newOf s' b p = newOf s b p := by unfold newOf; rw [sh.agents]
    rw [e]; exact T.staged b hb p

/-! ### Loops -/

theorem closeAll_mid (hmin : (0 : F) < minUnit) {n : Nat} {s₀ : State F} {me : Nat} {t : Prop} :
    ∀ (l : List Nat) (s : State F) (own stg : Nat → Nat → Option Ref) (view : Nat → Nat → Option F) (gone : Nat → Prop), l.Nodup →
    Mid n s₀ s own stg → (t → Trk s₀ s me own stg view gone) → (t → MeNew s₀ s me) →
    (∀ pid ∈ l, (∃ r, own me pid = some r) ∧ stg me pid = none) → (t → ∀ pid ∈ l, newOf s₀ me pid = none) →
    Sat (fun e => e = .key ∧ ¬ t) (iterM closePool s l) (fun s' => ∃ own' view' gone', Mid n s₀ s' own' stg ∧
      (t → Trk s₀ s' me own' stg view' gone') ∧ (t → MeNew s₀ s' me) ∧
      (∀ a p, own' a p = if a = me ∧ p ∈ l then none else own a p) ∧ (t → ∀ p, view' me p = view me p) ∧
      (∀ p, gone' p ↔ gone p ∨ p ∈ l))
  | [], s, own, stg, view, gone, _, h, ht, hN, _, _ => by
    exact ⟨own, view, gone, h, ht, hN, by simp, fun _ _ => rfl, by simp⟩
  | pid :: l, s, own, stg, view, gone, hnd, h, ht, hN, hl, hnone => by
    rw [List.nodup_cons] at hnd
    obtain ⟨⟨r, hr⟩, hs⟩ := hl pid List.mem_cons_self
    unfold iterM
    refine Sat.bind (closePool_mid hmin h ht hN (fun htt => hnone htt pid List.mem_cons_self) hr hs) ?_
    rintro s₁ ⟨h1, t1, n1⟩
    refine (closeAll_mid hmin l s₁ _ stg _ _ hnd.2 h1 t1 n1 ?_ (fun htt p hp => hnone htt p (List.mem_cons_of_mem _ hp))).imp ?_
    · intro p hp
      have hne : p ≠ pid := fun e => hnd.1 (e ▸ hp)
      rw [upd2_ne _ _ hne]
      exact hl p (List.mem_cons_of_mem _ hp)
    · rintro s' ⟨own', view', gone', m, T, N, ho, hv, hg⟩
      refine ⟨own', view', gone', m, T, N, ?_, ?_, ?_⟩
      · intro a p
        rw [ho]
        by_cases ha : a = me
        · by_cases hp : p = pid
          · simp [ha, hp, upd2]
          · simp [ha, hp, upd2]
        · simp [ha, upd2]
      · intro htt p
        rw [hv htt]
        split
        · rename_i he; subst he
          cases hv' : view me p with
          | none => rfl
          | some x =>
            obtain ⟨-, q, g1, g2⟩ := (ht htt).good _ _ _ hv'
            obtain ⟨k1, k2⟩ := (h.own.own_iff _ _ _).1 hr
            rw [k1] at g1; cases g1
            exact absurd k2 g2
        · rfl
      · intro p; rw [hg]; simp only [List.mem_cons, or_assoc]

theorem updateAll_mid (hmin : (0 : F) < minUnit) {n : Nat} {s₀ : State F} {me : Nat} {t : Prop}
    {σo νo : Dict Ref} (hrec : Recorded s₀ me σo νo) :
    ∀ (l : List Nat) (s : State F) (own stg : Nat → Nat → Option Ref) (view : Nat → Nat → Option F) (gone : Nat → Prop), l.Nodup →
    Mid n s₀ s own stg → (t → Trk s₀ s me own stg view gone) → (t → MeNew s₀ s me) →
    (∀ pid ∈ l, ∃ r r', own me pid = some r ∧ stg me pid = some r' ∧ σo.get? pid = some r ∧ νo.get? pid = some r') →
    (t → ∀ pid ∈ l, newOf s₀ me pid = none) →
    Sat (fun e => e = .key ∧ ¬ t) (iterM (fun s pid => updatePool s me pid) s l) (fun s' => ∃ own' stg' view' gone', Mid n s₀ s' own' stg' ∧
      (t → Trk s₀ s' me own' stg' view' gone') ∧ (t → MeNew s₀ s' me) ∧
      (∀ a p, own' a p = if a = me ∧ p ∈ l then νo.get? p else own a p) ∧
      (∀ a p, stg' a p = if a = me ∧ p ∈ l then none else stg a p) ∧ (t → ∀ p, view' me p = view me p) ∧
      (∀ p, gone' p ↔ gone p ∨ (p ∈ l ∧ ∃ r', νo.get? p = some r' ∧ Expels s₀ r')))
  | [], s, own, stg, view, gone, _, h, ht, hN, _, _ => by
    exact ⟨own, stg, view, gone, h, ht, hN, by simp, by simp, fun _ _ => rfl, by simp⟩
  | pid :: l, s, own, stg, view, gone, hnd, h, ht, hN, hl, hnone => by
    rw [List.nodup_cons] at hnd
    obtain ⟨r, r', hr, hr', hσ, hν⟩ := hl pid List.mem_cons_self
    unfold iterM
    refine Sat.bind (updatePool_mid hmin h ht hN hrec (fun htt => hnone htt pid List.mem_cons_self) hr hr' hσ hν) ?_
    rintro s₁ ⟨h1, t1, n1⟩
    refine (updateAll_mid hmin hrec l s₁ _ _ _ _ hnd.2 h1 t1 n1 ?_ (fun htt p hp => hnone htt p (List.mem_cons_of_mem _ hp))).imp ?_
    · intro p hp
      have hne : p ≠ pid := fun e => hnd.1 (e ▸ hp)
      rw [upd2_ne _ _ hne, upd2_ne _ _ hne]
      exact hl p (List.mem_cons_of_mem _ hp)
    · rintro s' ⟨own', stg', view', gone', m, T, N, ho, hs, hv, hg⟩
      refine ⟨own', stg', view', gone', m, T, N, ?_, ?_, ?_, ?_⟩
      · intro a p
        rw [ho]
        by_cases ha : a = me
        · by_cases hp : p = pid
          · subst hp; simp [ha, upd2, hν]
          · simp [ha, hp, upd2]
        · simp [ha, upd2]
      · intro a p
        rw [hs]
        by_cases ha : a = me
        · by_cases hp : p = pid
          · subst hp; simp [ha, upd2]
          · simp [ha, hp, upd2]
        · simp [ha, upd2]
      · intro htt p
        rw [hv htt]
        split
        · rename_i he; obtain ⟨he, -⟩ := he; subst he
          cases hv' : view me p with
          | none => rfl
          | some x =>
            obtain ⟨-, q, g1, g2⟩ := (ht htt).good _ _ _ hv'
            obtain ⟨k1, k2⟩ := (h.own.own_iff _ _ _).1 hr
            rw [k1] at g1; cases g1
            exact absurd k2 g2
        · rfl
      · intro p; rw [hg]; simp only [List.mem_cons, or_assoc]
        constructor
        · rintro (h | ⟨rfl, h⟩ | ⟨h, k⟩)
          · exact Or.inl h
          · exact Or.inr ⟨Or.inl rfl, r', hν, h⟩
          · exact Or.inr ⟨Or.inr h, k⟩
        · rintro (h | ⟨rfl | h, k⟩)
          · exact Or.inl h
          · obtain ⟨q, k1, k2⟩ := k
            rw [hν] at k1; cases k1
            exact Or.inr (Or.inl ⟨rfl, k2⟩)
          · exact Or.inr (Or.inr ⟨h, k⟩)

theorem openAll_mid {n : Nat} {s₀ s₀' : State F} {me : Nat} {t : Prop} {νo : Dict Ref}
    (hrec : (s₀.agents.get? me).map (fun ag => ag.strategy.map (·.owned)) = some (some νo)) {view : Nat → Nat → Option F} {gone : Nat → Prop} :
    ∀ (l : List Nat) (s : State F) (own stg : Nat → Nat → Option Ref), l.Nodup →
    Mid n s₀ s own stg → (t → Trk s₀' s me own stg view gone) →
    (∀ pid ∈ l, ∃ r', own me pid = none ∧ stg me pid = some r' ∧ νo.get? pid = some r') →
    Sat (fun e => e = .key ∧ ¬ t) (iterM (fun s pid => openPool s me pid) s l) (fun s' => ∃ own' stg', Mid n s₀ s' own' stg' ∧
      (t → Trk s₀' s' me own' stg' view gone) ∧
      (∀ a p, own' a p = if a = me ∧ p ∈ l then νo.get? p else own a p) ∧
      (∀ a p, stg' a p = if a = me ∧ p ∈ l then none else stg a p) ∧ s'.agents = s.agents)
  | [], s, own, stg, _, h, ht, _ => by
    exact ⟨own, stg, h, ht, by simp, by simp, rfl⟩
  | pid :: l, s, own, stg, hnd, h, ht, hl => by
    rw [List.nodup_cons] at hnd
    obtain ⟨r', hr, hr', hν⟩ := hl pid List.mem_cons_self
    unfold iterM
    refine Sat.bind (openPool_mid h ht hrec hr hr' hν) ?_
    rintro s₁ ⟨h1, t1, a1⟩
    refine (openAll_mid hrec l s₁ _ _ hnd.2 h1 t1 ?_).imp ?_
    · intro p hp
      have hne : p ≠ pid := fun e => hnd.1 (e ▸ hp)
      rw [upd2_ne _ _ hne, upd2_ne _ _ hne]
      exact hl p (List.mem_cons_of_mem _ hp)
    · rintro s' ⟨own', stg', m, T, ho, hs, a2⟩
      refine ⟨own', stg', m, T, ?_, ?_, a2.trans a1⟩
      · intro a p
        rw [ho]
        by_cases ha : a = me
        · by_cases hp : p = pid
          · subst hp; simp [ha, upd2, hν]
          · simp [ha, hp, upd2]
        · simp [ha, upd2]
      · intro a p
        rw [hs]
        by_cases ha : a = me
        · by_cases hp : p = pid
          · subst hp; simp [ha, upd2]
          · simp [ha, hp, upd2]
        · simp [ha, upd2]

/-! ### The whole of `execute_strategy` -/

/-- what executing the staged strategy `ν` of agent `me` does -/
structure Executed (n : Nat) (s s' : State F) (me : Nat) (ν : Strategy F) : Prop where
  inv : Inv n s'
  frame : s' = { s with agents := s'.agents, pools := s'.pools, heap := s'.heap, rank := s'.rank, rankM := s'.rankM }
  same : ∀ r, SamePool (s.heap r) (s'.heap r)
  others : ∀ b, b ≠ me → (s'.agents.get? b).map Agent.skel = (s.agents.get? b).map Agent.skel
  mine : (s'.agents.get? me).map Agent.skel = (s.agents.get? me).map (fun ag => (ag.id, ag.stake, ag.cost, ag.profile, some ν.owned, none))

/-- ... and to the delegations, in a sequential simulation -/
structure ExecutedSeq (s s' : State F) (me : Nat) (σ ν : Strategy F) : Prop where
  inv : SeqInv s'
  mine : ∀ pid, allocOf s' me pid = ν.allocs.get? pid
  gone : ∀ b, b ≠ me → ∀ pid, Gone s σ ν pid → allocOf s' b pid = none
  kept : ∀ b, b ≠ me → ∀ pid, ¬ Gone s σ ν pid → allocOf s' b pid = allocOf s b pid

/-- ... and to the delegations and to what others have staged, if the books were straight and what is staged fits -/
structure ExecutedBooks (s s' : State F) (me : Nat) (σ ν : Strategy F) : Prop where
  books : Books s'
  mine : ∀ pid, allocOf s' me pid = ν.allocs.get? pid
  gone : ∀ b, b ≠ me → ∀ pid, Gone s σ ν pid → allocOf s' b pid = none
  kept : ∀ b, b ≠ me → ∀ pid, ¬ Gone s σ ν pid → allocOf s' b pid = allocOf s b pid
  drafts : ∀ b pid r', stgOf s' b pid = some r' → s'.heap r' = s.heap r'
  stagedGone : ∀ b, b ≠ me → ∀ pid, Gone s σ ν pid → s.simultaneous = true → newOf s' b pid = none
  stagedKept : ∀ b, b ≠ me → ∀ pid, (¬ Gone s σ ν pid ∨ s.simultaneous = false) → newOf s' b pid = newOf s b pid

theorem executeStrategy_books (hmin : (0 : F) < minUnit) {n : Nat} {s : State F} (h : Inv n s) {ord : List Nat → List Nat} (hord : ∀ l, (ord l).Perm l)
    {me : Nat} {ag : Agent F} (ha : s.agents.get? me = some ag) {σ ν : Strategy F} (hσ : ag.strategy = some σ) (hν : ag.newStrategy = some ν)
    {t : Prop} (hseq : t → Books s) (hst : t → Staged s me σ ν) :
    Sat (fun e => e = .key ∧ ¬ t) (executeStrategy ord s me) (fun s' => Executed n s s' me ν ∧ (t → ExecutedBooks s s' me σ ν)) := by
  have htidy := h.tidy me ag ha
  have hσa := htidy.allocs σ hσ
  have hσo := htidy.owned σ hσ
  have hνa := htidy.newAllocs ν hν
  have hνo := htidy.newOwned ν hν
  have hhas : HasStrat s me := ⟨ag, σ, ha, hσ⟩
  have howne : ∀ p, ownOf s me p = σ.owned.get? p := by intro p; simp [ownOf, ha, hσ]
  have hstge : ∀ p, stgOf s me p = ν.owned.get? p := by intro p; simp [stgOf, ha, hν]
  have halle : ∀ p, allocOf s me p = σ.allocs.get? p := by intro p; simp [allocOf, ha, hσ]
  have hrec : Recorded s me σ.owned ν.owned := ⟨ag, ha, by simp [hσ], by simp [hν]⟩
  have hmid0 : Mid n s s (ownOf s) (stgOf s) := ⟨h.core, h.own, rfl, fun _ => rfl, h.tidy, h.del, fun _ => SamePool.refl _⟩
  have htrk0 : t → Trk s s me (ownOf s) (stgOf s) (allocOf s) (fun _ => False) := by
    intro htt
    refine ⟨(hseq htt).agree, (hseq htt).good, fun _ _ _ => rfl, fun _ _ _ => ⟨False.elim, fun _ => rfl⟩, ?_, ?_, fun _ _ _ _ => rfl,
      fun _ _ _ => ⟨False.elim, fun _ => rfl⟩⟩
    · intro p r r'; rw [howne, hstge]; exact (hst htt).copies p r r'
    · intro p r'; rw [howne, hstge]; exact (hst htt).fresh p r'
  have hnone : t → ∀ p, p ∈ σ.owned.keys → newOf s me p = none := by
    intro htt p hp
    obtain ⟨r, hr⟩ := Dict.mem_keys_iff.1 hp
    obtain ⟨k1, k2⟩ := (h.own.own_iff me p r).1 (by rw [howne]; exact hr)
    have e : newOf s me p = ν.allocs.get? p := by simp [newOf, ha, hν]
    rw [e]
    cases hx : ν.allocs.get? p with
    | none => rfl
    | some x =>
      obtain ⟨-, q, g1, g2⟩ := (hst htt).allocs p x hx
      rw [k1] at g1; cases g1
      exact absurd k2 g2
  unfold executeStrategy
  rw [Dict.getE_of ha]
  simp only [bind, Except.bind, hσ, hν]
  -- dropped delegations
  set drop := ord (σ.allocs.keys.filter (fun pid => !ν.allocs.contains pid)) with hdrop
  have hdropmem : ∀ p, p ∈ drop ↔ p ∈ σ.allocs.keys ∧ p ∉ ν.allocs.keys := by
    intro p
    rw [hdrop, (hord _).mem_iff, List.mem_filter]
    simp [← Dict.contains_iff]
  have hk0 : Dict.keys (drop.map (fun pid => (pid, (0 : F)))) = drop := by simp [Dict.keys, Function.comp_def]
  have hget0 : ∀ p, Dict.get? (drop.map (fun pid => (pid, (0 : F)))) p = if p ∈ drop then some 0 else none := by
    intro p
    induction drop with
    | nil => rfl
    | cons d l ih =>
      simp only [List.map_cons, Dict.get?_cons, List.mem_cons, ih]
      by_cases hdp : d = p
      · simp [hdp]
      · have : ¬ p = d := fun e => hdp e.symm
        simp [hdp, this]
  refine Sat.bind (setDelegations_mid hmid0 htrk0 hhas (by rw [hk0]; exact (hord _).nodup_iff.2 (hσa.filter _)) ?_) ?_
  · intro htt p hp
    rw [hk0, hdropmem] at hp
    obtain ⟨x, hx⟩ := Dict.mem_keys_iff.1 hp.1
    rw [← halle] at hx
    exact ((hseq htt).good _ _ _ hx).2
  rintro s₁ ⟨m1, a1, p1, t1⟩
  -- new delegations
  refine Sat.bind (setDelegations_mid m1 t1 hhas hνa ?_) ?_
  · intro htt p hp
    obtain ⟨x, hx⟩ := Dict.mem_keys_iff.1 hp
    obtain ⟨-, r, g1, g2⟩ := (hst htt).allocs _ _ hx
    exact ⟨r, by rw [p1]; exact g1, by rw [(m1.same r).owner]; exact g2⟩
  rintro s₂ ⟨m2, a2, p2, t2⟩
  have hN2 : t → MeNew s s₂ me := fun _ => by unfold MeNew; rw [a2, a1]
  -- closing
  refine Sat.bind (closeAll_mid hmin _ s₂ _ _ _ _ ((hord _).nodup_iff.2 (hσo.filter _)) m2 t2 hN2 ?_
    (fun htt p hp => hnone htt p (by rw [(hord _).mem_iff, List.mem_filter] at hp; exact hp.1))) ?_
  · intro p hp
    rw [(hord _).mem_iff, List.mem_filter] at hp
    obtain ⟨r, hr⟩ := Dict.mem_keys_iff.1 hp.1
    refine ⟨⟨r, by rw [howne]; exact hr⟩, ?_⟩
    rw [hstge]
    have := hp.2
    simp only [Bool.not_eq_true', Dict.contains, Option.isSome_eq_false_iff, Option.isNone_iff_eq_none] at this
    exact this
  rintro s₃ ⟨own3, view3, gone3, m3, t3, n3, o3, v3, g3⟩
  have memClose : ∀ p, p ∈ ord (σ.owned.keys.filter (fun pid => !ν.owned.contains pid)) ↔ p ∈ σ.owned.keys ∧ p ∉ ν.owned.keys := by
    intro p
    rw [(hord _).mem_iff, List.mem_filter]
    simp [← Dict.contains_iff]
  simp only [memClose] at o3 g3
  have memUpd : ∀ p, p ∈ ord (ν.owned.keys.filter (fun pid => σ.owned.contains pid)) ↔ p ∈ ν.owned.keys ∧ p ∈ σ.owned.keys := by
    intro p
    rw [(hord _).mem_iff, List.mem_filter, Dict.contains_iff]
  have memOpen : ∀ p, p ∈ ord (ν.owned.keys.filter (fun pid => !σ.owned.contains pid)) ↔ p ∈ ν.owned.keys ∧ p ∉ σ.owned.keys := by
    intro p
    rw [(hord _).mem_iff, List.mem_filter]
    simp [← Dict.contains_iff]
  -- updating
  refine Sat.bind (updateAll_mid hmin hrec _ s₃ _ _ _ _ ((hord _).nodup_iff.2 (hνo.filter _)) m3 t3 n3 ?_
    (fun htt p hp => hnone htt p ((memUpd p).1 hp).2)) ?_
  · intro p hp
    rw [memUpd] at hp
    obtain ⟨r', hr'⟩ := Dict.mem_keys_iff.1 hp.1
    obtain ⟨r, hr⟩ := Dict.mem_keys_iff.1 hp.2
    refine ⟨r, r', ?_, by rw [hstge]; exact hr', hr, hr'⟩
    rw [o3, if_neg (fun hh => hh.2.2 hp.1), howne]; exact hr
  rintro s₄ ⟨own4, stg4, view4, gone4, m4, t4, n4, o4, st4, v4, g4⟩
  simp only [memUpd] at o4 st4 g4
  -- the agent adopts the strategy
  obtain ⟨ag4, ha4, hag1, hag2⟩ := hrec.of_skel (m4.skel me)
  obtain ⟨ν4, hν4, hν4o⟩ := Option.map_eq_some_iff.1 hag2
  have hid4 : ag4.id = me := m4.core.agentId _ _ ha4
  have hag4t := m4.tidy _ _ ha4
  simp only [Dict.getE_of ha4]
  set agN : Agent F := { ag4 with strategy := ag4.newStrategy, newStrategy := none } with hagN
  set s₅ : State F := s₄.setAgent agN with hs5
  have hget5 : ∀ b, s₅.agents.get? b = if b = me then some agN else s₄.agents.get? b := by
    intro b
    simp only [hs5, State.setAgent, Dict.get?_set]
    have : agN.id = me := hid4
    rw [this]
    by_cases hb : b = me
    · simp [hb]
    · simp [hb, Ne.symm hb]
  have hhas5 : ∀ d, HasStrat s₄ d → HasStrat s₅ d := by
    rintro d ⟨a', σ', k1, k2⟩
    by_cases hd : d = me
    · exact ⟨agN, ν4, by rw [hget5, if_pos hd], by rw [hagN]; exact hν4⟩
    · exact ⟨a', σ', by rw [hget5, if_neg hd]; exact k1, k2⟩
  have hmid5 : Mid n s₅ s₅ own4 stg4 := by
    refine ⟨m4.core.setAgent agN, ⟨m4.own.own_iff, m4.own.stg_ok, m4.own.stg_id, m4.own.stg_pool, m4.own.stg_uniq⟩, rfl, fun _ => rfl, ?_,
      fun r hr d hd => hhas5 d (m4.hasStrat (m4.del r hr d hd)), fun _ => SamePool.refl _⟩
    intro a b hb
    rw [hget5] at hb
    split at hb
    · cases hb
      exact ⟨hag4t.newAllocs, hag4t.newOwned, by simp [hagN], by simp [hagN]⟩
    · exact m4.tidy _ _ hb
  have htrk5 : t → Trk s s₅ me own4 stg4 view4 gone4 := by
    intro htt
    have T := t4 htt
    refine ⟨T.agree, T.good, ?_, T.was, T.copies, T.fresh, T.draft, ?_⟩
    · intro b hb p
      rw [T.link b hb p]; unfold allocOf; rw [hget5, if_neg hb]
    · intro b hb p
      have e : newOf s₅ b p = newOf s₄ b p := by unfold newOf; rw [hget5, if_neg hb]
      rw [e]; exact T.staged b hb p
  refine (openAll_mid (t := t) (s₀' := s) (νo := ν.owned) (view := view4) (gone := gone4) ?_ _ s₅ own4 stg4
    ((hord _).nodup_iff.2 (hνo.filter _)) hmid5 htrk5 ?_).imp ?_
  · rw [hget5, if_pos rfl]; simp [hagN, hν4, hν4o]
  · intro p hp
    rw [memOpen] at hp
    obtain ⟨r', hr'⟩ := Dict.mem_keys_iff.1 hp.1
    refine ⟨r', ?_, ?_, hr'⟩
    · rw [o4, if_neg (fun hh => hp.2 hh.2.2), o3, if_neg (fun hh => hp.2 hh.2.1), howne]
      exact Dict.get?_eq_none.2 hp.2
    · rw [st4, if_neg (fun hh => hp.2 hh.2.2), hstge]; exact hr'
  rintro s₆ ⟨own6, stg6, m6, t6, o6, st6, a6⟩
  simp only [memOpen] at o6 st6
  have hsk : ∀ b, b ≠ me → (s₆.agents.get? b).map Agent.skel = (s.agents.get? b).map Agent.skel := by
    intro b hb
    rw [m6.skel b, hget5, if_neg hb]; exact m4.skel b
  have hskme : (s₆.agents.get? me).map Agent.skel = (s.agents.get? me).map (fun ag => (ag.id, ag.stake, ag.cost, ag.profile, some ν.owned, none)) := by
    rw [m6.skel me, hget5, if_pos rfl, ha]
    have := m4.skel me
    rw [ha4, ha] at this
    simp only [Option.map_some, Option.some.injEq, Agent.skel, Prod.mk.injEq] at this
    obtain ⟨k1, k2, k3, k4, -, k5⟩ := this
    simp [Agent.skel, hagN, hν4, hν4o, k1, k2, k3, k4]
  obtain ⟨ag6, ha6, ν6, hν6, hν6o, hnew6⟩ : ∃ ag6, s₆.agents.get? me = some ag6 ∧ ∃ ν6, ag6.strategy = some ν6 ∧ ν6.owned = ν.owned ∧ ag6.newStrategy = none := by
    rw [ha] at hskme
    cases h6 : s₆.agents.get? me with
    | none => rw [h6] at hskme; cases hskme
    | some ag6 =>
      rw [h6] at hskme
      simp only [Option.map_some, Option.some.injEq, Agent.skel, Prod.mk.injEq] at hskme
      obtain ⟨-, -, -, -, k1, k2⟩ := hskme
      obtain ⟨ν6, k3, k4⟩ := Option.map_eq_some_iff.1 k1
      exact ⟨ag6, rfl, ν6, k3, k4, by simpa using k2⟩
  have hown6 : own6 = ownOf s₆ := by
    funext a p
    by_cases hame : a = me
    · subst hame
      have : ownOf s₆ a p = ν.owned.get? p := by simp [ownOf, ha6, hν6, hν6o]
      rw [this, o6, o4, o3, howne]
      by_cases c1 : p ∈ ν.owned.keys <;> by_cases c2 : p ∈ σ.owned.keys <;> simp [c1, c2]
      · exact (Dict.get?_eq_none.2 c1).symm
      · rw [Dict.get?_eq_none.2 c1, Dict.get?_eq_none.2 c2]
    · rw [o6, o4, o3]
      simp only [hame, false_and, if_false]
      exact (ownOf_of_skel (hsk a hame) p).1.symm
  have hstg6 : stg6 = stgOf s₆ := by
    funext a p
    by_cases hame : a = me
    · subst hame
      have : stgOf s₆ a p = none := by simp [stgOf, ha6, hnew6]
      rw [this, st6, st4, hstge]
      by_cases c1 : p ∈ ν.owned.keys <;> by_cases c2 : p ∈ σ.owned.keys <;> simp [c1, c2]
      · exact Dict.get?_eq_none.2 c1
      · exact Dict.get?_eq_none.2 c1
    · rw [st6, st4]
      simp only [hame, false_and, if_false]
      exact (ownOf_of_skel (hsk a hame) p).2.symm
  have hskb : ∀ b ag', s₆.agents.get? b = some ag' → b ≠ me → ∃ ag₀, s.agents.get? b = some ag₀ ∧ ag'.skel = ag₀.skel := by
    intro b ag' hb hne
    have := hsk b hne
    rw [hb] at this
    cases h7 : s.agents.get? b with
    | none => rw [h7] at this; cases this
    | some ag₀ => rw [h7] at this; exact ⟨ag₀, rfl, by simpa using this⟩
  have hprof6 : ag6.profile = ag.profile := by
    rw [ha, ha6] at hskme
    simp only [Option.map_some, Option.some.injEq, Agent.skel, Prod.mk.injEq] at hskme
    exact hskme.2.2.2.1
  have hinv : Inv n s₆ := by
    refine ⟨m6.core, hown6 ▸ hstg6 ▸ m6.own, m6.tidy, fun r hr d hd => m6.hasStrat (m6.del r (hown6 ▸ hstg6 ▸ hr) d hd), ?_, ?_⟩
    · intro b ag' hb hpb
      by_cases hbm : b = me
      · subst hbm
        rw [ha6] at hb; cases hb
        rw [hprof6] at hpb
        have := (h.abst _ _ ha hpb).1
        rw [hσ] at this; cases this
      · obtain ⟨ag₀, k1, k2⟩ := hskb b ag' hb hbm
        simp only [Agent.skel, Prod.mk.injEq] at k2
        obtain ⟨-, -, -, k3, k4, k5⟩ := k2
        obtain ⟨k6, k7⟩ := h.abst _ _ k1 (k3 ▸ hpb)
        rw [k6] at k4; rw [k7] at k5
        exact ⟨by simpa using k4, by simpa using k5⟩
    · intro b ag' hb hpb
      by_cases hbm : b = me
      · subst hbm
        rw [ha6] at hb; cases hb
        exact ⟨_, hν6⟩
      · obtain ⟨ag₀, k1, k2⟩ := hskb b ag' hb hbm
        simp only [Agent.skel, Prod.mk.injEq] at k2
        obtain ⟨-, -, -, k3, k4, k5⟩ := k2
        obtain ⟨σ', k6⟩ := h.strat _ _ k1 (k3 ▸ hpb)
        rw [k6] at k4
        obtain ⟨σ'', k7, -⟩ := Option.map_eq_some_iff.1 k4
        exact ⟨σ'', k7⟩
  refine ⟨⟨hinv, ?_, fun r => ?_, hsk, hskme⟩, fun htt => ?_⟩
  · rw [m6.frame]
    simp only [hs5, State.setAgent]
    rw [m4.frame]
  · have k1 := m4.same r
    have k2 := m6.same r
    exact k1.trans k2
  · have T := t6 htt
    have hviewme : ∀ p, view4 me p = ν.allocs.get? p := by
      intro p
      rw [v4 htt, v3 htt]
      simp only [if_true]
      cases c1 : ν.allocs.get? p with
      | some x =>
        have := ((hst htt).allocs p x c1).1
        simp [recorded, not_lt.2 this]
      | none =>
        simp only
        rw [hget0]
        by_cases c2 : p ∈ drop
        · rw [if_pos c2]
          simp [recorded, hmin]
        · rw [if_neg c2]
          simp only
          rw [halle]
          rw [hdropmem] at c2
          have : p ∉ ν.allocs.keys := Dict.get?_eq_none.1 c1
          exact Dict.get?_eq_none.2 (fun hh => c2 ⟨hh, this⟩)
    have hnu : ν4 = ν := by
      have := n4 htt
      unfold MeNew at this
      rw [ha4, ha] at this
      simp only [Option.map_some, Option.some.injEq] at this
      rw [hν4, hν] at this
      exact Option.some.inj this
    have hviewall : ∀ b p, view4 b p = allocOf s₆ b p := by
      intro b p
      by_cases hb : b = me
      · subst hb
        rw [hviewme]
        unfold allocOf; rw [a6, hget5, if_pos rfl]; simp [hagN, hν4, hnu]
      · exact T.link b hb p
    have hgone : ∀ p, gone4 p ↔ Gone s σ ν p := by
      intro p
      rw [g4, g3]
      unfold Gone
      constructor
      · rintro ((hf | ⟨k1, k2⟩) | ⟨⟨k1, k2⟩, k3⟩)
        · exact hf.elim
        · exact ⟨k1, Or.inl k2⟩
        · exact ⟨k2, Or.inr k3⟩
      · rintro ⟨k1, k2 | ⟨r', k2, k3⟩⟩
        · exact Or.inl (Or.inr ⟨k1, k2⟩)
        · exact Or.inr ⟨⟨Dict.mem_keys_of_get? k2, k1⟩, r', k2, k3⟩
    refine ⟨⟨?_, ?_⟩, ?_, ?_, ?_, ?_, ?_, ?_⟩
    · intro p r hp b; rw [T.agree p r hp b, hviewall]
    · intro b p x hx
      rw [← hviewall] at hx; exact T.good b p x hx
    · intro p; rw [← hviewall, hviewme]
    · intro b hb p hg
      rw [← hviewall]; exact (T.was b hb p).1 ((hgone p).2 hg)
    · intro b hb p hg
      rw [← hviewall]; exact (T.was b hb p).2 (fun hh => hg ((hgone p).1 hh))
    · intro b p r' hr'
      exact T.draft b p r' (hstg6 ▸ hr')
    · intro b hb p hg
      exact (T.staged b hb p).1 ((hgone p).2 hg)
    · intro b hb p hg
      exact (T.staged b hb p).2 (hg.imp (fun k kk => k ((hgone p).1 kk)) id)

theorem executeStrategy_spec (hmin : (0 : F) < minUnit) {n : Nat} {s : State F} (h : Inv n s) {ord : List Nat → List Nat} (hord : ∀ l, (ord l).Perm l)
    {me : Nat} {ag : Agent F} (ha : s.agents.get? me = some ag) {σ ν : Strategy F} (hσ : ag.strategy = some σ) (hν : ag.newStrategy = some ν)
    {t : Prop} (hseq : t → SeqInv s) (hst : t → Staged s me σ ν) :
    Sat (fun e => e = .key ∧ ¬ t) (executeStrategy ord s me) (fun s' => Executed n s s' me ν ∧ (t → ExecutedSeq s s' me σ ν)) := by
  refine (executeStrategy_books hmin h hord ha hσ hν (fun htt => (hseq htt).books) hst).imp ?_
  rintro s' ⟨e, k⟩
  refine ⟨e, fun htt => ?_⟩
  have K := k htt
  exact ⟨⟨by rw [e.frame]; exact (hseq htt).seq, K.books.agree, K.books.good⟩, K.mine, K.gone, K.kept⟩

end RSE
