import Verif.Lemmas.Exec

/-!
# Executing a strategy: the invariant between the operations

`own a pid` is the object that agent `a` currently operates under id `pid`, `stg a pid` an object staged by `a` and not
installed yet.
-/

set_option linter.unusedSectionVars false

namespace RSE

variable {F : Type} [LinearOrder F] [Zero F] [One F] [Add F] [Sub F] [Mul F] [Div F] [Neg F] [NatCast F] [FSum F]

/-- Ownership: which objects are open pools, which are staged, and who owns them. -/
structure Own (s : State F) (own stg : Nat → Nat → Option Ref) : Prop where
  own_iff : ∀ a pid r, own a pid = some r ↔ s.pools.get? pid = some r ∧ (s.heap r).owner = a
  stg_ok : ∀ a pid r, stg a pid = some r → r < s.next ∧ (s.heap r).id = pid ∧ (s.heap r).owner = a ∧ ∀ pid', s.pools.get? pid' ≠ some r
  stg_id : ∀ a pid r, stg a pid = some r → 1 ≤ pid ∧ pid ≤ s.idSeq
  stg_pool : ∀ a pid r, stg a pid = some r → ∀ q, s.pools.get? pid = some q → (s.heap q).owner = a
  stg_uniq : ∀ a a' pid r r', stg a pid = some r → stg a' pid = some r' → a = a'

/-- the object is an open pool or staged by somebody -/
def Live (own stg : Nat → Nat → Option Ref) (r : Ref) : Prop := ∃ a pid, own a pid = some r ∨ stg a pid = some r

/-- everything about an agent except its delegations -/
def Agent.skel (a : Agent F) : Nat × F × F × Profile × Option (Dict Ref) × Option (Dict Ref) :=
  (a.id, a.stake, a.cost, a.profile, a.strategy.map (·.owned), a.newStrategy.map (·.owned))

/-- no duplicate keys in the dictionaries of an agent -/
structure Agent.Tidy (a : Agent F) : Prop where
  allocs : ∀ σ, a.strategy = some σ → σ.allocs.keys.Nodup
  owned : ∀ σ, a.strategy = some σ → σ.owned.keys.Nodup
  newAllocs : ∀ ν, a.newStrategy = some ν → ν.allocs.keys.Nodup
  newOwned : ∀ ν, a.newStrategy = some ν → ν.owned.keys.Nodup

/-- the state `s` in the middle of an execution that began in `s₀` -/
structure Mid (n : Nat) (s₀ s : State F) (ow st : Nat → Nat → Option Ref) : Prop where
  core : Core n s
  own : Own s ow st
  frame : s = { s₀ with agents := s.agents, pools := s.pools, heap := s.heap, rank := s.rank, rankM := s.rankM }
  skel : ∀ a, (s.agents.get? a).map Agent.skel = (s₀.agents.get? a).map Agent.skel
  tidy : ∀ a ag, s.agents.get? a = some ag → ag.Tidy
  del : ∀ r, Live ow st r → ∀ d ∈ (s.heap r).delegators.keys, HasStrat s₀ d
  same : ∀ r, SamePool (s₀.heap r) (s.heap r)

/-- what an agent's strategy delegates to a pool -/
def allocOf (s : State F) (a pid : Nat) : Option F :=
  match s.agents.get? a with
  | none => none
  | some ag => ag.strategy.bind (fun σ => σ.allocs.get? pid)

/-- what an agent's staged strategy delegates to a pool -/
def newOf (s : State F) (a pid : Nat) : Option F :=
  match s.agents.get? a with
  | none => none
  | some ag => ag.newStrategy.bind (fun ν => ν.allocs.get? pid)

/-- Delegations while agent `me` executes, if the books were straight before: `view b pid` is what `b` delegates to `pid`; for agents
other than `me` this is what their strategy says, and it is what it was at the beginning (`s₀`) except for the pools in `gone`.  With simultaneous
activation the pools in `gone` have also been dropped from what other agents have staged. -/
structure Trk (s₀ s : State F) (me : Nat) (own stg : Nat → Nat → Option Ref) (view : Nat → Nat → Option F) (gone : Nat → Prop) : Prop where
  agree : ∀ pid r, s.pools.get? pid = some r → ∀ b, (s.heap r).delegators.get? b = view b pid
  good : ∀ b pid x, view b pid = some x → minUnit ≤ x ∧ ∃ r, s.pools.get? pid = some r ∧ (s.heap r).owner ≠ b
  link : ∀ b, b ≠ me → ∀ pid, view b pid = allocOf s b pid
  was : ∀ b, b ≠ me → ∀ pid, (gone pid → view b pid = none) ∧ (¬ gone pid → view b pid = allocOf s₀ b pid)
  copies : ∀ pid r r', own me pid = some r → stg me pid = some r' → ∀ b, (s.heap r').delegators.get? b = (s.heap r).delegators.get? b
  fresh : ∀ pid r', own me pid = none → stg me pid = some r' → (s.heap r').delegators = []
  draft : ∀ b pid r', stg b pid = some r' → s.heap r' = s₀.heap r'
  staged : ∀ b, b ≠ me → ∀ pid, (gone pid → s₀.simultaneous = true → newOf s b pid = none) ∧
    (¬ gone pid ∨ s₀.simultaneous = false → newOf s b pid = newOf s₀ b pid)

/-- nobody has touched what `me` has staged -/
def MeNew (s₀ s : State F) (me : Nat) : Prop :=
  (s.agents.get? me).map (·.newStrategy) = (s₀.agents.get? me).map (·.newStrategy)

/-- replace one value of a two-place function -/
def upd2 {V : Type} (f : Nat → Nat → V) (a pid : Nat) (v : V) : Nat → Nat → V := fun a' pid' => if a' = a ∧ pid' = pid then v else f a' pid'

theorem upd2_self {V : Type} (f : Nat → Nat → V) (a pid : Nat) (v : V) : upd2 f a pid v a pid = v := by simp [upd2]
theorem upd2_ne {V : Type} (f : Nat → Nat → V) {a pid a' pid' : Nat} (v : V) (h : pid' ≠ pid) : upd2 f a pid v a' pid' = f a' pid' := by
  simp [upd2, h]
theorem upd2_ne' {V : Type} (f : Nat → Nat → V) {a pid a' pid' : Nat} (v : V) (h : a' ≠ a) : upd2 f a pid v a' pid' = f a' pid' := by
  simp [upd2, h]

/-! ### Agents -/

theorem skel_dropAlloc (pid : Nat) (a : Agent F) : (dropAlloc pid a).skel = a.skel := by
  unfold Agent.skel dropAlloc
  cases a.strategy <;> rfl

theorem skel_unstage (pid : Nat) (a : Agent F) : (unstage pid a).skel = a.skel := by
  unfold Agent.skel unstage
  cases a.newStrategy <;> rfl

theorem skel_rmAgent (sim : Bool) (pid : Nat) (ds : List Nat) (aid : Nat) (a : Agent F) : (rmAgent sim pid ds aid a).skel = a.skel := by
  unfold rmAgent
  simp only
  split <;> split <;> simp [skel_dropAlloc, skel_unstage]

theorem tidy_dropAlloc {a : Agent F} (h : a.Tidy) (pid : Nat) : (dropAlloc pid a).Tidy := by
  refine ⟨?_, ?_, h.newAllocs, h.newOwned⟩
  · intro σ hσ
    obtain ⟨σ', h1, rfl⟩ := Option.map_eq_some_iff.1 hσ
    exact Dict.nodup_erase (h.allocs _ h1) _
  · intro σ hσ
    obtain ⟨σ', h1, rfl⟩ := Option.map_eq_some_iff.1 hσ
    exact h.owned σ' h1

theorem tidy_unstage {a : Agent F} (h : a.Tidy) (pid : Nat) : (unstage pid a).Tidy := by
  refine ⟨h.allocs, h.owned, ?_, ?_⟩
  · intro σ hσ
    obtain ⟨σ', h1, rfl⟩ := Option.map_eq_some_iff.1 hσ
    exact Dict.nodup_erase (h.newAllocs _ h1) _
  · intro σ hσ
    obtain ⟨σ', h1, rfl⟩ := Option.map_eq_some_iff.1 hσ
    exact h.newOwned σ' h1

theorem tidy_rmAgent {a : Agent F} (h : a.Tidy) (sim : Bool) (pid : Nat) (ds : List Nat) (aid : Nat) : (rmAgent sim pid ds aid a).Tidy := by
  unfold rmAgent
  simp only
  split <;> split
  · exact tidy_unstage (tidy_dropAlloc h _) _
  · exact tidy_unstage h _
  · exact tidy_dropAlloc h _
  · exact h

theorem hasStrat_of_skel {s s' : State F} (h : ∀ a, (s'.agents.get? a).map Agent.skel = (s.agents.get? a).map Agent.skel) {d : Nat}
    (hd : HasStrat s d) : HasStrat s' d := by
  obtain ⟨a, σ, h1, h2⟩ := hd
  have := h d
  rw [h1] at this
  cases h3 : s'.agents.get? d with
  | none => rw [h3] at this; cases this
  | some a' =>
    rw [h3] at this
    simp only [Option.map_some, Option.some.injEq, Agent.skel, Prod.mk.injEq] at this
    have h4 := this.2.2.2.2.1
    rw [h2] at h4
    cases h5 : a'.strategy with
    | none => rw [h5] at h4; cases h4
    | some σ' => exact ⟨a', σ', h3, h5⟩

/-- the agents' list after `remove_delegations` -/
def rmAgents (s : State F) (r : Ref) : Dict (Agent F) :=
  s.agents.map (fun e => (e.1, rmAgent s.simultaneous (s.heap r).id (s.heap r).delegators.keys e.1 e.2))

theorem get?_rmAgents (s : State F) (r : Ref) (b : Nat) :
    (rmAgents s r).get? b = (s.agents.get? b).map (fun a => rmAgent s.simultaneous (s.heap r).id (s.heap r).delegators.keys b a) :=
  Dict.get?_map_snd s.agents (fun k a => rmAgent s.simultaneous (s.heap r).id (s.heap r).delegators.keys k a) b

theorem keys_rmAgents (s : State F) (r : Ref) : (rmAgents s r).keys = s.agents.keys :=
  Dict.keys_map_snd s.agents (fun k a => rmAgent s.simultaneous (s.heap r).id (s.heap r).delegators.keys k a)

theorem skel_rmAgents (s : State F) (r : Ref) (b : Nat) :
    ((rmAgents s r).get? b).map Agent.skel = (s.agents.get? b).map Agent.skel := by
  rw [get?_rmAgents]
  cases s.agents.get? b with
  | none => rfl
  | some a => simp [skel_rmAgent]

theorem id_rmAgents {s : State F} (h : ∀ aid a, s.agents.get? aid = some a → a.id = aid) (r : Ref) :
    ∀ aid a, (rmAgents s r).get? aid = some a → a.id = aid := by
  intro aid a ha
  have h1 := skel_rmAgents s r aid
  rw [ha] at h1
  cases h2 : s.agents.get? aid with
  | none => rw [h2] at h1; cases h1
  | some a' =>
    rw [h2] at h1
    simp only [Option.map_some, Option.some.injEq, Agent.skel, Prod.mk.injEq] at h1
    rw [h1.1]; exact h _ _ h2

theorem tidy_rmAgents {s : State F} (h : ∀ a ag, s.agents.get? a = some ag → ag.Tidy) (r : Ref) :
    ∀ a ag, (rmAgents s r).get? a = some ag → ag.Tidy := by
  intro a ag hg
  rw [get?_rmAgents] at hg
  obtain ⟨a', h1, rfl⟩ := Option.map_eq_some_iff.1 hg
  exact tidy_rmAgent (h _ _ h1) _ _ _ _

/-- `remove_delegations` cancels exactly the delegations to the pool, if the pool lists all of them -/
theorem allocOf_rmAgents {s : State F} (ht : ∀ a ag, s.agents.get? a = some ag → ag.Tidy) (r : Ref) (s' : State F)
    (hs' : s'.agents = rmAgents s r) (b pid : Nat) (hb : (∃ x, allocOf s b (s.heap r).id = some x) → b ∈ (s.heap r).delegators.keys) :
    allocOf s' b pid = if pid = (s.heap r).id then none else allocOf s b pid := by
  unfold allocOf at hb ⊢
  rw [hs', get?_rmAgents]
  cases h1 : s.agents.get? b with
  | none => simp
  | some a =>
    rw [h1] at hb
    simp only [Option.map_some] at hb ⊢
    have hun : ∀ x : Agent F, (unstage (s.heap r).id x).strategy = x.strategy := fun _ => rfl
    have hst : (rmAgent s.simultaneous (s.heap r).id (s.heap r).delegators.keys b a).strategy =
        if b ∈ (s.heap r).delegators.keys then a.strategy.map (fun σ => { σ with allocs := σ.allocs.erase (s.heap r).id }) else a.strategy := by
      unfold rmAgent
      simp only
      split <;> split <;> rfl
    rw [hst]
    by_cases hbd : b ∈ (s.heap r).delegators.keys
    · simp only [hbd, if_true]
      cases h2 : a.strategy with
      | none => simp
      | some σ =>
        simp only [Option.map_some, Option.bind_some]
        rw [Dict.get?_erase ((ht _ _ h1).allocs _ h2)]
        by_cases hp : pid = (s.heap r).id
        · simp [hp]
        · simp [hp, Ne.symm hp]
    · simp only [hbd, if_false]
      by_cases hp : pid = (s.heap r).id
      · simp only [hp, if_true]
        cases h3 : a.strategy.bind (fun σ => σ.allocs.get? (s.heap r).id) with
        | none => rfl
        | some x => exact absurd (hb ⟨x, h3⟩) hbd
      · simp [hp]

/-- ... and, with simultaneous activation, what is staged for the pool -/
theorem newOf_rmAgents {s : State F} (ht : ∀ a ag, s.agents.get? a = some ag → ag.Tidy) (r : Ref) (s' : State F)
    (hs' : s'.agents = rmAgents s r) (b pid : Nat) :
    newOf s' b pid = if pid = (s.heap r).id ∧ s.simultaneous = true then none else newOf s b pid := by
  unfold newOf
  rw [hs', get?_rmAgents]
  cases h1 : s.agents.get? b with
  | none => simp
  | some a =>
    simp only [Option.map_some]
    have hst : (rmAgent s.simultaneous (s.heap r).id (s.heap r).delegators.keys b a).newStrategy =
        if s.simultaneous = true then a.newStrategy.map (fun ν => { ν with allocs := ν.allocs.erase (s.heap r).id }) else a.newStrategy := by
      unfold rmAgent
      simp only
      split <;> split <;> rfl
    rw [hst]
    by_cases hsim : s.simultaneous = true
    · rw [if_pos hsim]
      cases h2 : a.newStrategy with
      | none => simp
      | some ν =>
        simp only [Option.map_some, Option.bind_some]
        rw [Dict.get?_erase ((ht _ _ h1).newAllocs _ h2)]
        by_cases hp : pid = (s.heap r).id
        · simp [hp, hsim]
        · simp [hp, Ne.symm hp]
    · rw [if_neg hsim, if_neg (fun h => hsim h.2)]

/-- what is staged does not change if nothing is staged for the pool -/
theorem new_rmAgent {s : State F} {pid aid : Nat} (h : newOf s aid pid = none) (ds : List Nat) :
    ((s.agents.get? aid).map (fun a => rmAgent s.simultaneous pid ds aid a)).map (·.newStrategy) = (s.agents.get? aid).map (·.newStrategy) := by
  unfold newOf at h
  cases h1 : s.agents.get? aid with
  | none => rfl
  | some a =>
    rw [h1] at h
    simp only [Option.map_some, Option.some.injEq]
    have hst : (rmAgent s.simultaneous pid ds aid a).newStrategy =
        if s.simultaneous = true then a.newStrategy.map (fun ν => { ν with allocs := ν.allocs.erase pid }) else a.newStrategy := by
      unfold rmAgent
      simp only
      split <;> split <;> rfl
    rw [hst]
    split
    · cases h2 : a.newStrategy with
      | none => rfl
      | some ν =>
        simp only [h2, Option.bind_some] at h
        simp only [Option.map_some, Dict.erase_of_not_mem (Dict.get?_eq_none.1 h)]
    · rfl

theorem MeNew.newOf {s₀ s : State F} {me : Nat} (h : MeNew s₀ s me) (pid : Nat) : newOf s me pid = newOf s₀ me pid := by
  unfold MeNew at h
  unfold RSE.newOf
  cases h1 : s.agents.get? me <;> cases h2 : s₀.agents.get? me <;> rw [h1, h2] at h <;> simp at h
  all_goals first | rfl | simp only [h]

/-! ### Closing a pool -/

theorem Mid.hasStrat {n : Nat} {s₀ s : State F} {own stg : Nat → Nat → Option Ref} (h : Mid n s₀ s own stg) {d : Nat} (hd : HasStrat s₀ d) :
    HasStrat s d := hasStrat_of_skel h.skel hd

theorem closePool_mid (hmin : (0 : F) < minUnit) {n : Nat} {s₀ s : State F} {me : Nat} {own stg : Nat → Nat → Option Ref} (h : Mid n s₀ s own stg)
    {t : Prop} {view : Nat → Nat → Option F} {gone : Nat → Prop} (ht : t → Trk s₀ s me own stg view gone)
    (N : t → MeNew s₀ s me) {pid : Nat} {r : Ref} (hnone : t → newOf s₀ me pid = none) (hown : own me pid = some r) (hstg : stg me pid = none) :
    Sat (fun e => e = .key ∧ ¬ t) (closePool s pid) (fun s' => Mid n s₀ s' (upd2 own me pid none) stg ∧
      (t → Trk s₀ s' me (upd2 own me pid none) stg (fun b p => if p = pid then none else view b p) (fun p => gone p ∨ p = pid)) ∧
      (t → MeNew s₀ s' me)) := by
  obtain ⟨hp, howner⟩ := (h.own.own_iff _ _ _).1 hown
  obtain ⟨hrn, hrid, -, -⟩ := h.core.poolRef _ _ hp
  obtain ⟨l, lm, e1, e2, c⟩ := h.core.closeRef hp
  unfold closePool
  rw [Dict.getE_of hp]
  simp only [bind, Except.bind, e1, e2]
  refine Sat.bind ((removeDelegations_spec (s := { s with rank := l, rankM := lm }) (r := r) h.core.agentsNodup h.core.agentId (h.core.delNodup r)
    (fun d hd => h.hasStrat (h.del r ⟨me, pid, Or.inl hown⟩ d hd))).mono ?_ (fun _ h => h)) ?_
  · rintro e ⟨rfl, d, hd, a, σ, h1, h2, h3⟩
    refine ⟨rfl, fun htt => ?_⟩
    obtain ⟨x, hx⟩ := Dict.mem_keys_iff.1 hd
    have T := ht htt
    rw [T.agree pid r hp d] at hx
    obtain ⟨-, r', hr', ho⟩ := T.good _ _ _ hx
    rw [hp] at hr'; cases hr'
    have hdm : d ≠ me := fun h => ho (h ▸ howner)
    rw [T.link d hdm] at hx
    simp only at h1 h3
    rw [hrid] at h3
    simp [allocOf, h1, h2, h3] at hx
  rintro s₂ rfl
  simp only [Dict.popE_of hp, Sat.pure_iff]
  set s' : State F := { s with
    rank := l, rankM := lm, agents := rmAgents s r, pools := s.pools.erase pid,
    heap := Function.update s.heap r (clearAll (s.heap r) (s.heap r).delegators.keys) } with hs'
  change Mid n s₀ s' _ stg ∧ (t → Trk s₀ s' me _ stg _ _) ∧ (t → MeNew s₀ s' me)
  have hsame : ∀ q, SamePool (s.heap q) (s'.heap q) := by
    intro q
    by_cases hq : q = r
    · subst hq; simp only [hs', Function.update_self]; exact samePool_clearAll _ _
    · simp only [hs', Function.update_of_ne hq]; exact SamePool.refl _
  have hpools : ∀ pid', s'.pools.get? pid' = if pid = pid' then none else s.pools.get? pid' := fun pid' =>
    Dict.get?_erase h.core.poolsNodup pid pid'
  have hnr : ∀ pid', s'.pools.get? pid' ≠ some r := by
    intro pid' hh
    rw [hpools] at hh
    split at hh
    · cases hh
    · rename_i hne; exact hne (h.core.ref_inj hp hh)
  have hkeys : ∀ q d, d ∈ (s'.heap q).delegators.keys → d ∈ (s.heap q).delegators.keys := by
    intro q d hd
    by_cases hq : q = r
    · subst hq
      simp only [hs', Function.update_self] at hd
      rw [clearAll_keys hmin (h.core.delNodup q)] at hd
      simp [Dict.keys] at hd
    · simpa only [hs', Function.update_of_ne hq] using hd
  have hlive : ∀ q, Live (upd2 own me pid none) stg q → Live own stg q := by
    rintro q ⟨a, p, hq | hq⟩
    · refine ⟨a, p, Or.inl ?_⟩
      unfold upd2 at hq
      split at hq
      · cases hq
      · exact hq
    · exact ⟨a, p, Or.inr hq⟩
  have hmid : Mid n s₀ s' (upd2 own me pid none) stg := by
    refine ⟨?_, ⟨?_, ?_, h.own.stg_id, ?_, h.own.stg_uniq⟩, ?_, ?_, tidy_rmAgents h.tidy r, fun q hq d hd => h.del q (hlive q hq) d (hkeys q d hd), fun q => (h.same q).trans (hsame q)⟩
    · have c1 := (c.setPool_draft (r := r) hnr (clearAll (s.heap r) (s.heap r).delegators.keys)
        (nodup_clearAll _ _ (h.core.delNodup r))).setAgents (ag := rmAgents s r)
        (by rw [keys_rmAgents]; exact h.core.agentsNodup) (id_rmAgents h.core.agentId r)
      exact c1
    · intro a pid' q
      rw [hpools, (hsame q).owner]
      by_cases hpp : pid' = pid
      · subst hpp
        simp only [if_true, false_and, iff_false, reduceCtorEq]
        by_cases ham : a = me
        · subst ham; rw [upd2_self]; simp
        · rw [upd2_ne' _ _ ham]
          intro hh
          obtain ⟨g1, g2⟩ := (h.own.own_iff _ _ _).1 hh
          rw [hp] at g1; cases g1
          exact ham (g2.symm.trans howner)
      · rw [upd2_ne _ _ hpp, if_neg (Ne.symm hpp)]; exact h.own.own_iff _ _ _
    · intro a pid' q hq
      obtain ⟨g1, g2, g3, g4⟩ := h.own.stg_ok _ _ _ hq
      refine ⟨g1, by rw [(hsame q).id]; exact g2, by rw [(hsame q).owner]; exact g3, fun pid'' hh => ?_⟩
      rw [hpools] at hh
      split at hh
      · cases hh
      · exact g4 _ hh
    · intro a pid' q hq q' hq'
      rw [hpools] at hq'
      rw [(hsame q').owner]
      split at hq'
      · cases hq'
      · exact h.own.stg_pool _ _ _ hq _ hq'
    · rw [hs', h.frame]
    · intro a; exact (skel_rmAgents s r a).trans (h.skel a)
  refine ⟨hmid, fun htt => ?_, fun htt => ?_⟩
  swap
  · refine Eq.trans ?_ (N htt)
    simp only [hs', get?_rmAgents]
    exact new_rmAgent (by rw [hrid, (N htt).newOf]; exact hnone htt) _
  have T := ht htt
  have hal : ∀ b, b ≠ me → ∀ p, allocOf s' b p = if p = pid then none else allocOf s b p := by
    intro b hb p
    rw [← hrid]
    refine allocOf_rmAgents h.tidy r s' rfl b p ?_
    rintro ⟨x, hx⟩
    rw [hrid, ← T.link b hb, ← T.agree pid r hp] at hx
    exact Dict.mem_keys_of_get? hx
  have hsim : s.simultaneous = s₀.simultaneous := by rw [h.frame]
  refine ⟨?_, ?_, ?_, ?_, ?_, ?_, ?_, ?_⟩
  · intro p q hq b
    rw [hpools] at hq
    split at hq
    · cases hq
    · rename_i hne
      simp only [if_neg (Ne.symm hne)]
      rw [← T.agree p q hq b]
      have : q ≠ r := fun hqr => hne (h.core.ref_inj hp (hqr ▸ hq))
      simp only [hs', Function.update_of_ne this]
  · intro b p x hx
    split at hx
    · cases hx
    · rename_i hne
      obtain ⟨g1, q, g2, g3⟩ := T.good _ _ _ hx
      exact ⟨g1, q, by rw [hpools, if_neg (Ne.symm hne)]; exact g2, by rw [(hsame q).owner]; exact g3⟩
  · intro b hb p
    rw [hal b hb p]
    split
    · rfl
    · exact T.link b hb p
  · intro b hb p
    refine ⟨fun hg => ?_, fun hg => ?_⟩
    · split
      · rfl
      · rename_i hne
        exact (T.was b hb p).1 (hg.resolve_right hne)
    · rw [if_neg (fun h => hg (Or.inr h))]
      exact (T.was b hb p).2 (fun h => hg (Or.inl h))
  · intro p q q' hq hq' b
    have hpp : p ≠ pid := by
      rintro rfl; rw [upd2_self] at hq; cases hq
    rw [upd2_ne _ _ hpp] at hq
    have h1 := T.copies p q q' hq hq' b
    have hqr : q ≠ r := by
      rintro rfl
      exact hpp (h.core.ref_inj ((h.own.own_iff _ _ _).1 hq).1 hp)
    have hqr' : q' ≠ r := by
      rintro rfl
      exact (h.own.stg_ok _ _ _ hq').2.2.2 _ hp
    simp only [hs', Function.update_of_ne hqr, Function.update_of_ne hqr']
    exact h1
  · intro p q' hq hq'
    have hpp : p ≠ pid := by
      rintro rfl; rw [hstg] at hq'; cases hq'
    rw [upd2_ne _ _ hpp] at hq
    have hqr' : q' ≠ r := by
      rintro rfl
      exact (h.own.stg_ok _ _ _ hq').2.2.2 _ hp
    simp only [hs', Function.update_of_ne hqr']
    exact T.fresh p q' hq hq'
  · intro b p q' hq'
    have hqr' : q' ≠ r := by
      rintro rfl
      exact (h.own.stg_ok _ _ _ hq').2.2.2 _ hp
    simp only [hs', Function.update_of_ne hqr']
    exact T.draft b p q' hq'
  · intro b hb p
    rw [newOf_rmAgents h.tidy r s' rfl b p, hrid, hsim]
    refine ⟨fun hg h0 => ?_, fun hg => ?_⟩
    · split
      · rfl
      · rename_i hne
        exact (T.staged b hb p).1 (hg.resolve_right (fun e => hne ⟨e, h0⟩)) h0
    · rw [if_neg]
      · exact (T.staged b hb p).2 (hg.imp (fun h k => h (Or.inl k)) id)
      · rintro ⟨k1, k2⟩
        rcases hg with hg | hg
        · exact hg (Or.inr k1)
        · rw [hg] at k2; cases k2

/-! ### Replacing a pool by its staged version -/

theorem Dict.get?_of_perm {V : Type} {d d' : Dict V} (h : d'.Perm d) (hn : d.keys.Nodup) (k : Nat) : d'.get? k = d.get? k := by
  have hn' : d'.keys.Nodup := (h.map Prod.fst).nodup_iff.2 hn
  cases hk : d.get? k with
  | none =>
    rw [Dict.get?_eq_none] at hk ⊢
    intro hm; exact hk ((h.map Prod.fst).mem_iff.1 hm)
  | some v =>
    exact Dict.get?_of_mem hn' (h.mem_iff.2 (Dict.mem_of_get? hk))

theorem Core.congrPools {n : Nat} {s : State F} (h : Core n s) {d : Dict Ref} (hd : d.Perm s.pools) : Core n { s with pools := d } := by
  refine ⟨h.agentsNodup, h.agentId, (hd.map Prod.fst).nodup_iff.2 h.poolsNodup, ?_, h.rankSorted, ?_, h.rankMSorted, ?_, h.delNodup⟩
  · intro pid r hp
    rw [Dict.get?_of_perm hd h.poolsNodup] at hp
    exact h.poolRef _ _ hp
  · exact h.rankPerm.trans ((hd.symm.map _).append_left _)
  · exact h.rankMPerm.trans ((hd.symm.map _).append_left _)

theorem Dict.set_set {V : Type} (d : Dict V) (k : Nat) (v w : V) : (d.set k v).set k w = d.set k w := by
  induction d with
  | nil => simp [Dict.set]
  | cons e t ih =>
    obtain ⟨k', v'⟩ := e
    by_cases hk : k' = k
    · simp [Dict.set, hk]
    · simp [Dict.set, hk, ih]

theorem Core.replaceRef {n : Nat} {s : State F} (h : Core n s) {pid : Nat} {r r' : Ref} (hp : s.pools.get? pid = some r)
    (hr : r' < s.next) (hid : (s.heap r').id = pid) :
    ∃ l lm, s.rank.remove (poolKey (s.heap r)) (some r) = .ok l ∧ s.rankM.remove (poolKeyM s.rs (s.heap r)) (some r) = .ok lm ∧
      Core n { s with
        pools := s.pools.set pid r'
        rank := l.add (poolKey (s.heap r')) (some r')
        rankM := lm.add (poolKeyM s.rs (s.heap r')) (some r') } := by
  obtain ⟨l, lm, h1, h2, c⟩ := h.closeRef hp
  obtain ⟨-, -, g1, g2⟩ := h.poolRef _ _ hp
  refine ⟨l, lm, h1, h2, ?_⟩
  have c2 := c.openRef (pid := pid) (r := r') (by simp only; rw [Dict.get?_erase h.poolsNodup]; simp) hr hid g1 g2
  refine c2.congrPools (d := s.pools.set pid r') ?_
  have hne : pid ∉ (s.pools.erase pid).keys := Dict.get?_eq_none.1 (by rw [Dict.get?_erase h.poolsNodup]; simp)
  refine (Dict.set_perm _ _ _).trans ((Dict.set_perm (s.pools.erase pid) pid r').trans ?_).symm
  rw [Dict.erase_of_not_mem hne]

/-- the pool turns private while it has delegators: its delegators are sent away (stakeholder.py:356-358) -/
def Expels (s : State F) (r : Ref) : Prop := (s.heap r).isPrivate = true ∧ (s.heap r).stake > (s.heap r).pledge

instance (s : State F) (r : Ref) : Decidable (Expels s r) := by unfold Expels; infer_instance

/-- the staged object `r'` (possibly with its delegators removed) takes the place of the open pool `r` -/
theorem install_mid {n : Nat} {s₀ s : State F} {me : Nat} {own stg : Nat → Nat → Option Ref} (h : Mid n s₀ s own stg)
    {t : Prop} {view : Nat → Nat → Option F} {gone : Nat → Prop} (ht : t → Trk s₀ s me own stg view gone)
    {pid : Nat} {r r' : Ref} (hown : own me pid = some r) (hstg : stg me pid = some r')
    {A : Dict (Agent F)} {p' : Pool F} (hA1 : A.keys.Nodup) (hA2 : ∀ aid a, A.get? aid = some a → a.id = aid)
    (hA3 : ∀ a, (A.get? a).map Agent.skel = (s.agents.get? a).map Agent.skel) (hA4 : ∀ a ag, A.get? a = some ag → ag.Tidy)
    (hp1 : SamePool (s.heap r') p') (hp2 : p'.delegators.keys.Nodup) (hp3 : ∀ d ∈ p'.delegators.keys, d ∈ (s.heap r').delegators.keys)
    {c : Prop} [Decidable c]
    (hc1 : t → ∀ b, p'.delegators.get? b = if c then none else (s.heap r').delegators.get? b)
    (hc2 : t → ∀ s' : State F, s'.agents = A → ∀ b, b ≠ me → ∀ p, allocOf s' b p = if p = pid ∧ c then none else allocOf s b p)
    (hc3 : t → ∀ s' : State F, s'.agents = A → ∀ b, b ≠ me → ∀ p,
      newOf s' b p = if (p = pid ∧ c) ∧ s.simultaneous = true then none else newOf s b p) :
    ∃ l lm, s.rank.remove (poolKey (Function.update s.heap r' p' r)) (some r) = .ok l ∧
      s.rankM.remove (poolKeyM s.rs (Function.update s.heap r' p' r)) (some r) = .ok lm ∧
      (∀ s' : State F, s' = { s with
          agents := A
          heap := Function.update s.heap r' p'
          pools := s.pools.set pid r'
          rank := l.add (poolKey p') (some r')
          rankM := lm.add (poolKeyM s.rs p') (some r') } →
        Mid n s₀ s' (upd2 own me pid (some r')) (upd2 stg me pid none) ∧
        (t → Trk s₀ s' me (upd2 own me pid (some r')) (upd2 stg me pid none) (fun b p => if p = pid ∧ c then none else view b p)
          (fun p => gone p ∨ (p = pid ∧ c)))) := by
  obtain ⟨hp, howner⟩ := (h.own.own_iff _ _ _).1 hown
  obtain ⟨hrn, hrid, -, -⟩ := h.core.poolRef _ _ hp
  obtain ⟨h1, h2, h3, h4⟩ := h.own.stg_ok _ _ _ hstg
  have hrr : r ≠ r' := fun e => h4 pid (e ▸ hp)
  have c1 : Core n { s with agents := A, heap := Function.update s.heap r' p' } :=
    (h.core.setPool_draft (r := r') h4 p' hp2).setAgents (ag := A) hA1 hA2
  obtain ⟨l, lm, e1, e2, c2⟩ := c1.replaceRef (pid := pid) (r := r) (r' := r') hp h1 (by simp only [Function.update_self]; rw [hp1.id]; exact h2)
  refine ⟨l, lm, e1, e2, ?_⟩
  intro s' hs'
  have hsame : ∀ q, SamePool (s.heap q) (s'.heap q) := by
    intro q
    by_cases hq : q = r'
    · subst hq; simp only [hs', Function.update_self]; exact hp1
    · simp only [hs', Function.update_of_ne hq]; exact SamePool.refl _
  have hpools : ∀ pid', s'.pools.get? pid' = if pid = pid' then some r' else s.pools.get? pid' := by
    intro pid'; rw [hs']; exact Dict.get?_set _ _ _ _
  have hkeys : ∀ q d, d ∈ (s'.heap q).delegators.keys → d ∈ (s.heap q).delegators.keys := by
    intro q d hd
    by_cases hq : q = r'
    · subst hq
      simp only [hs', Function.update_self] at hd
      exact hp3 d hd
    · simpa only [hs', Function.update_of_ne hq] using hd
  have hstgne : ∀ a p q, upd2 stg me pid none a p = some q → stg a p = some q ∧ q ≠ r' := by
    intro a p q hq
    by_cases hap : a = me ∧ p = pid
    · obtain ⟨rfl, rfl⟩ := hap; rw [upd2_self] at hq; cases hq
    · have hq' : stg a p = some q := by simpa [upd2, hap] using hq
      refine ⟨hq', ?_⟩
      rintro rfl
      obtain ⟨-, g2, g3, -⟩ := h.own.stg_ok _ _ _ hq'
      exact hap ⟨g3.symm.trans h3, g2.symm.trans h2⟩
  have hlive : ∀ q, Live (upd2 own me pid (some r')) (upd2 stg me pid none) q → Live own stg q := by
    rintro q ⟨a, p, hq | hq⟩
    · unfold upd2 at hq
      split at hq
      · cases hq; exact ⟨me, pid, Or.inr hstg⟩
      · exact ⟨a, p, Or.inl hq⟩
    · exact ⟨a, p, Or.inr (hstgne _ _ _ hq).1⟩
  have hmid : Mid n s₀ s' (upd2 own me pid (some r')) (upd2 stg me pid none) := by
    refine ⟨?_, ⟨?_, ?_, ?_, ?_, ?_⟩, ?_, ?_, ?_, fun q hq d hd => h.del q (hlive q hq) d (hkeys q d hd), fun q => (h.same q).trans (hsame q)⟩
    · rw [hs']; simpa only [Function.update_self] using c2
    · intro a pid' q
      rw [hpools, (hsame q).owner]
      by_cases hpp : pid' = pid
      · subst hpp
        simp only [if_true, Option.some.injEq]
        by_cases ham : a = me
        · subst ham; rw [upd2_self]
          constructor
          · intro hh; cases hh; exact ⟨rfl, h3⟩
          · rintro ⟨rfl, -⟩; rfl
        · rw [upd2_ne' _ _ ham]
          constructor
          · intro hh
            obtain ⟨g1, g2⟩ := (h.own.own_iff _ _ _).1 hh
            rw [hp] at g1; cases g1
            exact absurd (g2.symm.trans howner) ham
          · rintro ⟨rfl, g⟩
            exact absurd (g.symm.trans h3) ham
      · rw [upd2_ne _ _ hpp, if_neg (Ne.symm hpp)]; exact h.own.own_iff _ _ _
    · intro a pid' q hq
      obtain ⟨hq', hne⟩ := hstgne _ _ _ hq
      obtain ⟨g1, g2, g3, g4⟩ := h.own.stg_ok _ _ _ hq'
      refine ⟨by rw [hs']; exact g1, by rw [(hsame q).id]; exact g2, by rw [(hsame q).owner]; exact g3, fun pid'' hh => ?_⟩
      rw [hpools] at hh
      split at hh
      · cases hh; exact hne rfl
      · exact g4 _ hh
    · intro a pid' q hq
      rw [hs']; exact h.own.stg_id _ _ _ (hstgne _ _ _ hq).1
    · intro a pid' q hq q' hq'
      rw [hpools] at hq'
      rw [(hsame q').owner]
      split at hq'
      · rename_i he; subst he; cases hq'
        exact h3.trans (h.own.stg_uniq _ _ _ _ _ hstg (hstgne _ _ _ hq).1)
      · exact h.own.stg_pool _ _ _ (hstgne _ _ _ hq).1 _ hq'
    · intro a a' pid' q q' hq hq'
      exact h.own.stg_uniq _ _ _ _ _ (hstgne _ _ _ hq).1 (hstgne _ _ _ hq').1
    · rw [hs', h.frame]
    · intro a; rw [hs']; exact (hA3 a).trans (h.skel a)
    · rw [hs']; exact hA4
  refine ⟨hmid, fun htt => ?_⟩
  have T := ht htt
  have hal := hc2 htt s' (by rw [hs'])
  have hnw := hc3 htt s' (by rw [hs'])
  have hsim : s.simultaneous = s₀.simultaneous := by rw [h.frame]
  have hdel := hc1 htt
  have hview : ∀ b, (s.heap r').delegators.get? b = view b pid := by
    intro b
    rw [T.copies pid r r' hown hstg b, T.agree pid r hp b]
  have hheapne : ∀ q, q ≠ r' → s'.heap q = s.heap q := by
    intro q hq; rw [hs']; exact Function.update_of_ne hq _ _
  have hheapr : s'.heap r' = p' := by rw [hs']; exact Function.update_self _ _ _
  refine ⟨?_, ?_, ?_, ?_, ?_, ?_, ?_, ?_⟩
  · intro p q hq b
    rw [hpools] at hq
    split at hq
    · rename_i he; subst he; cases hq
      rw [hheapr, hdel b, hview b]
      by_cases hc : c <;> simp [hc]
    · rename_i hne
      have hqr : q ≠ r' := fun hqr => h4 p (hqr ▸ hq)
      rw [hheapne q hqr, T.agree p q hq b, if_neg (fun hh => hne hh.1.symm)]
  · intro b p x hx
    split at hx
    · cases hx
    · obtain ⟨g1, q, g2, g3⟩ := T.good _ _ _ hx
      refine ⟨g1, ?_⟩
      by_cases hpp : p = pid
      · subst hpp
        refine ⟨r', by rw [hpools, if_pos rfl], ?_⟩
        rw [hp] at g2; cases g2
        rw [(hsame r').owner, h3, ← howner]; exact g3
      · exact ⟨q, by rw [hpools, if_neg (Ne.symm hpp)]; exact g2, by rw [(hsame q).owner]; exact g3⟩
  · intro b hb p
    rw [hal b hb p]
    split
    · rfl
    · exact T.link b hb p
  · intro b hb p
    refine ⟨fun hg => ?_, fun hg => ?_⟩
    · split
      · rfl
      · rename_i hne
        exact (T.was b hb p).1 (hg.resolve_right hne)
    · rw [if_neg (fun h => hg (Or.inr h))]
      exact (T.was b hb p).2 (fun h => hg (Or.inl h))
  · intro p q q' hq hq' b
    obtain ⟨g, gne⟩ := hstgne _ _ _ hq'
    have hpp : p ≠ pid := by
      rintro rfl; rw [upd2_self] at hq'; cases hq'
    rw [upd2_ne _ _ hpp] at hq
    have hqr : q ≠ r' := by
      rintro rfl
      exact h4 _ ((h.own.own_iff _ _ _).1 hq).1
    rw [hheapne q hqr, hheapne q' gne]
    exact T.copies p q q' hq g b
  · intro p q' hq hq'
    obtain ⟨g, gne⟩ := hstgne _ _ _ hq'
    have hpp : p ≠ pid := by
      rintro rfl; rw [upd2_self] at hq'; cases hq'
    rw [upd2_ne _ _ hpp] at hq
    rw [hheapne q' gne]
    exact T.fresh p q' hq g
  · intro b p q' hq'
    obtain ⟨g, gne⟩ := hstgne _ _ _ hq'
    rw [hheapne q' gne]
    exact T.draft b p q' g
  · intro b hb p
    rw [hnw b hb p, hsim]
    refine ⟨fun hg h0 => ?_, fun hg => ?_⟩
    · split
      · rfl
      · rename_i hne
        exact (T.staged b hb p).1 (hg.resolve_right (fun e => hne ⟨e, h0⟩)) h0
    · rw [if_neg]
      · exact (T.staged b hb p).2 (hg.imp (fun h k => h (Or.inl k)) id)
      · rintro ⟨k1, k2⟩
        rcases hg with hg | hg
        · exact hg (Or.inr k1)
        · rw [hg] at k2; cases k2

/-- what `me` operates and has staged, as recorded in the agent object (`σo`, `νo`: the two `owned_pools` dictionaries) -/
def Recorded (s : State F) (me : Nat) (σo νo : Dict Ref) : Prop :=
  ∃ ag, s.agents.get? me = some ag ∧ ag.strategy.map (·.owned) = some σo ∧ ag.newStrategy.map (·.owned) = some νo

theorem Recorded.of_skel {s s' : State F} {me : Nat} {σo νo : Dict Ref} (h : Recorded s me σo νo)
    (hs : (s'.agents.get? me).map Agent.skel = (s.agents.get? me).map Agent.skel) : Recorded s' me σo νo := by
  obtain ⟨ag, h1, h2, h3⟩ := h
  rw [h1] at hs
  cases h4 : s'.agents.get? me with
  | none => rw [h4] at hs; cases hs
  | some ag' =>
    rw [h4] at hs
    simp only [Option.map_some, Option.some.injEq, Agent.skel, Prod.mk.injEq] at hs
    exact ⟨ag', h4, hs.2.2.2.2.1.trans h2, hs.2.2.2.2.2.trans h3⟩

theorem updatePool_mid (hmin : (0 : F) < minUnit) {n : Nat} {s₀ s : State F} {me : Nat} {own stg : Nat → Nat → Option Ref} (h : Mid n s₀ s own stg)
    {t : Prop} {view : Nat → Nat → Option F} {gone : Nat → Prop} (ht : t → Trk s₀ s me own stg view gone)
    (N : t → MeNew s₀ s me) {σo νo : Dict Ref} (hrec : Recorded s₀ me σo νo)
    {pid : Nat} {r r' : Ref} (hnone : t → newOf s₀ me pid = none) (hown : own me pid = some r) (hstg : stg me pid = some r')
    (hσ : σo.get? pid = some r) (hν : νo.get? pid = some r') :
    Sat (fun e => e = .key ∧ ¬ t) (updatePool s me pid) (fun s' => Mid n s₀ s' (upd2 own me pid (some r')) (upd2 stg me pid none) ∧
      (t → Trk s₀ s' me (upd2 own me pid (some r')) (upd2 stg me pid none) (fun b p => if p = pid ∧ Expels s₀ r' then none else view b p)
        (fun p => gone p ∨ (p = pid ∧ Expels s₀ r'))) ∧
      (t → MeNew s₀ s' me)) := by
  obtain ⟨hp, howner⟩ := (h.own.own_iff _ _ _).1 hown
  obtain ⟨h1, h2, h3, h4⟩ := h.own.stg_ok _ _ _ hstg
  obtain ⟨ag, ha, hag1, hag2⟩ := hrec.of_skel (h.skel me)
  obtain ⟨ν, hν1, hν2⟩ := Option.map_eq_some_iff.1 hag2
  have hE : t → (Expels s r' ↔ Expels s₀ r') := by
    intro htt; unfold Expels; rw [(ht htt).draft me pid r' hstg]
  unfold updatePool
  rw [Dict.getE_of ha]
  simp only [bind, Except.bind, hν1]
  rw [hν2, Dict.getE_of hν]
  simp only
  -- the state after the delegators were (possibly) sent away
  refine Sat.bind (P := fun s₁ => ∃ A p', s₁ = { s with agents := A, heap := Function.update s.heap r' p' } ∧ A.keys.Nodup ∧
      (∀ aid a, A.get? aid = some a → a.id = aid) ∧ (∀ a, (A.get? a).map Agent.skel = (s.agents.get? a).map Agent.skel) ∧
      (∀ a ag, A.get? a = some ag → ag.Tidy) ∧ SamePool (s.heap r') p' ∧ p'.delegators.keys.Nodup ∧
      (∀ d ∈ p'.delegators.keys, d ∈ (s.heap r').delegators.keys) ∧
      (t → ∀ b, p'.delegators.get? b = if Expels s₀ r' then none else (s.heap r').delegators.get? b) ∧
      (t → ∀ s' : State F, s'.agents = A → ∀ b, b ≠ me → ∀ p, allocOf s' b p = if p = pid ∧ Expels s₀ r' then none else allocOf s b p) ∧
      (t → ∀ s' : State F, s'.agents = A → ∀ b, b ≠ me → ∀ p,
        newOf s' b p = if (p = pid ∧ Expels s₀ r') ∧ s.simultaneous = true then none else newOf s b p) ∧
      (t → (A.get? me).map (·.newStrategy) = (s.agents.get? me).map (·.newStrategy))) ?_ ?_
  · split
    · rename_i hcond
      refine (removeDelegations_spec h.core.agentsNodup h.core.agentId (h.core.delNodup r') (fun d hd => h.hasStrat (h.del r' ⟨me, pid, Or.inr hstg⟩ d hd))).mono ?_ ?_
      · rintro e ⟨rfl, d, hd, a, σ', g1, g2, g3⟩
        refine ⟨rfl, fun htt => ?_⟩
        obtain ⟨x, hx⟩ := Dict.mem_keys_iff.1 hd
        have T := ht htt
        rw [T.copies pid r r' hown hstg, T.agree pid r hp d] at hx
        obtain ⟨-, q, hq, ho⟩ := T.good _ _ _ hx
        rw [hp] at hq; cases hq
        have hdm : d ≠ me := fun h => ho (h ▸ howner)
        rw [T.link d hdm] at hx
        rw [h2] at g3
        simp [allocOf, g1, g2, g3] at hx
      · rintro s₁ rfl
        refine ⟨rmAgents s r', _, rfl, by rw [keys_rmAgents]; exact h.core.agentsNodup, id_rmAgents h.core.agentId r', skel_rmAgents s r',
          tidy_rmAgents h.tidy r', samePool_clearAll _ _, nodup_clearAll _ _ (h.core.delNodup r'), ?_, ?_, ?_, ?_, ?_⟩
        · intro d hd
          rw [clearAll_keys hmin (h.core.delNodup r')] at hd
          simp [Dict.keys] at hd
        · intro htt b
          rw [clearAll_keys hmin (h.core.delNodup r'), if_pos ((hE htt).1 hcond)]; rfl
        · intro htt s' hs' b hb p
          have T := ht htt
          have hx := (hE htt).1 hcond
          rw [allocOf_rmAgents h.tidy r' s' hs' b p, h2]
          · simp [hx]
          · rintro ⟨x, hx⟩
            rw [h2, ← T.link b hb, ← T.agree pid r hp, ← T.copies pid r r' hown hstg] at hx
            exact Dict.mem_keys_of_get? hx
        · intro htt s' hs' b hb p
          rw [newOf_rmAgents h.tidy r' s' hs' b p, h2]
          simp [(hE htt).1 hcond]
        · intro htt
          rw [get?_rmAgents]
          exact new_rmAgent (by rw [h2, (N htt).newOf]; exact hnone htt) _
    · rename_i hcond
      refine ⟨s.agents, s.heap r', ?_, h.core.agentsNodup, h.core.agentId, fun _ => rfl, h.tidy, SamePool.refl _, h.core.delNodup r',
        fun _ hd => hd, ?_, ?_, ?_, fun _ => rfl⟩
      · rw [Function.update_eq_self]
      · intro htt b
        rw [if_neg (fun hx => hcond ((hE htt).2 hx))]
      · intro htt s' hs' b hb p
        rw [if_neg (fun hx => hcond ((hE htt).2 hx.2))]
        unfold allocOf; rw [hs']
      · intro htt s' hs' b hb p
        rw [if_neg (fun hx => hcond ((hE htt).2 hx.1.2))]
        unfold newOf; rw [hs']
  rintro s₁ ⟨A, p', rfl, hA1, hA2, hA3, hA4, hp1, hp2, hp3, hc1, hc2, hc4, hc3⟩
  obtain ⟨l, lm, e1, e2, hres⟩ := install_mid h ht hown hstg hA1 hA2 hA3 hA4 hp1 hp2 hp3 hc1 hc2 hc4
  obtain ⟨ag', ha', hag1', -⟩ := hrec.of_skel (s' := { s with agents := A }) ((hA3 me).trans (h.skel me))
  simp only at ha'
  obtain ⟨σ, hσ1, hσ2⟩ := Option.map_eq_some_iff.1 hag1'
  simp only [Dict.getE_of ha', hσ1]
  rw [hσ2, Dict.getE_of hσ]
  simp only [e1, e2, Function.update_self, Dict.set_set, Sat.pure_iff]
  obtain ⟨m1, m2⟩ := hres _ rfl
  exact ⟨m1, m2, fun htt => (hc3 htt).trans (N htt)⟩

/-! ### Opening a pool -/

theorem openPool_mid {n : Nat} {s₀ s₀' s : State F} {me : Nat} {own stg : Nat → Nat → Option Ref} (h : Mid n s₀ s own stg)
    {t : Prop} {view : Nat → Nat → Option F} {gone : Nat → Prop} (ht : t → Trk s₀' s me own stg view gone)
    {νo : Dict Ref} (hrec : (s₀.agents.get? me).map (fun ag => ag.strategy.map (·.owned)) = some (some νo))
    {pid : Nat} {r' : Ref} (hown : own me pid = none) (hstg : stg me pid = some r') (hν : νo.get? pid = some r') :
    Sat (fun e => e = .key ∧ ¬ t) (openPool s me pid) (fun s' => Mid n s₀ s' (upd2 own me pid (some r')) (upd2 stg me pid none) ∧
      (t → Trk s₀' s' me (upd2 own me pid (some r')) (upd2 stg me pid none) view gone) ∧ s'.agents = s.agents) := by
  obtain ⟨h1, h2, h3, h4⟩ := h.own.stg_ok _ _ _ hstg
  have hp : s.pools.get? pid = none := by
    cases hh : s.pools.get? pid with
    | none => rfl
    | some q =>
      exfalso
      have := (h.own.own_iff me pid q).2 ⟨hh, h.own.stg_pool _ _ _ hstg _ hh⟩
      rw [hown] at this; cases this
  obtain ⟨ag, ha, σ, hσ1, hσ2⟩ : ∃ ag, s.agents.get? me = some ag ∧ ∃ σ, ag.strategy = some σ ∧ σ.owned = νo := by
    have := h.skel me
    cases h5 : s₀.agents.get? me with
    | none => rw [h5] at hrec; cases hrec
    | some a₀ =>
      rw [h5] at hrec this
      cases h6 : s.agents.get? me with
      | none => rw [h6] at this; cases this
      | some ag =>
        rw [h6] at this
        simp only [Option.map_some, Option.some.injEq, Agent.skel, Prod.mk.injEq] at this hrec
        exact ⟨ag, rfl, Option.map_eq_some_iff.1 (this.2.2.2.2.1.trans hrec)⟩
  unfold openPool
  rw [Dict.getE_of ha]
  simp only [bind, Except.bind, hσ1]
  rw [hσ2, Dict.getE_of hν]
  simp only [Sat.pure_iff]
  have hids := h.own.stg_id _ _ _ hstg
  have c := h.core.openRef hp h1 h2 hids.1 hids.2
  set s' : State F := { s with
      pools := s.pools.set pid r'
      rank := s.rank.add (poolKey (s.heap r')) (some r')
      rankM := s.rankM.add (poolKeyM s.rs (s.heap r')) (some r') } with hs'
  have hpools : ∀ pid', s'.pools.get? pid' = if pid = pid' then some r' else s.pools.get? pid' := by
    intro pid'; rw [hs']; exact Dict.get?_set _ _ _ _
  have hstgne : ∀ a p q, upd2 stg me pid none a p = some q → stg a p = some q ∧ q ≠ r' := by
    intro a p q hq
    by_cases hap : a = me ∧ p = pid
    · obtain ⟨rfl, rfl⟩ := hap; rw [upd2_self] at hq; cases hq
    · have hq' : stg a p = some q := by simpa [upd2, hap] using hq
      refine ⟨hq', ?_⟩
      rintro rfl
      obtain ⟨-, g2, g3, -⟩ := h.own.stg_ok _ _ _ hq'
      exact hap ⟨g3.symm.trans h3, g2.symm.trans h2⟩
  have hlive : ∀ q, Live (upd2 own me pid (some r')) (upd2 stg me pid none) q → Live own stg q := by
    rintro q ⟨a, p, hq | hq⟩
    · unfold upd2 at hq
      split at hq
      · cases hq; exact ⟨me, pid, Or.inr hstg⟩
      · exact ⟨a, p, Or.inl hq⟩
    · exact ⟨a, p, Or.inr (hstgne _ _ _ hq).1⟩
  have hmid : Mid n s₀ s' (upd2 own me pid (some r')) (upd2 stg me pid none) := by
    refine ⟨c, ⟨?_, ?_, ?_, ?_, ?_⟩, ?_, h.skel, h.tidy, fun q hq => h.del q (hlive q hq), h.same⟩
    · intro a pid' q
      rw [hpools]
      by_cases hpp : pid' = pid
      · subst hpp
        simp only [if_true, Option.some.injEq]
        by_cases ham : a = me
        · subst ham; rw [upd2_self]
          constructor
          · intro hh; cases hh; exact ⟨rfl, h3⟩
          · rintro ⟨rfl, -⟩; rfl
        · rw [upd2_ne' _ _ ham]
          constructor
          · intro hh
            obtain ⟨g1, g2⟩ := (h.own.own_iff _ _ _).1 hh
            rw [hp] at g1; cases g1
          · rintro ⟨rfl, g⟩
            exact absurd (g.symm.trans h3) ham
      · rw [upd2_ne _ _ hpp, if_neg (Ne.symm hpp)]; exact h.own.own_iff _ _ _
    · intro a pid' q hq
      obtain ⟨hq', hne⟩ := hstgne _ _ _ hq
      obtain ⟨g1, g2, g3, g4⟩ := h.own.stg_ok _ _ _ hq'
      refine ⟨g1, g2, g3, fun pid'' hh => ?_⟩
      rw [hpools] at hh
      split at hh
      · cases hh; exact hne rfl
      · exact g4 _ hh
    · intro a pid' q hq
      exact h.own.stg_id _ _ _ (hstgne _ _ _ hq).1
    · intro a pid' q hq q' hq'
      rw [hpools] at hq'
      split at hq'
      · rename_i he; subst he; cases hq'
        exact h3.trans (h.own.stg_uniq _ _ _ _ _ hstg (hstgne _ _ _ hq).1)
      · exact h.own.stg_pool _ _ _ (hstgne _ _ _ hq).1 _ hq'
    · intro a a' pid' q q' hq hq'
      exact h.own.stg_uniq _ _ _ _ _ (hstgne _ _ _ hq).1 (hstgne _ _ _ hq').1
    · rw [hs', h.frame]
  refine ⟨hmid, fun htt => ?_, trivial⟩
  have T := ht htt
  refine ⟨?_, ?_, T.link, T.was, ?_, ?_, ?_, T.staged⟩
  · intro p q hq b
    rw [hpools] at hq
    split at hq
    · rename_i he; subst he; cases hq
      change (s.heap r').delegators.get? b = _
      rw [T.fresh pid r' hown hstg]
      cases hv : view b pid with
      | none => rfl
      | some x =>
        obtain ⟨-, q, hq, -⟩ := T.good _ _ _ hv
        rw [hp] at hq; cases hq
    · exact T.agree p q hq b
  · intro b p x hx
    obtain ⟨g1, q, g2, g3⟩ := T.good _ _ _ hx
    refine ⟨g1, q, ?_, g3⟩
    rw [hpools, if_neg]; · exact g2
    rintro rfl; rw [hp] at g2; cases g2
  · intro p q q' hq hq' b
    obtain ⟨g, gne⟩ := hstgne _ _ _ hq'
    have hpp : p ≠ pid := by
      rintro rfl; rw [upd2_self] at hq'; cases hq'
    rw [upd2_ne _ _ hpp] at hq
    exact T.copies p q q' hq g b
  · intro p q' hq hq'
    obtain ⟨g, gne⟩ := hstgne _ _ _ hq'
    have hpp : p ≠ pid := by
      rintro rfl; rw [upd2_self] at hq'; cases hq'
    rw [upd2_ne _ _ hpp] at hq
    exact T.fresh p q' hq g
  · intro b p q' hq'
    exact T.draft b p q' (hstgne _ _ _ hq').1

end RSE
