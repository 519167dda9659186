import Verif.Lemmas.Core

/-!
# Changing delegations: `setDelegation(s)`, the greedy allocation and `find_delegation_move`
-/

set_option linter.unusedSectionVars false

namespace RSE

variable {F : Type} [LinearOrder F] [Zero F] [One F] [Add F] [Sub F] [Mul F] [Div F] [Neg F] [NatCast F] [FSum F]

/-- two pool objects agree except for stake and delegators -/
structure SamePool (p q : Pool F) : Prop where
  id : q.id = p.id
  cost : q.cost = p.cost
  pledge : q.pledge = p.pledge
  owner : q.owner = p.owner
  isPrivate : q.isPrivate = p.isPrivate
  pp : q.pp = p.pp
  margin : q.margin = p.margin
  des : q.des = p.des

theorem SamePool.refl (p : Pool F) : SamePool p p := ⟨rfl, rfl, rfl, rfl, rfl, rfl, rfl, rfl⟩

theorem SamePool.trans {p q r : Pool F} (h : SamePool p q) (g : SamePool q r) : SamePool p r :=
  ⟨g.id.trans h.id, g.cost.trans h.cost, g.pledge.trans h.pledge, g.owner.trans h.owner, g.isPrivate.trans h.isPrivate,
    g.pp.trans h.pp, g.margin.trans h.margin, g.des.trans h.des⟩

theorem samePool_updateDelegation (p : Pool F) (x : F) (a : Nat) : SamePool p (p.updateDelegation x a) :=
  ⟨rfl, rfl, rfl, rfl, rfl, rfl, rfl, rfl⟩

theorem SamePool.key {p q : Pool F} (h : SamePool p q) : poolKey q = poolKey p := by
  unfold poolKey; rw [h.des, h.pp, h.id]

theorem get?_updateDelegation_self {p : Pool F} (h : p.delegators.keys.Nodup) (x : F) (a : Nat) :
    (p.updateDelegation x a).delegators.get? a = if x < minUnit then none else some x := by
  unfold Pool.updateDelegation
  simp only
  split
  · rw [Dict.get?_erase (Dict.nodup_set h _ _)]; simp
  · simp

theorem get?_updateDelegation_ne (p : Pool F) (x : F) {a b : Nat} (hab : a ≠ b) :
    (p.updateDelegation x a).delegators.get? b = p.delegators.get? b := by
  unfold Pool.updateDelegation
  simp only
  split
  · rw [Dict.get?_erase_ne _ hab, Dict.get?_set_ne _ _ hab]
  · rw [Dict.get?_set_ne _ _ hab]

/-- `s'` differs from `s` only in delegations of agent `a` to pools with ids in `ids` (and in the myopic ranking accordingly) -/
structure Shuf (a : Nat) (ids : List Nat) (s s' : State F) : Prop where
  eq : s' = { s with heap := s'.heap, rankM := s'.rankM }
  same : ∀ r, SamePool (s.heap r) (s'.heap r)
  others : ∀ r b, b ≠ a → (s'.heap r).delegators.get? b = (s.heap r).delegators.get? b
  untouched : ∀ r, (∀ pid ∈ ids, s.pools.get? pid ≠ some r) → s'.heap r = s.heap r

theorem Shuf.refl (a : Nat) (ids : List Nat) (s : State F) : Shuf a ids s s :=
  ⟨rfl, fun _ => SamePool.refl _, fun _ _ _ => rfl, fun _ _ => rfl⟩

theorem Shuf.pools {a : Nat} {ids : List Nat} {s s' : State F} (h : Shuf a ids s s') : s'.pools = s.pools := by rw [h.eq]
theorem Shuf.agents {a : Nat} {ids : List Nat} {s s' : State F} (h : Shuf a ids s s') : s'.agents = s.agents := by rw [h.eq]
theorem Shuf.rs {a : Nat} {ids : List Nat} {s s' : State F} (h : Shuf a ids s s') : s'.rs = s.rs := by rw [h.eq]
theorem Shuf.next {a : Nat} {ids : List Nat} {s s' : State F} (h : Shuf a ids s s') : s'.next = s.next := by rw [h.eq]
theorem Shuf.idSeq {a : Nat} {ids : List Nat} {s s' : State F} (h : Shuf a ids s s') : s'.idSeq = s.idSeq := by rw [h.eq]
theorem Shuf.rank {a : Nat} {ids : List Nat} {s s' : State F} (h : Shuf a ids s s') : s'.rank = s.rank := by rw [h.eq]

theorem Shuf.trans {a : Nat} {ids₁ ids₂ ids : List Nat} {s s' s'' : State F} (h : Shuf a ids₁ s s') (g : Shuf a ids₂ s' s'')
    (h1 : ∀ i ∈ ids₁, i ∈ ids) (h2 : ∀ i ∈ ids₂, i ∈ ids) : Shuf a ids s s'' := by
  refine ⟨?_, fun r => (h.same r).trans (g.same r), fun r b hb => (g.others r b hb).trans (h.others r b hb), ?_⟩
  · rw [g.eq, h.eq]
  · intro r hr
    rw [g.untouched r, h.untouched r]
    · exact fun pid hp => hr pid (h1 _ hp)
    · rw [h.pools]; exact fun pid hp => hr pid (h2 _ hp)

/-- one delegation is changed -/
theorem setDelegation_spec {n : Nat} {s : State F} (h : Core n s) {pid : Nat} {r : Ref} (hp : s.pools.get? pid = some r) (x : F) (a : Nat) :
    ∃ s', setDelegation s pid x a = .ok s' ∧ Core n s' ∧ Shuf a [pid] s s' ∧
      s'.heap = Function.update s.heap r ((s.heap r).updateDelegation x a) := by
  obtain ⟨lm, h1, h2⟩ := h.setDelegation hp x a
  refine ⟨_, h1, h2, ⟨rfl, ?_, ?_, ?_⟩, rfl⟩
  · intro r'
    by_cases hr : r' = r
    · subst hr; simp only [Function.update_self]; exact samePool_updateDelegation _ _ _
    · simp only [Function.update_of_ne hr]; exact SamePool.refl _
  · intro r' b hb
    by_cases hr : r' = r
    · subst hr; simp only [Function.update_self]; exact get?_updateDelegation_ne _ _ hb.symm
    · simp only [Function.update_of_ne hr]
  · intro r' hr'
    have : r' ≠ r := by
      rintro rfl; exact hr' pid (by simp) hp
    simp only [Function.update_of_ne this]

/-- what a delegation request leaves behind: requests below one unit delete the delegation -/
def recorded (x : F) : Option F := if x < minUnit then none else some x

/-- a sequence of delegation changes of agent `a`; fails only if some pool does not exist -/
theorem setDelegations_spec {n : Nat} (a : Nat) : ∀ (l : Dict F) (s : State F), Core n s → l.keys.Nodup →
    Sat (fun e => e = .key ∧ ∃ pid ∈ l.keys, s.pools.get? pid = none) (setDelegations s a l) (fun s' =>
      Core n s' ∧ Shuf a l.keys s s' ∧
      ∀ pid r, s.pools.get? pid = some r → (s'.heap r).delegators.get? a =
        match l.get? pid with
        | none => (s.heap r).delegators.get? a
        | some x => recorded x)
  | [], s, h, _ => by
    refine ⟨h, Shuf.refl _ _ _, ?_⟩
    intro pid r _; rfl
  | (pid, x) :: t, s, h, hnd => by
    simp only [Dict.keys, List.map_cons, List.nodup_cons] at hnd
    unfold setDelegations
    cases hp : s.pools.get? pid with
    | none =>
      rw [setDelegation_missing hp]
      exact ⟨rfl, pid, by simp [Dict.keys], hp⟩
    | some r =>
      obtain ⟨s₁, e1, c1, sh1, hh1⟩ := setDelegation_spec h hp x a
      rw [e1]
      refine Sat.mono (setDelegations_spec a t s₁ c1 hnd.2) ?_ ?_
      · rintro e ⟨rfl, pid', hm, hn⟩
        rw [sh1.pools] at hn
        exact ⟨rfl, pid', List.mem_cons_of_mem _ hm, hn⟩
      · rintro s₂ ⟨c2, sh2, hv⟩
        refine ⟨c2, sh1.trans sh2 (by intro i hi; simp only [List.mem_singleton] at hi; subst hi; simp [Dict.keys])
          (fun i hi => List.mem_cons_of_mem _ hi), ?_⟩
        intro pid' r' hp'
        have := hv pid' r' (by rw [sh1.pools]; exact hp')
        rw [this, hh1]
        simp only [Dict.get?_cons]
        by_cases hpp : pid = pid'
        · subst hpp
          rw [hp] at hp'; cases hp'
          have : Dict.get? t pid = none := Dict.get?_eq_none.2 hnd.1
          rw [this]
          simp only [Function.update_self, if_true]
          exact get?_updateDelegation_self (h.delNodup r) x a
        · have hr : r' ≠ r := by
            rintro rfl
            exact hpp (h.ref_inj hp hp')
          simp only [Function.update_of_ne hr, if_neg hpp]

/-! ### Greedy allocation -/

/-- an allocation dictionary that agent `a` may execute in state `s` -/
structure GoodAllocs (s : State F) (a : Nat) (d : Dict F) : Prop where
  nodup : d.keys.Nodup
  good : ∀ pid x, d.get? pid = some x → minUnit ≤ x ∧
    ∃ r, s.pools.get? pid = some r ∧ (s.heap r).owner ≠ a ∧ (s.heap r).isPrivate = false

theorem GoodAllocs.nil (s : State F) (a : Nat) : GoodAllocs s a ([] : Dict F) := ⟨by simp [Dict.keys], by simp⟩

theorem GoodAllocs.set {s : State F} {a : Nat} {d : Dict F} (h : GoodAllocs s a d) {pid : Nat} {x : F} (hx : minUnit ≤ x)
    (hr : ∃ r, s.pools.get? pid = some r ∧ (s.heap r).owner ≠ a ∧ (s.heap r).isPrivate = false) : GoodAllocs s a (d.set pid x) := by
  refine ⟨Dict.nodup_set h.nodup _ _, ?_⟩
  intro pid' x' hg
  rw [Dict.get?_set] at hg
  split at hg
  · rename_i he; subst he; cases hg; exact ⟨hx, hr⟩
  · exact h.good _ _ hg

/-- eligible: open, public, owned by somebody else -/
def Eligible (s : State F) (a : Nat) (r : Ref) : Prop :=
  s.pools.get? (s.heap r).id = some r ∧ (s.heap r).owner ≠ a ∧ (s.heap r).isPrivate = false

theorem eligible_of_mem {n : Nat} {s : State F} (h : Core n s) {me : Agent F} {r : Ref} (hr : r ∈ eligiblePools s me) :
    Eligible s me.id r := by
  unfold eligiblePools at hr
  obtain ⟨e, he, hr⟩ := List.mem_filterMap.1 hr
  cases e with
  | none => cases hr
  | some r' =>
    simp only at hr
    split at hr
    · rename_i hc; cases hr
      exact ⟨h.of_mem_rankingsOf he, hc.1, hc.2⟩
    · cases hr

theorem greedy_good {s : State F} {a : Nat} {heap : Ref → Pool F} (hsame : ∀ r, SamePool (s.heap r) (heap r)) (rs : RS F) :
    ∀ (l : List Ref) (stake : F) (best : Option Ref) (d : Dict F), (∀ r ∈ l, Eligible s a r) →
      (∀ b, best = some b → Eligible s a b) → GoodAllocs s a d → minUnit ≤ stake →
      GoodAllocs s a (greedy rs heap l stake best d).2.2 ∧
      ∀ b, (greedy rs heap l stake best d).2.1 = some b → Eligible s a b
  | [], stake, best, d, _, hb, hd, _ => ⟨hd, hb⟩
  | r :: t, stake, best, d, hl, hb, hd, hst => by
    have ht : ∀ r' ∈ t, Eligible s a r' := fun r' h => hl r' (List.mem_cons_of_mem _ h)
    have hr := hl r List.mem_cons_self
    unfold greedy
    simp only
    split
    · refine greedy_good hsame rs t stake _ d ht ?_ hd hst
      intro b hb'
      cases best with
      | none => simp only [Option.some.injEq] at hb'; subst hb'; exact hr
      | some b' => simp only [Option.some.injEq] at hb'; subst hb'; exact hb _ rfl
    · rename_i hsat
      have hd' : GoodAllocs s a (d.set (heap r).id (min stake (rs.sat (heap r).pledge - (heap r).stake))) := by
        refine hd.set (le_min hst (not_lt.1 hsat)) ⟨r, ?_, hr.2⟩
        rw [(hsame r).id]; exact hr.1
      split
      · exact ⟨hd', hb⟩
      · rename_i hge
        exact greedy_good hsame rs t _ best _ ht hb hd' (not_lt.1 hge)

theorem greedyAllocations_good {s : State F} {a : Nat} {heap : Ref → Pool F} (hsame : ∀ r, SamePool (s.heap r) (heap r)) (rs : RS F)
    {l : List Ref} {stake : F} (hl : ∀ r ∈ l, Eligible s a r) (hst : minUnit ≤ stake) :
    GoodAllocs s a (greedyAllocations rs heap l stake) := by
  have h := greedy_good hsame rs l stake none [] hl (by simp) (GoodAllocs.nil s a) hst
  unfold greedyAllocations
  generalize greedy rs heap l stake none [] = g at h
  obtain ⟨rest, best, d⟩ := g
  simp only at h ⊢
  cases best with
  | none => exact h.1
  | some b =>
    simp only
    split
    · rename_i hge
      have hb := h.2 b rfl
      refine h.1.set hge ⟨b, ?_, hb.2⟩
      rw [(hsame b).id]; exact hb.1
    · exact h.1

theorem GoodAllocs.of_shuf {a b : Nat} {ids : List Nat} {s s' : State F} (h : Shuf b ids s s') {d : Dict F} (hd : GoodAllocs s a d) :
    GoodAllocs s' a d := by
  refine ⟨hd.nodup, fun pid x hx => ?_⟩
  obtain ⟨h1, r, h2, h3, h4⟩ := hd.good pid x hx
  exact ⟨h1, r, by rw [h.pools]; exact h2, by rw [(h.same r).owner]; exact h3, by rw [(h.same r).isPrivate]; exact h4⟩

/-! ### `determine_stake_allocations` and `find_delegation_move` -/

/-- the effect of planning a delegation on the delegations of the planning agent: either untouched or re-recorded -/
def Restored (a : Nat) (allocs : Dict F) (s s' : State F) : Prop :=
  ∀ pid r, s.pools.get? pid = some r →
    (s'.heap r).delegators.get? a = (s.heap r).delegators.get? a ∨
    (s'.heap r).delegators.get? a = match allocs.get? pid with
      | none => (s.heap r).delegators.get? a
      | some x => recorded x

theorem determineStakeAllocations_spec {n : Nat} {s : State F} (h : Core n s) (me : Agent F) (σ : Strategy F)
    (hσ : σ.allocs.keys.Nodup) (stake : F) (hst : minUnit ≤ stake) :
    Sat (fun e => e = .key ∧ ∃ pid ∈ σ.allocs.keys, s.pools.get? pid = none) (determineStakeAllocations s me σ stake) (fun res =>
      Core n res.1 ∧ Shuf me.id σ.allocs.keys s res.1 ∧ Restored me.id σ.allocs s res.1 ∧
      ∀ d, res.2 = some d → GoodAllocs res.1 me.id d) := by
  unfold determineStakeAllocations
  simp only
  split
  · exact ⟨h, Shuf.refl _ _ _, fun _ _ _ => Or.inl rfl, by simp⟩
  · have hk : Dict.keys (σ.allocs.map (fun e => (e.1, (0 : F)))) = σ.allocs.keys := Dict.keys_map_snd σ.allocs (fun _ _ => (0 : F))
    refine Sat.bind (P := fun s₁ => Core n s₁ ∧ Shuf me.id σ.allocs.keys s s₁ ∧
        ∀ pid r, s.pools.get? pid = some r → σ.allocs.get? pid = none →
          (s₁.heap r).delegators.get? me.id = (s.heap r).delegators.get? me.id) ?_ ?_
    · have := setDelegations_spec me.id (σ.allocs.map (fun e => (e.1, (0 : F)))) s h (by rw [hk]; exact hσ)
      rw [hk] at this
      refine this.imp ?_
      rintro s₁ ⟨c, sh, hv⟩
      refine ⟨c, sh, fun pid r hp hno => ?_⟩
      have := hv pid r hp
      rw [Dict.get?_map_snd σ.allocs (fun _ _ => (0 : F)), hno] at this
      exact this
    · rintro s₁ ⟨c1, sh1, hv1⟩
      refine Sat.bind (P := fun s₂ => Core n s₂ ∧ Shuf me.id σ.allocs.keys s₁ s₂ ∧
          ∀ pid r, s₁.pools.get? pid = some r → (s₂.heap r).delegators.get? me.id =
            match σ.allocs.get? pid with
            | none => (s₁.heap r).delegators.get? me.id
            | some x => recorded x) ?_ ?_
      · refine (setDelegations_spec me.id σ.allocs s₁ c1 hσ).mono ?_ (fun _ h => h)
        rintro e ⟨rfl, pid, hm, hn⟩
        rw [sh1.pools] at hn
        exact ⟨rfl, pid, hm, hn⟩
      · rintro s₂ ⟨c2, sh2, hv2⟩
        have sh : Shuf me.id σ.allocs.keys s s₂ := sh1.trans sh2 (fun _ h => h) (fun _ h => h)
        refine ⟨c2, sh, ?_, ?_⟩
        · intro pid r hp
          right
          have := hv2 pid r (by rw [sh1.pools]; exact hp)
          rw [this]
          cases hg : σ.allocs.get? pid with
          | none => exact hv1 pid r hp hg
          | some x => rfl
        · intro d hd
          simp only [Option.some.injEq] at hd
          subst hd
          refine GoodAllocs.of_shuf sh (greedyAllocations_good sh1.same _ (fun r hr => eligible_of_mem h hr) hst)

theorem findDelegationMove_spec {n : Nat} {s : State F} (h : Core n s) (me : Agent F) (σ : Strategy F)
    (hσ : σ.allocs.keys.Nodup) (stake : F) :
    Sat (fun e => e = .key ∧ ∃ pid ∈ σ.allocs.keys, s.pools.get? pid = none) (findDelegationMove s me σ stake) (fun res =>
      Core n res.1 ∧ Shuf me.id σ.allocs.keys s res.1 ∧ Restored me.id σ.allocs s res.1 ∧
      GoodAllocs res.1 me.id res.2.allocs ∧ res.2.owned = []) := by
  unfold findDelegationMove
  split
  · exact ⟨h, Shuf.refl _ _ _, fun _ _ _ => Or.inl rfl, GoodAllocs.nil _ _, rfl⟩
  · rename_i hst
    refine Sat.bind (determineStakeAllocations_spec h me σ hσ stake (not_lt.1 hst)) ?_
    rintro ⟨s₁, od⟩ ⟨c, sh, hr, hg⟩
    refine ⟨c, sh, hr, ?_, rfl⟩
    cases od with
    | none => exact GoodAllocs.nil _ _
    | some d => exact hg d rfl

end RSE
