import Verif.Lemmas.NoCrashFloats
import Verif.Lemmas.Greedy

/-!
# What planning does to the stakes of pools

An agent that plans takes its delegations out of its pools and puts them back, once to look for a delegation and possibly once more for the stake
that a pool operator has left.  Each time the stake `x` of a pool in which it has `y` becomes `x - y + 0 + y`.  In exact arithmetic this is `x`.
-/

set_option linter.unusedSectionVars false

namespace RSE

variable {F : Type} [LinearOrder F] [Zero F] [One F] [Add F] [Sub F] [Mul F] [Div F] [Neg F] [NatCast F] [FSum F]

/-- taking a delegation out of a pool and putting it back -/
def back (x y : F) : F := x - y + 0 + y

/-- the pools that a list of requests reaches, exactly -/
theorem setDelegations_heap {n : Nat} {a : Nat} : ∀ (l : Dict F) (s s' : State F), Core n s → l.keys.Nodup → setDelegations s a l = .ok s' →
    ∀ pid r, s.pools.get? pid = some r → s'.heap r = match l.get? pid with
      | none => s.heap r
      | some x => (s.heap r).updateDelegation x a
  | [], s, s', _, _, h => by intro pid r _; cases h; rfl
  | (pid, x) :: t, s, s', h, hnd, he => by
    simp only [Dict.keys, List.map_cons, List.nodup_cons] at hnd
    unfold setDelegations at he
    intro pid' r' hp'
    cases hp : s.pools.get? pid with
    | none => rw [setDelegation_missing hp] at he; cases he
    | some r =>
      obtain ⟨s₁, e1, c1, sh1, hh1⟩ := setDelegation_spec h hp x a
      rw [e1] at he
      have := setDelegations_heap t s₁ s' c1 hnd.2 he pid' r' (by rw [sh1.pools]; exact hp')
      rw [this, hh1]
      simp only [Dict.get?_cons]
      by_cases hpp : pid = pid'
      · subst hpp
        rw [hp] at hp'; cases hp'
        have : Dict.get? t pid = none := Dict.get?_eq_none.2 hnd.1
        rw [this]
        simp only [Function.update_self, if_true]
      · have hr : r' ≠ r := by
          rintro rfl
          exact hpp (h.ref_inj hp hp')
        simp only [Function.update_of_ne hr, if_neg hpp]

/-- stakes after an agent took out its delegations and put them back -/
def PutBack (σ : Strategy F) (s s' : State F) : Prop :=
  ∀ pid r, s.pools.get? pid = some r → (s'.heap r).stake = match σ.allocs.get? pid with
    | none => (s.heap r).stake
    | some y => back (s.heap r).stake y

/-- stakes after an agent may have taken out its delegations and put them back, any number of times -/
inductive Redone : Option F → F → F → Prop
  | none (y : Option F) (x : F) : Redone y x x
  | again {y x z : F} : Redone (some y) (back x y) z → Redone (some y) x z

theorem Redone.trans {y : Option F} {x z w : F} (h : Redone y x z) (g : Redone y z w) : Redone y x w := by
  induction h with
  | none => exact g
  | again _ ih => exact .again (ih g)

theorem Redone.firm {y : Option F} {x z : F} (h : Redone y x z) (hf : ∀ v, y = some v → back x v = x) : z = x := by
  induction h with
  | none => rfl
  | again _ ih =>
    have hb := hf _ rfl
    rw [hb] at ih
    exact ih hf

def Reworked (σ : Strategy F) (s s' : State F) : Prop :=
  ∀ pid r, s.pools.get? pid = some r → Redone (σ.allocs.get? pid) (s.heap r).stake (s'.heap r).stake

theorem PutBack.reworked {σ : Strategy F} {s s' : State F} (h : PutBack σ s s') : Reworked σ s s' := by
  intro pid r hp
  have := h pid r hp
  cases hy : σ.allocs.get? pid with
  | none => rw [hy] at this; rw [this]; exact .none _ _
  | some y => rw [hy] at this; rw [this]; exact .again (.none _ _)

theorem Reworked.trans {σ : Strategy F} {s s' s'' : State F} (h : Reworked σ s s') (g : Reworked σ s' s'') (hp : s'.pools = s.pools) : Reworked σ s s'' :=
  fun pid r hr => (h pid r hr).trans (g pid r (by rw [hp]; exact hr))

theorem Informed.putBack (hmin : (0 : F) < minUnit) {n : Nat} {s s₁ s' : State F} {a : Nat} {σ : Strategy F} (h : Informed n s a σ)
    (h1 : setDelegations s a (σ.allocs.map (fun e => (e.1, 0))) = .ok s₁) (h2 : setDelegations s₁ a σ.allocs = .ok s') : PutBack σ s s' := by
  have hk : Dict.keys (σ.allocs.map (fun e => (e.1, (0 : F)))) = σ.allocs.keys := Dict.keys_map_snd σ.allocs (fun _ _ => (0 : F))
  have hn : Dict.keys (σ.allocs.map (fun e => (e.1, (0 : F)))) |>.Nodup := by rw [hk]; exact h.nodup
  obtain ⟨c1, sh, -⟩ := (setDelegations_spec a _ s h.core hn).of_ok h1
  intro pid r hp
  have g1 := setDelegations_heap _ s s₁ h.core hn h1 pid r hp
  have g2 := setDelegations_heap _ s₁ s' c1 h.nodup h2 pid r (by rw [sh.pools]; exact hp)
  rw [Dict.get?_map_snd σ.allocs (fun _ _ => (0 : F))] at g1
  have hag := h.agree pid r hp
  rw [g2]
  cases hy : σ.allocs.get? pid with
  | none => rw [hy] at g1; simp only [Option.map_none] at g1; simp only; rw [g1]
  | some y =>
    rw [hy] at g1 hag
    simp only [Option.map_some] at g1
    have hno : (s₁.heap r).delegators.get? a = none := by
      rw [g1, get?_updateDelegation_self (h.core.delNodup r), if_pos hmin]
    have hs1 : (s₁.heap r).stake = (s.heap r).stake - y + 0 := by
      rw [g1]; unfold Pool.updateDelegation; simp only; rw [hag]
    simp only
    unfold Pool.updateDelegation
    simp only
    rw [hno, hs1]
    rfl

theorem Delegated.reworked (hmin : (0 : F) < minUnit) {n : Nat} {s s' : State F} {me : Agent F} {σ δ : Strategy F} {stake : F}
    (hd : Delegated s me σ stake s' δ) (h : Informed n s me.id σ) : Reworked σ s s' := by
  cases hd with
  | tiny _ hs _ => subst hs; exact fun _ _ _ => .none _ _
  | none _ _ hs _ => subst hs; exact fun _ _ _ => .none _ _
  | some s₁ hst he h1 h2 hδ => exact (h.putBack hmin h1 h2).reworked

/-- the stage at which an operator looks for a delegation of the stake it has left -/
theorem findOperatorMove_stage {n : Nat} {s₁ s s' : State F} (h : Core n s) {me : Agent F} {σ τ : Strategy F}
    (hp : Planned me.id σ.allocs.keys s₁ s) (hh : ∀ r < s₁.next, s.heap r = s₁.heap r) (hpr : ∀ pid r, s₁.pools.get? pid = some r → r < s₁.next)
    {k : Nat} (hk : 0 < k) {owned : Dict Ref} (hnd : owned.keys.Nodup) (hvd : owned.vals.Nodup) (hlen : owned.length ≤ k)
    (hids : ∀ i ∈ owned.keys, i ≤ s.idSeq)
    (hcp : ∀ e ∈ owned, s₁.next ≤ e.2 ∧ e.2 < s.next) {margins : List F} (hml : margins.length = k)
    (he : findOperatorMove s me σ k owned margins = .ok (s', τ)) :
    ∃ s₃, Core n s₃ ∧ Planned me.id σ.allocs.keys s₁ s₃ ∧ (∀ r < s₁.next, s₃.heap r = s₁.heap r) ∧
      (s' = s₃ ∨ ∃ x δ, findDelegationMove s₃ me σ x = .ok (s', δ)) := by
  have hk0 : k ≠ 0 := by omega
  obtain ⟨q, hq⟩ : ∃ q, pledgePerPool me.stake s₁.rs.beta k = .ok q := by simp [pledgePerPool, hk0]
  obtain ⟨c, hc⟩ : ∃ c, costPerPool k me.cost s₁.extraFrac = .ok c := by simp [costPerPool, hk0]
  unfold findOperatorMove at he
  rw [hp.rs, hp.extraFrac, hq, hc] at he
  obtain ⟨s2, e2, c2, p2, i2, n2, f2, d2⟩ := reworkPools_spec me q c margins owned 0 s₁ s h hp (fun e he => (hcp e he).1)
    (by rw [hp.pools]; exact hpr) hvd (by omega)
  obtain ⟨s3, new, e3, c3, p3, n3, i3, nd3, l3, f3, d3⟩ := draftPools_spec me q c margins (k - owned.length) owned.length s₁ s2 owned c2 p2
    (by rw [i2]; exact hids) hnd (by omega)
  have hnext : s₁.next ≤ s.next := hp.next_le
  have hold : ∀ r < s₁.next, s3.heap r = s₁.heap r := by
    intro r hr
    rw [f3 r (by omega), f2 r (fun e he hre => by have := (hcp e he).1; omega), hh r hr]
  simp only [bind, Except.bind] at he
  rw [e2] at he
  simp only at he
  rw [e3] at he
  simp only at he
  refine ⟨s3, c3, p3, hold, ?_⟩
  split at he
  · cases hfm : findDelegationMove s3 me σ (me.stake - q * (k : F)) with
    | error e => rw [hfm] at he; cases he
    | ok res =>
      rw [hfm] at he
      cases he
      exact Or.inr ⟨_, _, hfm⟩
  · cases he; exact Or.inl rfl

/-- the stage at which an operator looks for a delegation, within `choose_pool_strategy` -/
theorem choosePoolStrategy_stage {n : Nat} {s₁ s' : State F} {ord : List Nat → List Nat} (hord : ∀ l, (ord l).Perm l)
    {me : Agent F} {σ τ : Strategy F} (hc : Core n s₁) (hnd : σ.owned.keys.Nodup)
    (hown : ∀ pid r, σ.owned.get? pid = some r → s₁.pools.get? pid = some r) {u : F}
    (he : choosePoolStrategy ord s₁ me σ = .ok (s', u, τ)) :
    ∃ s₃, Core n s₃ ∧ Planned me.id σ.allocs.keys s₁ s₃ ∧ (∀ r < s₁.next, s₃.heap r = s₁.heap r) ∧
      (s' = s₃ ∨ ∃ x δ, findDelegationMove s₃ me σ x = .ok (s', δ)) := by
  obtain ⟨m, margins, s₂, copies, hch⟩ := choosePoolStrategy_ok he
  have hk : 0 < m ∧ ∃ v, marginsAndUtility s₁ me σ m = .ok (margins, v) := by
    by_cases hk : s₁.rs.k = 0
    · have hz : marginsAndUtility s₁ me σ 0 = .error .zeroDiv := rfl
      have := hch.search
      rw [hk] at this
      simp only [searchPools, hz, bind, Except.bind, Nat.add_zero, Nat.reduceDiv] at this
      cases this
    · obtain ⟨a1, -, a3⟩ := (searchPools_sat (E := fun _ => True) (s₁.rs.k + 1) 1 s₁.rs.k
        (fun t _ _ => (marginsAndUtility_sat s₁ me σ t).mono (fun _ _ => trivial) (fun _ _ => trivial)) (by omega) (by omega)).of_ok hch.search
      exact ⟨a1, a3⟩
  obtain ⟨hk, v, hm⟩ := hk
  have hlen : margins.length = m := ((marginsAndUtility_sat s₁ me σ m).of_ok hm).2
  obtain ⟨s2, d, e2, c2, p2, i2, f2, kd2, vd2, l2, sub2, cp2⟩ := determinePoolsToKeep_spec hc hord me.id σ.allocs.keys hnd
    (fun pid r hg => (hc.poolRef _ _ (hown _ _ hg)).1) m
  have hkeep := hch.keep
  rw [e2] at hkeep
  cases hkeep
  exact findOperatorMove_stage c2 p2 f2 (fun pid r hp => (hc.poolRef _ _ hp).1) hk kd2 vd2 (by omega) (by
      intro i hi
      obtain ⟨r, hr⟩ := Dict.mem_keys_iff.1 (sub2 i hi)
      rw [i2]
      exact (hc.poolRef _ _ (hown _ _ hr)).2.2.2) (fun e he => ⟨(cp2 e he).1, (cp2 e he).2.1⟩) hlen hch.find

/-- the operator's part of planning -/
theorem choosePoolStrategy_reworked (hmin : (0 : F) < minUnit) {n : Nat} {s₁ s' : State F} {ord : List Nat → List Nat} (hord : ∀ l, (ord l).Perm l)
    {me : Agent F} {σ τ : Strategy F} (h : Informed n s₁ me.id σ) (hnd : σ.owned.keys.Nodup)
    (hown : ∀ pid r, σ.owned.get? pid = some r → s₁.pools.get? pid = some r) {u : F}
    (he : choosePoolStrategy ord s₁ me σ = .ok (s', u, τ)) : Reworked σ s₁ s' := by
  have hpr : ∀ pid r, s₁.pools.get? pid = some r → r < s₁.next := fun pid r hp => (h.core.poolRef _ _ hp).1
  obtain ⟨s₃, c3, p3, f3, h3⟩ := choosePoolStrategy_stage hord h.core hnd hown he
  have w3 : Reworked σ s₁ s₃ := by
    intro pid r hp
    rw [f3 r (hpr pid r hp)]
    exact .none _ _
  rcases h3 with rfl | ⟨x, δ, hx⟩
  · exact w3
  · have hi3 : Informed n s₃ me.id σ := by
      refine ⟨c3, h.nodup, h.min, fun pid r hp => ?_, fun pid x hx => by rw [p3.pools]; exact h.exist pid x hx⟩
      rw [p3.pools] at hp
      rw [f3 r (hpr pid r hp)]
      exact h.agree pid r hp
    exact w3.trans ((findDelegationMove_ok hx).reworked hmin hi3) p3.pools

/-- there is no open pool to which the agent could delegate -/
def Stuck (s : State F) (a : Nat) : Prop := ∀ pid r, s.pools.get? pid = some r → (s.heap r).owner = a ∨ (s.heap r).isPrivate = true

theorem Stuck.eligible {n : Nat} {s : State F} (hc : Core n s) {me : Agent F} (h : Stuck s me.id) : eligiblePools s me = [] := by
  refine List.eq_nil_iff_forall_not_mem.2 (fun r hr => ?_)
  obtain ⟨h1, h2, h3⟩ := eligible_of_mem hc hr
  rcases h _ r h1 with h4 | h4
  · exact h2 h4
  · rw [h3] at h4; cases h4

theorem Stuck.of_planned {n : Nat} {s s' : State F} (hc : Core n s) {a b : Nat} {ids : List Nat} (h : Stuck s a) (hp : Planned b ids s s') : Stuck s' a := by
  intro pid r hr
  rw [hp.pools] at hr
  have hs := hp.same r (hc.poolRef _ _ hr).1
  rw [hs.owner, hs.isPrivate]
  exact h pid r hr

/-- an agent that cannot delegate does not touch its delegations -/
theorem planMove_stuck {n : Nat} {s s' : State F} {ord : List Nat → List Nat} (hord : ∀ l, (ord l).Perm l)
    {me : Agent F} {σ : Strategy F} (hc : Core n s) (hσ : Stuck s me.id) (hnd : σ.owned.keys.Nodup)
    (hown : ∀ pid r, σ.owned.get? pid = some r → s.pools.get? pid = some r) {oν : Option (Strategy F)}
    (he : planMove ord s me σ = .ok (s', oν)) {pid : Nat} {r : Ref} (hr : s.pools.get? pid = some r) : s'.heap r = s.heap r := by
  have key : ∀ {s₁ s₂ : State F} {x : F} {δ : Strategy F}, Core n s₁ → Stuck s₁ me.id → findDelegationMove s₁ me σ x = .ok (s₂, δ) → s₂ = s₁ := by
    intro s₁ s₂ x δ c1 h1 hx
    cases findDelegationMove_ok hx with
    | tiny _ hs _ => exact hs
    | none _ _ hs _ => exact hs
    | some _ _ hne _ _ _ => exact absurd (h1.eligible c1) hne
  obtain ⟨cur, exp, s₁, δ, du, ou, ω, hpl⟩ := planMove_ok he
  have h1 := key hc hσ hpl.delegate
  subst h1
  obtain ⟨s₃, c3, p3, f3, h3⟩ := choosePoolStrategy_stage hord hc hnd hown hpl.operate
  rw [← f3 r (hc.poolRef _ _ hr).1]
  rcases h3 with rfl | ⟨x, δ', hx⟩
  · rfl
  · rw [key c3 (hσ.of_planned hc p3) hx]

theorem stuck_of_eligible {n : Nat} {s : State F} {me : Agent F} (hc : Core n s) (hnil : eligiblePools s me = []) : Stuck s me.id := by
  intro pid r hp
  by_contra hcon
  push Not at hcon
  have hm : some r ∈ rankingsOf s me := by
    unfold rankingsOf
    split
    · exact List.mem_map.2 ⟨(_, some r), hc.mem_rank hp, rfl⟩
    · exact List.mem_map.2 ⟨(_, some r), hc.mem_rankM hp, rfl⟩
  have : r ∈ eligiblePools s me := by
    unfold eligiblePools
    exact List.mem_filterMap.2 ⟨some r, hm, by simp [hcon.1, hcon.2]⟩
  rw [hnil] at this; cases this

/-- Planning: the stakes of the agent's pools are put back once, or several times. -/
theorem planMove_reworked (hmin : (0 : F) < minUnit) {n : Nat} {s s' : State F} {ord : List Nat → List Nat} (hord : ∀ l, (ord l).Perm l)
    {me : Agent F} {σ : Strategy F} (h : Informed n s me.id σ) (hnd : σ.owned.keys.Nodup)
    (hown : ∀ pid r, σ.owned.get? pid = some r → s.pools.get? pid = some r)
    (hel : σ.allocs ≠ [] → ¬ Stuck s me.id) (hst : σ.allocs ≠ [] → minUnit ≤ me.stake) {oν : Option (Strategy F)}
    (he : planMove ord s me σ = .ok (s', oν)) : ∃ s₁, PutBack σ s s₁ ∧ s₁.pools = s.pools ∧ Reworked σ s₁ s' := by
  obtain ⟨cur, exp, s₁, δ, du, ou, ω, hpl⟩ := planMove_ok he
  obtain ⟨c1, sh1, r1, -, -⟩ := (findDelegationMove_spec h.core me σ h.nodup me.stake).of_ok hpl.delegate
  have hi1 := h.of_planned (Planned.of_shuf sh1) r1 c1
  refine ⟨s₁, ?_, sh1.pools, choosePoolStrategy_reworked hmin hord hi1 hnd (by rw [sh1.pools]; exact hown) hpl.operate⟩
  have triv : σ.allocs = [] → s₁ = s → PutBack σ s s₁ := by
    intro h0 h1 pid r _
    rw [h0, h1]; rfl
  cases findDelegationMove_ok hpl.delegate with
  | tiny h1 hs _ =>
    refine triv (by_contra fun hne => absurd (hst hne) (not_le.2 h1)) hs
  | none _ h1 hs _ => exact triv (by_contra fun hne => hel hne (stuck_of_eligible h.core h1)) hs
  | some s₂ _ _ h1 h2 _ => exact h.putBack hmin h1 h2

/-- planning keeps what pools record -/
theorem Informed.recorded {n : Nat} {s s' : State F} {a : Nat} {σ : Strategy F} (h : Informed n s a σ) (hp : Planned a σ.allocs.keys s s')
    (hr : Restored a σ.allocs s s') : ∀ r < s.next, ∀ b, (s'.heap r).delegators.get? b = (s.heap r).delegators.get? b := by
  intro r hrn b
  by_cases hba : b = a
  · subst hba
    by_cases hex : ∃ pid ∈ σ.allocs.keys, s.pools.get? pid = some r
    · obtain ⟨pid, hm, hpr⟩ := hex
      obtain ⟨x, hx⟩ := Dict.mem_keys_iff.1 hm
      rcases hr pid r hpr with h1 | h1
      · exact h1
      · rw [h1, hx, h.agree pid r hpr, hx]
        exact recorded_of_min (h.min _ (Dict.mem_of_get? hx))
    · push Not at hex
      rw [hp.untouched r hrn hex]
  · exact hp.others r hrn b hba

/-- if the stakes come out as they were, planning leaves no trace -/
theorem Calm.of_stakes {n : Nat} {s s' : State F} {a : Nat} {σ : Strategy F} (h : Informed n s a σ) (hp : Planned a σ.allocs.keys s s')
    (hr : Restored a σ.allocs s s') (hc : Core n s') (hs : ∀ pid r, s.pools.get? pid = some r → (s'.heap r).stake = (s.heap r).stake) : Calm s s' := by
  have hget := h.recorded hp hr
  have hal : ∀ r < s.next, Alike (s.heap r) (s'.heap r) := by
    intro r hrn
    refine ⟨hp.same r hrn, ?_⟩
    by_cases hex : ∃ pid ∈ σ.allocs.keys, s.pools.get? pid = some r
    · obtain ⟨pid, -, hpr⟩ := hex
      exact hs pid r hpr
    · push Not at hex
      rw [hp.untouched r hrn hex]
  have hrm : s'.rankM = s.rankM := by
    refine SKL.eq_of_perm hc.rankMSorted h.core.rankMSorted ?_ hc.rankM_unique
    refine hc.rankMPerm.trans (List.Perm.trans (List.Perm.of_eq ?_) h.core.rankMPerm.symm)
    unfold rankEntries
    rw [hp.pools, hp.rs]
    congr 1
    apply List.map_congr_left
    intro e he
    rw [(hal e.2 (h.core.poolRef _ _ (Dict.get?_of_mem h.core.poolsNodup he)).1).keyM]
  refine ⟨?_, hp.next_le, hal, fun r hrn => Dict.perm_of_get? (h.core.delNodup r) (hc.delNodup r) (hget r hrn)⟩
  have := hp.eq
  rw [hrm] at this
  exact this

theorem Reachable.informed (hmin : (0 : F) < minUnit) {c : Config F} {s : State F} (h : Reachable c s) (hc : c.simultaneous = false) {a : Nat} {ag : Agent F}
    {σ : Strategy F} (ha : s.agents.get? a = some ag) (hσ : ag.strategy = some σ) : Informed (c.rs.k + 1) s a σ := by
  have hg := h.good hmin
  have hb := (hg.seq hc).1.books
  refine ⟨hg.inv.core, (hg.inv.tidy a ag ha).allocs _ hσ, (h.allocsMin hmin a ag ha).1 σ hσ, fun pid r hp => ?_, fun pid x hx => ?_⟩
  · rw [hb.agree pid r hp a, allocOf_eq ha hσ]
  · obtain ⟨-, r, hr, -⟩ := hb.good a pid x (by rw [allocOf_eq ha hσ]; exact hx)
    exact ⟨r, hr⟩

/-- the stake of every open pool in which the agent has a delegation comes out the same when the delegation is taken out and put back -/
def Firm (s : State F) (a : Nat) : Prop :=
  ∀ pid r y, s.pools.get? pid = some r → (s.heap r).delegators.get? a = some y → back (s.heap r).stake y = (s.heap r).stake

theorem Firm.of_calm (hmin : (0 : F) < minUnit) {c : Config F} {s t : State F} {a : Nat} (h : Firm s a) (hs : Reachable c s) (ht : Reachable c t) (hq : Calm s t) : Firm t a := by
  intro pid r y hp hy
  rw [hq.pools] at hp
  have hr := ((hs.good hmin).inv.core.poolRef _ _ hp).1
  rw [(hq.alike r hr).stake]
  refine h pid r y hp ?_
  have := (ht.good hmin).inv.core.delNodup r
  exact Dict.get?_of_mem ((hs.good hmin).inv.core.delNodup r) ((hq.dels r hr).mem_iff.1 (Dict.mem_of_get? hy))

/-- planning does not move the stakes of pools -/
def Steady (s : State F) (a : Nat) : Prop := Firm s a ∨ Stuck s a

theorem Steady.of_calm (hmin : (0 : F) < minUnit) {c : Config F} {s t : State F} {a : Nat} (h : Steady s a) (hs : Reachable c s) (ht : Reachable c t) (hq : Calm s t) :
    Steady t a := by
  rcases h with h | h
  · exact Or.inl (h.of_calm hmin hs ht hq)
  · right
    intro pid r hp
    rw [hq.pools] at hp
    have hs := (hq.alike r ((hs.good hmin).inv.core.poolRef _ _ hp).1).same
    rw [hs.owner, hs.isPrivate]
    exact h pid r hp

/-- a steady agent plans without leaving a trace -/
theorem Reachable.plan_steady (hmin : (0 : F) < minUnit) {c : Config F} {s s₁ : State F} (h : Reachable c s) (hc : c.simultaneous = false) {a : Nat} {ag : Agent F}
    {σ : Strategy F} (ha : s.agents.get? a = some ag) (hσ : ag.strategy = some σ) {ord : List Nat → List Nat} (hord : ∀ l, (ord l).Perm l)
    (hf : Steady s a) {oν : Option (Strategy F)} (hpm : planMove ord s ag σ = .ok (s₁, oν)) : Calm s s₁ := by
  have hg := h.good hmin
  have ht := hg.inv.tidy a ag ha
  have hi := h.informed hmin hc ha hσ
  have hid := hg.inv.core.agentId a ag ha
  rw [← hid] at hi
  obtain ⟨c1, p1, r1, -⟩ := (planMove_spec hg.inv.core hord ag (ht.allocs _ hσ) (ht.owned _ hσ)
    (fun pid r hr => (hg.inv.owned ha hσ hr).1)).of_ok hpm
  refine Calm.of_stakes hi p1 r1 c1 (fun pid r hp => ?_)
  rcases hf with hf | hf
  swap
  · rw [planMove_stuck hord hg.inv.core (by rw [hid]; exact hf) (ht.owned _ hσ) (fun pid r hr => (hg.inv.owned ha hσ hr).1) hpm hp]
  obtain ⟨cur, exp, s₂, δ, du, ou, ω, hpl⟩ := planMove_ok hpm
  obtain ⟨c2, sh2, r2, -, -⟩ := (findDelegationMove_spec hi.core ag σ hi.nodup ag.stake).of_ok hpl.delegate
  have hi2 := hi.of_planned (Planned.of_shuf sh2) r2 c2
  have w1 := (findDelegationMove_ok hpl.delegate).reworked hmin hi
  have w2 := choosePoolStrategy_reworked hmin hord hi2 (ht.owned _ hσ) (by rw [sh2.pools]; exact fun pid r hr => (hg.inv.owned ha hσ hr).1) hpl.operate
  refine (w1.trans w2 sh2.pools pid r hp).firm (fun y hy => hf pid r y hp ?_)
  rw [← hid, hi.agree pid r hp]; exact hy

end RSE
