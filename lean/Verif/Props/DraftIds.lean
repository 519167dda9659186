import Verif.Model.Drafts
import Verif.Lemmas.Twin
import Verif.Lemmas.PlanOk
import Verif.Lemmas.HeapPred
import Verif.Spec.Demo
import Mathlib.Data.List.Dedup

/-!
# C133: the ids that are drawn for drafts of pools
-/

set_option linter.unusedSectionVars false

namespace RSE.Props

open RSE

variable {F : Type} [LinearOrder F] [Zero F] [One F] [Add F] [Sub F] [Mul F] [Div F] [Neg F] [NatCast F] [FSum F]

/-! ### Statement -/

/-- how many turns there are among the events -/
def turnsIn (es : List (Event F)) : Nat := es.countP (fun e => match e with
  | .step _ _ => true
  | _ => false)

/-! ### Proof -/

theorem copyPools_ids : ∀ (l : List (Nat × Ref)) (s : State F), (copyPools s l).1.idSeq = s.idSeq ∧ (copyPools s l).2.keys = l.map Prod.fst ∧ (copyPools s l).1.rs = s.rs
  | [], s => ⟨rfl, rfl, rfl⟩
  | (pid, r) :: t, s => by
    obtain ⟨h1, h2, h3⟩ := copyPools_ids t (s.alloc (s.heap r))
    simp only [copyPools]
    exact ⟨h1, by simp only [Dict.keys, List.map_cons] at h2 ⊢; rw [h2], h3⟩

theorem keep_ids {ord : List Nat → List Nat} {s s' : State F} {σ : Strategy F} {n : Nat} {d : Dict Ref} (h : determinePoolsToKeep ord s σ n = .ok (s', d)) :
    s'.idSeq = s.idSeq ∧ ∀ p ∈ d.keys, p ∈ σ.owned.keys := by
  unfold determinePoolsToKeep at h
  split at h
  · obtain ⟨es, h1, h2⟩ := bind_ok h
    have h3 := Except.ok.inj h2
    have h4 := copyPools_ids es s
    rw [h3] at h4
    refine ⟨h4.1, fun p hp => ?_⟩
    rw [h4.2.1] at hp
    have key : ∀ (l : List Nat) (es : List (Nat × Ref)), l.mapM (fun pid => do
        let r ← σ.owned.getE pid
        return (pid, r)) = (.ok es : Py (List (Nat × Ref))) → ∀ e ∈ es, e.1 ∈ σ.owned.keys := by
      intro l
      induction l with
      | nil => intro es h; cases h; simp
      | cons a l ih =>
        intro es h
        rw [List.mapM_cons] at h
        obtain ⟨x, g1, g2⟩ := bind_ok h
        obtain ⟨xs, g3, g4⟩ := bind_ok g2
        cases g4
        obtain ⟨r, g5, g6⟩ := bind_ok g1
        cases g6
        intro e he
        rcases List.mem_cons.1 he with rfl | he
        · exact Dict.mem_keys_of_get? (Dict.getE_ok.1 g5)
        · exact ih xs g3 e he
    obtain ⟨e, he, rfl⟩ := List.mem_map.1 hp
    exact key _ _ h1 e he
  · have h3 := Except.ok.inj h
    have h4 := copyPools_ids σ.owned s
    rw [h3] at h4
    exact ⟨h4.1, fun p hp => by rw [h4.2.1] at hp; exact hp⟩

theorem rework_ids {me : Agent F} {q c : F} {ms : List F} : ∀ {l : List (Nat × Ref)} {i : Nat} {s s' : State F}, reworkPools me q c ms s i l = .ok s' → s'.idSeq = s.idSeq
  | [], _, _, _, h => by cases h; rfl
  | (pid, r) :: t, i, s, s', h => by
    simp only [reworkPools] at h
    obtain ⟨m, -, h2⟩ := bind_ok h
    exact (rework_ids h2).trans rfl

theorem draft_ids {me : Agent F} {q c : F} {ms : List F} : ∀ {cnt i : Nat} {s s' : State F} {owned owned' : Dict Ref}, draftPools me q c ms cnt s i owned = .ok (s', owned') →
    s'.idSeq = s.idSeq + cnt ∧ ∀ p, p ∈ owned'.keys ↔ p ∈ owned.keys ∨ (s.idSeq < p ∧ p ≤ s.idSeq + cnt)
  | 0, _, _, _, _, _, h => by cases h; exact ⟨rfl, fun p => ⟨Or.inl, fun h => h.elim id (fun h => by omega)⟩⟩
  | cnt + 1, i, s, s', owned, owned', h => by
    simp only [draftPools] at h
    obtain ⟨m, -, h2⟩ := bind_ok h
    obtain ⟨h3, h4⟩ := draft_ids h2
    have e : ∀ x, ((({ s with idSeq := s.idSeq + 1 } : State F).alloc x)).idSeq = s.idSeq + 1 := fun _ => rfl
    rw [e] at h3
    refine ⟨by omega, fun p => ?_⟩
    rw [h4 p, e, Dict.keys_set]
    constructor
    · rintro ((rfl | h5) | h5)
      · right; omega
      · exact Or.inl h5
      · right; omega
    · rintro (h5 | h5)
      · exact Or.inl (Or.inr h5)
      · by_cases h6 : p = s.idSeq + 1
        · exact Or.inl (Or.inl h6)
        · right; omega

theorem setDelegations_ids (a : Nat) (l : List (Nat × F)) : ∀ {s s' : State F}, setDelegations s a l = .ok s' → s'.idSeq = s.idSeq := by
  induction l with
  | nil => intro s s' he; cases he; rfl
  | cons e t ih =>
    intro s s' he
    obtain ⟨s₁, h1, h2⟩ := bind_ok (show (setDelegation s e.1 e.2 a >>= fun s => setDelegations s a t) = .ok s' from he)
    rw [ih h2]
    unfold setDelegation at h1
    obtain ⟨q, -, h1⟩ := bind_ok h1
    obtain ⟨l, -, h1⟩ := bind_ok h1
    cases h1; rfl

theorem delegation_ids {s s₁ : State F} {me : Agent F} {σ δ : Strategy F} {x : F} (he : findDelegationMove s me σ x = .ok (s₁, δ)) : s₁.idSeq = s.idSeq := by
  unfold findDelegationMove at he
  by_cases hx : x < minUnit
  · simp only [hx, if_true] at he; cases he; rfl
  · simp only [hx, if_false] at he
    obtain ⟨⟨s₂, o⟩, h1, h2⟩ := bind_ok he
    cases h2
    unfold determineStakeAllocations at h1
    simp only at h1
    by_cases hl : (eligiblePools s me).length = 0
    · simp only [hl, if_true] at h1; cases h1; rfl
    · simp only [hl, if_false] at h1
      obtain ⟨s₃, h3, h1⟩ := bind_ok h1
      obtain ⟨s₄, h4, h1⟩ := bind_ok h1
      cases h1
      exact (setDelegations_ids _ _ h4).trans (setDelegations_ids _ _ h3)

theorem delegation_rs {s s₁ : State F} {me : Agent F} {σ δ : Strategy F} {x : F} (he : findDelegationMove s me σ x = .ok (s₁, δ)) : s₁.rs = s.rs := by
  have key : ∀ (l : List (Nat × F)) {s s' : State F}, setDelegations s me.id l = .ok s' → s'.rs = s.rs := by
    intro l
    induction l with
    | nil => intro s s' he; cases he; rfl
    | cons e t ih =>
      intro s s' he
      obtain ⟨s₁, h1, h2⟩ := bind_ok (show (setDelegation s e.1 e.2 me.id >>= fun s => setDelegations s me.id t) = .ok s' from he)
      rw [ih h2]
      unfold setDelegation at h1
      obtain ⟨q, -, h1⟩ := bind_ok h1
      obtain ⟨l, -, h1⟩ := bind_ok h1
      cases h1; rfl
  unfold findDelegationMove at he
  by_cases hx : x < minUnit
  · simp only [hx, if_true] at he; cases he; rfl
  · simp only [hx, if_false] at he
    obtain ⟨⟨s₂, o⟩, h1, h2⟩ := bind_ok he
    cases h2
    unfold determineStakeAllocations at h1
    simp only at h1
    by_cases hl : (eligiblePools s me).length = 0
    · simp only [hl, if_true] at h1; cases h1; rfl
    · simp only [hl, if_false] at h1
      obtain ⟨s₃, h3, h1⟩ := bind_ok h1
      obtain ⟨s₄, h4, h1⟩ := bind_ok h1
      cases h1
      exact (key _ h4).trans (key _ h3)

theorem operator_ids {s s' : State F} {me : Agent F} {σ ω : Strategy F} {n : Nat} {owned : Dict Ref} {ms : List F} (h : findOperatorMove s me σ n owned ms = .ok (s', ω)) :
    s'.idSeq = s.idSeq + (n - owned.length) ∧ ∀ p, p ∈ ω.owned.keys ↔ p ∈ owned.keys ∨ (s.idSeq < p ∧ p ≤ s.idSeq + (n - owned.length)) := by
  unfold findOperatorMove at h
  obtain ⟨q, -, h⟩ := bind_ok h
  obtain ⟨c, -, h⟩ := bind_ok h
  obtain ⟨s₁, h1, h⟩ := bind_ok h
  obtain ⟨⟨s₂, d⟩, h2, h⟩ := bind_ok h
  have e1 := rework_ids h1
  obtain ⟨e2, e3⟩ := draft_ids h2
  rw [e1] at e2 e3
  simp only at h
  split at h
  · obtain ⟨⟨s₃, δ⟩, h3, h⟩ := bind_ok h
    cases h
    exact ⟨(delegation_ids h3).trans e2, e3⟩
  · cases h
    exact ⟨e2, e3⟩

theorem search_le {s : State F} {me : Agent F} {σ : Strategy F} {res : Nat × List F} (h : searchPools (marginsAndUtility s me σ) (s.rs.k + 1) 1 s.rs.k = .ok res) :
    1 ≤ res.1 ∧ res.1 ≤ s.rs.k := by
  by_cases hk : s.rs.k = 0
  · have he : marginsAndUtility s me σ 0 = .error .zeroDiv := rfl
    rw [hk] at h
    simp only [searchPools, he, bind, Except.bind, Nat.add_zero, Nat.reduceDiv] at h
    simp at h
  · have := (searchPools_sat (E := AnyErr) (s.rs.k + 1) 1 s.rs.k (f := marginsAndUtility s me σ) (fun t _ _ => Sat.any fun _ _ => trivial) (by omega) (by omega)).of_ok h
    exact ⟨this.1, this.2.1⟩

theorem ids_of_plan {ord : List Nat → List Nat} {s s' : State F} {ag : Agent F} {σ ω : Strategy F} {u : F} (hids : ∀ p ∈ σ.owned.keys, p ≤ s.idSeq)
    (h : choosePoolStrategy ord s ag σ = .ok (s', u, ω)) :
    ∃ m ≤ s.rs.k, s'.idSeq = s.idSeq + m ∧ ∀ p, (p ∈ ω.owned.keys ∧ p ∉ σ.owned.keys) ↔ s.idSeq < p ∧ p ≤ s.idSeq + m := by
  unfold choosePoolStrategy at h
  obtain ⟨⟨n, ms⟩, h1, h⟩ := bind_ok h
  obtain ⟨⟨s₁, d⟩, h2, h⟩ := bind_ok h
  obtain ⟨⟨s₂, τ⟩, h3, h⟩ := bind_ok h
  obtain ⟨u', -, h⟩ := bind_ok h
  cases h
  obtain ⟨e1, e2⟩ := keep_ids h2
  obtain ⟨e3, e4⟩ := operator_ids h3
  have e5 := search_le h1
  rw [e1] at e3 e4
  refine ⟨n - d.length, by simp only at e5; omega, e3, fun p => ?_⟩
  rw [e4 p]
  constructor
  · rintro ⟨h5 | h5, h6⟩
    · exact absurd (e2 p h5) h6
    · exact h5
  · intro h5
    exact ⟨Or.inr h5, fun h6 => by have := hids p h6; omega⟩

theorem discard_of {ord : List Nat → List Nat} {s s' : State F} {ag : Agent F} {σ ω : Strategy F} {u : F} (hids : ∀ p ∈ σ.owned.keys, p ≤ s.idSeq)
    (h : choosePoolStrategy ord s ag σ = .ok (s', u, ω)) : discardDraftPools s' σ ω = { s' with idSeq := s.idSeq } := by
  obtain ⟨m, -, h2, h3⟩ := ids_of_plan hids h
  have h4 : (ω.owned.keys.dedup.filter (fun i => !σ.owned.keys.contains i)).Perm (List.range' (s.idSeq + 1) m) := by
    rw [List.perm_ext_iff_of_nodup ((List.nodup_dedup _).filter _) List.nodup_range']
    intro p
    rw [List.mem_filter, List.mem_dedup, List.mem_range'_1]
    have := h3 p
    simp only [Bool.not_eq_true', List.contains_eq_mem, decide_eq_false_iff_not]
    rw [this]
    omega
  unfold discardDraftPools rewindPoolIds
  rw [h4.length_eq, List.length_range', h2, Nat.add_sub_cancel]

theorem discard_adopted_of {ord : List Nat → List Nat} {s s' : State F} {ag : Agent F} {σ ω : Strategy F} {u : F} (hids : ∀ p ∈ σ.owned.keys, p ≤ s.idSeq)
    (h : choosePoolStrategy ord s ag σ = .ok (s', u, ω)) (hnew : ∃ p ∈ ω.owned.keys, p ∉ σ.owned.keys) : (discardDraftPools s' σ ω).idSeq + 1 ∈ ω.owned.keys := by
  rw [discard_of hids h]
  obtain ⟨m, -, -, h3⟩ := ids_of_plan hids h
  obtain ⟨p, hp, hq⟩ := hnew
  have := (h3 p).1 ⟨hp, hq⟩
  exact ((h3 (s.idSeq + 1)).2 (by omega)).1

theorem owned_le_idSeq (hmin : (0 : F) < minUnit) {c : Config F} {s : State F} (hr : Reachable c s) {a : Nat} {ag : Agent F} (ha : s.agents.get? a = some ag)
    {σ : Strategy F} (hσ : ag.strategy = some σ) : ∀ p ∈ σ.owned.keys, p ≤ s.idSeq := by
  intro p hp
  have hg := hr.good hmin
  obtain ⟨r, hr⟩ := Dict.mem_keys_iff.1 hp
  exact (hg.inv.core.poolRef _ _ (hg.inv.owned ha hσ hr).1).2.2.2

/-! ### Theorems -/

/-- C133.  Planning to operate pools draws one id for every pool of the plan that the agent does not have already, and no other: the ids of these pools are the next `m ≤ k` ones. -/
theorem C133_ids_of_a_plan (hmin : (0 : F) < minUnit) {c : Config F} {s s' : State F} (hr : Reachable c s) {a : Nat} {ag : Agent F} (ha : s.agents.get? a = some ag)
    {σ ω : Strategy F} (hσ : ag.strategy = some σ) {ord : List Nat → List Nat} {u : F} (h : choosePoolStrategy ord s ag σ = .ok (s', u, ω)) :
    ∃ m ≤ s.rs.k, s'.idSeq = s.idSeq + m ∧ ∀ p, (p ∈ ω.owned.keys ∧ p ∉ σ.owned.keys) ↔ s.idSeq < p ∧ p ≤ s.idSeq + m :=
  ids_of_plan (owned_le_idSeq hmin hr ha hσ) h

/-- C133.  The unused method `discard_draft_pools` gives back exactly the ids that were drawn for the plan: nothing about the state changes but the counter, which becomes what it was. -/
theorem C133_discard (hmin : (0 : F) < minUnit) {c : Config F} {s s' : State F} (hr : Reachable c s) {a : Nat} {ag : Agent F} (ha : s.agents.get? a = some ag)
    {σ ω : Strategy F} (hσ : ag.strategy = some σ) {ord : List Nat → List Nat} {u : F} (h : choosePoolStrategy ord s ag σ = .ok (s', u, ω)) :
    discardDraftPools s' σ ω = { s' with idSeq := s.idSeq } :=
  discard_of (owned_le_idSeq hmin hr ha hσ) h

/-- C133.  It must not be called for a plan with new pools that is carried out: the next id to be drawn would be that of a pool of the plan. -/
theorem C133_discard_adopted (hmin : (0 : F) < minUnit) {c : Config F} {s s' : State F} (hr : Reachable c s) {a : Nat} {ag : Agent F} (ha : s.agents.get? a = some ag)
    {σ ω : Strategy F} (hσ : ag.strategy = some σ) {ord : List Nat → List Nat} {u : F} (h : choosePoolStrategy ord s ag σ = .ok (s', u, ω))
    (hnew : ∃ p ∈ ω.owned.keys, p ∉ σ.owned.keys) : (discardDraftPools s' σ ω).idSeq + 1 ∈ ω.owned.keys :=
  discard_adopted_of (owned_le_idSeq hmin hr ha hσ) h hnew

/-- C133.  A turn draws at most `k` ids; every other event draws none. -/
theorem C133_turn (hmin : (0 : F) < minUnit) {c : Config F} {s s' : State F} (h : Reachable c s) {ev : Event F} (hv : ev.Valid c.people.length) (he : exec s ev = .ok s') :
    s.idSeq ≤ s'.idSeq ∧ s'.idSeq ≤ s.idSeq + s.rs.k ∧ ((∀ a o, ev ≠ .step a o) → s'.idSeq = s.idSeq) := by
  have hg := h.good hmin
  have hdid := hg.exec hmin hv
  rw [he] at hdid
  have hplan : ∀ {ord : List Nat → List Nat} {b : Nat} {ag : Agent F} {σ : Strategy F} {ν : Option (Strategy F)} {s₁ : State F}, s.agents.get? b = some ag → ag.strategy = some σ →
      planMove ord s ag σ = .ok (s₁, ν) → s.idSeq ≤ s₁.idSeq ∧ s₁.idSeq ≤ s.idSeq + s.rs.k := by
    intro ord b ag σ ν s₁ ha hσ hpm
    unfold planMove at hpm
    obtain ⟨cur, -, hpm⟩ := bind_ok hpm
    obtain ⟨exp, -, hpm⟩ := bind_ok hpm
    obtain ⟨⟨s₂, δ⟩, h2, hpm⟩ := bind_ok hpm
    obtain ⟨du, -, hpm⟩ := bind_ok hpm
    obtain ⟨⟨s₃, ou, ω⟩, h3, hpm⟩ := bind_ok hpm
    cases hpm
    have e1 := delegation_ids h2
    have e2 := delegation_rs h2
    obtain ⟨m, hm, e3, -⟩ := ids_of_plan (by
      intro p hp
      obtain ⟨r, hr⟩ := Dict.mem_keys_iff.1 hp
      rw [e1]
      exact (hg.inv.core.poolRef _ _ (hg.inv.owned ha hσ hr).1).2.2.2) h3
    rw [e1] at e3
    rw [e2] at hm
    omega
  cases hdid.1 with
  | idle me ord ag ha hp => exact ⟨le_rfl, Nat.le_add_right _ _, fun _ => rfl⟩
  | plan me ord ag σ oν s₁ s' ha hp hσ hpm h hsim ht =>
    have := hplan ha hσ hpm
    rw [h.eq]
    exact ⟨this.1, this.2, fun hne => absurd rfl (hne _ _)⟩
  | move me ord ag σ ν s₁ s₂ s₃ ha hp hσ hpm h hsim ht hex hd hinv hds =>
    have := hplan ha hσ hpm
    have e : s₃.idSeq = s₁.idSeq := by rw [hd.frame, h.eq]; rfl
    exact ⟨e ▸ this.1, e ▸ this.2, fun hne => absurd rfl (hne _ _)⟩
  | skip me ord ag ha hp => exact ⟨le_rfl, Nat.le_add_right _ _, fun _ => rfl⟩
  | adv me ord ag σ ν s₃ ha hσ hν hex hd hinv ht =>
    have e : s₃.idSeq = s.idSeq := by rw [hd.frame]
    exact ⟨e.ge, by change s₃.idSeq ≤ _; omega, fun _ => e⟩
  | phase p s' hp hc hrs hk => exact ⟨hp.idSeq.ge, by have := hp.idSeq; omega, fun _ => hp.idSeq⟩
  | roundEnd => exact ⟨le_rfl, Nat.le_add_right _ _, fun _ => rfl⟩

/-- C133.  So within one phase the ids of all pools are at most `k` times the number of turns that agents have had. -/
theorem C133_run (hmin : (0 : F) < minUnit) {c : Config F} : ∀ (es : List (Event F)) {s s' : State F}, ReachableSinglePhase c s → (∀ e ∈ es, e.Valid c.people.length ∧ ∀ p, e ≠ .phase p) →
    iterM exec s es = .ok s' → s'.idSeq ≤ s.idSeq + c.rs.k * turnsIn es
  | [], _, _, _, _, h => by cases h; exact Nat.le_add_right _ _
  | ev :: es, s, s', hs, hv, h => by
    obtain ⟨s₁, h1, h2⟩ := bind_ok (show (exec s ev >>= fun s => iterM exec s es) = .ok s' from h)
    obtain ⟨v1, v2⟩ := hv ev (by simp)
    have g1 := C133_run hmin es (hs.next v1 v2 h1) (fun e he => hv e (by simp [he])) h2
    obtain ⟨-, g2, g3⟩ := C133_turn hmin (Reachable.of_single hs) v1 h1
    rw [(hs.params hmin).rs] at g2
    cases ev with
    | step a o =>
      have : turnsIn (Event.step a o :: es) = turnsIn es + 1 := by simp [turnsIn]
      rw [this, Nat.mul_add]
      omega
    | advance a o =>
      have : turnsIn (Event.advance a o :: es) = turnsIn es := by simp [turnsIn]
      rw [this, ← g3 (by simp)]; exact g1
    | phase p => exact absurd rfl (v2 p)
    | roundEnd =>
      have : turnsIn ((Event.roundEnd : Event F) :: es) = turnsIn es := by simp [turnsIn]
      rw [this, ← g3 (by simp)]; exact g1

/-- C133.  Ids are drawn for pools that are never opened: after two rounds of the demonstration nine ids have been drawn, and there are three pools.  The turns draw ids also when no pool is opened: no pool has the id nine. -/
theorem C133_gaps : ∃ s, ReachableSinglePhase (demo false) s ∧ s.idSeq = 9 ∧ s.pools.keys = [1, 4, 8] := by
  obtain ⟨s, h1, h2⟩ := reachable_of_run demoRounds_valid (f := fun s => (s.idSeq, s.pools.keys)) (v := (9, [1, 4, 8])) (by decide +kernel)
  exact ⟨s, h1, (Prod.mk.inj h2).1, (Prod.mk.inj h2).2⟩

/-- the plan of the first agent: three new pools, with ids that `discard_draft_pools` gives back -/
example : (do
    let ag ← (initState (demo false)).agents.getE 0
    let σ ← ag.strategy.elim (.error .attr) Except.ok
    let (s', _, ω) ← choosePoolStrategy id (initState (demo false)) ag σ
    return (σ.owned.keys, s'.idSeq, ω.owned.keys, (discardDraftPools s' σ ω).idSeq) : Py (List Nat × Nat × List Nat × Nat)).toOption = some ([], 3, [1, 2, 3], 0) := by decide +kernel

/-- the bound of `C133_run` is not vacuous: one turn, `k` ids -/
example : (iterM exec (initState (demo false)) [.step 0 id]).toOption.map (fun s => s.idSeq) = some ((demo false).rs.k * turnsIn [(.step 0 id : Event ℚ)]) := by decide +kernel

end RSE.Props
