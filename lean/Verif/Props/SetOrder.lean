import Verif.Lemmas.Exact
import Verif.Lemmas.Thr
import Verif.Lemmas.Calm
import Verif.Lemmas.PlanOk
import Verif.Props.Planned
import Verif.Spec.Demo

/-!
# C98: the order in which Python iterates a set

The code iterates sets of pool ids in two places: over the ids of the pools an agent wants to keep (stakeholder.py:183-185) and, when a strategy is
executed, over the differences and intersections of the keys of the old and the new strategy (stakeholder.py:322-352).  CPython promises nothing about the
order.  Proved here: executing a strategy gives the same state in any order, up to the order of entries in dictionaries; a plan does not depend on the
order if the agent keeps all its pools; otherwise the number of pools and the list of margins still do not depend on it, but which pool gets which
margin does, and that can change how many pools the simulation ends up with.
-/

set_option linter.unusedSectionVars false

namespace RSE.Props

/-! ### Executing a strategy -/

section
variable {K : Type} [Field K] [LinearOrder K] [IsStrictOrderedRing K]

/-- the same agent, with the delegations in any order -/
structure SameHolder (x y : Agent K) : Prop where
  id : y.id = x.id
  stake : y.stake = x.stake
  cost : y.cost = x.cost
  profile : y.profile = x.profile
  staged : x.newStrategy = none ∧ y.newStrategy = none
  strategy : (x.strategy = none ∧ y.strategy = none) ∨
    ∃ σ τ, x.strategy = some σ ∧ y.strategy = some τ ∧ τ.owned = σ.owned ∧ τ.allocs.Perm σ.allocs

/-- the same pool, with the delegators in any order -/
structure SameBooks (p q : Pool K) : Prop where
  terms : q = { p with delegators := q.delegators }
  delegators : q.delegators.Perm p.delegators

/-- The same state, with the entries of dictionaries in any order: the same pools with the same figures and delegations, the same rankings, the same
agents with the same delegations, and everything else equal. -/
structure SameUpToOrder (s t : State K) : Prop where
  frame : t = { s with agents := t.agents, pools := t.pools, heap := t.heap }
  pools : t.pools.Perm s.pools
  books : ∀ pid r, s.pools.get? pid = some r → SameBooks (s.heap r) (t.heap r)
  agents : ∀ a, (s.agents.get? a = none ∧ t.agents.get? a = none) ∨
    ∃ x y, s.agents.get? a = some x ∧ t.agents.get? a = some y ∧ SameHolder x y

theorem same_of_executed {n : Nat} {s t t' : State K} {me : Nat} {σ ν : Strategy K} (h : Executed n s t me ν) (h' : Executed n s t' me ν)
    (hs : ExecutedSeq s t me σ ν) (hs' : ExecutedSeq s t' me σ ν) (hb : AllPools Balanced t) (hb' : AllPools Balanced t')
    (hset : ∀ b ag, s.agents.get? b = some ag → b ≠ me → ag.newStrategy = none) (hme : ∃ ag, s.agents.get? me = some ag) :
    SameUpToOrder t t' := by
  have hskel : ∀ b, (t'.agents.get? b).map Agent.skel = (t.agents.get? b).map Agent.skel := by
    intro b
    by_cases hbm : b = me
    · subst hbm; rw [h.mine, h'.mine]
    · rw [h.others b hbm, h'.others b hbm]
  have halloc : ∀ b pid, allocOf t' b pid = allocOf t b pid := by
    intro b pid
    by_cases hbm : b = me
    · subst hbm; rw [hs.mine, hs'.mine]
    · by_cases hg : Gone s σ ν pid
      · rw [hs.gone b hbm pid hg, hs'.gone b hbm pid hg]
      · rw [hs.kept b hbm pid hg, hs'.kept b hbm pid hg]
  have hsame : ∀ r, SamePool (t.heap r) (t'.heap r) := fun r => (h.same r).symm.trans (h'.same r)
  have hget : ∀ pid, t'.pools.get? pid = t.pools.get? pid := by
    intro pid
    have key : ∀ r, t'.pools.get? pid = some r ↔ t.pools.get? pid = some r := by
      intro r
      constructor
      · intro hr
        have := (h'.inv.own.own_iff (t'.heap r).owner pid r).2 ⟨hr, rfl⟩
        rw [(ownOf_of_skel (hskel _) pid).1] at this
        exact ((h.inv.own.own_iff _ pid r).1 this).1
      · intro hr
        have := (h.inv.own.own_iff (t.heap r).owner pid r).2 ⟨hr, rfl⟩
        rw [← (ownOf_of_skel (hskel _) pid).1] at this
        exact ((h'.inv.own.own_iff _ pid r).1 this).1
    cases hx : t'.pools.get? pid with
    | some r => exact ((key r).1 hx).symm
    | none =>
      cases hy : t.pools.get? pid with
      | none => rfl
      | some r => rw [(key r).2 hy] at hx; cases hx
  have hpools : t'.pools.Perm t.pools := Dict.perm_of_get? h.inv.core.poolsNodup h'.inv.core.poolsNodup hget
  have hdel : ∀ pid r, t.pools.get? pid = some r → (t'.heap r).delegators.Perm (t.heap r).delegators := by
    intro pid r hr
    refine Dict.perm_of_get? (hb r).nodup (hb' r).nodup (fun b => ?_)
    rw [hs.inv.agree pid r hr b, hs'.inv.agree pid r (by rw [hget]; exact hr) b, halloc]
  have hstake : ∀ pid r, t.pools.get? pid = some r → (t'.heap r).stake = (t.heap r).stake := by
    intro pid r hr
    rw [(hb r).stake, (hb' r).stake, (hsame r).pledge, Dict.total_perm (hdel pid r hr)]
  have hrs : t'.rs = t.rs := by rw [h.frame, h'.frame]
  have hmem : ∀ e ∈ t.pools, t.pools.get? e.1 = some e.2 := fun e he => Dict.get?_of_mem h.inv.core.poolsNodup he
  have hrank : t'.rank = t.rank := by
    refine (SKL.eq_of_perm h.inv.core.rankSorted h'.inv.core.rankSorted ?_ h.inv.core.rank_unique).symm
    refine h.inv.core.rankPerm.trans (List.Perm.trans ?_ h'.inv.core.rankPerm.symm)
    refine List.Perm.append_left _ ?_
    refine List.Perm.trans (List.Perm.of_eq ?_) (hpools.symm.map _)
    exact List.map_congr_left (fun e _ => by rw [(hsame e.2).key])
  have hrankM : t'.rankM = t.rankM := by
    refine (SKL.eq_of_perm h.inv.core.rankMSorted h'.inv.core.rankMSorted ?_ h.inv.core.rankM_unique).symm
    refine h.inv.core.rankMPerm.trans (List.Perm.trans ?_ h'.inv.core.rankMPerm.symm)
    refine List.Perm.append_left _ ?_
    refine List.Perm.trans (List.Perm.of_eq ?_) (hpools.symm.map _)
    refine List.map_congr_left (fun e he => ?_)
    have hk : poolKeyM t'.rs (t'.heap e.2) = poolKeyM t.rs (t.heap e.2) := by
      unfold poolKeyM myopicDes
      rw [hrs, hstake _ _ (hmem e he), (hsame e.2).margin, (hsame e.2).pledge, (hsame e.2).cost, (hsame e.2).id]
    rw [hk]
  refine ⟨?_, hpools, fun pid r hr => ⟨?_, hdel pid r hr⟩, fun a => ?_⟩
  · have e1 := h.frame
    have e2 := h'.frame
    rw [hrank, hrankM] at e2
    rw [e1]
    exact e2
  · have q := hsame r
    have e := hstake pid r hr
    generalize t.heap r = p at q e
    generalize t'.heap r = p' at q e
    cases p; cases p'
    obtain ⟨q1, q2, q3, q4, q5, q6, q7, q8⟩ := q
    simp only at q1 q2 q3 q4 q5 q6 q7 q8 e
    subst q1 q2 q3 q4 q5 q6 q7 q8 e
    rfl
  · have hk := hskel a
    cases hx : t.agents.get? a with
    | none =>
      rw [hx] at hk
      cases hy : t'.agents.get? a with
      | none => exact Or.inl ⟨rfl, rfl⟩
      | some y => rw [hy] at hk; cases hk
    | some x =>
      rw [hx] at hk
      cases hy : t'.agents.get? a with
      | none => rw [hy] at hk; cases hk
      | some y =>
        rw [hy] at hk
        simp only [Option.map_some, Option.some.injEq, Agent.skel, Prod.mk.injEq] at hk
        obtain ⟨k1, k2, k3, k4, k5, k6⟩ := hk
        have hnone : x.newStrategy = none := by
          by_cases ham : a = me
          · subst ham
            have := h.mine
            obtain ⟨ag, hag⟩ := hme
            rw [hx, hag] at this
            simp only [Option.map_some, Option.some.injEq, Agent.skel, Prod.mk.injEq] at this
            simpa using this.2.2.2.2.2
          · have := h.others a ham
            rw [hx] at this
            cases hz : s.agents.get? a with
            | none => rw [hz] at this; cases this
            | some z =>
              rw [hz] at this
              simp only [Option.map_some, Option.some.injEq, Agent.skel, Prod.mk.injEq] at this
              have h6 := this.2.2.2.2.2
              rw [hset a z hz ham] at h6
              simpa using h6
        refine Or.inr ⟨x, y, rfl, rfl, k1, k2, k3, k4, ⟨hnone, ?_⟩, ?_⟩
        · rw [hnone] at k6; simpa using k6
        · cases hσ : x.strategy with
          | none => rw [hσ] at k5; exact Or.inl ⟨rfl, by simpa using k5⟩
          | some ρ =>
            rw [hσ] at k5
            cases hτ : y.strategy with
            | none => rw [hτ] at k5; cases k5
            | some τ =>
              rw [hτ] at k5
              refine Or.inr ⟨ρ, τ, rfl, rfl, by simpa using k5, ?_⟩
              refine Dict.perm_of_get? ((h.inv.tidy a x hx).allocs _ hσ) ((h'.inv.tidy a y hy).allocs _ hτ) (fun pid => ?_)
              have := halloc a pid
              rwa [allocOf_eq hx hσ, allocOf_eq hy hτ] at this

theorem SameUpToOrder.refl {s : State K} (h : Settled s) : SameUpToOrder s s := by
  refine ⟨rfl, List.Perm.refl _, fun _ _ _ => ⟨rfl, List.Perm.refl _⟩, fun a => ?_⟩
  cases hx : s.agents.get? a with
  | none => exact Or.inl ⟨rfl, rfl⟩
  | some x =>
    refine Or.inr ⟨x, x, rfl, rfl, rfl, rfl, rfl, rfl, ⟨h a x hx, h a x hx⟩, ?_⟩
    cases hσ : x.strategy with
    | none => exact Or.inl ⟨rfl, rfl⟩
    | some σ => exact Or.inr ⟨σ, σ, rfl, rfl, rfl, List.Perm.refl _⟩

/-- C98.  In exact arithmetic and with agents moving one after the other: once an agent has decided, its strategy can be executed in any order of the
sets involved.  The execution does not fail, and any two orders lead to the same state up to the order of entries in dictionaries. -/
theorem C98_execution {c : Config K} {s s₁ : State K} (h : Reachable c s) (hc : c.simultaneous = false) {a : Nat} {ord : List Nat → List Nat}
    (hord : ∀ l, (ord l).Perm l) (hu : updateStrategy ord s a = .ok s₁) {ord₁ ord₂ : List Nat → List Nat} (h₁ : ∀ l, (ord₁ l).Perm l)
    (h₂ : ∀ l, (ord₂ l).Perm l) :
    ∃ t₁ t₂, advance ord₁ s₁ a = .ok t₁ ∧ advance ord₂ s₁ a = .ok t₂ ∧ SameUpToOrder t₁ t₂ := by
  have hg := h.good minUnit_pos
  obtain ⟨hseq, hsettled⟩ := hg.seq hc
  cases ha : s.agents.get? a with
  | none =>
    unfold updateStrategy Dict.getE at hu
    rw [ha] at hu
    cases hu
  | some ag =>
    have hid : ag.id = a := hg.inv.core.agentId a ag ha
    have hspec := (updateStrategy_spec hg.inv hord ha (t := True) (fun _ => hseq)).of_ok hu
    rcases hspec with ⟨hab, rfl⟩ | ⟨hprof, σ, oν, s₂, hσ, hpl, hpm, hq⟩
    · have hn := hsettled a ag ha
      refine ⟨s₁, s₁, ?_, ?_, SameUpToOrder.refl hsettled⟩ <;>
      · unfold advance
        rw [Dict.getE_of ha]
        simp only [bind, Except.bind, hn]
        rfl
    · obtain ⟨hseq1, hst⟩ := hq trivial
      have ha1 : s₁.agents.get? a = some { ag with newStrategy := oν } := by
        rw [hpl.eq, get?_setAgent (me := a) (ag := { ag with newStrategy := oν }) hid a, if_pos rfl]
      have hset1 : ∀ b x, s₁.agents.get? b = some x → b ≠ a → x.newStrategy = none := by
        intro b x hx hb
        rw [hpl.eq, get?_setAgent (me := a) (ag := { ag with newStrategy := oν }) hid b, if_neg hb, hpl.planned.agents] at hx
        exact hsettled b x hx
      cases hoν : oν with
      | none =>
        subst hoν
        refine ⟨s₁, s₁, ?_, ?_, SameUpToOrder.refl ?_⟩
        · unfold advance; rw [Dict.getE_of ha1]; rfl
        · unfold advance; rw [Dict.getE_of ha1]; rfl
        · intro b x hx
          by_cases hb : b = a
          · subst hb; rw [ha1] at hx; cases hx; rfl
          · exact hset1 b x hx hb
      | some ν =>
        subst hoν
        have hmin1 : AllocsMin s₁ := hpl.allocsMin hid ha (h.allocsMin minUnit_pos)
        have ht := hg.inv.tidy a ag ha
        have hbal : AllPools Balanced s₁ := by
          rw [hpl.eq]
          exact (planMove_all balanced_upd hg.inv.core h.balanced hord ag (ht.allocs _ hσ) (ht.owned _ hσ) (fun pid r hr => (hg.inv.owned ha hσ hr).1)
            (fun e he => Or.inr ((h.allocsMin minUnit_pos a ag ha).1 σ hσ e he)) (fun s₂ _ _ _ => balanced_decides s₂ ag σ)).of_ok hpm
        have run : ∀ {o : List Nat → List Nat}, (∀ l, (o l).Perm l) → ∃ t, executeStrategy o s₁ a = .ok t ∧ Executed (c.rs.k + 1) s₁ t a ν ∧
            ExecutedSeq s₁ t a σ ν ∧ AllPools Balanced t := by
          intro o ho
          have e1 := executeStrategy_spec minUnit_pos hpl.inv ho ha1 hσ rfl (t := True) (fun _ => hseq1) (fun _ => hst ν rfl)
          have e2 := executeStrategy_all balanced_upd hbal o ha1 (fun ν' hν' e he => Or.inr ((hmin1 a _ ha1).2 ν' hν' e he))
          cases hx : executeStrategy o s₁ a with
          | error e => rw [hx] at e1; exact absurd trivial e1.2
          | ok t =>
            rw [hx] at e1 e2
            exact ⟨t, rfl, e1.1, e1.2 trivial, e2⟩
        obtain ⟨t₁, x1, y1, z1, w1⟩ := run h₁
        obtain ⟨t₂, x2, y2, z2, w2⟩ := run h₂
        have hsame := same_of_executed y1 y2 z1 z2 w1 w2 hset1 ⟨_, ha1⟩
        refine ⟨{ t₁ with idle := false }, { t₂ with idle := false }, ?_, ?_, ?_⟩
        · unfold advance; rw [Dict.getE_of ha1]; simp only [bind, Except.bind, x1]; rfl
        · unfold advance; rw [Dict.getE_of ha1]; simp only [bind, Except.bind, x2]; rfl
        · refine ⟨?_, hsame.pools, hsame.books, hsame.agents⟩
          have := hsame.frame
          generalize t₂.agents = A at this ⊢
          generalize t₂.pools = B at this ⊢
          generalize t₂.heap = C at this ⊢
          rw [this]

end

/-! ### Planning -/

section
variable {F : Type} [LinearOrder F] [Zero F] [One F] [Add F] [Sub F] [Mul F] [Div F] [Neg F] [NatCast F] [FSum F]

theorem choosePoolStrategy_same {ord ord' : List Nat → List Nat} {s s' : State F} {ag : Agent F} {σ ω : Strategy F} {u : F}
    (ho : choosePoolStrategy ord s ag σ = .ok (s', u, ω)) (hlen : ∀ n ms, searchPools (marginsAndUtility s ag σ) (s.rs.k + 1) 1 s.rs.k = .ok (n, ms) →
      σ.owned.length ≤ n) : choosePoolStrategy ord' s ag σ = .ok (s', u, ω) := by
  rw [← ho]
  unfold choosePoolStrategy
  cases hx : searchPools (marginsAndUtility s ag σ) (s.rs.k + 1) 1 s.rs.k with
  | error e => rfl
  | ok v =>
    obtain ⟨n, ms⟩ := v
    simp only [bind, Except.bind]
    unfold determinePoolsToKeep
    have := hlen n ms hx
    rw [if_neg (not_lt.2 this), if_neg (not_lt.2 this)]

theorem copyPools_keys : ∀ (es : List (Nat × Ref)) (s : State F), (copyPools s es).2.keys = es.map Prod.fst
  | [], _ => rfl
  | (pid, r) :: t, s => by
    have := copyPools_keys t (s.alloc (s.heap r))
    simp only [copyPools, Dict.keys, List.map_cons] at this ⊢
    rw [this]

theorem draftPools_owned {me : Agent F} {q c : F} {margins : List F} : ∀ {cnt i : Nat} {s s' : State F} {owned owned' : Dict Ref},
    draftPools me q c margins cnt s i owned = .ok (s', owned') → (∀ k ∈ owned.keys, k ≤ s.idSeq) →
    ∃ new, owned' = owned ++ new ∧ ∀ e ∈ new, s.idSeq < e.1
  | 0, i, s, s', owned, owned', h, _ => by
    cases h
    exact ⟨[], by simp, by simp⟩
  | cnt + 1, i, s, s', owned, owned', h, hk => by
    have hfresh : s.idSeq + 1 ∉ owned.keys := fun hm => by have := hk _ hm; omega
    unfold draftPools at h
    obtain ⟨m, -, h⟩ := bind_ok h
    obtain ⟨new, h1, h2⟩ := draftPools_owned (cnt := cnt) h (fun k hkm => by
      rcases (Dict.keys_set _ _ _ _).1 hkm with rfl | hkm
      · exact le_rfl
      · exact (hk k hkm).trans (Nat.le_succ _))
    rw [Dict.set_of_not_mem hfresh] at h1
    refine ⟨(s.idSeq + 1, s.next) :: new, by rw [h1]; simp, fun e he => ?_⟩
    rcases List.mem_cons.1 he with rfl | he
    · exact Nat.lt_succ_self _
    · exact (Nat.lt_succ_self _).trans (h2 e he)

theorem reworkPools_idSeq {me : Agent F} {q c : F} {margins : List F} : ∀ {l : List (Nat × Ref)} {i : Nat} {s s' : State F},
    reworkPools me q c margins s i l = .ok s' → s'.idSeq = s.idSeq
  | [], _, _, _, h => by cases h; rfl
  | (pid, r) :: t, i, s, s', h => by
    unfold reworkPools at h
    obtain ⟨m, -, h⟩ := bind_ok h
    rw [reworkPools_idSeq h]
    rfl

theorem findOperatorMove_owned {s s' : State F} {me : Agent F} {σ τ : Strategy F} {n : Nat} {owned : Dict Ref} {margins : List F}
    (h : findOperatorMove s me σ n owned margins = .ok (s', τ)) (hids : ∀ k ∈ owned.keys, k ≤ s.idSeq) :
    ∃ new, τ.owned = owned ++ new ∧ ∀ e ∈ new, s.idSeq < e.1 := by
  unfold findOperatorMove at h
  obtain ⟨q, -, h⟩ := bind_ok h
  obtain ⟨c, -, h⟩ := bind_ok h
  obtain ⟨s2, h2, h⟩ := bind_ok h
  obtain ⟨⟨s3, owned'⟩, h3, h⟩ := bind_ok h
  have hi := reworkPools_idSeq h2
  obtain ⟨new, b1, b2⟩ := draftPools_owned h3 (by rw [hi]; exact hids)
  rw [hi] at b2
  simp only at h
  split at h
  · obtain ⟨⟨s4, d⟩, h4, h⟩ := bind_ok h
    cases h
    exact ⟨new, b1, b2⟩
  · cases h
    exact ⟨new, b1, b2⟩

theorem mapM_keys {d : Dict Ref} : ∀ {ids : List Nat} {es : List (Nat × Ref)}, ids.mapM (fun pid => do
      let r ← d.getE pid
      return (pid, r)) = (.ok es : Py _) → es.map Prod.fst = ids
  | [], es, h => by cases h; rfl
  | i :: t, es, h => by
    rw [List.mapM_cons] at h
    obtain ⟨e, h1, h⟩ := bind_ok h
    obtain ⟨es', h2, h⟩ := bind_ok h
    obtain ⟨r, -, h1⟩ := bind_ok h1
    cases h1
    cases h
    rw [List.map_cons, mapM_keys h2]

theorem determinePoolsToKeep_keys {ord : List Nat → List Nat} (hord : ∀ l, (ord l).Perm l) {s s' : State F} {σ : Strategy F} {n : Nat} {d : Dict Ref}
    (h : determinePoolsToKeep ord s σ n = .ok (s', d)) :
    d.keys.Perm (if n < σ.owned.length then topPoolIds s.heap σ.owned n else σ.owned.keys) := by
  unfold determinePoolsToKeep at h
  split at h
  · rename_i hn
    obtain ⟨es, h1, h2⟩ := bind_ok h
    have h2 : copyPools s es = (s', d) := Except.ok.inj h2
    rw [if_pos hn, show d = (copyPools s es).2 by rw [h2], copyPools_keys, mapM_keys h1]
    exact hord _
  · rename_i hn
    have h : copyPools s σ.owned = (s', d) := Except.ok.inj h
    rw [if_neg hn, show d = (copyPools s σ.owned).2 by rw [h], copyPools_keys]
    exact List.Perm.refl _

/-- what is kept when pools are chosen, and the number planned -/
theorem chosen_keys {n₀ : Nat} {s s' : State F} (hcore : Core n₀ s) {ord : List Nat → List Nat} (hord : ∀ l, (ord l).Perm l) {ag : Agent F}
    {σ ω : Strategy F} (hnd : σ.owned.keys.Nodup) (hown : ∀ pid r, σ.owned.get? pid = some r → s.pools.get? pid = some r) {u : F}
    (h : choosePoolStrategy ord s ag σ = .ok (s', u, ω)) :
    ∃ n ms, searchPools (marginsAndUtility s ag σ) (s.rs.k + 1) 1 s.rs.k = .ok (n, ms) ∧
      ∀ pid ∈ σ.owned.keys, (pid ∈ ω.owned.keys ↔ pid ∈ if n < σ.owned.length then topPoolIds s.heap σ.owned n else σ.owned.keys) := by
  obtain ⟨n, ms, s₁, copies, hc⟩ := choosePoolStrategy_ok h
  obtain ⟨s2, d, e2, c2, p2, i2, f2, kd2, vd2, l2, sub2, cp2⟩ := determinePoolsToKeep_spec hcore hord ag.id σ.allocs.keys hnd
    (fun pid r hr => (hcore.poolRef _ _ (hown _ _ hr)).1) n
  have hkeep := hc.keep
  rw [e2] at hkeep
  cases hkeep
  have hle : ∀ pid ∈ σ.owned.keys, pid ≤ s₁.idSeq := by
    intro i hi
    obtain ⟨r, hr⟩ := Dict.mem_keys_iff.1 hi
    rw [i2]
    exact (hcore.poolRef _ _ (hown _ _ hr)).2.2.2
  obtain ⟨new, hω, hnew⟩ := findOperatorMove_owned hc.find (fun k hk => hle k (sub2 k hk))
  refine ⟨n, ms, hc.search, fun pid hpid => ?_⟩
  rw [← (determinePoolsToKeep_keys hord e2).mem_iff, hω, Dict.keys, List.map_append, List.mem_append]
  constructor
  · rintro (hm | hm)
    · exact hm
    · obtain ⟨e, he, rfl⟩ := List.mem_map.1 hm
      have h1 := hnew e he
      have h2 := hle e.1 hpid
      omega
  · exact Or.inl

/-- C98.  Planning does not depend on the order if the operator plan `ω` that the agent considers has all the pools the agent operates now: the plan with
any other order is the same, to the last detail.  (Also holds in floating point and with any activation order.) -/
theorem C98_no_cut (hmin : (0 : F) < minUnit) {c : Config F} {s s₁ s₂ : State F} (h : Reachable c s) {a : Nat} {ag : Agent F} {σ δ ω : Strategy F}
    (ha : s.agents.get? a = some ag) (hσ : ag.strategy = some σ) {ord : List Nat → List Nat} (hord : ∀ l, (ord l).Perm l) {u : F}
    (hd : findDelegationMove s ag σ ag.stake = .ok (s₁, δ)) (hω : choosePoolStrategy ord s₁ ag σ = .ok (s₂, u, ω))
    (hall : ∀ pid ∈ σ.owned.keys, pid ∈ ω.owned.keys) (ord' : List Nat → List Nat) :
    planMove ord' s ag σ = planMove ord s ag σ := by
  have hg := h.good hmin
  have ht := hg.inv.tidy a ag ha
  obtain ⟨c1, sh1, -, -, -⟩ := (findDelegationMove_spec hg.inv.core ag σ (ht.allocs _ hσ) ag.stake).of_ok hd
  have hown1 : ∀ pid r, σ.owned.get? pid = some r → s₁.pools.get? pid = some r := fun pid r hr => by
    rw [sh1.pools]; exact (hg.inv.owned ha hσ hr).1
  obtain ⟨n, ms, hs, hkeys⟩ := chosen_keys c1 hord (ht.owned _ hσ) hown1 hω
  have hlen : σ.owned.length ≤ n := by
    by_contra hlt
    rw [not_le] at hlt
    obtain ⟨s2, d, e2, -, -, -, -, -, -, l2, -, -⟩ := determinePoolsToKeep_spec c1 hord ag.id σ.allocs.keys (ht.owned _ hσ)
      (fun pid r hr => (c1.poolRef _ _ (hown1 _ _ hr)).1) n
    have hp := determinePoolsToKeep_keys hord e2
    rw [if_pos hlt] at hp
    have hsub : σ.owned.keys ⊆ d.keys := fun pid hpid => by
      have := (hkeys pid hpid).1 (hall pid hpid)
      rw [if_pos hlt] at this
      exact hp.mem_iff.2 this
    have := (List.subperm_of_subset (ht.owned _ hσ) hsub).length_le
    simp only [Dict.keys, List.length_map] at this
    omega
  have hω' : choosePoolStrategy ord' s₁ ag σ = .ok (s₂, u, ω) :=
    choosePoolStrategy_same hω (fun n' ms' h' => by rw [hs] at h'; cases h'; exact hlen)
  unfold planMove
  rw [hd]
  simp only [bind, Except.bind, hω, hω']

end

section
variable {K : Type} [Field K] [LinearOrder K] [IsStrictOrderedRing K]

/-- C98.  In any case the order does not change how many pools the agent considers operating, with which margins, and which of its pools it would keep;
it only decides which pool gets which margin. -/
theorem C98_same_choice {c : Config K} {s s₁ t₁ t₂ : State K} (h : Reachable c s) {a : Nat} {ag : Agent K} {σ δ ω₁ ω₂ : Strategy K}
    (ha : s.agents.get? a = some ag) (hσ : ag.strategy = some σ) {ord₁ ord₂ : List Nat → List Nat} (h₁ : ∀ l, (ord₁ l).Perm l)
    (h₂ : ∀ l, (ord₂ l).Perm l) {u₁ u₂ : K} (hd : findDelegationMove s ag σ ag.stake = .ok (s₁, δ))
    (hω₁ : choosePoolStrategy ord₁ s₁ ag σ = .ok (t₁, u₁, ω₁)) (hω₂ : choosePoolStrategy ord₂ s₁ ag σ = .ok (t₂, u₂, ω₂)) :
    ω₁.owned.map (fun e => (t₁.heap e.2).margin) = ω₂.owned.map (fun e => (t₂.heap e.2).margin) ∧
      ∀ pid ∈ σ.owned.keys, (pid ∈ ω₁.owned.keys ↔ pid ∈ ω₂.owned.keys) := by
  have hg := h.good minUnit_pos
  have ht := hg.inv.tidy a ag ha
  obtain ⟨c1, sh1, -, -, -⟩ := (findDelegationMove_spec hg.inv.core ag σ (ht.allocs _ hσ) ag.stake).of_ok hd
  have hown1 : ∀ pid r, σ.owned.get? pid = some r → s₁.pools.get? pid = some r := fun pid r hr => by
    rw [sh1.pools]; exact (hg.inv.owned ha hσ hr).1
  have key : ∀ {ord : List Nat → List Nat}, (∀ l, (ord l).Perm l) → ∀ {t u ω}, choosePoolStrategy ord s₁ ag σ = .ok (t, u, ω) →
      ∃ n, searchPools (marginsAndUtility s₁ ag σ) (s₁.rs.k + 1) 1 s₁.rs.k = .ok (n, ω.owned.map (fun e => (t.heap e.2).margin)) := by
    intro ord hord t u ω hω
    obtain ⟨n, ms, s2, copies, hc⟩ := choosePoolStrategy_ok hω
    have hk : 1 ≤ s₁.rs.k := by
      obtain ⟨-, -, -, hop⟩ := (choosePoolStrategy_spec c1 hord ag (ht.allocs _ hσ) (ht.owned _ hσ) hown1).of_ok hω
      obtain ⟨-, -, -, -, -, -, -, hpos, hle, -⟩ := hop.shape
      exact hpos.trans_le hle
    obtain ⟨-, -, u', hmu⟩ := (searchPools_sat (s₁.rs.k + 1) 1 s₁.rs.k (f := marginsAndUtility s₁ ag σ)
      (fun t _ _ => (marginsAndUtility_sat s₁ ag σ t).mono (fun _ _ => (trivial : AnyErr _)) (fun _ _ => trivial)) (by omega) (by omega)).of_ok hc.search
    have hmlen : ms.length = n := ((marginsAndUtility_sat s₁ ag σ n).of_ok hmu).2
    obtain ⟨s2', d, e2, c2, p2, i2, f2, kd2, vd2, l2, sub2, cp2⟩ := determinePoolsToKeep_spec c1 hord ag.id σ.allocs.keys (ht.owned _ hσ)
      (fun pid r hr => (c1.poolRef _ _ (hown1 _ _ hr)).1) n
    have hkeep := hc.keep
    rw [e2] at hkeep
    cases hkeep
    have hmargins := findOperatorMove_margins hc.find vd2 (fun i hi => by
        obtain ⟨r, hr⟩ := Dict.mem_keys_iff.1 (sub2 i hi)
        rw [i2]
        exact (c1.poolRef _ _ (hown1 _ _ hr)).2.2.2)
      (fun r hr => by
        obtain ⟨e, he, rfl⟩ := List.mem_map.1 hr
        exact (cp2 e he).2.1) (by omega) hmlen
    exact ⟨n, by rw [hmargins]; exact hc.search⟩
  constructor
  · obtain ⟨n, e1⟩ := key h₁ hω₁
    obtain ⟨n', e2⟩ := key h₂ hω₂
    rw [e1] at e2
    exact (Prod.mk.inj (Except.ok.inj e2)).2
  · intro pid hpid
    obtain ⟨n, ms, e1, k1⟩ := chosen_keys c1 h₁ (ht.owned _ hσ) hown1 hω₁
    obtain ⟨n', ms', e2, k2⟩ := chosen_keys c1 h₂ (ht.owned _ hσ) hown1 hω₂
    rw [e1] at e2
    cases e2
    rw [k1 pid hpid, k2 pid hpid]

/-- C98.  So a turn of an agent that would keep all its pools as an operator does not depend on the order, up to the order of entries in dictionaries
(exact arithmetic, agents moving one after the other). -/
theorem C98_turn {c : Config K} {s s₁ s₂ t : State K} (h : Reachable c s) (hc : c.simultaneous = false) {a : Nat} {ag : Agent K} {σ δ ω : Strategy K}
    (ha : s.agents.get? a = some ag) (hσ : ag.strategy = some σ) {ord : List Nat → List Nat} (hord : ∀ l, (ord l).Perm l) {u : K}
    (hd : findDelegationMove s ag σ ag.stake = .ok (s₁, δ)) (hω : choosePoolStrategy ord s₁ ag σ = .ok (s₂, u, ω))
    (hall : ∀ pid ∈ σ.owned.keys, pid ∈ ω.owned.keys) (hstep : agentStep ord s a = .ok t) {ord' : List Nat → List Nat} (hord' : ∀ l, (ord' l).Perm l) :
    ∃ t', agentStep ord' s a = .ok t' ∧ SameUpToOrder t t' := by
  have hplan := C98_no_cut minUnit_pos h ha hσ hord hd hω hall ord'
  have hupd : updateStrategy ord' s a = updateStrategy ord s a := by
    unfold updateStrategy
    rw [Dict.getE_of ha]
    simp only [bind, Except.bind, hσ, hplan]
  unfold agentStep at hstep
  obtain ⟨s', hu, hstep⟩ := bind_ok hstep
  have hseq' : s'.simultaneous = false := by
    have hg := h.good minUnit_pos
    have hs := (hg.seq hc).1
    rcases (updateStrategy_spec hg.inv hord ha (t := True) (fun _ => hs)).of_ok hu with ⟨-, rfl⟩ | ⟨_, _, _, _, _, _, _, hq⟩
    · exact hs.seq
    · exact (hq trivial).1.seq
  rw [hseq'] at hstep
  obtain ⟨t₁, t₂, e1, e2, hsame⟩ := C98_execution h hc hord hu hord hord'
  simp only [Bool.false_eq_true, if_false] at hstep
  rw [e1] at hstep
  cases hstep
  refine ⟨t₂, ?_, hsame⟩
  unfold agentStep
  rw [hupd, hu]
  simp only [bind, Except.bind, hseq', Bool.false_eq_true, if_false]
  exact e2

end

/-! ### The order can matter -/

/-- The order of a set of at most 18 small numbers in CPython, if no two of them fall into the same slot: the table has 8 slots for up to 4 elements,
then 32, and a number goes into the slot given by its low bits. -/
def slots (l : List Nat) : List Nat := if l.length ≤ 4 then l.insertionSort (fun a b => a % 8 ≤ b % 8) else l.insertionSort (fun a b => a % 32 ≤ b % 32)

theorem slots_perm (l : List Nat) : (slots l).Perm l := by
  unfold slots
  split
  · exact List.perm_insertionSort _ l
  · exact List.perm_insertionSort _ l

/-- five agents, `k = 4` -/
def fiveCfg : Config ℚ :=
  { rs := { scheme := .cardano, k := 4, beta := 1/4, a0 := 3/10 }, relThr := 0, absThr := 1/10^9, extraFrac := 1/5, simultaneous := false,
    people := [(8/25, 7/250, .nonMyopic), (3/25, 3/100, .nonMyopic), (1/5, 1/500, .myopic), (7/25, 1/250, .myopic), (2/25, 7/1000, .nonMyopic)],
    totalStake := 1 }

/-- the turns of `n` agents in order, for some rounds, with sets iterated in order `ord` -/
def roundsWith (ord : List Nat → List Nat) (n rounds : Nat) : List (Event ℚ) :=
  (List.replicate rounds ((List.range n).map (fun a => .step a ord) ++ [.roundEnd])).flatten

theorem roundsWith_valid {ord : List Nat → List Nat} (hord : ∀ l, (ord l).Perm l) (n rounds : Nat) : ∀ e ∈ roundsWith ord n rounds, e.Valid n := by
  intro e he
  obtain ⟨l, hl, hel⟩ := List.mem_flatten.1 he
  rw [List.eq_of_mem_replicate hl] at hel
  rcases List.mem_append.1 hel with h | h
  · obtain ⟨a, ha, rfl⟩ := List.mem_map.1 h
    exact ⟨List.mem_range.1 ha, hord⟩
  · rw [List.mem_singleton.1 h]; trivial

/-- the number of pools after three rounds, and whether a further round would be idle -/
def poolsAfter (ord : List Nat → List Nat) (s : State ℚ) : Option (Nat × Bool) := do
  let s ← (iterM exec s (roundsWith ord 5 3)).toOption
  let t ← (iterM exec s ((List.range 5).map (fun a => .step a ord))).toOption
  return (s.pools.length, t.idle)

instance : DecidableEq (Nat × Bool) := instDecidableEqProd

/-- C98.  The order can decide about the outcome: the same five agents settle on six pools if sets are iterated as in CPython, and on five if they are
iterated in the opposite order of insertion. -/
theorem C98_order_matters : (∀ l, (slots l).Perm l) ∧ (∀ l : List Nat, l.reverse.Perm l) ∧
    poolsAfter slots (initState fiveCfg) = some (6, true) ∧ poolsAfter List.reverse (initState fiveCfg) = some (5, true) :=
  ⟨slots_perm, List.reverse_perm, by decide +kernel, by decide +kernel⟩

/-- C98.  So the numbers given to pools are more than names in CPython: numbering from 3 instead of 1 makes the same agents settle on five pools
instead of six.  (`C85_events` asks for orders that do not depend on the numbers.) -/
theorem C98_numbers_matter : poolsAfter slots (initState fiveCfg) = some (6, true) ∧
    poolsAfter slots { initState fiveCfg with idSeq := 2 } = some (5, true) :=
  ⟨by decide +kernel, by decide +kernel⟩

/-- the pools that an agent operates after some rounds, and the ones it considers operating -/
def keeps (ord : List Nat → List Nat) (rounds a : Nat) : Option (List Nat × List Nat) := do
  let s ← (iterM exec (initState fiveCfg) (roundsWith ord 5 rounds)).toOption
  let ag ← s.agents.get? a
  let σ ← ag.strategy
  let (s₁, _) ← (findDelegationMove s ag σ ag.stake).toOption
  let (_, _, ω) ← (choosePoolStrategy ord s₁ ag σ).toOption
  return (σ.owned.keys, ω.owned.keys)

instance : DecidableEq (List Nat × List Nat) := instDecidableEqProd

/-- after one round agent 2 operates pools 6 to 9 and considers keeping three, in the order of their slots: the first margin is for pool 9, which is
in slot 1 -/
example : keeps slots 1 2 = some ([6, 7, 8, 9], [9, 6, 7]) := by decide +kernel

/-- after two rounds agent 3 operates two pools and would keep both: the hypotheses of `C98_no_cut` and `C98_turn` hold -/
example : keeps slots 2 3 = some ([15, 16], [15, 16]) := by decide +kernel

/-- the states of the example are reachable -/
example {s : State ℚ} (h : iterM exec (initState fiveCfg) (roundsWith slots 5 2) = .ok s) : Reachable fiveCfg s :=
  ⟨_, roundsWith_valid slots_perm 5 2, h⟩

end RSE.Props
