import Verif.Lemmas.ExecSpec
import Verif.Model.Init

/-!
# Every event preserves the structural invariant
-/

set_option linter.unusedSectionVars false

namespace RSE

variable {F : Type} [LinearOrder F] [Zero F] [One F] [Add F] [Sub F] [Mul F] [Div F] [Neg F] [NatCast F] [FSum F]

/-- nobody has a staged strategy (between the turns of a sequential simulation) -/
def Settled (s : State F) : Prop := ∀ a ag, s.agents.get? a = some ag → ag.newStrategy = none

theorem ownOf_eq {s : State F} {a : Nat} {ag : Agent F} {σ : Strategy F} (ha : s.agents.get? a = some ag) (hσ : ag.strategy = some σ) (pid : Nat) :
    ownOf s a pid = σ.owned.get? pid := by simp [ownOf, ha, hσ]

theorem stgOf_eq {s : State F} {a : Nat} {ag : Agent F} {ν : Strategy F} (ha : s.agents.get? a = some ag) (hν : ag.newStrategy = some ν) (pid : Nat) :
    stgOf s a pid = ν.owned.get? pid := by simp [stgOf, ha, hν]

theorem allocOf_eq {s : State F} {a : Nat} {ag : Agent F} {σ : Strategy F} (ha : s.agents.get? a = some ag) (hσ : ag.strategy = some σ) (pid : Nat) :
    allocOf s a pid = σ.allocs.get? pid := by simp [allocOf, ha, hσ]

theorem Inv.owned {n : Nat} {s : State F} (h : Inv n s) {a : Nat} {ag : Agent F} {σ : Strategy F} (ha : s.agents.get? a = some ag)
    (hσ : ag.strategy = some σ) {pid : Nat} {r : Ref} (hr : σ.owned.get? pid = some r) : s.pools.get? pid = some r ∧ (s.heap r).owner = a :=
  (h.own.own_iff a pid r).1 (by rw [ownOf_eq ha hσ]; exact hr)

/-! ### Planning -/

/-- What a call of `update_strategy` of agent `me` (with strategy `σ`) does. -/
structure StepPlan (n : Nat) (s s' : State F) (me : Nat) (ag : Agent F) (σ : Strategy F) (oν : Option (Strategy F)) (s₁ : State F) : Prop where
  eq : s' = s₁.setAgent { ag with newStrategy := oν }
  planned : Planned me σ.allocs.keys s s₁
  restored : Restored me σ.allocs s s₁
  new : ∀ ν, oν = some ν → NewStrat s s₁ ag σ ν
  inv : Inv n s'

theorem get?_setAgent {s : State F} {me : Nat} {ag : Agent F} (hid : ag.id = me) (b : Nat) :
    (s.setAgent ag).agents.get? b = if b = me then some ag else s.agents.get? b := by
  simp only [State.setAgent, Dict.get?_set, hid]
  by_cases hb : b = me
  · simp [hb]
  · simp [hb, Ne.symm hb]

theorem planned_inv {n : Nat} {s s₁ : State F} (h : Inv n s) {me : Nat} {ag : Agent F} (ha : s.agents.get? me = some ag) {σ : Strategy F}
    (hσ : ag.strategy = some σ) (hprof : ag.profile ≠ .abstainer) (hc : Core n s₁) (hp : Planned me σ.allocs.keys s s₁) {oν : Option (Strategy F)}
    (hnew : ∀ ν, oν = some ν → NewStrat s s₁ ag σ ν) : Inv n (s₁.setAgent { ag with newStrategy := oν }) := by
  have hid : ag.id = me := h.core.agentId _ _ ha
  set agN : Agent F := { ag with newStrategy := oν } with hagN
  have hget : ∀ b, (s₁.setAgent agN).agents.get? b = if b = me then some agN else s.agents.get? b := by
    intro b; rw [get?_setAgent (me := me) (ag := agN) hid b, hp.agents]
  set s' := s₁.setAgent agN with hs'
  have hown : ∀ a p, ownOf s' a p = ownOf s a p := by
    intro a p
    unfold ownOf; rw [hget]
    by_cases hb : a = me
    · subst hb; simp [ha, hagN]
    · simp [hb]
  have hstgne : ∀ a, a ≠ me → ∀ p, stgOf s' a p = stgOf s a p := by
    intro a hb p
    unfold stgOf; rw [hget]; simp [hb]
  have hstgme : ∀ p r, stgOf s' me p = some r → ∃ ν, oν = some ν ∧ ν.owned.get? p = some r := by
    intro p r hr
    unfold stgOf at hr; rw [hget] at hr
    simp only [if_true, Option.bind_some, hagN] at hr
    cases hoν : oν with
    | none => rw [hoν] at hr; cases hr
    | some ν => rw [hoν] at hr; exact ⟨ν, rfl, hr⟩
  have hpr : ∀ pid r, s.pools.get? pid = some r → r < s.next := fun pid r hq => (h.core.poolRef _ _ hq).1
  have hpools : s'.pools = s.pools := hp.pools
  have hheap : s'.heap = s₁.heap := rfl
  -- the staged objects
  have hdraft : ∀ p r, stgOf s' me p = some r → s.next ≤ r ∧ r < s₁.next ∧ (s₁.heap r).id = p ∧ (s₁.heap r).owner = me ∧
      ((∃ q, s.pools.get? p = some q ∧ (s.heap q).owner = me ∧ ∀ d ∈ (s₁.heap r).delegators.keys, d = me ∨ d ∈ (s.heap q).delegators.keys) ∨
       (s.idSeq < p ∧ p ≤ s₁.idSeq ∧ (s₁.heap r).delegators = [])) := by
    intro p r hr
    obtain ⟨ν, hν, hg⟩ := hstgme p r hr
    obtain ⟨d1, d2, d3⟩ := (hnew ν hν).drafts p r hg
    refine ⟨d1, d2, ?_⟩
    rcases d3 with ⟨r₀, q, c, m, s₂, e1, e2, e3⟩ | ⟨e1, e2, q, c, m, e3⟩
    · obtain ⟨g1, g2⟩ := h.owned ha hσ e1
      have hlt := hpr _ _ g1
      rw [hid] at e2
      rw [e3]
      refine ⟨(e2.same r₀ hlt).id.trans (h.core.poolRef _ _ g1).2.1, (e2.same r₀ hlt).owner.trans g2, Or.inl ⟨r₀, g1, g2, ?_⟩⟩
      intro d hd
      by_cases hdm : d = me
      · exact Or.inl hdm
      · right
        rw [delegators_rework] at hd
        obtain ⟨x, hx⟩ := Dict.mem_keys_iff.1 hd
        rw [e2.others r₀ hlt d hdm] at hx
        exact Dict.mem_keys_of_get? hx
    · rw [e3]
      exact ⟨rfl, hid, Or.inr ⟨e1, e2, rfl⟩⟩
  have hhas : HasStrat s me := ⟨ag, σ, ha, hσ⟩
  have hhas' : ∀ d, HasStrat s d → HasStrat s' d := by
    rintro d ⟨a', σ', k1, k2⟩
    by_cases hd : d = me
    · exact ⟨agN, σ, by rw [hget, if_pos hd], hσ⟩
    · exact ⟨a', σ', by rw [hget, if_neg hd]; exact k1, k2⟩
  refine ⟨hc.setAgent agN, ⟨?_, ?_, ?_, ?_, ?_⟩, ?_, ?_, ?_, ?_⟩
  · intro a p r
    rw [hown, h.own.own_iff, hpools, hheap]
    constructor
    · rintro ⟨g1, g2⟩
      exact ⟨g1, (hp.same r (hpr _ _ g1)).owner.trans g2⟩
    · rintro ⟨g1, g2⟩
      exact ⟨g1, (hp.same r (hpr _ _ g1)).owner.symm.trans g2⟩
  · intro a p r hr
    rw [hpools, hheap]
    by_cases hb : a = me
    · subst hb
      obtain ⟨d1, d2, d3, d4, -⟩ := hdraft p r hr
      exact ⟨d2, d3, d4, fun pid' hq => by have := hpr _ _ hq; omega⟩
    · rw [hstgne a hb] at hr
      obtain ⟨g1, g2, g3, g4⟩ := h.own.stg_ok _ _ _ hr
      exact ⟨lt_of_lt_of_le g1 hp.next_le, (hp.same r g1).id.trans g2, (hp.same r g1).owner.trans g3, g4⟩
  · intro a p r hr
    by_cases hb : a = me
    · subst hb
      obtain ⟨d1, d2, d3, d4, ⟨q, k1, -⟩ | ⟨k1, k2, -⟩⟩ := hdraft p r hr
      · exact ⟨(h.core.poolRef _ _ k1).2.2.1, (h.core.poolRef _ _ k1).2.2.2.trans hp.idSeq_le⟩
      · exact ⟨by omega, k2⟩
    · rw [hstgne a hb] at hr
      exact ⟨(h.own.stg_id _ _ _ hr).1, (h.own.stg_id _ _ _ hr).2.trans hp.idSeq_le⟩
  · intro a p r hr q hq
    rw [hpools] at hq
    rw [hheap, (hp.same q (hpr _ _ hq)).owner]
    by_cases hb : a = me
    · subst hb
      obtain ⟨d1, d2, d3, d4, ⟨q', k1, k2, -⟩ | ⟨k1, k2, -⟩⟩ := hdraft p r hr
      · rw [hq] at k1; cases k1; exact k2
      · have := (h.core.poolRef _ _ hq).2.2.2; omega
    · rw [hstgne a hb] at hr
      exact h.own.stg_pool _ _ _ hr _ hq
  · have key : ∀ a, a ≠ me → ∀ p r r', stgOf s' a p = some r → stgOf s' me p = some r' → False := by
      intro a hb p r r' hr hr'
      rw [hstgne a hb] at hr
      obtain ⟨d1, d2, d3, d4, ⟨q', k1, k2, -⟩ | ⟨k1, k2, -⟩⟩ := hdraft p r' hr'
      · exact hb ((h.own.stg_pool _ _ _ hr _ k1).symm.trans k2)
      · have := (h.own.stg_id _ _ _ hr).2; omega
    intro a a' p r r' hr hr'
    by_cases hb : a = me
    · by_cases hb' : a' = me
      · rw [hb, hb']
      · subst hb; exact (key a' hb' p r' r hr' hr).elim
    · by_cases hb' : a' = me
      · subst hb'; exact (key a hb p r r' hr hr').elim
      · rw [hstgne a hb] at hr; rw [hstgne a' hb'] at hr'
        exact h.own.stg_uniq _ _ _ _ _ hr hr'
  · intro a ag' hb
    rw [hget] at hb
    split at hb
    · cases hb
      have ht := h.tidy _ _ ha
      refine ⟨ht.allocs, ht.owned, ?_, ?_⟩
      · intro ν hν; exact (hnew ν hν).allocs.nodup
      · intro ν hν; exact (hnew ν hν).ownedNodup
    · exact h.tidy _ _ hb
  · intro r hr d hd
    apply hhas'
    rw [hheap] at hd
    have hold : r < s.next → Live (ownOf s) (stgOf s) r → HasStrat s d := by
      intro hlt hl
      by_cases hdm : d = me
      · subst hdm; exact hhas
      · obtain ⟨x, hx⟩ := Dict.mem_keys_iff.1 hd
        rw [hp.others r hlt d hdm] at hx
        exact h.del r hl d (Dict.mem_keys_of_get? hx)
    obtain ⟨a, p, hr | hr⟩ := hr
    · rw [hown] at hr
      exact hold (hpr _ _ ((h.own.own_iff _ _ _).1 hr).1) ⟨a, p, Or.inl hr⟩
    · by_cases hb : a = me
      · subst hb
        obtain ⟨d1, d2, d3, d4, ⟨q', k1, k2, k3⟩ | ⟨k1, k2, k3⟩⟩ := hdraft p r hr
        · rcases k3 d hd with rfl | hd'
          · exact hhas
          · exact h.del q' ⟨a, p, Or.inl ((h.own.own_iff _ _ _).2 ⟨k1, k2⟩)⟩ d hd'
        · rw [k3] at hd; simp [Dict.keys] at hd
      · rw [hstgne a hb] at hr
        exact hold (h.own.stg_ok _ _ _ hr).1 ⟨a, p, Or.inr hr⟩
  · intro a ag' hb hpb
    rw [hget] at hb
    split at hb
    · cases hb; exact absurd hpb hprof
    · exact h.abst _ _ hb hpb
  · intro a ag' hb hpb
    rw [hget] at hb
    split at hb
    · cases hb; exact ⟨σ, hσ⟩
    · exact h.strat _ _ hb hpb

theorem allocOf_setAgent {s s₁ : State F} {me : Nat} {ag : Agent F} (ha : s.agents.get? me = some ag) (hid : ag.id = me)
    (hag : s₁.agents = s.agents) (oν : Option (Strategy F)) (b pid : Nat) :
    allocOf (s₁.setAgent { ag with newStrategy := oν }) b pid = allocOf s b pid := by
  unfold allocOf
  rw [get?_setAgent (me := me) (ag := { ag with newStrategy := oν }) hid b, hag]
  by_cases hb : b = me
  · subst hb; simp [ha]
  · simp [hb]

theorem planned_books {n : Nat} {s s₁ : State F} (h : Inv n s) (hq : Books s) {me : Nat} {ag : Agent F} (ha : s.agents.get? me = some ag)
    {σ : Strategy F} (hσ : ag.strategy = some σ) (hp : Planned me σ.allocs.keys s s₁) (hr : Restored me σ.allocs s s₁) (oν : Option (Strategy F)) :
    Books (s₁.setAgent { ag with newStrategy := oν }) := by
  have hid : ag.id = me := h.core.agentId _ _ ha
  have hpr : ∀ pid r, s.pools.get? pid = some r → r < s.next := fun pid r hq => (h.core.poolRef _ _ hq).1
  have hal := allocOf_setAgent ha hid hp.agents oν
  refine ⟨?_, ?_⟩
  · intro pid r hpo b
    have hpo' : s.pools.get? pid = some r := by rw [← hp.pools]; exact hpo
    rw [hal, ← hq.agree pid r hpo' b]
    change (s₁.heap r).delegators.get? b = _
    by_cases hb : b = me
    · subst hb
      rcases hr pid r hpo' with h1 | h1
      · exact h1
      · rw [h1]
        cases hx : σ.allocs.get? pid with
        | none => rfl
        | some x =>
          have hx' : allocOf s b pid = some x := by rw [allocOf_eq ha hσ]; exact hx
          rw [hq.agree pid r hpo' b, hx']
          have := (hq.good _ _ _ hx').1
          simp [recorded, not_lt.2 this]
    · exact hp.others r (hpr _ _ hpo') b hb
  · intro b pid x hx
    rw [hal] at hx
    obtain ⟨g1, r, g2, g3⟩ := hq.good _ _ _ hx
    refine ⟨g1, r, ?_, ?_⟩
    · change s₁.pools.get? pid = some r; rw [hp.pools]; exact g2
    · change (s₁.heap r).owner ≠ b; rw [(hp.same r (hpr _ _ g2)).owner]; exact g3

theorem planned_staged {n : Nat} {s s₁ : State F} (h : Inv n s) (hq : Books s) {me : Nat} {ag : Agent F} (ha : s.agents.get? me = some ag)
    {σ : Strategy F} (hσ : ag.strategy = some σ) (hp : Planned me σ.allocs.keys s s₁) {ν : Strategy F} (hnew : NewStrat s s₁ ag σ ν)
    (oν : Option (Strategy F)) : Staged (s₁.setAgent { ag with newStrategy := oν }) me σ ν := by
  have hid : ag.id = me := h.core.agentId _ _ ha
  have hpr : ∀ pid r, s.pools.get? pid = some r → r < s.next := fun pid r hq => (h.core.poolRef _ _ hq).1
  refine ⟨?_, ?_, ?_⟩
  · intro pid x hx
    obtain ⟨g1, r, g2, g3, -⟩ := hnew.allocs.good pid x hx
    exact ⟨g1, r, g2, by rw [← hid]; exact g3⟩
  · intro pid r r' hr hr' b
    change (s₁.heap r').delegators.get? b = (s₁.heap r).delegators.get? b
    obtain ⟨g1, g2⟩ := h.owned ha hσ hr
    have hlt := hpr _ _ g1
    have huntouched : ∀ s₂, Planned me σ.allocs.keys s s₂ → s₂.heap r = s.heap r := by
      intro s₂ hp2
      apply hp2.untouched r hlt
      intro pid' hm hp'
      obtain ⟨x, hx⟩ := Dict.mem_keys_iff.1 hm
      rw [← allocOf_eq ha hσ] at hx
      obtain ⟨-, q, k1, k2⟩ := hq.good _ _ _ hx
      rw [hp'] at k1; cases k1
      exact k2 g2
    obtain ⟨d1, d2, ⟨r₀, q, c, m, s₂, e1, e2, e3⟩ | ⟨e1, -⟩⟩ := hnew.drafts pid r' hr'
    · rw [hr] at e1; cases e1
      rw [hid] at e2
      rw [e3, delegators_rework, huntouched s₂ e2, huntouched s₁ hp]
    · have := (h.core.poolRef _ _ g1).2.2.2; omega
  · intro pid r' hr hr'
    change (s₁.heap r').delegators = []
    obtain ⟨d1, d2, ⟨r₀, q, c, m, s₂, e1, e2, e3⟩ | ⟨e1, e2, q, c, m, e3⟩⟩ := hnew.drafts pid r' hr'
    · rw [hr] at e1; cases e1
    · rw [e3]; rfl

/-- errors of a turn -/
def TurnErr (t : Prop) (e : Err) : Prop := Ev e ∨ (e = .key ∧ ¬ t)

theorem updateStrategy_books {n : Nat} {s : State F} (h : Inv n s) {ord : List Nat → List Nat} (hord : ∀ l, (ord l).Perm l)
    {me : Nat} {ag : Agent F} (ha : s.agents.get? me = some ag) {t : Prop} (hq : t → Books s) :
    Sat (TurnErr t) (updateStrategy ord s me) (fun s' =>
      (ag.profile = .abstainer ∧ s' = s) ∨
      (ag.profile ≠ .abstainer ∧ ∃ σ oν s₁, ag.strategy = some σ ∧ StepPlan n s s' me ag σ oν s₁ ∧
        planMove ord s ag σ = .ok (s₁, oν) ∧
        (t → Books s' ∧ ∀ ν, oν = some ν → Staged s' me σ ν))) := by
  have hid : ag.id = me := h.core.agentId _ _ ha
  have main : ag.profile ≠ .abstainer → ∀ σ, ag.strategy = some σ → Sat (TurnErr t) ((planMove ord s ag σ).map
      (fun v => v.1.setAgent { ag with newStrategy := v.2 })) (fun s' => ∃ σ oν s₁, ag.strategy = some σ ∧ StepPlan n s s' me ag σ oν s₁ ∧
        planMove ord s ag σ = .ok (s₁, oν) ∧
        (t → Books s' ∧ ∀ ν, oν = some ν → Staged s' me σ ν)) := by
    intro hprof σ hσ
    have ht := h.tidy _ _ ha
    have hspec := planMove_spec h.core hord ag (ht.allocs _ hσ) (ht.owned _ hσ) (fun pid r hr => (h.owned ha hσ hr).1)
    rw [hid] at hspec
    cases hpm : planMove ord s ag σ with
    | error e =>
      rw [hpm] at hspec
      rcases hspec with he | ⟨he, pid, hm, hno⟩
      · exact Or.inl he
      · refine Or.inr ⟨he, fun htt => ?_⟩
        obtain ⟨x, hx⟩ := Dict.mem_keys_iff.1 hm
        rw [← allocOf_eq ha hσ] at hx
        obtain ⟨-, q, k1, -⟩ := (hq htt).good _ _ _ hx
        rw [hno] at k1; cases k1
    | ok res =>
      obtain ⟨s₁, oν⟩ := res
      rw [hpm] at hspec
      obtain ⟨c1, p1, r1, n1⟩ := hspec
      simp only at c1 p1 r1 n1
      refine ⟨σ, oν, s₁, hσ, ⟨rfl, p1, r1, n1, planned_inv h ha hσ hprof c1 p1 n1⟩, hpm, fun htt => ⟨?_, fun ν hν => ?_⟩⟩
      · exact planned_books h (hq htt) ha hσ p1 r1 oν
      · exact planned_staged h (hq htt) ha hσ p1 (n1 ν hν) oν
  by_cases hprof : ag.profile = .abstainer
  · have : updateStrategy ord s me = .ok s := by
      unfold updateStrategy
      rw [Dict.getE_of ha]
      simp [bind, Except.bind, hprof, pure, Except.pure]
    rw [this]; exact Or.inl ⟨hprof, rfl⟩
  · obtain ⟨σ, hσ⟩ := h.strat _ _ ha hprof
    have : updateStrategy ord s me = (planMove ord s ag σ).map (fun v => v.1.setAgent { ag with newStrategy := v.2 }) := by
      unfold updateStrategy
      rw [Dict.getE_of ha]
      cases hp : ag.profile <;> first | exact absurd hp hprof | (simp only [bind, Except.bind, hp, hσ]; cases planMove ord s ag σ <;> rfl)
    rw [this]
    exact (main hprof σ hσ).imp (fun s' hs' => Or.inr ⟨hprof, hs'⟩)

theorem updateStrategy_spec {n : Nat} {s : State F} (h : Inv n s) {ord : List Nat → List Nat} (hord : ∀ l, (ord l).Perm l)
    {me : Nat} {ag : Agent F} (ha : s.agents.get? me = some ag) {t : Prop} (hq : t → SeqInv s) :
    Sat (TurnErr t) (updateStrategy ord s me) (fun s' =>
      (ag.profile = .abstainer ∧ s' = s) ∨
      (ag.profile ≠ .abstainer ∧ ∃ σ oν s₁, ag.strategy = some σ ∧ StepPlan n s s' me ag σ oν s₁ ∧
        planMove ord s ag σ = .ok (s₁, oν) ∧
        (t → SeqInv s' ∧ ∀ ν, oν = some ν → Staged s' me σ ν))) := by
  refine (updateStrategy_books h hord ha (fun htt => (hq htt).books)).imp ?_
  rintro s' (h1 | ⟨h1, σ, oν, s₁, h2, h3, h4, h5⟩)
  · exact Or.inl h1
  · refine Or.inr ⟨h1, σ, oν, s₁, h2, h3, h4, fun htt => ⟨⟨?_, (h5 htt).1.agree, (h5 htt).1.good⟩, (h5 htt).2⟩⟩
    rw [h3.eq]; exact h3.planned.simultaneous.trans (hq htt).seq

/-! ### Advancing -/

theorem Inv.setIdle {n : Nat} {s : State F} (h : Inv n s) (b : Bool) : Inv n { s with idle := b } :=
  ⟨h.core.setIdle b, ⟨h.own.own_iff, h.own.stg_ok, h.own.stg_id, h.own.stg_pool, h.own.stg_uniq⟩, h.tidy, h.del, h.abst, h.strat⟩

theorem SeqInv.setIdle {s : State F} (h : SeqInv s) (b : Bool) : SeqInv { s with idle := b } := ⟨h.seq, h.agree, h.good⟩

theorem advance_spec (hmin : (0 : F) < minUnit) {n : Nat} {s : State F} (h : Inv n s) {ord : List Nat → List Nat} (hord : ∀ l, (ord l).Perm l)
    {me : Nat} {ag : Agent F} (ha : s.agents.get? me = some ag)
    {t : Prop} (hseq : t → SeqInv s) (hst : t → ∀ σ ν, ag.strategy = some σ → ag.newStrategy = some ν → Staged s me σ ν) :
    Sat (fun e => e = .key ∧ ¬ t) (advance ord s me) (fun s' =>
      (ag.newStrategy = none ∧ s' = s) ∨
      (∃ σ ν s₁, ag.strategy = some σ ∧ ag.newStrategy = some ν ∧ executeStrategy ord s me = .ok s₁ ∧ s' = { s₁ with idle := false } ∧
        Executed n s s₁ me ν ∧ Inv n s' ∧ (t → ExecutedSeq s s₁ me σ ν ∧ SeqInv s'))) := by
  unfold advance
  rw [Dict.getE_of ha]
  simp only [bind, Except.bind]
  cases hν : ag.newStrategy with
  | none => exact Or.inl ⟨rfl, rfl⟩
  | some ν =>
    simp only
    have hprof : ag.profile ≠ .abstainer := by
      intro hp
      have := (h.abst _ _ ha hp).2
      rw [hν] at this; cases this
    obtain ⟨σ, hσ⟩ := h.strat _ _ ha hprof
    have := executeStrategy_spec hmin h hord ha hσ hν hseq (fun htt => hst htt σ ν hσ hν)
    cases hx : executeStrategy ord s me with
    | error e => rw [hx] at this; exact this
    | ok s₁ =>
      rw [hx] at this
      obtain ⟨k1, k2⟩ := this
      exact Or.inr ⟨σ, ν, s₁, hσ, rfl, rfl, rfl, k1, k1.inv.setIdle false, fun htt => ⟨k2 htt, (k2 htt).inv.setIdle false⟩⟩

/-! ### The turn of an agent -/

theorem get?_of_skel {s s' : State F} {b : Nat} (h : (s'.agents.get? b).map Agent.skel = (s.agents.get? b).map Agent.skel) {ag' : Agent F}
    (hb : s'.agents.get? b = some ag') : ∃ ag, s.agents.get? b = some ag ∧ ag'.skel = ag.skel := by
  rw [hb] at h
  cases h7 : s.agents.get? b with
  | none => rw [h7] at h; cases h
  | some ag₀ => rw [h7] at h; exact ⟨ag₀, rfl, by simpa using h⟩

/-- executing leaves nobody with a staged strategy if only `me` had one -/
theorem Executed.settled {n : Nat} {s s₁ : State F} {me : Nat} {ν : Strategy F} (h : Executed n s s₁ me ν)
    (hs : ∀ b ag, b ≠ me → s.agents.get? b = some ag → ag.newStrategy = none) : Settled s₁ := by
  intro b ag' hb
  by_cases hbm : b = me
  · subst hbm
    have := h.mine
    rw [hb] at this
    cases h7 : s.agents.get? b with
    | none => rw [h7] at this; cases this
    | some ag₀ =>
      rw [h7] at this
      simp only [Option.map_some, Option.some.injEq, Agent.skel, Prod.mk.injEq] at this
      simpa using this.2.2.2.2.2
  · obtain ⟨ag, k1, k2⟩ := get?_of_skel (h.others b hbm) hb
    simp only [Agent.skel, Prod.mk.injEq] at k2
    have := k2.2.2.2.2.2
    rw [hs b ag hbm k1] at this
    simpa using this

theorem Planned.keys {a : Nat} {ids : List Nat} {s s' : State F} (h : Planned a ids s s') : s'.agents.keys = s.agents.keys := by rw [h.agents]

/-- a turn of an agent: the invariant survives; in a sequential simulation also the agreement of delegations and strategies -/
theorem agentStep_spec (hmin : (0 : F) < minUnit) {n : Nat} {s : State F} (h : Inv n s) {ord : List Nat → List Nat} (hord : ∀ l, (ord l).Perm l)
    {me : Nat} {ag : Agent F} (ha : s.agents.get? me = some ag) {t : Prop} (hq : t → SeqInv s ∧ Settled s) :
    Sat (TurnErr t) (agentStep ord s me) (fun s' => Inv n s' ∧ (t → SeqInv s' ∧ Settled s')) := by
  unfold agentStep
  refine Sat.bind (updateStrategy_spec h hord ha (fun htt => (hq htt).1)) ?_
  rintro s₁ (⟨hprof, rfl⟩ | ⟨hprof, σ, oν, s₂, hσ, hpl, -, hseq⟩)
  · split
    · exact ⟨h, hq⟩
    · have hnone := (h.abst _ _ ha hprof).2
      refine ((advance_spec hmin h hord ha (fun htt => (hq htt).1) ?_).mono (fun _ he => Or.inr he) (fun _ h => h)).imp ?_
      · intro htt σ ν _ hν; rw [hnone] at hν; cases hν
      · rintro s' (⟨-, rfl⟩ | ⟨σ, ν, s₁, -, hν, -⟩)
        · exact ⟨h, hq⟩
        · rw [hnone] at hν; cases hν
  · have hid : ag.id = me := h.core.agentId _ _ ha
    have hget : ∀ b, s₁.agents.get? b = if b = me then some { ag with newStrategy := oν } else s.agents.get? b := by
      intro b; rw [hpl.eq, get?_setAgent (me := me) (ag := { ag with newStrategy := oν }) hid b, hpl.planned.agents]
    split
    · rename_i hsim
      refine ⟨hpl.inv, fun htt => ?_⟩
      have := (hseq htt).1.seq
      rw [hsim] at this; cases this
    · have ha1 : s₁.agents.get? me = some { ag with newStrategy := oν } := by rw [hget, if_pos rfl]
      refine ((advance_spec hmin hpl.inv hord ha1 (fun htt => (hseq htt).1) ?_).mono (fun _ he => Or.inr he) (fun _ h => h)).imp ?_
      · intro htt σ' ν hσ' hν
        simp only at hσ' hν
        rw [hσ] at hσ'; cases hσ'
        exact (hseq htt).2 ν hν
      · have hset : t → ∀ b ag', b ≠ me → s₁.agents.get? b = some ag' → ag'.newStrategy = none := by
          intro htt b ag' hb hg
          rw [hget, if_neg hb] at hg
          exact (hq htt).2 b ag' hg
        rintro s' (⟨hnone, rfl⟩ | ⟨σ', ν, s₃, -, -, -, rfl, hex, hinv, hsq⟩)
        · refine ⟨hpl.inv, fun htt => ⟨(hseq htt).1, ?_⟩⟩
          intro b ag' hb
          by_cases hbm : b = me
          · subst hbm; rw [ha1] at hb; cases hb; exact hnone
          · exact hset htt b ag' hbm hb
        · exact ⟨hinv, fun htt => ⟨(hsq htt).2, hex.settled (hset htt)⟩⟩

end RSE
