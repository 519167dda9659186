import Verif.Props.Equilibrium
import Verif.Props.Simultaneous

/-!
# C95: the agents of a simultaneous round decide on the same state

In the first half of a simultaneous round (or of a batch of a semi-simultaneous one) every agent plans and stages its strategy; nothing is carried
out.  As long as what pools record of the agents is what the agents' strategies say, planning leaves no trace: all agents see the same pools, and it
does not matter in which order they are asked.  `C95_order_matters` shows that the condition is needed: with the inconsistencies of C25, the mere
planning of one agent changes the stake of a pool before the next agent of the same round is asked.
-/

set_option linter.unusedSectionVars false

namespace RSE.Props

variable {K : Type} [Field K] [LinearOrder K] [IsStrictOrderedRing K]

/-- the agent without what it has staged -/
def unstaged (ag : Agent K) : Agent K := { ag with newStrategy := none }

/-- the state without what agents have staged -/
def settled (s : State K) : State K := { s with agents := s.agents.map (fun e => (e.1, unstaged e.2)) }

/-- the pools record of every agent what its strategy says -/
def BooksAgree (s : State K) : Prop := ∀ a ag σ, s.agents.get? a = some ag → ag.strategy = some σ → InRecords s a σ

/-- what agent `a` has staged -/
def staged (s : State K) (a : Nat) : Option (Strategy K) := (s.agents.get? a).bind (·.newStrategy)

/-- two planned pools (`e` in state `s₁`, `e'` in state `s₂`) are the same but for the names of new pools and the order of delegators -/
structure SamePlannedPool (s s₁ s₂ : State K) (e e' : Nat × Ref) : Prop where
  figures : ({ s₂.heap e'.2 with id := 0, delegators := [] } : Pool K) = { s₁.heap e.2 with id := 0, delegators := [] }
  delegators : (s₂.heap e'.2).delegators.Perm (s₁.heap e.2).delegators
  id : (s₁.heap e.2).id = e.1 ∧ (s₂.heap e'.2).id = e'.1
  old : IsOpen s e.1 ∨ IsOpen s e'.1 → e'.1 = e.1

/-- Agent `a` has staged the same in `s₁` and in `s₂`: the same delegations, and as many pools with the same figures, in the same order.  Pools that
are open in `s` have the same id. -/
inductive SameStaged (s s₁ s₂ : State K) (a : Nat) : Prop
  | nothing (h₁ : staged s₁ a = none) (h₂ : staged s₂ a = none)
  | plan (ν ν' : Strategy K) (h₁ : staged s₁ a = some ν) (h₂ : staged s₂ a = some ν') (allocs : ν'.allocs = ν.allocs)
      (owned : List.Forall₂ (SamePlannedPool s s₁ s₂) ν.owned ν'.owned)

/-! ### Planning leaves no trace -/

/-- Nothing has changed except for what agents have staged -/
structure OnlyStaged (s t : State K) : Prop where
  eq : t = { s with heap := t.heap, next := t.next, idSeq := t.idSeq, agents := t.agents }
  next_le : s.next ≤ t.next
  idSeq_le : s.idSeq ≤ t.idSeq
  alike : ∀ r < s.next, Alike (s.heap r) (t.heap r)
  dels : ∀ r < s.next, (t.heap r).delegators.Perm (s.heap r).delegators
  agents : t.agents.map (fun e => (e.1, unstaged e.2)) = s.agents.map (fun e => (e.1, unstaged e.2))

theorem OnlyStaged.refl (s : State K) : OnlyStaged s s := ⟨rfl, le_rfl, le_rfl, fun _ _ => Alike.refl _, fun _ _ => List.Perm.refl _, rfl⟩

theorem OnlyStaged.trans {s t u : State K} (h : OnlyStaged s t) (g : OnlyStaged t u) : OnlyStaged s u := by
  refine ⟨?_, h.next_le.trans g.next_le, h.idSeq_le.trans g.idSeq_le, fun r hr => (h.alike r hr).trans (g.alike r (lt_of_lt_of_le hr h.next_le)),
    fun r hr => (g.dels r (lt_of_lt_of_le hr h.next_le)).trans (h.dels r hr), g.agents.trans h.agents⟩
  rw [g.eq, h.eq]

theorem OnlyStaged.pools {s t : State K} (h : OnlyStaged s t) : t.pools = s.pools := by rw [h.eq]

theorem get?_map_unstaged (d : Dict (Agent K)) (a : Nat) :
    Dict.get? (d.map (fun e => (e.1, unstaged e.2))) a = (d.get? a).map unstaged := by
  induction d with
  | nil => rfl
  | cons e t ih =>
    obtain ⟨k, v⟩ := e
    simp only [List.map_cons, Dict.get?]
    split <;> simp_all

theorem OnlyStaged.agent {s t : State K} (h : OnlyStaged s t) {a : Nat} {ag : Agent K} (ha : t.agents.get? a = some ag) :
    ∃ ag', s.agents.get? a = some ag' ∧ unstaged ag' = unstaged ag := by
  have h1 := congrArg (fun d => Dict.get? d a) h.agents
  simp only [get?_map_unstaged, ha, Option.map_some] at h1
  obtain ⟨ag', h2, h3⟩ := Option.map_eq_some_iff.1 h1.symm
  exact ⟨ag', h2, h3⟩

theorem OnlyStaged.symmAgent {s t : State K} (h : OnlyStaged s t) {a : Nat} {ag : Agent K} (ha : s.agents.get? a = some ag) :
    ∃ ag', t.agents.get? a = some ag' ∧ unstaged ag' = unstaged ag := by
  have h1 := congrArg (fun d => Dict.get? d a) h.agents
  simp only [get?_map_unstaged, ha, Option.map_some] at h1
  obtain ⟨ag', h2, h3⟩ := Option.map_eq_some_iff.1 h1
  exact ⟨ag', h2, h3⟩

theorem OnlyStaged.records {n : Nat} {s t : State K} (h : OnlyStaged s t) (hs : Core n s) {pid b : Nat} {x : K} : Records t pid b x ↔ Records s pid b x := by
  unfold Records
  rw [h.pools]
  constructor
  · rintro ⟨r, hr, hx⟩
    exact ⟨r, hr, by rw [← Dict.get?_of_perm (h.dels r (hs.poolRef _ _ hr).1) (hs.delNodup r)]; exact hx⟩
  · rintro ⟨r, hr, hx⟩
    exact ⟨r, hr, by rw [Dict.get?_of_perm (h.dels r (hs.poolRef _ _ hr).1) (hs.delNodup r)]; exact hx⟩

theorem OnlyStaged.books {n : Nat} {s t : State K} (h : OnlyStaged s t) (hs : Core n s) (hb : BooksAgree s) : BooksAgree t := by
  intro a ag σ ha hσ pid x
  obtain ⟨ag', ha', hu⟩ := h.agent ha
  rw [h.records hs]
  refine hb a ag' σ ha' ?_ pid x
  have : (unstaged ag').strategy = (unstaged ag).strategy := by rw [hu]
  exact this.trans hσ

theorem OnlyStaged.looksSame {n : Nat} {s t : State K} (h : OnlyStaged s t) (hs : Core n s) : LooksSame (settled s) (settled t) := by
  have hc : Calm (settled s) (settled t) := by
    refine ⟨?_, h.next_le, h.alike, h.dels⟩
    unfold settled
    rw [h.agents]
    conv_lhs => rw [h.eq]
  refine ⟨hc.eq, fun pid r hp => ?_⟩
  have hr := (hs.poolRef _ _ hp).1
  refine ⟨(t.heap r).delegators, h.dels r hr, ?_⟩
  have hsm := (h.alike r hr).same
  have h0 := (h.alike r hr).stake
  have h1 := hsm.id; have h2 := hsm.owner; have h3 := hsm.pledge; have h4 := hsm.cost; have h5 := hsm.margin; have h6 := hsm.pp
  have h7 := hsm.des; have h8 := hsm.isPrivate
  change t.heap r = { s.heap r with delegators := (t.heap r).delegators }
  cases hx : t.heap r; cases hy : s.heap r
  rw [hx, hy] at h0 h1 h2 h3 h4 h5 h6 h7 h8
  simp_all

/-! ### A step in a simultaneous round -/

theorem step_idle {s : State K} (hsim : s.simultaneous = true) {a : Nat} {ag : Agent K} (ha : s.agents.get? a = some ag)
    (hp : ag.profile = .abstainer) (ord : List Nat → List Nat) : exec s (.step a ord) = .ok s := by
  change agentStep ord s a = _
  unfold agentStep updateStrategy
  rw [Dict.getE_of ha]
  simp only [bind, Except.bind, hp, pure, Except.pure, hsim, if_true]

theorem step_plans {s s₁ : State K} {a : Nat} {ag : Agent K} (ha : s.agents.get? a = some ag)
    (hp : ag.profile ≠ .abstainer) {σ : Strategy K} (hσ : ag.strategy = some σ) {ord : List Nat → List Nat} {oν : Option (Strategy K)}
    (hpm : planMove ord s ag σ = .ok (s₁, oν)) (hsim : s₁.simultaneous = true) :
    exec s (.step a ord) = .ok (s₁.setAgent { ag with newStrategy := oν }) := by
  have hsim' : ∀ x : Agent K, (s₁.setAgent x).simultaneous = true := fun _ => hsim
  change agentStep ord s a = _
  unfold agentStep updateStrategy
  rw [Dict.getE_of ha]
  cases hpr : ag.profile with
  | abstainer => exact absurd hpr hp
  | nonMyopic => simp only [bind, Except.bind, hσ, hpm, pure, Except.pure, hsim', if_true, hpr]
  | myopic => simp only [bind, Except.bind, hσ, hpm, pure, Except.pure, hsim', if_true, hpr]

theorem step_fails {s : State K} {a : Nat} {ag : Agent K} (ha : s.agents.get? a = some ag)
    (hp : ag.profile ≠ .abstainer) {σ : Strategy K} (hσ : ag.strategy = some σ) {ord : List Nat → List Nat} {e : Err}
    (hpm : planMove ord s ag σ = .error e) : exec s (.step a ord) = .error e := by
  change agentStep ord s a = _
  unfold agentStep updateStrategy
  rw [Dict.getE_of ha]
  cases hpr : ag.profile with
  | abstainer => exact absurd hpr hp
  | nonMyopic => simp only [bind, Except.bind, hσ, hpm]
  | myopic => simp only [bind, Except.bind, hσ, hpm]

theorem set_unstaged (d : Dict (Agent K)) {a : Nat} {ag ag' : Agent K} (ha : d.get? a = some ag) (hu : unstaged ag' = unstaged ag) :
    (d.set a ag').map (fun e => (e.1, unstaged e.2)) = d.map (fun e => (e.1, unstaged e.2)) := by
  induction d with
  | nil => cases ha
  | cons e t ih =>
    obtain ⟨k, v⟩ := e
    simp only [Dict.get?] at ha
    simp only [Dict.set]
    split at ha
    · rename_i hk
      cases ha
      simp [hk, hu]
    · rename_i hk
      simp [hk, ih ha]

/-- one agent of the round has planned: the rest of the state is as before -/
theorem OnlyStaged.of_step {c : Config K} {s t : State K} (h : Reachable c s) (hc : c.simultaneous = true) (hb : BooksAgree s) {a : Nat}
    {ord : List Nat → List Nat} (hv : (Event.step (F := K) a ord).Valid c.people.length) (he : exec s (.step a ord) = .ok t) :
    OnlyStaged s t ∧ ∀ b, b ≠ a → t.agents.get? b = s.agents.get? b := by
  have hg := h.good minUnit_pos
  have hd := (hg.exec minUnit_pos hv).of_ok he
  have hsim : s.simultaneous = true := by rw [hg.fixed.simultaneous]; exact hc
  have hseq := (hd.1.fixed hg.inv).idSeq
  cases hd.1 with
  | idle me ord ag ha hp => exact ⟨OnlyStaged.refl s, fun _ _ => rfl⟩
  | move me ord ag σ ν s₁ s₂ s₃ ha hp hσ hpm hpl hs => rw [hsim] at hs; cases hs
  | plan me ord ag σ oν s₁ s' ha hp hσ hpm hpl hs ht =>
    have hid := hg.inv.core.agentId a ag ha
    have hcalm := (h.plan_calm_of ha hσ (hb a ag σ ha hσ) hv.2 hpm).1
    have hs1 : s₁.simultaneous = true := by rw [hcalm.eq]; exact hsim
    rw [step_plans ha hp hσ hpm hs1] at he
    cases he
    have hags : (s₁.setAgent { ag with newStrategy := oν }).agents = s.agents.set a { ag with newStrategy := oν } := by
      change s₁.agents.set ag.id _ = _
      rw [hid, hcalm.agents]
    refine ⟨⟨?_, hcalm.next_le, hseq, hcalm.alike, hcalm.dels, ?_⟩, ?_⟩
    · have := hcalm.eq
      unfold State.setAgent
      rw [this]
    · rw [hags]
      exact set_unstaged _ ha rfl
    · intro b hb'
      rw [hags]
      exact Dict.get?_set_ne _ _ hb'.symm

/-! ### The same plans -/

theorem SamePlannedPool.symm {s s₁ s₂ : State K} {e e' : Nat × Ref} (h : SamePlannedPool s s₁ s₂ e e') : SamePlannedPool s s₂ s₁ e' e :=
  ⟨h.figures.symm, h.delegators.symm, ⟨h.id.2, h.id.1⟩, fun ho => (h.old ho.symm).symm⟩

theorem SamePlannedPool.trans {s s₁ s₂ s₃ : State K} {e e' e'' : Nat × Ref} (h : SamePlannedPool s s₁ s₂ e e') (g : SamePlannedPool s s₂ s₃ e' e'') :
    SamePlannedPool s s₁ s₃ e e'' := by
  refine ⟨g.figures.trans h.figures, g.delegators.trans h.delegators, ⟨h.id.1, g.id.2⟩, ?_⟩
  rintro (ho | ho)
  · have h1 := h.old (Or.inl ho)
    exact (g.old (Or.inl (h1 ▸ ho))).trans h1
  · have h1 := g.old (Or.inr ho)
    exact h1.trans (h.old (Or.inr (h1 ▸ ho)))

theorem forall₂_symm {α : Type} {R S : α → α → Prop} (h : ∀ a b, R a b → S b a) {l l' : List α} (hl : List.Forall₂ R l l') : List.Forall₂ S l' l := by
  induction hl with
  | nil => exact .nil
  | cons h1 _ ih => exact .cons (h _ _ h1) ih

theorem forall₂_trans {α : Type} {R S T : α → α → Prop} (h : ∀ a b c, R a b → S b c → T a c) {l l' : List α} (hl : List.Forall₂ R l l') :
    ∀ {l''}, List.Forall₂ S l' l'' → List.Forall₂ T l l'' := by
  induction hl with
  | nil => intro l'' g; cases g; exact .nil
  | cons h1 _ ih => intro l'' g; cases g with | cons g1 g2 => exact .cons (h _ _ _ h1 g1) (ih g2)

theorem SameStaged.symm {s s₁ s₂ : State K} {a : Nat} (h : SameStaged s s₁ s₂ a) : SameStaged s s₂ s₁ a := by
  cases h with
  | nothing h1 h2 => exact .nothing h2 h1
  | plan ν ν' h1 h2 h3 h4 => exact .plan ν' ν h2 h1 h3.symm (forall₂_symm (fun _ _ h => h.symm) h4)

theorem SameStaged.trans {s s₁ s₂ s₃ : State K} {a : Nat} (h : SameStaged s s₁ s₂ a) (g : SameStaged s s₂ s₃ a) : SameStaged s s₁ s₃ a := by
  cases h with
  | nothing h1 h2 =>
    cases g with
    | nothing g1 g2 => exact .nothing h1 g2
    | plan ν ν' g1 _ _ _ => rw [h2] at g1; cases g1
  | plan ν ν' h1 h2 h3 h4 =>
    cases g with
    | nothing g1 g2 => rw [h2] at g1; cases g1
    | plan μ μ' g1 g2 g3 g4 =>
      rw [h2] at g1; cases g1
      exact .plan ν μ' h1 g2 (g3.trans h3) (forall₂_trans (fun _ _ _ h g => h.trans g) h4 g4)

theorem samePlanned_of {p q : Pool K} (hs : q.stake = p.stake) (hc : q.cost = p.cost) (hp : q.pledge = p.pledge) (ho : q.owner = p.owner)
    (hi : q.isPrivate = p.isPrivate) (hpp : q.pp = p.pp) (hm : q.margin = p.margin) (hd : q.des = p.des) :
    ({ q with id := 0, delegators := [] } : Pool K) = { p with id := 0, delegators := [] } := by
  cases p; cases q; simp_all

/-- what has been staged stays as it is while other agents plan -/
theorem SameStaged.later {c : Config K} {s t u : State K} (ht : Reachable c t) (h : OnlyStaged t u) {a : Nat} (ha : u.agents.get? a = t.agents.get? a) :
    SameStaged s t u a := by
  have hst : staged u a = staged t a := by unfold staged; rw [ha]
  cases hν : staged t a with
  | none => exact .nothing hν (hst.trans hν)
  | some ν =>
    refine .plan ν ν hν (hst.trans hν) rfl (List.forall₂_same.2 ?_)
    intro e he
    have hg := ht.good minUnit_pos
    obtain ⟨ag, h1, h2⟩ := Option.bind_eq_some_iff.1 hν
    have hget : ν.owned.get? e.1 = some e.2 := Dict.get?_of_mem ((hg.inv.tidy a ag h1).newOwned _ h2) he
    have hstg : stgOf t a e.1 = some e.2 := by
      unfold stgOf
      rw [h1]
      simp [h2, hget]
    obtain ⟨k1, k2, -, -⟩ := hg.inv.own.stg_ok a e.1 e.2 hstg
    have hal := h.alike e.2 k1
    exact ⟨samePlanned_of hal.stake hal.same.cost hal.same.pledge hal.same.owner hal.same.isPrivate hal.same.pp hal.same.margin hal.same.des,
      h.dels e.2 k1, ⟨k2, hal.same.id.trans k2⟩, fun _ => rfl⟩

theorem staged_set {s₁ : State K} {a : Nat} {ag : Agent K} (hid : ag.id = a) (oν : Option (Strategy K)) :
    staged (s₁.setAgent { ag with newStrategy := oν }) a = oν := by
  unfold staged State.setAgent
  simp only [hid, Dict.get?_set_self, Option.bind_some]

/-- Two states that differ only in what other agents have staged: an agent stages the same in both. -/
theorem same_step {c : Config K} {s t : State K} (hs : Reachable c s) (ht : Reachable c t) (hc : c.simultaneous = true) (hb : BooksAgree s)
    (h : OnlyStaged s t) {a : Nat} (hag : t.agents.get? a = s.agents.get? a) {ord : List Nat → List Nat}
    (hv : (Event.step (F := K) a ord).Valid c.people.length) :
    (∃ sa ta, exec s (.step a ord) = .ok sa ∧ exec t (.step a ord) = .ok ta ∧ SameStaged s sa ta a) ∨
      ∃ e, exec s (.step a ord) = .error e ∧ exec t (.step a ord) = .error e := by
  have hg := hs.good minUnit_pos
  have hgt := ht.good minUnit_pos
  have hsim : s.simultaneous = true := by rw [hg.fixed.simultaneous]; exact hc
  have hsimt : t.simultaneous = true := by rw [hgt.fixed.simultaneous]; exact hc
  obtain ⟨ag, ha⟩ := Option.isSome_iff_exists.1 (show (s.agents.get? a).isSome by rw [hg.fixed.isSome]; exact isSome_init c hv.1)
  have hta : t.agents.get? a = some ag := hag.trans ha
  have hid := hg.inv.core.agentId a ag ha
  by_cases hp : ag.profile = .abstainer
  · refine Or.inl ⟨s, t, step_idle hsim ha hp ord, step_idle hsimt hta hp ord, ?_⟩
    have hn := (hg.inv.abst a ag ha hp).2
    exact .nothing (by unfold staged; rw [ha, Option.bind_some, hn]) (by unfold staged; rw [hta, Option.bind_some, hn])
  · obtain ⟨σ, hσ⟩ := hg.inv.strat a ag ha hp
    have htid := hg.inv.tidy a ag ha
    have hown : ∀ e ∈ σ.owned, s.pools.get? e.1 = some e.2 := fun e he =>
      (hg.inv.owned ha hσ (Dict.get?_of_mem (htid.owned _ hσ) he)).1
    have htw := twin_of h.eq h.next_le h.idSeq_le h.alike h.dels hg.inv.core hgt.inv.core
    have hrel := planMove_twin htw ord ag hown
    cases hpm : planMove ord s ag σ with
    | error e =>
      rw [hpm] at hrel
      cases hpt : planMove ord t ag σ with
      | ok o => rw [hpt] at hrel; exact hrel.elim
      | error e' =>
        rw [hpt] at hrel
        have hee : e = e' := hrel
        subst hee
        exact Or.inr ⟨e, step_fails ha hp hσ hpm, step_fails hta hp hσ hpt⟩
    | ok o =>
      obtain ⟨s₁, oν⟩ := o
      rw [hpm] at hrel
      cases hpt : planMove ord t ag σ with
      | error e => rw [hpt] at hrel; exact hrel.elim
      | ok o' =>
        obtain ⟨t₁, oν'⟩ := o'
        rw [hpt] at hrel
        obtain ⟨htw₁, hν⟩ := hrel
        simp only at htw₁ hν
        have hcs := (hs.plan_calm_of ha hσ (hb a ag σ ha hσ) hv.2 hpm).1
        have hct := (ht.plan_calm_of hta hσ (h.books hg.inv.core hb a ag σ hta hσ) hv.2 hpt).1
        refine Or.inl ⟨_, _, step_plans ha hp hσ hpm (by rw [hcs.eq]; exact hsim), step_plans hta hp hσ hpt (by rw [hct.eq]; exact hsimt), ?_⟩
        cases oν with
        | none => exact .nothing (staged_set hid _) (by rw [staged_set hid]; exact hν)
        | some ν =>
          simp only [Option.map_some] at hν
          refine .plan ν _ (staged_set hid _) ((staged_set hid _).trans hν) rfl ?_
          obtain ⟨-, -, -, hnew⟩ := (planMove_spec hg.inv.core hv.2 ag (htid.allocs _ hσ) (htid.owned _ hσ)
            (fun pid r hr => (hg.inv.owned ha hσ hr).1)).of_ok hpm
          have hns := hnew ν rfl
          change List.Forall₂ _ ν.owned (ν.owned.map (fun e => (_, _)))
          rw [List.forall₂_map_right_iff, List.forall₂_same]
          intro e he
          obtain ⟨k1, k2, k3⟩ := hns.drafts e.1 e.2 (Dict.get?_of_mem hns.ownedNodup he)
          have hm := htw₁.obj e.2 k2 (fun hlt => absurd k1 (not_le.2 hlt))
          have hide : (s₁.heap e.2).id = e.1 := by
            rcases k3 with ⟨r₀, q, c', m, s₂, j1, j2, j3⟩ | ⟨-, -, q, c', m, j3⟩
            · have hr₀ := (hg.inv.owned ha hσ j1).1
              obtain ⟨i1, i2, -, -⟩ := hg.inv.core.poolRef _ _ hr₀
              rw [j3]
              exact (j2.same _ i1).id.trans i2
            · rw [j3]; rfl
          refine ⟨samePlanned_of hm.stake hm.cost hm.pledge hm.owner hm.isPrivate hm.pp hm.margin hm.des,
            Dict.perm_of_get? hm.nodup hm.nodup' hm.dels, ⟨hide, hm.id.trans (by rw [hide])⟩, ?_⟩
          have hle : ∀ p, IsOpen s p → p ≤ s.idSeq := by
            rintro p ⟨r, hr⟩
            exact (hg.inv.core.poolRef p r hr).2.2.2
          rintro (ho | ho)
          · exact Shift.pid_old (h := ⟨s.next, t.next - s.next, s.idSeq, t.idSeq - s.idSeq⟩) (hle _ ho)
          · have := hle _ ho
            simp only [Shift.pid] at this ⊢
            split
            · rfl
            · simp_all; omega

/-- all turns of the round, from any point of it -/
theorem run_same {c : Config K} {s : State K} (hs : Reachable c s) (hc : c.simultaneous = true) (hb : BooksAgree s)
    (turns : List (Nat × (List Nat → List Nat))) : ∀ {t u : State K}, Reachable c t → OnlyStaged s t → (turns.map Prod.fst).Nodup →
      (∀ e ∈ turns, (Event.step (F := K) e.1 e.2).Valid c.people.length) → (∀ e ∈ turns, t.agents.get? e.1 = s.agents.get? e.1) →
      iterM exec t (turns.map (fun e => Event.step e.1 e.2)) = .ok u →
      OnlyStaged t u ∧ (∀ b, b ∉ turns.map Prod.fst → u.agents.get? b = t.agents.get? b) ∧
        ∀ e ∈ turns, ∃ sa, exec s (.step e.1 e.2) = .ok sa ∧ SameStaged s sa u e.1 := by
  induction turns with
  | nil => intro t u _ _ _ _ _ he; cases he; exact ⟨OnlyStaged.refl _, fun _ _ => rfl, by simp⟩
  | cons e l ih =>
    intro t u ht hst hnd hv hag he
    obtain ⟨a, ord⟩ := e
    simp only [List.map_cons, iterM] at he
    obtain ⟨t₁, h1, h2⟩ := bind_ok he
    rw [List.map_cons, List.nodup_cons] at hnd
    have hva := hv (a, ord) List.mem_cons_self
    have hr₁ := ht.next hva h1
    obtain ⟨hse, hoth⟩ := OnlyStaged.of_step ht hc (hst.books (hs.good minUnit_pos).inv.core hb) hva h1
    obtain ⟨k1, k2, k3⟩ := ih hr₁ (hst.trans hse) hnd.2 (fun e he => hv e (List.mem_cons_of_mem _ he)) (fun e he => by
      rw [hoth e.1 (fun heq => hnd.1 (heq ▸ List.mem_map_of_mem he))]
      exact hag e (List.mem_cons_of_mem _ he)) h2
    refine ⟨hse.trans k1, ?_, ?_⟩
    · intro b hb'
      rw [List.map_cons, List.mem_cons, not_or] at hb'
      rw [k2 b hb'.2, hoth b hb'.1]
    · intro e he
      rcases List.mem_cons.1 he with rfl | he
      · rcases same_step hs ht hc hb hst (hag _ List.mem_cons_self) hva with ⟨sa, ta, g1, g2, g3⟩ | ⟨e', -, g2⟩
        · simp only at g2
          rw [h1] at g2
          cases g2
          exact ⟨sa, g1, g3.trans (SameStaged.later hr₁ k1 (k2 _ hnd.1))⟩
        · simp only at g2
          rw [h1] at g2; cases g2
      · exact k3 e he

theorem run_ok {c : Config K} {s : State K} (hs : Reachable c s) (hc : c.simultaneous = true) (hb : BooksAgree s)
    (turns : List (Nat × (List Nat → List Nat))) : ∀ {t : State K}, Reachable c t → OnlyStaged s t → (turns.map Prod.fst).Nodup →
      (∀ e ∈ turns, (Event.step (F := K) e.1 e.2).Valid c.people.length) → (∀ e ∈ turns, t.agents.get? e.1 = s.agents.get? e.1) →
      (∀ e ∈ turns, ∃ sa, exec s (.step e.1 e.2) = .ok sa) → ∃ u, iterM exec t (turns.map (fun e => Event.step e.1 e.2)) = .ok u := by
  induction turns with
  | nil => intro t _ _ _ _ _ _; exact ⟨t, rfl⟩
  | cons e l ih =>
    intro t ht hst hnd hv hag hok
    obtain ⟨a, ord⟩ := e
    rw [List.map_cons, List.nodup_cons] at hnd
    have hva := hv (a, ord) List.mem_cons_self
    obtain ⟨sa, hsa⟩ := hok _ List.mem_cons_self
    rcases same_step hs ht hc hb hst (hag _ List.mem_cons_self) hva with ⟨sa', t₁, g1, g2, g3⟩ | ⟨e', g1, -⟩
    · obtain ⟨hse, hoth⟩ := OnlyStaged.of_step ht hc (hst.books (hs.good minUnit_pos).inv.core hb) hva g2
      obtain ⟨u, hu⟩ := ih (ht.next hva g2) (hst.trans hse) hnd.2 (fun e he => hv e (List.mem_cons_of_mem _ he)) (fun e he => by
        rw [hoth e.1 (fun heq => hnd.1 (heq ▸ List.mem_map_of_mem he))]
        exact hag e (List.mem_cons_of_mem _ he)) (fun e he => hok e (List.mem_cons_of_mem _ he))
      refine ⟨u, ?_⟩
      simp only [List.map_cons, iterM, bind, Except.bind]
      simp only at g2
      rw [g2]
      exact hu
    · simp only at g1 hsa
      rw [hsa] at g1; cases g1

/-- C95.  Simultaneous activation, exact arithmetic, pools that record what the agents' strategies say.  However many agents of a round have planned
their moves, the state looks the same to the next one, except for what the others have staged; and the records still agree. -/
theorem C95_same_view {c : Config K} {s s' : State K} (h : Reachable c s) (hc : c.simultaneous = true) (hb : BooksAgree s)
    {turns : List (Nat × (List Nat → List Nat))} (hnd : (turns.map Prod.fst).Nodup)
    (hv : ∀ e ∈ turns, (Event.step (F := K) e.1 e.2).Valid c.people.length)
    (hrun : iterM exec s (turns.map (fun e => Event.step e.1 e.2)) = .ok s') : LooksSame (settled s) (settled s') ∧ BooksAgree s' := by
  have hg := h.good minUnit_pos
  obtain ⟨h1, -, -⟩ := run_same h hc hb turns h (OnlyStaged.refl s) hnd hv (fun _ _ => rfl) hrun
  exact ⟨h1.looksSame hg.inv.core, h1.books hg.inv.core hb⟩

/-- C95.  So every agent stages what it would stage if it were the only one to be asked. -/
theorem C95_same_plans {c : Config K} {s s' : State K} (h : Reachable c s) (hc : c.simultaneous = true) (hb : BooksAgree s)
    {turns : List (Nat × (List Nat → List Nat))} (hnd : (turns.map Prod.fst).Nodup)
    (hv : ∀ e ∈ turns, (Event.step (F := K) e.1 e.2).Valid c.people.length)
    (hrun : iterM exec s (turns.map (fun e => Event.step e.1 e.2)) = .ok s') {a : Nat} {ord : List Nat → List Nat} (hm : (a, ord) ∈ turns) :
    ∃ sa, exec s (.step a ord) = .ok sa ∧ SameStaged s sa s' a :=
  (run_same h hc hb turns h (OnlyStaged.refl s) hnd hv (fun _ _ => rfl) hrun).2.2 _ hm

/-- C95.  And the order in which the agents of the round are asked does not matter, not even for whether an exception is raised. -/
theorem C95_any_order {c : Config K} {s s₁ : State K} (h : Reachable c s) (hc : c.simultaneous = true) (hb : BooksAgree s)
    {turns turns' : List (Nat × (List Nat → List Nat))} (hp : turns'.Perm turns) (hnd : (turns.map Prod.fst).Nodup)
    (hv : ∀ e ∈ turns, (Event.step (F := K) e.1 e.2).Valid c.people.length)
    (hrun : iterM exec s (turns.map (fun e => Event.step e.1 e.2)) = .ok s₁) :
    ∃ s₂, iterM exec s (turns'.map (fun e => Event.step e.1 e.2)) = .ok s₂ ∧ ∀ e ∈ turns, SameStaged s s₁ s₂ e.1 := by
  have hnd' : (turns'.map Prod.fst).Nodup := (hp.map _).nodup_iff.2 hnd
  have hv' : ∀ e ∈ turns', (Event.step (F := K) e.1 e.2).Valid c.people.length := fun e he => hv e (hp.mem_iff.1 he)
  obtain ⟨-, -, h1⟩ := run_same h hc hb turns h (OnlyStaged.refl s) hnd hv (fun _ _ => rfl) hrun
  obtain ⟨s₂, h2⟩ := run_ok h hc hb turns' h (OnlyStaged.refl s) hnd' hv' (fun _ _ => rfl) (fun e he => by
    obtain ⟨sa, g, -⟩ := h1 e (hp.mem_iff.1 he); exact ⟨sa, g⟩)
  obtain ⟨-, -, h3⟩ := run_same h hc hb turns' h (OnlyStaged.refl s) hnd' hv' (fun _ _ => rfl) h2
  refine ⟨s₂, h2, fun e he => ?_⟩
  obtain ⟨sa, g1, g2⟩ := h1 e he
  obtain ⟨sb, g3, g4⟩ := h3 e (hp.mem_iff.2 he)
  rw [g1] at g3
  cases g3
  exact g2.symm.trans g4

/-! ### The condition -/

/-- The condition holds when a simulation starts ... -/
theorem C95_initially (c : Config K) : BooksAgree (initState c) := by
  intro a ag σ ha hσ pid x
  have hno : ∀ r, (initState c).pools.get? pid ≠ some r := by
    intro r hr
    cases hr
  constructor
  · rintro ⟨r, hr, -⟩; exact absurd hr (hno r)
  · intro hx
    rw [((init_agent ha).2 σ hσ).1] at hx
    cases hx

/-- ... and throughout simulations with sequential or random activation. -/
theorem C95_sequential {c : Config K} {s : State K} (h : Reachable c s) (hc : c.simultaneous = false) : BooksAgree s :=
  fun _ _ _ ha hσ => h.inRecords hc ha hσ

/-- a check of `BooksAgree` -/
def booksOk (s : State ℚ) : Bool :=
  s.agents.all (fun e => match e.2.strategy with
    | none => true
    | some σ => s.pools.all (fun p => decide ((s.heap p.2).delegators.get? e.1 = σ.allocs.get? p.1)) &&
        σ.allocs.all (fun x => s.pools.contains x.1))

theorem booksOk_spec {s : State ℚ} (h : booksOk s = true) : BooksAgree s := by
  intro a ag σ ha hσ pid x
  have h1 := List.all_eq_true.1 h _ (Dict.mem_of_get? ha)
  simp only [hσ, Bool.and_eq_true, List.all_eq_true, decide_eq_true_eq] at h1
  constructor
  · rintro ⟨r, hr, hx⟩
    rw [← h1.1 _ (Dict.mem_of_get? hr)]; exact hx
  · intro hx
    obtain ⟨r, hr⟩ := Option.isSome_iff_exists.1 (h1.2 _ (Dict.mem_of_get? hx))
    exact ⟨r, hr, by rw [h1.1 _ (Dict.mem_of_get? hr)]; exact hx⟩

/-- the turns of the agents `l`, with the iteration order of sets -/
def asked (l : List Nat) : List (Nat × (List Nat → List Nat)) := l.map (fun a => (a, id))

/-- four agents -/
def orderCfg : Config ℚ :=
  { demo true with people := [(4/23, 1/500, .myopic), (9/23, 1/500, .nonMyopic), (2/23, 1/125, .nonMyopic), (8/23, 7/1000, .myopic)] }

/-- what is shown: stake of pool 11, number of pools that agent 3 has staged -/
def orderView (s : State ℚ) : Option ℚ × Option Nat :=
  ((s.pools.get? 11).map (fun r => (s.heap r).stake), (staged s 3).map (fun ν => ν.owned.length))

instance : DecidableEq (Option ℚ × Option (Option ℚ)) := instDecidableEqProd
instance : DecidableEq ((Option ℚ × Option Nat) × Option ℚ × Option (Option ℚ)) := instDecidableEqProd
instance : DecidableEq ((Option ℚ × Option Nat) × (Option ℚ × Option Nat) × Option ℚ × Option (Option ℚ)) := instDecidableEqProd

/-- The condition fails in later rounds (C25), and then the rest fails too: after five simultaneous rounds, agent 3 keeps its strategy if it is asked
first, and plans other margins for its two pools if it is asked last.  What has changed in between is the stake of pool 11: agent 0 delegates to it but is
not among its delegators, and has become one by merely planning. -/
theorem C95_order_matters : ∃ s s₁ s₂ : State ℚ, simRounds 5 [0, 1, 2, 3] (initState orderCfg) = .ok s ∧
    iterM exec s ((asked [0, 1, 2, 3]).map (fun e => Event.step e.1 e.2)) = .ok s₁ ∧
    iterM exec s ((asked [3, 2, 1, 0]).map (fun e => Event.step e.1 e.2)) = .ok s₂ ∧
    orderView s = (some (6/23), none) ∧ orderView s₁ = (some (1/3), some 2) ∧ orderView s₂ = (some (1/3), none) ∧
    Says s 0 11 (5/69) ∧ ∀ x, ¬ Records s 11 0 x := by
  have key : (simRounds 5 [0, 1, 2, 3] (initState orderCfg)).toOption.bind (fun s =>
      (iterM exec s ((asked [0, 1, 2, 3]).map (fun e => Event.step e.1 e.2))).toOption.bind (fun s₁ =>
      (iterM exec s ((asked [3, 2, 1, 0]).map (fun e => Event.step e.1 e.2))).toOption.map (fun s₂ =>
        (orderView s, orderView s₁, orderView s₂, ((s.agents.get? 0).bind (·.strategy)).bind (fun σ => σ.allocs.get? 11),
          (s.pools.get? 11).map (fun r => (s.heap r).delegators.get? 0))))) =
      some ((some (6/23), none), (some (1/3), some 2), (some (1/3), none), some (5/69), some none) := by decide +kernel
  obtain ⟨s, h0, key⟩ := Option.bind_eq_some_iff.1 key
  obtain ⟨s₁, h1, key⟩ := Option.bind_eq_some_iff.1 key
  obtain ⟨s₂, h2, key⟩ := Option.map_eq_some_iff.1 key
  simp only [Prod.mk.injEq] at key
  have h0 := toOption_ok h0
  have h1 := toOption_ok h1
  have h2 := toOption_ok h2
  refine ⟨s, s₁, s₂, h0, h1, h2, key.1, key.2.1, key.2.2.1, ?_, ?_⟩
  · obtain ⟨σ, k1, k2⟩ := Option.bind_eq_some_iff.1 key.2.2.2.1
    obtain ⟨ag, k3, k4⟩ := Option.bind_eq_some_iff.1 k1
    exact ⟨ag, σ, k3, k4, k2⟩
  · rintro x ⟨r, k1, k2⟩
    have k3 := key.2.2.2.2
    rw [k1, Option.map_some, k2] at k3
    cases k3

/-- the events of a simultaneous round -/
def simRound (l : List Nat) : List (Event ℚ) := l.map (fun a => .step a id) ++ l.map (fun a => .advance a id)

/-- In the fourth round of a simultaneous simulation three pools are open, agent 2 delegates to all of them, the records agree, and the five agents plan
without an exception; agent 2 stages a new pool. -/
example : ∃ s s₁ : State ℚ, Reachable (demo true) s ∧ BooksAgree s ∧
    demoView s = [(1, 0, 1/3, [(2, 2/15)]), (4, 1, 7/30, [(2, 2/15)]), (10, 3, 1/3, [(2, 1/30)])] ∧
    iterM exec s ((asked [0, 1, 2, 3, 4]).map (fun e => Event.step e.1 e.2)) = .ok s₁ ∧
    (staged s₁ 2).map (fun ν => ν.owned.keys) = some [17] ∧
    ((asked [0, 1, 2, 3, 4]).map Prod.fst).Nodup ∧ ∀ e ∈ asked [0, 1, 2, 3, 4], (Event.step (F := ℚ) e.1 e.2).Valid (demo true).people.length := by
  let es := simRound [0, 1, 2, 3, 4] ++ simRound [0, 1, 2, 3, 4] ++ simRound [0, 1, 2, 3, 4]
  have key : (iterM exec (initState (demo true)) es).toOption.bind (fun s =>
      (iterM exec s ((asked [0, 1, 2, 3, 4]).map (fun e => Event.step e.1 e.2))).toOption.map (fun s₁ =>
        (decide (demoView s = [(1, 0, 1/3, [(2, 2/15)]), (4, 1, 7/30, [(2, 2/15)]), (10, 3, 1/3, [(2, 1/30)])]), booksOk s,
          (staged s₁ 2).map (fun ν => ν.owned.keys)))) = some (true, true, some [17]) := by decide +kernel
  obtain ⟨s, h0, key⟩ := Option.bind_eq_some_iff.1 key
  obtain ⟨s₁, h1, key⟩ := Option.map_eq_some_iff.1 key
  simp only [Prod.mk.injEq, decide_eq_true_eq] at key
  refine ⟨s, s₁, ⟨es, ?_, toOption_ok h0⟩, booksOk_spec key.2.1, key.1, toOption_ok h1, key.2.2, by decide, ?_⟩
  · intro e he
    have hr : ∀ e ∈ simRound [0, 1, 2, 3, 4], e.Valid (demo true).people.length := by
      intro e he
      rcases List.mem_append.1 he with h | h <;> obtain ⟨a, ha, rfl⟩ := List.mem_map.1 h <;>
        exact ⟨by simp only [List.mem_cons, List.not_mem_nil, or_false] at ha; simp only [demo, List.length_cons, List.length_nil]; omega,
          fun _ => List.Perm.refl _⟩
    rcases List.mem_append.1 he with h | h
    · rcases List.mem_append.1 h with h | h <;> exact hr e h
    · exact hr e h
  · intro e he
    obtain ⟨a, ha, rfl⟩ := List.mem_map.1 he
    exact ⟨by simp only [List.mem_cons, List.not_mem_nil, or_false] at ha; simp only [demo, List.length_cons, List.length_nil]; omega,
      fun _ => List.Perm.refl _⟩

end RSE.Props
