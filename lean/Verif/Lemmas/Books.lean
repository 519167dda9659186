import Verif.Lemmas.Reach

/-!
# Simultaneous moves that keep the books straight

The bookkeeping of a (semi-)simultaneous batch: all agents of the batch plan, then all of them carry out what they have planned.  What an agent has
staged was made for the state in which it planned.  It still fits when its turn to advance comes, if no agent that has advanced in between has
changed its delegation to a pool that the agent keeps (the agent's copy of that pool would not know of the change).
-/

set_option linter.unusedSectionVars false

namespace RSE

variable {F : Type} [LinearOrder F] [Zero F] [One F] [Add F] [Sub F] [Mul F] [Div F] [Neg F] [NatCast F] [FSum F]

/-- what agents have staged fits the current state -/
def AllStaged (s : State F) : Prop :=
  ∀ b ag σ ν, s.agents.get? b = some ag → ag.strategy = some σ → ag.newStrategy = some ν → Staged s b σ ν

/-- Nothing that `a` has staged concerns a pool that `b` keeps. -/
def Undisturbed (s : State F) (a b : Nat) : Prop :=
  ∀ ag ν, s.agents.get? a = some ag → ag.newStrategy = some ν → ∀ pid, (ownOf s b pid).isSome → (stgOf s b pid).isSome →
    newOf s a pid = allocOf s a pid

theorem Settled.allStaged {s : State F} (h : Settled s) : AllStaged s := by
  intro b ag σ ν hb _ hν
  rw [h b ag hb] at hν; cases hν

theorem newOf_eq {s : State F} {a : Nat} {ag : Agent F} (ha : s.agents.get? a = some ag) {ν : Strategy F} (hν : ag.newStrategy = some ν) (pid : Nat) :
    newOf s a pid = ν.allocs.get? pid := by simp [newOf, ha, hν]

/-- an agent of the batch plans: what the others have staged still fits -/
theorem StepPlan.allStaged {n : Nat} {s s' s₁ : State F} {me : Nat} {ag : Agent F} {σ : Strategy F} {oν : Option (Strategy F)} (h : Inv n s)
    (hb : Books s) (hst : AllStaged s) (ha : s.agents.get? me = some ag) (hσ : ag.strategy = some σ) (hpl : StepPlan n s s' me ag σ oν s₁)
    (hb' : Books s') (hme : ∀ ν, oν = some ν → Staged s' me σ ν) : AllStaged s' := by
  have hid : ag.id = me := h.core.agentId _ _ ha
  have hget : ∀ b, s'.agents.get? b = if b = me then some { ag with newStrategy := oν } else s.agents.get? b := by
    intro b; rw [hpl.eq, get?_setAgent (me := me) (ag := { ag with newStrategy := oν }) hid b, hpl.planned.agents]
  have hheap : s'.heap = s₁.heap := by rw [hpl.eq]; rfl
  have hpools : s'.pools = s.pools := by rw [hpl.eq]; exact hpl.planned.pools
  have hal : ∀ b p, allocOf s' b p = allocOf s b p := by
    intro b p; rw [hpl.eq]; exact allocOf_setAgent ha hid hpl.planned.agents oν b p
  intro b agb σb νb hgb hσb hνb
  by_cases hbm : b = me
  · subst hbm
    rw [hget, if_pos rfl] at hgb
    cases hgb
    simp only at hσb hνb
    rw [hσ] at hσb; cases hσb
    exact hme νb hνb
  · rw [hget, if_neg hbm] at hgb
    have S := hst b agb σb νb hgb hσb hνb
    have huntouched : ∀ p r', νb.owned.get? p = some r' → s'.heap r' = s.heap r' := by
      intro p r' hr'
      obtain ⟨k1, -, -, k4⟩ := h.own.stg_ok b p r' (by rw [stgOf_eq hgb hνb]; exact hr')
      rw [hheap]
      exact hpl.planned.untouched r' k1 (fun pid _ hp => k4 pid hp)
    refine ⟨?_, ?_, ?_⟩
    · intro pid x hx
      obtain ⟨g1, r, g2, g3⟩ := S.allocs pid x hx
      refine ⟨g1, r, by rw [hpools]; exact g2, ?_⟩
      rw [hheap, (hpl.planned.same r (h.core.poolRef _ _ g2).1).owner]; exact g3
    · intro pid r r' hr hr' x
      have hopen := ((h.own.own_iff b pid r).1 (by rw [ownOf_eq hgb hσb]; exact hr)).1
      rw [huntouched pid r' hr', S.copies pid r r' hr hr' x, hb.agree pid r hopen x, ← hal, hb'.agree pid r (by rw [hpools]; exact hopen) x]
    · intro pid r' hr hr'
      rw [huntouched pid r' hr']; exact S.fresh pid r' hr hr'

/-- an agent of the batch advances: what the others have staged still fits, unless the agent changes its delegation to a pool that another one keeps -/
theorem Executed.allStaged {n : Nat} {s s' : State F} {me : Nat} {ag : Agent F} {σ ν : Strategy F} (h : Inv n s) (hb : Books s) (hst : AllStaged s)
    (ha : s.agents.get? me = some ag) (hσ : ag.strategy = some σ) (hν : ag.newStrategy = some ν) (hsim : s.simultaneous = true)
    (hex : Executed n s s' me ν) (hbk : ExecutedBooks s s' me σ ν)
    (hq : ∀ b agb νb, b ≠ me → s.agents.get? b = some agb → agb.newStrategy = some νb → Undisturbed s me b) :
    AllStaged s' ∧ ∀ a b, a ≠ me → b ≠ me → Undisturbed s a b → Undisturbed s' a b := by
  have hgone : ∀ {b p}, b ≠ me → (ownOf s b p).isSome → ¬ Gone s σ ν p := by
    intro b p hbm hp hg
    obtain ⟨r, hr⟩ := Option.isSome_iff_exists.1 hp
    obtain ⟨r₀, hr₀⟩ := Dict.mem_keys_iff.1 hg.1
    obtain ⟨k1, k2⟩ := (h.own.own_iff b p r).1 hr
    obtain ⟨k3, k4⟩ := (h.own.own_iff me p r₀).1 (by rw [ownOf_eq ha hσ]; exact hr₀)
    rw [k1] at k3; cases k3
    exact hbm (k2.symm.trans k4)
  have hskel : ∀ {b}, b ≠ me → ∀ p, ownOf s' b p = ownOf s b p ∧ stgOf s' b p = stgOf s b p :=
    fun hbm p => ownOf_of_skel (hex.others _ hbm) p
  have hown : ∀ p, ownOf s' me p = ν.owned.get? p := by
    intro p
    have := hex.mine
    rw [ha] at this
    cases h6 : s'.agents.get? me with
    | none => rw [h6] at this; cases this
    | some ag6 =>
      rw [h6] at this
      simp only [Option.map_some, Option.some.injEq, Agent.skel, Prod.mk.injEq] at this
      obtain ⟨ν6, k3, k4⟩ := Option.map_eq_some_iff.1 this.2.2.2.2.1
      rw [ownOf_eq h6 k3, k4]
  have hback : ∀ {b agb' νb'}, b ≠ me → s'.agents.get? b = some agb' → agb'.newStrategy = some νb' →
      ∃ agb νb, s.agents.get? b = some agb ∧ agb.newStrategy = some νb := by
    intro b agb' νb' hbm hgb hνb
    obtain ⟨agb, k1, k2⟩ := get?_of_skel (hex.others b hbm) hgb
    simp only [Agent.skel, Prod.mk.injEq] at k2
    have := k2.2.2.2.2.2
    rw [hνb] at this
    obtain ⟨νb, k3, -⟩ := Option.map_eq_some_iff.1 this.symm
    exact ⟨agb, νb, k1, k3⟩
  constructor
  · intro b agb' σb' νb' hgb' hσb' hνb'
    by_cases hbm : b = me
    · subst hbm
      have := hex.mine
      rw [hgb', ha] at this
      simp only [Option.map_some, Option.some.injEq, Agent.skel, Prod.mk.injEq] at this
      have := this.2.2.2.2.2
      rw [hνb'] at this; cases this
    · obtain ⟨agb, νb, hgb, hνb⟩ := hback hbm hgb' hνb'
      obtain ⟨σb, hσb⟩ : ∃ σb, agb.strategy = some σb := by
        refine h.strat b agb hgb (fun hp => ?_)
        rw [(h.abst b agb hgb hp).2] at hνb; cases hνb
      have S := hst b agb σb νb hgb hσb hνb
      have ho : ∀ p, σb'.owned.get? p = σb.owned.get? p := by
        intro p; rw [← ownOf_eq hgb' hσb', ← ownOf_eq hgb hσb]; exact (hskel hbm p).1
      have hs : ∀ p, νb'.owned.get? p = νb.owned.get? p := by
        intro p; rw [← stgOf_eq hgb' hνb', ← stgOf_eq hgb hνb]; exact (hskel hbm p).2
      have hdr : ∀ p r', νb'.owned.get? p = some r' → s'.heap r' = s.heap r' := by
        intro p r' hr'
        exact hbk.drafts b p r' (by rw [stgOf_eq hgb' hνb']; exact hr')
      refine ⟨?_, ?_, ?_⟩
      · intro pid x hx
        rw [← newOf_eq hgb' hνb'] at hx
        have hng : ¬ Gone s σ ν pid := by
          intro hg
          rw [hbk.stagedGone b hbm pid hg hsim] at hx; cases hx
        rw [hbk.stagedKept b hbm pid (Or.inl hng), newOf_eq hgb hνb] at hx
        obtain ⟨g1, r, g2, g3⟩ := S.allocs pid x hx
        refine ⟨g1, ?_⟩
        by_cases hom : (s.heap r).owner = me
        · have hr := (h.own.own_iff me pid r).2 ⟨g2, hom⟩
          rw [ownOf_eq ha hσ] at hr
          have hm : pid ∈ ν.owned.keys := by
            by_contra hno
            exact hng ⟨Dict.mem_keys_of_get? hr, Or.inl hno⟩
          obtain ⟨r', hr'⟩ := Dict.mem_keys_iff.1 hm
          rw [← hown] at hr'
          obtain ⟨k1, k2⟩ := (hex.inv.own.own_iff me pid r').1 hr'
          exact ⟨r', k1, by rw [k2]; exact fun e => hbm e.symm⟩
        · have hr := (h.own.own_iff _ pid r).2 ⟨g2, rfl⟩
          rw [← (hskel hom pid).1] at hr
          obtain ⟨k1, k2⟩ := (hex.inv.own.own_iff _ pid r).1 hr
          exact ⟨r, k1, by rw [k2]; exact g3⟩
      · intro pid r r' hr hr' x
        have hr0 : ownOf s b pid = some r := by rw [ownOf_eq hgb hσb, ← ho]; exact hr
        have hr1 : ownOf s' b pid = some r := by rw [(hskel hbm pid).1]; exact hr0
        have hng := hgone hbm (p := pid) (by rw [hr0]; rfl)
        rw [hdr pid r' hr', S.copies pid r r' (by rw [← ho]; exact hr) (by rw [← hs]; exact hr') x,
          hb.agree pid r ((h.own.own_iff _ _ _).1 hr0).1 x, hbk.books.agree pid r ((hex.inv.own.own_iff _ _ _).1 hr1).1 x]
        by_cases hx : x = me
        · subst hx
          rw [hbk.mine, ← newOf_eq ha hν]
          refine (hq b agb νb hbm hgb hνb ag ν ha hν pid (by rw [hr0]; rfl) ?_).symm
          rw [stgOf_eq hgb hνb, ← hs, hr']; rfl
        · exact (hbk.kept x hx pid hng).symm
      · intro pid r' hr hr'
        rw [hdr pid r' hr']
        exact S.fresh pid r' (by rw [← ho]; exact hr) (by rw [← hs]; exact hr')
  · intro a b ham hbm hqt aga' νa' hga' hνa' pid ho hs
    obtain ⟨aga, νa, hga, hνa⟩ := hback ham hga' hνa'
    rw [(hskel hbm pid).1] at ho
    rw [(hskel hbm pid).2] at hs
    have hng := hgone hbm ho
    rw [hbk.stagedKept a ham pid (Or.inl hng), hbk.kept a ham pid hng]
    exact hqt aga νa hga hνa pid ho hs

/-- Between the moments of a batch. -/
structure Batch (n : Nat) (s : State F) : Prop where
  inv : Inv n s
  sim : s.simultaneous = true
  books : Books s
  staged : AllStaged s

/-- an agent of the batch plans -/
theorem Batch.step {n : Nat} {s : State F} (h : Batch n s) {ord : List Nat → List Nat} (hord : ∀ l, (ord l).Perm l) {me : Nat} {ag : Agent F}
    (ha : s.agents.get? me = some ag) :
    Sat Ev (agentStep ord s me) (fun s' => (Batch n s' ∧ ∀ b, b ≠ me → s'.agents.get? b = s.agents.get? b) ∧ (s'.agents.get? me).isSome) := by
  have hid : ag.id = me := h.inv.core.agentId _ _ ha
  unfold agentStep
  refine Sat.bind ((updateStrategy_books h.inv hord ha (t := True) (fun _ => h.books)).mono ?_ (fun _ h => h)) ?_
  · rintro e (he | ⟨-, he⟩)
    · exact he
    · exact absurd trivial he
  rintro s₁ (⟨hprof, rfl⟩ | ⟨hprof, σ, oν, s₂, hσ, hpl, -, hseq⟩)
  · rw [if_pos h.sim]
    exact ⟨⟨h, fun _ _ => rfl⟩, by rw [ha]; rfl⟩
  · have hsim : s₁.simultaneous = true := by rw [hpl.eq]; exact hpl.planned.simultaneous.trans h.sim
    rw [if_pos hsim]
    obtain ⟨k1, k2⟩ := hseq trivial
    have hget : ∀ b, s₁.agents.get? b = if b = me then some { ag with newStrategy := oν } else s.agents.get? b := by
      intro b; rw [hpl.eq, get?_setAgent (me := me) (ag := { ag with newStrategy := oν }) hid b, hpl.planned.agents]
    refine ⟨⟨⟨hpl.inv, hsim, k1, hpl.allStaged h.inv h.books h.staged ha hσ k1 k2⟩, fun b hb => ?_⟩, ?_⟩
    · rw [hget, if_neg hb]
    · rw [hget, if_pos rfl]; rfl

/-- an agent of the batch advances -/
theorem Batch.advance (hmin : (0 : F) < minUnit) {n : Nat} {s : State F} (h : Batch n s) {ord : List Nat → List Nat} (hord : ∀ l, (ord l).Perm l)
    {me : Nat} {ag : Agent F} (ha : s.agents.get? me = some ag)
    (hq : ∀ b agb νb, b ≠ me → s.agents.get? b = some agb → agb.newStrategy = some νb → Undisturbed s me b) :
    ∃ s', advance ord s me = .ok s' ∧ Batch n s' ∧ (∀ a b, a ≠ me → b ≠ me → Undisturbed s a b → Undisturbed s' a b) ∧
      (∀ b, (s'.agents.get? b).isSome = (s.agents.get? b).isSome) ∧
      ∀ b agb νb, s'.agents.get? b = some agb → agb.newStrategy = some νb → b ≠ me ∧
        ∃ agb νb, s.agents.get? b = some agb ∧ agb.newStrategy = some νb := by
  unfold RSE.advance
  rw [Dict.getE_of ha]
  simp only [bind, Except.bind]
  cases hν : ag.newStrategy with
  | none =>
    refine ⟨s, rfl, h, fun _ _ _ _ h => h, fun _ => rfl, fun b agb νb hgb hνb => ⟨?_, agb, νb, hgb, hνb⟩⟩
    rintro rfl
    rw [ha] at hgb; cases hgb
    rw [hν] at hνb; cases hνb
  | some ν =>
    simp only
    have hprof : ag.profile ≠ .abstainer := by
      intro hp
      have := (h.inv.abst _ _ ha hp).2
      rw [hν] at this; cases this
    obtain ⟨σ, hσ⟩ := h.inv.strat _ _ ha hprof
    have := executeStrategy_books hmin h.inv hord ha hσ hν (t := True) (fun _ => h.books) (fun _ => h.staged me ag σ ν ha hσ hν)
    cases hx : executeStrategy ord s me with
    | error e => rw [hx] at this; exact absurd trivial this.2
    | ok s₁ =>
      rw [hx] at this
      obtain ⟨k1, k2⟩ := this
      have k2 := k2 trivial
      obtain ⟨g1, g2⟩ := k1.allStaged h.inv h.books h.staged ha hσ hν h.sim k2 hq
      refine ⟨_, rfl, ⟨k1.inv.setIdle false, ?_, ⟨k2.books.agree, k2.books.good⟩, ?_⟩, g2, ?_, ?_⟩
      · change s₁.simultaneous = true
        rw [k1.frame]; exact h.sim
      · intro b agb σb νb hgb hσb hνb
        have S := g1 b agb σb νb hgb hσb hνb
        exact ⟨S.allocs, S.copies, S.fresh⟩
      · intro b
        exact k1.fixed.isSome b
      · intro b agb' νb' hgb hνb
        have hgb : s₁.agents.get? b = some agb' := hgb
        have hbm : b ≠ me := by
          rintro rfl
          have := k1.mine
          rw [hgb, ha] at this
          simp only [Option.map_some, Option.some.injEq, Agent.skel, Prod.mk.injEq] at this
          have := this.2.2.2.2.2
          rw [hνb] at this; cases this
        refine ⟨hbm, ?_⟩
        obtain ⟨agb, q1, q2⟩ := get?_of_skel (k1.others b hbm) hgb
        simp only [Agent.skel, Prod.mk.injEq] at q2
        have := q2.2.2.2.2.2
        rw [hνb] at this
        obtain ⟨νb, q3, -⟩ := Option.map_eq_some_iff.1 this.symm
        exact ⟨agb, νb, q1, q3⟩

/-- the second half of a batch -/
theorem Batch.advances (hmin : (0 : F) < minUnit) {n : Nat} {ords : Nat → List Nat → List Nat} (hords : ∀ i l, (ords i l).Perm l) :
    ∀ (l : List Nat) (i : Nat) (s : State F), Batch n s → l.Pairwise (Undisturbed s) → l.Nodup → (∀ a ∈ l, (s.agents.get? a).isSome) →
    (∀ b ag ν, s.agents.get? b = some ag → ag.newStrategy = some ν → b ∈ l) →
    ∃ s', iterM (fun s (e : Nat × Nat) => RSE.advance (ords e.2) s e.1) s (l.zipIdx i) = .ok s' ∧ Batch n s' ∧ Settled s'
  | [], _, s, h, _, _, _, hin => by
    refine ⟨s, rfl, h, fun b ag hb => ?_⟩
    cases hν : ag.newStrategy with
    | none => rfl
    | some ν => exact absurd (hin b ag ν hb hν) (by simp)
  | me :: l, i, s, h, hpw, hnd, hsome, hin => by
    obtain ⟨ag, ha⟩ := Option.isSome_iff_exists.1 (hsome me (by simp))
    rw [List.pairwise_cons] at hpw
    rw [List.nodup_cons] at hnd
    obtain ⟨s₁, k1, k2, k3, k4, k5⟩ := h.advance hmin (hords i) ha (by
      intro b agb νb hbm hgb hνb
      have := hin b agb νb hgb hνb
      rw [List.mem_cons] at this
      exact hpw.1 b (this.resolve_left hbm))
    have hne : ∀ a ∈ l, a ≠ me := fun a ha' e => hnd.1 (e ▸ ha')
    obtain ⟨s', g1, g2⟩ := Batch.advances hmin hords l (i + 1) s₁ k2 (hpw.2.imp_of_mem (fun {a b} ha' hb' hq => k3 a b (hne a ha') (hne b hb') hq)) hnd.2
      (fun a ha' => by rw [k4]; exact hsome a (List.mem_cons_of_mem _ ha'))
      (fun b agb νb hgb hνb => by
        obtain ⟨hbm, agb', νb', q1, q2⟩ := k5 b agb νb hgb hνb
        have := hin b agb' νb' q1 q2
        rw [List.mem_cons] at this
        exact this.resolve_left hbm)
    refine ⟨s', ?_, g2⟩
    rw [List.zipIdx_cons]
    unfold iterM
    rw [k1]; exact g1

/-- the first half of a batch -/
theorem Batch.steps {n : Nat} {ords : Nat → List Nat → List Nat} (hords : ∀ i l, (ords i l).Perm l) :
    ∀ (l : List Nat) (i : Nat) (s : State F), Batch n s → (∀ a ∈ l, (s.agents.get? a).isSome) → ∀ all : List Nat, (∀ a ∈ l, a ∈ all) →
    (∀ b ag ν, s.agents.get? b = some ag → ag.newStrategy = some ν → b ∈ all) →
    Sat Ev (iterM (fun s (e : Nat × Nat) => agentStep (ords e.2) s e.1) s (l.zipIdx i)) (fun s' => Batch n s' ∧
      (∀ b ag ν, s'.agents.get? b = some ag → ag.newStrategy = some ν → b ∈ all) ∧ ∀ b, (s'.agents.get? b).isSome = (s.agents.get? b).isSome)
  | [], _, s, h, _, all, _, hin => ⟨h, hin, fun _ => rfl⟩
  | me :: l, i, s, h, hsome, all, hall, hin => by
    obtain ⟨ag, ha⟩ := Option.isSome_iff_exists.1 (hsome me (by simp))
    rw [List.zipIdx_cons]
    unfold iterM
    refine Sat.bind (h.step (hords i) ha) ?_
    rintro s₁ ⟨⟨k1, k2⟩, k3⟩
    have hs : ∀ b, (s₁.agents.get? b).isSome = (s.agents.get? b).isSome := by
      intro b
      by_cases hb : b = me
      · subst hb; rw [k3, ha]; rfl
      · rw [k2 b hb]
    refine (Batch.steps hords l (i + 1) s₁ k1 (fun a ha' => by rw [hs]; exact hsome a (List.mem_cons_of_mem _ ha')) all
      (fun a ha' => hall a (List.mem_cons_of_mem _ ha')) ?_).imp (fun s' hs' => ⟨hs'.1, hs'.2.1, fun b => (hs'.2.2 b).trans (hs b)⟩)
    intro b agb νb hgb hνb
    by_cases hb : b = me
    · subst hb; exact hall b (by simp)
    · rw [k2 b hb] at hgb
      exact hin b agb νb hgb hνb

end RSE
