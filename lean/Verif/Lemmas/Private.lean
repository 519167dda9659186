import Verif.Lemmas.Shaped

/-!
# Private pools have no delegators (sequential activation)
-/

set_option linter.unusedSectionVars false

namespace RSE

variable {K : Type} [Field K] [LinearOrder K] [IsStrictOrderedRing K]

theorem Reachable.planned_balanced {c : Config K} {s s₁ : State K} (h : Reachable c s) {me : Nat} {ag : Agent K} {σ : Strategy K}
    (ha : s.agents.get? me = some ag) (hσ : ag.strategy = some σ) {ord : List Nat → List Nat} (hord : ∀ l, (ord l).Perm l)
    {oν : Option (Strategy K)} (hpm : planMove ord s ag σ = .ok (s₁, oν)) : AllPools Balanced s₁ := by
  have hg := h.good minUnit_pos
  have ht := hg.inv.tidy me ag ha
  exact (planMove_all balanced_upd hg.inv.core h.balanced hord ag (ht.allocs _ hσ) (ht.owned _ hσ) (fun pid r hr => (hg.inv.owned ha hσ hr).1)
    (fun e he => Or.inr ((h.allocsMin minUnit_pos me ag ha).1 σ hσ e he)) (fun s₂ _ _ _ => balanced_decides s₂ ag σ)).of_ok hpm

theorem Balanced.no_delegators {p : Pool K} (h : Balanced p) (hs : p.stake ≤ p.pledge) : p.delegators = [] := by
  cases hd : p.delegators with
  | nil => rfl
  | cons e t =>
    exfalso
    have h1 := h.stake
    rw [hd] at h1
    have h2 := pos_of_minUnit (h.min e (by rw [hd]; exact List.mem_cons_self))
    have h3 : 0 ≤ Dict.total t := Dict.total_nonneg (fun e' he' => (pos_of_minUnit (h.min e' (by rw [hd]; exact List.mem_cons_of_mem _ he'))).le)
    obtain ⟨k, v⟩ := e
    rw [Dict.total_cons] at h1
    simp only at h2
    linarith

/-- nobody delegates to a private pool -/
def PrivateFree (s : State K) : Prop := ∀ pid r, s.pools.get? pid = some r → (s.heap r).isPrivate = true → ∀ b, allocOf s b pid = none

theorem Did.privateFree {c : Config K} {s s' : State K} {ev : Event K} (hr : Reachable c s) (hs : c.simultaneous = false)
    (hd : Did (c.rs.k + 1) (c.simultaneous = false) s ev s') (hv : ev.Valid c.people.length) (h : PrivateFree s) : PrivateFree s' := by
  have hg := hr.good minUnit_pos
  obtain ⟨hsq, hset⟩ := hg.seq hs
  have hplan : ∀ {me : Nat} {ag : Agent K} {σ : Strategy K} {oν : Option (Strategy K)} {s₁ s₂ : State K}, s.agents.get? me = some ag → StepPlan (c.rs.k + 1) s s₂ me ag σ oν s₁ →
      PrivateFree s₂ ∧ ∀ b pid, allocOf s₂ b pid = allocOf s b pid := by
    intro me ag σ oν s₁ s₂ ha hpl
    have hal : ∀ b pid, allocOf s₂ b pid = allocOf s b pid := by
      intro b pid
      rw [hpl.eq]
      exact allocOf_setAgent ha (hg.inv.core.agentId me ag ha) hpl.planned.agents oν b pid
    refine ⟨?_, hal⟩
    intro pid r hp hpr b
    rw [hal]
    have hp' : s.pools.get? pid = some r := by rw [hpl.eq] at hp; rw [← hpl.planned.pools]; exact hp
    refine h pid r hp' ?_ b
    have hheap : s₂.heap = s₁.heap := by rw [hpl.eq]; rfl
    rw [← (hpl.planned.same r (hg.inv.core.poolRef _ _ hp').1).isPrivate, ← hheap]; exact hpr
  cases hd with
  | idle => exact h
  | plan me ord ag σ oν s₁ s' ha hp hσ hpm hpl => exact (hplan ha hpl).1
  | move me ord ag σ ν s₁ s₂ s₃ ha hp hσ hpm hpl hsim ht hex hd hinv hds =>
    obtain ⟨h2, hal⟩ := hplan ha hpl
    obtain ⟨hsq2, hst⟩ := ht hs
    have hseq := hds hs
    have hid : ag.id = me := hg.inv.core.agentId me ag ha
    have hbal : AllPools Balanced s₂ := by
      have hb1 := hr.planned_balanced ha hσ hv.2 hpm
      rw [hpl.eq]; exact hb1
    have ha2 : s₂.agents.get? me = some { ag with newStrategy := some ν } := by
      rw [hpl.eq, get?_setAgent (me := me) (ag := { ag with newStrategy := some ν }) hid me, if_pos rfl]
    change PrivateFree s₃
    intro pid r hp hpr b
    have hpr2 : (s₂.heap r).isPrivate = true := by rw [← (hd.same r).isPrivate]; exact hpr
    by_cases hown : (s₃.heap r).owner = me
    · -- one of the pools of the agent that moves
      by_cases hb : b = me
      · subst hb
        cases hx : allocOf s₃ b pid with
        | none => rfl
        | some x =>
          obtain ⟨-, r', hr', ho⟩ := hseq.inv.good b pid x hx
          rw [hp] at hr'; cases hr'
          exact absurd hown ho
      · have h3 : ownOf s₃ me pid = some r := (hd.inv.own.own_iff me pid r).2 ⟨hp, hown⟩
        have h4 : ν.owned.get? pid = some r := by
          have := hd.mine
          rw [ha2] at this
          unfold ownOf at h3
          cases hag : s₃.agents.get? me with
          | none => rw [hag] at h3; cases h3
          | some ag' =>
            rw [hag] at h3 this
            simp only [Option.map_some, Option.some.injEq, Agent.skel, Prod.mk.injEq] at this
            cases hst' : ag'.strategy with
            | none => rw [hst'] at this; simp at this
            | some σ' =>
              rw [hst'] at this
              simp only [Option.map_some, Option.some.injEq] at this
              simp only [Option.bind_some, hst'] at h3
              rw [← this.2.2.2.2.1]; exact h3
        by_cases hgone : Gone s₂ σ ν pid
        · exact hseq.gone b hb pid hgone
        · rw [hseq.kept b hb pid hgone]
          cases hx : allocOf s₂ b pid with
          | none => rfl
          | some x =>
            exfalso
            obtain ⟨-, r₀, hr₀, -⟩ := hsq2.good b pid x hx
            have hst2 : stgOf s₂ me pid = some r := by simp [stgOf, ha2, h4]
            have ho2 := hpl.inv.own.stg_pool me pid r hst2 r₀ hr₀
            have h5 : σ.owned.get? pid = some r₀ := by
              have h6 := (hpl.inv.own.own_iff me pid r₀).2 ⟨hr₀, ho2⟩
              rw [ownOf_eq (ag := { ag with newStrategy := some ν }) (σ := σ) ha2 hσ] at h6
              exact h6
            have hne : ¬ Expels s₂ r := fun he => hgone ⟨Dict.mem_keys_of_get? h5, Or.inr ⟨r, h4, he⟩⟩
            have hle : (s₂.heap r).stake ≤ (s₂.heap r).pledge := by
              by_contra hc
              exact hne ⟨hpr2, not_le.1 hc⟩
            have hnd := (hbal r).no_delegators hle
            have hcp := hst.copies pid r₀ r h5 h4 b
            rw [hnd, hsq2.agree pid r₀ hr₀ b, hx] at hcp
            cases hcp
    · -- a pool of somebody else
      have h3 : ownOf s₃ (s₃.heap r).owner pid = some r := (hd.inv.own.own_iff _ pid r).2 ⟨hp, rfl⟩
      rw [(ownOf_of_skel (hd.others _ hown) pid).1] at h3
      have hp2 := ((hpl.inv.own.own_iff _ pid r).1 h3).1
      by_cases hb : b = me
      · subst hb
        rw [hseq.mine]
        cases hx : ν.allocs.get? pid with
        | none => rfl
        | some x =>
          exfalso
          obtain ⟨-, r', hr', -, hpub⟩ := (hpl.new ν rfl).allocs.good pid x hx
          have hpools : s₂.pools = s₁.pools := by rw [hpl.eq]; rfl
          have hheap : s₂.heap = s₁.heap := by rw [hpl.eq]; rfl
          rw [← hpools, hp2] at hr'; cases hr'
          rw [← hheap, hpr2] at hpub
          cases hpub
      · by_cases hgone : Gone s₂ σ ν pid
        · exact hseq.gone b hb pid hgone
        · rw [hseq.kept b hb pid hgone]
          exact h2 pid r hp2 hpr2 b
  | skip => exact h
  | adv me ord ag σ ν s₃ ha hσ hν hex hd hinv ht => exact absurd hs ht
  | phase p s' hp hc =>
    intro pid r hpp hpr b
    rw [hp.pools] at hpp
    have : allocOf s' b pid = allocOf s b pid := by unfold allocOf; rw [hp.agents]
    rw [this]
    refine h pid r hpp ?_ b
    rw [hp.heap r] at hpr
    split at hpr
    · exact hpr
    · exact hpr
  | roundEnd => exact h

theorem Reachable.privateFree {c : Config K} {s : State K} (h : Reachable c s) (hs : c.simultaneous = false) : PrivateFree s := by
  refine Reachable.induct' (P := PrivateFree) minUnit_pos ?_ ?_ h
  · intro pid r hp; cases hp
  · intro s ev s' hr _ _ hp hv _ hd
    exact hd.privateFree hr hs hv hp

theorem Reachable.private_no_delegators {c : Config K} {s : State K} (h : Reachable c s) (hs : c.simultaneous = false) {pid : Nat} {r : Ref}
    (hp : s.pools.get? pid = some r) (hpr : (s.heap r).isPrivate = true) : (s.heap r).delegators = [] := by
  have h1 := h.privateFree hs pid r hp hpr
  have h2 := ((h.good minUnit_pos).seq hs).1.agree pid r hp
  cases hd : (s.heap r).delegators with
  | nil => rfl
  | cons e t =>
    have := h2 e.1
    rw [h1 e.1, hd] at this
    simp [Dict.get?] at this

end RSE
