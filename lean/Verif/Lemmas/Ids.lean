import Verif.Lemmas.Reach

/-!
# Pool ids: a closed pool stays closed, an open pool keeps its operator
-/

set_option linter.unusedSectionVars false

namespace RSE

variable {F : Type} [LinearOrder F] [Zero F] [One F] [Add F] [Sub F] [Mul F] [Div F] [Neg F] [NatCast F] [FSum F]

/-- the id has been given out, is not open, and nobody has staged it -/
structure Dead (s : State F) (pid : Nat) : Prop where
  le : pid ≤ s.idSeq
  closed : s.pools.get? pid = none
  unstaged : ∀ a, stgOf s a pid = none

/-- the id is open (and operated by `a`) or dead -/
def Bound (a : Nat) (s : State F) (pid : Nat) : Prop := ownOf s a pid ≠ none ∨ Dead s pid

theorem stgOf_settled {s : State F} {me : Nat} {ag : Agent F} (ha : s.agents.get? me = some ag) (h : ag.newStrategy = none) (pid : Nat) :
    stgOf s me pid = none := by simp [stgOf, ha, h]

theorem Executed.own_me {n : Nat} {s s' : State F} {me : Nat} {ν : Strategy F} (h : Executed n s s' me ν) {ag : Agent F}
    (ha : s.agents.get? me = some ag) (pid : Nat) : ownOf s' me pid = ν.owned.get? pid ∧ stgOf s' me pid = none := by
  have hm := h.mine
  rw [ha] at hm
  cases h1 : s'.agents.get? me with
  | none => rw [h1] at hm; cases hm
  | some ag' =>
    rw [h1] at hm
    simp only [Option.map_some, Option.some.injEq, Agent.skel, Prod.mk.injEq] at hm
    obtain ⟨-, -, -, -, h3, h4⟩ := hm
    constructor
    · unfold ownOf; rw [h1]
      cases h5 : ag'.strategy with
      | none => rw [h5] at h3; cases h3
      | some σ' => rw [h5] at h3; simp only [Option.map_some, Option.some.injEq] at h3; simp [h5, h3]
    · apply stgOf_settled h1; simpa using h4

theorem Executed.dead {n : Nat} {s s' : State F} {me : Nat} {ag : Agent F} {ν : Strategy F} (h : Executed n s s' me ν) (hi : Inv n s)
    (ha : s.agents.get? me = some ag) (hν : ag.newStrategy = some ν) {pid : Nat} (hd : Dead s pid) : Dead s' pid := by
  have hns := (h.own_me ha)
  have hidS : s'.idSeq = s.idSeq := by rw [h.frame]
  refine ⟨hidS ▸ hd.le, ?_, ?_⟩
  · cases hq : s'.pools.get? pid with
    | none => rfl
    | some q =>
      exfalso
      have ho := (h.inv.own.own_iff _ _ _).2 ⟨hq, rfl⟩
      by_cases hb : (s'.heap q).owner = me
      · rw [hb, (hns pid).1, ← stgOf_eq ha hν, hd.unstaged] at ho; cases ho
      · rw [(ownOf_of_skel (h.others _ hb) pid).1] at ho
        have := ((hi.own.own_iff _ _ _).1 ho).1
        rw [hd.closed] at this; cases this
  · intro a
    by_cases hb : a = me
    · subst hb; exact (hns pid).2
    · rw [(ownOf_of_skel (h.others _ hb) pid).2]; exact hd.unstaged a

theorem Executed.bound {n : Nat} {s s' : State F} {me : Nat} {ag : Agent F} {ν : Strategy F} (h : Executed n s s' me ν) (hi : Inv n s)
    (ha : s.agents.get? me = some ag) (hν : ag.newStrategy = some ν) {a pid : Nat} (hb : Bound a s pid) : Bound a s' pid := by
  rcases hb with ho | hd
  · obtain ⟨r, hr⟩ := Option.ne_none_iff_exists'.1 ho
    obtain ⟨hpr, hown⟩ := (hi.own.own_iff _ _ _).1 hr
    by_cases hbm : a = me
    · subst hbm
      cases hx : ν.owned.get? pid with
      | some r' => left; rw [(h.own_me ha pid).1, hx]; simp
      | none =>
        right
        refine ⟨?_, ?_, ?_⟩
        · have : s'.idSeq = s.idSeq := by rw [h.frame]
          rw [this]; exact (hi.core.poolRef _ _ hpr).2.2.2
        · cases hq : s'.pools.get? pid with
          | none => rfl
          | some q =>
            exfalso
            have ho' := (h.inv.own.own_iff _ _ _).2 ⟨hq, rfl⟩
            by_cases hbm : (s'.heap q).owner = a
            · rw [hbm, (h.own_me ha pid).1, hx] at ho'; cases ho'
            · rw [(ownOf_of_skel (h.others _ hbm) pid).1] at ho'
              obtain ⟨k1, k2⟩ := (hi.own.own_iff _ _ _).1 ho'
              rw [hpr] at k1; cases k1
              exact hbm (k2.symm.trans hown)
        · intro b
          by_cases hbb : b = a
          · subst hbb; exact (h.own_me ha pid).2
          · rw [(ownOf_of_skel (h.others _ hbb) pid).2]
            cases hs : stgOf s b pid with
            | none => rfl
            | some q => exact absurd ((hi.own.stg_pool _ _ _ hs _ hpr).symm.trans hown) hbb
    · left; rw [(ownOf_of_skel (h.others _ hbm) pid).1]; exact ho
  · right; exact h.dead hi ha hν hd

theorem StepPlan.ownOf {n : Nat} {s s' s₁ : State F} {me : Nat} {ag : Agent F} {σ : Strategy F} {oν : Option (Strategy F)} (h : StepPlan n s s' me ag σ oν s₁)
    (hid : ag.id = me) (ha : s.agents.get? me = some ag) (a pid : Nat) : ownOf s' a pid = ownOf s a pid := by
  unfold RSE.ownOf
  rw [h.eq, get?_setAgent (me := me) (ag := { ag with newStrategy := oν }) hid a, h.planned.agents]
  by_cases hb : a = me
  · subst hb; simp [ha]
  · simp [hb]

theorem StepPlan.bound {n : Nat} {s s' s₁ : State F} {me : Nat} {ag : Agent F} {σ : Strategy F} {oν : Option (Strategy F)} (h : StepPlan n s s' me ag σ oν s₁)
    (hi : Inv n s) (ha : s.agents.get? me = some ag) (hσ : ag.strategy = some σ) {a pid : Nat} (hb : Bound a s pid) : Bound a s' pid := by
  have hid : ag.id = me := hi.core.agentId _ _ ha
  rcases hb with ho | hd
  · left; rw [h.ownOf hid ha]; exact ho
  · right
    refine ⟨?_, ?_, ?_⟩
    · rw [h.eq]; exact hd.le.trans h.planned.idSeq_le
    · rw [h.eq]; change s₁.pools.get? pid = none; rw [h.planned.pools]; exact hd.closed
    · intro b
      by_cases hbm : b = me
      · subst hbm
        have hg : s'.agents.get? b = some { ag with newStrategy := oν } := by
          rw [h.eq, get?_setAgent (me := b) (ag := { ag with newStrategy := oν }) hid b, if_pos rfl]
        cases hs : stgOf s' b pid with
        | none => rfl
        | some q =>
          exfalso
          cases hoν : oν with
          | none => rw [stgOf_settled hg hoν] at hs; cases hs
          | some ν =>
            rw [stgOf_eq hg hoν] at hs
            obtain ⟨-, -, ⟨r₀, q, c, m, s₂, e1, -⟩ | ⟨e1, -⟩⟩ := (h.new ν hoν).drafts pid q hs
            · have := (hi.owned ha hσ e1).1
              rw [hd.closed] at this; cases this
            · exact absurd hd.le (by omega)
      · have : stgOf s' b pid = stgOf s b pid := by
          unfold stgOf
          rw [h.eq, get?_setAgent (me := me) (ag := { ag with newStrategy := oν }) hid b, h.planned.agents, if_neg hbm]
        rw [this]; exact hd.unstaged b

theorem Did.bound {n : Nat} {t : Prop} {s s' : State F} {ev : Event F} (hd : Did n t s ev s') (h : Inv n s) {a pid : Nat} (hb : Bound a s pid) :
    Bound a s' pid := by
  have idle : ∀ {s : State F} (b : Bool), Bound a s pid → Bound a { s with idle := b } pid := by
    rintro s b (h | h)
    · exact Or.inl h
    · exact Or.inr ⟨h.le, h.closed, h.unstaged⟩
  cases hd with
  | idle => exact hb
  | plan me ord ag σ oν s₁ s' ha hp hσ hpm hpl => exact hpl.bound h ha hσ hb
  | move me ord ag σ ν s₁ s₂ s₃ ha hp hσ hpm hpl hsim ht hex hd =>
    have hid := h.core.agentId me ag ha
    have hg : s₂.agents.get? me = some { ag with newStrategy := some ν } := by
      rw [hpl.eq, get?_setAgent (me := me) (ag := { ag with newStrategy := some ν }) hid me, if_pos rfl]
    exact idle _ (hd.bound hpl.inv hg rfl (hpl.bound h ha hσ hb))
  | skip => exact hb
  | adv me ord ag σ ν s₃ ha hσ hν hex hd => exact idle _ (hd.bound h ha hν hb)
  | phase p s' hp hc =>
    rcases hb with ho | hd
    · left; unfold ownOf; rw [hp.agents]; exact ho
    · right
      refine ⟨by rw [hp.idSeq]; exact hd.le, by rw [hp.pools]; exact hd.closed, ?_⟩
      intro a; unfold stgOf; rw [hp.agents]; exact hd.unstaged a
  | roundEnd => exact idle _ hb

end RSE
