import Verif.Lemmas.Phase
import Verif.Spec.Sim

/-!
# Invariants of all reachable states
-/

set_option linter.unusedSectionVars false

namespace RSE

variable {F : Type} [LinearOrder F] [Zero F] [One F] [Add F] [Sub F] [Mul F] [Div F] [Neg F] [NatCast F] [FSum F]

/-- what never changes about an agent -/
def Agent.fixed (a : Agent F) : Nat × F × F × Profile := (a.id, a.stake, a.cost, a.profile)

/-- the agents of two states agree in everything but their strategies, and the constants of the simulation agree -/
structure Fixed (s s' : State F) : Prop where
  agents : ∀ b, (s'.agents.get? b).map Agent.fixed = (s.agents.get? b).map Agent.fixed
  totalStake : s'.totalStake = s.totalStake
  simultaneous : s'.simultaneous = s.simultaneous
  idSeq : s.idSeq ≤ s'.idSeq

theorem Fixed.refl (s : State F) : Fixed s s := ⟨fun _ => rfl, rfl, rfl, le_rfl⟩
theorem Fixed.trans {s s' s'' : State F} (h : Fixed s s') (g : Fixed s' s'') : Fixed s s'' :=
  ⟨fun b => (g.agents b).trans (h.agents b), g.totalStake.trans h.totalStake, g.simultaneous.trans h.simultaneous, h.idSeq.trans g.idSeq⟩

theorem Fixed.get {s s' : State F} (h : Fixed s s') {b : Nat} {ag' : Agent F} (hb : s'.agents.get? b = some ag') :
    ∃ ag, s.agents.get? b = some ag ∧ ag'.id = ag.id ∧ ag'.stake = ag.stake ∧ ag'.cost = ag.cost ∧ ag'.profile = ag.profile := by
  have := h.agents b
  rw [hb] at this
  cases h7 : s.agents.get? b with
  | none => rw [h7] at this; cases this
  | some ag₀ =>
    rw [h7] at this
    simp only [Option.map_some, Option.some.injEq, Agent.fixed, Prod.mk.injEq] at this
    exact ⟨ag₀, rfl, this⟩

theorem Fixed.isSome {s s' : State F} (h : Fixed s s') (b : Nat) : (s'.agents.get? b).isSome = (s.agents.get? b).isSome := by
  have := congrArg Option.isSome (h.agents b)
  simpa using this

theorem Executed.fixed {n : Nat} {s s' : State F} {me : Nat} {ν : Strategy F} (h : Executed n s s' me ν) : Fixed s s' := by
  have hf := h.frame
  refine ⟨fun b => ?_, by rw [hf], by rw [hf], by rw [hf]⟩
  by_cases hb : b = me
  · subst hb
    have := congrArg (Option.map (fun x : Nat × F × F × Profile × Option (Dict Ref) × Option (Dict Ref) => (x.1, x.2.1, x.2.2.1, x.2.2.2.1))) h.mine
    rw [Option.map_map, Option.map_map] at this
    exact this
  · have := congrArg (Option.map (fun x : Nat × F × F × Profile × Option (Dict Ref) × Option (Dict Ref) => (x.1, x.2.1, x.2.2.1, x.2.2.2.1))) (h.others b hb)
    rw [Option.map_map, Option.map_map] at this
    exact this

theorem StepPlan.fixed {n : Nat} {s s' s₁ : State F} {me : Nat} {ag : Agent F} {σ : Strategy F} {oν : Option (Strategy F)} (h : StepPlan n s s' me ag σ oν s₁)
    (hid : ag.id = me) (ha : s.agents.get? me = some ag) : Fixed s s' := by
  refine ⟨fun b => ?_, ?_, ?_, ?_⟩
  · rw [h.eq, get?_setAgent (me := me) (ag := { ag with newStrategy := oν }) hid b, h.planned.agents]
    by_cases hb : b = me
    · subst hb; simp [ha, Agent.fixed]
    · simp [hb]
  · rw [h.eq]; exact h.planned.totalStake
  · rw [h.eq]; exact h.planned.simultaneous
  · rw [h.eq]; exact h.planned.idSeq_le

/-- errors of an event -/
def EventErr (t : Prop) (ev : Event F) (e : Err) : Prop := TurnErr t e ∨ (e = .value ∧ ∃ p, ev = .phase p ∧ p.k = some 0)

/-- Each event in terms of planning and executing. -/
inductive Did (n : Nat) (t : Prop) (s : State F) : Event F → State F → Prop
  | idle (me ord ag) (ha : s.agents.get? me = some ag) (hp : ag.profile = .abstainer) : Did n t s (.step me ord) s
  | plan (me ord ag σ oν s₁ s') (ha : s.agents.get? me = some ag) (hp : ag.profile ≠ .abstainer) (hσ : ag.strategy = some σ)
      (hpm : planMove ord s ag σ = .ok (s₁, oν)) (h : StepPlan n s s' me ag σ oν s₁) (hsim : s.simultaneous = true ∨ oν = none)
      (ht : t → SeqInv s') : Did n t s (.step me ord) s'
  | move (me ord ag σ ν s₁ s₂ s₃) (ha : s.agents.get? me = some ag) (hp : ag.profile ≠ .abstainer) (hσ : ag.strategy = some σ)
      (hpm : planMove ord s ag σ = .ok (s₁, some ν)) (h : StepPlan n s s₂ me ag σ (some ν) s₁) (hsim : s.simultaneous = false)
      (ht : t → SeqInv s₂ ∧ Staged s₂ me σ ν) (hex : executeStrategy ord s₂ me = .ok s₃)
      (hd : Executed n s₂ s₃ me ν) (hinv : Inv n { s₃ with idle := false }) (hds : t → ExecutedSeq s₂ s₃ me σ ν) :
      Did n t s (.step me ord) { s₃ with idle := false }
  | skip (me ord ag) (ha : s.agents.get? me = some ag) (hp : ag.newStrategy = none) : Did n t s (.advance me ord) s
  | adv (me ord ag σ ν s₃) (ha : s.agents.get? me = some ag) (hσ : ag.strategy = some σ)
      (hν : ag.newStrategy = some ν) (hex : executeStrategy ord s me = .ok s₃)
      (hd : Executed n s s₃ me ν) (hinv : Inv n { s₃ with idle := false }) (ht : ¬ t) :
      Did n t s (.advance me ord) { s₃ with idle := false }
  | phase (p s') (h : Phased s s') (hc : Core n s') (hrs : s'.rs = phaseRS s.rs p) (hk : p.k ≠ some 0) : Did n t s (.phase p) s'
  | roundEnd : Did n t s .roundEnd { s with idle := true }

theorem exec_did (hmin : (0 : F) < minUnit) {n m : Nat} {s : State F} (h : Inv n s) {ev : Event F} (hv : ev.Valid m)
    (hm : ∀ a < m, (s.agents.get? a).isSome) {t : Prop} (hq : t → SeqInv s ∧ Settled s) :
    Sat (EventErr t ev) (exec s ev) (fun s' => Did n t s ev s') := by
  cases ev with
  | step me ord =>
    obtain ⟨ag, ha⟩ := Option.isSome_iff_exists.1 (hm me hv.1)
    have hord := hv.2
    change Sat _ (agentStep ord s me) _
    unfold agentStep
    have hid : ag.id = me := h.core.agentId _ _ ha
    refine Sat.bind ((updateStrategy_spec h hord ha (fun htt => (hq htt).1)).mono (fun _ he => Or.inl he) (fun _ h => h)) ?_
    rintro s₁ (⟨hprof, rfl⟩ | ⟨hprof, σ, oν, s₂, hσ, hpl, hpm, hseq⟩)
    · split
      · exact Did.idle me ord ag ha hprof
      · have hnone := (h.abst _ _ ha hprof).2
        refine ((advance_spec hmin h hord ha (fun htt => (hq htt).1) ?_).mono (fun _ he => Or.inl (Or.inr he)) (fun _ h => h)).imp ?_
        · intro htt σ ν _ hν; rw [hnone] at hν; cases hν
        · rintro s' (⟨-, rfl⟩ | ⟨σ, ν, s₁, -, hν, -⟩)
          · exact Did.idle me ord ag ha hprof
          · rw [hnone] at hν; cases hν
    · have hget : ∀ b, s₁.agents.get? b = if b = me then some { ag with newStrategy := oν } else s.agents.get? b := by
        intro b; rw [hpl.eq, get?_setAgent (me := me) (ag := { ag with newStrategy := oν }) hid b, hpl.planned.agents]
      have hsimeq : s₁.simultaneous = s.simultaneous := by rw [hpl.eq]; exact hpl.planned.simultaneous
      split
      · rename_i hsim
        exact Did.plan me ord ag σ oν s₂ s₁ ha hprof hσ hpm hpl (Or.inl (hsimeq ▸ hsim)) (fun htt => (hseq htt).1)
      · rename_i hsim
        have hsim' : s.simultaneous = false := by rw [← hsimeq]; simpa using hsim
        have ha1 : s₁.agents.get? me = some { ag with newStrategy := oν } := by rw [hget, if_pos rfl]
        refine ((advance_spec hmin hpl.inv hord ha1 (fun htt => (hseq htt).1) ?_).mono (fun _ he => Or.inl (Or.inr he)) (fun _ h => h)).imp ?_
        · intro htt σ' ν hσ' hν
          simp only at hσ' hν
          rw [hσ] at hσ'; cases hσ'
          exact (hseq htt).2 ν hν
        · rintro s' (⟨hnone, rfl⟩ | ⟨σ', ν, s₃, k1, k2, k3, rfl, hex, hinv, hsq⟩)
          · exact Did.plan me ord ag σ oν s₂ s' ha hprof hσ hpm hpl (Or.inr hnone) (fun htt => (hseq htt).1)
          · simp only at k1 k2
            rw [hσ] at k1; cases k1; subst k2
            exact Did.move me ord ag σ ν s₂ s₁ s₃ ha hprof hσ hpm hpl hsim' (fun htt => ⟨(hseq htt).1, (hseq htt).2 ν rfl⟩) k3 hex hinv (fun htt => (hsq htt).1)
  | advance me ord =>
    obtain ⟨ag, ha⟩ := Option.isSome_iff_exists.1 (hm me hv.1)
    have hord := hv.2
    change Sat _ (advance ord s me) _
    refine ((advance_spec hmin h hord ha (t := t) (fun htt => (hq htt).1) ?_).mono (fun _ he => Or.inl (Or.inr he)) (fun _ h => h)).imp ?_
    · intro htt σ' ν hσ' hν
      rw [(hq htt).2 _ _ ha] at hν; cases hν
    · rintro s' (⟨hnone, rfl⟩ | ⟨σ', ν, s₃, k1, k2, k3, rfl, hex, hinv, hsq⟩)
      · exact Did.skip me ord ag ha hnone
      · refine Did.adv me ord ag σ' ν s₃ ha k1 k2 k3 hex hinv (fun htt => ?_)
        rw [(hq htt).2 _ _ ha] at k2; cases k2
  | phase p =>
    change Sat _ (changePhase s p) _
    exact (changePhase_spec h.core p).mono (fun e he => Or.inr ⟨he.1, p, rfl, he.2⟩) (fun s' hs' => Did.phase p s' hs'.2.1 hs'.1 hs'.2.2.1 hs'.2.2.2)
  | roundEnd => exact Did.roundEnd

theorem Did.inv {n : Nat} {t : Prop} {s s' : State F} {ev : Event F} (hd : Did n t s ev s') (h : Inv n s) : Inv n s' := by
  cases hd with
  | idle => exact h
  | plan me ord ag σ oν s₁ s' ha hp hσ hpm hpl => exact hpl.inv
  | move => assumption
  | skip => exact h
  | adv => assumption
  | phase p s' hp hc => exact hp.inv hc h
  | roundEnd => exact h.setIdle true

theorem Did.seqInv {n : Nat} {t : Prop} {s s' : State F} {ev : Event F} (hd : Did n t s ev s') (h : Inv n s) (hq : t → SeqInv s ∧ Settled s) :
    t → SeqInv s' ∧ Settled s' := by
  cases hd with
  | idle => exact hq
  | plan me ord ag σ oν s₁ s' ha hp hσ hpm hpl hsim ht =>
    intro htt
    refine ⟨ht htt, ?_⟩
    have hn : oν = none := by
      rcases hsim with hsim | hn
      · rw [(hq htt).1.seq] at hsim; cases hsim
      · exact hn
    intro b ag' hb
    rw [hpl.eq, get?_setAgent (me := me) (ag := { ag with newStrategy := oν }) (h.core.agentId me ag ha) b, hpl.planned.agents] at hb
    split at hb
    · cases hb; exact hn
    · exact (hq htt).2 b ag' hb
  | move me ord ag σ ν s₁ s₂ s₃ ha hp hσ hpm hpl hsim ht hex hd hinv hds =>
    intro htt
    refine ⟨(hds htt).inv.setIdle false, ?_⟩
    refine hd.settled ?_
    intro b ag' hne hb
    rw [hpl.eq, get?_setAgent (me := me) (ag := { ag with newStrategy := some ν }) (h.core.agentId me ag ha) b, hpl.planned.agents, if_neg hne] at hb
    exact (hq htt).2 b ag' hb
  | skip => exact hq
  | adv me ord ag σ ν s₃ ha hσ hν hex hd hinv ht => exact fun htt => absurd htt ht
  | phase p s' hp hc =>
    intro htt
    refine ⟨hp.seqInv (hq htt).1, ?_⟩
    intro b ag hb
    rw [hp.agents] at hb
    exact (hq htt).2 b ag hb
  | roundEnd => exact fun htt => ⟨(hq htt).1.setIdle true, (hq htt).2⟩

theorem Did.fixed {n : Nat} {t : Prop} {s s' : State F} {ev : Event F} (hd : Did n t s ev s') (h : Inv n s) : Fixed s s' := by
  cases hd with
  | idle => exact Fixed.refl _
  | plan me ord ag σ oν s₁ s' ha hp hσ hpm hpl => exact hpl.fixed (h.core.agentId _ _ ha) ha
  | move me ord ag σ ν s₁ s₂ s₃ ha hp hσ hpm hpl hsim ht hex hd =>
    have := (hpl.fixed (h.core.agentId _ _ ha) ha).trans hd.fixed
    exact ⟨this.agents, this.totalStake, this.simultaneous, this.idSeq⟩
  | skip => exact Fixed.refl _
  | adv me ord ag σ ν s₃ ha hσ hν hex hd => exact ⟨hd.fixed.agents, hd.fixed.totalStake, hd.fixed.simultaneous, hd.fixed.idSeq⟩
  | phase p s' hp hc => exact ⟨fun b => by rw [hp.agents], hp.totalStake, hp.simultaneous, hp.idSeq.ge⟩
  | roundEnd => exact ⟨fun _ => rfl, rfl, rfl, le_rfl⟩

/-- everything that is known about a state of a simulation -/
structure Good (c : Config F) (s : State F) : Prop where
  inv : Inv (c.rs.k + 1) s
  seq : c.simultaneous = false → SeqInv s ∧ Settled s
  fixed : Fixed (initState c) s

theorem init_good (c : Config F) : Good c (initState c) :=
  ⟨init_inv c, fun h => ⟨init_seq c h, init_settled c⟩, Fixed.refl _⟩

theorem isSome_init (c : Config F) {a : Nat} (h : a < c.people.length) : ((initState c).agents.get? a).isSome := by
  have : a ∈ (initState c).agents.keys := by rw [keys_init]; exact List.mem_range.2 h
  obtain ⟨v, hv⟩ := Dict.mem_keys_iff.1 this
  rw [hv]; rfl

theorem Good.exec (hmin : (0 : F) < minUnit) {c : Config F} {s : State F} (h : Good c s) {ev : Event F} (hv : ev.Valid c.people.length) :
    Sat (EventErr (c.simultaneous = false) ev) (exec s ev) (fun s' => Did (c.rs.k + 1) (c.simultaneous = false) s ev s' ∧ Good c s') := by
  refine (exec_did hmin h.inv hv (fun a ha => ?_) h.seq).imp (fun s' hd => ⟨hd, hd.inv h.inv, hd.seqInv h.inv h.seq, h.fixed.trans (hd.fixed h.inv)⟩)
  rw [h.fixed.isSome]; exact isSome_init c ha

/-- induction over the states of simulations -/
theorem iterM_induct {α σ : Type} {f : σ → α → Py σ} {P : σ → Prop} {V : α → Prop} (hstep : ∀ s a s', P s → V a → f s a = .ok s' → P s')
    {s s' : σ} {l : List α} (hs : P s) (hl : ∀ a ∈ l, V a) (h : iterM f s l = .ok s') : P s' := by
  induction l generalizing s with
  | nil => cases h; exact hs
  | cons a t ih =>
    simp only [iterM] at h
    cases hx : f s a with
    | error e => rw [hx] at h; cases h
    | ok s₁ =>
      rw [hx] at h
      exact ih (hstep s a s₁ hs (hl a (by simp)) hx) (fun b hb => hl b (List.mem_cons_of_mem _ hb)) h

theorem Reachable.good (hmin : (0 : F) < minUnit) {c : Config F} {s : State F} (h : Reachable c s) : Good c s := by
  obtain ⟨es, hv, he⟩ := h
  refine iterM_induct (P := Good c) (V := Event.Valid c.people.length) ?_ (init_good c) hv he
  intro s ev s' hs hv he
  have := hs.exec hmin hv
  rw [he] at this
  exact this.2

/-- an invariant of all reachable states, given that every event preserves it -/
theorem Reachable.induct (hmin : (0 : F) < minUnit) {c : Config F} {P : State F → Prop} (h0 : P (initState c))
    (hstep : ∀ s ev s', Good c s → Good c s' → P s → ev.Valid c.people.length → exec s ev = .ok s' → Did (c.rs.k + 1) (c.simultaneous = false) s ev s' → P s')
    {s : State F} (h : Reachable c s) : P s := by
  obtain ⟨es, hv, he⟩ := h
  refine (iterM_induct (P := fun s => Good c s ∧ P s) (V := Event.Valid c.people.length) ?_ ⟨init_good c, h0⟩ hv he).2
  rintro s ev s' ⟨hs, hp⟩ hv he
  have := hs.exec hmin hv
  rw [he] at this
  exact ⟨this.2, hstep s ev s' hs this.2 hp hv he this.1⟩

theorem iterM_append {α σ : Type} (f : σ → α → Py σ) (s : σ) (l l' : List α) :
    iterM f s (l ++ l') = (iterM f s l).bind (fun s' => iterM f s' l') := by
  induction l generalizing s with
  | nil => rfl
  | cons a t ih =>
    simp only [List.cons_append, iterM]
    cases f s a with
    | error e => rfl
    | ok s₁ => exact ih s₁

theorem Reachable.next {c : Config F} {s s' : State F} {ev : Event F} (h : Reachable c s) (hv : ev.Valid c.people.length) (he : exec s ev = .ok s') :
    Reachable c s' := by
  obtain ⟨es, h1, h2⟩ := h
  refine ⟨es ++ [ev], ?_, ?_⟩
  · intro e he; rcases List.mem_append.1 he with he | he
    · exact h1 e he
    · simp at he; subst he; exact hv
  · rw [iterM_append, h2]; simp [Except.bind, iterM, he, bind]

theorem says_iff {s : State F} {b pid : Nat} {x : F} : Says s b pid x ↔ allocOf s b pid = some x := by
  unfold Says allocOf
  cases h : s.agents.get? b with
  | none => simp
  | some ag =>
    cases h2 : ag.strategy with
    | none => simp [h2]
    | some σ => simp [h2]

theorem operates_iff {s : State F} {a pid : Nat} {r : Ref} : Operates s a pid r ↔ ownOf s a pid = some r := by
  unfold Operates ownOf
  cases h : s.agents.get? a with
  | none => simp
  | some ag =>
    cases h2 : ag.strategy with
    | none => simp [h2]
    | some σ => simp [h2]

end RSE
