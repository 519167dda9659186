import Verif.Lemmas.Twin
import Verif.Props.BatchRow

/-!
# C80: a reported equilibrium is a fixed point

An agent that keeps its strategy has still planned: it has created pools that nobody can reach, and ids have been handed out.  `Lemmas/Twin.lean`
shows that its next plan is the same up to a renaming of these.  So an agent that rests once rests again as long as nothing that can be seen changes
(`Rests.again`), and a round in which everyone rests is a fixed point of the simulation.

The set iteration order `ord` is the same in all rounds: with another order an agent may well find another plan of equal value.

The hypothesis `hpiv` of `C80_reported_equilibrium` excludes runs that stop immediately after a change of phase.  For these the claim fails: the report
is then about the rounds of the phase before (`C34_stale_equilibrium`).
-/

set_option linter.unusedSectionVars false

namespace RSE.Props

section Any
variable {F : Type} [LinearOrder F] [Zero F] [One F] [Add F] [Sub F] [Mul F] [Div F] [Neg F] [NatCast F] [FSum F]

/-- nothing that can be seen changed, and ids were only handed out -/
def Quiet (s t : State F) : Prop := Calm s t ∧ s.idSeq ≤ t.idSeq

theorem Quiet.refl (s : State F) : Quiet s s := ⟨Calm.refl s, le_rfl⟩
theorem Quiet.trans {s t u : State F} (h : Quiet s t) (g : Quiet t u) : Quiet s u := ⟨h.1.trans g.1, h.2.trans g.2⟩

theorem rank_pool {κ : Type} {n : Nat} {z : κ} {key : Pool F → κ} {s : State F} {l : List (κ × Option Ref)}
    (hp : l.Perm (rankEntries n z key s.pools s.heap)) {r : Ref} (hr : some r ∈ l.map Prod.snd) : ∃ e ∈ s.pools, e.2 = r := by
  obtain ⟨e, he, hee⟩ := List.mem_map.1 hr
  rcases List.mem_append.1 (hp.mem_iff.1 he) with h1 | h1
  · have := List.eq_of_mem_replicate h1
    subst this; cases hee
  · obtain ⟨x, hx, rfl⟩ := List.mem_map.1 h1
    exact ⟨x, hx, by cases hee; rfl⟩

theorem get?_of_perm {V : Type} {d d' : Dict V} (h : d.keys.Nodup) (hp : d.Perm d') (k : Nat) : d.get? k = d'.get? k := by
  cases hg : d'.get? k with
  | some v => exact Dict.get?_of_mem h (hp.mem_iff.2 (Dict.mem_of_get? hg))
  | none =>
    rw [Dict.get?_eq_none] at hg ⊢
    exact fun hm => hg ((hp.map _).mem_iff.1 hm)

/-- two states that agree but for their agents, new pools, ids handed out and the order of delegators are twins -/
theorem twin_of {n m : Nat} {s t : State F} (heq : t = { s with heap := t.heap, next := t.next, idSeq := t.idSeq, agents := t.agents })
    (hnext : s.next ≤ t.next) (hseq : s.idSeq ≤ t.idSeq) (halike : ∀ r < s.next, Alike (s.heap r) (t.heap r))
    (hdels : ∀ r < s.next, (t.heap r).delegators.Perm (s.heap r).delegators) (hs : Core n s) (ht : Core m t) :
    Twin ⟨s.next, t.next - s.next, s.idSeq, t.idSeq - s.idSeq⟩ s t := by
  have hold : ∀ pid r, s.pools.get? pid = some r → Old (⟨s.next, t.next - s.next, s.idSeq, t.idSeq - s.idSeq⟩ : Shift) s r := by
    intro pid r hr
    obtain ⟨h1, h2, -, h3⟩ := hs.poolRef pid r hr
    exact ⟨h1, by rw [h2]; exact h3⟩
  refine ⟨?_, le_rfl, le_rfl, ?_, fun pid r hr => ⟨hold pid r hr, (hs.poolRef pid r hr).2.1⟩, ?_, ?_⟩
  · simp only
    rw [Nat.add_sub_cancel' hnext, Nat.add_sub_cancel' hseq]
    exact heq
  · intro r hr hro
    have hr' : r < s.next := hr
    have hid : (s.heap r).id ≤ s.idSeq := hro hr'
    rw [Shift.ref_old (h := ⟨s.next, t.next - s.next, s.idSeq, t.idSeq - s.idSeq⟩) hr]
    have ha := (halike r hr')
    refine ⟨?_, ha.same.cost, ha.same.pledge, ha.stake, ha.same.owner, ha.same.isPrivate, ha.same.pp, ha.same.margin, ha.same.des,
      hs.delNodup r, ht.delNodup r, ?_⟩
    · rw [Shift.pid_old (h := ⟨s.next, t.next - s.next, s.idSeq, t.idSeq - s.idSeq⟩) hid]; exact ha.same.id
    · intro b
      exact get?_of_perm (ht.delNodup r) (hdels r hr') b
  · intro r hr
    obtain ⟨e, he, rfl⟩ := rank_pool hs.rankPerm hr
    exact hold e.1 e.2 (Dict.get?_of_mem hs.poolsNodup he)
  · intro r hr
    obtain ⟨e, he, rfl⟩ := rank_pool hs.rankMPerm hr
    exact hold e.1 e.2 (Dict.get?_of_mem hs.poolsNodup he)

theorem Quiet.twin {n m : Nat} {s t : State F} (h : Quiet s t) (hs : Core n s) (ht : Core m t) :
    Twin ⟨s.next, t.next - s.next, s.idSeq, t.idSeq - s.idSeq⟩ s t :=
  twin_of (by rw [h.1.eq]) h.1.next_le h.2 h.1.alike h.1.dels hs ht

/-- an agent that is asked in this state keeps its strategy -/
def Rests (ord : List Nat → List Nat) (s : State F) (a : Nat) : Prop :=
  ∃ ag, s.agents.get? a = some ag ∧ (ag.profile = .abstainer ∨ ∃ σ s₁, ag.strategy = some σ ∧ planMove ord s ag σ = .ok (s₁, none))

/-- if an agent rests, it also rests in every later state that looks the same, as long as planning leaves no trace -/
theorem Rests.again_of (hmin : (0 : F) < minUnit) {c : Config F} (hc : c.simultaneous = false) {s t : State F} (hs : Reachable c s) (ht : Reachable c t) (hq : Quiet s t)
    {ord : List Nat → List Nat} (hord : ∀ l, (ord l).Perm l) {a : Nat} (hlt : a < c.people.length)
    (hr : Rests ord s a)
    (hplan : ∀ ag σ t₁ oν, t.agents.get? a = some ag → ag.strategy = some σ → planMove ord t ag σ = .ok (t₁, oν) → Calm t t₁) :
    ∃ t', exec t (.step a ord) = .ok t' ∧ Quiet t t' ∧ t'.idle = t.idle := by
  obtain ⟨ag, ha, hag⟩ := hr
  have hg := ht.good hmin
  have hta : t.agents.get? a = some ag := by rw [hq.1.agents]; exact ha
  have hnew : ag.newStrategy = none := (hg.seq hc).2 a ag hta
  have hid := hg.inv.core.agentId a ag hta
  have hsim : t.simultaneous = false := by rw [hg.fixed.simultaneous]; exact hc
  have hadv : ∀ u : State F, u.agents.get? a = some ag → advance ord u a = .ok u := by
    intro u hu
    unfold advance
    rw [Dict.getE_of hu]
    simp only [bind, Except.bind, hnew]
    rfl
  rcases hag with hp | ⟨σ, s₁, hσ, hpm⟩
  · refine ⟨t, ?_, Quiet.refl t, rfl⟩
    change agentStep ord t a = _
    unfold agentStep updateStrategy
    rw [Dict.getE_of hta]
    simp only [bind, Except.bind, hp, pure, Except.pure, hsim]
    exact hadv t hta
  · by_cases hp : ag.profile = .abstainer
    · have := (hg.inv.abst a ag hta hp).1
      rw [hσ] at this; cases this
    have htw := hq.twin (hs.good hmin).inv.core hg.inv.core
    have hown : ∀ e ∈ σ.owned, s.pools.get? e.1 = some e.2 := by
      intro e he
      have hsg := hs.good hmin
      have hn := (hsg.inv.tidy a ag ha).owned _ hσ
      exact ((hsg.inv.owned ha hσ (Dict.get?_of_mem hn he)).1)
    have hrel := planMove_twin htw ord ag hown
    rw [hpm] at hrel
    cases hpt : planMove ord t ag σ with
    | error e => rw [hpt] at hrel; exact hrel.elim
    | ok o =>
      obtain ⟨t₁, oν⟩ := o
      rw [hpt] at hrel
      have hn : oν = none := hrel.2
      subst hn
      have hcalm := hplan ag σ t₁ none hta hσ hpt
      have hset : t₁.setAgent { ag with newStrategy := none } = t₁ := by
        have h2 : ({ ag with newStrategy := none } : Agent F) = ag := by rw [← hnew]
        rw [h2]
        unfold State.setAgent
        rw [hid, Dict.set_same (by rw [hcalm.agents]; exact hta)]
      rw [hσ] at hset
      have hup : updateStrategy ord t a = .ok t₁ := by
        unfold updateStrategy
        rw [Dict.getE_of hta]
        cases hpr : ag.profile with
        | abstainer => exact absurd hpr hp
        | nonMyopic => simp only [bind, Except.bind, hσ, hpt, pure, Except.pure, hset]
        | myopic => simp only [bind, Except.bind, hσ, hpt, pure, Except.pure, hset]
      have hex : exec t (.step a ord) = .ok t₁ := by
        change agentStep ord t a = _
        unfold agentStep
        rw [hup]
        have h3 : t₁.simultaneous = false := by rw [hcalm.eq]; exact hsim
        simp only [bind, Except.bind, h3]
        exact hadv t₁ (by rw [hcalm.agents]; exact hta)
      refine ⟨t₁, hex, ⟨hcalm, ?_⟩, by rw [hcalm.eq]⟩
      have hd := hg.exec hmin (ev := .step a ord) ⟨hlt, hord⟩
      rw [hex] at hd
      exact (hd.1.fixed hg.inv).idSeq

/-- the round with `BaseScheduler` or `RandomActivation`, as events -/
theorem round_steps (ord : List Nat → List Nat) (order : List Nat) (s : State F) :
    roundSequential (fun _ => ord) order s = iterM exec s (order.map (fun a => Event.step a ord)) := by
  unfold roundSequential
  have h1 : order = order.zipIdx.map Prod.fst := (List.zipIdx_map_fst _ _).symm
  conv_rhs => rw [h1, List.map_map, iterM_map]
  rfl

theorem LooksSame.refl (s : State F) : LooksSame s s := ⟨rfl, fun _ r _ => ⟨(s.heap r).delegators, List.Perm.refl _, rfl⟩⟩

theorem LooksSame.trans {s t u : State F} (h : LooksSame s t) (g : LooksSame t u) : LooksSame s u := by
  refine ⟨by rw [g.rest, h.rest], fun pid r hr => ?_⟩
  obtain ⟨ds, h1, h2⟩ := h.pool pid r hr
  obtain ⟨es, g1, g2⟩ := g.pool pid r (by rw [h.rest]; exact hr)
  refine ⟨es, ?_, by rw [g2, h2]⟩
  rw [h2] at g1
  exact g1.trans h1

theorem LooksSame.symm {s t : State F} (h : LooksSame s t) : LooksSame t s := by
  refine ⟨by rw [h.rest], fun pid r hr => ?_⟩
  obtain ⟨ds, h1, h2⟩ := h.pool pid r (by rw [h.rest] at hr; exact hr)
  refine ⟨(s.heap r).delegators, ?_, by rw [h2]⟩
  rw [h2]
  exact h1.symm

variable {R : Type}

/-- the environment of runs with sequential or random activation -/
abbrev seqEnv (ord : List Nat → List Nat) (order : Nat → List Nat) (report : State F → Py R) (conv : Int) (totalPhases : Nat)
    (phases : Nat → PhaseParams F) : Env (State F) R :=
  simEnv (seqRounds (fun _ _ => ord) order) report conv totalPhases phases (fun _ => none)

end Any

variable {K : Type} [Field K] [LinearOrder K] [IsStrictOrderedRing K]

/-- if an agent rests, it also rests in every later state that looks the same -/
theorem Rests.again {c : Config K} (hc : c.simultaneous = false) {s t : State K} (hs : Reachable c s) (ht : Reachable c t) (hq : Quiet s t)
    {ord : List Nat → List Nat} (hord : ∀ l, (ord l).Perm l) {a : Nat} (hlt : a < c.people.length)
    (hr : Rests ord s a) :
    ∃ t', exec t (.step a ord) = .ok t' ∧ Quiet t t' ∧ t'.idle = t.idle :=
  hr.again_of minUnit_pos hc hs ht hq hord hlt (fun _ _ _ _ hta hσ hpt => (ht.plan_calm hc hta hσ hord hpt).1)

/-- every agent rests, here or in an earlier state that looked the same -/
def Resting (c : Config K) (ord : List Nat → List Nat) (t : State K) : Prop :=
  Reachable c t ∧ ∀ a < c.people.length, ∃ s, Reachable c s ∧ Quiet s t ∧ Rests ord s a

theorem Resting.step {c : Config K} (hc : c.simultaneous = false) {ord : List Nat → List Nat} (hord : ∀ l, (ord l).Perm l) {t : State K}
    (h : Resting c ord t) {a : Nat} (ha : a < c.people.length) :
    ∃ t', exec t (.step a ord) = .ok t' ∧ Quiet t t' ∧ t'.idle = t.idle ∧ Resting c ord t' := by
  obtain ⟨s, hs, hq, hr⟩ := h.2 a ha
  obtain ⟨t', he, hq', hi⟩ := hr.again hc hs h.1 hq hord ha
  refine ⟨t', he, hq', hi, h.1.next (ev := .step a ord) ⟨ha, hord⟩ he, fun b hb => ?_⟩
  obtain ⟨s', h1, h2, h3⟩ := h.2 b hb
  exact ⟨s', h1, h2.trans hq', h3⟩

theorem Resting.steps {c : Config K} (hc : c.simultaneous = false) {ord : List Nat → List Nat} (hord : ∀ l, (ord l).Perm l) (turns : List Nat) :
    ∀ {t : State K}, Resting c ord t → (∀ a ∈ turns, a < c.people.length) →
      ∃ t', iterM exec t (turns.map (fun a => Event.step a ord)) = .ok t' ∧ Quiet t t' ∧ t'.idle = t.idle ∧ Resting c ord t' := by
  induction turns with
  | nil => intro t h _; exact ⟨t, rfl, Quiet.refl t, rfl, h⟩
  | cons a l ih =>
    intro t h hv
    obtain ⟨t₁, h1, h2, h3, h4⟩ := h.step hc hord (hv a List.mem_cons_self)
    obtain ⟨t₂, g1, g2, g3, g4⟩ := ih h4 (fun b hb => hv b (List.mem_cons_of_mem _ hb))
    refine ⟨t₂, ?_, h2.trans g2, g3.trans h3, g4⟩
    simp only [List.map_cons, iterM, h1, bind, Except.bind]
    exact g1

/-- an idle sequence of turns -/
theorem idle_turns {c : Config K} (hc : c.simultaneous = false) {ord : List Nat → List Nat} (hord : ∀ l, (ord l).Perm l) (turns : List Nat) :
    ∀ {s t : State K}, Reachable c s → (∀ a ∈ turns, a < c.people.length) →
      iterM exec s (turns.map (fun a => Event.step a ord)) = .ok t → t.idle = true →
      s.idle = true ∧ Quiet s t ∧ Reachable c t ∧ ∀ a ∈ turns, ∃ s₀, Reachable c s₀ ∧ Quiet s₀ t ∧ Rests ord s₀ a := by
  induction turns with
  | nil => intro s t hs _ he hi; cases he; exact ⟨hi, Quiet.refl s, hs, by simp⟩
  | cons a l ih =>
    intro s t hs hv he hi
    simp only [List.map_cons, iterM] at he
    obtain ⟨s₁, h1, h2⟩ := bind_ok he
    have hva : (Event.step (F := K) a ord).Valid c.people.length := ⟨hv a List.mem_cons_self, hord⟩
    obtain ⟨hi1, hq1, hrt, hall⟩ := ih (hs.next hva h1) (fun b hb => hv b (List.mem_cons_of_mem _ hb)) h2 hi
    obtain ⟨hcalm, hag⟩ := turn_idle hc hs hva h1 hi1
    have hg := hs.good minUnit_pos
    have hd := hg.exec minUnit_pos hva
    rw [h1] at hd
    have hq0 : Quiet s s₁ := ⟨hcalm, (hd.1.fixed hg.inv).idSeq⟩
    refine ⟨exec_idle hs hva h1 hi1, hq0.trans hq1, hrt, ?_⟩
    intro b hb
    rcases List.mem_cons.1 hb with rfl | hb
    · exact ⟨s, hs, hq0.trans hq1, hag⟩
    · exact hall b hb

theorem Resting.rounds {c : Config K} (hc : c.simultaneous = false) {ord : List Nat → List Nat} (hord : ∀ l, (ord l).Perm l) (later : List (List Nat)) :
    ∀ {u : State K}, Resting c ord u → (∀ o ∈ later, ∀ a ∈ o, a < c.people.length) →
      ∃ t, iterM (fun u o => roundSequential (fun _ => ord) o u) u later = .ok t ∧ Quiet u t ∧ t.idle = u.idle := by
  induction later with
  | nil => intro u _ _; exact ⟨u, rfl, Quiet.refl u, rfl⟩
  | cons o os ih =>
    intro u hu hv
    obtain ⟨u₁, h1, h2, h3, h4⟩ := hu.steps hc hord o (hv o List.mem_cons_self)
    obtain ⟨u₂, g1, g2, g3⟩ := ih h4 (fun o' ho' => hv o' (List.mem_cons_of_mem _ ho'))
    refine ⟨u₂, ?_, h2.trans g2, g3.trans h3⟩
    simp only [iterM, round_steps, h1, bind, Except.bind]
    simp only [round_steps] at g1
    exact g1

/-- C80.  Sequential or random activation, exact arithmetic.  If a round in which every agent has a turn is idle, then all later rounds run without
an exception, are idle, and the state keeps looking the same, in whatever orders the agents act. -/
theorem C80_idle_forever {c : Config K} (hc : c.simultaneous = false) {ord : List Nat → List Nat} (hord : ∀ l, (ord l).Perm l)
    {s t : State K} (hs : Reachable c s) {order : List Nat} (hfull : ∀ a, a ∈ order ↔ a < c.people.length)
    (he : roundSequential (fun _ => ord) order s = .ok t) (hi : t.idle = true) (later : List (List Nat))
    (hl : ∀ o ∈ later, ∀ a ∈ o, a < c.people.length) :
    ∃ t', iterM (fun u o => roundSequential (fun _ => ord) o u) t later = .ok t' ∧ LooksSame t t' ∧ t'.idle = true := by
  rw [round_steps] at he
  obtain ⟨-, -, hrt, hall⟩ := idle_turns hc hord order hs (fun a ha => (hfull a).1 ha) he hi
  have hrest : Resting c ord t := ⟨hrt, fun a ha => hall a ((hfull a).2 ha)⟩
  obtain ⟨t', h1, h2, h3⟩ := hrest.rounds hc hord later hl
  exact ⟨t', h1, Calm.looksSame h2.1 (hrt.good minUnit_pos).inv.core, h3.trans hi⟩

/-! ### Whole runs -/

variable {R : Type}

/-- After every idle round that does not end a phase the state is at rest; so the next round of the phase is idle too. -/
theorem history_resting {c : Config K} (hc : c.simultaneous = false) {ord : List Nat → List Nat} (hord : ∀ l, (ord l).Perm l)
    {order : Nat → List Nat} (hfull : ∀ i a, a ∈ order i ↔ a < c.people.length) {report : State K → Py R} {conv : Int} {totalPhases : Nat}
    {phases : Nat → PhaseParams K} {h : List (Round (State K))} {w : State K}
    (hh : History (seqEnv ord order report conv totalPhases phases) (initState c) h w) :
    Reachable c w ∧ (∀ r ∈ h.getLast?, r.after.idle = true → r.phaseChange = false → Resting c ord w ∧ LooksSame r.after w ∧ w.idle = true) ∧
      ∀ i (hi : i + 1 < h.length), (h[i]).after.idle = true → (h[i]).phaseChange = false →
        (h[i + 1]).after.idle = true ∧ LooksSame (h[i]).after (h[i + 1]).after := by
  have hround : ∀ (i : Nat) (s s' : State K), Reachable c s → seqRounds (fun _ _ => ord) order i s = .ok s' →
      Reachable c s' ∧ (s'.idle = true → Resting c ord s') := by
    intro i s s' hs he
    have he' : iterM exec s ((order i).map (fun a => Event.step a ord)) = .ok s' := by rw [← round_steps]; exact he
    have hr' : Reachable c s' := rounds_reachable hs (by
      intro e he
      obtain ⟨a, ha, rfl⟩ := List.mem_map.1 he
      exact ⟨(hfull i a).1 ha, hord⟩) he'
    refine ⟨hr', fun hi => ?_⟩
    obtain ⟨-, -, -, hall⟩ := idle_turns hc hord (order i) hs (fun a ha => (hfull i a).1 ha) he' hi
    exact ⟨hr', fun a ha => hall a ((hfull i a).2 ha)⟩
  have hrearm : ∀ s : State K, s.idle = true → ({ s with idle := true } : State K) = s := by
    intro s hs; cases s; simp only at hs; subst hs; rfl
  have hend : ∀ s : State K, Reachable c s → Reachable c { s with idle := true } := by
    intro s hr
    exact rounds_reachable hr (es := [Event.roundEnd]) (by simp [Event.Valid]) rfl
  have hnext : ∀ (h : List (Round (State K))) (w₁ w₂ : State K) (b : Bool),
      (∀ r ∈ h.getLast?, r.after.idle = true → r.phaseChange = false → Resting c ord w₁ ∧ LooksSame r.after w₁ ∧ w₁.idle = true) →
      seqRounds (fun _ _ => ord) order h.length w₁ = .ok w₂ →
      (∀ i (hi : i + 1 < h.length), (h[i]).after.idle = true → (h[i]).phaseChange = false →
        (h[i + 1]).after.idle = true ∧ LooksSame (h[i]).after (h[i + 1]).after) →
      ∀ i (hi : i + 1 < (h ++ [(⟨w₁, w₂, b⟩ : Round (State K))]).length), ((h ++ [(⟨w₁, w₂, b⟩ : Round (State K))])[i]).after.idle = true →
        ((h ++ [(⟨w₁, w₂, b⟩ : Round (State K))])[i]).phaseChange = false →
        ((h ++ [(⟨w₁, w₂, b⟩ : Round (State K))])[i + 1]).after.idle = true ∧
          LooksSame ((h ++ [(⟨w₁, w₂, b⟩ : Round (State K))])[i]).after ((h ++ [(⟨w₁, w₂, b⟩ : Round (State K))])[i + 1]).after := by
    intro h w₁ w₂ b hlast he hprev i hi hidle hpc
    have hlen : (h ++ [(⟨w₁, w₂, b⟩ : Round (State K))]).length = h.length + 1 := by simp
    have hih : i < h.length := by omega
    rw [List.getElem_append_left hih] at hidle hpc ⊢
    by_cases hi2 : i + 1 < h.length
    · rw [List.getElem_append_left hi2]
      exact hprev i hi2 hidle hpc
    · have hie : i + 1 = h.length := by omega
      have hg : h.getLast? = some h[i] := by
        rw [List.getLast?_eq_getElem?, ← hie]; exact List.getElem?_eq_getElem hih
      obtain ⟨g1, g2, g3⟩ := hlast h[i] (by rw [hg]; rfl) hidle hpc
      have hel : (h ++ [(⟨w₁, w₂, b⟩ : Round (State K))])[i + 1] = ⟨w₁, w₂, b⟩ := by
        rw [List.getElem_append_right (by omega)]; simp [hie]
      rw [hel]
      obtain ⟨t', k1, k2, k3, -⟩ := g1.steps hc hord (order h.length) (fun a ha => (hfull _ a).1 ha)
      have he' : iterM exec w₁ ((order h.length).map (fun a => Event.step a ord)) = .ok w₂ := by rw [← round_steps]; exact he
      rw [he'] at k1
      cases k1
      refine ⟨k3.trans g3, ?_⟩
      have := Calm.looksSame k2.1 (g1.1.good minUnit_pos).inv.core
      exact g2.trans this
  induction hh with
  | start => exact ⟨⟨[], by simp, rfl⟩, by simp, by simp⟩
  | @round h w₁ w₂ hh he ih =>
    obtain ⟨ih1, ih2, ih3⟩ := ih
    obtain ⟨k1, k2⟩ := hround _ _ _ ih1 he
    refine ⟨hend _ k1, ?_, hnext h w₁ w₂ false ih2 he ih3⟩
    intro r hr hi _
    rw [List.getLast?_concat] at hr
    cases hr
    have hre : (seqEnv ord order report conv totalPhases phases).rearm w₂ = w₂ := hrearm w₂ hi
    rw [hre]
    exact ⟨k2 hi, LooksSame.refl _, hi⟩
  | @change h w₁ w₂ w₃ hh he hcp ih =>
    obtain ⟨ih1, ih2, ih3⟩ := ih
    obtain ⟨k1, k2⟩ := hround _ _ _ ih1 he
    refine ⟨hend _ ?_, ?_, hnext h w₁ w₂ true ih2 he ih3⟩
    · exact rounds_reachable k1 (es := [Event.phase (phases (changes h + 1))]) (by simp [Event.Valid]) (by
        change (RSE.changePhase w₂ (phases (changes h + 1))).bind Except.ok = Except.ok w₃
        change RSE.changePhase w₂ (phases (changes h + 1)) = Except.ok w₃ at hcp
        rw [hcp]; rfl)
    · intro r hr _ hpc
      rw [List.getLast?_concat] at hr
      cases hr; cases hpc

/-- C80, for runs (any number of phases).  Within a phase, an idle round is followed by idle rounds only, and the state looks the same after each
of them. -/
theorem C80_idle_stays {c : Config K} (hc : c.simultaneous = false) {ord : List Nat → List Nat} (hord : ∀ l, (ord l).Perm l)
    {order : Nat → List Nat} (hfull : ∀ i a, a ∈ order i ↔ a < c.people.length) {report : State K → Py R} {conv : Int} {totalPhases : Nat}
    {phases : Nat → PhaseParams K} {h : List (Round (State K))} {w : State K}
    (hh : History (seqEnv ord order report conv totalPhases phases) (initState c) h w) (i j : Nat) (hij : i ≤ j) (hj : j < h.length)
    (hphase : ∀ n (hn : n < h.length), i ≤ n → n < j → (h[n]).phaseChange = false) (hidle : (h[i]).Idle (seqEnv ord order report conv totalPhases phases)) :
    (h[j]).Idle (seqEnv ord order report conv totalPhases phases) ∧ LooksSame (h[i]).after (h[j]).after := by
  obtain ⟨-, -, key⟩ := history_resting hc hord hfull hh
  induction j with
  | zero =>
    have : i = 0 := by omega
    subst this
    exact ⟨hidle, LooksSame.refl _⟩
  | succ j ih =>
    by_cases hi : i = j + 1
    · subst hi; exact ⟨hidle, LooksSame.refl _⟩
    · obtain ⟨h1, h2⟩ := ih (by omega) (by omega) (fun n hn h1 h2 => hphase n hn h1 (by omega)) hidle
      obtain ⟨h3, h4⟩ := key j hj h1 (hphase j (by omega) (by omega) (by omega))
      exact ⟨h3, h2.trans h4⟩

/-- the end of a run that reports an equilibrium, if at least one round was played in the last phase -/
theorem reported {c : Config K} (hc : c.simultaneous = false) {ord : List Nat → List Nat} (hord : ∀ l, (ord l).Perm l)
    {order : Nat → List Nat} (hfull : ∀ i a, a ∈ order i ↔ a < c.people.length) {report : State K → Py R} {conv : Int} (h1 : 1 ≤ conv)
    {totalPhases : Nat} {phases : Nat → PhaseParams K} {m : Int} (h0 : 0 ≤ m) {fuel : Nat} {l : Loop (State K) R}
    (hl : Loop.runModel (seqEnv ord order report conv totalPhases phases) fuel (Loop.init (initState c) m) = .ok l)
    (hyes : l.exports = [true]) (hpiv : ∀ p ∈ l.pivots, p < l.steps) :
    ∃ h w', History (seqEnv ord order report conv totalPhases phases) (initState c) h w' ∧ changes h ≤ totalPhases - 1 ∧ Resting c ord l.world ∧
      l.world.idle = true ∧ ∃ r ∈ h.getLast?, r.Idle (seqEnv ord order report conv totalPhases phases) ∧ LooksSame r.after l.world := by
  have hinit : (seqEnv ord order report conv totalPhases phases).resetIds (initState c) = initState c := rfl
  have hl' : Loop.loop (seqEnv ord order report conv totalPhases phases) fuel (Loop.init (initState c) m) = .ok l := hl
  obtain ⟨h, -, hmeq, hle, hh⟩ := (Track.init (seqEnv ord order report conv totalPhases phases) (initState c) m).loop_max (fun _ => rfl) fuel
    (by simpa [Loop.init] using h0) hl'
  have lastIdle : ∀ {h : List (Round (State K))}, LastIdle (seqEnv ord order report conv totalPhases phases) h conv →
      ∃ r, h.getLast? = some r ∧ r.Idle (seqEnv ord order report conv totalPhases phases) := by
    intro h hL
    obtain ⟨g1, g2⟩ := hL
    have hpos : 0 < h.length := by omega
    exact ⟨h[h.length - 1], by rw [List.getLast?_eq_getElem?]; exact List.getElem?_eq_getElem (by omega), g2 _ (by omega) (by omega)⟩
  rcases hh with hh | hh
  · have hL : LastIdle (seqEnv ord order report conv totalPhases phases) h conv := by
      rw [← trailing_spec]
      have := hh.exports
      rw [hyes] at this
      have := (List.singleton_inj.1 this).symm
      exact of_decide_eq_true this
    obtain ⟨r, hr, hri⟩ := lastIdle hL
    have hpc : r.phaseChange = false := by
      by_contra hcon
      have hcon : r.phaseChange = true := by simpa using hcon
      have hmem : h.length ∈ pivotsOf h := by
        obtain ⟨h', rfl⟩ := List.getLast?_eq_some_iff.1 hr
        rw [pivotsOf_snoc, hcon]; simp
      have := hpiv h.length (by rw [hh.pivots]; exact hmem)
      rw [hh.steps] at this
      exact lt_irrefl _ this
    obtain ⟨-, g2, -⟩ := history_resting hc hord hfull hh.hist
    obtain ⟨g3, g4, g5⟩ := g2 r hr hri hpc
    exact ⟨h, _, hh.hist, hh.phases, g3, g5, r, hr, hri, g4⟩
  · obtain ⟨h₀, w₀, hpre, -⟩ := hh.prefix'
    obtain ⟨-, g2, -⟩ := history_resting hc hord hfull hh.hist
    have hr : h.getLast? = some ⟨w₀, l.world, false⟩ := by rw [hpre]; simp
    obtain ⟨g3, g4, g5⟩ := g2 ⟨w₀, l.world, false⟩ hr hh.idle rfl
    have hre : (seqEnv ord order report conv totalPhases phases).rearm l.world = l.world := by
      have := hh.idle
      change l.world.idle = true at this
      change ({ l.world with idle := true } : State K) = l.world
      rw [← this]
    rw [hre] at g3 g4
    exact ⟨h, _, hh.hist, hh.phases.le, g3, hh.idle, _, hr, hh.idle, g4⟩

/-- C80, the final state.  If a run exports "Equilibrium reached: Yes" (with `iterations_after_convergence` at least 1, and after at least one round
in its last phase), then its final state is a fixed point: any further rounds, with the agents in any orders, run without an exception, are idle and
leave everything looking as it does. -/
theorem C80_reported_equilibrium {c : Config K} (hc : c.simultaneous = false) {ord : List Nat → List Nat} (hord : ∀ l, (ord l).Perm l)
    {order : Nat → List Nat} (hfull : ∀ i a, a ∈ order i ↔ a < c.people.length) {report : State K → Py R} {conv : Int} (h1 : 1 ≤ conv)
    {totalPhases : Nat} {phases : Nat → PhaseParams K} {m : Int} (h0 : 0 ≤ m) {fuel : Nat} {l : Loop (State K) R}
    (hl : Loop.runModel (seqEnv ord order report conv totalPhases phases) fuel (Loop.init (initState c) m) = .ok l)
    (hyes : l.exports = [true]) (hpiv : ∀ p ∈ l.pivots, p < l.steps) (later : List (List Nat))
    (hlater : ∀ o ∈ later, ∀ a ∈ o, a < c.people.length) :
    ∃ t, iterM (fun u o => roundSequential (fun _ => ord) o u) l.world later = .ok t ∧ LooksSame l.world t ∧ t.idle = true := by
  obtain ⟨h, w', -, -, hrest, hidle, -⟩ := reported hc hord hfull h1 h0 hl hyes hpiv
  obtain ⟨t, g1, g2, g3⟩ := hrest.rounds hc hord later hlater
  exact ⟨t, g1, Calm.looksSame g2.1 (hrest.1.good minUnit_pos).inv.core, g3.trans hidle⟩

/-- a run with one phase has no phase changes -/
theorem no_pivots {W : Type} {env : Env W R} {w : W} {m : Int} (h0 : 0 ≤ m) {fuel : Nat} {l : Loop W R}
    (hl : Loop.runModel env fuel (Loop.init w m) = .ok l) (hm : ∀ p, env.newMax p = none := by intro _; rfl) (hp : env.totalPhases ≤ 1 := by exact le_refl 1) :
    l.pivots = [] := by
  have hz : ∀ h : List (Round W), changes h ≤ env.totalPhases - 1 → pivotsOf h = [] := by
    intro h hc
    have : (pivotsOf h).length = 0 := by rw [pivotsOf_length]; omega
    exact List.length_eq_zero_iff.1 this
  obtain ⟨h, -, -, -, hh | hh⟩ := (Track.init env (env.resetIds w) m).loop_max hm fuel (by simpa [Loop.init] using h0) hl
  · rw [hh.pivots]; exact hz h hh.phases
  · rw [hh.pivots]; exact hz h hh.phases.le

/-- the rounds of a history follow each other -/
theorem history_chain {W : Type} {env : Env W R} {w w' : W} {h : List (Round W)} (hh : History env w h w') :
    (∀ i (hi : i < h.length), env.round i (h[i]).before = .ok (h[i]).after) ∧ (∀ hi : 0 < h.length, (h[0]).before = w) ∧
    (∀ i (hi : i + 1 < h.length), (h[i]).phaseChange = false → (h[i + 1]).before = env.rearm (h[i]).after) ∧
    (∀ r ∈ h.getLast?, r.phaseChange = false → w' = env.rearm r.after) ∧ (h = [] → w' = w) := by
  have hsnoc : ∀ (h : List (Round W)) (w₁ w₂ : W) (b : Bool), env.round h.length w₁ = .ok w₂ →
      (∀ i (hi : i < h.length), env.round i (h[i]).before = .ok (h[i]).after) → (∀ hi : 0 < h.length, (h[0]).before = w) →
      (∀ i (hi : i + 1 < h.length), (h[i]).phaseChange = false → (h[i + 1]).before = env.rearm (h[i]).after) →
      (∀ r ∈ h.getLast?, r.phaseChange = false → w₁ = env.rearm r.after) → (h = [] → w₁ = w) →
      (∀ i (hi : i < (h ++ [(⟨w₁, w₂, b⟩ : Round W)]).length), env.round i ((h ++ [(⟨w₁, w₂, b⟩ : Round W)])[i]).before = .ok ((h ++ [(⟨w₁, w₂, b⟩ : Round W)])[i]).after) ∧
      (∀ hi : 0 < (h ++ [(⟨w₁, w₂, b⟩ : Round W)]).length, ((h ++ [(⟨w₁, w₂, b⟩ : Round W)])[0]).before = w) ∧
      (∀ i (hi : i + 1 < (h ++ [(⟨w₁, w₂, b⟩ : Round W)]).length), ((h ++ [(⟨w₁, w₂, b⟩ : Round W)])[i]).phaseChange = false →
        ((h ++ [(⟨w₁, w₂, b⟩ : Round W)])[i + 1]).before = env.rearm ((h ++ [(⟨w₁, w₂, b⟩ : Round W)])[i]).after) := by
    intro h w₁ w₂ b he a1 a2 a3 a4 a5
    have hlen : (h ++ [(⟨w₁, w₂, b⟩ : Round W)]).length = h.length + 1 := by simp
    refine ⟨?_, ?_, ?_⟩
    · intro i hi
      by_cases hlt : i < h.length
      · rw [List.getElem_append_left hlt]; exact a1 i hlt
      · have : i = h.length := by omega
        subst this
        rw [List.getElem_append_right (by omega)]
        simpa using he
    · intro hi
      by_cases hlt : 0 < h.length
      · rw [List.getElem_append_left hlt]; exact a2 hlt
      · have hnil : h = [] := List.length_eq_zero_iff.1 (by omega)
        subst hnil
        exact a5 rfl
    · intro i hi hpc
      have hih : i < h.length := by omega
      rw [List.getElem_append_left hih] at hpc ⊢
      by_cases hlt : i + 1 < h.length
      · rw [List.getElem_append_left hlt]; exact a3 i hlt hpc
      · have hie : i + 1 = h.length := by omega
        have hg : h.getLast? = some h[i] := by
          rw [List.getLast?_eq_getElem?, ← hie]; exact List.getElem?_eq_getElem hih
        have hel : (h ++ [(⟨w₁, w₂, b⟩ : Round W)])[i + 1] = ⟨w₁, w₂, b⟩ := by
          rw [List.getElem_append_right (by omega)]; simp [hie]
        rw [hel]
        exact a4 _ hg hpc
  induction hh with
  | start => exact ⟨by simp, by simp, by simp, by simp, fun _ => rfl⟩
  | round hh he ih =>
    obtain ⟨a1, a2, a3, a4, a5⟩ := ih
    obtain ⟨b1, b2, b3⟩ := hsnoc _ _ _ false he a1 a2 a3 a4 a5
    refine ⟨b1, b2, b3, ?_, by simp⟩
    intro r hr _
    rw [List.getLast?_concat] at hr
    cases hr; rfl
  | change hh he hc ih =>
    obtain ⟨a1, a2, a3, a4, a5⟩ := ih
    obtain ⟨b1, b2, b3⟩ := hsnoc _ _ _ true he a1 a2 a3 a4 a5
    refine ⟨b1, b2, b3, ?_, by simp⟩
    intro r hr hpc
    rw [List.getLast?_concat] at hr
    cases hr; cases hpc

/-- C80, the waiting time.  `iterations_after_convergence` does not influence the result of a simulation with one phase: two runs that differ in it,
in `max_iterations` and in the metrics that are collected, but activate the agents in the same orders, end in states that look the same if both report
an equilibrium. -/
theorem C80_window_irrelevant {c : Config K} (hc : c.simultaneous = false) {ord : List Nat → List Nat} (hord : ∀ l, (ord l).Perm l)
    {order : Nat → List Nat} (hfull : ∀ i a, a ∈ order i ↔ a < c.people.length) {R₁ R₂ : Type} {report₁ : State K → Py R₁} {report₂ : State K → Py R₂}
    {conv₁ conv₂ : Int} (h1 : 1 ≤ conv₁) (h2 : 1 ≤ conv₂) {phases₁ phases₂ : Nat → PhaseParams K} {m₁ m₂ : Int} (hm₁ : 0 ≤ m₁) (hm₂ : 0 ≤ m₂)
    {fuel₁ fuel₂ : Nat} {l₁ : Loop (State K) R₁} {l₂ : Loop (State K) R₂}
    (hl₁ : Loop.runModel (seqEnv ord order report₁ conv₁ 1 phases₁) fuel₁ (Loop.init (initState c) m₁) = .ok l₁)
    (hl₂ : Loop.runModel (seqEnv ord order report₂ conv₂ 1 phases₂) fuel₂ (Loop.init (initState c) m₂) = .ok l₂)
    (hyes₁ : l₁.exports = [true]) (hyes₂ : l₂.exports = [true]) : LooksSame l₁.world l₂.world := by
  have hp₁ := no_pivots hm₁ hl₁
  have hp₂ := no_pivots hm₂ hl₂
  obtain ⟨g₁, w₁, hh₁, hc₁, -, -, r₁, hr₁, hi₁, hs₁⟩ := reported hc hord hfull h1 hm₁ hl₁ hyes₁ (by rw [hp₁]; simp)
  obtain ⟨g₂, w₂, hh₂, hc₂, -, -, r₂, hr₂, hi₂, hs₂⟩ := reported hc hord hfull h2 hm₂ hl₂ hyes₂ (by rw [hp₂]; simp)
  have hn₁ : ∀ r ∈ g₁, r.phaseChange = false := by
    intro r hr
    have h0 : changes g₁ = 0 := by omega
    unfold changes at h0
    rw [List.countP_eq_zero] at h0
    simpa using h0 r hr
  have hn₂ : ∀ r ∈ g₂, r.phaseChange = false := by
    intro r hr
    have h0 : changes g₂ = 0 := by omega
    unfold changes at h0
    rw [List.countP_eq_zero] at h0
    simpa using h0 r hr
  obtain ⟨a1, a2, a3, -⟩ := history_chain hh₁
  obtain ⟨b1, b2, b3, -⟩ := history_chain hh₂
  -- the rounds are the same
  have hsame : ∀ i (hi₁ : i < g₁.length) (hi₂ : i < g₂.length), (g₁[i]).before = (g₂[i]).before ∧ (g₁[i]).after = (g₂[i]).after := by
    intro i
    have hstep : ∀ (hi₁ : i < g₁.length) (hi₂ : i < g₂.length), (g₁[i]).before = (g₂[i]).before →
        (g₁[i]).before = (g₂[i]).before ∧ (g₁[i]).after = (g₂[i]).after := by
      intro hi₁ hi₂ hb
      refine ⟨hb, ?_⟩
      have e1 := a1 i hi₁
      have e2 := b1 i hi₂
      rw [hb] at e1
      have : (Except.ok (g₁[i]).after : Py (State K)) = .ok (g₂[i]).after := e1.symm.trans e2
      exact Except.ok.inj this
    induction i with
    | zero => intro hi₁ hi₂; exact hstep hi₁ hi₂ (by rw [a2 hi₁, b2 hi₂])
    | succ i ih =>
      intro hi₁ hi₂
      refine hstep hi₁ hi₂ ?_
      have hprev : (g₁[i]).after = (g₂[i]).after := by
        have hst : ∀ (hi₁ : i < g₁.length) (hi₂ : i < g₂.length), (g₁[i]).before = (g₂[i]).before →
            (g₁[i]).before = (g₂[i]).before ∧ (g₁[i]).after = (g₂[i]).after := by
          intro hi₁ hi₂ hb
          refine ⟨hb, ?_⟩
          have e1 := a1 i hi₁
          have e2 := b1 i hi₂
          rw [hb] at e1
          have : (Except.ok (g₁[i]).after : Py (State K)) = .ok (g₂[i]).after := e1.symm.trans e2
          exact Except.ok.inj this
        exact (ih hst (by omega) (by omega)).2
      rw [a3 i hi₁ (hn₁ _ (List.getElem_mem _)), b3 i hi₂ (hn₂ _ (List.getElem_mem _)), hprev]
      rfl
  have last : ∀ {g : List (Round (State K))} {r : Round (State K)}, r ∈ g.getLast? → ∃ hpos : g.length - 1 < g.length, g[g.length - 1] = r := by
    intro g r hr
    rw [List.getLast?_eq_getElem?] at hr
    exact List.getElem?_eq_some_iff.1 hr
  obtain ⟨p₁, e₁⟩ := last hr₁
  obtain ⟨p₂, e₂⟩ := last hr₂
  by_cases hle : g₁.length ≤ g₂.length
  · have hx := (hsame (g₁.length - 1) p₁ (by omega)).2
    have := C80_idle_stays hc hord hfull hh₂ (g₁.length - 1) (g₂.length - 1) (by omega) p₂ (fun n hn _ _ => hn₂ _ (List.getElem_mem _)) (by
      change (g₂[g₁.length - 1]).after.idle = true
      rw [← hx, e₁]; exact hi₁)
    rw [← hx, e₁, e₂] at this
    exact (hs₁.symm.trans this.2).trans hs₂
  · have hx := (hsame (g₂.length - 1) (by omega) p₂).2
    have := C80_idle_stays hc hord hfull hh₁ (g₂.length - 1) (g₁.length - 1) (by omega) p₁ (fun n hn _ _ => hn₁ _ (List.getElem_mem _)) (by
      change (g₁[g₂.length - 1]).after.idle = true
      rw [hx, e₂]; exact hi₂)
    rw [hx, e₁, e₂] at this
    exact (hs₁.symm.trans this.2.symm).trans hs₂

/-! ### The hypotheses are met -/

/-- Two runs of the demonstration with waiting times 2 and 5 that report an equilibrium; the later one plays three rounds more and shows the same
pools. -/
example : ∃ l₁ l₂, Loop.runModel (demoEnv 2 1 {} none) 21 (Loop.init (initState (demo false)) 20) = .ok l₁ ∧
    Loop.runModel (demoEnv 5 1 {} none) 21 (Loop.init (initState (demo false)) 20) = .ok l₂ ∧
    outcome l₁ = (5, [0, 8, 3, 4, 4], [2], [], false, [true]) ∧ outcome l₂ = (8, [0, 8, 3, 4, 4, 4, 4, 4], [2], [], false, [true]) := by
  obtain ⟨l₁, h1, h2⟩ := run_outcome (x := Loop.runModel (demoEnv 2 1 {} none) 21 (Loop.init (initState (demo false)) 20))
    (v := (5, [0, 8, 3, 4, 4], [2], [], false, [true])) (by decide +kernel)
  obtain ⟨l₂, g1, g2⟩ := run_outcome (x := Loop.runModel (demoEnv 5 1 {} none) 21 (Loop.init (initState (demo false)) 20))
    (v := (8, [0, 8, 3, 4, 4, 4, 4, 4], [2], [], false, [true])) (by decide +kernel)
  exact ⟨l₁, l₂, h1, g1, h2, g2⟩

/-- `demoEnv` is of the kind the theorems speak about -/
example (conv : Int) (p : PhaseParams ℚ) :
    demoEnv conv 1 p none = seqEnv (fun l => l) (fun _ => [0, 1, 2, 3, 4]) (fun s => .ok (poolCount s)) conv 1 (fun _ => p) ∧
    (∀ i a, a ∈ (fun _ : Nat => [0, 1, 2, 3, 4]) i ↔ a < (demo false).people.length) := by
  refine ⟨rfl, fun i a => ?_⟩
  simp [demo]
  omega

end RSE.Props
