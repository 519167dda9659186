import Verif.Lemmas.Thr
import Verif.Props.Equilibrium
import Verif.Props.Phases

/-!
# C89: phases that change nothing, and phases that only raise the thresholds for changing a strategy

`change_phase` takes every pool out of both rankings, evaluates it anew and puts it back.  If the parameters stay as they are this has no effect at
all (`C89_same_parameters`).  If only `relative_utility_threshold` and `absolute_utility_threshold` are raised, an equilibrium stays one
(`C89_equilibrium_stays`, `C89_run`).  Lowering them may end it (`C89_lowering`).
-/

set_option linter.unusedSectionVars false

namespace RSE.Props

variable {K : Type} [Field K] [LinearOrder K] [IsStrictOrderedRing K]

/-- the new phase keeps the reward parameters and the cost of additional pools -/
structure KeepsRewards (s : State K) (p : PhaseParams K) : Prop where
  k : ∀ k, p.k = some k → k = s.rs.k
  a0 : ∀ a, p.a0 = some a → a = s.rs.a0
  extra : ∀ e, p.extraFrac = some e → e = s.extraFrac

/-- the new phase changes no parameter -/
structure KeepsAll (s : State K) (p : PhaseParams K) : Prop extends KeepsRewards s p where
  rel : ∀ x, p.relThr = some x → x = s.relThr
  abs : ∀ x, p.absThr = some x → x = s.absThr

/-- the new phase changes at most the thresholds, and only to larger values -/
structure RaisesThresholds (s : State K) (p : PhaseParams K) : Prop extends KeepsRewards s p where
  rel : ∀ x, p.relThr = some x → s.relThr ≤ x
  abs : ∀ x, p.absThr = some x → s.absThr ≤ x

/-- the states look the same, except perhaps for the thresholds -/
def SameButThresholds (s t : State K) : Prop := ∃ r a, LooksSame { s with relThr := r, absThr := a } t

theorem SameButThresholds.of {s t : State K} (h : LooksSame s t) : SameButThresholds s t := ⟨s.relThr, s.absThr, h⟩

theorem LooksSame.thr {s t : State K} (h : LooksSame s t) (r a : K) : LooksSame (s.thr r a) (t.thr r a) := by
  refine ⟨?_, h.pool⟩
  have := h.rest
  calc t.thr r a = ({ s with heap := t.heap, next := t.next, idSeq := t.idSeq } : State K).thr r a := by rw [← this]
    _ = _ := rfl

theorem SameButThresholds.trans {s t u : State K} (h : SameButThresholds s t) (g : SameButThresholds t u) : SameButThresholds s u := by
  obtain ⟨r, a, h⟩ := h
  obtain ⟨r', a', g⟩ := g
  exact ⟨r', a', LooksSame.trans (h.thr r' a') g⟩

/-- what it means for agents and pools -/
theorem SameButThresholds.shows {s t : State K} (h : SameButThresholds s t) : t.agents = s.agents ∧ t.pools = s.pools ∧ t.rs = s.rs ∧
    ∀ pid r, s.pools.get? pid = some r → (t.heap r).stake = (s.heap r).stake ∧ (t.heap r).pledge = (s.heap r).pledge ∧
      (t.heap r).margin = (s.heap r).margin ∧ (t.heap r).cost = (s.heap r).cost ∧ (t.heap r).owner = (s.heap r).owner ∧
      (t.heap r).delegators.Perm (s.heap r).delegators := by
  obtain ⟨r, a, h⟩ := h
  refine ⟨by rw [h.rest], by rw [h.rest], by rw [h.rest], fun pid q hq => ?_⟩
  obtain ⟨ds, h1, h2⟩ := h.pool pid q hq
  rw [h2]
  exact ⟨rfl, rfl, rfl, rfl, rfl, h1⟩

theorem Reachable.beta {c : Config K} {s : State K} (h : Reachable c s) (hb : c.rs.beta = 1 / (c.rs.k : K)) : s.rs.beta = 1 / (s.rs.k : K) := by
  refine Reachable.induct' (P := fun s => s.rs.beta = 1 / (s.rs.k : K)) minUnit_pos hb ?_ h
  intro s ev s' hr hg _ hs _ he hd
  by_cases hev : ∃ p, ev = .phase p
  · obtain ⟨p, rfl⟩ := hev
    obtain ⟨-, -, hrs, -⟩ := (changePhase_spec hg.inv.core p).of_ok he
    rw [phaseRS_eq rfl hs] at hrs
    rw [hrs]
  · rw [rs_unchanged (fun p hp => hev ⟨p, hp⟩) hd]; exact hs

theorem KeepsRewards.phaseRS {s : State K} {p : PhaseParams K} (h : KeepsRewards s p) (hb : s.rs.beta = 1 / (s.rs.k : K)) : phaseRS s.rs p = s.rs := by
  rw [phaseRS_eq rfl hb]
  have h1 : p.k.getD s.rs.k = s.rs.k := by
    cases hk : p.k with
    | none => rfl
    | some k => exact h.k k hk
  have h2 : p.a0.getD s.rs.a0 = s.rs.a0 := by
    cases ha : p.a0 with
    | none => rfl
    | some a => exact h.a0 a ha
  rw [h1, h2, ← hb]

theorem Reachable.reeval {c : Config K} {s : State K} (h : Reachable c s) {r : Ref}
    (hpp : (s.heap r).pp = potentialProfit s.rs (s.heap r).pledge (s.heap r).cost) : (s.heap r).reeval s.rs = s.heap r := by
  have hf := (h.fair r).des
  unfold Pool.reeval Pool.setProfit Pool.setDesirability
  rw [← hpp, ← hf]

theorem KeepsRewards.exec_phase {n : Nat} {s : State K} (hcore : Core n s) (hcur : ∀ pid r, s.pools.get? pid = some r → (s.heap r).reeval s.rs = s.heap r)
    (hb : s.rs.beta = 1 / (s.rs.k : K)) (hk : 1 ≤ s.rs.k) {p : PhaseParams K} (hp : KeepsRewards s p) :
    exec s (.phase p) = .ok (s.thr (p.relThr.getD s.relThr) (p.absThr.getD s.absThr)) := by
  have hk0 : p.k ≠ some 0 := fun h0 => by have := hp.k 0 h0; omega
  have he : p.extraFrac.getD s.extraFrac = s.extraFrac := by
    cases hx : p.extraFrac with
    | none => rfl
    | some e => exact hp.extra e hx
  change changePhase s p = _
  rw [changePhase_same hcore p hk0 (hp.phaseRS hb) hcur, he]
  rfl

theorem Reachable.k_pos {c : Config K} {s : State K} (h : Reachable c s) (hk : 1 ≤ c.rs.k) : 1 ≤ s.rs.k := by
  refine Reachable.induct' (P := fun s => 1 ≤ s.rs.k) minUnit_pos hk ?_ h
  intro s ev s' hr hg _ hs _ he hd
  by_cases hev : ∃ p, ev = .phase p
  · obtain ⟨p, rfl⟩ := hev
    obtain ⟨-, -, hrs, h0⟩ := (changePhase_spec hg.inv.core p).of_ok he
    rw [hrs]
    unfold RSE.phaseRS
    cases hpk : p.k with
    | none => cases p.a0 <;> exact hs
    | some k =>
      have : k ≠ 0 := by rintro rfl; exact h0 hpk
      cases p.a0 <;> exact Nat.one_le_iff_ne_zero.2 this
  · rw [rs_unchanged (fun p hp => hev ⟨p, hp⟩) hd]; exact hs

theorem KeepsAll.exec_phase {n : Nat} {s : State K} (hcore : Core n s) (hcur : ∀ pid r, s.pools.get? pid = some r → (s.heap r).reeval s.rs = s.heap r)
    (hb : s.rs.beta = 1 / (s.rs.k : K)) (hk : 1 ≤ s.rs.k) {p : PhaseParams K} (hp : KeepsAll s p) : exec s (.phase p) = .ok s := by
  rw [hp.toKeepsRewards.exec_phase hcore hcur hb hk]
  have h1 : p.relThr.getD s.relThr = s.relThr := by
    cases hx : p.relThr with
    | none => rfl
    | some e => exact hp.rel e hx
  have h2 : p.absThr.getD s.absThr = s.absThr := by
    cases hx : p.absThr with
    | none => rfl
    | some e => exact hp.abs e hx
  rw [h1, h2]
  rfl

/-- C89.  A new phase whose parameters are all as before changes nothing whatsoever: sequential and random activation, in every state that any events,
including other changes of phase, can lead to. -/
theorem C89_same_parameters {c : Config K} {s : State K} (h : Reachable c s) (hc : c.simultaneous = false) (hk : 1 ≤ c.rs.k)
    (hb : c.rs.beta = 1 / (c.rs.k : K)) (h0 : ∀ e ∈ c.people, 0 ≤ e.1) {p : PhaseParams K} (hp : KeepsAll s p) : exec s (.phase p) = .ok s := by
  have hcur : PoolsCurrent s := Reachable.induct' (P := PoolsCurrent) minUnit_pos (by intro pid r h; cases h)
    (fun s ev s' hr _ _ hs hv _ hd => Did.poolsCurrent hr hc h0 hv hd hs) h
  exact hp.exec_phase (h.good minUnit_pos).inv.core (fun pid r hr => Reachable.reeval h (hcur pid r hr)) (Reachable.beta h hb) (Reachable.k_pos h hk)

/-- C89.  In all modes of activation, as the first change of phase. -/
theorem C89_same_parameters_first {c : Config K} {s : State K} (h : ReachableSinglePhase c s) (hk : 1 ≤ c.rs.k)
    (hb : c.rs.beta = 1 / (c.rs.k : K)) (h0 : ∀ e ∈ c.people, 0 ≤ e.1) {p : PhaseParams K} (hp : KeepsAll s p) : exec s (.phase p) = .ok s := by
  have hr := Reachable.of_single h
  have hkc : (0 : K) < c.rs.k := by exact_mod_cast hk
  have hb0 : 0 < c.rs.beta := by rw [hb]; exact one_div_pos.2 hkc
  refine hp.exec_phase (hr.good minUnit_pos).inv.core (fun pid r hpr => Reachable.reeval hr ?_) (Reachable.beta hr hb) (Reachable.k_pos hr hk)
  rw [(C81_figures_current_single_phase h h0 hb0 hpr).profit, potentialProfit_eq (hr.shaped h0 hb0).1]

/-! ### Raising the thresholds -/

theorem Quiet.thr {s t : State K} (h : Quiet s t) (r a : K) : Quiet (s.thr r a) (t.thr r a) := by
  refine ⟨⟨?_, h.1.next_le, h.1.alike, h.1.dels⟩, h.2⟩
  calc t.thr r a = ({ s with heap := t.heap, next := t.next, idSeq := t.idSeq } : State K).thr r a := by rw [← h.1.eq]
    _ = _ := rfl

theorem Rests.raise {ord : List Nat → List Nat} {s : State K} {b : Nat} (h : Rests ord s b) {r a : K} (h1 : 0 ≤ s.relThr) (h2 : s.relThr ≤ r)
    (h3 : 0 ≤ s.absThr) (h4 : s.absThr ≤ a) : Rests ord (s.thr r a) b := by
  obtain ⟨ag, ha, hag⟩ := h
  refine ⟨ag, ha, hag.imp id ?_⟩
  rintro ⟨σ, s₁, hσ, hpm⟩
  refine ⟨σ, s₁.thr r a, hσ, ?_⟩
  rw [planMove_options] at hpm
  rw [planMove_thr]
  cases ho : options ord s ag σ with
  | error e => rw [ho] at hpm; cases hpm
  | ok o =>
    rw [ho] at hpm
    simp only [Except.map, Except.ok.injEq, Prod.mk.injEq] at hpm ⊢
    exact ⟨by rw [hpm.1], decideMove_mono h1 h2 h3 h4 hpm.2⟩

/-- an equilibrium after a change of phase that only raises thresholds -/
theorem Resting.raise {c : Config K} (hc : c.simultaneous = false) (hk : 1 ≤ c.rs.k) (hb : c.rs.beta = 1 / (c.rs.k : K)) (h0 : ∀ e ∈ c.people, 0 ≤ e.1)
    {ord : List Nat → List Nat} {t : State K} (h : Resting c ord t) (h1 : 0 ≤ t.relThr) (h2 : 0 ≤ t.absThr) {p : PhaseParams K}
    (hp : RaisesThresholds t p) :
    ∃ r a, exec t (.phase p) = .ok (t.thr r a) ∧ t.relThr ≤ r ∧ t.absThr ≤ a ∧ Resting c ord (t.thr r a) := by
  have hexec : ∀ s : State K, Reachable c s → s.rs = t.rs → s.relThr = t.relThr → s.absThr = t.absThr → s.extraFrac = t.extraFrac →
      exec s (.phase p) = .ok (s.thr (p.relThr.getD t.relThr) (p.absThr.getD t.absThr)) := by
    intro s hs e1 e2 e3 e4
    have hcur : PoolsCurrent s := Reachable.induct' (P := PoolsCurrent) minUnit_pos (by intro pid r h; cases h)
      (fun s ev s' hr _ _ hs hv _ hd => Did.poolsCurrent hr hc h0 hv hd hs) hs
    have hkr : KeepsRewards s p := ⟨by rw [e1]; exact hp.k, by rw [e1]; exact hp.a0, by rw [e4]; exact hp.extra⟩
    rw [hkr.exec_phase (hs.good minUnit_pos).inv.core (fun pid r hr => Reachable.reeval hs (hcur pid r hr)) (Reachable.beta hs hb) (Reachable.k_pos hs hk),
      e2, e3]
  have hr : t.relThr ≤ p.relThr.getD t.relThr := by
    cases hx : p.relThr with
    | none => exact le_rfl
    | some x => exact hp.rel x hx
  have ha : t.absThr ≤ p.absThr.getD t.absThr := by
    cases hx : p.absThr with
    | none => exact le_rfl
    | some x => exact hp.abs x hx
  have het := hexec t h.1 rfl rfl rfl rfl
  refine ⟨_, _, het, hr, ha, h.1.next (ev := .phase p) trivial het, fun b hbl => ?_⟩
  obtain ⟨s, hs, hq, hrs⟩ := h.2 b hbl
  have e2 : s.relThr = t.relThr := hq.1.relThr.symm
  have e3 : s.absThr = t.absThr := hq.1.absThr.symm
  have hes := hexec s hs hq.1.rs.symm e2 e3 hq.1.extraFrac.symm
  exact ⟨_, hs.next (ev := .phase p) trivial hes, hq.thr _ _, hrs.raise (by rw [e2]; exact h1) (by rw [e2]; exact hr) (by rw [e3]; exact h2) (by rw [e3]; exact ha)⟩

/-- C89.  Sequential or random activation, exact arithmetic, thresholds not negative.  After a round in which nobody moved, a phase that raises the
thresholds (and changes nothing else) begins without an exception, and all later rounds are idle too and leave everything as it was. -/
theorem C89_equilibrium_stays {c : Config K} (hc : c.simultaneous = false) (hk : 1 ≤ c.rs.k) (hb : c.rs.beta = 1 / (c.rs.k : K))
    (h0 : ∀ e ∈ c.people, 0 ≤ e.1) {ord : List Nat → List Nat} (hord : ∀ l, (ord l).Perm l)
    {s t : State K} (hs : Reachable c s) {order : List Nat} (hfull : ∀ a, a ∈ order ↔ a < c.people.length)
    (he : roundSequential (fun _ => ord) order s = .ok t) (hi : t.idle = true) (hr : 0 ≤ t.relThr) (ha : 0 ≤ t.absThr)
    {p : PhaseParams K} (hp : RaisesThresholds t p) (later : List (List Nat)) (hl : ∀ o ∈ later, ∀ a ∈ o, a < c.people.length) :
    ∃ t₁ t₂, exec t (.phase p) = .ok t₁ ∧ iterM (fun u o => roundSequential (fun _ => ord) o u) t₁ later = .ok t₂ ∧
      SameButThresholds t t₂ ∧ t₂.idle = true := by
  rw [round_steps] at he
  obtain ⟨-, -, hrt, hall⟩ := idle_turns hc hord order hs (fun a ha => (hfull a).1 ha) he hi
  have hrest : Resting c ord t := ⟨hrt, fun a ha => hall a ((hfull a).2 ha)⟩
  obtain ⟨r, a, h1, -, -, h2⟩ := hrest.raise hc hk hb h0 hr ha hp
  obtain ⟨t₂, g1, g2, g3⟩ := h2.rounds hc hord later hl
  exact ⟨_, t₂, h1, g1, ⟨r, a, Calm.looksSame g2.1 (h2.1.good minUnit_pos).inv.core⟩, g3.trans hi⟩

variable {R : Type}

/-- every phase that begins in or after round `i` of the history at most raises the thresholds -/
def OnlyRaises (phases : Nat → PhaseParams K) (h : List (Round (State K))) (i : Nat) : Prop :=
  ∀ j (hj : j < h.length), i ≤ j → (h[j]).phaseChange = true → RaisesThresholds (h[j]).after (phases (changes (h.take j) + 1))

/-- C89, for runs.  If a round is idle and the phases that begin from then on at most raise the thresholds, then all later rounds are idle, whatever the
number of phases, and after each of them agents, strategies and pools are as they were. -/
theorem C89_run {c : Config K} (hc : c.simultaneous = false) (hk : 1 ≤ c.rs.k) (hb : c.rs.beta = 1 / (c.rs.k : K)) (h0 : ∀ e ∈ c.people, 0 ≤ e.1)
    {ord : List Nat → List Nat} (hord : ∀ l, (ord l).Perm l)
    {order : Nat → List Nat} (hfull : ∀ i a, a ∈ order i ↔ a < c.people.length) {report : State K → Py R} {conv : Int} {totalPhases : Nat}
    {phases : Nat → PhaseParams K} {h : List (Round (State K))} {w : State K}
    (hh : History (seqEnv ord order report conv totalPhases phases) (initState c) h w) {i : Nat} (hi : i < h.length)
    (hidle : (h[i]).Idle (seqEnv ord order report conv totalPhases phases)) (hr : 0 ≤ (h[i]).after.relThr) (ha : 0 ≤ (h[i]).after.absThr)
    (hp : OnlyRaises phases h i) :
    (∀ j (hj : j < h.length), i ≤ j → (h[j]).Idle (seqEnv ord order report conv totalPhases phases) ∧ SameButThresholds (h[i]).after (h[j]).after) ∧
      SameButThresholds (h[i]).after w := by
  have hreach : ∀ {h : List (Round (State K))} {w : State K}, History (seqEnv ord order report conv totalPhases phases) (initState c) h w →
      Reachable c w := fun hh => (history_resting hc hord hfull hh).1
  suffices hmain : (∀ j (hj : j < h.length), i ≤ j → (h[j]).Idle (seqEnv ord order report conv totalPhases phases) ∧ SameButThresholds (h[i]).after (h[j]).after) ∧
      SameButThresholds (h[i]).after w ∧ Resting c ord w ∧ w.idle = true ∧ 0 ≤ w.relThr ∧ 0 ≤ w.absThr from ⟨hmain.1, hmain.2.1⟩
  have hrearm : ∀ s : State K, s.idle = true → ({ s with idle := true } : State K) = s := by
    intro s hs; cases s; simp only at hs; subst hs; rfl
  -- one more round
  have hone : ∀ (h : List (Round (State K))) (w₁ w₂ : State K) (b : Bool), History (seqEnv ord order report conv totalPhases phases) (initState c) h w₁ →
      seqRounds (fun _ _ => ord) order h.length w₁ = .ok w₂ →
      (∀ hi : i < h.length, (h[i]).Idle (seqEnv ord order report conv totalPhases phases) → 0 ≤ (h[i]).after.relThr → 0 ≤ (h[i]).after.absThr →
        OnlyRaises phases h i → (∀ j (hj : j < h.length), i ≤ j → (h[j]).Idle (seqEnv ord order report conv totalPhases phases) ∧
          SameButThresholds (h[i]).after (h[j]).after) ∧ SameButThresholds (h[i]).after w₁ ∧ Resting c ord w₁ ∧ w₁.idle = true ∧ 0 ≤ w₁.relThr ∧ 0 ≤ w₁.absThr) →
      ∀ hi : i < (h ++ [(⟨w₁, w₂, b⟩ : Round (State K))]).length, ((h ++ [(⟨w₁, w₂, b⟩ : Round (State K))])[i]).Idle (seqEnv ord order report conv totalPhases phases) →
        0 ≤ ((h ++ [(⟨w₁, w₂, b⟩ : Round (State K))])[i]).after.relThr → 0 ≤ ((h ++ [(⟨w₁, w₂, b⟩ : Round (State K))])[i]).after.absThr →
        OnlyRaises phases (h ++ [(⟨w₁, w₂, b⟩ : Round (State K))]) i →
        (∀ j (hj : j < (h ++ [(⟨w₁, w₂, b⟩ : Round (State K))]).length), i ≤ j →
          ((h ++ [(⟨w₁, w₂, b⟩ : Round (State K))])[j]).Idle (seqEnv ord order report conv totalPhases phases) ∧
          SameButThresholds ((h ++ [(⟨w₁, w₂, b⟩ : Round (State K))])[i]).after ((h ++ [(⟨w₁, w₂, b⟩ : Round (State K))])[j]).after) ∧
        SameButThresholds ((h ++ [(⟨w₁, w₂, b⟩ : Round (State K))])[i]).after w₂ ∧ Resting c ord w₂ ∧ w₂.idle = true ∧ 0 ≤ w₂.relThr ∧ 0 ≤ w₂.absThr ∧
        (b = true → RaisesThresholds w₂ (phases (changes h + 1))) := by
    intro h w₁ w₂ b hh he ih hi hidle hr ha hp
    have hlen : (h ++ [(⟨w₁, w₂, b⟩ : Round (State K))]).length = h.length + 1 := by simp
    have hlast : (h ++ [(⟨w₁, w₂, b⟩ : Round (State K))])[h.length]'(by omega) = ⟨w₁, w₂, b⟩ := by
      rw [List.getElem_append_right (le_refl _)]; simp
    have he' : iterM exec w₁ ((order h.length).map (fun a => Event.step a ord)) = .ok w₂ := by rw [← round_steps]; exact he
    have hraise : i ≤ h.length → b = true → RaisesThresholds w₂ (phases (changes h + 1)) := by
      intro hih hbt
      have := hp h.length (by omega) hih (by rw [hlast]; exact hbt)
      rw [hlast] at this
      simpa using this
    by_cases hih : i < h.length
    · rw [List.getElem_append_left hih] at hidle hr ha
      have hp' : OnlyRaises phases h i := by
        intro j hj hij hpc
        have := hp j (by omega) hij (by rw [List.getElem_append_left hj]; exact hpc)
        rw [List.getElem_append_left hj, List.take_append_of_le_length hj.le] at this
        exact this
      obtain ⟨k1, k2, k3, k4, k5, k6⟩ := ih hih hidle hr ha hp'
      obtain ⟨t', g1, g2, g3, g4⟩ := k3.steps hc hord (order h.length) (fun a ha => (hfull _ a).1 ha)
      rw [he'] at g1
      cases g1
      have hsame : SameButThresholds (h[i]).after w₂ := k2.trans (.of (Calm.looksSame g2.1 (k3.1.good minUnit_pos).inv.core))
      rw [List.getElem_append_left hih]
      refine ⟨fun j hj hij => ?_, hsame, g4, g3.trans k4, by rw [g2.1.relThr]; exact k5, by rw [g2.1.absThr]; exact k6, hraise hih.le⟩
      by_cases hjh : j < h.length
      · rw [List.getElem_append_left hjh]; exact k1 j hjh hij
      · have hje : j = h.length := by omega
        subst hje
        rw [hlast]
        exact ⟨g3.trans k4, hsame⟩
    · have hie : i = h.length := by omega
      subst hie
      rw [hlast] at hidle hr ha ⊢
      have hidle' : w₂.idle = true := hidle
      obtain ⟨-, -, hrt, hall⟩ := idle_turns hc hord (order h.length) (hreach hh) (fun a ha => (hfull _ a).1 ha) he' hidle'
      refine ⟨fun j hj hij => ?_, .of (LooksSame.refl _), ⟨hrt, fun a ha => hall a ((hfull _ a).2 ha)⟩, hidle', hr, ha, hraise le_rfl⟩
      have hje : j = h.length := by omega
      subst hje
      rw [hlast]
      exact ⟨hidle, .of (LooksSame.refl _)⟩
  induction hh with
  | start => simp at hi
  | @round h w₁ w₂ hh he ih =>
    obtain ⟨k1, k2, k3, k4, k5, k6, -⟩ := hone h w₁ w₂ false hh he (fun a b c d e => ih a b c d e) hi hidle hr ha hp
    have hre : (seqEnv ord order report conv totalPhases phases).rearm w₂ = w₂ := hrearm w₂ k4
    rw [hre]
    exact ⟨k1, k2, k3, k4, k5, k6⟩
  | @change h w₁ w₂ w₃ hh he hcp ih =>
    obtain ⟨k1, k2, k3, k4, k5, k6, k7⟩ := hone h w₁ w₂ true hh he (fun a b c d e => ih a b c d e) hi hidle hr ha hp
    obtain ⟨r, a, g1, g2, g3, g4⟩ := k3.raise hc hk hb h0 k5 k6 (k7 rfl)
    have hw : w₃ = w₂.thr r a := by
      change RSE.changePhase w₂ (phases (changes h + 1)) = Except.ok w₃ at hcp
      change RSE.changePhase w₂ (phases (changes h + 1)) = Except.ok (w₂.thr r a) at g1
      rw [g1] at hcp
      exact (Except.ok.inj hcp).symm
    have hre : (seqEnv ord order report conv totalPhases phases).rearm w₃ = w₂.thr r a := by rw [hw]; exact hrearm _ k4
    rw [hre]
    exact ⟨k1, k2.trans ⟨r, a, LooksSame.refl _⟩, g4, k4, k5.trans g2, k6.trans g3⟩

/-! ### Lowering them, negative ones, and the hypotheses -/

/-- the demonstration with agents that want to gain at least 10 by a change -/
def shy : Config ℚ := { demo false with absThr := 10 }

/-- an idle round of `shy`, a new phase, another round: idleness after each of the rounds, and the number of pools at the end -/
def shyRun (p : PhaseParams ℚ) : Option (Bool × Bool × Nat) := do
  let t ← (roundSequential (fun _ => id) [0, 1, 2, 3, 4] (initState shy)).toOption
  let t₁ ← (exec t (.phase p)).toOption
  let t₂ ← (roundSequential (fun _ => id) [0, 1, 2, 3, 4] t₁).toOption
  return (t.idle, t₂.idle, t₂.pools.length)

instance : DecidableEq (Bool × Bool × Nat) := instDecidableEqProd

/-- C89.  Lowering a threshold may end an equilibrium: nobody moves while a gain of 10 is asked for, eight pools are opened when nothing is. -/
theorem C89_lowering : ∃ (c : Config ℚ) (t t₁ t₂ : State ℚ), roundSequential (fun _ => id) [0, 1, 2, 3, 4] (initState c) = .ok t ∧ t.idle = true ∧
    exec t (.phase { absThr := some 0 }) = .ok t₁ ∧ roundSequential (fun _ => id) [0, 1, 2, 3, 4] t₁ = .ok t₂ ∧ t₂.idle = false ∧ t₂.pools.length = 8 := by
  have h : shyRun { absThr := some 0 } = some (true, false, 8) := by decide +kernel
  unfold shyRun at h
  obtain ⟨t, h1, h⟩ := Option.bind_eq_some_iff.1 h
  obtain ⟨t₁, h2, h⟩ := Option.bind_eq_some_iff.1 h
  obtain ⟨t₂, h3, h⟩ := Option.bind_eq_some_iff.1 h
  cases h4 : t.idle <;> cases h5 : t₂.idle <;> simp [pure, h4, h5] at h
  exact ⟨shy, t, t₁, t₂, toOption_ok h1, h4, toOption_ok h2, toOption_ok h3, h5, h⟩

/-- Raising it from 10 to 20 keeps the equilibrium of `shy`. -/
example : shyRun { absThr := some 20 } = some (true, true, 0) := by decide +kernel

/-- The theorems ask for thresholds that are not negative: with an absolute threshold of -1 an agent at a loss is *more* willing to change if the relative
threshold is raised, because `(1 + r) * u` falls for negative `u`. -/
example : augmented (1 : ℚ) (-1) (-1) (-1) < augmented 0 (-1) (-1) (-1) := by decide +kernel

/-- A run of the demonstration that meets the hypotheses of `C89_run`: it converges with four pools, the second phase raises both thresholds, and
nothing happens any more. -/
example : (∃ l, Loop.runModel (demoEnv 2 2 { relThr := some 1, absThr := some 20 } none) 21 (Loop.init (initState (demo false)) 20) = .ok l ∧
      outcome l = (6, [0, 8, 3, 4, 4, 4], [2, 3], [5], false, [true])) ∧
    (demo false).simultaneous = false ∧ 1 ≤ (demo false).rs.k ∧ (demo false).rs.beta = 1 / ((demo false).rs.k : ℚ) ∧ (∀ e ∈ (demo false).people, 0 ≤ e.1) ∧
    (demo false).relThr = 0 ∧ (demo false).absThr = 0 := by
  exact ⟨run_outcome (by decide +kernel), by decide +kernel, by decide +kernel, by decide +kernel, by decide +kernel, by decide +kernel, by decide +kernel⟩

/-- ... and a state of the demonstration with pools, and phase parameters that repeat the current ones, for `C89_same_parameters`. -/
example : ∃ s, Reachable (demo false) s ∧ s.pools.length = 4 ∧ KeepsAll s { k := some s.rs.k, relThr := some s.relThr } := by
  obtain ⟨s, h1, h2⟩ : ∃ s, iterM exec (initState (demo false)) (demoRound ++ demoRound ++ demoRound) = .ok s ∧ s.pools.length = 4 := by
    have h : ((iterM exec (initState (demo false)) (demoRound ++ demoRound ++ demoRound)).toOption.map (fun s => s.pools.length)) = some 4 := by decide +kernel
    obtain ⟨s, h1, h2⟩ := Option.map_eq_some_iff.1 h
    exact ⟨s, toOption_ok h1, h2⟩
  refine ⟨s, ⟨_, ?_, h1⟩, h2, ⟨⟨?_, ?_, ?_⟩, ?_, ?_⟩⟩
  · intro e he
    simp only [List.mem_append] at he
    rcases he with (he | he) | he <;> exact demoRound_valid false e he
  all_goals intro x hx; cases hx
  all_goals rfl

end RSE.Props
