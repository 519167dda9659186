import Verif.Props.EndToEnd

/-!
# C79: in every phase the values listed for that phase are in force
-/

set_option linter.unusedSectionVars false

namespace RSE.Props

variable {K : Type} [Field K] [LinearOrder K] [IsStrictOrderedRing K]

/-- what `l` becomes step by step, while the simulation runs -/
inductive Reached {W R : Type} (env : Env W R) (l₀ : Loop W R) : Loop W R → Prop
  | start : Reached env l₀ l₀
  | step {l l' : Loop W R} (h : Reached env l₀ l) (hr : l.running = true) (hs : l.step env = .ok l') : Reached env l₀ l'

/-- the result of a run is reached -/
theorem Reached.of_loop {W R : Type} {env : Env W R} {l₀ : Loop W R} (fuel : Nat) {l l' : Loop W R} (hr : Reached env l₀ l) (h : Loop.loop env fuel l = .ok l') :
    Reached env l₀ l' := by
  induction fuel generalizing l with
  | zero =>
    unfold Loop.loop at h
    split at h
    · cases h
    · cases h; exact hr
  | succ fuel ih =>
    unfold Loop.loop at h
    split at h
    · rename_i hc
      cases h1 : l.step env with
      | error e => rw [h1] at h; cases h
      | ok l₂ =>
        rw [h1] at h
        exact ih (.step hr (by simp_all) h1) h
    · cases h; exact hr

/-- the values for phase `p` are in force: `a0`, thresholds, cost fraction, `k` (only the inflated one of the first phase may differ) -/
structure InForce (a : Args K) (p : Nat) (s : State K) : Prop where
  a0 : a.a0.value p = some s.rs.a0
  relThr : a.relThr.value p = some s.relThr
  absThr : a.absThr.value p = some s.absThr
  extraFrac : a.extraFrac.value p = some s.extraFrac
  k : a.known = false ∨ (1 ≤ p ∧ 2 ≤ a.k.phases) → a.k.value p = some s.rs.k ∧ s.rs.beta = 1 / (s.rs.k : K)
  scheme : s.rs.scheme = schemeOf a.scheme

theorem InForce.keep {a : Args K} {p : Nat} {s s' : State K} (h : InForce a p s) (h1 : s'.rs = s.rs) (h2 : s'.relThr = s.relThr) (h3 : s'.absThr = s.absThr)
    (h4 : s'.extraFrac = s.extraFrac) : InForce a p s' :=
  ⟨by rw [h1]; exact h.a0, by rw [h2]; exact h.relThr, by rw [h3]; exact h.absThr, by rw [h4]; exact h.extraFrac, by rw [h1]; exact h.k, by rw [h1]; exact h.scheme⟩

theorem iterM_keeps {β γ : Type} (f : State K → γ → Py (State K)) (g : State K → β) (hf : ∀ s x s', f s x = .ok s' → g s' = g s) :
    ∀ (l : List γ) (s s' : State K), iterM f s l = .ok s' → g s' = g s := by
  intro l
  induction l with
  | nil => intro s s' h; cases h; rfl
  | cons x t ih =>
    intro s s' h
    cases h1 : f s x with
    | error e => rw [show iterM f s (x :: t) = (f s x).bind _ from rfl, h1] at h; cases h
    | ok s₁ =>
      rw [show iterM f s (x :: t) = (f s x).bind _ from rfl, h1] at h
      exact (ih s₁ s' h).trans (hf s x s₁ h1)

theorem unrank_keeps {s s' : State K} {r : Nat} (h : unrank s r = .ok s') : (s'.rs, s'.relThr, s'.absThr, s'.extraFrac) = (s.rs, s.relThr, s.absThr, s.extraFrac) := by
  unfold unrank at h
  cases h1 : s.rank.remove (poolKey (s.heap r)) (some r) with
  | error e => rw [h1] at h; cases h
  | ok l =>
    cases h2 : s.rankM.remove (poolKeyM s.rs (s.heap r)) (some r) with
    | error e => rw [h1, h2] at h; cases h
    | ok lm => rw [h1, h2] at h; cases h; rfl

theorem rerank_keeps {s s' : State K} {r : Nat} (h : rerank s r = .ok s') : (s'.rs, s'.relThr, s'.absThr, s'.extraFrac) = (s.rs, s.relThr, s.absThr, s.extraFrac) := by
  unfold rerank at h
  cases h
  rfl

theorem changePhase_values {s s' : State K} {p : PhaseParams K} (h : changePhase s p = .ok s') :
    s'.rs = phaseRS s.rs p ∧ s'.relThr = p.relThr.getD s.relThr ∧ s'.absThr = p.absThr.getD s.absThr ∧ s'.extraFrac = p.extraFrac.getD s.extraFrac := by
  unfold changePhase at h
  cases h1 : iterM unrank s s.pools.vals with
  | error e => rw [h1] at h; cases h
  | ok s₁ =>
    have e1 := iterM_keeps unrank (fun s => (s.rs, s.relThr, s.absThr, s.extraFrac)) (fun _ _ _ => unrank_keeps) _ _ _ h1
    rw [h1] at h
    by_cases hk : p.k = some 0
    · change Except.bind (applyPhase s₁ p) _ = _ at h
      rw [applyPhase_zero hk] at h
      cases h
    · change Except.bind (applyPhase s₁ p) _ = _ at h
      rw [applyPhase_ok hk] at h
      have e2 := iterM_keeps rerank (fun s => (s.rs, s.relThr, s.absThr, s.extraFrac)) (fun _ _ _ => rerank_keeps) _ _ _ h
      simp only [Prod.mk.injEq] at e1 e2
      obtain ⟨a1, a2, a3, a4⟩ := e1
      obtain ⟨b1, b2, b3, b4⟩ := e2
      refine ⟨by rw [b1, a1], by rw [b2, a2], by rw [b3, a3], by rw [b4, a4]⟩

theorem InForce.phase {a : Args K} {p : Nat} {s s' : State K} (h : InForce a p s) (he : changePhase s (a.phase (p + 1)) = .ok s') :
    InForce a (p + 1) s' := by
  obtain ⟨h1, h2, h3, h4⟩ := changePhase_values he
  have ha : s'.rs.a0 = (a.a0.later (p + 1)).getD s.rs.a0 := by
    rw [h1]; unfold phaseRS
    cases hk : (a.phase (p + 1)).k <;> cases hx : a.a0.later (p + 1) <;> simp [Args.phase, hx]
  have hs : s'.rs.scheme = s.rs.scheme := by
    rw [h1]; unfold phaseRS
    cases hk : (a.phase (p + 1)).k <;> cases hx : a.a0.later (p + 1) <;> simp [Args.phase, hx]
  have hkb : (a.k.later (p + 1) = none → s'.rs.k = s.rs.k ∧ s'.rs.beta = s.rs.beta) ∧
      ∀ x, a.k.later (p + 1) = some x → s'.rs.k = x ∧ s'.rs.beta = 1 / (x : K) := by
    rw [h1]; unfold phaseRS
    cases hk : a.k.later (p + 1) <;> cases hx : a.a0.later (p + 1) <;> simp [Args.phase, hx, hk]
  refine ⟨by rw [value_succ h.a0, ha], by rw [value_succ h.relThr, h2]; rfl, by rw [value_succ h.absThr, h3]; rfl, by rw [value_succ h.extraFrac, h4]; rfl, ?_, hs.trans h.scheme⟩
  intro hc
  cases hl : a.k.later (p + 1) with
  | some x =>
    obtain ⟨k1, k2⟩ := hkb.2 x hl
    refine ⟨?_, by rw [k1]; exact k2⟩
    rw [k1]
    cases hk : a.k with
    | one y => rw [hk] at hl; cases hl
    | many l =>
      rw [hk] at hl
      have hl : l[p + 1]? = some x := hl
      have hlt : p + 1 < l.length := by
        by_contra hn
        rw [List.getElem?_eq_none (by omega)] at hl
        cases hl
      change l[min (p + 1) (l.length - 1)]? = _
      rw [show min (p + 1) (l.length - 1) = p + 1 by omega, hl]
  | none =>
    obtain ⟨k1, k2⟩ := hkb.1 hl
    have hc' : a.known = false ∨ (1 ≤ p ∧ 2 ≤ a.k.phases) := by
      refine hc.imp_right (fun hc => ⟨?_, hc.2⟩)
      by_contra hp
      cases hk : a.k with
      | one y => rw [hk] at hc; exact absurd hc.2 (by simp [Multi.phases])
      | many l =>
        rw [hk] at hl hc
        have hl : l[p + 1]? = none := hl
        have hlen : 2 ≤ l.length := hc.2
        rw [List.getElem?_eq_none_iff] at hl
        omega
    obtain ⟨q1, q2⟩ := h.k hc'
    rw [value_succ q1, hl, k1, k2]
    exact ⟨rfl, q2⟩

/-- C79.  At every moment of a run (any activation order, any random choices, any number of phases) the parameters in force are the ones listed for the
current phase, where a list that is too short keeps its last value; the number of phases is never exceeded. -/
theorem C79_values_in_force [FloorSemiring K] {a : Args K} {d : Draws K} {n : Nat} (hacc : Accepted a d n) {o : Order} (ho : a.order = .one o)
    {t : Turns} (ht : TurnsOK t) {solver : State K → K} {b : Built K} (hb : construct a d = .ok b)
    {l : Loop (Nat × Nat × State K) (List (MetricValue K))}
    (hl : Reached (runEnv a b solver t) { Loop.init (0, b.n, initState b.config) b.maxIter with world := (0, b.n, { initState b.config with idSeq := 0 }) } l) :
    InForce a l.phase l.world.2.2 ∧ a.maxIter.value l.phase = some l.maxIter ∧ a.n.value l.phase = some l.world.2.1 ∧ l.phase < a.totalPhases := by
  obtain ⟨b', hb', hf⟩ := C77_constructor hacc
  rw [hb] at hb'
  cases hb'
  suffices hmain : Reachable b.config l.world.2.2 ∧ InForce a l.phase l.world.2.2 ∧ a.maxIter.value l.phase = some l.maxIter ∧ a.n.value l.phase = some l.world.2.1 ∧
      l.phase < a.totalPhases from hmain.2
  induction hl with
  | start =>
    refine ⟨⟨[], by simp, rfl⟩, ⟨value_zero hf.a0, value_zero hf.relThr, value_zero hf.absThr, value_zero hf.extraFrac, ?_, hf.scheme⟩, value_zero hf.maxIter, ?_, ?_⟩
    · intro hc
      rcases hc with hc | hc
      · obtain ⟨k, k1, k2, -⟩ := hf.k
        obtain ⟨k3, k4⟩ := k2 hc
        change a.k.value 0 = some b.config.rs.k ∧ b.config.rs.beta = 1 / (b.config.rs.k : K)
        rw [k3]
        exact ⟨value_zero k1, k4⟩
      · exact absurd hc.1 (by simp [Loop.init])
    · change a.n.value 0 = some b.n
      rw [hacc.n, hf.n]; rfl
    · change 0 < a.totalPhases
      unfold Args.totalPhases; simp
  | @step l l' _ hrun hs ih =>
    obtain ⟨e1, e2, e3, e4, e5⟩ := ih
    have hround : ∀ w, (runEnv a b solver t).round l.steps l.world = .ok w → w.2.1 = l.world.2.1 ∧ Reachable b.config w.2.2 ∧ InForce a l.phase w.2.2 := by
      intro w hw
      obtain ⟨es, g1, g2⟩ := round_events (F := K) b.order ht l.world.2.2.agents.length l.steps
      rw [agents_length e1] at g2
      change (do let s ← b.order.round l.world.2.2.agents.length t l.steps l.world.2.2; return (l.steps + 1, l.world.2.1, s) : Py (Nat × Nat × State K)) = _ at hw
      rw [g1] at hw
      cases hi : iterM exec l.world.2.2 es with
      | error e => rw [hi] at hw; cases hw
      | ok s' =>
        rw [hi] at hw
        cases hw
        refine ⟨rfl, ?_⟩
        clear g1 hs e4
        refine iterM_induct (P := fun s => Reachable b.config s ∧ InForce a l.phase s) (V := fun ev => Event.Valid b.config.people.length ev ∧ ∀ p, ev ≠ .phase p) ?_
          ⟨e1, e2⟩ g2 hi
        rintro s ev s' ⟨r1, r2⟩ ⟨hv, hev⟩ he
        obtain ⟨hd, -⟩ := ((r1.good minUnit_pos).exec minUnit_pos hv).of_ok he
        have hp := hd.params (c := { b.config with rs := s.rs, relThr := s.relThr, absThr := s.absThr, extraFrac := s.extraFrac }) hev ⟨rfl, rfl, rfl, rfl⟩
        exact ⟨r1.next hv he, r2.keep hp.rs hp.relThr hp.absThr hp.extraFrac⟩
    unfold Loop.step at hs
    cases hrep : (runEnv a b solver t).report l.world with
    | error e => rw [hrep] at hs; cases hs
    | ok row =>
      simp only [hrep, bind, Except.bind, pure, Except.pure] at hs
      split at hs
      · cases hs
        exact ⟨e1, e2, e3, e4, e5⟩
      · cases hrd : (runEnv a b solver t).round l.steps l.world with
        | error e => simp only [hrd] at hs; cases hs
        | ok w =>
          obtain ⟨q1, q2, q3⟩ := hround w hrd
          simp only [hrd] at hs
          have rearm : ∀ {p : Nat} {w : Nat × Nat × State K}, Reachable b.config w.2.2 → InForce a p w.2.2 →
              Reachable b.config ((runEnv a b solver t).rearm w).2.2 ∧ InForce a p ((runEnv a b solver t).rearm w).2.2 :=
            fun r1 r2 => ⟨r1.next (ev := .roundEnd) trivial rfl, r2.keep rfl rfl rfl rfl⟩
          split at hs
          · split at hs
            · split at hs
              · rename_i hlt
                simp only [Loop.changePhase] at hs
                cases hp : changePhase w.2.2 (a.phase (l.phase + 1)) with
                | error e => simp [runEnv, hp, bind, Except.bind] at hs
                | ok s' =>
                  have hnew : (runEnv a b solver t).newPhase (l.phase + 1) w = .ok (w.1, (a.n.later (l.phase + 1)).getD w.2.1, s') := by
                    simp only [runEnv, hp, ho, Multi.later, bind, Except.bind, pure, Except.pure]
                  simp only [hnew, bind, Except.bind, pure, Except.pure] at hs
                  cases hs
                  obtain ⟨r1, r2⟩ := rearm (w := (w.1, (a.n.later (l.phase + 1)).getD w.2.1, s')) (q2.next (ev := .phase (a.phase (l.phase + 1))) trivial hp) (q3.phase hp)
                  refine ⟨r1, r2, value_succ e3, ?_, ?_⟩
                  · have := value_succ e4
                    rw [← q1] at this
                    exact this
                  · rw [show (runEnv a b solver t).totalPhases = a.totalPhases from hf.phases] at hlt
                    change l.phase + 1 < _
                    have : l.phase < a.totalPhases - 1 := hlt
                    omega
              · cases hs
                exact ⟨q2, q3, e3, by rw [← q1] at e4; exact e4, e5⟩
            · cases hs
              obtain ⟨r1, r2⟩ := rearm q2 q3
              exact ⟨r1, r2, e3, by rw [← q1] at e4; exact e4, e5⟩
          · cases hs
            obtain ⟨r1, r2⟩ := rearm q2 q3
            exact ⟨r1, r2, e3, by rw [← q1] at e4; exact e4, e5⟩

end RSE.Props
