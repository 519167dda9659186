import Verif.Lemmas.MetricsFloats
import Verif.Lemmas.ConstructShape
import Verif.Props.CrashFloats
import Verif.Props.EndToEnd

/-!
# C125: a whole run in binary64

C78 says that a run completes in exact arithmetic.  In binary64 it does too if the conditions of C124 hold for as many rounds as there can be: neither the
rounds nor the metrics nor the files at the end raise.  `np.sum` is modelled like `fsum`; which of the two it is does not matter here, since all that is used
is that a sum of positive numbers is positive.
-/

set_option linter.unusedSectionVars false
set_option exponentiation.threshold 2000

namespace RSE.Props

/-- a run of one phase with an invariant that knows the number of the round -/
theorem loop_ok_steps {W R : Type} {env : Env W R} {P : Nat → W → Prop} (h1 : env.totalPhases ≤ 1) {m : Int}
    (hrep : ∀ (i : Nat) w, (i : Int) ≤ m → P i w → ∃ r, env.report w = .ok r) (hround : ∀ (i : Nat) w, (i : Int) < m → P i w → ∃ w', env.round i w = .ok w' ∧ P (i + 1) w')
    (hrearm : ∀ i w, P i w → P i (env.rearm w)) (fuel : Nat) {l : Loop W R} (hl : l.maxIter = m) (hp : P l.steps l.world)
    (hf : m + 1 ≤ (fuel : Int) + l.steps) : ∃ l', Loop.loop env fuel l = .ok l' ∧ P l'.steps l'.world ∧ ((l'.steps : Int) ≤ m ∨ m < l.steps) := by
  induction fuel generalizing l with
  | zero =>
    have h0 : ¬ (l.steps : Int) ≤ l.maxIter := by push_cast at hf; omega
    unfold Loop.loop
    rw [if_neg (by simp [h0])]
    exact ⟨l, rfl, hp, .inr (by omega)⟩
  | succ fuel ih =>
    unfold Loop.loop
    split
    · rename_i hc
      have hle : (l.steps : Int) ≤ m := by
        rw [Bool.and_eq_true, decide_eq_true_eq, hl] at hc; exact hc.1
      have hstep : ∃ l₂, l.step env = .ok l₂ ∧ P l₂.steps l₂.world ∧ l₂.maxIter = m ∧ ((l₂.running = false ∧ (l₂.steps : Int) ≤ m) ∨ (l₂.steps = l.steps + 1 ∧ (l₂.steps : Int) ≤ m)) := by
        obtain ⟨row, e1⟩ := hrep _ _ hle hp
        unfold Loop.step
        simp only [e1, bind, Except.bind, pure, Except.pure]
        split
        · exact ⟨_, rfl, hp, hl, .inl ⟨rfl, hle⟩⟩
        · rename_i hlt
          have hlt : (l.steps : Int) < m := by rw [hl] at hlt; omega
          obtain ⟨w₂, e2, e3⟩ := hround _ _ hlt hp
          simp only [e2]
          have hle' : ((l.steps + 1 : Nat) : Int) ≤ m := by push_cast; omega
          split
          · split
            · split
              · rename_i hph; have : env.totalPhases - 1 = 0 := by omega
                omega
              · exact ⟨_, rfl, e3, hl, .inl ⟨rfl, hle'⟩⟩
            · exact ⟨_, rfl, hrearm _ _ e3, hl, .inr ⟨rfl, hle'⟩⟩
          · exact ⟨_, rfl, hrearm _ _ e3, hl, .inr ⟨rfl, hle'⟩⟩
      obtain ⟨l₂, e1, e2, e3, e4⟩ := hstep
      change ∃ l', (Except.bind (l.step env) fun l => Loop.loop env fuel l) = .ok l' ∧ _
      rw [e1]
      change ∃ l', Loop.loop env fuel l₂ = .ok l' ∧ _
      rcases e4 with ⟨e4, e5⟩ | ⟨e4, e5⟩
      · unfold Loop.loop
        rw [if_neg (by simp [e4])]
        exact ⟨l₂, rfl, e2, .inl e5⟩
      · obtain ⟨l', g1, g2, g3⟩ := ih e3 e2 (by rw [e4]; push_cast at hf ⊢; omega)
        exact ⟨l', g1, g2, .inl (by omega)⟩
    · rename_i hc
      by_cases h : (l.steps : Int) ≤ m
      · exact ⟨l, rfl, hp, .inl h⟩
      · exact ⟨l, rfl, hp, .inr (by omega)⟩

/-- reached by events that round at most `N` times -/
def ReachedWithin (c : Config B64) (N : Nat) (s : State B64) : Prop :=
  ∃ es : List (Event B64), (∀ ev ∈ es, ev.Valid c.people.length ∧ ∀ p, ev ≠ .phase p) ∧ iterM exec (initState c) es = .ok s ∧ (es.map rounds64).sum ≤ N

theorem agents_keys64 {c : Config B64} {s : State B64} (h : Reachable c s) (a : Nat) : a ∈ s.agents.keys ↔ a < c.people.length := by
  have hg := h.good RoundedArith.minUnit_pos
  rw [Dict.mem_keys_iff, ← Option.isSome_iff_exists, hg.fixed.isSome, Option.isSome_iff_exists, ← Dict.mem_keys_iff, keys_init, List.mem_range]

theorem agents_length64 {c : Config B64} {s : State B64} (h : Reachable c s) : s.agents.length = c.people.length := by
  have hp : s.agents.keys.Perm (List.range c.people.length) := by
    rw [List.perm_ext_iff_of_nodup (h.good RoundedArith.minUnit_pos).inv.core.agentsNodup List.nodup_range]
    intro a
    rw [agents_keys64 h, List.mem_range]
  simpa [Dict.keys] using hp.length_eq

theorem registered64 {c : Config B64} {s : State B64} (h : Reachable c s) : Registered c.people.length s := by
  have hg := h.good RoundedArith.minUnit_pos
  have hmem : ∀ p ∈ poolsList s, p.owner ∈ s.agents.keys := by
    intro p hp
    obtain ⟨e, he, rfl⟩ := List.mem_map.1 hp
    obtain ⟨ag, σ, ha, -, -⟩ := hg.inv.owner (Dict.get?_of_mem hg.inv.core.poolsNodup he)
    exact Dict.mem_keys_of_get? ha
  exact ⟨hg.inv.core.agentsNodup, hmem, fun p hp => (agents_keys64 h _).1 (hmem p hp)⟩

/-- no pool is saturated at 0 -/
theorem sat_ne_zero64 {c : Config B64} {s : State B64} (h : ReachableSinglePhase c s) {D : ℚ} (hs : Solid c D) : ∀ p ∈ poolsList s, s.rs.sat p.pledge ≠ 0 := by
  have hmin := RoundedArith.minUnit_pos (F := B64)
  have hg := (Reachable.of_single h).good hmin
  intro p hp
  obtain ⟨e, he, rfl⟩ := List.mem_map.1 hp
  have hget := Dict.get?_of_mem hg.inv.core.poolsNodup he
  obtain ⟨ag, σ, ha, hσ, ho⟩ := hg.inv.owner hget
  have hprof : ag.profile ≠ .abstainer := fun hprof => by
    have := (hg.inv.abst _ ag ha hprof).1
    rw [hσ] at this; cases this
  obtain ⟨rs, f, ⟨rfl, rfl⟩, ht⟩ := (h.terms hmin _ ag ha).strategy σ hσ
  have hne : σ.owned ≠ [] := by rintro hne; rw [hne] at ho; cases ho
  obtain ⟨q, co, hq, hco, -, hall⟩ := ht.exists_terms hne
  obtain ⟨h1, -, -, -⟩ := hall _ _ ho
  obtain ⟨-, -, -, k⟩ := hs _ (List.mem_of_getElem? (hg.person ha)) hprof _ q co (List.length_pos_of_ne_nil hne) ht.len hq hco
  rw [h1, (h.params hmin).rs]
  exact k

theorem rounds64_stepEvents (ords : Nat → List Nat → List Nat) (l : List Nat) : ((stepEvents ords l).map rounds64).sum = 8 * l.length := by
  have h1 : ∀ (l : List (Nat × Nat)), ((l.map (fun e => (.step e.1 (ords e.2) : Event B64))).map rounds64).sum = 8 * l.length := by
    intro l
    induction l with
    | nil => rfl
    | cons e t ih => rw [List.map_cons, List.map_cons, List.sum_cons, ih, List.length_cons]; simp only [rounds64]; omega
  unfold stepEvents
  rw [h1, List.length_zipIdx]

/-- what rounding can do to the stake of a pool during `m` rounds (C124) -/
def runDrift (c : Config B64) (m : Nat) : ℚ := 8 * c.people.length * m * (2 : ℚ) ^ (-51 : Int) * allStake c

/-- the requirements of C124 for `m` rounds -/
structure FloatsOK (c : Config B64) (m : Nat) : Prop where
  k : 1 ≤ c.rs.k
  beta : 0 < c.rs.beta
  extra : 0 ≤ c.extraFrac
  people : ∀ e ∈ c.people, 0 ≤ e.1 ∧ 0 ≤ e.2.1
  few : c.people.length * m ≤ 2 ^ 49
  pledges : ∀ e ∈ c.people, e.2.2 ≠ .abstainer → PledgesExceed c (runDrift c m) e.1
  pays : ∀ e ∈ c.people, e.2.2 ≠ .abstainer → SaturatedPays c e.1 e.2.1

theorem runDrift_ge {c : Config B64} (h0 : ∀ e ∈ c.people, 0 ≤ e.1) {es : List (Event B64)} {m : Nat} (h : (es.map rounds64).sum ≤ 8 * c.people.length * m) :
    driftBound c es ≤ runDrift c m := by
  have hT : 0 ≤ allStake c := by
    refine List.sum_nonneg fun x hx => ?_
    obtain ⟨e, he, rfl⟩ := List.mem_map.1 hx
    exact h0 e he
  unfold driftBound runDrift
  have : ((es.map rounds64).sum : ℚ) ≤ 8 * c.people.length * m := by exact_mod_cast h
  gcongr

/-- in such a state the metrics and the files can be computed -/
theorem FloatsOK.row {a : Args B64} {b : Built B64} {m : Nat} (h : FloatsOK b.config m) (hb : Shape a b) {s : State B64} (hs : ReachedWithin b.config (8 * b.config.people.length * m) s)
    (env : MetricEnv B64) (hn : env.n = b.n) : ∃ row, collectRow env b.cols s = .ok row := by
  have h0 : ∀ e ∈ b.config.people, 0 ≤ e.1 := fun e he => (h.people e he).1
  obtain ⟨es, h1, h2, h3⟩ := hs
  have hr : ReachableSinglePhase b.config s := ⟨es, h1, h2⟩
  have hR := Reachable.of_single hr
  have hle := runDrift_ge h0 h3
  have hD : 0 ≤ runDrift b.config m := (driftBound_nonneg h0 es).trans hle
  have hsolid := solid_of h.beta h.extra h.people hD h.pledges h.pays
  have hm : (es.map rounds64).sum ≤ 2 ^ 52 := by
    have := h.few
    have e : 8 * b.config.people.length * m = 8 * (b.config.people.length * m) := by ring
    omega
  have hg := hR.good RoundedArith.minUnit_pos
  have hback := hr.backed hsolid
  have hst : ∀ p ∈ poolsList s, 0 < p.stake := by
    intro p hp
    obtain ⟨e, he, rfl⟩ := List.mem_map.1 hp
    have hget := Dict.get?_of_mem hg.inv.core.poolsNodup he
    exact C103_positive h0 h.beta.le (fun ev hev => (h1 ev hev).1) hm h2 hget (hle.trans_lt (hback.pledge _ _ hget))
  have hreg : Registered env.n s := by rw [hn, ← hb.people]; exact registered64 hR
  have hall := metrics_ok64 (env := env) hreg hst (sat_ne_zero64 hr hsolid)
  have hcols := hb.cols
  generalize a.metrics.getD defaultMetrics = metrics at hcols
  have hname : ∀ name ∈ b.cols, ∃ i ∈ metrics, reporterName i = .ok name := by
    unfold columns at hcols
    cases hmm : metrics.mapM reporterName with
    | error e => rw [hmm] at hcols; cases hcols
    | ok names =>
      rw [hmm] at hcols
      have hcols : names.eraseDups = b.cols := Except.ok.inj hcols
      intro name hn
      rw [← hcols, List.mem_eraseDups] at hn
      have key : ∀ (l : List Nat) (ns : List String), l.mapM reporterName = .ok ns → ∀ x ∈ ns, ∃ i ∈ l, reporterName i = .ok x := by
        intro l
        induction l with
        | nil => intro ns h x hx; cases h; cases hx
        | cons a t ih =>
          intro ns h x hx
          rw [List.mapM_cons] at h
          cases ha : reporterName a with
          | error e => rw [ha] at h; cases h
          | ok v =>
            rw [ha] at h
            cases ht : t.mapM reporterName with
            | error e => rw [ht] at h; cases h
            | ok vs =>
              rw [ht] at h; cases h
              rcases List.mem_cons.1 hx with rfl | hx
              · exact ⟨a, List.mem_cons_self, ha⟩
              · obtain ⟨i, hi, he⟩ := ih vs ht x hx
                exact ⟨i, List.mem_cons_of_mem _ hi, he⟩
      exact key metrics names hmm name hn
  obtain ⟨row, h4, -⟩ := mapM_ok (l := b.cols) (f := reportColumn env s) (fun name hn => by
    obtain ⟨i, -, hi⟩ := hname name hn
    have hmem := C74_names.2.1 i name hi
    rw [← names_eq env s] at hmem
    obtain ⟨v, e1, e2⟩ := lookup_isSome hmem
    obtain ⟨w, hw⟩ := hall _ e2
    exact ⟨w, by unfold reportColumn; rw [e1]; exact hw⟩)
  exact ⟨row, h4⟩

/-- C125.  In binary64, too, a simulation with random or sequential activation and one phase that could be constructed runs to its end without an exception,
whatever the draws, the orders of activation and the metrics, if the conditions of C124 hold for `max_iterations` rounds: it stops after at most so many, has
exported its results exactly once and collected a complete row of metrics per round, and every file can be written. -/
theorem C125_completes {a : Args B64} {d : Draws B64} {b : Built B64} (hb : construct a d = .ok b) {m : Nat} (hm : a.maxIter = .one m) (h1 : a.totalPhases = 1)
    (ho : a.order.first = .ok .random ∨ a.order.first = .ok .sequential) (h : FloatsOK b.config m) {t : Turns} (ht : TurnsOK t) (solver : State B64 → B64)
    (rnd rnd4 : B64 → B64) :
    ∃ l, simulate a d solver t (m + 1) = .ok l ∧ Completed b rnd rnd4 m l ∧ ReachableSinglePhase b.config l.world.2.2 := by
  have hsh := shape_of_construct hb
  have hbm : b.maxIter = m := by have := hsh.maxIter; rw [hm] at this; exact (Except.ok.inj this).symm
  have hseq : b.order = .random ∨ b.order = .sequential := by
    rcases ho with ho | ho
    · left; have := hsh.order; rw [ho] at this; exact (Except.ok.inj this).symm
    · right; have := hsh.order; rw [ho] at this; exact (Except.ok.inj this).symm
  have hsim : b.config.simultaneous = false := by
    rw [hsh.simultaneous]; rcases hseq with h | h <;> rw [h] <;> rfl
  have h0 : ∀ e ∈ b.config.people, 0 ≤ e.1 := fun e he => (h.people e he).1
  have hmax : ∀ p, (runEnv a b solver t).newMax p = none := fun p => by change a.maxIter.later p = none; rw [hm]; rfl
  have hmono : ∀ {i : Nat} {s : State B64}, i ≤ m → ReachedWithin b.config (8 * b.config.people.length * i) s →
      ReachedWithin b.config (8 * b.config.people.length * m) s := by
    rintro i s hi ⟨es, e1, e2, e3⟩
    exact ⟨es, e1, e2, e3.trans (Nat.mul_le_mul_left _ hi)⟩
  obtain ⟨l, hl, ⟨-, hp⟩, hle⟩ := loop_ok_steps (env := runEnv a b solver t) (by change b.totalPhases ≤ 1; rw [hsh.phases, h1]) (m := (m : Int))
    (P := fun i w => w.2.1 = b.n ∧ ReachedWithin b.config (8 * b.config.people.length * i) w.2.2)
    (by
      rintro i w hi ⟨e1, e2⟩
      exact h.row hsh (hmono (by omega) e2) ⟨w.2.1, w.1, solver⟩ e1)
    (by
      rintro i w hi ⟨e1, es₀, q1, q2, q3⟩
      have hR : Reachable b.config w.2.2 := .of_single ⟨es₀, q1, q2⟩
      have hround : ∃ order : List Nat, order.Perm (List.range b.config.people.length) ∧
          ∀ s : State B64, b.order.round b.config.people.length t i s = iterM exec s (stepEvents (t.ords i 0) order) := by
        rcases hseq with ho | ho <;> rw [ho]
        · exact ⟨_, ht.shuffle i _, fun s => by unfold stepEvents; rw [iterM_map]; rfl⟩
        · exact ⟨_, List.Perm.refl _, fun s => by unfold stepEvents; rw [iterM_map]; rfl⟩
      obtain ⟨order, hord, g1⟩ := hround
      have g2 := stepEvents_valid (F := B64) (ht.ords i 0) (l := order) (n := b.config.people.length) (fun x hx => List.mem_range.1 (hord.mem_iff.1 hx))
      have hall : ∀ e ∈ es₀ ++ stepEvents (t.ords i 0) order, e.Valid b.config.people.length ∧ ∀ p, e ≠ .phase p := by
        intro e he
        rcases List.mem_append.1 he with he | he
        · exact q1 e he
        · exact g2 e he
      have hsum : ((es₀ ++ stepEvents (t.ords i 0) order).map rounds64).sum ≤ 8 * b.config.people.length * (i + 1) := by
        rw [List.map_append, List.sum_append, rounds64_stepEvents, hord.length_eq, List.length_range, Nat.mul_succ]
        omega
      have hsum' : ((es₀ ++ stepEvents (t.ords i 0) order).map rounds64).sum ≤ 8 * b.config.people.length * m :=
        hsum.trans (Nat.mul_le_mul_left _ (by omega))
      have hdr := runDrift_ge h0 hsum'
      obtain ⟨s', hs'⟩ := C124_no_crash hsim h.k h.beta h.extra h.people hall (by
          have := h.few
          have e : 8 * b.config.people.length * m = 8 * (b.config.people.length * m) := by ring
          omega)
        (fun e he hne => ⟨hdr.trans_lt (h.pledges e he hne).1, hdr.trans_lt (h.pledges e he hne).2⟩) h.pays
      have hs₂ := hs'
      rw [iterM_append, q2] at hs'
      have hs' : iterM exec w.2.2 (stepEvents (t.ords i 0) order) = .ok s' := hs'
      refine ⟨(i + 1, w.2.1, s'), ?_, e1, _, hall, hs₂, hsum⟩
      change (do let s ← b.order.round w.2.2.agents.length t i w.2.2; return (i + 1, w.2.1, s) : Py (Nat × Nat × State B64)) = _
      rw [agents_length64 hR, g1, hs']
      rfl)
    (by
      rintro i w ⟨e1, es, q1, q2, q3⟩
      refine ⟨e1, es ++ [.roundEnd], ?_, ?_, ?_⟩
      · intro e he
        rcases List.mem_append.1 he with he | he
        · exact q1 e he
        · rw [List.mem_singleton] at he; subst he; exact ⟨trivial, fun p => by simp⟩
      · rw [iterM_append, q2]; rfl
      · rw [List.map_append, List.sum_append]; simpa [rounds64] using q3)
    (m + 1) (l := { Loop.init (0, b.n, initState b.config) (m : Int) with world := (0, b.n, { initState b.config with idSeq := 0 }) }) rfl
    ⟨rfl, [], by simp, rfl, by simp⟩ (by change (m : Int) + 1 ≤ ((m + 1 : Nat) : Int) + (0 : Nat); push_cast; omega)
  have hl : Loop.runModel (runEnv a b solver t) (m + 1) (Loop.init (0, b.n, initState b.config) (m : Int)) = .ok l := hl
  obtain ⟨es, q1, q2, -⟩ := hp
  have hr : ReachableSinglePhase b.config l.world.2.2 := ⟨es, q1, q2⟩
  refine ⟨l, by unfold simulate; rw [hb]; change Loop.runModel _ _ (Loop.init _ b.maxIter) = _; rw [hbm]; exact hl, completed_of_run hm (by omega) hl (fun conv => ?_), hr⟩
  have hR := Reachable.of_single hr
  obtain ⟨out, o1, -, o2⟩ := (registered64 hR).wrapUp rnd rnd4 conv (fun x hx => by rw [agents_keys64 hR]; rwa [agents_length64 hR] at hx)
  exact ⟨out, o1, by rw [o2, agents_length64 hR, hsh.people]⟩

/-! ### The theorem at work -/

/-- four agents with stakes from a file, up to a million rounds -/
def floatArgs : Args B64 :=
  { n := .one 4, k := .one 2, a0 := .one (flt 3 10), relThr := .one 0, absThr := .one (flt 1 1000000000), maxIter := .one (1000000 : Nat), extraFrac := .one (flt 4 10),
    order := .one .random, scheme := 0, weights := none, inactive := 0, known := false, costMin := flt 1 100000, costMax := flt 2 100000, source := .file,
    metrics := none, conv := 10 }

def floatDraws : Draws B64 :=
  { pareto := fun _ => 0, file := [flt 4 10, flt 3 10, flt 2 10, flt 1 10], choice := fun i => i, cost := fun i => flt i 4, profile := fun _ => 0 }

/-- the conditions, for `k = 2` and no abstainers, in a form that can be computed -/
def checks (c : Config B64) (m : Nat) : Prop :=
  c.rs.k = 2 ∧ 0 < c.rs.beta ∧ 0 ≤ c.extraFrac ∧ (∀ e ∈ c.people, 0 ≤ e.1 ∧ 0 ≤ e.2.1) ∧ c.people.length * m ≤ 2 ^ 49 ∧
    (∀ e ∈ c.people, runDrift c m < (e.1 / (c.rs.k : B64)).1 ∧ runDrift c m < c.rs.beta.1) ∧
    ∀ j ∈ [1, 2], ∀ e ∈ c.people, costOf j e.2.1 c.extraFrac < c.rs.reward (min (e.1 / (j : B64)) c.rs.beta) (c.rs.sat (min (e.1 / (j : B64)) c.rs.beta))

instance (c : Config B64) (m : Nat) : Decidable (checks c m) := by unfold checks; infer_instance

theorem floatsOK_of_checks {c : Config B64} {m : Nat} (h : checks c m) : FloatsOK c m := by
  obtain ⟨h1, h2, h3, h4, h5, h6, h7⟩ := h
  refine ⟨by omega, h2, h3, h4, h5, fun e he _ => h6 e he, fun e he _ j j1 j2 => h7 j ?_ e he⟩
  rw [List.mem_cons, List.mem_singleton]; omega

theorem floats_constructed : ∃ b, construct floatArgs floatDraws = .ok b ∧ b.config.people.length = 4 ∧ FloatsOK b.config 1000000 := by
  have key : (match construct floatArgs floatDraws with
    | .ok b => decide (b.config.people.length = 4 ∧ checks b.config 1000000)
    | .error _ => false) = true := by decide +kernel
  cases h : construct floatArgs floatDraws with
  | error e => rw [h] at key; cases key
  | ok b =>
    rw [h] at key
    obtain ⟨k1, k2⟩ := of_decide_eq_true key
    exact ⟨b, rfl, k1, floatsOK_of_checks k2⟩

/-- Up to a million rounds of these four agents end without an exception, for all orders of activation. -/
example {t : Turns} (ht : TurnsOK t) (solver : State B64 → B64) (rnd rnd4 : B64 → B64) :
    ∃ b l, construct floatArgs floatDraws = .ok b ∧ simulate floatArgs floatDraws solver t 1000001 = .ok l ∧ Completed b rnd rnd4 1000000 l := by
  obtain ⟨b, h1, -, h2⟩ := floats_constructed
  obtain ⟨l, h3, h4, -⟩ := C125_completes h1 rfl (by decide) (.inl rfl) h2 ht solver rnd rnd4
  exact ⟨b, l, h1, h3, h4⟩

/-- two agents, one of them with a stake of `10 ^ -18`; three quarters of the stake are inactive -/
def dustArgs : Args B64 :=
  { floatArgs with n := .one 2, k := .one 1, absThr := .one 0, maxIter := .one (4 : Nat), extraFrac := .one (flt 5 10), order := .one .sequential, costMin := flt 1 1000,
                   costMax := flt 1 10, inactive := flt 3 4 }

def dustDraws : Draws B64 := { floatDraws with file := [flt 1 (10 ^ 18), flt 1 4], cost := fun i => if i = 0 then 0 else flt 9 10 }

/-- everything in the order in which it is given -/
def plainTurns : Turns := ⟨fun _ l => l, fun _ l m => l.take m, fun _ _ _ l => l⟩

/-- the same list of values as exact numbers -/
def exactValues : Multi B64 → Multi ℚ
  | .one x => .one x.1
  | .many l => .many (l.map (fun x => x.1))

/-- the same arguments, but computed with exactly -/
def exactArgs (a : Args B64) : Args ℚ :=
  { n := a.n, k := a.k, a0 := exactValues a.a0, relThr := exactValues a.relThr, absThr := exactValues a.absThr, maxIter := a.maxIter, extraFrac := exactValues a.extraFrac,
    order := a.order, scheme := a.scheme, weights := a.weights.map (fun l => l.map (fun x => x.1)), inactive := a.inactive.1, known := a.known,
    costMin := a.costMin.1, costMax := a.costMax.1, source := a.source, metrics := a.metrics, conv := a.conv }

def exactDraws (d : Draws B64) : Draws ℚ :=
  { pareto := fun i => (d.pareto i).1, file := d.file.map (fun x => x.1), choice := d.choice, cost := fun i => (d.cost i).1, profile := fun i => (d.profile i).1 }

theorem dust_accepted : Accepted (exactArgs dustArgs) (exactDraws dustDraws) 2 where
  n := rfl
  n_pos := by decide
  k := by change 1 ≤ 1; decide
  a0 := by change (0 : ℚ) ≤ (flt 3 10).1; decide +kernel
  relThr := le_rfl
  absThr := le_rfl
  maxIter := by change (1 : Int) ≤ 4; decide
  extraFrac := by change (0 : ℚ) ≤ (flt 5 10).1; decide +kernel
  order := trivial
  scheme := .inl rfl
  weights := by intro w hw; cases hw
  inactive := by change (0 : ℚ) ≤ (flt 3 4).1 ∧ (flt 3 4).1 < 1; decide +kernel
  costMin := by change (0 : ℚ) ≤ (flt 1 1000).1; decide +kernel
  costs := by change (flt 1 1000).1 ≤ (flt 1 10).1; decide +kernel
  metrics := by intro l hl; cases hl
  disparity := by intro h; cases h
  file := fun _ => by
    change [(flt 1 (10 ^ 18)).1, (flt 1 4).1] ≠ [] ∧ ∀ x ∈ [(flt 1 (10 ^ 18)).1, (flt 1 4).1], 0 < x
    decide +kernel
  pareto := fun _ => le_rfl
  cost := fun i => by
    change (0 : ℚ) ≤ (if i = 0 then (0 : B64) else flt 9 10).1 ∧ (if i = 0 then (0 : B64) else flt 9 10).1 < 1
    split <;> decide +kernel
  profile := fun _ => by change (0 : ℚ) ≤ 0 ∧ (0 : ℚ) < 1; decide

/-- C125.  Without the condition on the pledges a whole run can fail: here the simulation is constructed, all stakes and costs are positive, and a division by
zero ends the run.  With the same numbers in exact arithmetic every run completes. -/
theorem C125_can_crash : (∃ b, construct dustArgs dustDraws = .ok b ∧ b.config.people.length = 2 ∧ ∀ e ∈ b.config.people, 0 < e.1 ∧ 0 < e.2.1) ∧
    simulate dustArgs dustDraws (fun _ => 0) plainTurns 5 = .error .zeroDiv ∧
    ∀ t, TurnsOK t → ∃ b l, construct (exactArgs dustArgs) (exactDraws dustDraws) = .ok b ∧
      simulate (exactArgs dustArgs) (exactDraws dustDraws) (fun _ => 0) t 5 = .ok l ∧ Completed b id id 4 l := by
  have key : (match construct dustArgs dustDraws with
    | .ok b => decide (b.config.people.length = 2 ∧ ∀ e ∈ b.config.people, 0 < e.1 ∧ 0 < e.2.1)
    | .error _ => false) = true := by decide +kernel
  have key' : (match simulate dustArgs dustDraws (fun _ => 0) plainTurns 5 with
    | .ok _ => none
    | .error e => some e) = some .zeroDiv := by decide +kernel
  refine ⟨?_, ?_, fun t ht => C78_completes dust_accepted (by decide) rfl rfl (.inr rfl) rfl (fun h => by cases h) ht _ id id⟩
  · cases h : construct dustArgs dustDraws with
    | error e => rw [h] at key; cases key
    | ok b => rw [h] at key; exact ⟨b, rfl, of_decide_eq_true key⟩
  · cases h : simulate dustArgs dustDraws (fun _ => 0) plainTurns 5 with
    | error e => rw [h] at key'; simp only [Option.some.injEq] at key'; rw [key']
    | ok l => rw [h] at key'; cases key'

end RSE.Props
