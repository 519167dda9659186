import Verif.Lemmas.Loop
import Verif.Spec.Demo
import Verif.Model.Reporters

/-!
# C33, C34, C36, C38: the run around the rounds

All theorems are about an arbitrary environment (`Env`): any agents, any scheduler, any parameters.
-/

set_option linter.unusedSectionVars false

namespace RSE.Props

variable {W R : Type}

/-! ### C33 -/

/-- C33.  If `max_iterations` is not a list: `run_model` calls `step` at most `max_iterations + 1` times (with this many calls the loop ends, it
can only fail with an error of a round, a metric or a phase change); it performs at most `max_iterations` rounds; then `running` is false and
the outputs have been exported exactly once. -/
theorem C33_terminates (env : Env W R) (hm : ∀ p, env.newMax p = none) (w : W) (m : Int) (h0 : 0 ≤ m) :
    (∀ e, Loop.runModel env (m.toNat + 1) (Loop.init w m) = .error e →
      ∃ w, env.report w = .error e ∨ (∃ i, env.round i w = .error e) ∨ ∃ i, env.newPhase i w = .error e) ∧
    ∀ fuel l, Loop.runModel env fuel (Loop.init w m) = .ok l →
      l.running = false ∧ l.exports.length = 1 ∧ (l.rows.length : Int) ≤ m + 1 ∧
      ∃ h w', History env (env.resetIds w) h w' ∧ h.length = l.steps ∧ (h.length : Int) ≤ m := by
  constructor
  · intro e he
    exact (Track.init env (env.resetIds w) m).loop_fuel hm _ (by simpa [Loop.init] using h0) (by simp [Loop.init, h0]) he
  · intro fuel l hl
    obtain ⟨h, -, -, hle, hh | hh⟩ := (Track.init env (env.resetIds w) m).loop_max hm fuel (by simpa [Loop.init] using h0) hl
    · refine ⟨hh.running, by simp [hh.exports], ?_, h, _, hh.hist, hh.steps.symm, hle⟩
      obtain ⟨row, -, rs, h1, h2⟩ := hh.rows
      rw [h1]
      have := h2.length_eq
      simp only [List.length_append, List.length_singleton]
      change (h.length : Int) ≤ m at hle
      omega
    · refine ⟨hh.running, by simp [hh.exports], ?_, h, _, hh.hist, hh.steps.symm, hle⟩
      have := hh.rows.length_eq
      change (h.length : Int) ≤ m at hle
      omega

/-! ### C34 -/

theorem lastIdle_rounds {env : Env W R} {h : List (Round W)} {i : Nat} (hi : i < h.length) {n : Int} (hl : LastIdle env (h.take (i + 1)) n) :
    0 ≤ (i : Int) - n + 1 ∧ ∀ j : Nat, (i : Int) - n + 1 ≤ j → j ≤ i → ∃ hj : j < h.length, (h[j]).Idle env := by
  obtain ⟨a, b⟩ := hl
  have hlen : (h.take (i + 1)).length = i + 1 := by simp; omega
  rw [hlen] at a
  refine ⟨by omega, fun j h1 h2 => ?_⟩
  have := b j (by omega) (by omega)
  rw [List.getElem_take] at this
  exact ⟨by omega, this⟩

theorem mem_eqOf {env : Env W R} {h : List (Round W)} {s : Int} (hs : s ∈ eqOf env h) :
    ∃ i, ∃ hi : i < h.length, s = (i : Int) - env.conv ∧ (h[i]).phaseChange = true := by
  unfold eqOf at hs
  obtain ⟨⟨r, i⟩, he, rfl⟩ := List.mem_map.1 hs
  obtain ⟨h1, h2⟩ := List.mem_filter.1 he
  have := List.mem_zipIdx_iff_getElem?.1 h1
  obtain ⟨hi, hr⟩ := List.getElem?_eq_some_iff.1 this
  exact ⟨i, hi, rfl, by rw [hr]; exact h2⟩

/-- C34.  For the run that took place there is a history `h` of its rounds such that: "Equilibrium reached" is exported as "Yes" exactly if the
last `iterations_after_convergence` rounds were idle; every reported equilibrium step `s` is such that the rounds
`s + 1, ..., s + iterations_after_convergence` took place and were idle.  (This is about rounds of any phase; see
`C34_stale_equilibrium`.) -/
theorem C34_equilibrium (env : Env W R) (hm : ∀ p, env.newMax p = none) (w : W) (m : Int) (h0 : 0 ≤ m) (fuel : Nat) (l : Loop W R)
    (hl : Loop.runModel env fuel (Loop.init w m) = .ok l) :
    ∃ h w', History env (env.resetIds w) h w' ∧ h.length = l.steps ∧
      (l.exports = [true] ↔ LastIdle env h env.conv) ∧
      ∀ s ∈ l.eqSteps, 0 ≤ s + 1 ∧ ∀ j : Nat, s + 1 ≤ j → (j : Int) ≤ s + env.conv → ∃ hj : j < h.length, (h[j]).Idle env := by
  have conv : ∀ (h : List (Round W)) (i : Nat) (hi : i < h.length), LastIdle env (h.take (i + 1)) env.conv →
      ∀ s : Int, s = (i : Int) - env.conv → 0 ≤ s + 1 ∧ ∀ j : Nat, s + 1 ≤ j → (j : Int) ≤ s + env.conv → ∃ hj : j < h.length, (h[j]).Idle env := by
    intro h i hi hst s hs
    obtain ⟨a, b⟩ := lastIdle_rounds hi hst
    subst hs
    exact ⟨by omega, fun j h1 h2 => b j (by omega) (by omega)⟩
  obtain ⟨h, -, -, hle, hh | hh⟩ := (Track.init env (env.resetIds w) m).loop_max hm fuel (by simpa [Loop.init] using h0) hl
  · refine ⟨h, _, hh.hist, hh.steps.symm, ?_, ?_⟩
    · rw [hh.exports, ← trailing_spec]; simp
    · intro s hs
      rw [hh.eqSteps] at hs
      obtain ⟨i, hi, hsi, hp⟩ := mem_eqOf hs
      exact conv h i hi ((hh.conv i hi).1 hp).2.1 s hsi
  · refine ⟨h, _, hh.hist, hh.steps.symm, ?_, ?_⟩
    · rw [hh.exports]; simpa using hh.last
    · intro s hs
      rw [hh.eqSteps] at hs
      obtain ⟨h₀, w₀, hpre, -⟩ := hh.prefix'
      have hpos : h ≠ [] := by rw [hpre]; simp
      have hl1 : 0 < h.length := List.length_pos_iff.2 hpos
      rcases List.mem_append.1 hs with hs | hs
      · obtain ⟨i, hi, hsi, hp⟩ := mem_eqOf hs
        have hi' : i + 1 < h.length := by
          by_contra hcon
          have hie : i = h₀.length := by rw [hpre] at hi hcon; simp at hi hcon; omega
          subst hie
          have : (h[h₀.length]'hi) = ⟨w₀, l.world, false⟩ := by simp [hpre]
          rw [this] at hp; cases hp
        exact conv h i hi ((hh.conv i hi hi').1 hp).2.1 s hsi
      · simp only [List.mem_singleton] at hs
        refine conv h (h.length - 1) (by omega) ?_ s (by omega)
        rw [List.take_of_length_le (by omega)]
        exact hh.last

/-- C34, the other direction for a run with one phase: the run ends with the first round that completes `iterations_after_convergence` idle
rounds, i.e. no earlier idle round did; and exactly one equilibrium step is reported if there is such a round, none otherwise. -/
theorem C34_first (env : Env W R) (hm : ∀ p, env.newMax p = none) (hph : env.totalPhases ≤ 1) (w : W) (m : Int) (h0 : 0 ≤ m) (fuel : Nat)
    (l : Loop W R) (hl : Loop.runModel env fuel (Loop.init w m) = .ok l) :
    ∃ h w', History env (env.resetIds w) h w' ∧ h.length = l.steps ∧ (∀ r ∈ h, r.phaseChange = false) ∧
      (∀ n, 0 < n → n < h.length → ∀ hn : n - 1 < h.length, (h[n - 1]).Idle env → ¬ LastIdle env (h.take n) env.conv) ∧
      ((l.eqSteps = [(h.length : Int) - 1 - env.conv] ∧ LastIdle env h env.conv ∧ ∃ r ∈ h.getLast?, r.Idle env) ∨
       (l.eqSteps = [] ∧ (h.length : Int) = m ∧ ∀ r ∈ h.getLast?, r.Idle env → ¬ LastIdle env h env.conv)) := by
  have nochange : ∀ h : List (Round W), changes h ≤ env.totalPhases - 1 → ∀ r ∈ h, r.phaseChange = false := by
    intro h hc r hr
    have : changes h = 0 := by omega
    unfold changes at this
    rw [List.countP_eq_zero] at this
    simpa using this r hr
  have early : ∀ h : List (Round W), (∀ r ∈ h, r.phaseChange = false) → ∀ n, 0 < n → ∀ hn : n - 1 < h.length,
      ((h[n - 1]).phaseChange = true ↔ Stops env (h.take (n - 1 + 1))) → (h[n - 1]).Idle env → ¬ LastIdle env (h.take n) env.conv := by
    intro h hnc n hn hn' hiff hidle hlast
    rw [Nat.sub_add_cancel hn] at hiff
    have := hiff.2 ⟨by
      intro hnil
      have hlen := congrArg List.length hnil
      rw [List.length_take, List.length_nil] at hlen
      omega, hlast, ?_⟩
    · rw [hnc _ (List.getElem_mem hn')] at this; cases this
    · intro r hr
      rw [List.getLast?_eq_getElem?, List.getElem?_take] at hr
      have hlen : (h.take n).length = n := by simp; omega
      rw [hlen] at hr
      rw [if_pos (by omega)] at hr
      have hr : h[n - 1]? = some r := hr
      obtain ⟨_, hr⟩ := List.getElem?_eq_some_iff.1 hr
      rw [← hr]; exact hidle
  have eqnil : ∀ h : List (Round W), (∀ r ∈ h, r.phaseChange = false) → eqOf env h = [] := by
    intro h hnc
    unfold eqOf
    rw [List.filter_eq_nil_iff.2, List.map_nil]
    rintro ⟨r, i⟩ he
    have := List.mem_zipIdx_iff_getElem?.1 he
    rw [hnc r (List.mem_of_getElem? this)]
    simp
  obtain ⟨h, -, hmeq, hle, hh | hh⟩ := (Track.init env (env.resetIds w) m).loop_max hm fuel (by simpa [Loop.init] using h0) hl
  · have hnc := nochange h hh.phases
    refine ⟨h, _, hh.hist, hh.steps.symm, hnc, ?_, .inr ⟨by rw [hh.eqSteps, eqnil h hnc], ?_, ?_⟩⟩
    · intro n hn hn' hlt hid
      exact early h hnc n hn hlt (hh.conv _ hlt) hid
    · have := hh.max; rw [hmeq] at this; exact le_antisymm hle this
    · intro r hr hid
      have hne : h ≠ [] := by rintro rfl; simp at hr
      have hpos := List.length_pos_iff.2 hne
      have := early h hnc h.length hpos (by omega) (hh.conv _ (by omega)) ?_
      · rwa [List.take_of_length_le le_rfl] at this
      · rw [List.getLast?_eq_getElem?] at hr
        obtain ⟨_, hr⟩ := List.getElem?_eq_some_iff.1 hr
        rw [hr]; exact hid
  · have hnc := nochange h hh.phases.le
    obtain ⟨h₀, w₀, hpre, -⟩ := hh.prefix'
    refine ⟨h, _, hh.hist, hh.steps.symm, hnc, ?_, .inl ⟨by rw [hh.eqSteps, eqnil h hnc]; rfl, hh.last, ?_⟩⟩
    · intro n hn hn' hlt hid
      exact early h hnc n hn hlt (hh.conv _ hlt (by omega)) hid
    · rw [hpre]; exact ⟨⟨w₀, l.world, false⟩, by simp, hh.idle⟩

/-! ### C36 -/

/-- C36.  The rows of metrics.csv: row `i` holds the metrics of the world in which round `i` starts.  If the run converged there is one row per
round; if it hit `max_iterations` there is one more row, with the metrics of the final world. -/
theorem C36_rows (env : Env W R) (hm : ∀ p, env.newMax p = none) (w : W) (m : Int) (h0 : 0 ≤ m) (fuel : Nat) (l : Loop W R)
    (hl : Loop.runModel env fuel (Loop.init w m) = .ok l) :
    ∃ h w', History env (env.resetIds w) h w' ∧ h.length = l.steps ∧
      (∀ i (hi : i < h.length), ∃ row, l.rows[i]? = some row ∧ env.report (h[i]).before = .ok row) ∧
      ((l.rows.length = l.steps ∧ LastIdle env h env.conv ∧ w' = env.rearm l.world ∧ ∃ r ∈ h.getLast?, r.Idle env ∧ r.after = l.world) ∨
       (l.rows.length = l.steps + 1 ∧ (l.steps : Int) = m ∧ w' = l.world ∧
          ∃ row, l.rows[l.steps]? = some row ∧ env.report l.world = .ok row)) := by
  have getrow : ∀ {h : List (Round W)} {rs : List R}, List.Forall₂ (fun r row => env.report r.before = .ok row) h rs →
      ∀ i (hi : i < h.length), ∃ row, rs[i]? = some row ∧ env.report (h[i]).before = .ok row := by
    intro h rs hf i hi
    have hi' : i < rs.length := by rw [← hf.length_eq]; exact hi
    exact ⟨rs[i], List.getElem?_eq_getElem hi', hf.get hi hi'⟩
  obtain ⟨h, -, hmeq, hle, hh | hh⟩ := (Track.init env (env.resetIds w) m).loop_max hm fuel (by simpa [Loop.init] using h0) hl
  · obtain ⟨row, hrow, rs, hrs, hf⟩ := hh.rows
    refine ⟨h, _, hh.hist, hh.steps.symm, ?_, .inr ⟨?_, ?_, rfl, row, ?_, hrow⟩⟩
    · intro i hi
      obtain ⟨row', h1, h2⟩ := getrow hf i hi
      refine ⟨row', ?_, h2⟩
      rw [hrs, List.getElem?_append_left (by rw [← hf.length_eq]; exact hi)]
      exact h1
    · rw [hrs, hh.steps, hf.length_eq]; simp
    · have h1 := hh.max; rw [hmeq] at h1; rw [hh.steps]; exact le_antisymm hle h1
    · rw [hrs, hh.steps, hf.length_eq]; simp
  · obtain ⟨h₀, w₀, hpre, -⟩ := hh.prefix'
    refine ⟨h, _, hh.hist, hh.steps.symm, getrow hh.rows, .inl ⟨?_, hh.last, rfl, ?_⟩⟩
    · rw [hh.steps, hh.rows.length_eq]
    · rw [hpre]; exact ⟨⟨w₀, l.world, false⟩, by simp, hh.idle, rfl⟩

/-! ### C38 -/

theorem pivotsOf_spec (h : List (Round W)) (p : Nat) :
    p ∈ pivotsOf h ↔ ∃ i, ∃ hi : i < h.length, p = i + 1 ∧ (h[i]).phaseChange = true := by
  unfold pivotsOf
  constructor
  · intro hs
    obtain ⟨⟨r, i⟩, he, rfl⟩ := List.mem_map.1 hs
    obtain ⟨h1, h2⟩ := List.mem_filter.1 he
    have := List.mem_zipIdx_iff_getElem?.1 h1
    obtain ⟨hi, hr⟩ := List.getElem?_eq_some_iff.1 this
    exact ⟨i, hi, rfl, by rw [hr]; exact h2⟩
  · rintro ⟨i, hi, rfl, hp⟩
    refine List.mem_map.2 ⟨(h[i], i), List.mem_filter.2 ⟨?_, hp⟩, rfl⟩
    rw [List.mem_zipIdx_iff_getElem?]
    exact List.getElem?_eq_getElem hi

theorem eqOf_length (env : Env W R) (h : List (Round W)) : (eqOf env h).length = changes h := by
  induction h using List.reverseRecOn with
  | nil => rfl
  | append_singleton h r ih => rw [eqOf_snoc, changes_snoc, List.length_append, ih]; split <;> simp

theorem pivotsOf_length (h : List (Round W)) : (pivotsOf h).length = changes h := by
  induction h using List.reverseRecOn with
  | nil => rfl
  | append_singleton h r ih => rw [pivotsOf_snoc, changes_snoc, List.length_append, ih]; split <;> simp

/-- C38.  Every recorded pivot step is the number of the first round of a new phase and the index of a collected row (so `data[step]` in
`plot_line` exists); there is one pivot per phase change, and `equilibrium_steps` has one entry per completed phase: one per phase change
and one more if the run ended by convergence. -/
theorem C38_pivots (env : Env W R) (hm : ∀ p, env.newMax p = none) (w : W) (m : Int) (h0 : 0 ≤ m) (fuel : Nat) (l : Loop W R)
    (hl : Loop.runModel env fuel (Loop.init w m) = .ok l) :
    ∃ h w', History env (env.resetIds w) h w' ∧ h.length = l.steps ∧
      (∀ p ∈ l.pivots, p < l.rows.length) ∧
      (∀ p, p ∈ l.pivots ↔ ∃ i, ∃ hi : i < h.length, p = i + 1 ∧ (h[i]).phaseChange = true) ∧
      l.pivots.length = changes h ∧
      (l.eqSteps.length = changes h + 1 ∧ l.rows.length = l.steps ∨ l.eqSteps.length = changes h ∧ l.rows.length = l.steps + 1) := by
  obtain ⟨h, -, hmeq, hle, hh | hh⟩ := (Track.init env (env.resetIds w) m).loop_max hm fuel (by simpa [Loop.init] using h0) hl
  · obtain ⟨row, hrow, rs, hrs, hf⟩ := hh.rows
    have hlen : l.rows.length = l.steps + 1 := by rw [hrs, hh.steps, hf.length_eq]; simp
    refine ⟨h, _, hh.hist, hh.steps.symm, ?_, ?_, ?_, .inr ⟨?_, hlen⟩⟩
    · intro p hp
      rw [hh.pivots, pivotsOf_spec] at hp
      obtain ⟨i, hi, rfl, -⟩ := hp
      rw [hlen, hh.steps]; omega
    · intro p; rw [hh.pivots]; exact pivotsOf_spec h p
    · rw [hh.pivots, pivotsOf_length]
    · rw [hh.eqSteps, eqOf_length]
  · obtain ⟨h₀, w₀, hpre, -⟩ := hh.prefix'
    have hlen : l.rows.length = l.steps := by rw [hh.steps, hh.rows.length_eq]
    refine ⟨h, _, hh.hist, hh.steps.symm, ?_, ?_, ?_, .inl ⟨?_, hlen⟩⟩
    · intro p hp
      rw [hh.pivots, pivotsOf_spec] at hp
      obtain ⟨i, hi, rfl, hp⟩ := hp
      rw [hlen, hh.steps]
      by_contra hcon
      have hie : i = h₀.length := by rw [hpre] at hi hcon; simp at hi hcon; omega
      subst hie
      have : (h[h₀.length]'hi) = ⟨w₀, l.world, false⟩ := by simp [hpre]
      rw [this] at hp; cases hp
    · intro p; rw [hh.pivots]; exact pivotsOf_spec h p
    · rw [hh.pivots, pivotsOf_length]
    · rw [hh.eqSteps, List.length_append, eqOf_length]; rfl

/-! ### Runs of the simulation -/

/-- the loop around the simulation `demo false` with sequential rounds; one metric, the number of pools -/
def demoEnv (conv : Int) (totalPhases : Nat) (p : PhaseParams ℚ) (newMax : Option Int) : Env (State ℚ) Nat :=
  simEnv (fun _ => roundSequential (fun _ => id) [0, 1, 2, 3, 4]) (fun s => .ok (poolCount s)) conv totalPhases (fun _ => p) (fun _ => newMax)

/-- what is shown of a finished run: rounds, rows, equilibrium steps, pivots, running, exports -/
def outcome {W R : Type} (l : Loop W R) : Nat × List R × List Int × List Nat × Bool × List Bool :=
  (l.steps, l.rows, l.eqSteps, l.pivots, l.running, l.exports)

instance : DecidableEq (Nat × List Nat × List Int × List Nat × Bool × List Bool) := instDecidableEqProd

theorem run_outcome {W R : Type} {x : Py (Loop W R)} {v : Nat × List R × List Int × List Nat × Bool × List Bool}
    (h : x.toOption.map outcome = some v) : ∃ l, x = .ok l ∧ outcome l = v := by
  cases x with
  | error e => cases h
  | ok l => exact ⟨l, rfl, by simpa [Except.toOption] using h⟩

/-- The hypotheses of the theorems above are met by a run of the simulation: five rounds, the last two of them idle. -/
example : ∃ l, Loop.runModel (demoEnv 2 1 {} none) 21 (Loop.init (initState (demo false)) 20) = .ok l ∧
    outcome l = (5, [0, 8, 3, 4, 4], [2], [], false, [true]) := run_outcome (by decide +kernel)

/-- ... and by a run with two phases (`k` changes from 3 to 2). -/
example : ∃ l, Loop.runModel (demoEnv 2 2 { k := some 2 } none) 21 (Loop.init (initState (demo false)) 20) = .ok l ∧
    outcome l = (9, [0, 8, 3, 4, 4, 4, 4, 2, 2], [2, 6], [5], false, [true]) := run_outcome (by decide +kernel)

/-- C33 needs that `max_iterations` is not a list.  With `max_iterations = [20, 3]` the run below converges after five rounds, the new phase
sets `max_iterations = 3`, the loop of `run_model` ends at once: the simulation still counts as running and nothing is ever exported. -/
theorem C33_not_exported : ∃ (env : Env (State ℚ) Nat) (l : Loop (State ℚ) Nat),
    Loop.runModel env 21 (Loop.init (initState (demo false)) 20) = .ok l ∧ l.running = true ∧ l.exports = [] := by
  obtain ⟨l, h1, h2⟩ := run_outcome (x := Loop.runModel (demoEnv 2 2 { a0 := some 2 } (some 3)) 21 (Loop.init (initState (demo false)) 20))
    (v := (5, [0, 8, 3, 4, 4], [2], [5], true, [])) (by decide +kernel)
  unfold outcome at h2
  simp only [Prod.mk.injEq] at h2
  exact ⟨_, l, h1, h2.2.2.2.2.1, h2.2.2.2.2.2⟩

/-- C34 does not extend to the phase in which the equilibrium is reported, because `change_phase` does not reset the counter of idle rounds.
In the first run below `max_iterations` is hit right when the second phase (`k = 2`) begins: "Equilibrium reached" is exported as "Yes" although
no round was played with the new parameters; with one more iteration the agents do move.  In the second run (a phase change that changes
nothing) the second equilibrium is reported for step 3, before the phase began at step 5. -/
theorem C34_stale_equilibrium :
    (∃ l, Loop.runModel (demoEnv 2 2 { k := some 2 } none) 21 (Loop.init (initState (demo false)) 5) = .ok l ∧
      l.pivots = [5] ∧ l.steps = 5 ∧ l.exports = [true]) ∧
    (∃ l, Loop.runModel (demoEnv 2 2 { k := some 2 } none) 21 (Loop.init (initState (demo false)) 6) = .ok l ∧
      l.pivots = [5] ∧ l.steps = 6 ∧ l.exports = [false]) ∧
    (∃ l, Loop.runModel (demoEnv 2 2 {} none) 21 (Loop.init (initState (demo false)) 20) = .ok l ∧
      l.pivots = [5] ∧ l.eqSteps = [2, 3] ∧ l.exports = [true]) := by
  refine ⟨?_, ?_, ?_⟩
  · obtain ⟨l, h1, h2⟩ := run_outcome (x := Loop.runModel (demoEnv 2 2 { k := some 2 } none) 21 (Loop.init (initState (demo false)) 5))
      (v := (5, [0, 8, 3, 4, 4, 4], [2], [5], false, [true])) (by decide +kernel)
    unfold outcome at h2
    simp only [Prod.mk.injEq] at h2
    exact ⟨l, h1, h2.2.2.2.1, h2.1, h2.2.2.2.2.2⟩
  · obtain ⟨l, h1, h2⟩ := run_outcome (x := Loop.runModel (demoEnv 2 2 { k := some 2 } none) 21 (Loop.init (initState (demo false)) 6))
      (v := (6, [0, 8, 3, 4, 4, 4, 4], [2], [5], false, [false])) (by decide +kernel)
    unfold outcome at h2
    simp only [Prod.mk.injEq] at h2
    exact ⟨l, h1, h2.2.2.2.1, h2.1, h2.2.2.2.2.2⟩
  · obtain ⟨l, h1, h2⟩ := run_outcome (x := Loop.runModel (demoEnv 2 2 {} none) 21 (Loop.init (initState (demo false)) 20))
      (v := (6, [0, 8, 3, 4, 4, 4], [2, 3], [5], false, [true])) (by decide +kernel)
    unfold outcome at h2
    simp only [Prod.mk.injEq] at h2
    exact ⟨l, h1, h2.2.2.2.1, h2.2.2.1, h2.2.2.2.2.2⟩

end RSE.Props
