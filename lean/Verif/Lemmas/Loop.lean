import Verif.Spec.Loop
import Verif.Lemmas.PlanOk
import Mathlib.Data.List.Induction
import Mathlib.Tactic.Ring
import Mathlib.Data.List.Forall2

/-! Lemmas on the loop around the rounds. -/

set_option linter.unusedSectionVars false

namespace RSE

variable {W R : Type}

/-- number of idle rounds at the end -/
def trailing (env : Env W R) (h : List (Round W)) : Nat := (h.reverse.takeWhile (fun r => env.idle r.after)).length

theorem trailing_snoc_idle (env : Env W R) (h : List (Round W)) (r : Round W) (hr : env.idle r.after = true) :
    trailing env (h ++ [r]) = trailing env h + 1 := by simp [trailing, hr]

theorem trailing_snoc_busy (env : Env W R) (h : List (Round W)) (r : Round W) (hr : ¬ env.idle r.after = true) :
    trailing env (h ++ [r]) = 0 := by simp [trailing, hr]

theorem trailing_spec (env : Env W R) (h : List (Round W)) (n : Int) : n ≤ trailing env h ↔ LastIdle env h n := by
  induction h using List.reverseRecOn generalizing n with
  | nil => simp [trailing, LastIdle]
  | append_singleton h r ih =>
    by_cases hr : env.idle r.after = true
    · rw [trailing_snoc_idle env h r hr]
      have := ih (n - 1)
      have h1 : n ≤ ((trailing env h + 1 : Nat) : Int) ↔ LastIdle env h (n - 1) := by rw [← this]; omega
      rw [h1]
      unfold LastIdle
      simp only [List.length_append, List.length_singleton]
      constructor
      · rintro ⟨a, b⟩
        refine ⟨by omega, fun i hi hin => ?_⟩
        by_cases hlt : i < h.length
        · rw [List.getElem_append_left hlt]; exact b i hlt (by omega)
        · rw [List.getElem_append_right (by omega)]
          simpa [Round.Idle] using hr
      · rintro ⟨a, b⟩
        refine ⟨by omega, fun i hi hin => ?_⟩
        have := b i (by omega) (by omega)
        rwa [List.getElem_append_left hi] at this
    · rw [trailing_snoc_busy env h r hr]
      unfold LastIdle
      simp only [List.length_append, List.length_singleton]
      constructor
      · intro hn
        have hn : n ≤ 0 := hn
        exact ⟨by omega, fun i hi hin => by omega⟩
      · rintro ⟨a, b⟩
        by_contra hn
        have hn : ¬ n ≤ 0 := hn
        have := b h.length (by omega) (by omega)
        rw [List.getElem_append_right (by omega)] at this
        exact hr (by simpa [Round.Idle] using this)

/-- the steps at which a new phase begins -/
def pivotsOf (h : List (Round W)) : List Nat := (h.zipIdx.filter (·.1.phaseChange)).map (·.2 + 1)

theorem pivotsOf_snoc (h : List (Round W)) (r : Round W) :
    pivotsOf (h ++ [r]) = pivotsOf h ++ (if r.phaseChange then [h.length + 1] else []) := by
  unfold pivotsOf
  rw [List.zipIdx_append, List.filter_append, List.map_append]
  congr 1
  simp only [List.zipIdx_cons, List.zipIdx_nil, List.filter_cons, List.filter_nil]
  split <;> simp

/-- the rounds that ended a phase by convergence -/
def eqOf (env : Env W R) (h : List (Round W)) : List Int := (h.zipIdx.filter (·.1.phaseChange)).map (fun e => (e.2 : Int) - env.conv)

theorem eqOf_snoc (env : Env W R) (h : List (Round W)) (r : Round W) :
    eqOf env (h ++ [r]) = eqOf env h ++ (if r.phaseChange then [(h.length : Int) - env.conv] else []) := by
  unfold eqOf
  rw [List.zipIdx_append, List.filter_append, List.map_append]
  congr 1
  simp only [List.zipIdx_cons, List.zipIdx_nil, List.filter_cons, List.filter_nil]
  split <;> simp

theorem changes_snoc (h : List (Round W)) (r : Round W) : changes (h ++ [r]) = changes h + (if r.phaseChange then 1 else 0) := by
  simp [changes, List.countP_append, List.countP_cons]

/-- each round at the end of which the counter shows convergence -/
def Stops (env : Env W R) (h : List (Round W)) : Prop := h ≠ [] ∧ LastIdle env h env.conv ∧ ∀ r ∈ h.getLast?, r.Idle env

/-- what is true of the loop before each call of `step` -/
structure Track (env : Env W R) (w : W) (h : List (Round W)) (l : Loop W R) : Prop where
  hist : History env w h l.world
  steps : l.steps = h.length
  phase : l.phase = changes h
  rows : List.Forall₂ (fun r row => env.report r.before = .ok row) h l.rows
  idleCount : l.idleCount = trailing env h
  eqSteps : l.eqSteps = eqOf env h
  pivots : l.pivots = pivotsOf h
  running : l.running = true
  exports : l.exports = []
  /-- a phase ends as soon as the counter shows convergence -/
  conv : ∀ i (hi : i < h.length), (h[i]).phaseChange = true ↔ Stops env (h.take (i + 1))
  phases : changes h ≤ env.totalPhases - 1

/-- the loop after `max_iterations` was hit -/
structure HitMax (env : Env W R) (w : W) (h : List (Round W)) (l : Loop W R) : Prop where
  hist : History env w h l.world
  steps : l.steps = h.length
  max : l.maxIter ≤ h.length
  rows : ∃ row, env.report l.world = .ok row ∧ ∃ rs, l.rows = rs ++ [row] ∧ List.Forall₂ (fun r row => env.report r.before = .ok row) h rs
  eqSteps : l.eqSteps = eqOf env h
  pivots : l.pivots = pivotsOf h
  running : l.running = false
  exports : l.exports = [decide (env.conv ≤ trailing env h)]
  conv : ∀ i (hi : i < h.length), (h[i]).phaseChange = true ↔ Stops env (h.take (i + 1))
  phases : changes h ≤ env.totalPhases - 1

/-- the loop after convergence in the last phase -/
structure Converged (env : Env W R) (w : W) (h : List (Round W)) (l : Loop W R) : Prop where
  prefix' : ∃ h₀ w₀, h = h₀ ++ [⟨w₀, l.world, false⟩] ∧ History env w h₀ w₀ ∧ env.round h₀.length w₀ = .ok l.world ∧
    changes h₀ = env.totalPhases - 1
  idle : env.idle l.world = true
  hist : History env w h (env.rearm l.world)
  steps : l.steps = h.length
  max : (h.length : Int) ≤ l.maxIter
  rows : List.Forall₂ (fun r row => env.report r.before = .ok row) h l.rows
  eqSteps : l.eqSteps = eqOf env h ++ [(h.length : Int) - 1 - env.conv]
  pivots : l.pivots = pivotsOf h
  running : l.running = false
  exports : l.exports = [true]
  last : LastIdle env h env.conv
  conv : ∀ i (hi : i < h.length), i + 1 < h.length → ((h[i]).phaseChange = true ↔ Stops env (h.take (i + 1)))
  phases : changes h = env.totalPhases - 1

theorem Track.init (env : Env W R) (w : W) (m : Int) : Track env w [] (Loop.init w m) :=
  { hist := .start, steps := rfl, phase := rfl, rows := .nil, idleCount := rfl, eqSteps := rfl, pivots := rfl, running := rfl, exports := rfl,
    conv := fun i hi => absurd hi (by simp), phases := Nat.zero_le _ }

theorem conv_snoc {env : Env W R} {h : List (Round W)} {r : Round W}
    (hc : ∀ i (hi : i < h.length), (h[i]).phaseChange = true ↔ Stops env (h.take (i + 1)))
    (hr : r.phaseChange = true ↔ Stops env (h ++ [r])) :
    ∀ i (hi : i < (h ++ [r]).length), ((h ++ [r])[i]).phaseChange = true ↔ Stops env ((h ++ [r]).take (i + 1)) := by
  intro i hi
  by_cases hlt : i < h.length
  · rw [List.getElem_append_left hlt, List.take_append_of_le_length (by omega)]
    exact hc i hlt
  · have : i = h.length := by simp at hi; omega
    subst this
    rw [List.take_of_length_le (by simp)]
    simpa using hr

theorem stops_snoc {env : Env W R} {h : List (Round W)} {r : Round W} :
    Stops env (h ++ [r]) ↔ env.idle r.after = true ∧ env.conv ≤ trailing env (h ++ [r]) := by
  unfold Stops
  rw [trailing_spec]
  constructor
  · rintro ⟨-, a, b⟩; exact ⟨b r (by simp), a⟩
  · rintro ⟨a, b⟩; exact ⟨by simp, b, fun r' hr' => by simp at hr'; subst hr'; exact a⟩

theorem Track.step {env : Env W R} {w : W} {h : List (Round W)} {l l' : Loop W R} (t : Track env w h l) (hs : l.step env = .ok l') :
    HitMax env w h l' ∨ ((l.steps : Int) < l.maxIter ∧ ∃ r, (Track env w (h ++ [r]) l' ∧
      l'.maxIter = if r.phaseChange then (env.newMax (changes h + 1)).getD l.maxIter else l.maxIter) ∨
      (Converged env w (h ++ [r]) l' ∧ l'.maxIter = l.maxIter)) := by
  unfold Loop.step at hs
  obtain ⟨row, hrow, hs⟩ := bind_ok hs
  simp only at hs
  split at hs
  · rename_i hmax
    cases hs
    left
    refine ⟨t.hist, t.steps, by rw [← t.steps]; exact hmax, ⟨row, hrow, l.rows, rfl, t.rows⟩, t.eqSteps, t.pivots, rfl, ?_, t.conv, t.phases⟩
    simp [Loop.wrapUp, Loop.hasConverged, t.exports, t.idleCount]
  · rename_i hmax
    right
    refine ⟨by omega, ?_⟩
    obtain ⟨w₂, hw, hs⟩ := bind_ok hs
    rw [t.steps] at hw
    have hrows : ∀ r : Round W, r.before = l.world →
        List.Forall₂ (fun r row => env.report r.before = .ok row) (h ++ [r]) (l.rows ++ [row]) := by
      intro r hr
      refine List.rel_append t.rows (.cons ?_ .nil)
      rw [hr]; exact hrow
    split at hs
    · rename_i hidle
      split at hs
      · rename_i hconv
        have hle : env.conv ≤ ((trailing env h + 1 : Nat) : Int) := by
          simpa [Loop.hasConverged, t.idleCount] using hconv
        split at hs
        · rename_i hph
          obtain ⟨l₂, hl₂, hs⟩ := bind_ok hs
          unfold Loop.changePhase at hl₂
          obtain ⟨w₃, hw₃, hl₂⟩ := bind_ok hl₂
          cases hl₂
          cases hs
          simp only at hph hw₃
          rw [t.phase] at hw₃
          refine ⟨⟨l.world, w₂, true⟩, .inl ⟨⟨.change t.hist hw hw₃, by simp [t.steps], ?_, hrows _ rfl, ?_, ?_, ?_, t.running, t.exports, ?_, ?_⟩, ?_⟩⟩
          · rw [changes_snoc]; simp [t.phase]
          · rw [trailing_snoc_idle _ _ _ hidle]; simp [t.idleCount]
          · rw [eqOf_snoc]; simp [t.eqSteps, t.steps]
          · rw [pivotsOf_snoc]; simp [t.pivots, t.steps]
          · refine conv_snoc t.conv ?_
            rw [stops_snoc, trailing_snoc_idle _ _ _ hidle]
            simpa using ⟨hidle, by simpa using hle⟩
          · rw [changes_snoc]; simp only [if_true]; rw [t.phase] at hph; omega
          · simp [t.phase]
        · rename_i hph
          cases hs
          rw [t.phase] at hph
          have hch : changes h = env.totalPhases - 1 := by have := t.phases; omega
          refine ⟨⟨l.world, w₂, false⟩, .inr ⟨⟨⟨h, l.world, rfl, t.hist, hw, hch⟩, hidle, .round t.hist hw, by simp [Loop.wrapUp, t.steps], ?_, hrows _ rfl, ?_, ?_, rfl, ?_, ?_, ?_, ?_⟩, rfl⟩⟩
          · rw [← t.steps] at *; simp [Loop.wrapUp, ← t.steps]; omega
          · rw [eqOf_snoc]; simp [Loop.wrapUp, t.eqSteps, t.steps]
          · rw [pivotsOf_snoc]; simp [Loop.wrapUp, t.pivots]
          · simp only [Loop.wrapUp, t.exports, List.nil_append]
            exact congrArg (fun b => [b]) hconv
          · rw [← trailing_spec, trailing_snoc_idle _ _ _ hidle]; exact hle
          · intro i hi hi'
            have hlt : i < h.length := by simp at hi'; omega
            rw [List.getElem_append_left hlt, List.take_append_of_le_length (by omega)]
            exact t.conv i hlt
          · rw [changes_snoc]; simpa using hch
      · rename_i hconv
        cases hs
        have hle : ¬ env.conv ≤ ((trailing env h + 1 : Nat) : Int) := by
          simpa [Loop.hasConverged, t.idleCount] using hconv
        refine ⟨⟨l.world, w₂, false⟩, .inl ⟨⟨.round t.hist hw, by simp [t.steps], ?_, hrows _ rfl, ?_, ?_, ?_, t.running, t.exports, ?_, ?_⟩, by simp⟩⟩
        · rw [changes_snoc]; simp [t.phase]
        · rw [trailing_snoc_idle _ _ _ hidle]; simp [t.idleCount]
        · rw [eqOf_snoc]; simp [t.eqSteps]
        · rw [pivotsOf_snoc]; simp [t.pivots]
        · refine conv_snoc t.conv ?_
          rw [stops_snoc, trailing_snoc_idle _ _ _ hidle]
          constructor
          · intro h; cases h
          · intro h; exact absurd h.2 hle
        · rw [changes_snoc]; simpa using t.phases
    · rename_i hidle
      cases hs
      refine ⟨⟨l.world, w₂, false⟩, .inl ⟨⟨.round t.hist hw, by simp [t.steps], ?_, hrows _ rfl, ?_, ?_, ?_, t.running, t.exports, ?_, ?_⟩, by simp⟩⟩
      · rw [changes_snoc]; simp [t.phase]
      · rw [trailing_snoc_busy _ _ _ hidle]
      · rw [eqOf_snoc]; simp [t.eqSteps]
      · rw [pivotsOf_snoc]; simp [t.pivots]
      · refine conv_snoc t.conv ?_
        rw [stops_snoc]
        constructor
        · intro h; cases h
        · intro h; exact absurd h.1 hidle
      · rw [changes_snoc]; simpa using t.phases

/-- the ways in which the loop of `run_model` ends -/
theorem Track.loop {env : Env W R} {w : W} (fuel : Nat) {h : List (Round W)} {l l' : Loop W R} (t : Track env w h l)
    (hs : Loop.loop env fuel l = .ok l') :
    ∃ h', h <+: h' ∧ (HitMax env w h' l' ∨ Converged env w h' l' ∨ (Track env w h' l' ∧ l'.maxIter < h'.length)) := by
  induction fuel generalizing h l with
  | zero =>
    unfold Loop.loop at hs
    split at hs
    · cases hs
    · rename_i hc
      cases hs
      refine ⟨h, List.prefix_rfl, .inr (.inr ⟨t, ?_⟩)⟩
      simp [t.running, t.steps] at hc
      exact hc
  | succ fuel ih =>
    unfold Loop.loop at hs
    split at hs
    · obtain ⟨l₂, hl₂, hs⟩ := bind_ok hs
      have done : l₂.running = false → l' = l₂ := by
        intro hr
        unfold Loop.loop at hs
        rw [hr] at hs
        simp at hs
        exact hs.symm
      rcases t.step hl₂ with hm | ⟨-, r, ⟨ht, -⟩ | ⟨hcv, -⟩⟩
      · rw [done hm.running]; exact ⟨h, List.prefix_rfl, .inl hm⟩
      · obtain ⟨h', hp, hr⟩ := ih ht hs
        exact ⟨h', (List.prefix_append h [r]).trans hp, hr⟩
      · rw [done hcv.running]; exact ⟨_, List.prefix_append h [r], .inr (.inl hcv)⟩
    · rename_i hc
      cases hs
      refine ⟨h, List.prefix_rfl, .inr (.inr ⟨t, ?_⟩)⟩
      simp [t.running, t.steps] at hc
      exact hc

/-- with an unchanged `max_iterations`, the loop does not end while the simulation is still running -/
theorem Track.loop_max {env : Env W R} (hm : ∀ p, env.newMax p = none) {w : W} (fuel : Nat) {h : List (Round W)} {l l' : Loop W R}
    (t : Track env w h l) (hle : (h.length : Int) ≤ l.maxIter) (hs : Loop.loop env fuel l = .ok l') :
    ∃ h', h <+: h' ∧ l'.maxIter = l.maxIter ∧ (h'.length : Int) ≤ l.maxIter ∧ (HitMax env w h' l' ∨ Converged env w h' l') := by
  induction fuel generalizing h l with
  | zero =>
    unfold Loop.loop at hs
    rw [if_pos (by simp [t.running, t.steps, hle])] at hs
    cases hs
  | succ fuel ih =>
    unfold Loop.loop at hs
    rw [if_pos (by simp [t.running, t.steps, hle])] at hs
    obtain ⟨l₂, hl₂, hs⟩ := bind_ok hs
    have done : l₂.running = false → l' = l₂ := by
      intro hr
      unfold Loop.loop at hs
      rw [hr] at hs
      simp at hs
      exact hs.symm
    have hmx : HitMax env w h l₂ → l₂.maxIter = l.maxIter := by
      intro hh
      unfold Loop.step at hl₂
      obtain ⟨row, hrow, hl₂⟩ := bind_ok hl₂
      simp only at hl₂
      split at hl₂
      · cases hl₂; rfl
      · rename_i hno
        have := hh.max
        have hst := t.steps
        exfalso
        obtain ⟨w₂, hw, hl₂⟩ := bind_ok hl₂
        have hsteps : l₂.steps = l.steps + 1 := by
          split at hl₂
          · split at hl₂
            · split at hl₂
              · obtain ⟨l₃, hl₃, hl₂⟩ := bind_ok hl₂
                unfold Loop.changePhase at hl₃
                obtain ⟨w₃, hw₃, hl₃⟩ := bind_ok hl₃
                cases hl₃; cases hl₂; rfl
              · cases hl₂; rfl
            · cases hl₂; rfl
          · cases hl₂; rfl
        have := hh.steps
        omega
    rcases t.step hl₂ with hmax | ⟨hlt, r, ⟨ht, he⟩ | ⟨hcv, he⟩⟩
    · rw [done hmax.running]; exact ⟨h, List.prefix_rfl, hmx hmax, hle, .inl hmax⟩
    · have he' : l₂.maxIter = l.maxIter := by rw [he, hm]; simp
      rw [t.steps] at hlt
      obtain ⟨h', hp, h1, h2, hr⟩ := ih ht (by rw [he']; simp; omega) hs
      exact ⟨h', (List.prefix_append h [r]).trans hp, h1.trans he', by rw [← he']; exact h2, hr⟩
    · rw [done hcv.running]
      rw [t.steps] at hlt
      exact ⟨_, List.prefix_append h [r], he, by simp; omega, .inr hcv⟩

/-- the errors that a call of `step` can produce are those of the parts it calls -/
theorem Loop.step_error {env : Env W R} {l : Loop W R} {e : Err} (hs : l.step env = .error e) :
    env.report l.world = .error e ∨ (∃ i, env.round i l.world = .error e) ∨ ∃ i w, env.newPhase i w = .error e := by
  unfold Loop.step at hs
  cases hr : env.report l.world with
  | error e' => rw [hr] at hs; cases hs; exact .inl rfl
  | ok row =>
    rw [hr] at hs
    change (if _ then _ else _ : Py (Loop W R)) = _ at hs
    split at hs
    · cases hs
    · cases hw : env.round l.steps l.world with
      | error e' => rw [hw] at hs; cases hs; exact .inr (.inl ⟨_, hw⟩)
      | ok w₂ =>
        rw [hw] at hs
        change (if _ then _ else _ : Py (Loop W R)) = _ at hs
        split at hs
        · change (if _ then _ else _ : Py (Loop W R)) = _ at hs
          split at hs
          · change (if _ then _ else _ : Py (Loop W R)) = _ at hs
            split at hs
            · cases hp : env.newPhase (l.phase + 1) w₂ with
              | error e' =>
                unfold Loop.changePhase at hs
                simp only at hs
                rw [hp] at hs
                cases hs
                exact .inr (.inr ⟨_, _, hp⟩)
              | ok w₃ =>
                unfold Loop.changePhase at hs
                simp only at hs
                rw [hp] at hs
                cases hs
            · cases hs
          · cases hs
        · cases hs

/-- `max_iterations + 1 - steps` calls of `step` suffice -/
theorem Track.loop_fuel {env : Env W R} (hm : ∀ p, env.newMax p = none) {w : W} (fuel : Nat) {h : List (Round W)} {l : Loop W R}
    (t : Track env w h l) (hle : (h.length : Int) ≤ l.maxIter) (hf : l.maxIter + 1 ≤ (fuel : Int) + h.length) {e : Err}
    (hs : Loop.loop env fuel l = .error e) :
    ∃ w, env.report w = .error e ∨ (∃ i, env.round i w = .error e) ∨ ∃ i, env.newPhase i w = .error e := by
  induction fuel generalizing h l with
  | zero => omega
  | succ fuel ih =>
    unfold Loop.loop at hs
    rw [if_pos (by simp [t.running, t.steps, hle])] at hs
    cases hl₂ : l.step env with
    | error e' =>
      rw [hl₂] at hs
      cases hs
      rcases Loop.step_error hl₂ with hh | hh | ⟨i, w', hh⟩
      · exact ⟨_, .inl hh⟩
      · exact ⟨_, .inr (.inl hh)⟩
      · exact ⟨w', .inr (.inr ⟨i, hh⟩)⟩
    | ok l₂ =>
      rw [hl₂] at hs
      change Loop.loop env fuel l₂ = _ at hs
      have done : l₂.running = true := by
        by_contra hr
        unfold Loop.loop at hs
        simp only [Bool.not_eq_true] at hr
        rw [hr] at hs
        simp at hs
      rcases t.step hl₂ with hmax | ⟨hlt, r, ⟨ht, he⟩ | ⟨hcv, he⟩⟩
      · rw [hmax.running] at done; cases done
      · have he' : l₂.maxIter = l.maxIter := by rw [he, hm]; simp
        rw [t.steps] at hlt
        exact ih ht (by rw [he']; simp; omega) (by rw [he']; simp; push_cast at hf; omega) hs
      · rw [hcv.running] at done; cases done

end RSE
