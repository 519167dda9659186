import Verif.Props.Loop

/-!
# C118: a value of max_iterations for each phase
-/

set_option linter.unusedSectionVars false

namespace RSE.Props

variable {W R : Type}

/-- the value of `max_iterations` that is in force after `p` changes of phase: the last one listed, `m` to begin with -/
def limitAt (env : Env W R) (m : Int) : Nat → Int
  | 0 => m
  | p + 1 => (env.newMax (p + 1)).getD (limitAt env m p)

/-- every round began below the limit that was in force -/
def InTime (env : Env W R) (m : Int) (h : List (Round W)) : Prop :=
  ∀ i, i < h.length → (i : Int) < limitAt env m (changes (h.take i))

theorem InTime.snoc {env : Env W R} {m : Int} {h : List (Round W)} {r : Round W} (hi : InTime env m h) (hl : (h.length : Int) < limitAt env m (changes h)) :
    InTime env m (h ++ [r]) := by
  intro i hlt
  rw [List.length_append, List.length_singleton] at hlt
  rw [List.take_append_of_le_length (by omega)]
  by_cases he : i < h.length
  · exact hi i he
  · have : i = h.length := by omega
    subst this
    rw [List.take_length]
    exact hl

/-- a call of `step` that makes no round leaves the limit -/
theorem hitMax_limit {env : Env W R} {w : W} {h : List (Round W)} {l l₂ : Loop W R} (t : Track env w h l) (hl₂ : l.step env = .ok l₂) (hh : HitMax env w h l₂) :
    l₂.maxIter = l.maxIter := by
  unfold Loop.step at hl₂
  obtain ⟨row, hrow, hl₂⟩ := bind_ok hl₂
  simp only at hl₂
  split at hl₂
  · cases hl₂; rfl
  · have hst := t.steps
    exfalso
    obtain ⟨w₂, hw, hl₂⟩ := bind_ok hl₂
    have hsteps : l₂.steps = l.steps + 1 := by
      split at hl₂
      · split at hl₂
        · split at hl₂
          · obtain ⟨l₃, hl₃, hl₂⟩ := bind_ok hl₂
            unfold Loop.changePhase at hl₃
            obtain ⟨w₃, hw₃, hl₃⟩ := bind_ok hl₃
            cases hl₃; cases hl₂; rfl
          · cases hl₂; rfl
        · cases hl₂; rfl
      · cases hl₂; rfl
    have := hh.steps
    omega

theorem limit_snoc {env : Env W R} {m : Int} {h : List (Round W)} {r : Round W} {x y : Int} (hx : x = limitAt env m (changes h))
    (hy : y = if r.phaseChange then (env.newMax (changes h + 1)).getD x else x) : y = limitAt env m (changes (h ++ [r])) := by
  rw [hy, changes_snoc, hx]
  cases r.phaseChange
  · rfl
  · rfl

theorem limits_loop {env : Env W R} {w : W} {m : Int} (fuel : Nat) {h : List (Round W)} {l l' : Loop W R} (t : Track env w h l)
    (hlim : l.maxIter = limitAt env m (changes h)) (hin : InTime env m h) (hs : Loop.loop env fuel l = .ok l') :
    ∃ h', InTime env m h' ∧ l'.maxIter = limitAt env m (changes h') ∧
      ((HitMax env w h' l' ∧ (h'.length : Int) ≤ l'.maxIter) ∨ Converged env w h' l' ∨ (Track env w h' l' ∧ l'.maxIter < h'.length)) := by
  induction fuel generalizing h l with
  | zero =>
    unfold Loop.loop at hs
    split at hs
    · cases hs
    · rename_i hc
      cases hs
      refine ⟨h, hin, hlim, .inr (.inr ⟨t, ?_⟩)⟩
      simp [t.running, t.steps] at hc
      exact hc
  | succ fuel ih =>
    unfold Loop.loop at hs
    split at hs
    · rename_i hc
      simp [t.running, t.steps] at hc
      obtain ⟨l₂, hl₂, hs⟩ := bind_ok hs
      have done : l₂.running = false → l' = l₂ := by
        intro hr
        unfold Loop.loop at hs
        rw [hr] at hs
        simp at hs
        exact hs.symm
      rcases t.step hl₂ with hm | ⟨hlt, r, ⟨ht, he⟩ | ⟨hcv, he⟩⟩
      · rw [done hm.running]
        have := hitMax_limit t hl₂ hm
        exact ⟨h, hin, this.trans hlim, .inl ⟨hm, by rw [this]; exact hc⟩⟩
      · rw [t.steps, hlim] at hlt
        exact ih ht (limit_snoc hlim he) (hin.snoc hlt) hs
      · rw [t.steps, hlim] at hlt
        rw [done hcv.running]
        refine ⟨_, hin.snoc hlt, ?_, .inr (.inl hcv)⟩
        have hch := hcv.phases
        obtain ⟨h₀, w₀, hpre, -, -, hch₀⟩ := hcv.prefix'
        obtain ⟨rfl, -⟩ := List.append_inj hpre (by have := congrArg List.length hpre; simp at this; exact this)
        rw [he, hlim, hch, hch₀]
    · rename_i hc
      cases hs
      refine ⟨h, hin, hlim, .inr (.inr ⟨t, ?_⟩)⟩
      simp [t.running, t.steps] at hc
      exact hc

theorem InTime.last {env : Env W R} {m : Int} {h : List (Round W)} (hin : InTime env m h) (hlt : limitAt env m (changes h) < h.length) (hm : 0 ≤ m) :
    ∃ r ∈ h.getLast?, r.phaseChange = true := by
  rcases List.eq_nil_or_concat h with rfl | ⟨h₀, r, rfl⟩
  · simp [changes, limitAt] at hlt
    omega
  · rw [List.concat_eq_append] at *
    refine ⟨r, by simp, ?_⟩
    by_contra hr
    have h1 := hin h₀.length (by simp)
    rw [List.take_left] at h1
    rw [changes_snoc, if_neg hr, Nat.add_zero, List.length_append, List.length_singleton] at hlt
    push_cast at hlt
    omega

/-- C118.  `max_iterations` may be a list with a value for each phase.  The limit is on the number of all rounds, those of earlier phases included: a run that is exported because of it has made exactly as many rounds as
the value in force says.  A run can end in three ways: with as many rounds as the limit, exported; by convergence in the last phase, with at most as many rounds as the limit, exported; or because a change of phase has lowered
the limit below the number of rounds made.  In the last case nothing is exported, the simulation still counts as running, and the recorded pivot step of this change has no row of metrics. -/
theorem C118_endings (env : Env W R) (w : W) (m : Int) (h0 : 0 ≤ m) (fuel : Nat) (l : Loop W R) (hl : Loop.runModel env fuel (Loop.init w m) = .ok l) :
    ∃ h w', History env (env.resetIds w) h w' ∧ h.length = l.steps ∧
      (∀ i (hi : i < h.length), (i : Int) < limitAt env m (changes (h.take i)) ∧ ∃ row, l.rows[i]? = some row ∧ env.report (h[i]).before = .ok row) ∧
      ((l.running = false ∧ l.exports.length = 1 ∧ (l.steps : Int) = limitAt env m (changes h) ∧ l.rows.length = l.steps + 1 ∧ ∀ p ∈ l.pivots, p < l.rows.length) ∨
       (l.running = false ∧ l.exports = [true] ∧ (l.steps : Int) ≤ limitAt env m (changes h) ∧ l.rows.length = l.steps ∧ LastIdle env h env.conv ∧ changes h = env.totalPhases - 1 ∧ ∀ p ∈ l.pivots, p < l.rows.length) ∨
       (l.running = true ∧ l.exports = [] ∧ limitAt env m (changes h) < l.steps ∧ l.rows.length = l.steps ∧ (∃ r ∈ h.getLast?, r.phaseChange = true) ∧ l.rows.length ∈ l.pivots)) := by
  have getrow : ∀ {h : List (Round W)} {rs : List R}, List.Forall₂ (fun r row => env.report r.before = .ok row) h rs →
      ∀ i (hi : i < h.length), ∃ row, rs[i]? = some row ∧ env.report (h[i]).before = .ok row := by
    intro h rs hf i hi
    have hi' : i < rs.length := by rw [← hf.length_eq]; exact hi
    exact ⟨rs[i], List.getElem?_eq_getElem hi', hf.get hi hi'⟩
  obtain ⟨h, hin, hlim, ⟨hh, hle⟩ | hh | ⟨hh, hlt⟩⟩ := limits_loop (m := m) fuel (Track.init env (env.resetIds w) m) rfl (fun i hi => absurd hi (by simp)) hl
  · obtain ⟨row, hrow, rs, hrs, hf⟩ := hh.rows
    have hlen : l.rows.length = l.steps + 1 := by rw [hrs, hh.steps, hf.length_eq]; simp
    refine ⟨h, _, hh.hist, hh.steps.symm, fun i hi => ⟨hin i hi, ?_⟩, .inl ⟨hh.running, by simp [hh.exports], ?_, hlen, ?_⟩⟩
    · obtain ⟨row', h1, h2⟩ := getrow hf i hi
      refine ⟨row', ?_, h2⟩
      rw [hrs, List.getElem?_append_left (by rw [← hf.length_eq]; exact hi)]
      exact h1
    · have := hh.max
      have := hh.steps
      omega
    · intro p hp
      rw [hh.pivots, pivotsOf_spec] at hp
      obtain ⟨i, hi, rfl, -⟩ := hp
      rw [hlen, hh.steps]; omega
  · obtain ⟨h₀, w₀, hpre, -⟩ := hh.prefix'
    have hlen : l.rows.length = l.steps := by rw [hh.steps, hh.rows.length_eq]
    refine ⟨h, _, hh.hist, hh.steps.symm, fun i hi => ⟨hin i hi, getrow hh.rows i hi⟩, .inr (.inl ⟨hh.running, hh.exports, ?_, hlen, hh.last, hh.phases, ?_⟩)⟩
    · rw [← hlim, hh.steps]; exact hh.max
    · intro p hp
      rw [hh.pivots, pivotsOf_spec] at hp
      obtain ⟨i, hi, rfl, hp⟩ := hp
      rw [hlen, hh.steps]
      by_contra hcon
      have hie : i = h₀.length := by rw [hpre] at hi hcon; simp at hi hcon; omega
      subst hie
      have : (h[h₀.length]'hi) = ⟨w₀, l.world, false⟩ := by simp [hpre]
      rw [this] at hp; cases hp
  · have hlen : l.rows.length = l.steps := by rw [hh.steps, hh.rows.length_eq]
    rw [hlim] at hlt
    obtain ⟨r, hr, hr'⟩ := hin.last hlt h0
    refine ⟨h, _, hh.hist, hh.steps.symm, fun i hi => ⟨hin i hi, getrow hh.rows i hi⟩, .inr (.inr ⟨hh.running, hh.exports, by rw [hh.steps]; exact hlt, hlen, ⟨r, hr, hr'⟩, ?_⟩)⟩
    rw [hh.pivots, pivotsOf_spec, hlen, hh.steps]
    have hne : h ≠ [] := by rintro rfl; cases hr
    have hpos := List.length_pos_iff.2 hne
    refine ⟨h.length - 1, by omega, by omega, ?_⟩
    rw [List.getLast?_eq_getElem?] at hr
    obtain ⟨_, e⟩ := List.getElem?_eq_some_iff.1 hr
    rw [e]; exact hr'

theorem limitAt_mono {env : Env W R} {m : Int} {p : Nat} (h : ∀ v, env.newMax (p + 1) = some v → limitAt env m p ≤ v) : limitAt env m p ≤ limitAt env m (p + 1) := by
  rw [limitAt]
  cases hv : env.newMax (p + 1) with
  | none => exact le_refl _
  | some v => exact h v hv

/-- C118.  If no phase lowers the limit, the run is exported exactly once. -/
theorem C118_not_lowered (env : Env W R) (w : W) (m : Int) (h0 : 0 ≤ m) (hmono : ∀ p, p + 1 < env.totalPhases → ∀ v, env.newMax (p + 1) = some v → limitAt env m p ≤ v)
    (fuel : Nat) (l : Loop W R) (hl : Loop.runModel env fuel (Loop.init w m) = .ok l) : l.running = false ∧ l.exports.length = 1 := by
  obtain ⟨h, hin, hlim, ⟨hh, hle⟩ | hh | ⟨hh, hlt⟩⟩ := limits_loop (m := m) fuel (Track.init env (env.resetIds w) m) rfl (fun i hi => absurd hi (by simp)) hl
  · exact ⟨hh.running, by simp [hh.exports]⟩
  · exact ⟨hh.running, by simp [hh.exports]⟩
  · exfalso
    rw [hlim] at hlt
    obtain ⟨r, hr, hr'⟩ := hin.last hlt h0
    rcases List.eq_nil_or_concat h with rfl | ⟨h₀, r', rfl⟩
    · cases hr
    · rw [List.concat_eq_append] at *
      have : r' = r := by simpa using hr
      subst this
      have h1 := hin h₀.length (by simp)
      rw [List.take_left] at h1
      have h2 := hh.phases
      rw [changes_snoc, if_pos hr'] at hlt h2
      have h3 := limitAt_mono (hmono (changes h₀) (by omega))
      rw [List.length_append, List.length_singleton] at hlt
      push_cast at hlt
      omega

theorem limitAt_le {env : Env W R} {m B : Int} (hm : m ≤ B) (hv : ∀ p v, p < env.totalPhases → env.newMax p = some v → v ≤ B) : ∀ p, p ≤ env.totalPhases - 1 → limitAt env m p ≤ B := by
  intro p
  induction p with
  | zero => intro _; exact hm
  | succ p ih =>
    intro hp
    rw [limitAt]
    cases he : env.newMax (p + 1) with
    | none => exact ih (by omega)
    | some v => exact hv (p + 1) v (by omega) he

theorem limits_fuel {env : Env W R} {w : W} {m B : Int} (hm : m ≤ B) (hv : ∀ p v, p < env.totalPhases → env.newMax p = some v → v ≤ B) (fuel : Nat) {h : List (Round W)} {l : Loop W R}
    (t : Track env w h l) (hlim : l.maxIter = limitAt env m (changes h)) (hf : B + 1 ≤ (fuel : Int) + h.length) {e : Err} (hs : Loop.loop env fuel l = .error e) :
    ∃ w, env.report w = .error e ∨ (∃ i, env.round i w = .error e) ∨ ∃ i, env.newPhase i w = .error e := by
  induction fuel generalizing h l with
  | zero =>
    unfold Loop.loop at hs
    split at hs
    · rename_i hc
      simp [t.running, t.steps] at hc
      have := limitAt_le hm hv _ t.phases
      rw [hlim] at hc
      push_cast at hf
      omega
    · cases hs
  | succ fuel ih =>
    unfold Loop.loop at hs
    split at hs
    · cases hl₂ : l.step env with
      | error e' =>
        rw [hl₂] at hs
        cases hs
        rcases Loop.step_error hl₂ with hh | hh | ⟨i, w', hh⟩
        · exact ⟨_, .inl hh⟩
        · exact ⟨_, .inr (.inl hh)⟩
        · exact ⟨w', .inr (.inr ⟨i, hh⟩)⟩
      | ok l₂ =>
        rw [hl₂] at hs
        change Loop.loop env fuel l₂ = _ at hs
        have done : l₂.running = true := by
          by_contra hr
          unfold Loop.loop at hs
          simp only [Bool.not_eq_true] at hr
          rw [hr] at hs
          simp at hs
        rcases t.step hl₂ with hmax | ⟨hlt, r, ⟨ht, he⟩ | ⟨hcv, he⟩⟩
        · rw [hmax.running] at done; cases done
        · exact ih ht (limit_snoc hlim he) (by simp; push_cast at hf; omega) hs
        · rw [hcv.running] at done; cases done
    · cases hs

/-- C118.  A run makes at most as many rounds as the largest of the values, and always ends: with one more call of `step` than this the loop cannot be cut short. -/
theorem C118_terminates (env : Env W R) (w : W) (m B : Int) (h0 : 0 ≤ m) (hm : m ≤ B) (hv : ∀ p v, p < env.totalPhases → env.newMax p = some v → v ≤ B) :
    (∀ e, Loop.runModel env (B.toNat + 1) (Loop.init w m) = .error e →
      ∃ w, env.report w = .error e ∨ (∃ i, env.round i w = .error e) ∨ ∃ i, env.newPhase i w = .error e) ∧
    ∀ fuel l, Loop.runModel env fuel (Loop.init w m) = .ok l → (l.steps : Int) ≤ B ∧ (l.rows.length : Int) ≤ B + 1 := by
  constructor
  · intro e he
    exact limits_fuel (m := m) hm hv _ (Track.init env (env.resetIds w) m) rfl (by simp) he
  · intro fuel l hl
    have key : ∀ h, InTime env m h → changes h ≤ env.totalPhases - 1 → (h.length : Int) ≤ B := by
      intro h hin hph
      rcases List.eq_nil_or_concat h with rfl | ⟨h₀, r', rfl⟩
      · have : ((([] : List (Round W)).length : Nat) : Int) = 0 := rfl
        omega
      · rw [List.concat_eq_append] at *
        have h1 := hin h₀.length (by simp)
        rw [List.take_left] at h1
        have h2 := limitAt_le hm hv (changes h₀) (by rw [changes_snoc] at hph; omega)
        rw [List.length_append, List.length_singleton]
        push_cast
        omega
    obtain ⟨h, hin, hlim, ⟨hh, hle⟩ | hh | ⟨hh, hlt⟩⟩ := limits_loop (m := m) fuel (Track.init env (env.resetIds w) m) rfl (fun i hi => absurd hi (by simp)) hl
    · have := key h hin hh.phases
      obtain ⟨row, hrow, rs, hrs, hf⟩ := hh.rows
      have hlen : l.rows.length = l.steps + 1 := by rw [hrs, hh.steps, hf.length_eq]; simp
      have := hh.steps
      omega
    · have := key h hin hh.phases.le
      have hlen : l.rows.length = l.steps := by rw [hh.steps, hh.rows.length_eq]
      have := hh.steps
      omega
    · have := key h hin hh.phases
      have hlen : l.rows.length = l.steps := by rw [hh.steps, hh.rows.length_eq]
      have := hh.steps
      omega

/-- a run with `max_iterations = [6, 8]` and two phases: the first ends after 5 rounds, the second is cut off after 8 rounds in all -/
example : ∃ l, Loop.runModel (demoEnv 2 2 { k := some 2 } (some 8)) 9 (Loop.init (initState (demo false)) 6) = .ok l ∧
    outcome l = (8, [0, 8, 3, 4, 4, 4, 4, 2, 2], [2], [5], false, [false]) ∧ limitAt (demoEnv 2 2 { k := some 2 } (some 8)) 6 1 = 8 := by
  obtain ⟨l, h1, h2⟩ := run_outcome (x := Loop.runModel (demoEnv 2 2 { k := some 2 } (some 8)) 9 (Loop.init (initState (demo false)) 6))
    (v := (8, [0, 8, 3, 4, 4, 4, 4, 2, 2], [2], [5], false, [false])) (by decide +kernel)
  exact ⟨l, h1, h2, rfl⟩

/-- with `max_iterations = [20, 3]` nothing is exported (`C33_not_exported`) -/
example : limitAt (demoEnv 2 2 { a0 := some 2 } (some 3)) 20 1 < (5 : Nat) := by decide

end RSE.Props
