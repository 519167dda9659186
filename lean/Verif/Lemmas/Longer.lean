import Verif.Lemmas.ConstructShape
import Verif.Model.Loop

/-!
# Runs that go on for longer
-/

set_option linter.unusedSectionVars false

namespace RSE

section Loops
variable {W R R' : Type}

/-- the same rules for when to stop -/
structure Env.SameStops (env : Env W R) (env' : Env W R') : Prop where
  conv : env.conv = env'.conv
  phases : env.totalPhases = env'.totalPhases
  newPhase : env.newPhase = env'.newPhase
  newMax : env.newMax = env'.newMax

/-- Two ways of running the same world: the first observes less (`obs` relates what they report), is less patient, or stops when the second begins a new phase. -/
structure Env.StopsEarlier (obs : R → R' → Prop) (env : Env W R) (env' : Env W R') : Prop where
  round : env.round = env'.round
  idle : env.idle = env'.idle
  rearm : env.rearm = env'.rearm
  resetIds : env.resetIds = env'.resetIds
  report : ∀ w r', env'.report w = .ok r' → ∃ r, env.report w = .ok r ∧ obs r r'
  conv : env.conv ≤ env'.conv
  phases : env.totalPhases ≤ 1 ∨ env.SameStops env'
  noMax : ∀ p, env.newMax p = none

/-- the two runs have come to the same point -/
structure Level (obs : R → R' → Prop) (l : Loop W R) (l' : Loop W R') : Prop where
  world : l.world = l'.world
  steps : l.steps = l'.steps
  idle : l.idleCount = l'.idleCount
  phase : l.phase = l'.phase
  eqs : l.eqSteps = l'.eqSteps
  pivots : l.pivots = l'.pivots
  rows : List.Forall₂ obs l.rows l'.rows
  exports : l.exports = l'.exports
  running : l.running = l'.running
  maxIter : l.maxIter ≤ l'.maxIter
  count : l.running = true → l.rows.length = l.steps

/-- the first run has ended, no later than the second; if they have the same rules, because of the number of iterations -/
structure Shorter (obs : R → R' → Prop) (env : Env W R) (env' : Env W R') (l : Loop W R) (l' : Loop W R') : Prop where
  steps : l.steps ≤ l'.steps
  rows : ∃ rows, rows <+: l'.rows ∧ List.Forall₂ obs l.rows rows
  pivots : l.pivots <+: l'.pivots
  why : env.SameStops env' → l.rows.length = l.steps + 1 ∧ l.maxIter < l'.maxIter

theorem step_grows {env : Env W R} {l l' : Loop W R} (h : l.step env = .ok l') : l.steps ≤ l'.steps ∧ l.rows <+: l'.rows ∧ l.pivots <+: l'.pivots := by
  unfold Loop.step at h
  obtain ⟨row, -, h⟩ := bind_ok h
  dsimp only at h
  split at h
  · cases h; exact ⟨le_rfl, List.prefix_append _ _, List.prefix_rfl⟩
  · obtain ⟨w, -, h⟩ := bind_ok h
    split at h
    · split at h
      · split at h
        · obtain ⟨l₂, h2, h⟩ := bind_ok h
          unfold Loop.changePhase at h2
          obtain ⟨w', -, h2⟩ := bind_ok h2
          cases h2; cases h
          exact ⟨Nat.le_succ _, List.prefix_append _ _, List.prefix_append _ _⟩
        · cases h; exact ⟨Nat.le_succ _, List.prefix_append _ _, List.prefix_rfl⟩
      · cases h; exact ⟨Nat.le_succ _, List.prefix_append _ _, List.prefix_rfl⟩
    · cases h; exact ⟨Nat.le_succ _, List.prefix_append _ _, List.prefix_rfl⟩

theorem step_max {env : Env W R} (hm : ∀ p, env.newMax p = none) {l l' : Loop W R} (h : l.step env = .ok l') : l'.maxIter = l.maxIter := by
  unfold Loop.step at h
  obtain ⟨row, -, h⟩ := bind_ok h
  dsimp only at h
  split at h
  · cases h; rfl
  · obtain ⟨w, -, h⟩ := bind_ok h
    split at h
    · split at h
      · split at h
        · obtain ⟨l₂, h2, h⟩ := bind_ok h
          unfold Loop.changePhase at h2
          obtain ⟨w', -, h2⟩ := bind_ok h2
          cases h2; cases h
          change (env.newMax _).getD _ = _
          rw [hm]; rfl
        · cases h; rfl
      · cases h; rfl
    · cases h; rfl

theorem loop_max {env : Env W R} (hm : ∀ p, env.newMax p = none) : ∀ (fuel : Nat) {l l' : Loop W R}, Loop.loop env fuel l = .ok l' → l'.maxIter = l.maxIter
  | 0, l, l', h => by
    unfold Loop.loop at h
    split at h
    · cases h
    · cases h; rfl
  | fuel + 1, l, l', h => by
    unfold Loop.loop at h
    split at h
    · obtain ⟨l₁, h1, h2⟩ := bind_ok h
      rw [loop_max hm fuel h2, step_max hm h1]
    · cases h; rfl

theorem loop_grows {env : Env W R} : ∀ (fuel : Nat) {l l' : Loop W R}, Loop.loop env fuel l = .ok l' → l.steps ≤ l'.steps ∧ l.rows <+: l'.rows ∧ l.pivots <+: l'.pivots
  | 0, l, l', h => by
    unfold Loop.loop at h
    split at h
    · cases h
    · cases h; exact ⟨le_rfl, List.prefix_rfl, List.prefix_rfl⟩
  | fuel + 1, l, l', h => by
    unfold Loop.loop at h
    split at h
    · obtain ⟨l₁, h1, h2⟩ := bind_ok h
      obtain ⟨a1, a2, a3⟩ := step_grows h1
      obtain ⟨b1, b2, b3⟩ := loop_grows fuel h2
      exact ⟨a1.trans b1, a2.trans b2, a3.trans b3⟩
    · cases h; exact ⟨le_rfl, List.prefix_rfl, List.prefix_rfl⟩

/-- One step: either both go on side by side, or the first run ends here. -/
theorem level_step {obs : R → R' → Prop} {env : Env W R} {env' : Env W R'} (he : env.StopsEarlier obs env') {l : Loop W R} {l' l₁' : Loop W R'} (h : Level obs l l')
    (h0 : l.running = true) (h0' : (l.steps : Int) ≤ l.maxIter) (hs : l'.step env' = .ok l₁') :
    ∃ l₁, l.step env = .ok l₁ ∧ ((Level obs l₁ l₁' ∧ (l₁.steps : Int) ≤ l₁.maxIter) ∨ (l₁.running = false ∧ Shorter obs env env' l₁ l₁')) := by
  unfold Loop.step at hs ⊢
  obtain ⟨row', hr', hs⟩ := bind_ok hs
  rw [← h.world] at hr'
  obtain ⟨row, hr, hobs⟩ := he.report _ _ hr'
  rw [hr]
  simp only [bind, Except.bind, pure, Except.pure] at hs ⊢
  have hrows : List.Forall₂ obs (l.rows ++ [row]) (l'.rows ++ [row']) := List.rel_append h.rows (.cons hobs .nil)
  have hm := h.maxIter
  have hst := h.steps
  by_cases h1 : l.maxIter ≤ (l.steps : Int)
  · rw [if_pos h1]
    have hcount : (l.rows ++ [row]).length = l.steps + 1 := by rw [List.length_append, h.count h0]; rfl
    by_cases hsame : env.SameStops env' ∧ l.maxIter = l'.maxIter
    · rw [if_pos (by rw [← hsame.2, ← hst]; exact h1)] at hs
      cases hs
      refine ⟨_, rfl, .inl ⟨⟨h.world, hst, h.idle, h.phase, h.eqs, h.pivots, hrows, ?_, rfl, hm, fun h => by cases h⟩, ?_⟩⟩
      · change l.exports ++ _ = l'.exports ++ _
        unfold Loop.hasConverged
        rw [h.exports, hsame.1.conv, h.idle]
      · exact h0'
    have hg : l'.steps ≤ l₁'.steps ∧ l'.rows ++ [row'] <+: l₁'.rows ∧ l'.pivots <+: l₁'.pivots ∧ ((∀ p, env'.newMax p = none) → l₁'.maxIter = l'.maxIter) := by
      split at hs
      · cases hs; exact ⟨le_rfl, List.prefix_rfl, List.prefix_rfl, fun _ => rfl⟩
      · split at hs
        · cases hs
        · rename_i w hw
          split at hs
          · split at hs
            · split at hs
              · unfold Loop.changePhase at hs
                simp only [bind, Except.bind, pure, Except.pure] at hs
                split at hs
                · cases hs
                · rename_i l₂ h2
                  split at h2
                  · cases h2
                  · cases h2; cases hs
                    exact ⟨Nat.le_succ _, List.prefix_rfl, List.prefix_append _ _, fun h => by simp [h]⟩
              · cases hs; exact ⟨Nat.le_succ _, List.prefix_rfl, List.prefix_rfl, fun _ => rfl⟩
            · cases hs; exact ⟨Nat.le_succ _, List.prefix_rfl, List.prefix_rfl, fun _ => rfl⟩
          · cases hs; exact ⟨Nat.le_succ _, List.prefix_rfl, List.prefix_rfl, fun _ => rfl⟩
    refine ⟨_, rfl, .inr ⟨rfl, ?_, ⟨_, hg.2.1, hrows⟩, ?_, ?_⟩⟩
    · change l.steps ≤ _; rw [hst]; exact hg.1
    · change l.pivots <+: _; rw [h.pivots]; exact hg.2.2.1
    · intro hss
      refine ⟨hcount, ?_⟩
      rw [hg.2.2.2 (fun p => by rw [← hss.newMax]; exact he.noMax p)]
      exact lt_of_le_of_ne hm (fun h => hsame ⟨hss, h⟩)
  · rw [if_neg h1]
    rw [if_neg (by rw [← hst]; omega)] at hs
    have hcount : (l.rows ++ [row]).length = l'.steps + 1 := by rw [List.length_append, h.count h0, hst]; rfl
    have hle : ((l'.steps + 1 : Nat) : Int) ≤ l.maxIter := by rw [← hst]; push_cast; omega
    rw [he.round, h.world, hst]
    cases hw : env'.round l'.steps l'.world with
    | error e => rw [hw] at hs; cases hs
    | ok w =>
      rw [hw] at hs
      simp only at hs ⊢
      rw [he.idle]
      by_cases hi : env'.idle w = true
      · rw [if_pos hi] at hs ⊢
        unfold Loop.hasConverged at hs ⊢
        simp only [decide_eq_true_eq] at hs ⊢
        rw [h.idle]
        by_cases hc : env.conv ≤ ((l'.idleCount + 1 : Nat) : Int)
        · rw [if_pos hc]
          rw [h.phase]
          by_cases hss : env.SameStops env'
          case neg =>
            have hp := he.phases.resolve_right hss
            rw [if_neg (by omega)]
            have hg : l'.steps + 1 ≤ l₁'.steps ∧ l'.rows ++ [row'] <+: l₁'.rows ∧ l'.pivots <+: l₁'.pivots := by
              split at hs
              · split at hs
                · unfold Loop.changePhase at hs
                  simp only [bind, Except.bind, pure, Except.pure] at hs
                  split at hs
                  · cases hs
                  · rename_i l₂ h2
                    split at h2
                    · cases h2
                    · cases h2; cases hs
                      exact ⟨le_rfl, List.prefix_rfl, List.prefix_append _ _⟩
                · cases hs; exact ⟨le_rfl, List.prefix_rfl, List.prefix_rfl⟩
              · cases hs; exact ⟨le_rfl, List.prefix_rfl, List.prefix_rfl⟩
            refine ⟨_, rfl, .inr ⟨rfl, hg.1, ⟨_, hg.2.1, hrows⟩, ?_, fun h => absurd h hss⟩⟩
            change l.pivots <+: _; rw [h.pivots]; exact hg.2.2
          case pos =>
            obtain ⟨p1, p2, p3, p4⟩ := hss
            rw [p1] at hc
            rw [if_pos hc] at hs
            rw [p2]
            split at hs
            · rename_i hph
              rw [if_pos hph]
              unfold Loop.changePhase at hs ⊢
              simp only [bind, Except.bind, pure, Except.pure] at hs ⊢
              rw [p3]
              cases hn : env'.newPhase (l'.phase + 1) w with
              | error e => rw [hn] at hs; cases hs
              | ok w₂ =>
                rw [hn] at hs
                simp only at hs ⊢
                cases hs
                refine ⟨_, rfl, .inl ⟨⟨by rw [he.rearm], rfl, rfl, rfl, ?_, ?_, hrows, h.exports, h.running, ?_, fun _ => hcount⟩, ?_⟩⟩
                · change l.eqSteps ++ _ = l'.eqSteps ++ _; rw [h.eqs, p1]
                · change l.pivots ++ _ = l'.pivots ++ _; rw [h.pivots]
                · change (env.newMax _).getD _ ≤ (env'.newMax _).getD _
                  rw [← p4, he.noMax]; exact hm
                · change ((l'.steps + 1 : Nat) : Int) ≤ (env.newMax _).getD _
                  rw [he.noMax]; exact hle
            · rename_i hph
              rw [if_neg hph]
              cases hs
              refine ⟨_, rfl, .inl ⟨⟨rfl, rfl, rfl, rfl, ?_, h.pivots, hrows, ?_, rfl, hm, fun h => by cases h⟩, hle⟩⟩
              · change l.eqSteps ++ _ = l'.eqSteps ++ _; rw [h.eqs, p1]
              · change l.exports ++ _ = l'.exports ++ _
                unfold Loop.hasConverged
                rw [h.exports, p1]
        · rw [if_neg hc]
          rw [if_neg (by have := he.conv; omega)] at hs
          cases hs
          exact ⟨_, rfl, .inl ⟨⟨by rw [he.rearm], rfl, rfl, h.phase, h.eqs, h.pivots, hrows, h.exports, h.running, hm, fun _ => hcount⟩, hle⟩⟩
      · rw [if_neg hi] at hs ⊢
        cases hs
        exact ⟨_, rfl, .inl ⟨⟨by rw [he.rearm], rfl, rfl, h.phase, h.eqs, h.pivots, hrows, h.exports, h.running, hm, fun _ => hcount⟩, hle⟩⟩

theorem level_loop {obs : R → R' → Prop} {env : Env W R} {env' : Env W R'} (he : env.StopsEarlier obs env') : ∀ (fuel : Nat) {l : Loop W R} {l' l₁' : Loop W R'}, Level obs l l' →
    (l.steps : Int) ≤ l.maxIter → Loop.loop env' fuel l' = .ok l₁' →
    ∃ l₁, Loop.loop env fuel l = .ok l₁ ∧ (Level obs l₁ l₁' ∨ (l₁.running = false ∧ Shorter obs env env' l₁ l₁'))
  | fuel, l, l', l₁', h, h0, hl => by
    unfold Loop.loop at hl ⊢
    have hm := h.maxIter
    have hst := h.steps
    rw [show decide ((l.steps : Int) ≤ l.maxIter) = true from decide_eq_true h0, h.running]
    rw [show decide ((l'.steps : Int) ≤ l'.maxIter) = true from decide_eq_true (by omega)] at hl
    by_cases hr : (true && l'.running) = true
    · rw [if_pos hr] at hl ⊢
      cases fuel with
      | zero => cases hl
      | succ fuel =>
        obtain ⟨l₂', h1, h2⟩ := bind_ok hl
        obtain ⟨l₂, h3, h4⟩ := level_step he h (by rw [h.running]; simpa using hr) h0 h1
        simp only [h3, bind, Except.bind]
        rcases h4 with ⟨h4, h5⟩ | ⟨h4, h5⟩
        · exact level_loop he fuel h4 h5 h2
        · refine ⟨l₂, ?_, .inr ⟨h4, ?_⟩⟩
          · unfold Loop.loop
            rw [if_neg (by rw [h4]; simp)]
          · obtain ⟨g1, g2, g3⟩ := loop_grows fuel h2
            obtain ⟨rows, r1, r2⟩ := h5.rows
            refine ⟨h5.steps.trans g1, ⟨rows, r1.trans g2, r2⟩, h5.pivots.trans g3, fun hss => ?_⟩
            rw [loop_max (fun p => by rw [← hss.newMax]; exact he.noMax p) fuel h2]
            exact h5.why hss
    · rw [if_neg hr] at hl ⊢
      cases hl
      exact ⟨l, rfl, .inl h⟩

end Loops

end RSE
