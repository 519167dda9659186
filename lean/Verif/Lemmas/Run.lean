import Verif.Lemmas.Loop

/-!
# Invariants of whole runs
-/

set_option linter.unusedSectionVars false

namespace RSE

variable {W R : Type}

/-- an invariant `P phase world` under which every part of a step succeeds -/
structure Safe (env : Env W R) (P : Nat → W → Prop) : Prop where
  report : ∀ p w, P p w → ∃ r, env.report w = .ok r
  round : ∀ i p w, P p w → ∃ w', env.round i w = .ok w' ∧ P p w'
  rearm : ∀ p w, P p w → P p (env.rearm w)
  phase : ∀ p w, p < env.totalPhases - 1 → P p w → ∃ w', env.newPhase (p + 1) w = .ok w' ∧ P (p + 1) w'

theorem Safe.step {env : Env W R} {P : Nat → W → Prop} (h : Safe env P) (hm : ∀ p, env.newMax p = none) {l : Loop W R} (hp : P l.phase l.world) :
    ∃ l', l.step env = .ok l' ∧ P l'.phase l'.world ∧ l'.maxIter = l.maxIter ∧ (l'.running = false ∨ l'.steps = l.steps + 1) := by
  obtain ⟨row, h1⟩ := h.report _ _ hp
  obtain ⟨w₂, h2, h3⟩ := h.round l.steps _ _ hp
  unfold Loop.step
  simp only [h1, h2, bind, Except.bind, pure, Except.pure]
  split
  · exact ⟨_, rfl, hp, rfl, .inl rfl⟩
  · split
    · split
      · split
        · rename_i hlt
          obtain ⟨w₃, h4, h5⟩ := h.phase l.phase w₂ hlt h3
          simp only [Loop.changePhase, h4, bind, Except.bind, pure, Except.pure]
          exact ⟨_, rfl, h.rearm _ _ h5, by simp [hm], .inr rfl⟩
        · exact ⟨_, rfl, h3, rfl, .inl rfl⟩
      · exact ⟨_, rfl, h.rearm _ _ h3, rfl, .inr rfl⟩
    · exact ⟨_, rfl, h.rearm _ _ h3, rfl, .inr rfl⟩

theorem Safe.loop {env : Env W R} {P : Nat → W → Prop} (h : Safe env P) (hm : ∀ p, env.newMax p = none) (fuel : Nat) {l : Loop W R}
    (hp : P l.phase l.world) (hf : l.maxIter + 1 ≤ (fuel : Int) + l.steps) : ∃ l', Loop.loop env fuel l = .ok l' ∧ P l'.phase l'.world := by
  induction fuel generalizing l with
  | zero =>
    unfold Loop.loop
    rw [if_neg (by
      have h0 : ¬ (l.steps : Int) ≤ l.maxIter := by push_cast at hf; omega
      simp [h0])]
    exact ⟨l, rfl, hp⟩
  | succ fuel ih =>
    unfold Loop.loop
    split
    · obtain ⟨l₂, h1, h2, h3, h4⟩ := h.step hm hp
      change ∃ l', (Except.bind (l.step env) fun l => Loop.loop env fuel l) = .ok l' ∧ _
      rw [h1]
      change ∃ l', Loop.loop env fuel l₂ = .ok l' ∧ _
      rcases h4 with h4 | h4
      · unfold Loop.loop
        rw [if_neg (by simp [h4])]
        exact ⟨l₂, rfl, h2⟩
      · exact ih h2 (by rw [h3, h4]; push_cast at hf ⊢; omega)
    · exact ⟨l, rfl, hp⟩

/-- what is preserved by every step that succeeds holds of the result of a run -/
theorem Loop.loop_induct {env : Env W R} {P : Loop W R → Prop} (hs : ∀ l l', P l → l.step env = .ok l' → P l') (fuel : Nat) {l l' : Loop W R}
    (hp : P l) (h : Loop.loop env fuel l = .ok l') : P l' := by
  induction fuel generalizing l with
  | zero =>
    unfold Loop.loop at h
    split at h
    · cases h
    · cases h; exact hp
  | succ fuel ih =>
    unfold Loop.loop at h
    split at h
    · cases h1 : l.step env with
      | error e => rw [h1] at h; cases h
      | ok l₂ =>
        rw [h1] at h
        exact ih (hs l l₂ hp h1) h
    · cases h; exact hp

end RSE
