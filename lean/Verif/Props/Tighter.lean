import Verif.Props.Rejects
import Verif.Props.Files

/-!
# C57, C77, C79: sequence ids of concurrent runs, the numbers of the reward schemes, the number of phases
-/

set_option linter.unusedSectionVars false

namespace RSE.Props

variable {K : Type} [Field K] [LinearOrder K] [IsStrictOrderedRing K]

/-! ## C57 -/

/-- A run that writes a number with fewer digits into a file that was truncated by it, and then written by another run, leaves the rest of the other
number there.  Four runs, starting with a file that says 8: run 0 reads it and gets 9; run 1 does all its work and also gets 9; run 2 reads and gets 10; run 0 and run 2
open the file; run 2 writes 10, then run 0 writes 9.  The file now says 90, and the next run gets 91: ids need not be consecutive either. -/
theorem C57_torn : (([.read 0, .read 1, .openW 1, .close 1, .read 2, .openW 0, .openW 2, .close 2, .close 0, .read 3] : List SeqEvent).foldl SeqDisk.exec
      ⟨some ['8'], fun _ => none⟩).file = some ['9', '0'] ∧
    ∀ p < 4, (([.read 0, .read 1, .openW 1, .close 1, .read 2, .openW 0, .openW 2, .close 2, .close 0, .read 3] : List SeqEvent).foldl SeqDisk.exec
      ⟨some ['8'], fun _ => none⟩).got p = ([some (.ok 9), some (.ok 9), some (.ok 10), some (.ok 91)] : List (Option (Py Nat))).getD p none := by
  refine ⟨by decide +kernel, fun p hp => ?_⟩
  match p, hp with
  | 0, _ => rfl
  | 1, _ => rfl
  | 2, _ => rfl
  | 3, _ => rfl

/-! ## C77 -/

/-- the reward of a pool under the scheme with a number on the command line, for a saturation threshold `z` (README.md, reward_schemes.py): 0 is Cardano's,
1 the simplified one, 2 the one with flat pledge benefit, 4 that of CIP-50 -/
def rewardByNumber (i : Nat) (z a0 pledge stake : K) : Option K :=
  let p := min pledge z
  let s := min stake z
  if i = 0 then some ((s + p * a0 * (s - p * (z - s) / z) / z) / (1 + a0))
  else if i = 1 then some (s * (1 + a0 * p / z) / (1 + a0))
  else if i = 2 then some ((s + a0 * p) / (1 + a0))
  else if i = 4 then some (min stake (min (a0 * pledge) z))
  else none

/-- C77.  The simulation rewards pools by the scheme whose number was given. -/
theorem C77_reward_scheme [FloorSemiring K] {a : Args K} {d : Draws K} {n : Nat} (hacc : Accepted a d n) {b : Built K} (hb : construct a d = .ok b)
    (pledge stake : K) :
    rewardByNumber a.scheme b.config.rs.beta b.config.rs.a0 pledge stake = some (b.config.rs.reward pledge stake) := by
  obtain ⟨b', hb', hf⟩ := C77_constructor hacc
  rw [hb] at hb'
  cases hb'
  have hs := hf.scheme
  have hz := hf.beta_pos
  rcases hacc.scheme with h | h | h | h
  · rw [h] at hs ⊢
    rw [reward_cardano hs]
    simp only [rewardByNumber, if_true]
    congr 2
    unfold cardanoBracket
    field_simp
  · rw [h] at hs ⊢
    rw [reward_simplified hs]
    simp only [rewardByNumber, if_true]
    simp
  · rw [h] at hs ⊢
    rw [reward_flat hs]
    simp [rewardByNumber]
  · rw [h] at hs ⊢
    rw [reward_cip50 hs]
    simp [rewardByNumber]

/-- the schemes differ: rewards of a pool with pledge 1/50 and stake 1/20 -/
example : [0, 1, 2, 3, 4].map (fun i => rewardByNumber (K := ℚ) i (1/10) (3/10) (1/50) (1/20)) =
    [some (131/3250), some (53/1300), some (14/325), none, some (3/500)] := by decide +kernel

/-! ## C79 -/

/-- the values given for an argument -/
def givenValues {α : Type} : Multi α → List α
  | .one x => [x]
  | .many l => l

/-- C79.  There are as many phases as the longest list of values has entries (and at least one). -/
theorem C79_number_of_phases [FloorSemiring K] {a : Args K} {d : Draws K} {n : Nat} (hacc : Accepted a d n) {b : Built K} (hb : construct a d = .ok b) :
    IsGreatest {(givenValues a.n).length, (givenValues a.k).length, (givenValues a.a0).length, (givenValues a.relThr).length, (givenValues a.absThr).length,
      (givenValues a.maxIter).length, (givenValues a.extraFrac).length, (givenValues a.order).length, 1} b.totalPhases := by
  obtain ⟨b', hb', hf⟩ := C77_constructor hacc
  rw [hb] at hb'
  cases hb'
  rw [hf.phases]
  have hlen : ∀ {α : Type} (m : Multi α), (givenValues m).length = m.phases := fun m => by cases m <;> rfl
  simp only [hlen]
  unfold Args.totalPhases
  exact .insert _ (.insert _ (.insert _ (.insert _ (.insert _ (.insert _ (.insert _ (.insert _ isGreatest_singleton)))))))

/-- a simulation stops only in the last phase, or when the maximum number of iterations is reached -/
theorem Reached.last_phase {W R : Type} {env : Env W R} {l₀ : Loop W R} (h0 : l₀.running = true) (hp : l₀.phase ≤ env.totalPhases - 1) {l : Loop W R}
    (h : Reached env l₀ l) : l.phase ≤ env.totalPhases - 1 ∧ (l.running = true ∨ l.maxIter ≤ l.steps ∨ env.totalPhases - 1 ≤ l.phase) := by
  induction h with
  | start => exact ⟨hp, .inl h0⟩
  | @step l l' _ hr hs ih =>
    unfold Loop.step at hs
    obtain ⟨row, -, hs⟩ := bind_ok hs
    simp only at hs
    split at hs
    · rename_i hmax
      cases hs
      exact ⟨ih.1, .inr (.inl hmax)⟩
    · obtain ⟨w, -, hs⟩ := bind_ok hs
      split at hs
      · split at hs
        · split at hs
          · rename_i hlt
            obtain ⟨l₃, hl₃, hs⟩ := bind_ok hs
            unfold Loop.changePhase at hl₃
            obtain ⟨w₃, -, hl₃⟩ := bind_ok hl₃
            cases hl₃; cases hs
            exact ⟨by simp only at hlt ⊢; omega, .inl hr⟩
          · rename_i hge
            cases hs
            exact ⟨ih.1, .inr (.inr (by simpa [Loop.wrapUp] using hge))⟩
        · cases hs; exact ⟨ih.1, .inl hr⟩
      · cases hs; exact ⟨ih.1, .inl hr⟩

theorem loop_stopped {W R : Type} {env : Env W R} : ∀ (fuel : Nat) {l l' : Loop W R}, Loop.loop env fuel l = .ok l' →
    l'.running = false ∨ l'.maxIter < l'.steps := by
  intro fuel
  induction fuel with
  | zero =>
    intro l l' h
    unfold Loop.loop at h
    split at h
    · cases h
    · rename_i hc
      cases h
      simp only [Bool.and_eq_true, decide_eq_true_eq, not_and] at hc
      by_cases h1 : (l.steps : Int) ≤ l.maxIter
      · exact .inl (by simpa using hc h1)
      · exact .inr (by omega)
  | succ fuel ih =>
    intro l l' h
    unfold Loop.loop at h
    split at h
    · obtain ⟨l₂, -, h⟩ := bind_ok h
      exact ih h
    · rename_i hc
      cases h
      simp only [Bool.and_eq_true, decide_eq_true_eq, not_and] at hc
      by_cases h1 : (l.steps : Int) ≤ l.maxIter
      · exact .inl (by simpa using hc h1)
      · exact .inr (by omega)

/-- C79.  A run that ends before the maximum number of iterations ends in the last phase: all phases have been gone through. -/
theorem C79_all_phases [FloorSemiring K] {a : Args K} {d : Draws K} {n : Nat} (hacc : Accepted a d n) {t : Turns} {solver : State K → K} {fuel : Nat}
    {l : Loop (Nat × Nat × State K) (List (MetricValue K))} (hl : simulate a d solver t fuel = .ok l) (hend : (l.steps : Int) < l.maxIter) :
    IsGreatest {(givenValues a.n).length, (givenValues a.k).length, (givenValues a.a0).length, (givenValues a.relThr).length, (givenValues a.absThr).length,
      (givenValues a.maxIter).length, (givenValues a.extraFrac).length, (givenValues a.order).length, 1} (l.phase + 1) := by
  unfold simulate at hl
  obtain ⟨b, hb, hl⟩ := bind_ok hl
  have hg := C79_number_of_phases hacc hb
  have h1 : 1 ≤ b.totalPhases := hg.2 (by simp)
  unfold Loop.runModel at hl
  obtain ⟨h2, h3⟩ := (Reached.of_loop fuel .start hl).last_phase rfl (Nat.zero_le _)
  have h4 := loop_stopped fuel hl
  have h5 : (runEnv a b solver t).totalPhases = b.totalPhases := rfl
  rw [h5] at h2 h3
  have : l.phase + 1 = b.totalPhases := by
    rcases h4 with h4 | h4
    · rcases h3 with h3 | h3 | h3
      · rw [h4] at h3; cases h3
      · omega
      · omega
    · omega
  rw [this]
  exact hg

/-- a run with two values of `k` and three of `a0`: it ends after 13 steps, in the third phase -/
example : (simulate { cliArgs with conv := 1 } cliDraws (fun _ => 0) cliTurns 51).toOption.map (fun l => (l.phase, l.steps, l.maxIter)) = some (2, 13, 50) := by
  decide +kernel

example : Accepted { cliArgs with conv := 1 } cliDraws 12 := { cli_accepted with }

end RSE.Props
