import Verif.Model.Cli

/-!
# C60, C61: command-line validation, seeds
-/

namespace RSE.Props

/-- The validators of integers accept exactly the integers in their range, unchanged. -/
theorem C60_ints (v : Option Int) (i : Int) :
    (positiveInt v = some i ↔ v = some i ∧ 0 < i) ∧ (nonNegativeInt v = some i ↔ v = some i ∧ 0 ≤ i) := by
  cases v with
  | none => simp [positiveInt, nonNegativeInt]
  | some j =>
    simp only [positiveInt, nonNegativeInt, Option.bind_some, Option.some.injEq]
    refine ⟨?_, ?_⟩ <;> split <;> simp <;> omega

/-- The validators of floats accept exactly the finite numbers in their range. -/
theorem C60_finite (q : ℚ) (x : PyFloat) :
    (positiveFloat (some (.fin q)) = some x ↔ x = .fin q ∧ 0 < q) ∧
    (nonNegativeFloat (some (.fin q)) = some x ↔ x = .fin q ∧ 0 ≤ q) ∧
    (fraction (some (.fin q)) = some x ↔ x = .fin q ∧ 0 ≤ q ∧ q ≤ 1) := by
  refine ⟨?_, ?_, ?_⟩
  · by_cases h : q ≤ 0
    · simp [positiveFloat, PyFloat.le, h, not_lt.2 h]
    · simp [positiveFloat, PyFloat.le, h, not_le.1 h]; exact eq_comm
  · by_cases h : q < 0
    · simp [nonNegativeFloat, PyFloat.lt, h, not_le.2 h]
    · simp [nonNegativeFloat, PyFloat.lt, h, not_lt.1 h]; exact eq_comm
  · by_cases h : q < 0
    · simp [fraction, PyFloat.lt, h, not_le.2 h]
    · by_cases h' : 1 < q
      · simp [fraction, PyFloat.lt, PyFloat.gt, h', not_le.2 h']
      · simp [fraction, PyFloat.lt, PyFloat.gt, h, h', not_lt.1 h, not_lt.1 h']; exact eq_comm

/-- Text that is not a number is rejected. -/
theorem C60_malformed : positiveInt none = none ∧ nonNegativeInt none = none ∧ positiveFloat none = none ∧ nonNegativeFloat none = none ∧
    fraction none = none := ⟨rfl, rfl, rfl, rfl, rfl⟩

/-- As expected the claim is false for floats in general: all three validators let 'nan' pass, and the unbounded ones infinity. -/
theorem C60_nan_accepted : positiveFloat (some .nan) = some .nan ∧ nonNegativeFloat (some .nan) = some .nan ∧ fraction (some .nan) = some .nan ∧
    positiveFloat (some .posInf) = some .posInf ∧ nonNegativeFloat (some .posInf) = some .posInf := ⟨rfl, rfl, rfl, rfl, rfl⟩

/-- Nothing else out of range gets through. -/
theorem C60_all_accepted (v : Option PyFloat) (x : PyFloat) :
    (positiveFloat v = some x → v = some x ∧ (x = .nan ∨ x = .posInf ∨ ∃ q, x = .fin q ∧ 0 < q)) ∧
    (nonNegativeFloat v = some x → v = some x ∧ (x = .nan ∨ x = .posInf ∨ ∃ q, x = .fin q ∧ 0 ≤ q)) ∧
    (fraction v = some x → v = some x ∧ (x = .nan ∨ ∃ q, x = .fin q ∧ 0 ≤ q ∧ q ≤ 1)) := by
  cases v with
  | none => simp [positiveFloat, nonNegativeFloat, fraction]
  | some y =>
    cases y with
    | nan => refine ⟨?_, ?_, ?_⟩ <;> (intro h; injection h with h; subst h; exact ⟨rfl, Or.inl rfl⟩)
    | negInf => simp [positiveFloat, nonNegativeFloat, fraction, PyFloat.le, PyFloat.lt]
    | posInf =>
      refine ⟨?_, ?_, ?_⟩
      · intro h; injection h with h; subst h; exact ⟨rfl, Or.inr (Or.inl rfl)⟩
      · intro h; injection h with h; subst h; exact ⟨rfl, Or.inr (Or.inl rfl)⟩
      · intro h; cases h
    | fin q =>
      obtain ⟨h1, h2, h3⟩ := C60_finite q x
      refine ⟨fun h => ?_, fun h => ?_, fun h => ?_⟩
      · obtain ⟨rfl, hq⟩ := h1.1 h; exact ⟨rfl, Or.inr (Or.inr ⟨q, rfl, hq⟩)⟩
      · obtain ⟨rfl, hq⟩ := h2.1 h; exact ⟨rfl, Or.inr (Or.inr ⟨q, rfl, hq⟩)⟩
      · obtain ⟨rfl, hq⟩ := h3.1 h; exact ⟨rfl, Or.inr ⟨q, rfl, hq⟩⟩

example : fraction (some (.fin (3 / 10))) = some (.fin (3 / 10)) ∧ fraction (some (.fin 2)) = none := by decide +kernel

/-! ## C61 -/

/-- run again with the recorded seed as an argument (and the other arguments as they were) -/
def SeedInput.again (i : SeedInput) (drawn : Nat) : SeedInput := { kw := some i.streams.recorded, file := none, drawn := drawn, source := i.source }

/-- C61.  If the seed was given as an argument, running again with the recorded seed gives the same random streams, all of them seeded. -/
theorem C61_reproducible (i : SeedInput) (s drawn : Nat) (hk : i.kw = some s) (hf : i.file = none) :
    (SeedInput.again i drawn).streams = i.streams ∧ i.streams.recorded = s ∧ i.streams.agents ≠ .entropy := by
  simp [SeedInput.again, SeedInput.streams, hk, hf]

/-- Exactly: running again with the recorded seed gives the same streams if and only if the recorded seed is the one passed to the constructor as an
argument. -/
theorem C61_exactly (i : SeedInput) (drawn : Nat) : (SeedInput.again i drawn).streams = i.streams ↔ i.kw = some i.streams.recorded := by
  have hag : (SeedInput.again i drawn).streams.agents = .seeded i.streams.recorded := rfl
  have hre : (SeedInput.again i drawn).streams.recorded = i.streams.recorded := rfl
  constructor
  · intro h
    rw [h] at hag
    simp only [SeedInput.streams] at hag
    split at hag
    · rename_i s hs
      injection hag with hag
      rw [hs]
      exact congrArg some hag
    · cases hag
  · intro h
    have ha : i.streams.agents = .seeded i.streams.recorded := by
      have : i.streams.agents = (match i.kw with | some s => Stream.seeded s | none => .entropy) := rfl
      rw [this]
      split
      · rename_i s hs
        rw [h] at hs
        injection hs with hs
        rw [hs]
      · rename_i hs; rw [h] at hs; cases hs
    have hst : (SeedInput.again i drawn).streams.stakes = i.streams.stakes := by
      simp only [SeedInput.again, SeedInput.streams]
      cases i.source <;> rfl
    have hco : (SeedInput.again i drawn).streams.costs = i.streams.costs := rfl
    cases hi : i.streams
    cases hj : (SeedInput.again i drawn).streams
    simp only [hi, hj] at hag hre ha hst hco
    simp_all

/-- Without a seed the constructor draws and records one, but profiles and the order of activation come from a generator seeded by the operating
system: the recorded seed does not reproduce the run. -/
theorem C61_drawn_seed (i : SeedInput) (drawn : Nat) (hk : i.kw = none) :
    i.streams.agents = .entropy ∧ (SeedInput.again i drawn).streams ≠ i.streams := by
  refine ⟨by simp [SeedInput.streams, hk], fun h => ?_⟩
  have := (C61_exactly i drawn).1 h
  rw [hk] at this
  cases this

/-- The seed in args.json is recorded and used for stakes and costs, but not for profiles and the order of activation. -/
theorem C61_seed_from_file (i : SeedInput) (s : Nat) (hf : i.file = some (some s)) :
    i.streams.recorded = s ∧ i.streams.costs = .seeded s ∧ i.streams.agents = (match i.kw with | some s' => .seeded s' | none => .entropy) := by
  refine ⟨?_, ?_, rfl⟩ <;> simp [SeedInput.streams, hf]

/-- With stakes from a file the sample of stakes does not depend on the seed at all. -/
theorem C61_stakes_from_file (i j : SeedInput) (hi : i.source = .file) (hj : j.source = .file) : i.streams.stakes = j.streams.stakes := by
  simp [SeedInput.streams, hi, hj]

example : (SeedInput.streams { kw := some 5, file := none, drawn := 77, source := .pareto }) =
    { stakes := some (.seeded 5), costs := .seeded 5, agents := .seeded 5, recorded := 5 } := rfl

example : (SeedInput.streams { kw := none, file := none, drawn := 77, source := .pareto }) =
    { stakes := some (.seeded 77), costs := .seeded 77, agents := .entropy, recorded := 77 } := rfl

end RSE.Props
