import Verif.Props.Rejects
import Verif.Props.StakeFile
import Verif.Props.Normalising

/-!
# C123: only the ratios of the stakes matter

Lines 114-127, 148-160 and 178-193 of logic/sim.py.
-/

set_option linter.unusedSectionVars false
set_option exponentiation.threshold 2000

namespace RSE.Props

variable {K : Type} [Field K] [LinearOrder K] [IsStrictOrderedRing K]

/-- stakes that are not normalised although some stake is inactive: those that add up to `1 - f` by chance -/
def FitsByChance (f : K) (stakes : List K) : Prop := f ≠ 0 ∧ stakes.sum = 1 - f

/-! ### Lemmas -/

theorem normalize_unit (l : List K) (h : l.sum = 1) : normalizeStakes l 1 = (l, 1) := by
  unfold normalizeStakes
  have h1 : l.map (· / (1 : K)) = l := by simp
  rw [h1]
  simp only [foldl_add_eq_sum, zero_add, h, if_true]

theorem normalize_times (l : List K) {c t : K} (hc : 0 < c) : normalizeStakes (l.map (c * ·)) (c * t) = normalizeStakes l t := by
  unfold normalizeStakes
  have h1 : (l.map (c * ·)).map (· / (c * t)) = l.map (· / t) := by
    rw [List.map_map]
    exact List.map_congr_left fun x _ => mul_div_mul_left x t hc.ne'
  rw [h1]

/-- the shares as a function of the sum of the stakes -/
theorem shares_cases (l : List K) (f : K) : initialStakes l f =
    if f = 1 then .error .zeroDiv
    else if l.sum / (1 - f) ≤ 0 then .error .value
    else if f ≠ 0 ∧ l.sum = 1 - f then .ok (l, 1)
    else .ok (normalizeStakes l (l.sum / (1 - f))) := by
  unfold initialStakes
  rw [foldl_add_eq_sum, zero_add]
  by_cases hf : f = 1
  · subst hf
    simp [pyDiv, bind, Except.bind]
  have hf' : (1 : K) - f ≠ 0 := fun h => hf (sub_eq_zero.1 h).symm
  rw [if_neg hf, pyDiv_ok hf']
  change (if _ then _ else _ : Py (List K × K)) = _
  split
  · rfl
  by_cases h1 : l.sum = 1 - f
  · rw [if_pos (by rw [h1, div_self hf'])]
    by_cases h0 : f = 0
    · subst h0
      have hs : l.sum = 1 := by rw [h1, sub_zero]
      rw [if_neg (by simp), hs, sub_zero, div_one, normalize_unit l hs]
    · rw [if_pos ⟨h0, h1⟩, h1, div_self hf']
  · rw [if_neg (by rw [div_eq_one_iff_eq hf']; exact h1), if_neg (fun h => h1 h.2)]

theorem sum_map_times (l : List K) (c : K) : (l.map (c * ·)).sum = c * l.sum := by
  induction l with
  | nil => simp
  | cons x l ih => simp only [List.map_cons, List.sum_cons, ih]; ring

/-! ### C123 -/

/-- C123.  Multiplying all stakes with the same factor changes nothing after normalisation (not even an exception), unless the stakes happen to add up to `1 - f` before or after it. -/
theorem C123_shares (stakes : List K) (f : K) {c : K} (hc : 0 < c) (h1 : ¬ FitsByChance f stakes) (h2 : ¬ FitsByChance f (stakes.map (c * ·))) :
    initialStakes (stakes.map (c * ·)) f = initialStakes stakes f := by
  have hs := sum_map_times stakes c
  unfold FitsByChance at h1 h2
  rw [shares_cases, shares_cases, if_neg h1, if_neg h2, hs, mul_div_assoc]
  have e : c * (stakes.sum / (1 - f)) ≤ 0 ↔ stakes.sum / (1 - f) ≤ 0 :=
    ⟨fun h => by
      by_contra h'
      exact absurd h (not_le.2 (mul_pos hc (not_le.1 h'))), fun h => mul_nonpos_of_nonneg_of_nonpos hc.le h⟩
  simp only [e, normalize_times stakes hc]

theorem totalPhases_source (a : Args K) (src : StakeSource) : ({ a with source := src } : Args K).totalPhases = a.totalPhases := rfl

theorem runEnv_source (a : Args K) (src : StakeSource) (b : Built K) (solver : State K → K) (t : Turns) :
    runEnv { a with source := src } b solver t = runEnv a b solver t := rfl

/-- the constructor and the run use the stakes only through the shares -/
theorem simulate_shares [FloorSemiring K] (a : Args K) (src : StakeSource) (d d' : Draws K) (h1 : d'.cost = d.cost) (h2 : d'.profile = d.profile)
    (h : ∀ n, a.n.first = .ok n → rawStakes src n d' = rawStakes a.source n d ∨
      ∃ s s', rawStakes a.source n d = .ok s ∧ rawStakes src n d' = .ok s' ∧ shareOut s' n a.inactive = shareOut s n a.inactive)
    (solver : State K → K) (t : Turns) (fuel : Nat) : simulate { a with source := src } d' solver t fuel = simulate a d solver t fuel := by
  have key : construct { a with source := src } d' = construct a d := by
    unfold construct
    simp only [h1, h2, totalPhases_source]
    cases makeScheme a.scheme with
    | error e => simp only [bind, Except.bind]
    | ok sch =>
      cases hn : a.n.first with
      | error e => simp only [bind, Except.bind]
      | ok n =>
        rcases h n hn with e | ⟨s, s', e1, e2, e3⟩
        · simp only [e, bind, Except.bind]
        · simp only [e1, e2, bind, Except.bind, e3]
  unfold simulate
  rw [key]
  cases construct a d with
  | error e => rfl
  | ok b => exact congrArg (fun E => Loop.runModel E fuel (Loop.init (0, b.n, initState b.config) b.maxIter)) (runEnv_source a src b solver t)

theorem file_length {n : Nat} {file : List K} {choice : Nat → Nat} {s : List K} (h : stakesFile n file choice = .ok s) : s.length = n := by
  unfold stakesFile at h
  split at h
  · rename_i e
    cases h; exact e.symm
  · split at h
    · exact absurd h (by simp)
    · cases h; simp

theorem file_times {n : Nat} {file : List K} {choice : Nat → Nat} (c : K) :
    stakesFile n (file.map (c * ·)) choice = (stakesFile n file choice).map (List.map (c * ·)) := by
  unfold stakesFile
  rw [List.length_map]
  split
  · rfl
  · split
    · rfl
    · rename_i h0
      simp only [Except.map, Except.ok.injEq, List.map_map]
      refine List.map_congr_left fun i _ => ?_
      have hlt : choice i % file.length < file.length := Nat.mod_lt _ (Nat.pos_of_ne_zero h0)
      simp [List.getD, List.getElem?_eq_getElem hlt]

/-- C123.  Multiplying all values in the file with stakes (whichever unit they are in) leaves the whole simulation as it is: the initial state, every row of metrics, the end or the
exception.  The only exception are stakes that happen to add up to `1 - f` in one of the two units if the fraction `f ≠ 0` is inactive. -/
theorem C123_simulation [FloorSemiring K] (a : Args K) (d : Draws K) (hsrc : a.source = .file) {c : K} (hc : 0 < c)
    (hf : a.inactive = 0 ∨ ∀ n s, a.n.first = .ok n → stakesFile n d.file d.choice = .ok s → s.sum ≠ 1 - a.inactive ∧ c * s.sum ≠ 1 - a.inactive)
    (solver : State K → K) (t : Turns) (fuel : Nat) :
    simulate a { d with file := d.file.map (c * ·) } solver t fuel = simulate a d solver t fuel := by
  have h := simulate_shares a a.source d { d with file := d.file.map (c * ·) } rfl rfl (fun n hn => by
    rw [hsrc]
    unfold rawStakes
    simp only
    rw [file_times]
    cases hs : stakesFile n d.file d.choice with
    | error e => exact .inl rfl
    | ok s =>
      refine .inr ⟨s, s.map (c * ·), rfl, rfl, ?_⟩
      have hl := file_length hs
      have hl' : (s.map (c * ·)).length = n := by rw [List.length_map, hl]
      have e1 := shareOut_eq s a.inactive
      have e2 := shareOut_eq (s.map (c * ·)) a.inactive
      rw [hl] at e1
      rw [hl'] at e2
      rw [e1, e2]
      apply C123_shares s a.inactive hc
      · rintro ⟨h0, h1⟩
        rcases hf with hf | hf
        · exact h0 hf
        · exact (hf n s hn hs).1 h1
      · rintro ⟨h0, h1⟩
        rw [sum_map_times] at h1
        rcases hf with hf | hf
        · exact h0 hf
        · exact (hf n s hn hs).2 h1) solver t fuel
  exact h

/-- C123.  A simulation whose stakes come from a file with one value per agent is the same as the one whose stakes these values were. -/
theorem C123_recorded [FloorSemiring K] (a : Args K) (d : Draws K) {n : Nat} (hn : a.n.first = .ok n) {s : List K} (hs : rawStakes a.source n d = .ok s) (hl : s.length = n)
    (solver : State K → K) (t : Turns) (fuel : Nat) : simulate { a with source := .file } { d with file := s } solver t fuel = simulate a d solver t fuel :=
  simulate_shares a .file d { d with file := s } rfl rfl (fun m hm => by
    rw [hn] at hm
    cases hm
    refine .inl ?_
    rw [hs]
    unfold rawStakes stakesFile
    exact if_pos hl.symm) solver t fuel

/-- C123.  If all values in the file are the same positive number, the simulation is the one with the stakes "flat", unless they happen to add up to `1 - f` for a fraction `f ≠ 0`. -/
theorem C123_equal_values [FloorSemiring K] (a : Args K) (d : Draws K) (hsrc : a.source = .file) {v : K} (hv : 0 < v) (hne : d.file ≠ []) (hall : ∀ x ∈ d.file, x = v)
    (hf : a.inactive = 0 ∨ ∀ n, a.n.first = .ok n → (n : K) * v ≠ 1 - a.inactive) (solver : State K → K) (t : Turns) (fuel : Nat) :
    simulate { a with source := .flat } d solver t fuel = simulate a d solver t fuel :=
  simulate_shares a .flat d d rfl rfl (fun n hn => by
    have hs : stakesFile n d.file d.choice = .ok (List.replicate n v) := by
      have hpos : 0 < d.file.length := List.length_pos_iff.2 hne
      unfold stakesFile
      split
      · rename_i e
        rw [e]
        exact congrArg _ (List.eq_replicate_iff.2 ⟨rfl, hall⟩)
      · rw [if_neg hpos.ne']
        refine congrArg _ (List.eq_replicate_iff.2 ⟨by simp, fun x hx => ?_⟩)
        obtain ⟨i, -, rfl⟩ := List.mem_map.1 hx
        have hlt : d.choice i % d.file.length < d.file.length := Nat.mod_lt _ hpos
        exact hall _ (by simp [List.getD, List.getElem?_eq_getElem hlt])
    rw [hsrc]
    unfold rawStakes
    simp only
    rw [hs]
    rcases Nat.eq_zero_or_pos n with h0 | h0
    · subst h0
      exact .inl rfl
    · have hn0 : (0 : K) < n := by exact_mod_cast h0
      have e : (stakesFlat n : List K) = (List.replicate n v).map (1 / (n * v) * ·) := by
        unfold stakesFlat
        rw [if_pos h0, List.map_replicate, List.map_const', List.length_range]
        congr 1
        field_simp
      refine .inr ⟨_, _, rfl, rfl, ?_⟩
      have hsum : (List.replicate n v).sum = n * v := by simp
      have l1 : (List.replicate n v).length = n := by simp
      have l2 : (stakesFlat n : List K).length = n := by simp [stakesFlat]
      have e1 := shareOut_eq (List.replicate n v) a.inactive
      have e2 := shareOut_eq (stakesFlat n : List K) a.inactive
      rw [l1] at e1
      rw [l2] at e2
      rw [e1, e2, e]
      apply C123_shares _ _ (by positivity)
      · rintro ⟨h0, h1⟩
        rw [hsum] at h1
        rcases hf with hf | hf
        · exact h0 hf
        · exact hf n hn h1
      · rintro ⟨h0, h1⟩
        rw [sum_map_times, hsum] at h1
        have : 1 / ((n : K) * v) * (n * v) = 1 := by field_simp
        rw [this] at h1
        exact h0 (by linarith)) solver t fuel

/-- C123 (the exception).  Two agents with half of the stake inactive: with the values 1/4 and 1/4 the agents hold a quarter each; with the values 1 and 1 the last one holds three
quarters. -/
theorem C123_unit_matters : initialStakes [(1 / 4 : ℚ), 1 / 4] (1 / 2) = .ok ([1 / 4, 1 / 4], 1) ∧
    initialStakes ([(1 / 4 : ℚ), 1 / 4].map (4 * ·)) (1 / 2) = .ok ([1 / 4, 3 / 4], 1) := by
  decide +kernel

/-! ### binary64 -/

theorem fits_nat {m : Nat} (h : m ≤ 2 ^ 53) : ((m : Nat) : B64).1 = m := by
  change round64 (m : ℚ) = m
  exact round64_of_fits ⟨m, 0, by simpa using h, by norm_num, by simp⟩

theorem cast_zero64 : ((0 : Nat) : B64) = 0 := Subtype.ext (fits_nat (by norm_num))
theorem cast_one64 : ((1 : Nat) : B64) = 1 := by
  change B64.of ((1 : Nat) : ℚ) = B64.of 1
  rw [Nat.cast_one]

/-- sums of integers are exact -/
theorem foldl_cast64 (ms : List Nat) : ∀ a : Nat, a + ms.sum ≤ 2 ^ 53 → (ms.map (fun m : Nat => (m : B64))).foldl (· + ·) ((a : Nat) : B64) = ((a + ms.sum : Nat) : B64) := by
  induction ms with
  | nil => intro a _; simp
  | cons m ms ih =>
    intro a h
    rw [List.sum_cons] at h
    have e : ((a : Nat) : B64) + ((m : Nat) : B64) = ((a + m : Nat) : B64) := by
      change B64.of (((a : Nat) : B64).1 + ((m : Nat) : B64).1) = B64.of _
      rw [fits_nat (by omega), fits_nat (by omega)]
      push_cast; rfl
    rw [List.map_cons, List.foldl_cons, e, ih (a + m) (by omega), List.sum_cons, Nat.add_assoc]

theorem sum_cast64 {ms : List Nat} (h : ms.sum ≤ 2 ^ 53) : (ms.map (fun m : Nat => (m : B64))).foldl (· + ·) 0 = ((ms.sum : Nat) : B64) := by
  have := foldl_cast64 ms 0 (by omega)
  rwa [cast_zero64, Nat.zero_add] at this

theorem div_one64 (x : B64) : x / 1 = x := by
  have h1 : (1 : B64).1 = 1 := by rw [← cast_one64, fits_nat (by norm_num)]; norm_num
  refine Subtype.ext ?_
  change round64 (x.1 / (1 : B64).1) = x.1
  rw [h1, div_one, x.2]

/-- the shares of integers: normalised even if their sum is 1 (which makes no difference then) -/
theorem shares_nat {ms : List Nat} (h : ms.sum ≤ 2 ^ 53) : initialStakes (ms.map (fun m : Nat => (m : B64))) 0 =
    if ms.sum = 0 then .error .value else .ok (normalizeStakes (ms.map (fun m : Nat => (m : B64))) ((ms.sum : Nat) : B64)) := by
  rw [initialStakes_zero, sum_cast64 h]
  have h0 : ((ms.sum : Nat) : B64) ≤ 0 ↔ ms.sum = 0 := by
    change ((ms.sum : Nat) : B64).1 ≤ 0 ↔ _
    rw [fits_nat h]
    exact_mod_cast Nat.le_zero
  simp only [h0]
  split
  · rfl
  · split
    · rename_i h1
      rw [h1]
      unfold normalizeStakes
      have e : (ms.map (fun m : Nat => (m : B64))).map (· / 1) = ms.map (fun m : Nat => (m : B64)) := by simp [div_one64]
      simp only [e, sum_cast64 h, h1, if_true]
    · rfl

/-- C123.  In binary64: integers that add up to at most `2 ^ 53`, before and after multiplying them with an integer, give exactly the same stakes. -/
theorem C123_integers {ms : List Nat} {c : Nat} (hc : 0 < c) (h : c * ms.sum ≤ 2 ^ 53) :
    initialStakes ((ms.map (c * ·)).map (fun m : Nat => (m : B64))) 0 = initialStakes (ms.map (fun m : Nat => (m : B64))) 0 := by
  have hs : (ms.map (c * ·)).sum = c * ms.sum := by simpa using List.sum_map_mul_left (l := ms) (f := fun m => m) (r := c)
  have hle : ms.sum ≤ 2 ^ 53 := (Nat.le_mul_of_pos_left _ hc).trans h
  rw [shares_nat (by rw [hs]; exact h), shares_nat hle, hs]
  have h0 : c * ms.sum = 0 ↔ ms.sum = 0 := by
    rw [Nat.mul_eq_zero]
    exact ⟨fun h => h.resolve_left hc.ne', .inr⟩
  simp only [h0]
  split
  · rfl
  · unfold normalizeStakes
    have e : ((ms.map (c * ·)).map (fun m : Nat => (m : B64))).map (· / ((c * ms.sum : Nat) : B64)) = (ms.map (fun m : Nat => (m : B64))).map (· / ((ms.sum : Nat) : B64)) := by
      rw [List.map_map, List.map_map, List.map_map]
      refine List.map_congr_left fun m hm => ?_
      have hm' : m ≤ ms.sum := List.single_le_sum (by simp) _ hm
      change B64.of (((c * m : Nat) : B64).1 / ((c * ms.sum : Nat) : B64).1) = B64.of (((m : Nat) : B64).1 / ((ms.sum : Nat) : B64).1)
      rw [fits_nat ((Nat.mul_le_mul_left c hm').trans h), fits_nat h, fits_nat (hm'.trans hle), fits_nat hle]
      push_cast
      rw [mul_div_mul_left _ _ (by exact_mod_cast hc.ne')]
    rw [e]

/-- C123 (binary64).  In general the stakes depend on the unit: 0.1, 0.3 and 0.2 do not give the same stakes as ten times these values. -/
theorem C123_floats : initialStakes ([flt 1 10, flt 3 10, flt 2 10].map (flt 10 1 * ·)) 0 ≠ initialStakes [flt 1 10, flt 3 10, flt 2 10] 0 := by
  intro h
  have key : (match initialStakes ([flt 1 10, flt 3 10, flt 2 10].map (flt 10 1 * ·)) 0, initialStakes [flt 1 10, flt 3 10, flt 2 10] 0 with
    | .ok x, .ok y => x.1.map (·.1) == y.1.map (·.1)
    | _, _ => true) = false := by decide +kernel
  rw [h] at key
  cases hx : initialStakes [flt 1 10, flt 3 10, flt 2 10] 0 with
  | error e => rw [hx] at key; exact absurd key (by simp)
  | ok x => rw [hx] at key; exact absurd key (by simp)

/-! ### Examples -/

example : initialStakes ([(1 : ℚ), 2, 5].map (10 * ·)) (1 / 5) = initialStakes [1, 2, 5] (1 / 5) :=
  C123_shares _ _ (by norm_num) (fun h => absurd h.2 (by norm_num)) (fun h => absurd h.2 (by norm_num))

/-- two agents whose stakes come from a file -/
def fromFile : Args ℚ := { cliArgs with n := .one 2, source := .file }
def fileDraws : Draws ℚ := { cliDraws with file := [3, 1] }

example (solver : State ℚ → ℚ) (t : Turns) (fuel : Nat) : simulate fromFile { fileDraws with file := fileDraws.file.map (1000000 * ·) } solver t fuel = simulate fromFile fileDraws solver t fuel :=
  C123_simulation fromFile fileDraws rfl (by norm_num) (.inr fun n s hn hs => by
    cases hn
    have : s = [3, 1] := by
      have h : stakesFile 2 [(3 : ℚ), 1] fileDraws.choice = .ok s := hs
      rw [stakesFile, if_pos (by decide)] at h
      exact (Except.ok.inj h).symm
    subst this
    norm_num [fromFile, cliArgs]) solver t fuel

example : (match construct fromFile fileDraws with
    | .ok b => b.config.people.length == 2
    | .error _ => false) = true := by decide +kernel

example : initialStakes (([1, 2, 4].map (1000000 * ·)).map (fun m : Nat => (m : B64))) 0 = initialStakes ([1, 2, 4].map (fun m : Nat => (m : B64))) 0 :=
  C123_integers (by norm_num) (by norm_num)

end RSE.Props
