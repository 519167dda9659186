import Verif.Lemmas.Normal
import Verif.Props.Rounding

/-!
# C109: the normalisation of stakes in binary64 arithmetic

Lines 114-127 and 178-193 of logic/sim.py.  C41 is the same claim in exact arithmetic.
-/

set_option linter.unusedSectionVars false
set_option exponentiation.threshold 2000

namespace RSE.Props

/-- the exact sum of binary64 numbers -/
def trueSum (l : List B64) : ℚ := (l.map (fun x => x.1)).sum

/-- the unit of the errors for `n` agents -/
def unit64 (n : Nat) : ℚ := (n + 1) * (2 : ℚ) ^ (-53 : Int)

/-- C109.  Up to `2 ^ 40` agents with nonnegative stakes, not all 0, no inactive stake: `total_stake` becomes exactly 1, though the stakes add up to 1 only up to
`2 (n + 1) 2⁻⁵³`; every agent but the last gets its share up to a relative error of `2 (n + 1) 2⁻⁵³` (and half of the least positive number); and every agent,
including the last, gets its share up to `6 (n + 1) 2⁻⁵³`. -/
theorem C109_normalised (stakes : List B64) (h : ∀ x ∈ stakes, 0 ≤ x) (hpos : ∃ x ∈ stakes, 0 < x) (hn : stakes.length ≤ 2 ^ 40) :
    ∃ new, initialStakes stakes 0 = .ok (new, 1) ∧ new.length = stakes.length ∧ |trueSum new - 1| ≤ 2 * unit64 stakes.length ∧
      ∀ (i : Nat) (a b : B64), stakes[i]? = some a → new[i]? = some b →
        (i + 1 < stakes.length → 0 ≤ b ∧
          |b.1 - a.1 / trueSum stakes| ≤ 2 * unit64 stakes.length * (a.1 / trueSum stakes) + (2 : ℚ) ^ (-1075 : Int)) ∧
        |b.1 - a.1 / trueSum stakes| ≤ 6 * unit64 stakes.length := by
  obtain ⟨x, hx, hx0⟩ := hpos
  have hx0' : (0 : ℚ) < x.1 := hx0
  obtain ⟨new, h1, h2⟩ := normal_ok h hn (lt_of_lt_of_le hx0' (mem_le_exactSum h hx))
  exact ⟨new, h1, h2.length, h2.sum, fun i a b ha hb => ⟨fun hi => h2.others i a b hi ha hb, h2.all i a b ha hb⟩⟩

/-- C109.  If the share of the last agent is at least `6 (n + 1) 2⁻⁵³`, no stake becomes negative. -/
theorem C109_nonneg (init : List B64) (x : B64) (h : ∀ y ∈ init ++ [x], 0 ≤ y) (hn : init.length + 1 ≤ 2 ^ 40)
    (hx : 6 * unit64 (init.length + 1) * trueSum (init ++ [x]) ≤ x.1) (hx0 : 0 < x) :
    ∃ new, initialStakes (init ++ [x]) 0 = .ok (new, 1) ∧ ∀ y ∈ new, 0 ≤ y := by
  have hlen : (init ++ [x]).length = init.length + 1 := by simp
  have hxm : x ∈ init ++ [x] := by simp
  have hX : 0 < trueSum (init ++ [x]) := lt_of_lt_of_le (show (0 : ℚ) < x.1 from hx0) (mem_le_exactSum h hxm)
  obtain ⟨new, h1, h2, -, h3⟩ := C109_normalised (init ++ [x]) h ⟨x, hxm, hx0⟩ (by rw [hlen]; exact hn)
  refine ⟨new, h1, fun y hy => ?_⟩
  obtain ⟨i, hi⟩ := List.getElem?_of_mem hy
  have hlt : i < init.length + 1 := by
    have := (List.getElem?_eq_some_iff.1 hi).1
    omega
  have ha : (init ++ [x])[i]? = some (init ++ [x])[i] := List.getElem?_eq_getElem (by omega)
  have h4 := h3 i _ y ha hi
  by_cases hi' : i + 1 < (init ++ [x]).length
  · exact (h4.1 hi').1
  · have hie : i = init.length := by omega
    subst hie
    have h5 := (abs_le.1 h4.2).1
    simp only [List.getElem_append_right (Nat.le_refl _), Nat.sub_self, List.getElem_cons_zero, hlen] at h5
    rw [← le_div_iff₀ hX] at hx
    change (0 : ℚ) ≤ y.1
    linarith

/-- C109.  If all stakes are 0 (or there are none), `ValueError`. -/
theorem C109_nothing (stakes : List B64) (h : ∀ x ∈ stakes, x = 0) : initialStakes stakes 0 = .error .value := by
  have h0 : stakes.foldl (· + ·) 0 = 0 := by
    induction stakes with
    | nil => rfl
    | cons x t ih =>
      rw [List.foldl_cons, h x (by simp), show (0 : B64) + 0 = 0 from RoundedArith.add_zero 0]
      exact ih (fun y hy => h y (List.mem_cons_of_mem _ hy))
  rw [initialStakes_zero, h0, if_pos le_rfl]

/-- five stakes in lovelace, as in a file sorted from the richest to the poorest -/
def lovelace : List B64 := [flt (11 * 10 ^ 15) 1, flt (8 * 10 ^ 15) 1, flt (6 * 10 ^ 15) 1, flt (10 ^ 15) 1, flt 1 1]

/-- C109 (a defect).  The stakes that are positive do not all stay positive or 0: the correction of the sum is taken from the last agent, however little it has. -/
theorem C109_negative_stake : (∀ x ∈ lovelace, 0 < x) ∧
    ∃ new, initialStakes lovelace 0 = .ok (new, 1) ∧ ∃ y, new.getLast? = some y ∧ y < 0 := by
  refine ⟨by decide +kernel, ?_⟩
  have key : (match initialStakes lovelace 0 with
      | .ok (l, t) => decide (t = 1) && (match l.getLast? with
        | some y => decide (y < 0)
        | none => false)
      | .error _ => false) = true := by decide +kernel
  cases h : initialStakes lovelace 0 with
  | error e => rw [h] at key; simp at key
  | ok r =>
    obtain ⟨l, t⟩ := r
    rw [h] at key
    simp only [Bool.and_eq_true, decide_eq_true_eq] at key
    obtain ⟨rfl, k2⟩ := key
    refine ⟨l, rfl, ?_⟩
    cases hl : l.getLast? with
    | none => rw [hl] at k2; exact absurd k2 (by decide)
    | some y =>
      rw [hl] at k2
      exact ⟨y, rfl, by simpa using k2⟩

/-- the agents with those stakes; the last one has low costs -/
def lovelaceFloats : Config B64 :=
  { rs := { scheme := .cardano, k := 2, beta := flt 1 2, a0 := flt 3 10 }, relThr := 0, absThr := 0, extraFrac := flt 1 2, simultaneous := false,
    people := (match initialStakes lovelace 0 with
      | .ok (l, _) => l
      | .error _ => []).zip
        [(flt 9 10, .nonMyopic), (flt 9 10, .nonMyopic), (flt 9 10, .nonMyopic), (flt 9 10, .nonMyopic), (flt 1 100000, .nonMyopic)],
    totalStake := 1 }

/-- what is said of the pools below -/
def poolSigns (s : State B64) : List Bool :=
  s.pools.map (fun e => decide ((s.heap e.2).owner = 4 ∧ (s.heap e.2).pledge < 0 ∧ 1 / 3 < (s.heap e.2).stake.1))

/-- C109 (what the defect leads to).  In a simulation made from those stakes the last agent, who has less than nothing, operates two pools with a negative
pledge; they are the only pools and each has attracted more than a third of all stake. -/
theorem C109_negative_pledge : ∃ s, ReachableSinglePhase lovelaceFloats s ∧ s.pools.length = 2 ∧
    ∀ e ∈ s.pools, (s.heap e.2).owner = 4 ∧ (s.heap e.2).pledge < 0 ∧ 1 / 3 < (s.heap e.2).stake.1 := by
  obtain ⟨s, hs, hv⟩ := reachable_of_runB (c := lovelaceFloats) (l := [4, 0, 1, 2, 3]) (by decide +kernel)
    (f := poolSigns) (v := [true, true]) (by decide +kernel)
  refine ⟨s, hs, ?_, fun e he => ?_⟩
  · have := congrArg List.length hv
    rwa [poolSigns, List.length_map] at this
  · have hm : decide ((s.heap e.2).owner = 4 ∧ (s.heap e.2).pledge < 0 ∧ 1 / 3 < (s.heap e.2).stake.1) ∈ poolSigns s := List.mem_map.2 ⟨e, he, rfl⟩
    rw [hv] at hm
    simpa using hm

/-- the hypotheses of `C109_normalised` hold of those stakes -/
example : (∀ x ∈ lovelace, 0 ≤ x) ∧ (∃ x ∈ lovelace, 0 < x) ∧ lovelace.length ≤ 2 ^ 40 := by
  refine ⟨by decide +kernel, ⟨flt 1 1, by decide +kernel, by decide +kernel⟩, by decide⟩

/-- and those of `C109_nonneg` hold if the poorest has one million lovelace -/
example : ∃ new, initialStakes (lovelace.dropLast ++ [flt (10 ^ 6) 1]) 0 = .ok (new, 1) ∧ ∀ y ∈ new, 0 ≤ y :=
  C109_nonneg lovelace.dropLast (flt (10 ^ 6) 1) (by decide +kernel) (by decide) (by decide +kernel) (by decide +kernel)

end RSE.Props
