import Verif.Lemmas.Tally
import Verif.Props.Metrics

/-!
# C48: Gini coefficients
-/

set_option linter.unusedSectionVars false

namespace RSE.Props

variable {K : Type} [Field K] [LinearOrder K] [IsStrictOrderedRing K]

/-- the sum of the absolute differences of all ordered pairs of values -/
def pairDiffs (l : List K) : K := (l.map (fun x => (l.map (fun y => |x - y|)).sum)).sum

/-- the sum of the absolute differences of a value to the values after it -/
def halfDiffs : List K → K
  | [] => 0
  | x :: t => (t.map (fun y => |x - y|)).sum + halfDiffs t

theorem giniLoop_eq : ∀ (l : List K) (acc : K), giniLoop l acc = acc + halfDiffs l
  | [], acc => by simp [giniLoop, halfDiffs]
  | [x], acc => by simp [giniLoop, halfDiffs]
  | x :: y :: t, acc => by
    have h := giniLoop_eq (y :: t) (acc + FSum.fsum ((y :: t).map (fun z => absF (x - z))))
    rw [giniLoop, h, add_assoc]
    rfl

theorem pairDiffs_eq : ∀ l : List K, pairDiffs l = 2 * halfDiffs l
  | [] => by simp [pairDiffs, halfDiffs]
  | x :: t => by
    have ih := pairDiffs_eq t
    unfold pairDiffs at ih ⊢
    simp only [List.map_cons, List.sum_cons, sub_self, abs_zero, zero_add, halfDiffs]
    rw [List.sum_map_add, ih]
    have : (t.map (fun y => |y - x|)) = t.map (fun y => |x - y|) := List.map_congr_left (fun y _ => abs_sub_comm y x)
    rw [this]; ring

theorem gini_eq {l : List K} (h : l.sum ≠ 0) : giniCoefficient l = .ok (pairDiffs l / (2 * ((l.length : K) * l.sum))) := by
  have hlen : (l.length : K) ≠ 0 := by
    intro h0
    have : l.length = 0 := by exact_mod_cast h0
    rw [List.length_eq_zero_iff.1 this] at h
    simp at h
  unfold giniCoefficient
  rw [if_pos (show FSum.fsum l ≠ 0 from h), pyDiv, if_neg (show ((l.length : K) * FSum.fsum l) ≠ 0 from mul_ne_zero hlen h), giniLoop_eq,
    zero_add, pairDiffs_eq, mul_div_mul_left _ _ (two_ne_zero)]
  rfl

/-- C48.  The coefficient is half the relative mean absolute difference: the mean of `|x - y|` over all pairs of values, divided by twice
the mean. -/
theorem C48_relative_mean_difference {l : List K} (h : l.sum ≠ 0) :
    giniCoefficient l = .ok (pairDiffs l / ((l.length : K) * (l.length : K)) / (2 * (l.sum / (l.length : K)))) := by
  have hlen : (l.length : K) ≠ 0 := by
    intro h0
    have : l.length = 0 := by exact_mod_cast h0
    rw [List.length_eq_zero_iff.1 this] at h
    simp at h
  rw [gini_eq h]
  congr 1
  field_simp

/-- C48.  For values that add up to 0 the result is -1 (also for no values at all). -/
theorem C48_zero_sum {l : List K} (h : l.sum = 0) : giniCoefficient l = .ok (-1) := by
  unfold giniCoefficient
  rw [if_neg]
  exact fun hc => hc h

theorem halfDiffs_nonneg : ∀ l : List K, 0 ≤ halfDiffs l
  | [] => le_refl _
  | x :: t => by
    have h1 := halfDiffs_nonneg t
    have h2 : 0 ≤ (t.map (fun y => |x - y|)).sum := by
      refine List.sum_nonneg (fun z hz => ?_)
      obtain ⟨y, -, rfl⟩ := List.mem_map.1 hz
      exact abs_nonneg _
    exact add_nonneg h2 h1

theorem halfDiffs_le : ∀ {l : List K}, (∀ x ∈ l, 0 ≤ x) → halfDiffs l + l.sum ≤ (l.length : K) * l.sum
  | [], _ => by simp [halfDiffs]
  | x :: t, h => by
    have ih := halfDiffs_le (fun y hy => h y (by simp [hy]) : ∀ y ∈ t, 0 ≤ y)
    have hx := h x (by simp)
    have h1 : (t.map (fun y => |x - y|)).sum ≤ (t.map (fun y => x + y)).sum := by
      refine List.sum_le_sum (fun y hy => ?_)
      have := h y (by simp [hy])
      rw [abs_le]; constructor <;> linarith
    rw [List.sum_map_add] at h1
    simp only [List.map_const', List.sum_replicate, nsmul_eq_mul, List.map_id'] at h1
    simp only [halfDiffs, List.sum_cons, List.length_cons]
    push_cast
    linarith

theorem halfDiffs_zero : ∀ {l : List K}, halfDiffs l = 0 → ∀ x ∈ l, ∀ y ∈ l, x = y
  | [], _ => by simp
  | x :: t, h => by
    have h1 := halfDiffs_nonneg t
    have hnn : ∀ z ∈ t.map (fun y => |x - y|), 0 ≤ z := by
      intro z hz
      obtain ⟨y, -, rfl⟩ := List.mem_map.1 hz
      exact abs_nonneg _
    have h2 := List.sum_nonneg hnn
    unfold halfDiffs at h
    have hz : (t.map (fun y => |x - y|)).sum = 0 := by linarith
    have hx : ∀ y ∈ t, x = y := by
      intro y hy
      have := List.single_le_sum hnn _ (List.mem_map.2 ⟨y, hy, rfl⟩)
      rw [hz] at this
      exact sub_eq_zero.1 (abs_nonpos_iff.1 this)
    intro a ha b hb
    have hx' : ∀ y ∈ x :: t, x = y := by
      intro y hy
      rcases List.mem_cons.1 hy with h | h
      · exact h.symm
      · exact hx y h
    rw [← hx' a ha, ← hx' b hb]

/-- C48.  Non-negative values with a positive sum: the coefficient is in `[0, 1 - 1/n]`, and 0 exactly if all values are equal. -/
theorem C48_range {l : List K} (h : ∀ x ∈ l, 0 ≤ x) (hs : 0 < l.sum) :
    ∃ g, giniCoefficient l = .ok g ∧ 0 ≤ g ∧ g ≤ 1 - 1 / (l.length : K) ∧ (g = 0 ↔ ∀ x ∈ l, ∀ y ∈ l, x = y) := by
  have hlen : (0 : K) < (l.length : K) := by
    have : l ≠ [] := by rintro rfl; simp at hs
    exact_mod_cast List.length_pos_iff.2 this
  have hden : (0 : K) < (l.length : K) * l.sum := mul_pos hlen hs
  refine ⟨halfDiffs l / ((l.length : K) * l.sum), ?_, div_nonneg (halfDiffs_nonneg l) hden.le, ?_, ?_⟩
  · rw [gini_eq hs.ne', pairDiffs_eq, mul_div_mul_left _ _ (two_ne_zero)]
  · rw [div_le_iff₀ hden]
    have := halfDiffs_le h
    have e : (1 - 1 / (l.length : K)) * ((l.length : K) * l.sum) = (l.length : K) * l.sum - l.sum := by field_simp
    linarith
  · rw [div_eq_zero_iff]
    constructor
    · rintro (h0 | h0)
      · exact halfDiffs_zero h0
      · exact absurd h0 hden.ne'
    · intro hall
      left
      have h2 : pairDiffs l = 0 := by
        have : l.map (fun x => (l.map (fun y => |x - y|)).sum) = l.map (fun _ => 0) := by
          refine List.map_congr_left (fun x hx => ?_)
          have : l.map (fun y => |x - y|) = l.map (fun _ => 0) := by
            refine List.map_congr_left (fun y hy => ?_)
            rw [hall x hx y hy]; simp
          rw [this]; simp
        unfold pairDiffs
        rw [this]; simp
      rw [pairDiffs_eq] at h2
      linarith

/-- C48.  -1 is returned for non-negative values exactly if they add up to 0. -/
theorem C48_minus_one {l : List K} (h : ∀ x ∈ l, 0 ≤ x) : giniCoefficient l = .ok (-1) ↔ l.sum = 0 := by
  refine ⟨fun hg => ?_, C48_zero_sum⟩
  by_contra hne
  have hpos : 0 < l.sum := lt_of_le_of_ne (List.sum_nonneg h) (Ne.symm hne)
  obtain ⟨g, h1, h2, -⟩ := C48_range h hpos
  rw [hg] at h1
  cases h1
  linarith [h2]

/-- C48.  The order of the values does not matter. -/
theorem C48_order {l l' : List K} (h : l.Perm l') : giniCoefficient l = giniCoefficient l' := by
  have hp : pairDiffs l = pairDiffs l' := by
    unfold pairDiffs
    have : l.map (fun x => (l.map (fun y => |x - y|)).sum) = l.map (fun x => (l'.map (fun y => |x - y|)).sum) :=
      List.map_congr_left (fun x _ => (h.map _).sum_eq)
    rw [this]
    exact (h.map _).sum_eq
  by_cases h0 : l.sum = 0
  · rw [C48_zero_sum h0, C48_zero_sum (h.sum_eq ▸ h0)]
  · rw [gini_eq h0, gini_eq (h.sum_eq ▸ h0), hp, h.sum_eq, h.length_eq]

/-- C48.  Scaling all values by a positive factor does not change the coefficient. -/
theorem C48_scale (l : List K) {c : K} (hc : 0 < c) : giniCoefficient (l.map (fun x => c * x)) = giniCoefficient l := by
  have hsum : (l.map (fun x => c * x)).sum = c * l.sum := by rw [List.sum_map_mul_left]; simp
  by_cases h0 : l.sum = 0
  · rw [C48_zero_sum h0, C48_zero_sum (by rw [hsum, h0, mul_zero])]
  · rw [gini_eq h0, gini_eq (by rw [hsum]; exact mul_ne_zero hc.ne' h0), hsum, List.length_map]
    have hp : pairDiffs (l.map (fun x => c * x)) = c * pairDiffs l := by
      unfold pairDiffs
      rw [List.map_map, ← List.sum_map_mul_left]
      refine congrArg List.sum (List.map_congr_left (fun x _ => ?_))
      simp only [Function.comp_apply, List.map_map]
      rw [← List.sum_map_mul_left]
      refine congrArg List.sum (List.map_congr_left (fun y _ => ?_))
      simp only [Function.comp_apply]
      rw [← mul_sub, abs_mul, abs_of_pos hc]
    congr 1
    rw [hp]
    have e : 2 * ((l.length : K) * (c * l.sum)) = c * (2 * ((l.length : K) * l.sum)) := by ring
    rw [e, mul_div_mul_left _ _ hc.ne']

/-- the upper bound is reached: one of `n` agents has everything -/
theorem C48_maximum {x : K} (hx : 0 < x) (n : Nat) : giniCoefficient (x :: List.replicate n 0) = .ok (1 - 1 / ((n + 1 : Nat) : K)) := by
  have hs : (x :: List.replicate n 0).sum = x := by simp
  have hz : halfDiffs (List.replicate n (0 : K)) = 0 := by
    clear hs
    induction n with
    | zero => rfl
    | succ n ih => rw [List.replicate_succ, halfDiffs, ih]; simp
  rw [gini_eq (by rw [hs]; exact hx.ne'), pairDiffs_eq, hs, halfDiffs, hz]
  congr 1
  have hn : ((n : K) + 1) ≠ 0 := by positivity
  simp only [List.map_replicate, sub_zero, abs_of_pos hx, List.sum_replicate, nsmul_eq_mul, add_zero, List.length_cons, List.length_replicate]
  push_cast
  field_simp
  ring

example : (giniCoefficient [(1 : ℚ), 2, 3]).toOption = some (2/9) ∧ (∀ x ∈ [(1 : ℚ), 2, 3], 0 ≤ x) ∧ 0 < [(1 : ℚ), 2, 3].sum := by decide +kernel

/-! ### The four metrics -/

/-- the number of pools of agent `a` -/
def poolsOf (s : State K) (a : Nat) : Nat := s.pools.countP (fun e => decide ((s.heap e.2).owner = a))

/-- the pool owners, without repetitions -/
def operators (s : State K) : List Nat := (s.pools.map (fun e => (s.heap e.2).owner)).dedup

theorem operators_eq (s : State K) : operators s = ((poolsList s).map (fun p => p.owner)).dedup := by
  simp [operators, poolsList, Function.comp_def]

theorem countP_eq_sum {α : Type} (p : α → Bool) (l : List α) : l.countP p = (l.map (fun x => if p x then 1 else 0)).sum := by
  induction l with
  | nil => rfl
  | cons a t ih => rw [List.countP_cons, ih, List.map_cons, List.sum_cons, Nat.add_comm]

theorem poolsOf_eq (s : State K) (a : Nat) : sumOver (fun p : Pool K => p.owner) (fun _ => 1) (poolsList s) a = poolsOf s a := by
  unfold sumOver poolsOf poolsList
  rw [countP_eq_sum, List.map_map]
  refine congrArg List.sum (List.map_congr_left (fun e _ => ?_))
  simp

theorem controls_sumOver (s : State K) (a : Nat) : sumOver (fun p : Pool K => p.owner) (fun p => p.stake) (poolsList s) a = controls s a := by
  unfold sumOver controls poolsList
  rw [List.map_map]
  rfl

theorem poolsOwned_vals (s : State K) : (poolsOwned s).vals.Perm ((operators s).map (poolsOf s)) := by
  have := tally_vals (fun p : Pool K => p.owner) (fun _ => 1) (poolsList s)
  rw [← operators_eq] at this
  exact this.trans (List.Perm.of_eq (List.map_congr_left (fun a _ => poolsOf_eq s a)))

theorem stakeOwned_vals (s : State K) : (stakeOwned s).vals.Perm ((operators s).map (controls s)) := by
  have := tally_vals (fun p : Pool K => p.owner) (fun p => p.stake) (poolsList s)
  rw [← operators_eq] at this
  exact this.trans (List.Perm.of_eq (List.map_congr_left (fun a _ => controls_sumOver s a)))

theorem padTo_perm (k : Nat) {l l' : List K} (h : l.Perm l') : (padTo k l).Perm (padTo k l') := by
  unfold padTo
  rw [h.length_eq]
  split
  · exact h.append_right _
  · exact h

/-- C48.  'Gini-id' is the coefficient of the operators' pool counts, 'Gini-id stake' of the stakes in their pools; the variants "(k)" add
zeros until there are `k` values. -/
theorem C48_metrics (s : State K) :
    giniPoolCount s = giniCoefficient ((operators s).map (fun a => (poolsOf s a : K))) ∧
    giniStake s = giniCoefficient ((operators s).map (controls s)) ∧
    giniPoolCountK s = giniCoefficient (padTo s.rs.k ((operators s).map (fun a => (poolsOf s a : K)))) ∧
    giniStakeK s = giniCoefficient (padTo s.rs.k ((operators s).map (controls s))) := by
  have h1 : ((poolsOwned s).vals.map (fun n : Nat => (n : K))).Perm ((operators s).map (fun a => (poolsOf s a : K))) := by
    have := List.Perm.map (fun n : Nat => (n : K)) (poolsOwned_vals s)
    rwa [List.map_map] at this
  have h2 := stakeOwned_vals s
  exact ⟨C48_order h1, C48_order h2, C48_order (padTo_perm _ h1), C48_order (padTo_perm _ h2)⟩

theorem halfDiffs_append_zeros (z : Nat) : ∀ {l : List K}, (∀ x ∈ l, 0 ≤ x) → halfDiffs (l ++ List.replicate z 0) = halfDiffs l + (z : K) * l.sum
  | [], _ => by
    have hz : halfDiffs (List.replicate z (0 : K)) = 0 := by
      induction z with
      | zero => rfl
      | succ n ih => rw [List.replicate_succ, halfDiffs, ih]; simp
    simp [hz, halfDiffs]
  | x :: t, h => by
    have ih := halfDiffs_append_zeros z (fun y hy => h y (by simp [hy]) : ∀ y ∈ t, 0 ≤ y)
    rw [List.cons_append, halfDiffs, ih, halfDiffs, List.map_append, List.sum_append, List.map_replicate, List.sum_replicate, sub_zero,
      abs_of_nonneg (h x (by simp)), nsmul_eq_mul, List.sum_cons]
    ring

/-- C48.  Counting agents without pools never lowers the coefficient: with zeros added it is at least as large. -/
theorem C48_padding {l : List K} (h : ∀ x ∈ l, 0 ≤ x) (hs : 0 < l.sum) (k : Nat) :
    ∃ g g', giniCoefficient l = .ok g ∧ giniCoefficient (padTo k l) = .ok g' ∧ g ≤ g' := by
  have hlen : (0 : K) < (l.length : K) := by
    have : l ≠ [] := by rintro rfl; simp at hs
    exact_mod_cast List.length_pos_iff.2 this
  have e1 : giniCoefficient l = .ok (halfDiffs l / ((l.length : K) * l.sum)) := by
    rw [gini_eq hs.ne', pairDiffs_eq, mul_div_mul_left _ _ (two_ne_zero)]
  unfold padTo
  split
  · set z := k - l.length
    have hsum : (l ++ List.replicate z 0).sum = l.sum := by simp
    have e2 : giniCoefficient (l ++ List.replicate z 0) = .ok ((halfDiffs l + (z : K) * l.sum) / (((l.length : K) + (z : K)) * l.sum)) := by
      rw [gini_eq (by rw [hsum]; exact hs.ne'), pairDiffs_eq, mul_div_mul_left _ _ (two_ne_zero), halfDiffs_append_zeros z h, hsum]
      simp
    refine ⟨_, _, e1, e2, ?_⟩
    have hz : (0 : K) ≤ (z : K) := Nat.cast_nonneg _
    have hd := halfDiffs_le h
    rw [div_le_div_iff₀ (by positivity) (by positivity)]
    have hmul : (z : K) * l.sum * halfDiffs l ≤ (z : K) * l.sum * ((l.length : K) * l.sum) :=
      mul_le_mul_of_nonneg_left (by linarith) (by positivity)
    nlinarith [hmul]
  · exact ⟨_, _, e1, e1, le_refl _⟩

end RSE.Props
