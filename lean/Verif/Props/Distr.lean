import Verif.Model.Distr
import Verif.Lemmas.PlanOk
import Mathlib.Algebra.BigOperators.Group.List.Basic
import Mathlib.Algebra.Order.BigOperators.Group.List
import Mathlib.Tactic.Ring
import Mathlib.Tactic.FieldSimp
import Mathlib.Tactic.Linarith
import Mathlib.Tactic.NormNum
import Mathlib.Tactic.Positivity

/-!
# C41 - C46, C69: initial stakes and costs, choice of the reward scheme
-/

set_option linter.unusedSectionVars false

namespace RSE.Props

variable {K : Type} [Field K] [LinearOrder K] [IsStrictOrderedRing K]

theorem foldl_add_eq_sum (l : List K) (a : K) : l.foldl (· + ·) a = a + l.sum := by
  induction l generalizing a with
  | nil => simp
  | cons x t ih => simp only [List.foldl_cons, List.sum_cons, ih]; ring

theorem sum_map_div (l : List K) (t : K) : (l.map (· / t)).sum = l.sum / t := by
  induction l with
  | nil => simp
  | cons x l ih => simp only [List.map_cons, List.sum_cons, ih]; ring

theorem sum_map_mul (l : List K) (t : K) : (l.map (t * ·)).sum = t * l.sum := by
  induction l with
  | nil => simp
  | cons x l ih => simp only [List.map_cons, List.sum_cons, ih]; ring

theorem pyDiv_ok {a b : K} (h : b ≠ 0) : pyDiv a b = .ok (a / b) := by simp [pyDiv, h]

theorem getLast?_map' {α β : Type} (f : α → β) (l : List α) : (l.map f).getLast? = l.getLast?.map f := by
  simp

/-- what `normalize_agent_stake` computes, in exact arithmetic, for a list of stakes `init ++ [x]` -/
theorem normalizeStakes_snoc (init : List K) (x t : K) :
    normalizeStakes (init ++ [x]) t =
      (init.map (· / t) ++ [x / t + (1 - (init.sum + x) / t)], 1) := by
  unfold normalizeStakes
  have hsum : ((init ++ [x]).map (· / t)).foldl (· + ·) 0 = (init.sum + x) / t := by
    rw [foldl_add_eq_sum, sum_map_div]; simp
  simp only [hsum]
  split
  · rename_i h1
    rw [h1]; simp
  · simp only [Prod.mk.injEq]
    constructor
    · simp [List.map_append]
    · ring

/-- the constructor on a non-empty list of stakes with positive sum and an inactive fraction below 1 -/
theorem initialStakes_snoc (init : List K) (x f : K) (hpos : 0 < init.sum + x) (hf : f < 1) :
    initialStakes (init ++ [x]) f = .ok
      (if init.sum + x = 1 - f then (init ++ [x], 1)
       else (init.map (fun y => (1 - f) * y / (init.sum + x)) ++ [(1 - f) * x / (init.sum + x) + f], 1)) := by
  have hf' : (1 : K) - f ≠ 0 := (sub_pos.2 hf).ne'
  have hS : init.sum + x ≠ 0 := hpos.ne'
  unfold initialStakes
  rw [foldl_add_eq_sum, pyDiv_ok hf']
  simp only [zero_add, List.sum_append, List.sum_singleton]
  change (if _ then _ else _ : Py (List K × K)) = _
  have ht : 0 < (init.sum + x) / (1 - f) := div_pos hpos (sub_pos.2 hf)
  rw [if_neg (not_le.2 ht)]
  by_cases h1 : init.sum + x = 1 - f
  · rw [if_pos (by rw [h1]; exact div_self hf'), if_pos h1, h1, div_self hf']
  · rw [if_neg (by
      intro h
      rw [div_eq_one_iff_eq hf'] at h
      exact h1 h), if_neg h1, normalizeStakes_snoc]
    congr 2
    congr 1
    · exact List.map_congr_left fun y _ => by field_simp
    · congr 1; field_simp; ring

/-! ### C41 -/

/-- C41.  For all stakes with a positive sum and every inactive fraction `f < 1`, the constructor sets `total_stake = 1`; the agents' stakes
add up to 1, except in the corner case in which the stakes already add up to `1 - f` with `f ≠ 0` (`C41_corner`).  So with no inactive stake they always
add up to 1. -/
theorem C41_sum_one (stakes : List K) (f : K) (hpos : 0 < stakes.sum) (hf : f < 1) :
    ∃ new, initialStakes stakes f = .ok (new, 1) ∧ new.length = stakes.length ∧
      (new.sum = 1 ↔ f = 0 ∨ stakes.sum ≠ 1 - f) ∧ (stakes.sum = 1 - f → new.sum = 1 - f) := by
  have hne : stakes ≠ [] := by rintro rfl; simp at hpos
  obtain ⟨init, x, rfl⟩ : ∃ init x, stakes = init ++ [x] := ⟨stakes.dropLast, stakes.getLast hne, (List.dropLast_append_getLast hne).symm⟩
  simp only [List.sum_append, List.sum_singleton] at hpos ⊢
  rw [initialStakes_snoc init x f hpos hf]
  have hS : init.sum + x ≠ 0 := hpos.ne'
  by_cases h1 : init.sum + x = 1 - f
  · refine ⟨init ++ [x], by rw [if_pos h1], rfl, ?_, fun _ => by simp [h1]⟩
    simp only [List.sum_append, List.sum_singleton, h1, ne_eq, not_true_eq_false, or_false]
    constructor <;> intro h <;> linarith
  · refine ⟨_, by rw [if_neg h1], by simp, ?_, fun h => absurd h h1⟩
    have : (init.map (fun y => (1 - f) * y / (init.sum + x))).sum = (1 - f) * init.sum / (init.sum + x) := by
      have : (fun y => (1 - f) * y / (init.sum + x)) = (· / (init.sum + x)) ∘ ((1 - f) * ·) := rfl
      rw [this, ← List.map_map, sum_map_div, sum_map_mul]
    simp only [List.sum_append, List.sum_singleton, this, ne_eq, h1, not_false_eq_true, or_true, iff_true]
    field_simp
    ring

/-- C41.  A sum that is not positive raises `ValueError` (for every inactive fraction below 1). -/
theorem C41_nonpositive (stakes : List K) (f : K) (hpos : stakes.sum ≤ 0) (hf : f < 1) : initialStakes stakes f = .error .value := by
  have hf' : (0 : K) < 1 - f := sub_pos.2 hf
  unfold initialStakes
  rw [foldl_add_eq_sum, pyDiv_ok hf'.ne']
  change (if _ then _ else _ : Py (List K × K)) = _
  rw [if_pos]
  rw [zero_add]
  exact div_nonpos_of_nonpos_of_nonneg hpos hf'.le

example : initialStakes [(1 : ℚ), 2, 5] 0 = .ok ([1/8, 1/4, 5/8], 1) := by decide +kernel

/-- The corner case of C41: stakes that add up to `1 - f` are left alone, while `total_stake` is 1. -/
theorem C41_corner : initialStakes [(1/4 : ℚ), 1/4] (1/2) = .ok ([1/4, 1/4], 1) := by decide +kernel

/-! ### C42 -/

/-- C42.  For every inactive fraction `0 < f < 1` (and stakes that do not happen to add up to `1 - f`) the agents hold all the stake, not the
fraction `1 - f`, because the last agent receives the whole inactive stake `f` on top of its share. -/
theorem C42_last_agent_gets_inactive_stake (init : List K) (x f : K) (hpos : 0 < init.sum + x) (h0 : 0 < f) (hf : f < 1)
    (h1 : init.sum + x ≠ 1 - f) :
    ∃ new y, initialStakes (init ++ [x]) f = .ok (new ++ [y], 1) ∧ y = (1 - f) * x / (init.sum + x) + f ∧
      (new ++ [y]).sum = 1 ∧ (new ++ [y]).sum ≠ 1 - f := by
  refine ⟨init.map (fun y => (1 - f) * y / (init.sum + x)), _, by rw [initialStakes_snoc init x f hpos hf, if_neg h1], rfl, ?_⟩
  obtain ⟨new, h2, -, h3, -⟩ := C41_sum_one (init ++ [x]) f (by simpa using hpos) hf
  rw [initialStakes_snoc init x f hpos hf, if_neg h1] at h2
  simp only [Except.ok.injEq, Prod.mk.injEq, and_true] at h2
  rw [h2]
  have := h3.2 (.inr (by simpa using h1))
  exact ⟨this, by rw [this]; linarith⟩

/-- C42.  Every agent but the last holds its proportional share of the fraction `1 - f`. -/
theorem C42_others (init : List K) (x f : K) (hpos : 0 < init.sum + x) (hf : f < 1) (i : Nat) (hi : i < init.length) :
    ∃ new, initialStakes (init ++ [x]) f = .ok (new, 1) ∧ new[i]? = some ((1 - f) * init[i] / (init.sum + x)) := by
  rw [initialStakes_snoc init x f hpos hf]
  by_cases h1 : init.sum + x = 1 - f
  · refine ⟨_, by rw [if_pos h1], ?_⟩
    rw [List.getElem?_append_left hi, List.getElem?_eq_getElem hi, h1]
    have : (1 : K) - f ≠ 0 := (sub_pos.2 hf).ne'
    congr 1
    field_simp
  · refine ⟨_, by rw [if_neg h1], ?_⟩
    rw [List.getElem?_append_left (by simpa using hi), List.getElem?_map, List.getElem?_eq_getElem hi]
    rfl

/-- C42.  Only if the sampled stakes add up to `1 - f` already, the agents keep them and hold the documented fraction. -/
theorem C42_only_if_it_fits (init : List K) (x f : K) (hpos : 0 < init.sum + x) (h0 : 0 < f) (hf : f < 1) :
    (∃ new, initialStakes (init ++ [x]) f = .ok (new, 1) ∧ new.sum = 1 - f) ↔ init.sum + x = 1 - f := by
  constructor
  · rintro ⟨new, h1, h2⟩
    by_contra h
    obtain ⟨new', y, h3, -, -, h4⟩ := C42_last_agent_gets_inactive_stake init x f hpos h0 hf h
    rw [h3] at h1
    simp only [Except.ok.injEq, Prod.mk.injEq, and_true] at h1
    exact h4 (by rw [h1]; exact h2)
  · intro h
    exact ⟨init ++ [x], by rw [initialStakes_snoc init x f hpos hf, if_pos h], by simpa using h⟩

/-- with `inactive_stake_fraction = 1` (accepted by the command line) the constructor raises `ZeroDivisionError` -/
theorem C42_all_inactive (stakes : List K) : initialStakes stakes (1 : K) = .error .zeroDiv := by
  unfold initialStakes
  rw [sub_self]
  simp [pyDiv]
  rfl

/-- three equal agents, half of the stake inactive: the last one ends up with two thirds of everything -/
example : initialStakes [(1 : ℚ), 1, 1] (1/2) = .ok ([1/6, 1/6, 2/3], 1) := by decide +kernel

/-! ### C43 -/

/-- C43, flat: `n ≥ 1` equal positive entries that add up to 1. -/
theorem C43_flat (n : Nat) (hn : 1 ≤ n) :
    (stakesFlat n : List K).length = n ∧ (stakesFlat n : List K).sum = 1 ∧ ∀ x ∈ (stakesFlat n : List K), x = 1 / n ∧ 0 < x := by
  have hn' : (0 : K) < n := by exact_mod_cast hn
  have hc : ∀ x ∈ (stakesFlat n : List K), x = 1 / n := by
    intro x hx
    simp only [stakesFlat, List.mem_map] at hx
    obtain ⟨_, _, rfl⟩ := hx
    rw [if_pos (by omega)]
  refine ⟨by simp [stakesFlat], ?_, fun x hx => ⟨hc x hx, by rw [hc x hx]; positivity⟩⟩
  have hlen : (stakesFlat n : List K).length = n := by simp [stakesFlat]
  rw [List.sum_eq_card_nsmul _ _ hc, hlen, nsmul_eq_mul]
  field_simp

/-- C43, disparity with its default arguments: for `n > 3` there are `n` positive entries that add up to 1; for `n = 3` there is a
`ZeroDivisionError`; for `n < 3` there are three entries. -/
theorem C43_disparity (n : Nat) :
    (3 < n → ∃ l, stakesDisparity n (3 / 10 : K) 3 = .ok l ∧ l.length = n ∧ l.sum = 1 ∧ ∀ x ∈ l, 0 < x) ∧
    (n = 3 → stakesDisparity n (3 / 10 : K) 3 = .error .zeroDiv) ∧
    (n < 3 → ∃ l, stakesDisparity n (3 / 10 : K) 3 = .ok l ∧ l.length = 3) := by
  have h3 : ((3 : Nat) : K) ≠ 0 := by norm_num
  have key : n ≠ 3 → stakesDisparity n (3 / 10 : K) 3 = .ok ((List.range 3).map (fun _ => (3 / 10 : K) / (3 : Nat)) ++
      (List.range (n - 3)).map (fun _ => (1 - 3 / 10 : K) / natDiff n 3)) := by
    intro hn
    unfold stakesDisparity
    have hd : (natDiff n 3 : K) ≠ 0 := by
      unfold natDiff
      rw [sub_ne_zero]
      exact_mod_cast hn
    rw [pyDiv_ok h3, pyDiv_ok hd]
    rfl
  refine ⟨fun hn => ?_, fun hn => ?_, fun hn => ?_⟩
  · refine ⟨_, key (by omega), by simp; omega, ?_, ?_⟩
    · have hd : (natDiff n 3 : K) = ((n - 3 : Nat) : K) := by unfold natDiff; rw [Nat.cast_sub hn.le]
      have hpos : (0 : K) < ((n - 3 : Nat) : K) := by exact_mod_cast Nat.sub_pos_of_lt hn
      have hconst : ∀ (m : Nat) (c : K), ((List.range m).map (fun _ => c)).sum = m * c := by
        intro m c
        rw [List.sum_eq_card_nsmul _ c (by intro x hx; obtain ⟨_, _, rfl⟩ := List.mem_map.1 hx; rfl)]
        simp
      rw [List.sum_append, hconst, hconst, hd]
      field_simp
      ring
    · have hd : (natDiff n 3 : K) = ((n - 3 : Nat) : K) := by unfold natDiff; rw [Nat.cast_sub hn.le]
      have hpos : (0 : K) < ((n - 3 : Nat) : K) := by exact_mod_cast Nat.sub_pos_of_lt hn
      intro x hx
      rcases List.mem_append.1 hx with hx | hx
      · obtain ⟨_, _, rfl⟩ := List.mem_map.1 hx; norm_num
      · obtain ⟨_, _, rfl⟩ := List.mem_map.1 hx
        rw [hd]
        exact div_pos (by norm_num) hpos
  · subst hn
    unfold stakesDisparity
    rw [pyDiv_ok h3]
    have : (natDiff 3 3 : K) = 0 := by simp [natDiff]
    rw [this]
    simp [pyDiv]
    rfl
  · exact ⟨_, key (by omega), by simp; omega⟩

example : stakesDisparity 5 (3/10 : ℚ) 3 = .ok [1/10, 1/10, 1/10, 7/20, 7/20] := by decide +kernel

/-! ### C44 -/

/-- C44 is false for scheme 3: the constructor of a simulation accepts exactly the schemes 0, 1, 2 and 4; scheme 3 is documented but raises
`TypeError`, other numbers raise `KeyError`. -/
theorem C44_schemes (i : Nat) :
    (makeScheme i = .ok i ↔ i = 0 ∨ i = 1 ∨ i = 2 ∨ i = 4) ∧ (makeScheme i = .error .type ↔ i = 3) ∧ (makeScheme i = .error .key ↔ 4 < i) := by
  match i with
  | 0 => decide
  | 1 => decide
  | 2 => decide
  | 3 => decide
  | 4 => decide
  | n + 5 =>
    have : makeScheme (n + 5) = .error .key := rfl
    rw [this]
    refine ⟨⟨?_, fun h => ?_⟩, ⟨?_, fun h => ?_⟩, ⟨fun _ => by omega, fun _ => rfl⟩⟩
    · intro h; cases h
    · omega
    · intro h; cases h
    · omega

/-! ### C45 -/

section
variable [FloorSemiring K]

/-- C45.  Assigning `x > 0` to `k` sets the saturation threshold to `1 / x`, and `k * threshold ≤ 1`, with equality exactly if `x` is an
integer; assigning 0 raises `ValueError`. -/
theorem C45_setter (rs : RS K) (x : K) (hx : 0 < x) :
    ∃ rs', rs.setKValue x = .ok rs' ∧ rs'.scheme = rs.scheme ∧ rs'.a0 = rs.a0 ∧ rs'.beta * x = 1 ∧ (rs'.k : K) ≤ x ∧ x < rs'.k + 1 ∧
      (rs'.k : K) * rs'.beta ≤ 1 ∧ ((rs'.k : K) * rs'.beta = 1 ↔ ∃ n : Nat, x = n) := by
  have hfl := Nat.floor_le hx.le
  refine ⟨{ rs with k := ⌊x⌋₊, beta := 1 / x }, by simp [RS.setKValue, hx.ne'], rfl, rfl, ?_, hfl, Nat.lt_floor_add_one x, ?_, ?_⟩
  · change 1 / x * x = 1
    field_simp
  · change (⌊x⌋₊ : K) * (1 / x) ≤ 1
    rw [mul_one_div, div_le_one hx]; exact hfl
  · change (⌊x⌋₊ : K) * (1 / x) = 1 ↔ _
    rw [mul_one_div, div_eq_one_iff_eq hx.ne']
    constructor
    · intro h; exact ⟨_, h.symm⟩
    · rintro ⟨n, rfl⟩; simp

theorem C45_zero (rs : RS K) : rs.setKValue 0 = .error .value ∧ rs.setK 0 = .error .value := by
  simp [RS.setKValue, RS.setK]

/-- C45.  Knowing the inactive fraction `0 ≤ f < 1`, the system inflates `k ≥ 1` to the integer part of `k / (1 - f)` and lowers the threshold
to `(1 - f) / k`. -/
theorem C45_inflate (rs : RS K) (f : K) (hf : f < 1) (hk : 1 ≤ rs.k) :
    ∃ rs', rs.inflate f = .ok rs' ∧ rs'.beta = (1 - f) / rs.k ∧ (rs'.k : K) * (1 - f) ≤ rs.k ∧ (rs.k : K) < (rs'.k + 1) * (1 - f) := by
  have h1 : (0 : K) < 1 - f := sub_pos.2 hf
  have hk' : (0 : K) < rs.k := by exact_mod_cast hk
  have hx : (0 : K) < rs.k / (1 - f) := div_pos hk' h1
  obtain ⟨rs', h2, -, -, h3, h4, h5, -⟩ := C45_setter rs _ hx
  refine ⟨rs', ?_, ?_, ?_, ?_⟩
  · unfold RS.inflate; rw [pyDiv_ok h1.ne']; exact h2
  · have : rs'.beta = 1 / (rs.k / (1 - f)) := by
      rw [eq_div_iff hx.ne']; exact h3
    rw [this]; field_simp
  · rwa [le_div_iff₀ h1] at h4
  · rwa [div_lt_iff₀ h1] at h5
end

/-- the scheme of the witnesses -/
def tenPools : RS ℚ := { scheme := .cardano, k := 10, beta := 1 / 10, a0 := 3 / 10 }

/-- C45.  A later phase that assigns the same `k` silently drops the inflation: with `k = 10` and half of the stake inactive the constructor works
with `k = 20` and threshold 1/20, after a phase change to `k = 10` it is 10 and 1/10. -/
theorem C45_inflation_lost : ∃ rs rs', tenPools.inflate (1 / 2) = .ok rs ∧ rs.k = 20 ∧ rs.beta = 1 / 20 ∧
    rs.setK 10 = .ok rs' ∧ rs'.k = 10 ∧ rs'.beta = 1 / 10 := by
  refine ⟨{ tenPools with k := 20, beta := 1 / 20 }, { tenPools with k := 10, beta := 1 / 10 }, ?_, rfl, rfl, ?_, rfl, rfl⟩
  · unfold RS.inflate
    rw [pyDiv_ok (by norm_num)]
    have : ((tenPools.k : ℚ) / (1 - 1 / 2)) = ((20 : Nat) : ℚ) := by norm_num [tenPools]
    change RS.setKValue _ _ = _
    rw [this]
    simp [RS.setKValue]
  · simp [RS.setK]

/-- C45.  `revise_beliefs` changes the saturation threshold although its comment says that it does not: with half of the stake delegated it turns
`k = 10`, threshold 1/10 into `k = 5`, threshold 1/5. -/
theorem C45_revise_changes_threshold : ∃ rs, tenPools.revise (1 / 2) = .ok rs ∧ rs.k = 5 ∧ rs.beta = 1 / 5 ∧ tenPools.beta = 1 / 10 := by
  have h : (⌈round12 ((1 / 2) / (1 / 10))⌉).toNat = 5 := by decide +kernel
  refine ⟨{ tenPools with k := 5, beta := 1 / 5 }, ?_, rfl, rfl, rfl⟩
  unfold RS.revise
  rw [pyDiv_ok (by norm_num [tenPools])]
  change RS.setK _ (⌈round12 ((1 / 2) / (1 / 10))⌉).toNat = _
  rw [h]
  simp [RS.setK]

/-! ### C46 -/

theorem foldl_max_mem_cons (l : List K) (x : K) : l.foldl max x ∈ x :: l := by
  induction l generalizing x with
  | nil => simp
  | cons y t ih =>
    simp only [List.foldl_cons]
    rcases List.mem_cons.1 (ih (max x y)) with h | h
    · rw [h]; rcases max_choice x y with h' | h' <;> rw [h'] <;> simp
    · exact List.mem_cons_of_mem _ (List.mem_cons_of_mem _ h)

theorem le_foldl_max (l : List K) (x : K) : ∀ y ∈ x :: l, y ≤ l.foldl max x := by
  induction l generalizing x with
  | nil => simp
  | cons z t ih =>
    intro y hy
    simp only [List.foldl_cons]
    rcases List.mem_cons.1 hy with rfl | hy
    · exact (le_max_left y z).trans (ih _ _ (by simp))
    · rcases List.mem_cons.1 hy with rfl | hy
      · exact (le_max_right x y).trans (ih _ _ (by simp))
      · exact ih _ _ (List.mem_cons_of_mem _ hy)

theorem maxOf_spec {l : List K} {m : K} (h : maxOf l = .ok m) : m ∈ l ∧ ∀ y ∈ l, y ≤ m := by
  cases l with
  | nil => cases h
  | cons x t => cases h; exact ⟨foldl_max_mem_cons t x, le_foldl_max t x⟩

/-- C46.  If `truncate_pareto` returns, then whatever was drawn the sample has the same size and no entry exceeds the sum divided by the truncation
factor. -/
theorem C46_truncated (draw : Nat → K) (factor : K) (fuel : Nat) : ∀ (i : Nat) (sample l : List K),
    truncatePareto draw factor fuel i sample = .ok l → l.length = sample.length ∧ ∀ x ∈ l, x ≤ l.sum / factor := by
  induction fuel with
  | zero => intro i sample l h; cases h
  | succ fuel ih =>
    intro i sample l h
    unfold truncatePareto at h
    obtain ⟨m, hm, h⟩ := bind_ok h
    obtain ⟨avg, ha, h⟩ := bind_ok h
    obtain ⟨h1, h2⟩ := maxOf_spec hm
    split at h
    · obtain ⟨h3, h4⟩ := ih _ _ _ h
      refine ⟨?_, h4⟩
      rw [h3, List.length_append, List.length_erase_of_mem h1]
      have := List.length_pos_of_mem h1
      simp; omega
    · rename_i hle
      cases h
      refine ⟨rfl, fun x hx => (h2 x hx).trans ?_⟩
      unfold pyDiv at ha
      split at ha
      · cases ha
      · cases ha
        rw [foldl_add_eq_sum, zero_add] at hle
        exact not_lt.1 hle

/-- C46.  Every value of a truncated sample is one of the values drawn, each draw is used at most once, and they stay in the order in which they were drawn. -/
theorem C46_draws (draw : Nat → K) (factor : K) (fuel : Nat) : ∀ (i : Nat) (sample l : List K),
    truncatePareto draw factor fuel i sample = .ok l → ∃ j, l.Sublist (sample ++ (List.range' i j).map draw) := by
  induction fuel with
  | zero => intro i sample l h; cases h
  | succ fuel ih =>
    intro i sample l h
    unfold truncatePareto at h
    obtain ⟨m, hm, h⟩ := bind_ok h
    obtain ⟨avg, ha, h⟩ := bind_ok h
    split at h
    · obtain ⟨j, hj⟩ := ih _ _ _ h
      refine ⟨j + 1, hj.trans ?_⟩
      rw [List.range'_succ, List.map_cons, List.append_assoc, List.singleton_append]
      exact (List.erase_sublist).append (List.Sublist.refl _)
    · cases h; exact ⟨0, by simp⟩

/-- C46, `generate_stake_distr_pareto`.  The stakes are one plus draws, one for each agent.  Without a positive truncation factor they are one plus the first `n` draws; this is what
the simulation uses (-1).  With a positive one, the stakes are truncated, and they are one plus the first `n` draws iff these respect the truncation. -/
theorem C46_generated {n : Nat} {factor : K} {z : Nat → K} {fuel : Nat} {l : List K} (h : stakesPareto n factor z fuel = .ok l) :
    l.length = n ∧ (∃ j, l.Sublist ((List.range (n + j)).map (fun i => z i + 1))) ∧
    (factor ≤ 0 → l = (List.range n).map (fun i => z i + 1)) ∧
    (0 < factor → (∀ x ∈ l, x ≤ l.sum / factor) ∧
      ((∀ i < n, z i + 1 ≤ ((List.range n).map (fun i => z i + 1)).sum / factor) → l = (List.range n).map (fun i => z i + 1))) := by
  simp only [stakesPareto, mul_one] at h
  split at h
  · rename_i hf
    obtain ⟨h1, h2⟩ := C46_truncated _ _ _ _ _ _ h
    obtain ⟨j, hj⟩ := C46_draws _ _ _ _ _ _ h
    refine ⟨by simpa using h1, ⟨j, ?_⟩, fun h0 => absurd hf (not_lt.2 h0), fun _ => ⟨h2, fun hall => ?_⟩⟩
    · refine hj.trans ?_
      rw [List.range_add, List.map_append, List.map_map, List.range_eq_range' (n := j)]
      exact List.Sublist.refl _
    · cases fuel with
      | zero => cases h
      | succ fuel =>
        unfold truncatePareto at h
        obtain ⟨m, hm, h⟩ := bind_ok h
        obtain ⟨avg, ha, h⟩ := bind_ok h
        obtain ⟨g1, -⟩ := maxOf_spec hm
        obtain ⟨i, hi, rfl⟩ := List.mem_map.1 g1
        rw [pyDiv_ok hf.ne', foldl_add_eq_sum, zero_add] at ha
        cases ha
        rw [if_neg (not_lt.2 (hall i (List.mem_range.1 hi)))] at h
        cases h; rfl
  · rename_i hf
    cases h
    exact ⟨by simp, ⟨0, by simp⟩, fun _ => rfl, fun h => absurd h hf⟩

/-- with factor 2, the largest of the draws 1, 5, 1 is replaced by the next one -/
example : stakesPareto 3 (2 : ℚ) (fun i => if i = 1 then 5 else 1) 3 = .ok [2, 2, 2] := by decide +kernel

/-- C46.  The loop cannot end when the truncation factor exceeds the (positive) size of the sample: for positive values it runs forever. -/
theorem C46_diverges (draw : Nat → K) (hd : ∀ i, 0 < draw i) (factor : K) (fuel : Nat) : ∀ (i : Nat) (sample : List K),
    sample ≠ [] → (∀ x ∈ sample, 0 < x) → (sample.length : K) < factor → truncatePareto draw factor fuel i sample = .error .diverge := by
  induction fuel with
  | zero => intros; rfl
  | succ fuel ih =>
    intro i sample hne hpos hfac
    unfold truncatePareto
    cases hm : maxOf sample with
    | error e =>
      cases sample with
      | nil => exact absurd rfl hne
      | cons x t => cases hm
    | ok m =>
      obtain ⟨h1, h2⟩ := maxOf_spec hm
      have hlen : 0 < sample.length := List.length_pos_of_mem h1
      have hfpos : (0 : K) < factor := lt_trans (by exact_mod_cast hlen) hfac
      have hsum : sample.sum ≤ sample.length * m := by
        have := List.sum_le_card_nsmul sample m h2
        rwa [nsmul_eq_mul] at this
      have hmpos := hpos m h1
      have hgt : m > sample.foldl (· + ·) 0 / factor := by
        rw [foldl_add_eq_sum, zero_add, gt_iff_lt, div_lt_iff₀ hfpos]
        calc sample.sum ≤ sample.length * m := hsum
          _ < factor * m := by exact mul_lt_mul_of_pos_right hfac hmpos
          _ = m * factor := mul_comm _ _
      change (pyDiv _ factor).bind _ = _
      rw [pyDiv_ok hfpos.ne']
      change (if _ then _ else _ : Py (List K)) = _
      rw [if_pos hgt]
      apply ih
      · simp
      · intro x hx
        rcases List.mem_append.1 hx with hx | hx
        · exact hpos x (List.mem_of_mem_erase hx)
        · simp only [List.mem_singleton] at hx; subst hx; exact hd i
      · rw [List.length_append, List.length_erase_of_mem h1]
        have : sample.length - 1 + [draw i].length = sample.length := by simp; omega
        rw [this]; exact hfac

/-- a sample that is truncated in two steps -/
example : truncatePareto (fun i => (1 + i : ℚ)) 3 5 0 [9, 7, 1, 1, 1] = .ok [1, 1, 1, 1, 2] := by decide +kernel

/-! ### C69 -/

/-- C69.  `generate_cost_distr_disparity`: `n` values (for `n ≥ 10`) between `low` and `high`. -/
theorem C69_disparity (n : Nat) (low high : K) (h : low ≤ high) :
    ∃ l, costsDisparity n low high 10 = .ok l ∧ (10 ≤ n → l.length = n) ∧ ∀ x ∈ l, low ≤ x ∧ x ≤ high := by
  refine ⟨_, by unfold costsDisparity; rw [if_neg (not_lt.2 h)], ?_, ?_⟩
  · intro hn; simp; omega
  · intro x hx
    rcases List.mem_append.1 hx with hx | hx
    · obtain ⟨_, _, rfl⟩ := List.mem_map.1 hx; exact ⟨h, le_rfl⟩
    · obtain ⟨_, _, rfl⟩ := List.mem_map.1 hx; exact ⟨le_rfl, h⟩

/-- C69.  `generate_cost_distr_bands_manual` (three agents or more, at least one band): `n` values, the first five `low`, the others `high`. -/
theorem C69_bands_manual (n : Nat) (low high : K) (bands : Nat) (h : low ≤ high) (hn : 3 ≤ n) (hb : 1 ≤ bands) :
    ∃ l, costsBandsManual n low high bands = .ok l ∧ l.length = n ∧ (∀ x ∈ l, low ≤ x ∧ x ≤ high) ∧
      ∀ i < n, l[i]? = some (if i < 5 then low else high) := by
  refine ⟨_, by unfold costsBandsManual; rw [if_neg (not_lt.2 h), if_neg (by omega), if_neg (by omega)], by simp, ?_, ?_⟩
  · intro x hx
    obtain ⟨i, _, rfl⟩ := List.mem_map.1 hx
    split
    · exact ⟨le_rfl, h⟩
    · exact ⟨h, le_rfl⟩
  · intro i hi
    simp [hi]

/-- C69.  Uniform costs: whatever numbers in `[0, 1)` are drawn, there are `n` values in `[low, high]`. -/
theorem C69_uniform (n : Nat) (low high : K) (u : Nat → K) (hu : ∀ i, 0 ≤ u i ∧ u i < 1) (h : low ≤ high) :
    ∃ l, costsUniform n low high u = .ok l ∧ l.length = n ∧ ∀ x ∈ l, low ≤ x ∧ x ≤ high := by
  refine ⟨_, by unfold costsUniform; rw [if_neg (not_lt.2 h)], by simp, ?_⟩
  intro x hx
  obtain ⟨i, _, rfl⟩ := List.mem_map.1 hx
  have h1 := (hu i).1; have h2 := (hu i).2
  have h3 : 0 ≤ high - low := sub_nonneg.2 h
  constructor
  · have := mul_nonneg h3 h1; linarith
  · have : (high - low) * u i ≤ (high - low) * 1 := mul_le_mul_of_nonneg_left h2.le h3
    linarith

/-- C69.  Costs in bands: `n` values in `[low, high]`, at most `bands` different ones. -/
theorem C69_bands (n : Nat) (low high : K) (bands : Nat) (hb : 1 ≤ bands) (u : Nat → K) (hu : ∀ i, 0 ≤ u i ∧ u i < 1) (pick : Nat → Nat)
    (h : low ≤ high) :
    ∃ l, costsBands n low high bands u pick = .ok l ∧ l.length = n ∧ (∀ x ∈ l, low ≤ x ∧ x ≤ high) ∧
      ∃ b : List K, b.length = bands ∧ ∀ x ∈ l, x ∈ b := by
  refine ⟨_, by unfold costsBands; rw [if_neg (not_lt.2 h), if_neg (by omega)], by simp, ?_,
    (List.range bands).map (fun i => low + (high - low) * u i), by simp, ?_⟩
  · intro x hx
    obtain ⟨i, _, rfl⟩ := List.mem_map.1 hx
    have h1 := (hu (pick i % bands)).1; have h2 := (hu (pick i % bands)).2
    have h3 : 0 ≤ high - low := sub_nonneg.2 h
    constructor
    · have := mul_nonneg h3 h1; linarith
    · have : (high - low) * u (pick i % bands) ≤ (high - low) * 1 := mul_le_mul_of_nonneg_left h2.le h3
      linarith
  · intro x hx
    obtain ⟨i, _, rfl⟩ := List.mem_map.1 hx
    exact List.mem_map.2 ⟨pick i % bands, List.mem_range.2 (Nat.mod_lt _ hb), rfl⟩

/-- C69.  Normally distributed costs: `n` values between `low * stddev + mean` and `high * stddev + mean`, and all of these values are possible: `low` and `high` are
not the bounds of the costs, unless the mean is 0 and the deviation 1 (or in other special cases). -/
theorem C69_normal (n : Nat) (low high mean stddev : K) (h : low < high) (hs : 0 ≤ stddev) :
    (∀ z : Nat → K, (∀ i, low ≤ z i ∧ z i ≤ high) → ∃ l, costsNormal n low high mean stddev z = .ok l ∧ l.length = n ∧
      ∀ x ∈ l, low * stddev + mean ≤ x ∧ x ≤ high * stddev + mean) ∧
    ∀ y, low * stddev + mean ≤ y → y ≤ high * stddev + mean → ∃ z : Nat → K, (∀ i, low ≤ z i ∧ z i ≤ high) ∧
      costsNormal n low high mean stddev z = .ok (List.replicate n y) := by
  have hn : ∀ z : Nat → K, costsNormal n low high mean stddev z = .ok ((List.range n).map (fun i => z i * stddev + mean)) := fun z => by
    unfold costsNormal; rw [if_neg (not_lt.2 h.le), if_neg (not_not.2 ⟨h, hs⟩)]
  refine ⟨fun z hz => ⟨_, hn z, by simp, ?_⟩, fun y h1 h2 => ?_⟩
  · intro x hx
    obtain ⟨i, _, rfl⟩ := List.mem_map.1 hx
    have a1 := mul_le_mul_of_nonneg_right (hz i).1 hs
    have a2 := mul_le_mul_of_nonneg_right (hz i).2 hs
    constructor <;> linarith
  · rcases hs.eq_or_lt with h0 | h0
    · subst h0
      refine ⟨fun _ => low, fun _ => ⟨le_rfl, h.le⟩, ?_⟩
      rw [hn]
      have : y = mean := by simp at h1 h2; exact le_antisymm h2 h1
      simp [this]
    · refine ⟨fun _ => (y - mean) / stddev, fun _ => ⟨(le_div_iff₀ h0).2 (by linarith), (div_le_iff₀ h0).2 (by linarith)⟩, ?_⟩
      rw [hn]
      simp [div_mul_cancel₀ _ h0.ne']

/-- C69 fails for it: costs from the range `[1, 2]` with mean 3/2 and deviation 1/2 can all be 5/2 -/
theorem C69_normal_out_of_range : ∃ z : Nat → ℚ, (∀ i, 1 ≤ z i ∧ z i ≤ 2) ∧ costsNormal 3 1 2 (3 / 2) (1 / 2) z = .ok [5 / 2, 5 / 2, 5 / 2] :=
  (C69_normal 3 1 2 (3 / 2) (1 / 2 : ℚ) (by norm_num) (by norm_num)).2 (5 / 2) (by norm_num) (by norm_num)

/-- C69.  Every cost generator raises `ValueError` when `high < low`. -/
theorem C69_invalid (n : Nat) (low high : K) (h : high < low) (c bands : Nat) (u : Nat → K) (pick : Nat → Nat) (mean stddev : K) :
    costsDisparity n low high c = .error .value ∧ costsUniform n low high u = .error .value ∧
    costsBands n low high bands u pick = .error .value ∧ costsBandsManual n low high bands = .error .value ∧
    costsNormal n low high mean stddev u = .error .value := by
  simp [costsDisparity, costsUniform, costsBands, costsBandsManual, costsNormal, h]

end RSE.Props
