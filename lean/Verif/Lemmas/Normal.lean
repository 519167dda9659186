import Verif.Lemmas.Accuracy
import Verif.Model.Init
import Mathlib.Algebra.Order.Ring.Pow

/-!
# Sums of binary64 numbers, and the normalisation of stakes
-/

set_option linter.unusedSectionVars false
set_option exponentiation.threshold 2000

namespace RSE

/-- the sum of binary64 numbers, exactly -/
def exactSum (l : List B64) : ℚ := (l.map (·.1)).sum

theorem exactSum_nonneg {l : List B64} (h : ∀ x ∈ l, 0 ≤ x) : 0 ≤ exactSum l := by
  refine List.sum_nonneg (fun q hq => ?_)
  obtain ⟨x, hx, rfl⟩ := List.mem_map.1 hq
  exact h x hx

theorem exactSum_cons (x : B64) (l : List B64) : exactSum (x :: l) = x.1 + exactSum l := by simp [exactSum]
theorem exactSum_append (l l' : List B64) : exactSum (l ++ l') = exactSum l + exactSum l' := by simp [exactSum]

theorem mem_le_exactSum {l : List B64} (h : ∀ x ∈ l, 0 ≤ x) {a : B64} (ha : a ∈ l) : a.1 ≤ exactSum l := by
  induction l with
  | nil => simp at ha
  | cons x t ih =>
    rw [exactSum_cons]
    have h0 : (0 : ℚ) ≤ x.1 := h x (by simp)
    have ht := exactSum_nonneg (fun y hy => h y (List.mem_cons_of_mem _ hy))
    rcases List.mem_cons.1 ha with rfl | ha
    · linarith
    · have := ih (fun y hy => h y (List.mem_cons_of_mem _ hy)) ha
      linarith

/-- adding up one by one -/
theorem foldl_add_err (l : List B64) : ∀ (a : B64), 0 ≤ a → (∀ x ∈ l, 0 ≤ x) →
    |(l.foldl (· + ·) a).1 - (a.1 + exactSum l)| ≤ ((1 + ulp) ^ l.length - 1) * (a.1 + exactSum l) := by
  induction l with
  | nil => intro a _ _; simp [exactSum]
  | cons x t ih =>
    intro a ha h
    have hx : (0 : ℚ) ≤ x.1 := h x (by simp)
    have ha' : (0 : ℚ) ≤ a.1 := ha
    have ht0 := exactSum_nonneg (fun y hy => h y (List.mem_cons_of_mem _ hy))
    have h1 := B64.add_err' ha' hx
    have h2 := ih (a + x) (RoundedArith.add_nonneg ha (h x (by simp))) (fun y hy => h y (List.mem_cons_of_mem _ hy))
    rw [List.foldl_cons, exactSum_cons, List.length_cons]
    generalize (t.foldl (· + ·) (a + x)).1 = r at *
    have hu := ulp_pos
    have hp : (1 : ℚ) ≤ (1 + ulp) ^ t.length := one_le_pow₀ (by linarith)
    rw [pow_succ]
    generalize (1 + ulp) ^ t.length = P at *
    generalize exactSum t = E at *
    generalize (a + x).1 = b at *
    rw [abs_le] at *
    have h3 : (P - 1) * (b + E) ≤ (P - 1) * ((1 + ulp) * (a.1 + (x.1 + E))) := by
      apply mul_le_mul_of_nonneg_left _ (by linarith)
      nlinarith
    constructor <;> nlinarith

theorem one_add_ulp_pow {n : Nat} (hn : n ≤ 2 ^ 40) : (1 + ulp) ^ n - 1 ≤ (1 + 1 / 1000) * (n * ulp) := by
  have hu := ulp_pos
  have hnu : (n : ℚ) * ulp ≤ 1 / 8192 := by
    have : (n : ℚ) ≤ 2 ^ 40 := by exact_mod_cast hn
    calc (n : ℚ) * ulp ≤ 2 ^ 40 * ulp := mul_le_mul_of_nonneg_right this hu.le
      _ = 1 / 8192 := by unfold ulp; norm_num
  have h0 : (0 : ℚ) ≤ n * ulp := by positivity
  have h1 : 1 + (n : ℚ) * (-ulp) ≤ (1 + -ulp) ^ n := one_add_mul_le_pow (by have := ulp_le; linarith) n
  have h2 : (1 + ulp) ^ n * (1 + -ulp) ^ n ≤ 1 := by
    rw [← mul_pow]
    apply pow_le_one₀
    · have := ulp_le; nlinarith
    · nlinarith
  have hp : (0 : ℚ) < (1 + ulp) ^ n := by positivity
  generalize (1 + ulp) ^ n = P at *
  have h3 : P * (1 - n * ulp) ≤ 1 := by
    calc P * (1 - n * ulp) ≤ P * (1 + -ulp) ^ n := by apply mul_le_mul_of_nonneg_left _ hp.le; linarith
      _ ≤ 1 := h2
  generalize (n : ℚ) * ulp = v at *
  have h4 : P ≤ 1 + (1 + 1 / 1000) * v := by
    by_contra hc
    push Not at hc
    have : (1 + (1 + 1 / 1000) * v) * (1 - v) ≤ P * (1 - v) := mul_le_mul_of_nonneg_right hc.le (by linarith)
    have h5 : (1 + (1 + 1 / 1000) * v) * (1 - v) = 1 + v * (1 / 1000 - (1 + 1 / 1000) * v) := by ring
    rw [h5] at this
    have h6 : 0 ≤ v * (1 / 1000 - (1 + 1 / 1000) * v) := mul_nonneg h0 (by linarith)
    have h7 : P * (1 - v) = 1 := by linarith
    have h8 : v * (1 / 1000 - (1 + 1 / 1000) * v) = 0 := by linarith
    rcases mul_eq_zero.1 h8 with h9 | h9
    · subst h9; linarith
    · linarith
  linarith

/-- the difference of 1 and a number that is near it is exact (Sterbenz) -/
theorem B64.one_sub_exact {s : B64} (h1 : 1 / 2 ≤ s.1) (h2 : s.1 ≤ 3 / 2) : (1 - s : B64).1 = 1 - s.1 := by
  obtain ⟨m, e, hm, he, hq⟩ := (by have := fits_round64 s.1; rwa [s.2] at this : Fits s.1)
  have h2e : (0 : ℚ) < (2 : ℚ) ^ e := by positivity
  have hm' : (m : ℚ) ≤ 2 ^ 53 := by
    have : m ≤ 2 ^ 53 := by omega
    exact_mod_cast this
  have hge : -54 ≤ e := by
    by_contra hc
    have h3 : (2 : ℚ) ^ e ≤ (2 : ℚ) ^ (-55 : Int) := zpow_le_zpow_right₀ (by norm_num) (by omega)
    have h4 : s.1 ≤ 2 ^ 53 * (2 : ℚ) ^ (-55 : Int) := by
      rw [hq]
      calc (m : ℚ) * (2 : ℚ) ^ e ≤ 2 ^ 53 * (2 : ℚ) ^ e := mul_le_mul_of_nonneg_right hm' h2e.le
        _ ≤ _ := mul_le_mul_of_nonneg_left h3 (by norm_num)
    have h5 : (2 : ℚ) ^ 53 * (2 : ℚ) ^ (-55 : Int) = 1 / 4 := by norm_num
    rw [h5] at h4
    linarith
  obtain ⟨M, hM⟩ : ∃ M : Int, s.1 = (M : ℚ) * (2 : ℚ) ^ (-54 : Int) := by
    refine ⟨m * 2 ^ (e + 54).toNat, ?_⟩
    rw [hq]
    push_cast
    rw [mul_assoc]
    congr 1
    rw [← zpow_natCast, ← zpow_add₀ (by norm_num : (2 : ℚ) ≠ 0)]
    congr 1
    omega
  have hp : (2 : ℚ) ^ (-54 : Int) = 1 / 2 ^ 54 := by norm_num
  have e1 : 1 - s.1 = ((2 ^ 54 - M : Int) : ℚ) * (2 : ℚ) ^ (-54 : Int) := by
    rw [hM, hp]; push_cast; ring
  have hMle : (2 : Int) ^ 53 ≤ M ∧ M ≤ 2 ^ 54 + 2 ^ 53 := by
    rw [hM, hp] at h1 h2
    constructor
    · have : (2 : ℚ) ^ 53 ≤ M := by linarith
      exact_mod_cast this
    · have : (M : ℚ) ≤ 2 ^ 54 + 2 ^ 53 := by linarith
      exact_mod_cast this
  change round64 ((1 : B64).1 - s.1) = _
  rw [B64.one_val]
  exact round64_of_fits ⟨2 ^ 54 - M, -54, by omega, by norm_num, e1⟩

/-! ### The stakes divided by their sum -/

/-- the unit in which the errors of `n` stakes are counted -/
def stakeErr (n : Nat) : ℚ := (n + 1) * ulp

variable {l : List B64}

theorem total_err (h : ∀ x ∈ l, 0 ≤ x) (hn : l.length ≤ 2 ^ 40) :
    |(l.foldl (· + ·) 0).1 - exactSum l| ≤ (1 + 1 / 1000) * (l.length * ulp) * exactSum l := by
  have h1 := foldl_add_err l 0 le_rfl h
  have h2 := one_add_ulp_pow hn
  have h3 := exactSum_nonneg h
  have hz : (0 : B64).1 = 0 := rfl
  rw [hz, zero_add] at h1
  exact h1.trans (mul_le_mul_of_nonneg_right h2 h3)

theorem len_ulp (hn : l.length ≤ 2 ^ 40) : (l.length : ℚ) * ulp ≤ 1 / 8192 := by
  have : (l.length : ℚ) ≤ 2 ^ 40 := by exact_mod_cast hn
  calc (l.length : ℚ) * ulp ≤ 2 ^ 40 * ulp := mul_le_mul_of_nonneg_right this ulp_pos.le
    _ = 1 / 8192 := by unfold ulp; norm_num

/-- one share -/
theorem share_near {a T X v : ℚ} (ha : 0 ≤ a) (hX : 0 < X) (hv0 : 0 ≤ v) (hv : v ≤ 1 / 8000) (hT : |T - X| ≤ v * X) :
    |a / T - a / X| ≤ (1 + 1 / 1000) * v * (a / X) := by
  have hT0 : (1 - v) * X ≤ T := by have := (abs_le.1 hT).1; linarith
  have hTp : 0 < T := lt_of_lt_of_le (mul_pos (by linarith) hX) hT0
  have e : a / T - a / X = (a / X) * ((X - T) / T) := by field_simp
  have haX : 0 ≤ a / X := by positivity
  rw [e, abs_mul, abs_of_nonneg haX, abs_div, abs_of_pos hTp, mul_comm]
  apply mul_le_mul_of_nonneg_right _ haX
  rw [div_le_iff₀ hTp, abs_sub_comm]
  calc |T - X| ≤ v * X := hT
    _ ≤ (1 + 1 / 1000) * v * ((1 - v) * X) := by
        have : 0 ≤ v * X := by positivity
        nlinarith
    _ ≤ _ := mul_le_mul_of_nonneg_left hT0 (by positivity)

theorem exactSum_map_div (T : B64) (hT : 0 < T) : ∀ l : List B64, (∀ x ∈ l, 0 ≤ x) →
    |exactSum (l.map (· / T)) - exactSum l / T.1| ≤ ulp * (exactSum l / T.1) + l.length * tiny64 := by
  have hT' : (0 : ℚ) < T.1 := hT
  intro l
  induction l with
  | nil => intro _; simp [exactSum]
  | cons x t ih =>
    intro h
    have hx : (0 : ℚ) ≤ x.1 := h x (by simp)
    have h1 := ih (fun y hy => h y (List.mem_cons_of_mem _ hy))
    have h2 := B64.div_err' hx hT'.le
    rw [List.map_cons, exactSum_cons, exactSum_cons, add_div, List.length_cons]
    push_cast
    rw [abs_le] at *
    constructor <;> linarith [h1.1, h1.2, h2.1, h2.2]

structure ScaledOK (l : List B64) (X : ℚ) (T : B64) : Prop where
  each : ∀ x ∈ l, 0 ≤ x / T ∧ |(x / T).1 - x.1 / X| ≤ 2 * stakeErr l.length * (x.1 / X) + tiny64
  sum : |exactSum (l.map (· / T)) - 1| ≤ (1 + 1 / 100) * stakeErr l.length
  folded : |((l.map (· / T)).foldl (· + ·) 0).1 - exactSum (l.map (· / T))| ≤ (1 + 1 / 100) * stakeErr l.length

theorem scaled_ok (h : ∀ x ∈ l, 0 ≤ x) (hn : l.length ≤ 2 ^ 40) (hX : 0 < exactSum l) : ScaledOK l (exactSum l) (l.foldl (· + ·) 0) := by
  have hu := ulp_pos
  have hu2 := ulp_small
  have ht := tiny64_small
  have ht0 := tiny64_pos
  have hnu := len_ulp hn
  have hnu0 : 0 ≤ (l.length : ℚ) * ulp := by positivity
  have hT := total_err h hn
  set T := l.foldl (· + ·) 0 with hTdef
  set X := exactSum l with hXdef
  set v := (1 + 1 / 1000) * ((l.length : ℚ) * ulp) with hv
  have hv0 : 0 ≤ v := by rw [hv]; positivity
  have hv1 : v ≤ 1 / 8000 := by rw [hv]; linarith
  have hTp : 0 < T.1 := by
    have h1 := (abs_le.1 hT).1
    have : 0 < (1 - v) * X := mul_pos (by linarith) hX
    linarith
  have hTB : 0 < T := hTp
  have hy0 : ∀ x ∈ l, 0 ≤ x / T := fun x hx => RoundedArith.div_nonneg (h x hx) hTB
  have hR := share_near hX.le hX hv0 hv1 hT
  rw [div_self hX.ne', mul_one] at hR
  have hY := exactSum_map_div T hTB l h
  have hntiny : (l.length : ℚ) * tiny64 ≤ 1 / 1000 * ((l.length : ℚ) * ulp) := by
    have : (l.length : ℚ) * tiny64 ≤ (l.length : ℚ) * (1 / 1000 * ulp) := mul_le_mul_of_nonneg_left ht (by positivity)
    linarith
  rw [← hXdef] at hY
  generalize hRR : X / T.1 = R at hR hY
  have hY1 : |exactSum (l.map (· / T)) - 1| ≤ (1 + 1 / 100) * stakeErr l.length := by
    unfold stakeErr
    rw [abs_le] at *
    have h1 : ulp * R ≤ ulp * (1 + 1 / 1000) := by apply mul_le_mul_of_nonneg_left _ hu.le; linarith
    constructor <;> linarith
  refine ⟨fun x hx => ⟨hy0 x hx, ?_⟩, hY1, ?_⟩
  · have hx0 : (0 : ℚ) ≤ x.1 := h x hx
    have h1 := share_near hx0 hX hv0 hv1 hT
    have h2 := B64.div_err' hx0 hTp.le
    have hs0 : 0 ≤ x.1 / X := by positivity
    generalize x.1 / X = s at *
    generalize x.1 / T.1 = s' at *
    have h3 : ulp * s' ≤ (1 + 1 / 1000) * (ulp * s) := by
      have : s' ≤ (1 + 1 / 1000) * s := by
        have h4 := (abs_le.1 h1).2
        have : (1 + 1 / 1000) * v * s ≤ 1 / 1000 * s := mul_le_mul_of_nonneg_right (by linarith) hs0
        linarith
      calc ulp * s' ≤ ulp * ((1 + 1 / 1000) * s) := mul_le_mul_of_nonneg_left this hu.le
        _ = _ := by ring
    have h5 : (1 + 1 / 1000) * v * s = (1 + 1 / 1000) * (1 + 1 / 1000) * ((l.length : ℚ) * ulp * s) := by rw [hv]; ring
    have h6 : 2 * stakeErr l.length * s = 2 * ((l.length : ℚ) * ulp * s) + 2 * (ulp * s) := by unfold stakeErr; ring
    have h7 : 0 ≤ (l.length : ℚ) * ulp * s := by positivity
    have h8 : 0 ≤ ulp * s := by positivity
    rw [h5] at h1
    rw [h6]
    rw [abs_le] at *
    constructor <;> linarith
  · have h1 := total_err (l := l.map (· / T)) (by
      intro y hy
      obtain ⟨x, hx, rfl⟩ := List.mem_map.1 hy
      exact hy0 x hx) (by rw [List.length_map]; exact hn)
    rw [List.length_map, ← hv] at h1
    refine h1.trans ?_
    have h2 := (abs_le.1 hY1).2
    have h3 : exactSum (l.map (· / T)) ≤ 1 + 1 / 200 := by unfold stakeErr at h2; linarith
    calc v * exactSum (l.map (· / T)) ≤ v * (1 + 1 / 200) := mul_le_mul_of_nonneg_left h3 hv0
      _ ≤ _ := by rw [hv]; unfold stakeErr; linarith

/-- what the constructor makes of nonnegative stakes when no stake is inactive -/
structure NormalOK (l new : List B64) : Prop where
  length : new.length = l.length
  sum : |exactSum new - 1| ≤ 2 * stakeErr l.length
  others : ∀ (i : Nat) (a b : B64), i + 1 < l.length → l[i]? = some a → new[i]? = some b →
    0 ≤ b ∧ |b.1 - a.1 / exactSum l| ≤ 2 * stakeErr l.length * (a.1 / exactSum l) + tiny64
  all : ∀ (i : Nat) (a b : B64), l[i]? = some a → new[i]? = some b → |b.1 - a.1 / exactSum l| ≤ 6 * stakeErr l.length

theorem initialStakes_zero (l : List B64) : initialStakes l 0 =
    if l.foldl (· + ·) 0 ≤ 0 then .error .value else if l.foldl (· + ·) 0 = 1 then .ok (l, l.foldl (· + ·) 0) else .ok (normalizeStakes l (l.foldl (· + ·) 0)) := by
  have h1 : (1 - 0 : B64) = 1 := RoundedArith.sub_zero 1
  have h2 : (1 : B64) ≠ 0 := ne_of_gt RoundedArith.zero_lt_one
  unfold initialStakes
  rw [h1]
  unfold pyDiv
  rw [if_neg h2, show l.foldl (· + ·) 0 / (1 : B64) = l.foldl (· + ·) 0 from RoundedArith.div_one _]
  rfl

theorem share_le_one (h : ∀ x ∈ l, 0 ≤ x) (hX : 0 < exactSum l) {a : B64} (ha : a ∈ l) : 0 ≤ a.1 / exactSum l ∧ a.1 / exactSum l ≤ 1 :=
  ⟨div_nonneg (h a ha) hX.le, (div_le_one hX).2 (mem_le_exactSum h ha)⟩

theorem normal_ok (h : ∀ x ∈ l, 0 ≤ x) (hn : l.length ≤ 2 ^ 40) (hX : 0 < exactSum l) :
    ∃ new, initialStakes l 0 = .ok (new, 1) ∧ NormalOK l new := by
  have hu := ulp_pos
  have hu2 := ulp_small
  have ht := tiny64_small
  have ht0 := tiny64_pos
  have hnu := len_ulp hn
  have hnu0 : 0 ≤ (l.length : ℚ) * ulp := by positivity
  have hlen : 1 ≤ l.length := by
    rcases l with _ | ⟨a, t⟩
    · simp [exactSum] at hX
    · simp
  have hlen' : ulp ≤ (l.length : ℚ) * ulp := by
    have : (1 : ℚ) ≤ l.length := by exact_mod_cast hlen
    nlinarith
  have hδ : stakeErr l.length = (l.length : ℚ) * ulp + ulp := by unfold stakeErr; ring
  have hT := total_err h hn
  have hsc := scaled_ok h hn hX
  have hTp : ¬ (l.foldl (· + ·) 0 ≤ 0) := by
    intro hc
    have hc' : (l.foldl (· + ·) 0).1 ≤ 0 := hc
    have h1 := (abs_le.1 hT).1
    have : 0 < (1 - (1 + 1 / 1000) * ((l.length : ℚ) * ulp)) * exactSum l := mul_pos (by linarith) hX
    linarith
  rw [initialStakes_zero, if_neg hTp]
  set T := l.foldl (· + ·) 0 with hTdef
  by_cases h1 : T = 1
  · rw [if_pos h1, h1]
    refine ⟨l, rfl, ?_⟩
    have hT1 : |exactSum l - 1| ≤ (1 + 1 / 100) * ((l.length : ℚ) * ulp) := by
      rw [h1, B64.one_val, abs_sub_comm] at hT
      have h2 : exactSum l ≤ 1 + 1 / 1000 := by
        by_contra hc
        push Not at hc
        have h3 := (abs_le.1 hT).2
        have h4 : (1 + 1 / 1000) * ((l.length : ℚ) * ulp) * exactSum l ≤ 1 / 8000 * exactSum l := mul_le_mul_of_nonneg_right (by linarith) hX.le
        linarith
      refine hT.trans ?_
      calc _ ≤ (1 + 1 / 1000) * ((l.length : ℚ) * ulp) * (1 + 1 / 1000) := mul_le_mul_of_nonneg_left h2 (by positivity)
        _ ≤ _ := by linarith
    have key : ∀ a ∈ l, |a.1 - a.1 / exactSum l| ≤ 2 * stakeErr l.length * (a.1 / exactSum l) := by
      intro a ha
      obtain ⟨h2, h3⟩ := share_le_one h hX ha
      have e : a.1 - a.1 / exactSum l = (exactSum l - 1) * (a.1 / exactSum l) := by field_simp
      rw [e, abs_mul, abs_of_nonneg h2]
      exact mul_le_mul_of_nonneg_right (hT1.trans (by rw [hδ]; linarith)) h2
    refine ⟨rfl, hT1.trans (by rw [hδ]; linarith), fun i a b _ ha hb => ?_, fun i a b ha hb => ?_⟩
    · rw [ha] at hb
      cases hb
      have hm := List.mem_of_getElem? ha
      exact ⟨h a hm, (key a hm).trans (by linarith)⟩
    · rw [ha] at hb
      cases hb
      have hm := List.mem_of_getElem? ha
      obtain ⟨h2, h3⟩ := share_le_one h hX hm
      have h4 : 2 * stakeErr l.length * (a.1 / exactSum l) ≤ 2 * stakeErr l.length * 1 := mul_le_mul_of_nonneg_left h3 (by rw [hδ]; linarith)
      exact (key a hm).trans (h4.trans (by rw [hδ]; linarith))
  rw [if_neg h1]
  set ys := l.map (· / T) with hys
  have hylen : ys.length = l.length := by rw [hys, List.length_map]
  have getys : ∀ (i : Nat) (a b : B64), l[i]? = some a → ys[i]? = some b → b = a / T ∧ a ∈ l := by
    intro i a b ha hb
    rw [hys, List.getElem?_map, ha] at hb
    exact ⟨by simpa using hb.symm, List.mem_of_getElem? ha⟩
  have hall : ∀ a ∈ l, |(a / T).1 - a.1 / exactSum l| ≤ 2 * stakeErr l.length + tiny64 := by
    intro a ha
    obtain ⟨h2, h3⟩ := share_le_one h hX ha
    refine (hsc.each a ha).2.trans ?_
    have h4 : 2 * stakeErr l.length * (a.1 / exactSum l) ≤ 2 * stakeErr l.length * 1 := mul_le_mul_of_nonneg_left h3 (by rw [hδ]; linarith)
    linarith
  obtain ⟨-, hsum, hfold⟩ := hsc
  rw [← hys] at hsum hfold
  set S := ys.foldl (· + ·) 0 with hS
  have hnorm : normalizeStakes l T = if S = 1 then (ys, S) else (ys.dropLast ++ (match ys.getLast? with
      | some x => [x + (1 - S)]
      | none => []), S + (1 - S)) := by
    change @ite _ (S = 1) _ _ _ = _
    by_cases h2 : S = 1
    · rw [if_pos h2, if_pos h2]
    · rw [if_neg h2, if_neg h2, hS, hys]
      cases (l.map (· / T)).getLast? <;> rfl
  by_cases h2 : S = 1
  · rw [hnorm, if_pos h2, h2]
    refine ⟨ys, rfl, hylen, hsum.trans (by rw [hδ]; linarith), fun i a b _ ha hb => ?_, fun i a b ha hb => ?_⟩
    · obtain ⟨rfl, hm⟩ := getys i a b ha hb
      exact (scaled_ok h hn hX).each a hm
    · obtain ⟨rfl, hm⟩ := getys i a b ha hb
      exact (hall a hm).trans (by rw [hδ]; linarith)
  rw [hnorm, if_neg h2]
  have hne : l ≠ [] := by rintro rfl; simp at hlen
  obtain ⟨init, x, hl⟩ : ∃ init x, l = init ++ [x] := ⟨l.dropLast, l.getLast hne, (List.dropLast_append_getLast hne).symm⟩
  have hys' : ys = init.map (· / T) ++ [x / T] := by rw [hys, hl]; simp
  have hxl : x ∈ l := by rw [hl]; simp
  have hS1 : |S.1 - 1| ≤ 3 * stakeErr l.length := by
    have := abs_le.1 hsum
    have := abs_le.1 hfold
    rw [hδ] at *
    rw [abs_le]
    constructor <;> linarith
  have herr : (1 - S : B64).1 = 1 - S.1 := by
    have := abs_le.1 hS1
    rw [hδ] at this
    exact B64.one_sub_exact (by linarith) (by linarith)
  have htot : S + (1 - S) = 1 := by
    apply Subtype.ext
    change round64 (S.1 + (1 - S : B64).1) = (1 : B64).1
    rw [herr, B64.one_val, add_sub_cancel]
    have := (1 : B64).2
    rwa [B64.one_val] at this
  have hlast := hall x hxl
  have hz := B64.add_err (x / T) (1 - S)
  rw [herr] at hz
  obtain ⟨hs0, hs1⟩ := share_le_one h hX hxl
  have hz' : |(x / T + (1 - S)).1 - ((x / T).1 + (1 - S.1))| ≤ (1 + 1 / 10) * ulp := by
    refine hz.trans ?_
    rw [mul_comm ulp]
    apply mul_le_mul_of_nonneg_right _ hu.le
    have h3 := abs_le.1 hlast
    have h4 := abs_le.1 hS1
    rw [hδ] at h3 h4
    rw [abs_le]
    constructor <;> linarith
  refine ⟨init.map (· / T) ++ [x / T + (1 - S)], ?_, ?_, ?_, fun i a b hi ha hb => ?_, fun i a b ha hb => ?_⟩
  · rw [htot, hys']; simp
  · rw [hl]; simp
  · have e : exactSum ys = exactSum (init.map (· / T)) + (x / T).1 := by rw [hys', exactSum_append]; simp [exactSum]
    rw [exactSum_append, show exactSum [x / T + (1 - S)] = (x / T + (1 - S)).1 by simp [exactSum]]
    rw [e] at hfold
    have h3 := abs_le.1 hz'
    have h4 := abs_le.1 hfold
    rw [hδ] at *
    rw [abs_le]
    constructor <;> linarith
  · have hi' : i < init.length := by rw [hl, List.length_append, List.length_singleton] at hi; omega
    have hb' : ys[i]? = some b := by
      rw [hys', List.getElem?_append_left (by simpa using hi')]
      rwa [List.getElem?_append_left (by simpa using hi')] at hb
    obtain ⟨rfl, hm⟩ := getys i a b ha hb'
    exact (scaled_ok h hn hX).each a hm
  · have hi : i < init.length + 1 := by
      have := (List.getElem?_eq_some_iff.1 ha).1
      rw [hl, List.length_append, List.length_singleton] at this
      exact this
    by_cases hi' : i < init.length
    · have hb' : ys[i]? = some b := by
        rw [hys', List.getElem?_append_left (by simpa using hi')]
        rwa [List.getElem?_append_left (by simpa using hi')] at hb
      obtain ⟨rfl, hm⟩ := getys i a b ha hb'
      exact (hall a hm).trans (by rw [hδ]; linarith)
    · have hi2 : i = init.length := by omega
      subst hi2
      have hax : a = x := by
        have h3 : l[init.length]? = some x := by rw [hl]; simp
        rw [h3] at ha
        exact (Option.some.inj ha).symm
      have hbx : b = x / T + (1 - S) := by
        have h3 : (init.map (· / T) ++ [x / T + (1 - S)])[init.length]? = some (x / T + (1 - S)) := by simp
        rw [h3] at hb
        exact (Option.some.inj hb).symm
      rw [hax, hbx]
      have h3 := abs_le.1 hlast
      have h4 := abs_le.1 hS1
      have h5 := abs_le.1 hz'
      have h6 := abs_le.1 hsum
      have h7 := abs_le.1 hfold
      rw [hδ] at *
      rw [abs_le]
      constructor <;> linarith

end RSE
