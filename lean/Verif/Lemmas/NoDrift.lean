import Verif.Lemmas.Nearest
import Mathlib.Algebra.Order.Round
import Mathlib.Data.Rat.Floor

/-!
# Taking a number away and adding it again

With `⊖` and `⊕` for the rounded operations: `(x ⊖ y) ⊕ y` is `x`, or a neighbour of `x` whose significand is even; and then nothing that is taken
away and added again changes it any more.
-/

namespace RSE

/-- `x` is `X` units of `2 ^ e`, and around `x` the floats are at least so far apart -/
structure OnGrid (x : ℚ) (X e : Int) : Prop where
  eq : x = (X : ℚ) * (2 : ℚ) ^ e
  le : X ≤ 2 ^ 53
  min : -1074 ≤ e
  low : 2 ^ 52 < X ∨ (e = -1074 ∧ 0 ≤ X)

theorem OnGrid.nonneg {x : ℚ} {X e : Int} (h : OnGrid x X e) : 0 ≤ X := by
  rcases h.low with h | h
  · have : (0 : Int) ≤ 2 ^ 52 := by norm_num
    omega
  · exact h.2

/-- every float that is not negative is on a grid -/
theorem fits_onGrid {x : ℚ} (hx : 0 ≤ x) (h : Fits x) : ∃ X e, OnGrid x X e := by
  obtain ⟨m, e, hm, he, hxe⟩ := h
  have hm0 : 0 ≤ m := by
    by_contra hc
    have h1 : (m : ℚ) < 0 := by exact_mod_cast not_le.1 hc
    have := mul_neg_of_neg_of_pos h1 (by positivity : (0 : ℚ) < (2 : ℚ) ^ e)
    rw [← hxe] at this
    linarith
  have hm' : m ≤ 2 ^ 53 := by
    have : (m.natAbs : Int) = m := Int.natAbs_of_nonneg hm0
    have h2 : (m.natAbs : Int) ≤ ((2 ^ 53 : Nat) : Int) := by exact_mod_cast hm
    rw [this] at h2
    exact_mod_cast h2
  clear hm hx
  obtain ⟨j, hj⟩ := Int.eq_ofNat_of_zero_le (by omega : 0 ≤ e + 1074)
  induction j generalizing m e with
  | zero =>
    have : e = -1074 := by simp at hj; omega
    exact ⟨m, e, hxe, hm', he, Or.inr ⟨this, hm0⟩⟩
  | succ j ih =>
    by_cases hl : 2 ^ 52 < m
    · exact ⟨m, e, hxe, hm', he, Or.inl hl⟩
    · push Not at hl
      refine ih (2 * m) (e - 1) (by push_cast at hj; omega) ?_ (by omega) (by norm_num at hl ⊢; omega) (by push_cast at hj ⊢; omega)
      rw [hxe, zpow_sub₀ (by norm_num : (2 : ℚ) ≠ 0)]; push_cast; ring

/-- from `2 ^ 52` units on floats are whole units -/
theorem fits_units {f : ℚ} (h : Fits f) {e : Int} (hf : ((2 ^ 52 : Int) : ℚ) * (2 : ℚ) ^ e ≤ f ∨ e = -1074) : ∃ j : Int, f = (j : ℚ) * (2 : ℚ) ^ e := by
  have two : (2 : ℚ) ≠ 0 := by norm_num
  obtain ⟨m, e', hm, he', rfl⟩ := h
  rcases le_or_gt e e' with hle | hlt
  · obtain ⟨j, hj⟩ := Int.eq_ofNat_of_zero_le (sub_nonneg.2 hle)
    refine ⟨m * 2 ^ j, ?_⟩
    push_cast
    rw [mul_assoc, ← zpow_natCast, ← zpow_add₀ two]
    congr 2
    omega
  · rcases hf with hf | hf
    · have hm' : (m : ℚ) ≤ 2 ^ 53 := by
        have h1 : m ≤ (m.natAbs : Int) := Int.le_natAbs
        have h2 : (m.natAbs : Int) ≤ ((2 ^ 53 : Nat) : Int) := by exact_mod_cast hm
        have : m ≤ ((2 ^ 53 : Nat) : Int) := h1.trans h2
        exact_mod_cast this
      have h3 : (2 : ℚ) ^ e' ≤ (2 : ℚ) ^ (e - 1) := zpow_le_zpow_right₀ (by norm_num) (by omega)
      have h4 : (m : ℚ) * (2 : ℚ) ^ e' ≤ 2 ^ 53 * (2 : ℚ) ^ (e - 1) :=
        (mul_le_mul_of_nonneg_right hm' (by positivity)).trans (mul_le_mul_of_nonneg_left h3 (by positivity))
      have h5 : (2 : ℚ) ^ 53 * (2 : ℚ) ^ (e - 1) = ((2 ^ 52 : Int) : ℚ) * (2 : ℚ) ^ e := by
        rw [zpow_sub₀ two]; push_cast; ring
      exact ⟨2 ^ 52, le_antisymm (h4.trans h5.le) hf⟩
    · omega

/-- up to `2 ^ 53` units whole numbers of units are floats -/
theorem fits_of_units {j e : Int} (hj : |j| ≤ 2 ^ 53) (he : -1074 ≤ e) : Fits ((j : ℚ) * (2 : ℚ) ^ e) := by
  refine ⟨j, e, ?_, he, rfl⟩
  have : ((j.natAbs : Nat) : Int) ≤ ((2 ^ 53 : Nat) : Int) := by rw [Int.natCast_natAbs]; exact_mod_cast hj
  exact_mod_cast this

/-- up to `2 ^ 53` units the error is at most half a unit -/
theorem round64_half_unit {q : ℚ} {e : Int} (he : -1074 ≤ e) (h0 : 0 ≤ q) (hq : q ≤ ((2 ^ 53 : Int) : ℚ) * (2 : ℚ) ^ e) :
    |round64 q - q| ≤ (2 : ℚ) ^ e / 2 := by
  have hu : (0 : ℚ) < (2 : ℚ) ^ e := by positivity
  have hr := abs_sub_round (q / (2 : ℚ) ^ e)
  have h1 : 0 ≤ round (q / (2 : ℚ) ^ e) := by
    rw [round_eq]; apply Int.floor_nonneg.2; positivity
  have h2 : round (q / (2 : ℚ) ^ e) ≤ 2 ^ 53 := by
    have : q / (2 : ℚ) ^ e ≤ ((2 ^ 53 : Int) : ℚ) := by rw [div_le_iff₀ hu]; exact hq
    rw [round_eq]
    have h3 : ⌊q / (2 : ℚ) ^ e + 1 / 2⌋ < 2 ^ 53 + 1 := by
      rw [Int.floor_lt]
      push_cast at this ⊢
      linarith
    omega
  have hf := (round64_nearest q (fits_of_units (e := e) (by rw [abs_of_nonneg h1]; exact h2) he)).1
  refine hf.trans ?_
  have : (round (q / (2 : ℚ) ^ e) : ℚ) * (2 : ℚ) ^ e - q = -((q / (2 : ℚ) ^ e - round (q / (2 : ℚ) ^ e)) * (2 : ℚ) ^ e) := by field_simp; ring
  rw [this, abs_neg, abs_mul, abs_of_pos hu]
  calc _ ≤ 1 / 2 * (2 : ℚ) ^ e := mul_le_mul_of_nonneg_right hr hu.le
    _ = _ := by ring

/-- `y` is taken away from `x` and added again -/
theorem back_on_grid {x y : ℚ} {X e : Int} (h : OnGrid x X e) (hy : Fits y) (h0 : 0 ≤ y) (hle : y ≤ 2 * x) :
    round64 (round64 (x - y) + y) = x ∨
    (X % 2 = 1 ∧ ∃ X' : Int, X' % 2 = 0 ∧ |X' - X| = 1 ∧ round64 (round64 (x - y) + y) = (X' : ℚ) * (2 : ℚ) ^ e) := by
  have two : (2 : ℚ) ≠ 0 := by norm_num
  have hu : (0 : ℚ) < (2 : ℚ) ^ e := by positivity
  have hX : (X : ℚ) ≤ ((2 ^ 53 : Int) : ℚ) := by exact_mod_cast h.le
  have hX0 : (0 : ℚ) ≤ (X : ℚ) := by exact_mod_cast h.nonneg
  have hx0 : 0 ≤ x := by rw [h.eq]; positivity
  have hfx : Fits x := by rw [h.eq]; exact fits_of_units (by rw [abs_of_nonneg h.nonneg]; exact h.le) h.min
  rcases le_or_gt y x with hyx | hyx
  · -- the usual case
    have hd := round64_half_unit (q := x - y) h.min (by linarith) (by
      calc x - y ≤ x := by linarith
        _ ≤ _ := by rw [h.eq]; exact mul_le_mul_of_nonneg_right hX hu.le)
    generalize hdef : round64 (x - y) - (x - y) = d at hd
    have hw : round64 (x - y) + y = x + d := by rw [← hdef]; ring
    rw [hw]
    obtain ⟨hn, ht⟩ := round64_nearest (x + d) hfx
    have hxd : |x - (x + d)| = |d| := by rw [← abs_neg]; congr 1; ring
    rw [hxd] at hn ht
    by_cases hne : x = round64 (x + d)
    · exact Or.inl hne.symm
    right
    have hclose : |round64 (x + d) - x| ≤ (2 : ℚ) ^ e := by
      calc |round64 (x + d) - x| = |(round64 (x + d) - (x + d)) + d| := by congr 1; ring
        _ ≤ |round64 (x + d) - (x + d)| + |d| := abs_add_le _ _
        _ ≤ |d| + |d| := by linarith
        _ ≤ _ := by linarith
    obtain ⟨j, hj⟩ := fits_units (fits_round64 (x + d)) (e := e) (by
      rcases h.low with hl | hl
      · left
        have h1 : ((2 ^ 52 : Int) : ℚ) + 1 ≤ (X : ℚ) := by exact_mod_cast hl
        have h2 := (abs_le.1 hclose).1
        have h3 : (((2 ^ 52 : Int) : ℚ) + 1) * (2 : ℚ) ^ e ≤ x := by rw [h.eq]; exact mul_le_mul_of_nonneg_right h1 hu.le
        rw [add_mul, one_mul] at h3
        linarith
      · exact Or.inr hl.1)
    have hjX : |j - X| = 1 := by
      have h1 : |(j : ℚ) - X| * (2 : ℚ) ^ e ≤ (2 : ℚ) ^ e := by
        have : (j : ℚ) * (2 : ℚ) ^ e - (X : ℚ) * (2 : ℚ) ^ e = ((j : ℚ) - X) * (2 : ℚ) ^ e := by ring
        rw [hj, h.eq, this, abs_mul, abs_of_pos hu] at hclose
        exact hclose
      have h2 : |(j : ℚ) - X| ≤ 1 := by
        by_contra hc
        push Not at hc
        have := mul_lt_mul_of_pos_right hc hu
        linarith
      have h3 : |j - X| ≤ 1 := by exact_mod_cast h2
      have h4 : j ≠ X := by
        rintro rfl
        exact hne (by rw [hj, h.eq])
      have h5 : 1 ≤ |j - X| := Int.one_le_abs (sub_ne_zero.2 h4)
      omega
    have hjx : |round64 (x + d) - x| = (2 : ℚ) ^ e := by
      have : (j : ℚ) * (2 : ℚ) ^ e - (X : ℚ) * (2 : ℚ) ^ e = ((j - X : Int) : ℚ) * (2 : ℚ) ^ e := by push_cast; ring
      rw [hj, h.eq, this, abs_mul, abs_of_pos hu]
      have h6 : |((j - X : Int) : ℚ)| = ((|j - X| : Int) : ℚ) := by push_cast; rfl
      rw [h6, hjX]; simp
    have heq : |round64 (x + d) - (x + d)| = |d| := by
      refine le_antisymm hn ?_
      have h7 : (2 : ℚ) ^ e ≤ |round64 (x + d) - (x + d)| + |d| := by
        rw [← hjx]
        calc |round64 (x + d) - x| = |(round64 (x + d) - (x + d)) + d| := by congr 1; ring
          _ ≤ _ := abs_add_le _ _
      linarith
    obtain ⟨m, e', g1, g2⟩ := ht heq hne
    rw [abs_sub_comm, hjx] at g2
    have hee : e' = e := by
      have := (zpow_right_inj₀ (by norm_num : (0 : ℚ) < 2) (by norm_num : (2 : ℚ) ≠ 1)).1 g2
      exact this.symm
    subst hee
    have hj2 : j = 2 * m := by
      rw [hj] at g1
      have := mul_right_cancel₀ hu.ne' g1
      exact_mod_cast this
    refine ⟨?_, j, by omega, hjX, hj⟩
    rcases abs_eq (by norm_num : (0 : Int) ≤ 1) |>.1 hjX with h8 | h8 <;> omega
  · -- more is taken away than there is: no rounding
    left
    obtain ⟨j, hj⟩ := fits_units hy (e := e) (by
      rcases h.low with hl | hl
      · left
        have h1 : ((2 ^ 52 : Int) : ℚ) ≤ (X : ℚ) := by exact_mod_cast hl.le
        have h3 : ((2 ^ 52 : Int) : ℚ) * (2 : ℚ) ^ e ≤ x := by rw [h.eq]; exact mul_le_mul_of_nonneg_right h1 hu.le
        linarith
      · exact Or.inr hl.1)
    have hfit : Fits (x - y) := by
      have : x - y = ((X - j : Int) : ℚ) * (2 : ℚ) ^ e := by rw [hj, h.eq]; push_cast; ring
      rw [this]
      refine fits_of_units ?_ h.min
      have h1 : X < j := by
        rw [hj, h.eq] at hyx
        have := lt_of_mul_lt_mul_right hyx hu.le
        exact_mod_cast this
      have h2 : j ≤ 2 * X := by
        rw [hj, h.eq, ← mul_assoc] at hle
        have := le_of_mul_le_mul_right hle hu
        exact_mod_cast this
      rw [abs_of_nonpos (by omega)]
      have := h.le
      omega
    rw [round64_of_fits hfit, sub_add_cancel, round64_of_fits hfx]

/-- the significand of `x` is even -/
def EvenFloat (x : ℚ) : Prop := ∃ X e : Int, OnGrid x X e ∧ X % 2 = 0

/-- a float with an even significand is not changed -/
theorem EvenFloat.back {x y : ℚ} (h : EvenFloat x) (hy : Fits y) (h0 : 0 ≤ y) (hle : y ≤ 2 * x) : round64 (round64 (x - y) + y) = x := by
  obtain ⟨X, e, hg, he⟩ := h
  rcases back_on_grid hg hy h0 hle with h1 | ⟨h1, -⟩
  · exact h1
  · omega

/-- no float lies strictly between the two numbers -/
def Adjacent (x z : ℚ) : Prop := ∀ f, Fits f → ¬ (min x z < f ∧ f < max x z)

/-- other floats are changed at most once, into a neighbour with an even significand -/
theorem back_or_even {x y : ℚ} (hx : 0 ≤ x) (hfx : Fits x) (hy : Fits y) (h0 : 0 ≤ y) (hle : y ≤ 2 * x) :
    round64 (round64 (x - y) + y) = x ∨ (EvenFloat (round64 (round64 (x - y) + y)) ∧ x ≤ 2 * round64 (round64 (x - y) + y) ∧
      Adjacent x (round64 (round64 (x - y) + y))) := by
  have two : (2 : ℚ) ≠ 0 := by norm_num
  obtain ⟨X, e, hg⟩ := fits_onGrid hx hfx
  have hu : (0 : ℚ) < (2 : ℚ) ^ e := by positivity
  rcases back_on_grid hg hy h0 hle with h1 | ⟨hodd, X', hev, hab, h1⟩
  · exact Or.inl h1
  by_cases hemin : e = -1074
  · -- the smallest floats are added exactly
    left
    obtain ⟨j, hj⟩ := fits_units hy (e := e) (Or.inr hemin)
    have hfit : Fits (x - y) := by
      have : x - y = ((X - j : Int) : ℚ) * (2 : ℚ) ^ e := by rw [hj, hg.eq]; push_cast; ring
      rw [this]
      refine fits_of_units ?_ hg.min
      have h2 : 0 ≤ j := by
        rw [hj] at h0
        have := nonneg_of_mul_nonneg_left h0 hu
        exact_mod_cast this
      have h3 : j ≤ 2 * X := by
        rw [hj, hg.eq, ← mul_assoc] at hle
        have := le_of_mul_le_mul_right hle hu
        exact_mod_cast this
      have h4 := hg.le
      rw [abs_le]
      constructor <;> omega
    rw [round64_of_fits hfit, sub_add_cancel, round64_of_fits hfx]
  right
  rw [h1]
  have hcase := abs_eq (by norm_num : (0 : Int) ≤ 1) |>.1 hab
  have hlow : 2 ^ 52 < X := by
    rcases hg.low with h | h
    · exact h
    · exact absurd h.1 hemin
  have hup := hg.le
  have hmin := hg.min
  norm_num at hlow hup
  have hX' : X' ≤ 2 ^ 53 := by norm_num; omega
  constructor
  · by_cases hb : 2 ^ 52 < X'
    · exact ⟨X', e, ⟨rfl, hX', hmin, Or.inl hb⟩, hev⟩
    · refine ⟨2 * X', e - 1, ⟨?_, ?_, by omega, Or.inl ?_⟩, by omega⟩
      · rw [zpow_sub₀ two]; push_cast; ring
      · norm_num at hb ⊢; omega
      · norm_num; omega
  constructor
  · rw [hg.eq, ← mul_assoc]
    refine mul_le_mul_of_nonneg_right ?_ hu.le
    have : X ≤ 2 * X' := by omega
    exact_mod_cast this
  · rintro f hf ⟨f1, f2⟩
    rw [hg.eq] at f1 f2
    have hlo : ((2 ^ 52 : Int) : ℚ) * (2 : ℚ) ^ e ≤ f := by
      refine le_trans ?_ f1.le
      refine le_min ?_ ?_ <;> refine mul_le_mul_of_nonneg_right ?_ hu.le
      · have : (2 ^ 52 : Int) ≤ X := by norm_num; omega
        exact_mod_cast this
      · have : (2 ^ 52 : Int) ≤ X' := by norm_num; omega
        exact_mod_cast this
    obtain ⟨j, rfl⟩ := fits_units hf (Or.inl hlo)
    rw [← min_mul_of_nonneg _ _ hu.le] at f1
    rw [← max_mul_of_nonneg _ _ hu.le] at f2
    have g1 := lt_of_mul_lt_mul_right f1 hu.le
    have g2 := lt_of_mul_lt_mul_right f2 hu.le
    have g1 : min X X' < j := by exact_mod_cast g1
    have g2 : j < max X X' := by exact_mod_cast g2
    omega

end RSE
