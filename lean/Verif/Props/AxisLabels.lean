import Verif.Model.AxisLabels
import Verif.Props.Operators

/-!
# C135: labels in scientific notation
-/

namespace RSE.Props

/-- the number that a label shows -/
def labelValue : AxisLabel → ℚ
  | .plain t => t
  | .power e => 10 ^ e
  | .product c e => c * 10 ^ e

/-- `e` is the exponent of the leading digit of the number -/
def Leading (num : ℚ) (e : Int) : Prop := (10 : ℚ) ^ e ≤ num ∧ num < 10 ^ (e + 1)

theorem leading_log {num : ℚ} (h : 0 < num) : Leading num (Int.log 10 num) := by
  have h1 := Int.zpow_log_le_self (b := 10) (by norm_num) h
  have h2 := Int.lt_zpow_succ_log_self (b := 10) (by norm_num) num
  exact ⟨by exact_mod_cast h1, by exact_mod_cast h2⟩

theorem Leading.unique {num : ℚ} {e e' : Int} (h : Leading num e) (h' : Leading num e') : e = e' := by
  have k1 : e < e' + 1 := (zpow_lt_zpow_iff_right₀ (by norm_num : (1 : ℚ) < 10)).1 (h.1.trans_lt h'.2)
  have k2 : e' < e + 1 := (zpow_lt_zpow_iff_right₀ (by norm_num : (1 : ℚ) < 10)).1 (h'.1.trans_lt h.2)
  omega

theorem roundHalfEven_mono {p q : ℚ} (h : p ≤ q) : roundHalfEven p ≤ roundHalfEven q := by
  by_contra hc
  have hc : roundHalfEven q + 1 ≤ roundHalfEven p := by omega
  have hc' : (roundHalfEven q : ℚ) + 1 ≤ roundHalfEven p := by exact_mod_cast hc
  have h1 := abs_le.1 (C54_rounding p).1
  have h2 := abs_le.1 (C54_rounding q).1
  have : p = q := by linarith
  rw [this] at hc
  omega

/-- the coefficient of a positive number, and what the label is -/
theorem sci_pos {num : ℚ} (h : 0 < num) (d : Nat) {e : Int} (he : Leading num e) :
    ∃ n : Int, n = roundHalfEven (num / 10 ^ e * 10 ^ d) ∧ (10 : ℚ) ^ d ≤ n ∧ (n : ℚ) ≤ 10 ^ (d + 1) ∧ ∃ l, sciNotation num d = .ok l ∧
      l = (if (10 : ℚ) ^ d < n then .product (n / 10 ^ d) e else .power e) ∧ labelValue l = n / 10 ^ d * 10 ^ e := by
  have hE : (0 : ℚ) < 10 ^ e := by positivity
  have hD : (0 : ℚ) < 10 ^ d := by positivity
  have c1 : 1 ≤ num / 10 ^ e := (one_le_div hE).2 he.1
  have c2 : num / 10 ^ e ≤ 10 := by
    rw [div_le_iff₀ hE]
    have := he.2.le
    rwa [zpow_add_one₀ (by norm_num : (10 : ℚ) ≠ 0), mul_comm] at this
  have hm := roundHalfEven_mem (q := num / 10 ^ e * 10 ^ d) (a := 10 ^ d) (b := 10 ^ (d + 1)) (by push_cast; nlinarith) (by push_cast; rw [pow_succ]; nlinarith)
  have m1 : (10 : ℚ) ^ d ≤ (roundHalfEven (num / 10 ^ e * 10 ^ d) : ℚ) := by exact_mod_cast hm.1
  have m2 : (roundHalfEven (num / 10 ^ e * 10 ^ d) : ℚ) ≤ 10 ^ (d + 1) := by exact_mod_cast hm.2
  have hlog : Int.log 10 |num| = e := by
    rw [abs_of_pos h]
    exact (leading_log h).unique he
  refine ⟨_, rfl, m1, m2, _, ?_, rfl, ?_⟩
  · unfold sciNotation
    simp only [if_neg h.ne', hlog, one_lt_div hD]
    rfl
  · split
    · rfl
    · rename_i hn
      have : (roundHalfEven (num / 10 ^ e * 10 ^ d) : ℚ) = 10 ^ d := le_antisymm (not_lt.1 hn) m1
      rw [this, div_self hD.ne', one_mul]
      rfl

/-! ### C135 -/

/-- C135.  A positive number has a label.  It shows the number rounded to the given number of digits after the leading one. -/
theorem C135_positive {num : ℚ} (h : 0 < num) (d : Nat) : ∃ l e, sciNotation num d = .ok l ∧ Leading num e ∧
    |labelValue l - num| ≤ 10 ^ e / (2 * 10 ^ d) ∧ |labelValue l - num| ≤ num / (2 * 10 ^ d) ∧ ∃ n : Nat, labelValue l = n * 10 ^ (e - d) := by
  obtain ⟨n, hn, n1, -, l, hl, -, hs⟩ := sci_pos h d (leading_log h)
  have he := leading_log h
  generalize Int.log 10 num = e at *
  have hE : (0 : ℚ) < 10 ^ e := by positivity
  have hD : (0 : ℚ) < 10 ^ d := by positivity
  have hb : |labelValue l - num| ≤ 10 ^ e / (2 * 10 ^ d) := by
    have hr := (C54_rounding (num / 10 ^ e * 10 ^ d)).1
    rw [← hn] at hr
    have : labelValue l - num = -((num / 10 ^ e * 10 ^ d - n) * (10 ^ e / 10 ^ d)) := by rw [hs]; field_simp; ring
    rw [this, abs_neg, abs_mul, abs_of_pos (div_pos hE hD)]
    calc _ ≤ 1 / 2 * ((10 : ℚ) ^ e / 10 ^ d) := mul_le_mul_of_nonneg_right hr (div_pos hE hD).le
      _ = _ := by field_simp
  refine ⟨l, e, hl, he, hb, hb.trans ?_, n.toNat, ?_⟩
  · exact div_le_div_of_nonneg_right he.1 (by positivity)
  · have hn0 : 0 ≤ n := by
      have : (0 : ℚ) ≤ n := hD.le.trans n1
      exact_mod_cast this
    have : ((n.toNat : Nat) : ℚ) = (n : ℚ) := by exact_mod_cast Int.toNat_of_nonneg hn0
    rw [this, hs, zpow_sub₀ (by norm_num : (10 : ℚ) ≠ 0), zpow_natCast]
    ring

/-- C135.  The labels of positive numbers are in the order of the numbers. -/
theorem C135_order {p q : ℚ} (hp : 0 < p) (h : p ≤ q) (d : Nat) {l l' : AxisLabel} (hl : sciNotation p d = .ok l) (hl' : sciNotation q d = .ok l') :
    labelValue l ≤ labelValue l' := by
  have hq := hp.trans_le h
  have he := leading_log hp
  have he' := leading_log hq
  obtain ⟨n, hn, n1, n2, l₁, g1, -, g2⟩ := sci_pos hp d he
  obtain ⟨m, hm, m1, m2, l₂, k1, -, k2⟩ := sci_pos hq d he'
  rw [hl] at g1; cases g1
  rw [hl'] at k1; cases k1
  generalize Int.log 10 p = e at *
  generalize Int.log 10 q = e' at *
  have hD : (0 : ℚ) < 10 ^ d := by positivity
  have hE : (0 : ℚ) < 10 ^ e := by positivity
  have hE' : (0 : ℚ) < 10 ^ e' := by positivity
  have hle : e ≤ e' := by
    have := (zpow_lt_zpow_iff_right₀ (by norm_num : (1 : ℚ) < 10)).1 (he.1.trans_lt (h.trans_lt he'.2))
    omega
  rw [g2, k2]
  rcases hle.lt_or_eq with hlt | heq
  · have h1 : (n : ℚ) / 10 ^ d ≤ 10 := by rw [div_le_iff₀ hD]; rw [pow_succ] at n2; linarith
    have h2 : 1 ≤ (m : ℚ) / 10 ^ d := (one_le_div hD).2 m1
    have h3 : (10 : ℚ) ^ (e + 1) ≤ 10 ^ e' := zpow_le_zpow_right₀ (by norm_num) (by omega)
    rw [zpow_add_one₀ (by norm_num : (10 : ℚ) ≠ 0)] at h3
    calc (n : ℚ) / 10 ^ d * 10 ^ e ≤ 10 * 10 ^ e := mul_le_mul_of_nonneg_right h1 hE.le
      _ ≤ 10 ^ e' := by linarith
      _ ≤ _ := by nlinarith
  · subst heq
    have : n ≤ m := by
      rw [hn, hm]
      exact roundHalfEven_mono (by gcongr)
    have : (n : ℚ) ≤ m := by exact_mod_cast this
    gcongr

/-- C135.  A power of ten has itself as label. -/
theorem C135_powers (e : Int) (d : Nat) : sciNotation ((10 : ℚ) ^ e) d = .ok (.power e) := by
  have hE : (0 : ℚ) < 10 ^ e := by positivity
  have he : Leading ((10 : ℚ) ^ e) e := ⟨le_rfl, zpow_lt_zpow_right₀ (by norm_num) (by omega)⟩
  obtain ⟨n, hn, n1, -, l, hl, hlb, -⟩ := sci_pos hE d he
  have : n ≤ 10 ^ d := by
    rw [hn]
    exact (roundHalfEven_mem (a := 10 ^ d) (by rw [div_self hE.ne']; push_cast; simp) (by rw [div_self hE.ne']; push_cast; simp)).2
  rw [hl, hlb, if_neg]
  push Not
  exact_mod_cast this

/-- C135.  The label of a negative number does not show its sign, nor its digits. -/
theorem C135_negative {num : ℚ} (h : num < 0) (d : Nat) : ∃ e, Leading (-num) e ∧ sciNotation num d = .ok (.power e) := by
  refine ⟨_, leading_log (neg_pos.2 h), ?_⟩
  unfold sciNotation
  rw [abs_of_neg h]
  simp only [if_neg h.ne]
  have hE : (0 : ℚ) < 10 ^ Int.log 10 (-num) := by positivity
  have hD : (0 : ℚ) < 10 ^ d := by positivity
  have hneg : num / 10 ^ Int.log 10 (-num) * 10 ^ d ≤ 0 := mul_nonpos_of_nonpos_of_nonneg (div_nonpos_of_nonpos_of_nonneg h.le hE.le) hD.le
  have : roundHalfEven (num / 10 ^ Int.log 10 (-num) * 10 ^ d) ≤ 0 := by
    have h0 : roundHalfEven 0 = 0 := by decide +kernel
    rw [← h0]
    exact roundHalfEven_mono hneg
  have : ((roundHalfEven (num / 10 ^ Int.log 10 (-num) * 10 ^ d) : Int) : ℚ) ≤ 0 := by exact_mod_cast this
  change Except.ok (if _ then _ else _) = _
  rw [if_neg]
  push Not
  exact (div_nonpos_of_nonpos_of_nonneg this hD.le).trans (by norm_num)

/-- C135.  Zero raises `ValueError`, unless the exponent is given. -/
theorem C135_zero (d : Nat) : sciNotation 0 d = .error .value ∧ ∀ e, sciNotation 0 d (some e) = .ok (.power e) := by
  refine ⟨rfl, fun e => ?_⟩
  have h0 : roundHalfEven 0 = 0 := by decide +kernel
  unfold sciNotation
  simp only [zero_div, zero_mul, h0]
  change Except.ok (if _ then _ else _) = _
  rw [if_neg (by norm_num)]

/-- C135.  With a given exponent, every number up to `10^e` has the label `10^e`. -/
theorem C135_given {num : ℚ} {e : Int} (h : num ≤ 10 ^ e) (d : Nat) : sciNotation num d (some e) = .ok (.power e) := by
  have hE : (0 : ℚ) < 10 ^ e := by positivity
  have hD : (0 : ℚ) < 10 ^ d := by positivity
  have hle : num / 10 ^ e * 10 ^ d ≤ ((10 ^ d : Int) : ℚ) := by
    push_cast
    have := (div_le_one hE).2 h
    nlinarith
  have h1 : roundHalfEven (num / 10 ^ e * 10 ^ d) ≤ 10 ^ d := by
    refine (roundHalfEven_mono hle).trans (roundHalfEven_mem (a := 10 ^ d) le_rfl le_rfl).2
  have h1 : (roundHalfEven (num / 10 ^ e * 10 ^ d) : ℚ) ≤ 10 ^ d := by exact_mod_cast h1
  unfold sciNotation
  change Except.ok (if _ then _ else _) = _
  rw [if_neg]
  push Not
  exact (div_le_one hD).2 h1

/-- C135.  On a logarithmic axis ticks from 0.1 on are labelled with the number; the label of a smaller positive one is wrong by at most a third of the number. -/
theorem C135_ticks {t : ℚ} (h : 0 < t) : ∃ l, tickLabel t = .ok l ∧ |labelValue l - t| ≤ t / 3 ∧ (1 / 10 ≤ t → l = .plain t) := by
  unfold tickLabel
  split
  · exact ⟨_, rfl, by simp [labelValue]; linarith, fun _ => rfl⟩
  · rename_i hlt
    obtain ⟨n, hn, n1, -, l, hl, -, hs⟩ := sci_pos h 0 (leading_log h)
    refine ⟨l, hl, ?_, fun h' => absurd h' hlt⟩
    have he := leading_log h
    generalize Int.log 10 t = e at *
    have hE : (0 : ℚ) < 10 ^ e := by positivity
    rw [pow_zero, mul_one] at hn
    rw [pow_zero] at n1
    rw [pow_zero, div_one] at hs
    have hr := abs_le.1 (C54_rounding (t / 10 ^ e)).1
    rw [← hn] at hr
    have c1 : 1 ≤ t / 10 ^ e := (one_le_div hE).2 he.1
    have ht : t = t / 10 ^ e * 10 ^ e := by field_simp
    generalize t / 10 ^ e = y at *
    have key : |(n : ℚ) - y| ≤ y / 3 := by
      have hn1 : (1 : Int) ≤ n := by exact_mod_cast n1
      rw [abs_le]
      rcases hn1.lt_or_eq with h2 | h2
      · have h2 : (2 : ℚ) ≤ n := by exact_mod_cast h2
        constructor <;> linarith [hr.1, hr.2]
      · rw [← h2] at hr ⊢
        push_cast at hr ⊢
        constructor <;> linarith [hr.1, hr.2]
    rw [hs, ht]
    have : (n : ℚ) * 10 ^ e - y * 10 ^ e = (n - y) * 10 ^ e := by ring
    rw [this, abs_mul, abs_of_pos hE]
    calc _ ≤ y / 3 * 10 ^ e := mul_le_mul_of_nonneg_right key hE.le
      _ = _ := by ring

/-- C135.  That is the best bound: 0.015 is labelled `2·10^-2`. -/
theorem C135_ticks_sharp : tickLabel (15 / 1000) = .ok (.product 2 (-2)) ∧ |labelValue (.product 2 (-2)) - 15 / 1000| = (15 / 1000) / 3 := by
  have he : Leading (15 / 1000) (-2) := by unfold Leading; norm_num
  obtain ⟨n, hn, -, -, l, hl, hlb, -⟩ := sci_pos (num := 15 / 1000) (by norm_num) 0 he
  have hn2 : n = 2 := by rw [hn]; norm_num; decide +kernel
  refine ⟨?_, by norm_num [labelValue]⟩
  unfold tickLabel
  rw [if_neg (by norm_num), hl, hlb, hn2]
  norm_num

end RSE.Props
