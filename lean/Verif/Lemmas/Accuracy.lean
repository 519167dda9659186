import Verif.Lemmas.Commit

/-!
# Forward error of the reward formulas in binary64
-/

set_option linter.unusedSectionVars false
set_option exponentiation.threshold 2000

namespace RSE

theorem tiny64_le : tiny64 ≤ ulp * (1 / 2 ^ 1000) := by unfold tiny64 ulp; norm_num

theorem B64.add_err' {a b : B64} (ha : 0 ≤ a.1) (hb : 0 ≤ b.1) : |(a + b).1 - (a.1 + b.1)| ≤ ulp * (a.1 + b.1) := by
  have := B64.add_err a b
  rwa [abs_of_nonneg (by linarith : 0 ≤ a.1 + b.1)] at this

theorem B64.sub_err' {a b : B64} (hb : b.1 ≤ a.1) : |(a - b).1 - (a.1 - b.1)| ≤ ulp * (a.1 - b.1) := by
  have := B64.sub_err a b
  rwa [abs_of_nonneg (by linarith : 0 ≤ a.1 - b.1)] at this

theorem B64.mul_err' {a b : B64} (ha : 0 ≤ a.1) (hb : 0 ≤ b.1) : |(a * b).1 - a.1 * b.1| ≤ ulp * (a.1 * b.1) + tiny64 := by
  have := B64.mul_err a b
  rwa [abs_of_nonneg (mul_nonneg ha hb)] at this

theorem B64.div_err' {a b : B64} (ha : 0 ≤ a.1) (hb : 0 ≤ b.1) : |(a / b).1 - a.1 / b.1| ≤ ulp * (a.1 / b.1) + tiny64 := by
  have := B64.div_err a b
  rwa [abs_of_nonneg (div_nonneg ha hb)] at this

/-- a quotient of at most 1 is within `2^-53` -/
theorem B64.frac_err {a b : B64} (ha : 0 ≤ a.1) (hb : 0 < b.1) (h : a.1 ≤ b.1) :
    |(a / b).1 - a.1 / b.1| ≤ ulp ∧ 0 ≤ (a / b).1 ∧ (a / b).1 ≤ 1 := by
  have h0 : 0 ≤ a.1 / b.1 := by positivity
  have h1 : a.1 / b.1 ≤ 1 := (div_le_one hb).2 h
  refine ⟨?_, RoundedArith.div_nonneg (F := B64) ha hb, ?_⟩
  · have := round64_err (a.1 / b.1)
    refine this.trans (max_le ?_ ?_)
    · rw [abs_of_nonneg h0]
      change _ * ulp ≤ ulp
      have := mul_le_mul_of_nonneg_right h1 ulp_pos.le
      linarith
    · change tiny64 ≤ ulp
      refine tiny64_le.trans ?_
      have : (1 : ℚ) / 2 ^ 1000 ≤ 1 := by norm_num
      have := mul_le_mul_of_nonneg_left this ulp_pos.le
      linarith
  · have h2 := RoundedArith.div_right_mono (F := B64) (a := a) (b := b) hb h
    rw [RoundedArith.div_self (fun h => by rw [h] at hb; exact lt_irrefl _ hb)] at h2
    have := B64.le_def.1 h2
    rwa [B64.one_val] at this

/-- the factor `1 / (1 + a0)` -/
theorem B64.factor_err {a0 : B64} (ha : 0 ≤ a0.1) :
    |(1 / (1 + a0) : B64).1 - 1 / (1 + a0.1)| ≤ 3 * ulp * (1 / (1 + a0.1)) + tiny64 := by
  have hu := ulp_pos
  have hu16 := ulp_le
  have h1 := B64.add_err' (a := 1) (b := a0) (by rw [B64.one_val]; norm_num) ha
  rw [B64.one_val, abs_le] at h1
  have hpos : 0 < 1 + a0.1 := by linarith
  have hlow : (1 + a0.1) * (1 - ulp) ≤ (1 + a0 : B64).1 := by linarith [h1.1]
  have hy : 0 < (1 + a0 : B64).1 := lt_of_lt_of_le (mul_pos hpos (by linarith)) hlow
  have h2 := B64.div_err' (a := 1) (b := 1 + a0) (by rw [B64.one_val]; norm_num) hy.le
  rw [B64.one_val] at h2
  have hC : 0 < 1 / (1 + a0.1) := by positivity
  have h3 : |1 / (1 + a0 : B64).1 - 1 / (1 + a0.1)| ≤ 5 / 4 * ulp * (1 / (1 + a0.1)) := by
    have e : 1 / (1 + a0 : B64).1 - 1 / (1 + a0.1) = ((1 + a0.1) - (1 + a0 : B64).1) * (1 / (1 + a0 : B64).1) * (1 / (1 + a0.1)) := by
      field_simp
    rw [e, abs_mul, abs_of_pos hC]
    gcongr
    rw [abs_mul, abs_of_pos (by positivity : 0 < 1 / (1 + a0 : B64).1), mul_one_div, div_le_iff₀ hy]
    have h4 : |(1 + a0.1) - (1 + a0 : B64).1| ≤ ulp * (1 + a0.1) := by rw [abs_le]; constructor <;> linarith [h1.1, h1.2]
    refine h4.trans ?_
    have h5 : (1 + a0.1) ≤ 5 / 4 * (1 + a0 : B64).1 := by nlinarith
    calc ulp * (1 + a0.1) ≤ ulp * (5 / 4 * (1 + a0 : B64).1) := by gcongr
      _ = _ := by ring
  rw [abs_le] at h2 h3 ⊢
  have h6 : ulp * (1 / (1 + a0 : B64).1) ≤ 5 / 4 * ulp * (1 / (1 + a0.1)) := by
    have : 1 / (1 + a0 : B64).1 ≤ 5 / 4 * (1 / (1 + a0.1)) := by
      have : 5 / 4 * ulp * (1 / (1 + a0.1)) ≤ 1 / 4 * (1 / (1 + a0.1)) := by gcongr; linarith
      linarith [h3.2]
    calc ulp * (1 / (1 + a0 : B64).1) ≤ ulp * (5 / 4 * (1 / (1 + a0.1))) := by gcongr
      _ = _ := by ring
  have : 0 ≤ ulp * (1 / (1 + a0.1)) := by positivity
  constructor <;> linarith [h2.1, h2.2, h3.1, h3.2]

/-- a factor and a sum, multiplied -/
theorem B64.scaled_err {c d : B64} {a0 S D e : ℚ} (ha : 0 ≤ a0) (hc0 : 0 ≤ c.1) (hd0 : 0 ≤ d.1) (hc : |c.1 - 1 / (1 + a0)| ≤ 3 * ulp * (1 / (1 + a0)) + tiny64)
    (hD : 0 ≤ D) (hDS : D ≤ (1 + a0) * S) (hS : S ≤ 1) (he : e = 11 * ulp * ((1 + a0) * S) + 5 * (1 + a0) * tiny64)
    (hd : |d.1 - D| ≤ e) :
    |(c * d).1 - 1 / (1 + a0) * D| ≤ 16 * ulp * S + (10 + 2 * a0) * tiny64 := by
  have hu := ulp_pos
  have ht := tiny64_pos
  have hA : 0 < 1 + a0 := by linarith
  have hS0 : 0 ≤ S := by
    by_contra hcon
    have : (1 + a0) * S < 0 := mul_neg_of_pos_of_neg hA (not_le.1 hcon)
    linarith
  have hus : ulp ≤ 1 / 1000 := by unfold ulp; norm_num
  have htu : tiny64 ≤ ulp * (1 / 1000) := tiny64_le.trans (by gcongr; norm_num)
  have hts : tiny64 ≤ 1 / 1000 := htu.trans (by nlinarith)
  obtain ⟨A, hAdef⟩ : ∃ A, A = 1 + a0 := ⟨_, rfl⟩
  rw [← hAdef] at hc hDS he hA ⊢
  have hA1 : 1 ≤ A := by linarith
  have hCA : 1 / A * A = 1 := by field_simp
  have hC0 : 0 < 1 / A := by positivity
  -- in units of `S` and `tiny64`
  have hAS : 0 ≤ A * S := by positivity
  have he0 : 0 ≤ e := (abs_nonneg _).trans hd
  have hd1 : d.1 ≤ A * S + e := by have := (abs_le.1 hd).2; linarith
  have he1 : e ≤ 11 * ulp * (A * S) + 5 * A * tiny64 := he.le
  have hp1 : |c.1 * d.1 - 1 / A * D| ≤ (3 * ulp * (1 / A) + tiny64) * (A * S + e) + 1 / A * e := by
    have e1 : c.1 * d.1 - 1 / A * D = (c.1 - 1 / A) * d.1 + 1 / A * (d.1 - D) := by ring
    rw [e1]
    refine (abs_add_le _ _).trans ?_
    rw [abs_mul, abs_mul, abs_of_pos hC0, abs_of_nonneg hd0]
    have : 0 ≤ 3 * ulp * (1 / A) + tiny64 := by positivity
    gcongr
  have hmul := B64.mul_err' hc0 hd0
  have hcd : c.1 * d.1 ≤ 1 / A * D + ((3 * ulp * (1 / A) + tiny64) * (A * S + e) + 1 / A * e) := by have := (abs_le.1 hp1).2; linarith
  have hCD : 1 / A * D ≤ S := by
    calc 1 / A * D ≤ 1 / A * (A * S) := by gcongr
      _ = S := by field_simp
  -- the error of the exact product of the rounded factors
  have hCe : 1 / A * e ≤ 11 * ulp * S + 5 * tiny64 := by
    calc 1 / A * e ≤ 1 / A * (11 * ulp * (A * S) + 5 * A * tiny64) := by gcongr
      _ = 11 * ulp * S + 5 * tiny64 := by field_simp
  have htA : tiny64 * (A * S + e) ≤ (5 / 4) * A * tiny64 := by
    have h1 : A * S ≤ A := by nlinarith
    have h2 : e ≤ 1 / 4 * A := by
      have h3 : 11 * ulp * (A * S) ≤ 11 * ulp * A := by gcongr
      have h4 : 11 * ulp * A ≤ 11 * (1 / 1000) * A := by gcongr
      have h5 : 5 * A * tiny64 ≤ 5 * A * (1 / 1000) := by gcongr
      linarith
    calc tiny64 * (A * S + e) ≤ tiny64 * (A + 1 / 4 * A) := by gcongr
      _ = _ := by ring
  have h3u : 3 * ulp * (1 / A) * (A * S + e) ≤ 3 * ulp * S + 3 * ulp * (11 * ulp * S + 5 * tiny64) := by
    have : 3 * ulp * (1 / A) * (A * S + e) = 3 * ulp * (1 / A * A) * S + 3 * ulp * (1 / A * e) := by ring
    rw [this, hCA, mul_one]
    gcongr
  have huS : 0 ≤ ulp * S := by positivity
  have hE : (3 * ulp * (1 / A) + tiny64) * (A * S + e) + 1 / A * e ≤ (14 + 1 / 4) * ulp * S + (5 + 1 / 4) * tiny64 + 5 / 4 * A * tiny64 := by
    have h1 : 3 * ulp * (11 * ulp * S + 5 * tiny64) ≤ 3 * (1 / 1000) * (11 * ulp * S + 5 * tiny64) := by gcongr
    have h2 : (3 * ulp * (1 / A) + tiny64) * (A * S + e) = 3 * ulp * (1 / A) * (A * S + e) + tiny64 * (A * S + e) := by ring
    linarith
  have hlast : ulp * (c.1 * d.1) ≤ ulp * S + 1 / 4 * ulp * S + 1 / 4 * tiny64 + 1 / 4 * A * tiny64 := by
    have h1 : c.1 * d.1 ≤ S + ((14 + 1 / 4) * ulp * S + (5 + 1 / 4) * tiny64 + 5 / 4 * A * tiny64) := by linarith
    have h2 : ulp * (c.1 * d.1) ≤ ulp * (S + ((14 + 1 / 4) * ulp * S + (5 + 1 / 4) * tiny64 + 5 / 4 * A * tiny64)) := by gcongr
    have h3 : ulp * ((14 + 1 / 4) * ulp * S + (5 + 1 / 4) * tiny64 + 5 / 4 * A * tiny64) ≤
        1 / 1000 * ((14 + 1 / 4) * ulp * S + (5 + 1 / 4) * tiny64 + 5 / 4 * A * tiny64) := by gcongr
    have h4 : 0 ≤ A * tiny64 := by positivity
    linarith
  have hgoal : |(c * d).1 - 1 / A * D| ≤ |(c * d).1 - c.1 * d.1| + |c.1 * d.1 - 1 / A * D| := by
    have := abs_add_le ((c * d).1 - c.1 * d.1) (c.1 * d.1 - 1 / A * D)
    simpa using this
  refine hgoal.trans ?_
  have h4 : 0 ≤ A * tiny64 := by positivity
  have h5 : A * tiny64 = tiny64 + a0 * tiny64 := by rw [hAdef]; ring
  have h6 : 0 ≤ a0 * tiny64 := by positivity
  linarith

/-! ### Calculus of errors -/

theorem near_prod {x y : B64} {X Y e f : ℚ} (hx0 : 0 ≤ x.1) (hy0 : 0 ≤ y.1) (hX : 0 ≤ X) (hY : 0 ≤ Y) (hx : |x.1 - X| ≤ e) (hy : |y.1 - Y| ≤ f) :
    |(x * y).1 - X * Y| ≤ (1 + ulp) * (e * Y + X * f + e * f) + ulp * (X * Y) + tiny64 := by
  have hu := ulp_pos
  have he : 0 ≤ e := (abs_nonneg _).trans hx
  have hf : 0 ≤ f := (abs_nonneg _).trans hy
  have h1 : |x.1 * y.1 - X * Y| ≤ e * Y + X * f + e * f := by
    have e1 : x.1 * y.1 - X * Y = (x.1 - X) * Y + X * (y.1 - Y) + (x.1 - X) * (y.1 - Y) := by ring
    rw [e1]
    refine (abs_add_three _ _ _).trans ?_
    rw [abs_mul, abs_mul, abs_mul, abs_of_nonneg hX, abs_of_nonneg hY]
    gcongr
  have h2 := B64.mul_err' hx0 hy0
  have h3 : |(x * y).1 - X * Y| ≤ |(x * y).1 - x.1 * y.1| + |x.1 * y.1 - X * Y| := by
    have := abs_add_le ((x * y).1 - x.1 * y.1) (x.1 * y.1 - X * Y)
    simpa using this
  have h4 : x.1 * y.1 ≤ X * Y + (e * Y + X * f + e * f) := by have := (abs_le.1 h1).2; linarith
  have h5 : ulp * (x.1 * y.1) ≤ ulp * (X * Y + (e * Y + X * f + e * f)) := by gcongr
  linarith

/-- the same, with a bound for the second factor -/
theorem near_prod_le {x y : B64} {X Y e f B : ℚ} (hx0 : 0 ≤ x.1) (hy0 : 0 ≤ y.1) (hX : 0 ≤ X) (hx : |x.1 - X| ≤ e) (hy : |y.1 - Y| ≤ f) (hB : y.1 ≤ B) :
    |(x * y).1 - X * Y| ≤ (1 + ulp) * (e * B + X * f) + ulp * (X * Y) + tiny64 := by
  have hu := ulp_pos
  have he : 0 ≤ e := (abs_nonneg _).trans hx
  have h1 : |x.1 * y.1 - X * Y| ≤ e * B + X * f := by
    have e1 : x.1 * y.1 - X * Y = (x.1 - X) * y.1 + X * (y.1 - Y) := by ring
    rw [e1]
    refine (abs_add_le _ _).trans ?_
    rw [abs_mul, abs_mul, abs_of_nonneg hX, abs_of_nonneg hy0]
    gcongr
  have h2 := B64.mul_err' hx0 hy0
  have h3 : |(x * y).1 - X * Y| ≤ |(x * y).1 - x.1 * y.1| + |x.1 * y.1 - X * Y| := by
    have := abs_add_le ((x * y).1 - x.1 * y.1) (x.1 * y.1 - X * Y)
    simpa using this
  have h4 : x.1 * y.1 ≤ X * Y + (e * B + X * f) := by have := (abs_le.1 h1).2; linarith
  have h5 : ulp * (x.1 * y.1) ≤ ulp * (X * Y + (e * B + X * f)) := by gcongr
  linarith

theorem near_div {x b : B64} {X e : ℚ} (hx0 : 0 ≤ x.1) (hb : 0 < b.1) (hx : |x.1 - X| ≤ e) :
    |(x / b).1 - X / b.1| ≤ (1 + ulp) * (e / b.1) + ulp * (X / b.1) + tiny64 := by
  have hu := ulp_pos
  have h1 : |x.1 / b.1 - X / b.1| ≤ e / b.1 := by
    rw [← sub_div, abs_div, abs_of_pos hb]
    gcongr
  have h2 := B64.div_err' hx0 hb.le
  have h3 : |(x / b).1 - X / b.1| ≤ |(x / b).1 - x.1 / b.1| + |x.1 / b.1 - X / b.1| := by
    have := abs_add_le ((x / b).1 - x.1 / b.1) (x.1 / b.1 - X / b.1)
    simpa using this
  have h4 : x.1 / b.1 ≤ X / b.1 + e / b.1 := by have := (abs_le.1 h1).2; linarith
  have h5 : ulp * (x.1 / b.1) ≤ ulp * (X / b.1 + e / b.1) := by gcongr
  linarith

theorem near_add {x y : B64} {X Y e f : ℚ} (hx0 : 0 ≤ x.1) (hy0 : 0 ≤ y.1) (hx : |x.1 - X| ≤ e) (hy : |y.1 - Y| ≤ f) :
    |(x + y).1 - (X + Y)| ≤ (1 + ulp) * (e + f) + ulp * (X + Y) := by
  have hu := ulp_pos
  have h2 := B64.add_err' hx0 hy0
  rw [abs_le] at hx hy h2 ⊢
  have h5 : ulp * (x.1 + y.1) ≤ ulp * (X + Y + (e + f)) := mul_le_mul_of_nonneg_left (by linarith) hu.le
  constructor <;> linarith

theorem near_self (x : B64) : |x.1 - x.1| ≤ 0 := by simp

/-! ### The schemes -/

/-- the scheme with the same parameters, as exact numbers -/
def RS.exact (rs : RS B64) : RS ℚ := { scheme := rs.scheme, k := rs.k, beta := rs.beta.1, a0 := rs.a0.1 }

theorem B64.min_val (a b : B64) : (min a b).1 = min a.1 b.1 := by
  rcases le_total a b with h | h
  · rw [min_eq_left h, min_eq_left (B64.le_def.1 h)]
  · rw [min_eq_right h, min_eq_right (B64.le_def.1 h)]

theorem ulp_small : ulp ≤ 1 / 1000 := by unfold ulp; norm_num
theorem tiny64_small : tiny64 ≤ 1 / 1000 * ulp := by unfold tiny64 ulp; norm_num

section
variable {s p b a0 : B64}

theorem flat_err (hs1 : s.1 ≤ 1) (hp0 : 0 ≤ p.1) (hps : p.1 ≤ s.1) (ha : 0 ≤ a0.1) :
    |(1 / (1 + a0) * (s + a0 * p) : B64).1 - 1 / (1 + a0.1) * (s.1 + a0.1 * p.1)| ≤ 16 * ulp * s.1 + (10 + 5 * a0.1) * tiny64 := by
  have hu := ulp_pos
  have hus := ulp_small
  have ht := tiny64_pos
  have hs0 : 0 ≤ s.1 := hp0.trans hps
  have hap : 0 ≤ (a0 * p).1 := RoundedArith.mul_nonneg (F := B64) ha hp0
  have h1 := near_prod ha hp0 ha hp0 (near_self a0) (near_self p)
  have h2 := near_add hs0 hap (near_self s) h1
  have hap' : 0 ≤ a0.1 * p.1 := mul_nonneg ha hp0
  have haps : a0.1 * p.1 ≤ a0.1 * s.1 := by gcongr
  have hc0 : 0 ≤ (1 / (1 + a0) : B64).1 := RoundedArith.div_nonneg (F := B64) RoundedArith.zero_lt_one.le (RoundedArith.zero_lt_one.trans_le (RoundedArith.le_add ha))
  refine (B64.scaled_err (S := s.1) ha hc0 (RoundedArith.add_nonneg (F := B64) hs0 hap) (B64.factor_err ha) (by positivity) (by linarith) hs1 rfl
    (h2.trans ?_)).trans ?_
  · have e1 : 0 ≤ ulp * (a0.1 * s.1) := by positivity
    have e2 : ulp * (a0.1 * p.1) ≤ ulp * (a0.1 * s.1) := by gcongr
    have e3 : ulp * (ulp * (a0.1 * p.1) + tiny64) ≤ 1 / 1000 * (ulp * (a0.1 * p.1) + tiny64) := by gcongr
    have e4 : 0 ≤ ulp * s.1 := by positivity
    have e5 : 0 ≤ a0.1 * tiny64 := by positivity
    linarith
  · have e5 : 0 ≤ a0.1 * tiny64 := by positivity
    linarith

theorem cardano_err (hb0 : 0 < b.1) (hb1 : b.1 ≤ 1) (hsb : s.1 ≤ b.1) (hp0 : 0 ≤ p.1) (hps : p.1 ≤ s.1) (ha : 0 ≤ a0.1) :
    |(1 / (1 + a0) * (s + p * a0 * ((s - p * (1 - s / b)) / b)) : B64).1 -
      1 / (1 + a0.1) * (s.1 + p.1 * a0.1 * ((s.1 - p.1 * (1 - s.1 / b.1)) / b.1))| ≤ 16 * ulp * s.1 + (10 + 5 * a0.1) * tiny64 := by
  have hu := ulp_pos
  have hus := ulp_small
  have ht := tiny64_pos
  have hs0 : 0 ≤ s.1 := hp0.trans hps
  have hs1 : s.1 ≤ 1 := hsb.trans hb1
  have one0 : (0 : ℚ) ≤ (1 : B64).1 := by rw [B64.one_val]; norm_num
  -- the share of the saturation threshold
  obtain ⟨h1, d1nn, d1le⟩ := B64.frac_err hs0 hb0 hsb
  set d1 : B64 := s / b
  have hx0 : 0 ≤ s.1 / b.1 := by positivity
  have hx1 : s.1 / b.1 ≤ 1 := (div_le_one hb0).2 hsb
  have h2 := B64.sub_err' (a := 1) (b := d1) (by rw [B64.one_val]; exact d1le)
  rw [B64.one_val] at h2
  have d2nn : 0 ≤ (1 - d1 : B64).1 := RoundedArith.sub_nonneg (F := B64) (by rw [B64.le_def, B64.one_val]; exact d1le)
  have d2le : (1 - d1 : B64).1 ≤ 1 := by have := B64.le_def.1 (RoundedArith.sub_le (F := B64) (a := 1) (b := d1) d1nn); rwa [B64.one_val] at this
  set d2 : B64 := 1 - d1
  have h2' : |d2.1 - (1 - s.1 / b.1)| ≤ 2 * ulp := by
    rw [abs_le] at h1 h2 ⊢
    have : ulp * (1 - d1.1) ≤ ulp * 1 := by gcongr; linarith
    constructor <;> linarith [h1.1, h1.2, h2.1, h2.2]
  have h3 := near_prod hp0 d2nn hp0 (by linarith : 0 ≤ 1 - s.1 / b.1) (near_self p) h2'
  have d3nn : 0 ≤ (p * d2).1 := RoundedArith.mul_nonneg (F := B64) hp0 d2nn
  have d3le : (p * d2).1 ≤ p.1 := by
    have := RoundedArith.mul_left_mono (F := B64) (c := p) (a := d2) (b := 1) hp0 (by rw [B64.le_def, B64.one_val]; exact d2le)
    rw [RoundedArith.mul_one] at this; exact this
  set d3 : B64 := p * d2
  have hup : 0 ≤ ulp * p.1 := by positivity
  have h3' : |d3.1 - p.1 * (1 - s.1 / b.1)| ≤ (3 + 1 / 100) * ulp * p.1 + tiny64 := by
    refine h3.trans ?_
    have e1 : ulp * (p.1 * (1 - s.1 / b.1)) ≤ ulp * (p.1 * 1) := by gcongr; linarith
    have e2 : ulp * (p.1 * (2 * ulp)) ≤ 1 / 1000 * (p.1 * (2 * ulp)) := by gcongr
    linarith
  have h4 := B64.sub_err' (a := s) (b := d3) (by linarith)
  have d4nn : 0 ≤ (s - d3).1 := RoundedArith.sub_nonneg (F := B64) (by rw [B64.le_def]; linarith)
  have d4le : (s - d3).1 ≤ s.1 := RoundedArith.sub_le (F := B64) d3nn
  set d4 : B64 := s - d3
  have hX0 : 0 ≤ s.1 - p.1 * (1 - s.1 / b.1) := by
    have : p.1 * (1 - s.1 / b.1) ≤ p.1 * 1 := by gcongr; linarith
    linarith
  have hXs : s.1 - p.1 * (1 - s.1 / b.1) ≤ s.1 := by
    have : 0 ≤ p.1 * (1 - s.1 / b.1) := mul_nonneg hp0 (by linarith)
    linarith
  have h4' : |d4.1 - (s.1 - p.1 * (1 - s.1 / b.1))| ≤ (4 + 1 / 100) * ulp * s.1 + tiny64 := by
    rw [abs_le] at h3' h4 ⊢
    have e1 : ulp * (s.1 - d3.1) ≤ ulp * s.1 := by gcongr; linarith
    have e2 : ulp * p.1 ≤ ulp * s.1 := by gcongr
    constructor <;> linarith [h3'.1, h3'.2, h4.1, h4.2]
  have h5 := near_div d4nn hb0 h4'
  obtain ⟨-, d5nn, d5le⟩ := B64.frac_err d4nn hb0 (d4le.trans hsb)
  generalize s.1 - p.1 * (1 - s.1 / b.1) = X at *
  set d5 : B64 := d4 / b
  have h6 := near_prod hp0 ha hp0 ha (near_self p) (near_self a0)
  have d6nn : 0 ≤ (p * a0).1 := RoundedArith.mul_nonneg (F := B64) hp0 ha
  set d6 : B64 := p * a0
  have h6' : |d6.1 - p.1 * a0.1| ≤ ulp * (p.1 * a0.1) + tiny64 := h6.trans (by linarith)
  have hpa : 0 ≤ p.1 * a0.1 := by positivity
  have hXb0 : 0 ≤ X / b.1 := by positivity
  have hXb1 : X / b.1 ≤ 1 := (div_le_one hb0).2 (hXs.trans hsb)
  have h7 := near_prod_le d6nn d5nn hpa h6' h5 d5le
  have d7nn : 0 ≤ (d6 * d5).1 := RoundedArith.mul_nonneg (F := B64) d6nn d5nn
  set d7 : B64 := d6 * d5
  -- the error of the second summand
  have hpb : p.1 / b.1 ≤ 1 := (div_le_one hb0).2 (hps.trans hsb)
  have hpb0 : 0 ≤ p.1 / b.1 := by positivity
  have hd5e : (1 + ulp) * (((4 + 1 / 100) * ulp * s.1 + tiny64) / b.1) + ulp * (X / b.1) + tiny64 ≤ (5 + 2 / 100) * ulp * (s.1 / b.1) + (1 + 1 / 100) * (tiny64 / b.1) + tiny64 := by
    have e1 : ((4 + 1 / 100) * ulp * s.1 + tiny64) / b.1 = (4 + 1 / 100) * ulp * (s.1 / b.1) + tiny64 / b.1 := by ring
    rw [e1]
    have e2 : ulp * (X / b.1) ≤ ulp * (s.1 / b.1) := by gcongr
    have e3 : ulp * ((4 + 1 / 100) * ulp * (s.1 / b.1) + tiny64 / b.1) ≤ 1 / 1000 * ((4 + 1 / 100) * ulp * (s.1 / b.1) + tiny64 / b.1) := by gcongr
    have e4 : 0 ≤ ulp * (s.1 / b.1) := by positivity
    have e5 : 0 ≤ tiny64 / b.1 := by positivity
    linarith
  set f5 := (1 + ulp) * (((4 + 1 / 100) * ulp * s.1 + tiny64) / b.1) + ulp * (X / b.1) + tiny64
  have hf50 : 0 ≤ f5 := (abs_nonneg _).trans h5
  have hasu : 0 ≤ a0.1 * (ulp * s.1) := by positivity
  have hat : 0 ≤ a0.1 * tiny64 := by positivity
  have hpaf : p.1 * a0.1 * f5 ≤ (5 + 2 / 100) * (a0.1 * (ulp * s.1)) + (2 + 1 / 100) * (a0.1 * tiny64) := by
    have e1 : p.1 * a0.1 * f5 ≤ p.1 * a0.1 * ((5 + 2 / 100) * ulp * (s.1 / b.1) + (1 + 1 / 100) * (tiny64 / b.1) + tiny64) := by gcongr
    have e2 : p.1 * a0.1 * ((5 + 2 / 100) * ulp * (s.1 / b.1) + (1 + 1 / 100) * (tiny64 / b.1) + tiny64) =
        (p.1 / b.1) * ((5 + 2 / 100) * (a0.1 * (ulp * s.1)) + (1 + 1 / 100) * (a0.1 * tiny64)) + p.1 * (a0.1 * tiny64) := by ring
    have e3 : (p.1 / b.1) * ((5 + 2 / 100) * (a0.1 * (ulp * s.1)) + (1 + 1 / 100) * (a0.1 * tiny64)) ≤
        1 * ((5 + 2 / 100) * (a0.1 * (ulp * s.1)) + (1 + 1 / 100) * (a0.1 * tiny64)) := by gcongr
    have e4 : p.1 * (a0.1 * tiny64) ≤ 1 * (a0.1 * tiny64) := by gcongr; linarith
    linarith
  have hpas : ulp * (p.1 * a0.1) ≤ a0.1 * (ulp * s.1) := by
    calc ulp * (p.1 * a0.1) ≤ ulp * (s.1 * a0.1) := by gcongr
      _ = _ := by ring
  have hY : p.1 * a0.1 * (X / b.1) ≤ a0.1 * s.1 := by
    calc p.1 * a0.1 * (X / b.1) ≤ s.1 * a0.1 * 1 := by gcongr
      _ = _ := by ring
  have hY0 : 0 ≤ p.1 * a0.1 * (X / b.1) := by positivity
  have h7' : |d7.1 - p.1 * a0.1 * (X / b.1)| ≤ (7 + 1 / 2) * (a0.1 * (ulp * s.1)) + (3 + 1 / 4) * (a0.1 * tiny64) + (2 + 1 / 2) * tiny64 := by
    refine h7.trans ?_
    have e1 : ulp * (p.1 * a0.1 * (X / b.1)) ≤ ulp * (a0.1 * s.1) := by gcongr
    have e2 : ulp * ((ulp * (p.1 * a0.1) + tiny64) * 1 + p.1 * a0.1 * f5) ≤ 1 / 1000 * ((ulp * (p.1 * a0.1) + tiny64) * 1 + p.1 * a0.1 * f5) := by gcongr
    linarith
  have h8 := near_add hs0 d7nn (near_self s) h7'
  have d8nn : 0 ≤ (s + d7).1 := RoundedArith.add_nonneg (F := B64) hs0 d7nn
  have hc0 : 0 ≤ (1 / (1 + a0) : B64).1 := RoundedArith.div_nonneg (F := B64) RoundedArith.zero_lt_one.le (RoundedArith.zero_lt_one.trans_le (RoundedArith.le_add ha))
  refine (B64.scaled_err (S := s.1) ha hc0 d8nn (B64.factor_err ha) (by linarith) (by linarith) hs1 rfl (h8.trans ?_)).trans ?_
  · have hsu : 0 ≤ ulp * s.1 := by positivity
    have e1 : ulp * (s.1 + p.1 * a0.1 * (X / b.1)) ≤ ulp * (s.1 + a0.1 * s.1) := by gcongr
    have e2 : ulp * ((7 + 1 / 2) * (a0.1 * (ulp * s.1)) + (3 + 1 / 4) * (a0.1 * tiny64) + (2 + 1 / 2) * tiny64) ≤
        1 / 1000 * ((7 + 1 / 2) * (a0.1 * (ulp * s.1)) + (3 + 1 / 4) * (a0.1 * tiny64) + (2 + 1 / 2) * tiny64) := by gcongr
    linarith
  · linarith

theorem B64.pos_ge {x : B64} (h : 0 < x.1) : 2 * tiny64 ≤ x.1 := by
  obtain ⟨m, hm⟩ := B64.grid x
  have h2 : 2 * tiny64 = (2 : ℚ) ^ (-1074 : Int) := by
    unfold tiny64
    rw [show (-1074 : Int) = 1 + (-1075) from rfl, zpow_add₀ (by norm_num : (2 : ℚ) ≠ 0), zpow_one]
  have h3 : (0 : ℚ) < (2 : ℚ) ^ (-1074 : Int) := by positivity
  have hm0 : 0 < m := by
    by_contra hcon
    have : (m : ℚ) ≤ 0 := by exact_mod_cast not_lt.1 hcon
    have := mul_nonpos_of_nonpos_of_nonneg this h3.le
    rw [hm] at h
    linarith
  have hm1 : (1 : ℚ) ≤ m := by exact_mod_cast hm0
  rw [h2, hm]
  nlinarith

theorem simplified_err (hb0 : 0 < b.1) (hb1 : b.1 ≤ 1) (hsb : s.1 ≤ b.1) (hp0 : 0 ≤ p.1) (hps : p.1 ≤ s.1) (ha : 0 ≤ a0.1) :
    |(1 / (1 + a0) * s * (1 + a0 * p / b) : B64).1 - 1 / (1 + a0.1) * s.1 * (1 + a0.1 * p.1 / b.1)| ≤ 16 * ulp * s.1 + (10 + 5 * a0.1) * tiny64 := by
  have hu := ulp_pos
  have hus := ulp_small
  have ht := tiny64_pos
  have htu := tiny64_small
  have hs0 : 0 ≤ s.1 := hp0.trans hps
  have hs1 : s.1 ≤ 1 := hsb.trans hb1
  have one0 : (0 : ℚ) ≤ (1 : B64).1 := by rw [B64.one_val]; norm_num
  have hc0 : 0 ≤ (1 / (1 + a0) : B64).1 := RoundedArith.div_nonneg (F := B64) RoundedArith.zero_lt_one.le (RoundedArith.zero_lt_one.trans_le (RoundedArith.le_add ha))
  have hA : 0 < 1 + a0.1 := by linarith
  have hC0 : 0 < 1 / (1 + a0.1) := by positivity
  have hC1 : 1 / (1 + a0.1) ≤ 1 := by rw [div_le_one hA]; linarith
  have hCA : 1 / (1 + a0.1) * (1 + a0.1) = 1 := by field_simp
  have h1 := near_prod hc0 hs0 hC0.le hs0 (B64.factor_err ha) (near_self s)
  have x1nn : 0 ≤ (1 / (1 + a0) * s : B64).1 := RoundedArith.mul_nonneg (F := B64) hc0 hs0
  set x1 : B64 := 1 / (1 + a0) * s
  generalize hCdef : 1 / (1 + a0.1) = C at *
  have hCs : 0 ≤ ulp * (C * s.1) := by positivity
  have h1' : |x1.1 - C * s.1| ≤ (4 + 1 / 100) * (ulp * (C * s.1)) + (2 + 1 / 100) * tiny64 := by
    refine h1.trans ?_
    have e1 : (3 * ulp * C + tiny64) * s.1 = 3 * (ulp * (C * s.1)) + tiny64 * s.1 := by ring
    have e2 : tiny64 * s.1 ≤ tiny64 * 1 := by gcongr
    have e3 : ulp * ((3 * ulp * C + tiny64) * s.1) ≤ 1 / 1000 * ((3 * ulp * C + tiny64) * s.1) := by gcongr
    linarith
  have h2 := near_prod ha hp0 ha hp0 (near_self a0) (near_self p)
  have x2nn : 0 ≤ (a0 * p).1 := RoundedArith.mul_nonneg (F := B64) ha hp0
  set x2 : B64 := a0 * p
  have h2' : |x2.1 - a0.1 * p.1| ≤ ulp * (a0.1 * p.1) + tiny64 := h2.trans (by linarith)
  have h3 := near_div x2nn hb0 h2'
  have x3nn : 0 ≤ (x2 / b).1 := RoundedArith.div_nonneg (F := B64) x2nn hb0
  set x3 : B64 := x2 / b
  have hpb : p.1 / b.1 ≤ 1 := (div_le_one hb0).2 (hps.trans hsb)
  have hpb0 : 0 ≤ p.1 / b.1 := by positivity
  have hX3 : a0.1 * p.1 / b.1 ≤ a0.1 := by
    rw [mul_div_assoc]
    calc a0.1 * (p.1 / b.1) ≤ a0.1 * 1 := by gcongr
      _ = _ := mul_one _
  have hX30 : 0 ≤ a0.1 * p.1 / b.1 := by positivity
  have htb0 : 0 ≤ tiny64 / b.1 := by positivity
  have htb : tiny64 / b.1 ≤ 1 / 2 := by rw [div_le_iff₀ hb0]; linarith [B64.pos_ge hb0]
  have hua : 0 ≤ ulp * a0.1 := by positivity
  have h3' : |x3.1 - a0.1 * p.1 / b.1| ≤ (2 + 1 / 100) * (ulp * a0.1) + (1 + 1 / 100) * (tiny64 / b.1) + tiny64 := by
    refine h3.trans ?_
    have e1 : (ulp * (a0.1 * p.1) + tiny64) / b.1 = ulp * (a0.1 * p.1 / b.1) + tiny64 / b.1 := by ring
    rw [e1]
    have e2 : ulp * (a0.1 * p.1 / b.1) ≤ ulp * a0.1 := by gcongr
    have e3 : ulp * (ulp * (a0.1 * p.1 / b.1) + tiny64 / b.1) ≤ 1 / 1000 * (ulp * (a0.1 * p.1 / b.1) + tiny64 / b.1) := by gcongr
    linarith
  have h4 := near_add one0 x3nn (near_self 1) h3'
  rw [B64.one_val] at h4
  have x4nn : 0 ≤ (1 + x3 : B64).1 := RoundedArith.add_nonneg (F := B64) RoundedArith.zero_lt_one.le x3nn
  set x4 : B64 := 1 + x3
  have h4' : |x4.1 - (1 + a0.1 * p.1 / b.1)| ≤ (3 + 1 / 50) * (ulp * (1 + a0.1)) + (1 + 1 / 50) * (tiny64 / b.1) + (1 + 1 / 50) * tiny64 := by
    refine h4.trans ?_
    have e1 : ulp * (1 + a0.1 * p.1 / b.1) ≤ ulp * (1 + a0.1) := by gcongr
    have e2 : ulp * ((2 + 1 / 100) * (ulp * a0.1) + (1 + 1 / 100) * (tiny64 / b.1) + tiny64) ≤
        1 / 1000 * ((2 + 1 / 100) * (ulp * a0.1) + (1 + 1 / 100) * (tiny64 / b.1) + tiny64) := by gcongr
    linarith
  have x4le : x4.1 ≤ 2 * (1 + a0.1) := by
    have e1 := (abs_le.1 h4').2
    have e2 : ulp * (1 + a0.1) ≤ 1 / 1000 * (1 + a0.1) := by gcongr
    linarith
  have h5 := near_prod_le x1nn x4nn (by positivity : 0 ≤ C * s.1) h1' h4' x4le
  refine h5.trans ?_
  have hus0 : 0 ≤ ulp * s.1 := by positivity
  have hat : 0 ≤ a0.1 * tiny64 := by positivity
  have e1 : ((4 + 1 / 100) * (ulp * (C * s.1)) + (2 + 1 / 100) * tiny64) * (2 * (1 + a0.1)) = (8 + 1 / 50) * (ulp * s.1) * (C * (1 + a0.1)) + (4 + 1 / 50) * (tiny64 + a0.1 * tiny64) := by ring
  have e2 : C * s.1 * ((3 + 1 / 50) * (ulp * (1 + a0.1)) + (1 + 1 / 50) * (tiny64 / b.1) + (1 + 1 / 50) * tiny64) =
      (3 + 1 / 50) * (ulp * s.1) * (C * (1 + a0.1)) + (1 + 1 / 50) * (C * ((s.1 / b.1) * tiny64)) + (1 + 1 / 50) * (C * (s.1 * tiny64)) := by ring
  have e3 : C * ((s.1 / b.1) * tiny64) ≤ 1 * (1 * tiny64) := by
    have : s.1 / b.1 ≤ 1 := (div_le_one hb0).2 hsb
    gcongr
  have e4 : C * (s.1 * tiny64) ≤ 1 * (1 * tiny64) := by gcongr
  have e5 : C * s.1 * (1 + a0.1 * p.1 / b.1) ≤ s.1 := by
    calc C * s.1 * (1 + a0.1 * p.1 / b.1) ≤ C * s.1 * (1 + a0.1) := by gcongr
      _ = C * (1 + a0.1) * s.1 := by ring
      _ = s.1 := by rw [hCA, one_mul]
  have e6 : ulp * (C * s.1 * (1 + a0.1 * p.1 / b.1)) ≤ ulp * s.1 := by gcongr
  rw [hCA, mul_one] at e1 e2
  have e7 : ((4 + 1 / 100) * (ulp * (C * s.1)) + (2 + 1 / 100) * tiny64) * (2 * (1 + a0.1)) +
      C * s.1 * ((3 + 1 / 50) * (ulp * (1 + a0.1)) + (1 + 1 / 50) * (tiny64 / b.1) + (1 + 1 / 50) * tiny64) ≤
      (11 + 1 / 25) * (ulp * s.1) + (4 + 1 / 50) * (tiny64 + a0.1 * tiny64) + (2 + 1 / 25) * tiny64 := by linarith
  have e8 : (1 + ulp) * (((4 + 1 / 100) * (ulp * (C * s.1)) + (2 + 1 / 100) * tiny64) * (2 * (1 + a0.1)) +
      C * s.1 * ((3 + 1 / 50) * (ulp * (1 + a0.1)) + (1 + 1 / 50) * (tiny64 / b.1) + (1 + 1 / 50) * tiny64)) ≤
      (1 + 1 / 1000) * ((11 + 1 / 25) * (ulp * s.1) + (4 + 1 / 50) * (tiny64 + a0.1 * tiny64) + (2 + 1 / 25) * tiny64) := by gcongr
  linarith

/-- CIP-50 -/
theorem cip50_err {pl : B64} (hs0 : 0 ≤ s.1) (hb0 : 0 < b.1) (hp0 : 0 ≤ pl.1) (ha : 0 ≤ a0.1) :
    |min s.1 (min (a0 * pl).1 b.1) - min s.1 (min (a0.1 * pl.1) b.1)| ≤ 16 * ulp * min s.1 b.1 + (10 + 5 * a0.1) * tiny64 := by
  have hu := ulp_pos
  have hus := ulp_small
  have ht := tiny64_pos
  have h := near_prod ha hp0 ha hp0 (near_self a0) (near_self pl)
  have hX0 : 0 ≤ a0.1 * pl.1 := by positivity
  generalize (a0 * pl).1 = x at *
  generalize a0.1 * pl.1 = X at *
  have h' : |x - X| ≤ ulp * X + tiny64 := h.trans (by linarith)
  have e1 : min s.1 (min x b.1) = min x (min s.1 b.1) := by rw [min_comm x b.1, ← min_assoc, min_comm]
  have e2 : min s.1 (min X b.1) = min X (min s.1 b.1) := by rw [min_comm X b.1, ← min_assoc, min_comm]
  have hm0 : 0 ≤ min s.1 b.1 := le_min hs0 hb0.le
  rw [e1, e2]
  generalize min s.1 b.1 = m at *
  have hum : 0 ≤ ulp * m := by positivity
  have hat : 0 ≤ a0.1 * tiny64 := by positivity
  rw [abs_le] at h'
  have hgoal : |min x m - min X m| ≤ ulp * m + tiny64 := by
    rcases le_total X m with hX | hX
    · rw [min_eq_left hX]
      have e3 : ulp * X ≤ ulp * m := by gcongr
      rw [abs_le]
      constructor
      · have : X - (ulp * m + tiny64) ≤ min x m := le_min (by linarith) (by linarith)
        linarith
      · have := min_le_left x m
        linarith
    · rw [min_eq_right hX, abs_le]
      constructor
      · have h3 : m - ulp * m ≤ X - ulp * X := by
          have : 0 ≤ (X - m) * (1 - ulp) := mul_nonneg (by linarith) (by linarith)
          linarith
        have : m - (ulp * m + tiny64) ≤ min x m := le_min (by linarith) (by linarith)
        linarith
      · have := min_le_right x m
        linarith
  linarith

end

/-- the reward that is computed and the exact value of its formula -/
theorem reward_err (rs : RS B64) (hb0 : 0 < rs.beta) (hb1 : rs.beta ≤ 1) (ha : 0 ≤ rs.a0) {pledge stake : B64} (hp : 0 ≤ pledge) (hs : 0 ≤ stake)
    (hps : rs.scheme ≠ .cip50 → min pledge rs.beta ≤ stake) :
    |(rs.reward pledge stake).1 - rs.exact.reward pledge.1 stake.1| ≤ 16 * ulp * min stake.1 rs.beta.1 + (10 + 5 * rs.a0.1) * tiny64 := by
  have hb1' : rs.beta.1 ≤ 1 := by have := B64.le_def.1 hb1; rwa [B64.one_val] at this
  have hmp : (min pledge rs.beta).1 = min pledge.1 rs.beta.1 := B64.min_val _ _
  have hms : (min stake rs.beta).1 = min stake.1 rs.beta.1 := B64.min_val _ _
  have hp0 : 0 ≤ (min pledge rs.beta).1 := le_min (α := B64) hp hb0.le
  have hps' : rs.scheme ≠ .cip50 → (min pledge rs.beta).1 ≤ (min stake rs.beta).1 := fun h => le_min (α := B64) (hps h) (min_le_right _ _)
  have hsb : (min stake rs.beta).1 ≤ rs.beta.1 := min_le_right (α := B64) _ _
  have hone : (totalRewards : B64) = 1 := rfl
  have hone' : (totalRewards : ℚ) = 1 := rfl
  unfold RS.reward
  have hsch : rs.exact.scheme = rs.scheme := rfl
  rw [hsch]
  cases hsc : rs.scheme with
  | cardano =>
    have := cardano_err (a0 := rs.a0) hb0 hb1' hsb hp0 (hps' (by rw [hsc]; decide)) ha
    rw [hmp, hms] at this
    rw [hone, hone']
    exact this
  | simplified =>
    have := simplified_err (a0 := rs.a0) hb0 hb1' hsb hp0 (hps' (by rw [hsc]; decide)) ha
    rw [hmp, hms] at this
    rw [hone, hone']
    exact this
  | flat =>
    have := flat_err (a0 := rs.a0) (hsb.trans hb1') hp0 (hps' (by rw [hsc]; decide)) ha
    rw [hmp, hms] at this
    rw [hone, hone']
    exact this
  | cip50 =>
    have := cip50_err (s := stake) (b := rs.beta) (pl := pledge) (a0 := rs.a0) hs hb0 hp ha
    have h2 : (rs.sat pledge).1 = min (rs.a0 * pledge).1 rs.beta.1 := by
      unfold RS.sat; rw [hsc]; exact B64.min_val _ _
    have h3 : rs.exact.sat pledge.1 = min (rs.a0.1 * pledge.1) rs.beta.1 := by
      unfold RS.sat; rw [hsch, hsc]; rfl
    dsimp only
    rw [hone, hone', RoundedArith.one_mul, one_mul, B64.min_val, h2, h3]
    exact this

/-- the exact reward is between 0 and the capped stake -/
theorem exact_reward_bounds (rs : RS B64) (hb0 : 0 < rs.beta) (ha : 0 ≤ rs.a0) {pledge stake : B64} (hp : 0 ≤ pledge) (hs : 0 ≤ stake)
    (hps : rs.scheme ≠ .cip50 → min pledge rs.beta ≤ stake) :
    0 ≤ rs.exact.reward pledge.1 stake.1 ∧ rs.exact.reward pledge.1 stake.1 ≤ min stake.1 rs.beta.1 := by
  have hb0' : 0 < rs.beta.1 := hb0
  have ha' : 0 ≤ rs.a0.1 := ha
  have hp' : 0 ≤ pledge.1 := hp
  have hs' : 0 ≤ stake.1 := hs
  have hs0 : 0 ≤ min stake.1 rs.beta.1 := le_min hs' hb0'.le
  have hp0 : 0 ≤ min pledge.1 rs.beta.1 := le_min hp' hb0'.le
  have hA : 0 < 1 + rs.a0.1 := by linarith
  have hps' : rs.scheme ≠ .cip50 → min pledge.1 rs.beta.1 ≤ min stake.1 rs.beta.1 := by
    intro h
    have := B64.le_def.1 (hps h)
    rw [B64.min_val] at this
    exact le_min this (min_le_right _ _)
  have hsb : min stake.1 rs.beta.1 ≤ rs.beta.1 := min_le_right _ _
  have hC : ∀ x, 0 ≤ x → x ≤ (1 + rs.a0.1) * min stake.1 rs.beta.1 → 0 ≤ 1 / (1 + rs.a0.1) * x ∧ 1 / (1 + rs.a0.1) * x ≤ min stake.1 rs.beta.1 := by
    intro x h1 h2
    refine ⟨by positivity, ?_⟩
    calc 1 / (1 + rs.a0.1) * x ≤ 1 / (1 + rs.a0.1) * ((1 + rs.a0.1) * min stake.1 rs.beta.1) := by gcongr
      _ = _ := by field_simp
  have hsch : rs.exact.scheme = rs.scheme := rfl
  have hone' : (totalRewards : ℚ) = 1 := rfl
  unfold RS.reward
  rw [hsch]
  cases hsc : rs.scheme with
  | cip50 =>
    have h3 : rs.exact.sat pledge.1 = min (rs.a0.1 * pledge.1) rs.beta.1 := by
      unfold RS.sat; rw [hsch, hsc]; rfl
    dsimp only
    rw [hone', one_mul, h3]
    refine ⟨le_min hs' (le_min (by positivity) hb0'.le), le_min (min_le_left _ _) ((min_le_right _ _).trans (min_le_right _ _))⟩
  | cardano =>
    have hle := hps' (by rw [hsc]; decide)
    rw [hone']
    change 0 ≤ 1 / (1 + rs.a0.1) * (min stake.1 rs.beta.1 + min pledge.1 rs.beta.1 * rs.a0.1 *
      ((min stake.1 rs.beta.1 - min pledge.1 rs.beta.1 * (1 - min stake.1 rs.beta.1 / rs.beta.1)) / rs.beta.1)) ∧
      1 / (1 + rs.a0.1) * (min stake.1 rs.beta.1 + min pledge.1 rs.beta.1 * rs.a0.1 *
      ((min stake.1 rs.beta.1 - min pledge.1 rs.beta.1 * (1 - min stake.1 rs.beta.1 / rs.beta.1)) / rs.beta.1)) ≤ min stake.1 rs.beta.1
    generalize min stake.1 rs.beta.1 = s at *
    generalize min pledge.1 rs.beta.1 = p at *
    generalize rs.beta.1 = b at *
    generalize rs.a0.1 = a at *
    have hx0 : 0 ≤ s / b := by positivity
    have hx1 : s / b ≤ 1 := (div_le_one hb0').2 hsb
    have h1 : 0 ≤ p * (1 - s / b) := mul_nonneg hp0 (by linarith)
    have h2 : p * (1 - s / b) ≤ p * 1 := by gcongr; linarith
    have h3 : 0 ≤ (s - p * (1 - s / b)) / b := div_nonneg (by linarith) hb0'.le
    have h4 : (s - p * (1 - s / b)) / b ≤ 1 := (div_le_one hb0').2 (by linarith)
    refine hC _ (by positivity) ?_
    have h5 : p * a * ((s - p * (1 - s / b)) / b) ≤ s * a * 1 := by gcongr
    linarith
  | simplified =>
    have hle := hps' (by rw [hsc]; decide)
    rw [hone']
    change 0 ≤ 1 / (1 + rs.a0.1) * min stake.1 rs.beta.1 * (1 + rs.a0.1 * min pledge.1 rs.beta.1 / rs.beta.1) ∧
      1 / (1 + rs.a0.1) * min stake.1 rs.beta.1 * (1 + rs.a0.1 * min pledge.1 rs.beta.1 / rs.beta.1) ≤ _
    rw [mul_assoc]
    have h1 : min pledge.1 rs.beta.1 / rs.beta.1 ≤ 1 := (div_le_one hb0').2 (min_le_right _ _)
    have h2 : 0 ≤ min pledge.1 rs.beta.1 / rs.beta.1 := by positivity
    rw [mul_div_assoc]
    refine hC _ (by positivity) ?_
    have : rs.a0.1 * (min pledge.1 rs.beta.1 / rs.beta.1) ≤ rs.a0.1 * 1 := by gcongr
    calc min stake.1 rs.beta.1 * (1 + rs.a0.1 * (min pledge.1 rs.beta.1 / rs.beta.1)) ≤ min stake.1 rs.beta.1 * (1 + rs.a0.1 * 1) := by gcongr
      _ = _ := by ring
  | flat =>
    have hle := hps' (by rw [hsc]; decide)
    rw [hone']
    refine hC _ (by positivity) ?_
    have : rs.a0.1 * min pledge.1 rs.beta.1 ≤ rs.a0.1 * min stake.1 rs.beta.1 := by gcongr
    change min stake.1 rs.beta.1 + rs.a0.1 * min pledge.1 rs.beta.1 ≤ _
    linarith

/-! ### Sharing a profit -/

/-- what an error of the profit and of the factor does to a share of the profit -/
theorem share_err {P Q x m M e f : ℚ} (hQ : |P - Q| ≤ e) (hm : |m - M| ≤ f) (hm0 : 0 ≤ M) (hM1 : M ≤ 1) (hx : |x - P * m| ≤ ulp * |P * m| + tiny64) :
    |x - Q * M| ≤ (1 + ulp) * (e * (1 + f) + |Q| * f) + ulp * |Q| + tiny64 := by
  have hu := ulp_pos
  have he : 0 ≤ e := (abs_nonneg _).trans hQ
  have hf : 0 ≤ f := (abs_nonneg _).trans hm
  have h1 : |P * m - Q * M| ≤ e * (1 + f) + |Q| * f := by
    have e1 : P * m - Q * M = (P - Q) * M + (P - Q) * (m - M) + Q * (m - M) := by ring
    rw [e1]
    refine (abs_add_three _ _ _).trans ?_
    rw [abs_mul, abs_mul, abs_mul, abs_of_nonneg hm0]
    have a1 : |P - Q| * M ≤ e * 1 := by gcongr
    have a2 : |P - Q| * |m - M| ≤ e * f := by gcongr
    have a3 : |Q| * |m - M| ≤ |Q| * f := by gcongr
    linarith
  have h2 : |Q * M| ≤ |Q| := by
    rw [abs_mul, abs_of_nonneg hm0]
    have := abs_nonneg Q
    nlinarith
  have h3 : |P * m| ≤ |Q| + (e * (1 + f) + |Q| * f) := by
    have := abs_sub_abs_le_abs_sub (P * m) (Q * M)
    linarith
  have h4 : |x - Q * M| ≤ |x - P * m| + |P * m - Q * M| := by
    have := abs_add_le (x - P * m) (P * m - Q * M)
    simpa using this
  have h5 : ulp * |P * m| ≤ ulp * (|Q| + (e * (1 + f) + |Q| * f)) := by gcongr
  linarith

/-- `1 - margin` and its product with a fraction -/
theorem margin_err {m : B64} (hm0 : 0 ≤ m.1) (hm1 : m.1 ≤ 1) : |(1 - m : B64).1 - (1 - m.1)| ≤ ulp ∧ 0 ≤ (1 - m : B64).1 ∧ (1 - m : B64).1 ≤ 1 := by
  have h := B64.sub_err' (a := 1) (b := m) (by rw [B64.one_val]; exact hm1)
  rw [B64.one_val] at h
  refine ⟨h.trans ?_, RoundedArith.sub_nonneg (F := B64) (by rw [B64.le_def, B64.one_val]; exact hm1), ?_⟩
  · have : ulp * (1 - m.1) ≤ ulp * 1 := by have := ulp_pos; gcongr; linarith
    linarith
  · have := B64.le_def.1 (RoundedArith.sub_le (F := B64) (a := 1) (b := m) hm0); rwa [B64.one_val] at this

theorem factor_err₂ {m a st : B64} (hm0 : 0 ≤ m.1) (hm1 : m.1 ≤ 1) (ha : 0 ≤ a.1) (has : a.1 ≤ st.1) (hst : 0 < st.1) :
    |((1 - m) * (a / st) : B64).1 - (1 - m.1) * (a.1 / st.1)| ≤ (3 + 1 / 100) * ulp ∧ 0 ≤ ((1 - m) * (a / st) : B64).1 := by
  obtain ⟨h1, h2, h3⟩ := margin_err hm0 hm1
  obtain ⟨h4, h5, h6⟩ := B64.frac_err ha hst has
  have h7 := near_prod_le h2 h5 (by linarith : 0 ≤ 1 - m.1) h1 h4 h6
  refine ⟨h7.trans ?_, RoundedArith.mul_nonneg (F := B64) h2 h5⟩
  have hu := ulp_pos
  have hus := ulp_small
  have htu := tiny64_small
  have hq1 : a.1 / st.1 ≤ 1 := (div_le_one hst).2 has
  have hq0 : 0 ≤ a.1 / st.1 := by positivity
  have e1 : (1 - m.1) * ulp ≤ 1 * ulp := by gcongr; linarith
  have e2 : ulp * ((1 - m.1) * (a.1 / st.1)) ≤ ulp * (1 * 1) := by gcongr; linarith
  have e3 : (1 + ulp) * (ulp * 1 + (1 - m.1) * ulp) ≤ (1 + 1 / 1000) * (ulp * 1 + 1 * ulp) := by
    have : 0 ≤ 1 - m.1 := by linarith
    gcongr
  linarith

theorem B64.max_val (a b : B64) : (max a b).1 = max a.1 b.1 := by
  rcases le_total a b with h | h
  · rw [max_eq_right h, max_eq_right (B64.le_def.1 h)]
  · rw [max_eq_left h, max_eq_left (B64.le_def.1 h)]

theorem max_zero_err (x y : ℚ) : |max x 0 - max y 0| ≤ |x - y| := by
  rw [abs_le]
  have h1 := le_abs_self (x - y)
  have h2 := neg_abs_le (x - y)
  have h3 := abs_nonneg (x - y)
  rcases le_total x 0 with hx | hx <;> rcases le_total y 0 with hy | hy <;> simp only [max_eq_left, max_eq_right, hx, hy] <;> constructor <;> linarith

/-- the profit -/
theorem profit_err {r c : B64} {R e : ℚ} (h : |r.1 - R| ≤ e) : |(r - c).1 - (R - c.1)| ≤ e + ulp * (|R - c.1| + e) := by
  have h1 := B64.sub_err r c
  have hu := ulp_pos
  have h2 : |r.1 - c.1 - (R - c.1)| ≤ e := by
    have : r.1 - c.1 - (R - c.1) = r.1 - R := by ring
    rwa [this]
  have h3 : |r.1 - c.1| ≤ |R - c.1| + e := by
    have := abs_sub_abs_le_abs_sub (r.1 - c.1) (R - c.1)
    linarith
  have h4 : |(r - c).1 - (R - c.1)| ≤ |(r - c).1 - (r.1 - c.1)| + |r.1 - c.1 - (R - c.1)| := by
    have h := abs_add_le ((r - c).1 - (r.1 - c.1)) (r.1 - c.1 - (R - c.1))
    rwa [sub_add_sub_cancel] at h
  have h5 : ulp * |r.1 - c.1| ≤ ulp * (|R - c.1| + e) := by gcongr
  linarith

/-- the numbers put together -/
theorem share_total {S c R a e f Q : ℚ} (hS : 0 ≤ S) (hc : 0 ≤ c) (ha : 0 ≤ a) (hR0 : 0 ≤ R) (hRS : R ≤ S) (hQ : Q = R - c)
    (he : e = 16 * ulp * S + (10 + 5 * a) * tiny64) (hf0 : 0 ≤ f) (hf : f ≤ (4 + 1 / 10) * ulp) :
    (1 + ulp) * ((e + ulp * (|Q| + e)) * (1 + f) + |Q| * f) + ulp * |Q| + tiny64 ≤ 32 * ulp * (S + c) + (12 + 6 * a) * tiny64 := by
  have hu := ulp_pos
  have hus := ulp_small
  have ht := tiny64_pos
  have hQc : |Q| ≤ S + c := by rw [hQ, abs_le]; constructor <;> linarith
  have hQ0 := abs_nonneg Q
  have he0 : 0 ≤ e := by rw [he]; positivity
  have hf' : f ≤ 1 / 200 := by linarith
  have h1 : (e + ulp * (|Q| + e)) * (1 + f) ≤ (e + ulp * (|Q| + e)) * (1 + 1 / 200) := by gcongr
  have h2 : ulp * e ≤ 1 / 1000 * e := by gcongr
  have h3 : |Q| * f ≤ |Q| * ((4 + 1 / 10) * ulp) := by gcongr
  have h0 : 0 ≤ (e + ulp * (|Q| + e)) * (1 + f) + |Q| * f := by positivity
  have h4 : (1 + ulp) * ((e + ulp * (|Q| + e)) * (1 + f) + |Q| * f) ≤ (1 + 1 / 1000) * ((e + ulp * (|Q| + e)) * (1 + f) + |Q| * f) := by gcongr
  have h5 : ulp * |Q| ≤ ulp * (S + c) := by gcongr
  have h6 : 0 ≤ ulp * S := by positivity
  have h7 : 0 ≤ ulp * c := by positivity
  have h8 : 0 ≤ a * tiny64 := by positivity
  have h9 : 0 ≤ ulp * |Q| := by positivity
  rw [he] at h1 h2 h4 ⊢
  linarith

theorem operator_err {r c m a st : B64} {S R e : ℚ} {a0 : ℚ} (hS : 0 ≤ S) (hc : 0 ≤ c.1) (ha0 : 0 ≤ a0) (hR0 : 0 ≤ R) (hRS : R ≤ S)
    (he : e = 16 * ulp * S + (10 + 5 * a0) * tiny64) (hr : |r.1 - R| ≤ e) (hm0 : 0 ≤ m.1) (hm1 : m.1 ≤ 1) (ha : 0 ≤ a.1) (has : a.1 ≤ st.1) (hst : 0 < st.1) :
    |(operatorReward m c r (a / st)).1 - operatorReward m.1 c.1 R (a.1 / st.1)| ≤ 32 * ulp * (S + c.1) + (12 + 6 * a0) * tiny64 := by
  have hu := ulp_pos
  have hus := ulp_small
  have ht := tiny64_pos
  have hP := profit_err (c := c) hr
  obtain ⟨h1, h2⟩ := factor_err₂ hm0 hm1 ha has hst
  have hq1 : a.1 / st.1 ≤ 1 := (div_le_one hst).2 has
  have hq0 : 0 ≤ a.1 / st.1 := by positivity
  have hM0 : 0 ≤ m.1 + (1 - m.1) * (a.1 / st.1) := add_nonneg hm0 (mul_nonneg (by linarith) hq0)
  have hM1 : m.1 + (1 - m.1) * (a.1 / st.1) ≤ 1 := by
    have : (1 - m.1) * (a.1 / st.1) ≤ (1 - m.1) * 1 := mul_le_mul_of_nonneg_left hq1 (by linarith)
    linarith
  have h3 := near_add hm0 h2 (near_self m) h1
  have h3' : |(m + (1 - m) * (a / st) : B64).1 - (m.1 + (1 - m.1) * (a.1 / st.1))| ≤ (4 + 1 / 10) * ulp := by
    refine h3.trans ?_
    have e1 : ulp * (m.1 + (1 - m.1) * (a.1 / st.1)) ≤ ulp * 1 := by gcongr
    have e2 : ulp * (0 + (3 + 1 / 100) * ulp) ≤ 1 / 1000 * (0 + (3 + 1 / 100) * ulp) := by gcongr
    linarith
  have hmf0 : 0 ≤ (m + (1 - m) * (a / st) : B64).1 := RoundedArith.add_nonneg (F := B64) hm0 h2
  have hx := B64.mul_err (r - c) (m + (1 - m) * (a / st))
  have htot := share_total hS hc ha0 hR0 hRS rfl he (by positivity) (le_refl ((4 + 1 / 10) * ulp))
  unfold operatorReward
  dsimp only
  set P : B64 := r - c
  set Q : ℚ := R - c.1
  set M := m.1 + (1 - m.1) * (a.1 / st.1)
  set mf : B64 := m + (1 - m) * (a / st)
  have he0 : 0 ≤ e := (abs_nonneg _).trans hr
  have hQ0 := abs_nonneg Q
  have hE : e + ulp * (|Q| + e) ≤ 32 * ulp * (S + c.1) + (12 + 6 * a0) * tiny64 := by
    refine le_trans ?_ htot
    have a1 : 0 ≤ e + ulp * (|Q| + e) := by positivity
    have a2 : e + ulp * (|Q| + e) ≤ (e + ulp * (|Q| + e)) * (1 + (4 + 1 / 10) * ulp) := le_mul_of_one_le_right a1 (by linarith)
    have a3 : 0 ≤ |Q| * ((4 + 1 / 10) * ulp) := by positivity
    have a4 : (e + ulp * (|Q| + e)) * (1 + (4 + 1 / 10) * ulp) + |Q| * ((4 + 1 / 10) * ulp) ≤
        (1 + ulp) * ((e + ulp * (|Q| + e)) * (1 + (4 + 1 / 10) * ulp) + |Q| * ((4 + 1 / 10) * ulp)) := le_mul_of_one_le_left (by positivity) (by linarith)
    have a5 : 0 ≤ ulp * |Q| := by positivity
    linarith
  by_cases hP0 : P ≤ 0
  · rw [if_pos hP0]
    have hP0' : P.1 ≤ 0 := hP0
    by_cases hQ1 : Q ≤ 0
    · rw [if_pos hQ1]
      exact hP.trans hE
    · rw [if_neg hQ1]
      have hQ2 : 0 < Q := not_le.1 hQ1
      refine le_trans ?_ (hP.trans hE)
      have h5 : Q * M ≤ Q * 1 := by gcongr
      have h6 : 0 ≤ Q * M := by positivity
      rw [abs_of_nonpos (by linarith), abs_of_nonpos (by linarith)]
      linarith
  · rw [if_neg hP0]
    have hP1 : 0 < P.1 := not_le.1 hP0
    by_cases hQ1 : Q ≤ 0
    · rw [if_pos hQ1]
      have hs := share_err (x := (P * mf).1) (M := M) hP h3' hM0 hM1 hx
      have h5 : 0 ≤ (P * mf).1 := RoundedArith.mul_nonneg (F := B64) hP1.le hmf0
      -- the exact value lies beyond the share, but by less than the error of the profit
      have h6 : (P * mf).1 ≤ P.1 * mf.1 + (ulp * (P.1 * mf.1) + tiny64) := by
        rw [abs_of_nonneg (by positivity : 0 ≤ P.1 * mf.1)] at hx
        have := (abs_le.1 hx).2
        linarith
      have h7 : mf.1 ≤ 1 + (4 + 1 / 10) * ulp := by have := (abs_le.1 h3').2; linarith
      have h8 : P.1 ≤ Q + (e + ulp * (|Q| + e)) := by have := (abs_le.1 hP).2; linarith
      have h9 : P.1 * mf.1 ≤ P.1 * (1 + (4 + 1 / 10) * ulp) := by gcongr
      rw [abs_of_nonneg (by linarith)]
      refine le_trans ?_ htot
      set E := e + ulp * (|Q| + e)
      have hPE : P.1 ≤ E := by linarith
      have b1 : P.1 * mf.1 ≤ P.1 + E * ((4 + 1 / 10) * ulp) := by
        have : P.1 * ((4 + 1 / 10) * ulp) ≤ E * ((4 + 1 / 10) * ulp) := by gcongr
        linarith
      have b2 : ulp * (P.1 * mf.1) ≤ ulp * (E * (1 + (4 + 1 / 10) * ulp)) := by
        have : P.1 * mf.1 ≤ E * (1 + (4 + 1 / 10) * ulp) := by linarith
        gcongr
      have b3 : 0 ≤ (1 + ulp) * (|Q| * ((4 + 1 / 10) * ulp)) + ulp * |Q| := by positivity
      linarith
    · rw [if_neg hQ1]
      exact (share_err hP h3' hM0 hM1 hx).trans htot

theorem delegator_err {r c m a st : B64} {S R e : ℚ} {a0 : ℚ} (hS : 0 ≤ S) (hc : 0 ≤ c.1) (ha0 : 0 ≤ a0) (hR0 : 0 ≤ R) (hRS : R ≤ S)
    (he : e = 16 * ulp * S + (10 + 5 * a0) * tiny64) (hr : |r.1 - R| ≤ e) (hm0 : 0 ≤ m.1) (hm1 : m.1 ≤ 1) (ha : 0 ≤ a.1) (has : a.1 ≤ st.1) (hst : 0 < st.1) :
    |(delegatorReward m c r (a / st)).1 - delegatorReward m.1 c.1 R (a.1 / st.1)| ≤ 32 * ulp * (S + c.1) + (12 + 6 * a0) * tiny64 := by
  have hu := ulp_pos
  have hP := profit_err (c := c) hr
  obtain ⟨h1, h2⟩ := factor_err₂ hm0 hm1 ha has hst
  have hq1 : a.1 / st.1 ≤ 1 := (div_le_one hst).2 has
  have hq0 : 0 ≤ a.1 / st.1 := by positivity
  have hM0 : 0 ≤ (1 - m.1) * (a.1 / st.1) := mul_nonneg (by linarith) hq0
  have hM1 : (1 - m.1) * (a.1 / st.1) ≤ 1 := by
    have : (1 - m.1) * (a.1 / st.1) ≤ (1 - m.1) * 1 := mul_le_mul_of_nonneg_left hq1 (by linarith)
    linarith
  have hx := B64.mul_err ((1 - m) * (a / st)) (r - c)
  rw [mul_comm (((1 - m) * (a / st) : B64)).1 (r - c).1] at hx
  have hs := share_err hP h1 hM0 hM1 hx
  unfold delegatorReward
  dsimp only
  rw [B64.max_val]
  refine (max_zero_err _ _).trans ?_
  rw [mul_comm ((1 - m.1) * (a.1 / st.1)) (R - c.1)]
  exact hs.trans (share_total hS hc ha0 hR0 hRS rfl he (by positivity) (by linarith))

theorem desirability_err {r c m : B64} {S R e : ℚ} {a0 : ℚ} (hS : 0 ≤ S) (hc : 0 ≤ c.1) (ha0 : 0 ≤ a0) (hR0 : 0 ≤ R) (hRS : R ≤ S)
    (he : e = 16 * ulp * S + (10 + 5 * a0) * tiny64) (hr : |r.1 - R| ≤ e) (hm0 : 0 ≤ m.1) (hm1 : m.1 ≤ 1) :
    |(desirability m (r - c)).1 - desirability m.1 (R - c.1)| ≤ 32 * ulp * (S + c.1) + (12 + 6 * a0) * tiny64 := by
  have hu := ulp_pos
  have hP := profit_err (c := c) hr
  obtain ⟨h1, h2, h3⟩ := margin_err hm0 hm1
  have hx := B64.mul_err (1 - m) (r - c)
  rw [mul_comm (1 - m : B64).1 (r - c).1] at hx
  have hs := share_err hP h1 (by linarith) (by linarith) hx
  unfold desirability
  rw [B64.max_val]
  refine (max_zero_err _ _).trans ?_
  rw [mul_comm (1 - m.1) (R - c.1)]
  exact hs.trans (share_total hS hc ha0 hR0 hRS rfl he hu.le (by linarith))

end RSE
