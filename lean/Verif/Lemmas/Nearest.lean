import Verif.Py.Binary64
import Mathlib.Algebra.Order.Group.Unbundled.Abs

/-!
# Rounding to binary64 is to nearest, ties to even
-/

namespace RSE

theorem roundDiv_spec (n : Nat) {d : Nat} (hd : 0 < d) : ∃ a r, n = d * a + r ∧ r < d ∧
    ((2 * r < d ∧ roundDiv n d = a) ∨ (d < 2 * r ∧ roundDiv n d = a + 1) ∨
      (2 * r = d ∧ roundDiv n d % 2 = 0 ∧ (roundDiv n d = a ∨ roundDiv n d = a + 1))) := by
  refine ⟨n / d, n % d, (Nat.div_add_mod n d).symm, Nat.mod_lt n hd, ?_⟩
  unfold roundDiv
  split
  · exact Or.inl ⟨by assumption, rfl⟩
  · split
    · exact Or.inr (Or.inl ⟨by assumption, rfl⟩)
    · exact Or.inr (Or.inr ⟨by omega, by omega, by omega⟩)

/-- the error is at most a half, and exactly a half only if the result is even -/
theorem roundDiv_err (n : Nat) {d : Nat} (hd : 0 < d) :
    |(roundDiv n d : ℚ) - (n : ℚ) / d| ≤ 1 / 2 ∧ (|(roundDiv n d : ℚ) - (n : ℚ) / d| = 1 / 2 → roundDiv n d % 2 = 0) := by
  obtain ⟨a, r, hn, hr, h⟩ := roundDiv_spec n hd
  have hdq : (0 : ℚ) < d := by exact_mod_cast hd
  have hx : (n : ℚ) / d = a + (r : ℚ) / d := by rw [hn]; push_cast; field_simp
  have hr0 : (0 : ℚ) ≤ (r : ℚ) / d := by positivity
  rcases h with ⟨h2, he⟩ | ⟨h2, he⟩ | ⟨h2, hm, he⟩
  · have hlt : (r : ℚ) / d < 1 / 2 := by
      rw [div_lt_iff₀ hdq]
      have : (2 : ℚ) * r < d := by exact_mod_cast h2
      linarith
    have : |(roundDiv n d : ℚ) - (n : ℚ) / d| < 1 / 2 := by rw [he, hx, abs_lt]; constructor <;> linarith
    exact ⟨this.le, fun hc => absurd hc this.ne⟩
  · have hlt : 1 / 2 < (r : ℚ) / d := by
      rw [lt_div_iff₀ hdq]
      have : (d : ℚ) < 2 * r := by exact_mod_cast h2
      linarith
    have h1 : (r : ℚ) / d < 1 := by rw [div_lt_one hdq]; exact_mod_cast hr
    have : |(roundDiv n d : ℚ) - (n : ℚ) / d| < 1 / 2 := by rw [he, hx, abs_lt]; push_cast; constructor <;> linarith
    exact ⟨this.le, fun hc => absurd hc this.ne⟩
  · have heq : (r : ℚ) / d = 1 / 2 := by
      rw [div_eq_iff hdq.ne']
      have : (2 : ℚ) * r = d := by exact_mod_cast h2
      linarith
    refine ⟨?_, fun _ => hm⟩
    rw [hx, heq, abs_le]
    rcases he with he | he <;> rw [he] <;> push_cast <;> constructor <;> linarith

/-- a half of the last place -/
theorem roundPos_err {n d : Nat} (hd : 0 < d) : |roundPos n d - (n : ℚ) / d| ≤ (2 : ℚ) ^ lastPlace n d / 2 := by
  have hu : (0 : ℚ) < (2 : ℚ) ^ lastPlace n d := by positivity
  have h := (roundDiv_err (descale n d (lastPlace n d)).1 (descale_pos n hd (lastPlace n d))).1
  rw [descale_eq n hd] at h
  have e : roundPos n d - (n : ℚ) / d = ((roundDiv (descale n d (lastPlace n d)).1 (descale n d (lastPlace n d)).2 : ℚ) - (n : ℚ) / d / (2 : ℚ) ^ lastPlace n d) *
      (2 : ℚ) ^ lastPlace n d := by
    rw [roundPos_eq, sub_mul]; congr 1; field_simp
  rw [e, abs_mul, abs_of_pos hu]
  calc _ ≤ 1 / 2 * (2 : ℚ) ^ lastPlace n d := mul_le_mul_of_nonneg_right h hu.le
    _ = _ := by ring

/-- a multiple of the last place is not nearer -/
theorem roundPos_nearest_mul {n d : Nat} (hd : 0 < d) (k : Int) :
    |roundPos n d - (n : ℚ) / d| ≤ |(k : ℚ) * (2 : ℚ) ^ lastPlace n d - (n : ℚ) / d| ∧
    (|roundPos n d - (n : ℚ) / d| = |(k : ℚ) * (2 : ℚ) ^ lastPlace n d - (n : ℚ) / d| → (k : ℚ) * (2 : ℚ) ^ lastPlace n d ≠ roundPos n d →
      ∃ m : Int, roundPos n d = (2 * m : Int) * (2 : ℚ) ^ lastPlace n d ∧ |(k : ℚ) * (2 : ℚ) ^ lastPlace n d - roundPos n d| = (2 : ℚ) ^ lastPlace n d) := by
  have hu : (0 : ℚ) < (2 : ℚ) ^ lastPlace n d := by positivity
  obtain ⟨h, hev⟩ := roundDiv_err (descale n d (lastPlace n d)).1 (descale_pos n hd (lastPlace n d))
  rw [descale_eq n hd] at h hev
  rw [roundPos_eq]
  generalize roundDiv (descale n d (lastPlace n d)).1 (descale n d (lastPlace n d)).2 = r at *
  generalize (2 : ℚ) ^ lastPlace n d = u at *
  have hx : ((n : ℚ) / d) = ((n : ℚ) / d / u) * u := by field_simp
  rw [hx]
  generalize (n : ℚ) / d / u = x at *
  rw [← sub_mul, ← sub_mul, ← sub_mul, abs_mul, abs_mul, abs_mul, abs_of_pos hu]
  have tri : |(k : ℚ) - r| ≤ |(k : ℚ) - x| + |(r : ℚ) - x| := by
    have := abs_sub_le (k : ℚ) x r
    rwa [abs_sub_comm x (r : ℚ)] at this
  by_cases hk : k = (r : Int)
  · subst hk
    refine ⟨by push_cast; exact le_rfl, fun _ hne => absurd (by push_cast; rfl) hne⟩
  · have h1 : (1 : ℚ) ≤ |(k : ℚ) - r| := by
      have : (1 : Int) ≤ |k - (r : Int)| := Int.one_le_abs (sub_ne_zero.2 hk)
      exact_mod_cast this
    refine ⟨mul_le_mul_of_nonneg_right (by linarith) hu.le, fun heq _ => ?_⟩
    have heq' := mul_right_cancel₀ hu.ne' heq
    have hhalf : |(r : ℚ) - x| = 1 / 2 := le_antisymm h (by linarith)
    have he := hev hhalf
    refine ⟨(r / 2 : Nat), ?_, ?_⟩
    · have : (2 * ((r / 2 : Nat) : Int)) = (r : Int) := by omega
      rw [this]; push_cast; rfl
    · have : |(k : ℚ) - r| = 1 := le_antisymm (by linarith) h1
      rw [this, one_mul]

theorem fits_pos_eq {f : ℚ} (hf : 0 < f) (h : Fits f) : ∃ n d k : Nat, 0 < n ∧ 0 < d ∧ f = (n : ℚ) / d ∧ f = (k : ℚ) * (2 : ℚ) ^ lastPlace n d := by
  obtain ⟨⟨a1, a2⟩, a3⟩ := toNat_div hf
  have e := round64_of_fits h
  rw [round64_pos hf, roundPos_eq] at e
  exact ⟨_, _, _, a1, a2, a3.symm, e.symm⟩

/-- no number that fits is nearer -/
theorem roundPos_nearest {n d : Nat} (hn : 0 < n) (hd : 0 < d) {f : ℚ} (hf : 0 < f) (h : Fits f) :
    |roundPos n d - (n : ℚ) / d| ≤ |f - (n : ℚ) / d| ∧
    (|roundPos n d - (n : ℚ) / d| = |f - (n : ℚ) / d| → f ≠ roundPos n d →
      ∃ m : Int, roundPos n d = (2 * m : Int) * (2 : ℚ) ^ lastPlace n d ∧ |f - roundPos n d| = (2 : ℚ) ^ lastPlace n d) := by
  have two : (2 : ℚ) ≠ 0 := by norm_num
  obtain ⟨n', d', k, hn', hd', hfe, hfk⟩ := fits_pos_eq hf h
  have b := binade_spec hn hd
  have b' := binade_spec hn' hd'
  rw [← hfe] at b'
  by_cases hl : lastPlace n' d' = lastPlace n d
  · rw [hl] at hfk
    rw [hfk]
    exact_mod_cast roundPos_nearest_mul hd (k : Int)
  · -- a multiple of the last place lies strictly between
    have between : ∀ g : ℚ, |g - (n : ℚ) / d| ≤ |f - (n : ℚ) / d| → (∃ j : Int, g = (j : ℚ) * (2 : ℚ) ^ lastPlace n d) →
        (|g - (n : ℚ) / d| = |f - (n : ℚ) / d| → f = g) →
        |roundPos n d - (n : ℚ) / d| ≤ |f - (n : ℚ) / d| ∧
        (|roundPos n d - (n : ℚ) / d| = |f - (n : ℚ) / d| → f ≠ roundPos n d →
          ∃ m : Int, roundPos n d = (2 * m : Int) * (2 : ℚ) ^ lastPlace n d ∧ |f - roundPos n d| = (2 : ℚ) ^ lastPlace n d) := by
      rintro g hg ⟨j, hj⟩ hge
      have := roundPos_nearest_mul hd j (n := n)
      rw [← hj] at this
      refine ⟨this.1.trans hg, fun heq hne => ?_⟩
      have h1 : |g - (n : ℚ) / d| = |f - (n : ℚ) / d| := le_antisymm hg (heq ▸ this.1)
      rw [hge h1] at hne ⊢
      exact this.2 (heq.trans h1.symm) hne
    rcases lt_trichotomy (binade n' d') (binade n d) with hb | hb | hb
    · have hlp : lastPlace n d = binade n d - 52 := by
        unfold lastPlace at hl ⊢; omega
      have hfl : f < (2 : ℚ) ^ binade n d := b'.2.trans_le (zpow_le_zpow_right₀ (by norm_num) (by omega))
      refine between ((2 : ℚ) ^ binade n d) ?_ ⟨2 ^ 52, ?_⟩ ?_
      · rw [abs_of_nonpos (by linarith [b.1]), abs_of_nonpos (by linarith [b.1])]; linarith
      · rw [hlp]
        have : ((2 ^ 52 : Int) : ℚ) = (2 : ℚ) ^ (52 : Int) := by norm_num
        rw [this, ← zpow_add₀ two]; congr 1; ring
      · intro he
        rw [abs_of_nonpos (by linarith [b.1]), abs_of_nonpos (by linarith [b.1])] at he
        linarith
    · exact absurd (by unfold lastPlace; rw [hb]) hl
    · have hlp : lastPlace n d ≤ lastPlace n' d' := by unfold lastPlace; omega
      obtain ⟨j, hj⟩ := Int.eq_ofNat_of_zero_le (sub_nonneg.2 hlp)
      have hk : f = ((k * 2 ^ j : Int) : ℚ) * (2 : ℚ) ^ lastPlace n d := by
        rw [hfk]
        push_cast
        rw [mul_assoc, ← zpow_natCast, ← zpow_add₀ two]
        congr 2
        omega
      rw [hk]
      exact roundPos_nearest_mul hd _

/-- rounding is to the nearest number that fits; if two are equally near, to the one whose significand is even -/
theorem round64_nearest (q : ℚ) {f : ℚ} (h : Fits f) :
    |round64 q - q| ≤ |f - q| ∧
    (|round64 q - q| = |f - q| → f ≠ round64 q → ∃ m e : Int, round64 q = (2 * m : Int) * (2 : ℚ) ^ e ∧ |f - round64 q| = (2 : ℚ) ^ e) := by
  have pos : ∀ {q f : ℚ}, 0 < q → Fits f → |round64 q - q| ≤ |f - q| ∧
      (|round64 q - q| = |f - q| → f ≠ round64 q → ∃ m e : Int, round64 q = (2 * m : Int) * (2 : ℚ) ^ e ∧ |f - round64 q| = (2 : ℚ) ^ e) := by
    intro q f hq h
    obtain ⟨⟨a1, a2⟩, a3⟩ := toNat_div hq
    rw [round64_pos hq]
    rcases lt_or_ge 0 f with hf | hf
    · have := roundPos_nearest a1 a2 hf h
      rw [a3] at this
      exact ⟨this.1, fun he hn => (this.2 he hn).imp fun m hm => ⟨_, hm⟩⟩
    · have := roundPos_nearest_mul (n := q.num.toNat) a2 0
      rw [a3, Int.cast_zero, zero_mul, zero_sub, abs_neg, abs_of_pos hq] at this
      have hfq : |f - q| = q - f := by rw [abs_of_nonpos (by linarith)]; ring
      rw [hfq]
      refine ⟨this.1.trans (by linarith), fun he hn => ?_⟩
      have h0 : f = 0 := le_antisymm hf (by linarith [this.1])
      subst h0
      rw [sub_zero] at he
      exact (this.2 he hn).imp fun m hm => ⟨_, hm⟩
  rcases lt_trichotomy q 0 with hq | rfl | hq
  · have hf : Fits (-f) := by
      obtain ⟨m, e, hm, he, rfl⟩ := h
      exact ⟨-m, e, by simpa using hm, he, by push_cast; ring⟩
    have := pos (neg_pos.2 hq) hf
    have e1 : ∀ x y : ℚ, |-x - -y| = |x - y| := fun x y => by rw [← abs_neg]; congr 1; ring
    rw [round64_neg, e1, e1] at this
    refine ⟨this.1, fun he hn => ?_⟩
    obtain ⟨m, e, hm, hd⟩ := this.2 he (fun hc => hn (neg_inj.1 hc))
    rw [e1] at hd
    exact ⟨-m, e, by rw [← neg_neg (round64 q), hm]; push_cast; ring, hd⟩
  · rw [round64_zero, sub_zero, abs_zero, sub_zero]
    exact ⟨abs_nonneg f, fun he hn => absurd (abs_eq_zero.1 he.symm) hn⟩
  · exact pos hq h

/-- the relative error is at most `2 ^ -53` (and the error at most `2 ^ -1075`, if that is more) -/
theorem round64_err (q : ℚ) : |round64 q - q| ≤ max (|q| * (2 : ℚ) ^ (-53 : Int)) ((2 : ℚ) ^ (-1075 : Int)) := by
  have two : (2 : ℚ) ≠ 0 := by norm_num
  have pos : ∀ {q : ℚ}, 0 < q → |round64 q - q| ≤ max (|q| * (2 : ℚ) ^ (-53 : Int)) ((2 : ℚ) ^ (-1075 : Int)) := by
    intro q hq
    obtain ⟨⟨a1, a2⟩, a3⟩ := toNat_div hq
    rw [round64_pos hq]
    have h := roundPos_err a2 (n := q.num.toNat)
    have hb := (binade_spec a1 a2).1
    rw [a3] at h hb
    refine h.trans ?_
    have hhalf : ∀ e : Int, (2 : ℚ) ^ e / 2 = (2 : ℚ) ^ (e - 1) := fun e => by rw [zpow_sub₀ two, zpow_one]
    rw [hhalf]
    rcases le_total (binade q.num.toNat q.den - 52) (-1074) with hc | hc
    · refine le_max_of_le_right (le_of_eq ?_)
      unfold lastPlace
      rw [max_eq_right hc]; norm_num
    · refine le_max_of_le_left ?_
      unfold lastPlace
      rw [max_eq_left hc, abs_of_pos hq]
      calc (2 : ℚ) ^ (binade q.num.toNat q.den - 52 - 1) = (2 : ℚ) ^ binade q.num.toNat q.den * (2 : ℚ) ^ (-53 : Int) := by
            rw [← zpow_add₀ two]; congr 1; omega
        _ ≤ _ := mul_le_mul_of_nonneg_right hb (by positivity)
  rcases lt_trichotomy q 0 with hq | rfl | hq
  · have := pos (neg_pos.2 hq)
    rw [round64_neg, abs_neg] at this
    have e1 : |-round64 q - -q| = |round64 q - q| := by rw [← abs_neg]; congr 1; ring
    rwa [e1] at this
  · rw [round64_zero, sub_zero, abs_zero]; positivity
  · exact pos hq

end RSE
