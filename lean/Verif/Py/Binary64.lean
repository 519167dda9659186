import Verif.Py.Basic
import Mathlib.Algebra.Order.Field.Rat
import Mathlib.Algebra.Order.Field.Power
import Mathlib.Data.Rat.Lemmas
import Mathlib.Tactic.Linarith
import Mathlib.Tactic.Ring
import Mathlib.Tactic.FieldSimp
import Mathlib.Tactic.Positivity

/-!
# Python floats: IEEE 754 binary64 with rounding to nearest, ties to even

Numbers are rationals with a significand of 53 bits and exponent at least -1074 (so subnormal numbers are included).  There is no largest number, no
infinity and no NaN: the model is that of computations without overflow.  There is one zero (Python's `-0.0 == 0.0`).  Every operation is the exact one
followed by rounding; `math.fsum` is the exact sum, rounded once.
-/

namespace RSE

/-! ### Rounding -/

/-- `n / d` rounded to an integer, ties to even -/
def roundDiv (n d : Nat) : Nat := if 2 * (n % d) < d then n / d else if d < 2 * (n % d) then n / d + 1 else n / d + (n / d) % 2

/-- numerator and denominator of `(n / d) / 2 ^ e` -/
def descale (n d : Nat) : Int → Nat × Nat
  | .ofNat k => (n, d * 2 ^ k)
  | .negSucc k => (n * 2 ^ (k + 1), d)

/-- `m * 2 ^ e` -/
def scale (m : Nat) : Int → ℚ
  | .ofNat k => ((m * 2 ^ k : Nat) : ℚ)
  | .negSucc k => mkRat m (2 ^ (k + 1))

/-- the largest `L` with `2 ^ L ≤ n / d` -/
def binade (n d : Nat) : Int :=
  let a := (Nat.log2 n : Int) - (Nat.log2 d : Int)
  if (descale n d a).2 ≤ (descale n d a).1 then a else a - 1

/-- the exponent of the last place of `n / d` -/
def lastPlace (n d : Nat) : Int := max (binade n d - 52) (-1074)

/-- rounding of a positive number -/
def roundPos (n d : Nat) : ℚ := scale (roundDiv (descale n d (lastPlace n d)).1 (descale n d (lastPlace n d)).2) (lastPlace n d)

/-- rounding to binary64 -/
def round64 (q : ℚ) : ℚ := if q.num = 0 then 0 else if 0 < q.num then roundPos q.num.toNat q.den else -(roundPos (-q.num).toNat q.den)

theorem roundDiv_mono {n d n' d' : Nat} (hd : 0 < d) (hd' : 0 < d') (h : n * d' ≤ n' * d) : roundDiv n d ≤ roundDiv n' d' := by
  have e1 := Nat.div_add_mod n d
  have e2 := Nat.div_add_mod n' d'
  have l1 := Nat.mod_lt n hd
  have l2 := Nat.mod_lt n' hd'
  have hm : n / d ≤ n' / d' := by
    rw [Nat.le_div_iff_mul_le hd']
    have : n / d * d ≤ n := Nat.div_mul_le_self n d
    by_contra hlt
    push Not at hlt
    have h1 : n' * d < (n / d * d') * d := Nat.mul_lt_mul_of_pos_right hlt hd
    have h2 : (n / d * d') * d = (n / d * d) * d' := by ring
    have h3 : (n / d * d) * d' ≤ n * d' := Nat.mul_le_mul_right _ this
    omega
  have hup : ∀ a b, roundDiv a b ≤ a / b + 1 := by
    intro a b; unfold roundDiv; split
    · omega
    · split
      · omega
      · have := Nat.mod_lt (a / b) (by norm_num : 0 < 2); omega
  have hlo : ∀ a b, a / b ≤ roundDiv a b := by
    intro a b; unfold roundDiv; split
    · omega
    · split <;> omega
  rcases Nat.lt_or_ge (n / d) (n' / d') with hlt | hge
  · exact (hup n d).trans (hlt.trans_le (hlo n' d'))
  · have hq : n / d = n' / d' := le_antisymm hm hge
    have hr : (n % d) * d' ≤ (n' % d') * d := by
      have a1 : n * d' = d * (n / d) * d' + (n % d) * d' := by rw [← Nat.add_mul, e1]
      have a2 : n' * d = d' * (n' / d') * d + (n' % d') * d := by rw [← Nat.add_mul, e2]
      have a3 : d * (n / d) * d' = d' * (n' / d') * d := by rw [hq]; ring
      omega
    have hcmp : d ≤ 2 * (n % d) → d' ≤ 2 * (n' % d') := by
      intro hc
      by_contra hlt
      push Not at hlt
      have b1 : d * d' ≤ 2 * ((n % d) * d') := by
        calc d * d' ≤ (2 * (n % d)) * d' := Nat.mul_le_mul_right _ hc
          _ = _ := by ring
      have b2 : 2 * ((n' % d') * d) < d' * d := by
        calc 2 * ((n' % d') * d) = (2 * (n' % d')) * d := by ring
          _ < d' * d := Nat.mul_lt_mul_of_pos_right hlt hd
      have : d' * d = d * d' := Nat.mul_comm _ _
      omega
    have hcmp' : d < 2 * (n % d) → d' < 2 * (n' % d') := by
      intro hc
      by_contra hlt
      push Not at hlt
      have b1 : d * d' < 2 * ((n % d) * d') := by
        calc d * d' < (2 * (n % d)) * d' := Nat.mul_lt_mul_of_pos_right hc hd'
          _ = _ := by ring
      have b2 : 2 * ((n' % d') * d) ≤ d' * d := by
        calc 2 * ((n' % d') * d) = (2 * (n' % d')) * d := by ring
          _ ≤ d' * d := Nat.mul_le_mul_right _ hlt
      have : d' * d = d * d' := Nat.mul_comm _ _
      omega
    rcases Nat.lt_trichotomy (2 * (n % d)) d with h1 | h1 | h1
    · have : roundDiv n d = n / d := if_pos h1
      rw [this, hq]; exact hlo _ _
    · have g1 := hcmp h1.ge
      have : roundDiv n d = n / d + (n / d) % 2 := by unfold roundDiv; rw [if_neg (by omega), if_neg (by omega)]
      rw [this, hq]
      unfold roundDiv
      rw [if_neg (by omega)]
      split
      · have := Nat.mod_lt (n' / d') (by norm_num : 0 < 2); omega
      · exact le_rfl
    · have g1 := hcmp' h1
      have e3 : roundDiv n d = n / d + 1 := by unfold roundDiv; rw [if_neg (by omega), if_pos h1]
      have e4 : roundDiv n' d' = n' / d' + 1 := by unfold roundDiv; rw [if_neg (by omega), if_pos g1]
      rw [e3, e4, hq]

/-- whole numbers are not changed -/
theorem roundDiv_mul (m : Nat) {d : Nat} (hd : 0 < d) : roundDiv (m * d) d = m := by
  unfold roundDiv
  rw [Nat.mul_mod_left, if_pos (by omega), Nat.mul_div_cancel _ hd]

theorem roundDiv_of_eq {n d m : Nat} (hd : 0 < d) (h : n = m * d) : roundDiv n d = m := by rw [h]; exact roundDiv_mul m hd

theorem scale_eq (m : Nat) (e : Int) : scale m e = (m : ℚ) * (2 : ℚ) ^ e := by
  cases e with
  | ofNat k => simp [scale]
  | negSucc k => rw [scale, Rat.mkRat_eq_div, zpow_negSucc]; push_cast; rw [div_eq_mul_inv]

theorem descale_pos (n : Nat) {d : Nat} (hd : 0 < d) (e : Int) : 0 < (descale n d e).2 := by
  cases e with
  | ofNat k => exact Nat.mul_pos hd (by positivity)
  | negSucc k => exact hd

theorem descale_eq (n : Nat) {d : Nat} (hd : 0 < d) (e : Int) :
    ((descale n d e).1 : ℚ) / ((descale n d e).2 : ℚ) = ((n : ℚ) / (d : ℚ)) / (2 : ℚ) ^ e := by
  have hd' : (d : ℚ) ≠ 0 := by positivity
  cases e with
  | ofNat k => simp only [descale]; push_cast; rw [Int.ofNat_eq_natCast, zpow_natCast, div_div]
  | negSucc k => simp only [descale, zpow_negSucc]; push_cast; rw [div_inv_eq_mul]; field_simp

theorem descale_le {n d : Nat} (hd : 0 < d) (e : Int) (m : Nat) :
    m * (descale n d e).2 ≤ (descale n d e).1 ↔ (m : ℚ) * (2 : ℚ) ^ e ≤ (n : ℚ) / (d : ℚ) := by
  have h1 : (0 : ℚ) < ((descale n d e).2 : ℚ) := by exact_mod_cast descale_pos n hd e
  have h2 := descale_eq n hd e
  have h3 : (0 : ℚ) < (2 : ℚ) ^ e := by positivity
  rw [← le_div_iff₀ h3, ← h2, le_div_iff₀ h1]
  exact_mod_cast Iff.rfl

/-- `2 ^ L ≤ q < 2 ^ (L + 1)` -/
theorem binade_spec {n d : Nat} (hn : 0 < n) (hd : 0 < d) :
    (2 : ℚ) ^ binade n d ≤ (n : ℚ) / (d : ℚ) ∧ (n : ℚ) / (d : ℚ) < (2 : ℚ) ^ (binade n d + 1) := by
  have hnq : (0 : ℚ) < (n : ℚ) := by exact_mod_cast hn
  have hdq : (0 : ℚ) < (d : ℚ) := by exact_mod_cast hd
  have n1 : ((2 : ℚ) ^ ((Nat.log2 n : Nat) : Int)) ≤ (n : ℚ) := by
    rw [zpow_natCast]; exact_mod_cast Nat.log2_self_le hn.ne'
  have n2 : (n : ℚ) < (2 : ℚ) ^ ((Nat.log2 n : Int) + 1) := by
    have := Nat.lt_log2_self (n := n)
    have h : ((Nat.log2 n : Int) + 1) = ((Nat.log2 n + 1 : Nat) : Int) := by push_cast; rfl
    rw [h, zpow_natCast]; exact_mod_cast this
  have d1 : ((2 : ℚ) ^ ((Nat.log2 d : Nat) : Int)) ≤ (d : ℚ) := by
    rw [zpow_natCast]; exact_mod_cast Nat.log2_self_le hd.ne'
  have d2 : (d : ℚ) < (2 : ℚ) ^ ((Nat.log2 d : Int) + 1) := by
    have := Nat.lt_log2_self (n := d)
    have h : ((Nat.log2 d : Int) + 1) = ((Nat.log2 d + 1 : Nat) : Int) := by push_cast; rfl
    rw [h, zpow_natCast]; exact_mod_cast this
  have two : (2 : ℚ) ≠ 0 := by norm_num
  have hup : (n : ℚ) / (d : ℚ) < (2 : ℚ) ^ ((Nat.log2 n : Int) - (Nat.log2 d : Int) + 1) := by
    rw [div_lt_iff₀ hdq]
    calc (n : ℚ) < (2 : ℚ) ^ ((Nat.log2 n : Int) + 1) := n2
      _ = (2 : ℚ) ^ ((Nat.log2 n : Int) - (Nat.log2 d : Int) + 1) * (2 : ℚ) ^ ((Nat.log2 d : Nat) : Int) := by rw [← zpow_add₀ two]; congr 1; ring
      _ ≤ _ := mul_le_mul_of_nonneg_left d1 (by positivity)
  have hlo : (2 : ℚ) ^ ((Nat.log2 n : Int) - (Nat.log2 d : Int) - 1) ≤ (n : ℚ) / (d : ℚ) := by
    rw [le_div_iff₀ hdq]
    calc (2 : ℚ) ^ ((Nat.log2 n : Int) - (Nat.log2 d : Int) - 1) * (d : ℚ)
        ≤ (2 : ℚ) ^ ((Nat.log2 n : Int) - (Nat.log2 d : Int) - 1) * (2 : ℚ) ^ ((Nat.log2 d : Int) + 1) := mul_le_mul_of_nonneg_left d2.le (by positivity)
      _ = (2 : ℚ) ^ ((Nat.log2 n : Nat) : Int) := by rw [← zpow_add₀ two]; congr 1; ring
      _ ≤ _ := n1
  have hmid := descale_le (n := n) hd ((Nat.log2 n : Int) - (Nat.log2 d : Int)) 1
  rw [one_mul, Nat.cast_one, one_mul] at hmid
  unfold binade
  simp only
  split
  · rename_i h
    exact ⟨hmid.1 h, hup⟩
  · rename_i h
    refine ⟨hlo, ?_⟩
    rw [sub_add_cancel]
    exact not_le.1 (fun hc => h (hmid.2 hc))

theorem roundPos_eq (n d : Nat) : roundPos n d = (roundDiv (descale n d (lastPlace n d)).1 (descale n d (lastPlace n d)).2 : ℚ) * (2 : ℚ) ^ lastPlace n d :=
  scale_eq _ _

theorem lt_of_zpow {a b : Int} {x : ℚ} (h1 : (2 : ℚ) ^ a ≤ x) (h2 : x < (2 : ℚ) ^ b) : a < b :=
  (zpow_lt_zpow_iff_right₀ (by norm_num : (1 : ℚ) < 2)).1 (h1.trans_lt h2)

theorem binade_mono {n d n' d' : Nat} (hn : 0 < n) (hd : 0 < d) (hn' : 0 < n') (hd' : 0 < d') (h : (n : ℚ) / d ≤ (n' : ℚ) / d') :
    binade n d ≤ binade n' d' := by
  have h1 := (binade_spec hn hd).1
  have h2 := (binade_spec hn' hd').2
  have := lt_of_zpow (h1.trans h) h2
  omega

theorem roundDiv_le_of {n d m : Nat} (hd : 0 < d) (h : n ≤ m * d) : roundDiv n d ≤ m := by
  have := roundDiv_mono (n := n) (d := d) (n' := m * d) (d' := d) hd hd (Nat.mul_le_mul_right _ h)
  rwa [roundDiv_mul m hd] at this

theorem le_roundDiv_of {n d m : Nat} (hd : 0 < d) (h : m * d ≤ n) : m ≤ roundDiv n d := by
  have := roundDiv_mono (n := m * d) (d := d) (n' := n) (d' := d) hd hd (Nat.mul_le_mul_right _ h)
  rwa [roundDiv_mul m hd] at this

/-- the rounded significand has at most 53 bits -/
theorem roundDiv_lastPlace_le {n d : Nat} (hn : 0 < n) (hd : 0 < d) :
    roundDiv (descale n d (lastPlace n d)).1 (descale n d (lastPlace n d)).2 ≤ 2 ^ 53 := by
  refine roundDiv_le_of (descale_pos n hd _) ?_
  have hx := (binade_spec hn hd).2
  have h1 : (0 : ℚ) < ((descale n d (lastPlace n d)).2 : ℚ) := by exact_mod_cast descale_pos n hd _
  have h2 := descale_eq n hd (lastPlace n d)
  have h3 : (0 : ℚ) < (2 : ℚ) ^ lastPlace n d := by positivity
  have h4 : (n : ℚ) / (d : ℚ) ≤ (2 : ℚ) ^ (53 : Int) * (2 : ℚ) ^ lastPlace n d := by
    rw [← zpow_add₀ (by norm_num : (2 : ℚ) ≠ 0)]
    refine hx.le.trans (zpow_le_zpow_right₀ (by norm_num) ?_)
    have : binade n d - 52 ≤ lastPlace n d := le_max_left _ _
    omega
  rw [← div_le_iff₀ h3, ← h2, div_le_iff₀ h1] at h4
  have h5 : (2 : ℚ) ^ (53 : Int) = ((2 ^ 53 : Nat) : ℚ) := by norm_num
  rw [h5] at h4
  exact_mod_cast h4

theorem roundPos_mono {n d n' d' : Nat} (hn : 0 < n) (hd : 0 < d) (hn' : 0 < n') (hd' : 0 < d') (h : (n : ℚ) / d ≤ (n' : ℚ) / d') :
    roundPos n d ≤ roundPos n' d' := by
  rw [roundPos_eq, roundPos_eq]
  have hb := binade_mono hn hd hn' hd' h
  have hle : lastPlace n d ≤ lastPlace n' d' := by unfold lastPlace; omega
  rcases hle.lt_or_eq with hlt | heq
  · -- different exponents: a power of two lies in between
    have hbig : binade n' d' - 52 = lastPlace n' d' := by
      unfold lastPlace at hlt ⊢
      have : (-1074 : Int) ≤ max (binade n d - 52) (-1074) := le_max_right _ _
      omega
    have h1 : (roundDiv (descale n d (lastPlace n d)).1 (descale n d (lastPlace n d)).2 : ℚ) * (2 : ℚ) ^ lastPlace n d ≤ (2 : ℚ) ^ (lastPlace n d + 53) := by
      rw [add_comm, zpow_add₀ (by norm_num : (2 : ℚ) ≠ 0)]
      refine mul_le_mul_of_nonneg_right ?_ (by positivity)
      have := roundDiv_lastPlace_le hn hd
      have h5 : (2 : ℚ) ^ (53 : Int) = ((2 ^ 53 : Nat) : ℚ) := by norm_num
      rw [h5]; exact_mod_cast this
    have h2 : (2 : ℚ) ^ (lastPlace n' d' + 52) ≤
        (roundDiv (descale n' d' (lastPlace n' d')).1 (descale n' d' (lastPlace n' d')).2 : ℚ) * (2 : ℚ) ^ lastPlace n' d' := by
      rw [add_comm, zpow_add₀ (by norm_num : (2 : ℚ) ≠ 0)]
      refine mul_le_mul_of_nonneg_right ?_ (by positivity)
      have h5 : (2 : ℚ) ^ (52 : Int) = ((2 ^ 52 : Nat) : ℚ) := by norm_num
      rw [h5]
      have : 2 ^ 52 ≤ roundDiv (descale n' d' (lastPlace n' d')).1 (descale n' d' (lastPlace n' d')).2 := by
        refine le_roundDiv_of (descale_pos n' hd' _) ((descale_le hd' _ _).2 ?_)
        rw [← h5, ← zpow_add₀ (by norm_num : (2 : ℚ) ≠ 0)]
        have : (52 : Int) + lastPlace n' d' = binade n' d' := by omega
        rw [this]
        exact (binade_spec hn' hd').1
      exact_mod_cast this
    refine h1.trans (le_trans (zpow_le_zpow_right₀ (by norm_num) ?_) h2)
    omega
  · rw [heq]
    refine mul_le_mul_of_nonneg_right ?_ (by positivity)
    have : roundDiv (descale n d (lastPlace n' d')).1 (descale n d (lastPlace n' d')).2 ≤
        roundDiv (descale n' d' (lastPlace n' d')).1 (descale n' d' (lastPlace n' d')).2 := by
      refine roundDiv_mono (descale_pos n hd _) (descale_pos n' hd' _) ?_
      have h1 : (0 : ℚ) < ((descale n d (lastPlace n' d')).2 : ℚ) := by exact_mod_cast descale_pos n hd _
      have h2 : (0 : ℚ) < ((descale n' d' (lastPlace n' d')).2 : ℚ) := by exact_mod_cast descale_pos n' hd' _
      have h3 : ((descale n d (lastPlace n' d')).1 : ℚ) / ((descale n d (lastPlace n' d')).2 : ℚ) ≤
          ((descale n' d' (lastPlace n' d')).1 : ℚ) / ((descale n' d' (lastPlace n' d')).2 : ℚ) := by
        rw [descale_eq n hd, descale_eq n' hd']
        exact div_le_div_of_nonneg_right h (by positivity)
      rw [div_le_div_iff₀ h1 h2] at h3
      exact_mod_cast h3
    exact_mod_cast this

theorem roundPos_nonneg (n d : Nat) : 0 ≤ roundPos n d := by rw [roundPos_eq]; positivity

/-- a number with 53 bits is not changed -/
theorem roundPos_exact {n d : Nat} (hn : 0 < n) (hd : 0 < d) {m : Nat} {e : Int} (hm : m ≤ 2 ^ 53) (he : -1074 ≤ e)
    (h : (n : ℚ) / d = (m : ℚ) * (2 : ℚ) ^ e) : roundPos n d = (n : ℚ) / d := by
  have two : (2 : ℚ) ≠ 0 := by norm_num
  have key : ∀ (m : Nat) (e : Int), lastPlace n d ≤ e → (n : ℚ) / d = (m : ℚ) * (2 : ℚ) ^ e → roundPos n d = (n : ℚ) / d := by
    intro m e hle h
    have hdp := descale_pos n hd (lastPlace n d)
    have h1 : (0 : ℚ) < ((descale n d (lastPlace n d)).2 : ℚ) := by exact_mod_cast hdp
    have h2 := descale_eq n hd (lastPlace n d)
    obtain ⟨j, hj⟩ := Int.eq_ofNat_of_zero_le (sub_nonneg.2 hle)
    have h3 : ((n : ℚ) / d) / (2 : ℚ) ^ lastPlace n d = ((m * 2 ^ j : Nat) : ℚ) := by
      rw [h, div_eq_iff (by positivity)]
      push_cast
      rw [mul_assoc]
      congr 1
      rw [← zpow_natCast, ← zpow_add₀ two]
      congr 1
      have : (j : Int) = e - lastPlace n d := hj.symm
      omega
    rw [roundPos_eq]
    have h4 : (descale n d (lastPlace n d)).1 = (m * 2 ^ j) * (descale n d (lastPlace n d)).2 := by
      rw [h3, div_eq_iff h1.ne'] at h2
      exact_mod_cast h2
    rw [roundDiv_of_eq hdp h4, ← h3]
    field_simp
  have hpos : (0 : ℚ) < (n : ℚ) / d := by
    have : (0 : ℚ) < (n : ℚ) := by exact_mod_cast hn
    have : (0 : ℚ) < (d : ℚ) := by exact_mod_cast hd
    positivity
  have hm0 : 0 < m := by
    rcases Nat.eq_zero_or_pos m with rfl | h0
    · rw [h] at hpos; simp at hpos
    · exact h0
  rcases Nat.lt_or_ge m (2 ^ 53) with hlt | hge
  · refine key m e ?_ h
    have hlo := (binade_spec hn hd).1
    have hup : (n : ℚ) / d < (2 : ℚ) ^ (e + 53) := by
      rw [h, add_comm, zpow_add₀ two]
      refine mul_lt_mul_of_pos_right ?_ (by positivity)
      have h5 : (2 : ℚ) ^ (53 : Int) = ((2 ^ 53 : Nat) : ℚ) := by norm_num
      rw [h5]; exact_mod_cast hlt
    have := lt_of_zpow hlo hup
    unfold lastPlace; omega
  · have hme : m = 2 ^ 53 := le_antisymm hm hge
    have h' : (n : ℚ) / d = ((2 ^ 52 : Nat) : ℚ) * (2 : ℚ) ^ (e + 1) := by
      rw [h, hme, zpow_add₀ two]; push_cast; ring
    refine key (2 ^ 52) (e + 1) ?_ h'
    have hlo := (binade_spec hn hd).1
    have hup : (n : ℚ) / d < (2 : ℚ) ^ (e + 54) := by
      rw [h', show e + 54 = 53 + (e + 1) by ring, zpow_add₀ two 53]
      refine mul_lt_mul_of_pos_right ?_ (by positivity)
      norm_num
    have := lt_of_zpow hlo hup
    unfold lastPlace; omega

/-! ### Rounding of any number -/

theorem round64_zero : round64 0 = 0 := rfl

theorem round64_neg (q : ℚ) : round64 (-q) = -round64 q := by
  unfold round64
  simp only [Rat.neg_num, Rat.neg_den, neg_neg, neg_eq_zero, Left.neg_pos_iff]
  rcases lt_trichotomy q.num 0 with h | h | h
  · rw [if_neg h.ne, if_neg h.ne, if_pos h, if_neg h.not_gt, neg_neg]
  · rw [if_pos h, if_pos h, neg_zero]
  · rw [if_neg h.ne', if_neg h.ne', if_neg h.not_gt, if_pos h]

theorem toNat_div {q : ℚ} (h : 0 < q) : (0 < q.num.toNat ∧ 0 < q.den) ∧ ((q.num.toNat : ℚ) / (q.den : ℚ)) = q := by
  have hn := Rat.num_pos.2 h
  refine ⟨⟨by omega, q.den_pos⟩, ?_⟩
  have h1 : ((q.num.toNat : Int) : ℚ) = (q.num : ℚ) := by rw [Int.toNat_of_nonneg hn.le]
  have h2 : (q.num.toNat : ℚ) = (q.num : ℚ) := by exact_mod_cast h1
  rw [h2, Rat.num_div_den]

theorem round64_pos {q : ℚ} (h : 0 < q) : round64 q = roundPos q.num.toNat q.den := by
  have hn := Rat.num_pos.2 h
  unfold round64
  rw [if_neg hn.ne', if_pos hn]

theorem round64_nonneg {q : ℚ} (h : 0 ≤ q) : 0 ≤ round64 q := by
  rcases h.eq_or_lt with rfl | h
  · exact round64_zero.ge
  · rw [round64_pos h]; exact roundPos_nonneg _ _

/-- rounding preserves the order -/
theorem round64_mono {p q : ℚ} (h : p ≤ q) : round64 p ≤ round64 q := by
  have pos : ∀ {p q : ℚ}, 0 < p → p ≤ q → round64 p ≤ round64 q := by
    intro p q hp h
    have hq := hp.trans_le h
    obtain ⟨⟨a1, a2⟩, a3⟩ := toNat_div hp
    obtain ⟨⟨b1, b2⟩, b3⟩ := toNat_div hq
    rw [round64_pos hp, round64_pos hq]
    exact roundPos_mono a1 a2 b1 b2 (by rw [a3, b3]; exact h)
  rcases lt_or_ge 0 p with hp | hp
  · exact pos hp h
  · rcases lt_or_ge q 0 with hq | hq
    · have := pos (neg_pos.2 hq) (neg_le_neg h)
      rw [round64_neg, round64_neg] at this
      exact neg_le_neg_iff.1 this
    · have h1 := round64_nonneg (neg_nonneg.2 hp)
      rw [round64_neg] at h1
      exact (neg_nonneg.1 h1).trans (round64_nonneg hq)

/-- a number that fits into 53 bits -/
def Fits (q : ℚ) : Prop := ∃ (m : Int) (e : Int), m.natAbs ≤ 2 ^ 53 ∧ -1074 ≤ e ∧ q = (m : ℚ) * (2 : ℚ) ^ e

/-- numbers that fit are not changed -/
theorem round64_of_fits {q : ℚ} (h : Fits q) : round64 q = q := by
  have pos : ∀ {q : ℚ}, 0 < q → Fits q → round64 q = q := by
    rintro q hq ⟨m, e, hm, he, hqe⟩
    obtain ⟨⟨a1, a2⟩, a3⟩ := toNat_div hq
    have hm0 : 0 < m := by
      by_contra hc
      have : (m : ℚ) ≤ 0 := by exact_mod_cast not_lt.1 hc
      have := mul_nonpos_of_nonpos_of_nonneg this (by positivity : (0 : ℚ) ≤ (2 : ℚ) ^ e)
      rw [← hqe] at this
      exact absurd hq (not_lt.2 this)
    have hmn : ((m.natAbs : Nat) : ℚ) = (m : ℚ) := by
      rw [Nat.cast_natAbs, abs_of_pos hm0]
    rw [round64_pos hq, roundPos_exact a1 a2 hm he (by rw [a3, hmn, hqe]), a3]
  rcases lt_trichotomy q 0 with hq | rfl | hq
  · have := pos (neg_pos.2 hq) (by
      obtain ⟨m, e, hm, he, rfl⟩ := h
      exact ⟨-m, e, by simpa using hm, he, by push_cast; ring⟩)
    rw [round64_neg] at this
    exact neg_inj.1 this
  · exact round64_zero
  · exact pos hq h

/-- the result of rounding fits -/
theorem fits_round64 (q : ℚ) : Fits (round64 q) := by
  have pos : ∀ {q : ℚ}, 0 < q → Fits (round64 q) := by
    intro q hq
    obtain ⟨⟨a1, a2⟩, -⟩ := toNat_div hq
    rw [round64_pos hq, roundPos_eq]
    refine ⟨(roundDiv (descale q.num.toNat q.den (lastPlace q.num.toNat q.den)).1 (descale q.num.toNat q.den (lastPlace q.num.toNat q.den)).2 : Nat), _, ?_,
      le_max_right _ _, by push_cast; rfl⟩
    rw [Int.natAbs_natCast]
    exact roundDiv_lastPlace_le a1 a2
  rcases lt_trichotomy q 0 with hq | rfl | hq
  · obtain ⟨m, e, hm, he, h⟩ := pos (neg_pos.2 hq)
    rw [round64_neg] at h
    exact ⟨-m, e, by simpa using hm, he, by rw [← neg_neg (round64 q), h]; push_cast; ring⟩
  · exact ⟨0, 0, by simp, by norm_num, by simp [round64_zero]⟩
  · exact pos hq

theorem round64_idem (q : ℚ) : round64 (round64 q) = round64 q := round64_of_fits (fits_round64 q)

/-! ### The number type -/

/-- a Python float -/
def B64 : Type := { q : ℚ // round64 q = q }

namespace B64

/-- the float nearest to a number -/
def of (q : ℚ) : B64 := ⟨round64 q, round64_idem q⟩

instance : LinearOrder B64 := inferInstanceAs (LinearOrder { q : ℚ // round64 q = q })
instance : Zero B64 := ⟨⟨0, round64_zero⟩⟩
instance : One B64 := ⟨of 1⟩
instance : Add B64 := ⟨fun a b => of (a.1 + b.1)⟩
instance : Sub B64 := ⟨fun a b => of (a.1 - b.1)⟩
instance : Mul B64 := ⟨fun a b => of (a.1 * b.1)⟩
instance : Div B64 := ⟨fun a b => of (a.1 / b.1)⟩
instance : Neg B64 := ⟨fun a => ⟨-a.1, by rw [round64_neg, a.2]⟩⟩
instance : NatCast B64 := ⟨fun n => of n⟩
instance : FSum B64 := ⟨fun l => of (l.map (fun a : B64 => a.1)).sum⟩
instance : Repr B64 := ⟨fun a n => reprPrec a.1 n⟩

end B64

end RSE
