import Verif.Model.Helper
import Mathlib.Algebra.Order.Field.Basic
import Mathlib.Tactic.Linarith
import Mathlib.Tactic.FieldSimp
import Mathlib.Tactic.Ring
import Mathlib.Tactic.Positivity
import Mathlib.Tactic.GCongr

/-! Arithmetic facts about the reward formulas, over ordered fields. -/

set_option linter.unusedSectionVars false

namespace RSE
variable {K : Type} [Field K] [LinearOrder K] [IsStrictOrderedRing K]

/-- the bracket of Cardano's formula -/
def cardanoBracket (beta a0 p s : K) : K := s + (p * a0 * ((s - p * (1 - s / beta)) / beta))

theorem cardanoBracket_eq (beta a0 p s : K) (hb : 0 < beta) :
    cardanoBracket beta a0 p s = s + a0 * (p * (s * (1 + p / beta) - p) / beta) := by
  unfold cardanoBracket; field_simp; ring

theorem cardanoBracket_nonneg {beta a0 p s : K} (hb : 0 < beta) (ha : 0 ≤ a0) (hp : 0 ≤ p) (hps : p ≤ s) :
    0 ≤ cardanoBracket beta a0 p s := by
  unfold cardanoBracket
  have hs : 0 ≤ s := hp.trans hps
  have h1 : 0 ≤ s - p * (1 - s / beta) := by
    have : 0 ≤ p * (s / beta) := by positivity
    nlinarith
  have : 0 ≤ p * a0 * ((s - p * (1 - s / beta)) / beta) := by positivity
  linarith

theorem cardanoBracket_le {beta a0 p s : K} (hb : 0 < beta) (ha : 0 ≤ a0) (hp : 0 ≤ p) (hpb : p ≤ beta)
    (hps : p ≤ s) (hsb : s ≤ beta) : cardanoBracket beta a0 p s ≤ (1 + a0) * s := by
  unfold cardanoBracket
  have hs : 0 ≤ s := hp.trans hps
  have h1 : s / beta ≤ 1 := (div_le_one hb).2 hsb
  have h2 : s - p * (1 - s / beta) ≤ s := by nlinarith
  have h3 : (s - p * (1 - s / beta)) / beta ≤ s / beta := by gcongr
  have h4 : p * a0 * ((s - p * (1 - s / beta)) / beta) ≤ p * a0 * (s / beta) := by gcongr
  have h5 : p * a0 * (s / beta) ≤ beta * a0 * (s / beta) := by gcongr
  have h6 : beta * a0 * (s / beta) = a0 * s := by field_simp
  linarith

theorem cardanoBracket_mono {beta a0 p s s' : K} (hb : 0 < beta) (ha : 0 ≤ a0) (hp : 0 ≤ p) (hss : s ≤ s') :
    cardanoBracket beta a0 p s ≤ cardanoBracket beta a0 p s' := by
  rw [cardanoBracket_eq _ _ _ _ hb, cardanoBracket_eq _ _ _ _ hb]
  gcongr

theorem cardanoBracket_sat {beta a0 p : K} (hb : 0 < beta) : cardanoBracket beta a0 p beta = beta + a0 * p := by
  unfold cardanoBracket; field_simp; ring

theorem reward_cardano {rs : RS K} (h : rs.scheme = .cardano) (pledge stake : K) :
    rs.reward pledge stake = cardanoBracket rs.beta rs.a0 (min pledge rs.beta) (min stake rs.beta) / (1 + rs.a0) := by
  unfold RS.reward cardanoBracket totalRewards; rw [h]; simp only; ring

theorem reward_simplified {rs : RS K} (h : rs.scheme = .simplified) (pledge stake : K) :
    rs.reward pledge stake = min stake rs.beta * (1 + rs.a0 * min pledge rs.beta / rs.beta) / (1 + rs.a0) := by
  unfold RS.reward totalRewards; rw [h]; simp only; ring

theorem reward_flat {rs : RS K} (h : rs.scheme = .flat) (pledge stake : K) :
    rs.reward pledge stake = (min stake rs.beta + rs.a0 * min pledge rs.beta) / (1 + rs.a0) := by
  unfold RS.reward totalRewards; rw [h]; simp only; ring

theorem reward_cip50 {rs : RS K} (h : rs.scheme = .cip50) (pledge stake : K) :
    rs.reward pledge stake = min stake (min (rs.a0 * pledge) rs.beta) := by
  unfold RS.reward totalRewards RS.sat; rw [h]; simp only [one_mul]

theorem sat_of_ne {rs : RS K} (h : rs.scheme ≠ .cip50) (pledge : K) : rs.sat pledge = rs.beta := by
  unfold RS.sat; split <;> simp_all

theorem sat_cip50 {rs : RS K} (h : rs.scheme = .cip50) (pledge : K) : rs.sat pledge = min (rs.a0 * pledge) rs.beta := by
  unfold RS.sat; rw [h]

theorem sat_le_beta (rs : RS K) (pledge : K) : rs.sat pledge ≤ rs.beta := by
  unfold RS.sat; split
  · exact min_le_right _ _
  · exact le_rfl

end RSE
