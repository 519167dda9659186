import Verif.Model.MainFloats
import Verif.Lemmas.StartFloats
import Verif.Props.RunFloats
import Verif.Props.Normalising
import Verif.Props.MainRun

/-!
# C127: main.py in binary64

C121 says that main.py runs to its end in exact arithmetic.  Python computes in binary64, where rounding can end a run (C125).  Proved: it does not if no agent holds too small a share of the
stake, compared with the number of agents, pools and rounds, and pools are cheap; this covers the default options, for practically all random draws.
-/

set_option linter.unusedSectionVars false
set_option exponentiation.threshold 2000

namespace RSE.Props

open Cmd

/-- What is required of the arguments for `n` agents, `k` pools and up to `m` rounds: one phase, agents that act one after the other, no inactive stake, a reward scheme other than
CIP-50, and a cost of at most a third of what a saturated pool without pledge earns. -/
structure InRange (a : Args B64) (d : Draws B64) (n k m : Nat) : Prop where
  agents : a.n = .one n
  n_pos : 1 ≤ n
  n_max : n ≤ 2 ^ 40
  pools : a.k.values = [k]
  k_pos : 1 ≤ k
  maxIter : a.maxIter = .one m
  m_pos : 1 ≤ m
  relThr : ∃ x, a.relThr = .one x
  absThr : ∃ x, a.absThr = .one x
  order : a.order = .one .random ∨ a.order = .one .sequential
  scheme : a.scheme ≤ 2
  weights : ∀ w, a.weights = some w → w.length = 3 ∧ (∀ x ∈ w, 0 ≤ x) ∧ ∃ x ∈ w, 0 < x
  inactive : a.inactive = 0
  known : a.known = false
  extra : ∃ x, a.extraFrac = .one x ∧ 0 ≤ x ∧ x ≤ 1
  costMin : 0 ≤ a.costMin
  costs : a.costMin ≤ a.costMax
  metrics : ∀ l, a.metrics = some l → ∀ i ∈ l, 1 ≤ i ∧ i ≤ 30
  a0 : ∃ x, a.a0.values = [x] ∧ 0 ≤ x ∧ x.1 ≤ 2 ^ 53 ∧ 3 * k * (1 + x.1) * a.costMax.1 ≤ 1
  cost : ∀ i, 0 ≤ d.cost i ∧ d.cost i < 1

/-- What is required of the stakes before normalisation: each is at least the fraction `12 n k m / 2^51` of their sum. -/
def FairShares (l : List B64) (n k m : Nat) : Prop := l.length = n ∧ ∀ x ∈ l, 0 < x ∧ 12 * n * k * m * trueSum l ≤ 2 ^ 51 * x.1

/-! ### The parts of the constructor -/

theorem values_first {α : Type} {m : Multi α} {x : α} (h : m.values = [x]) : m.first = .ok x ∧ m.phases = 1 := by
  cases m with
  | one y => cases h; exact ⟨rfl, rfl⟩
  | many l => change l = [x] at h; subst h; exact ⟨rfl, rfl⟩

theorem shareOut_self {F : Type} [LinearOrder F] [Zero F] [One F] [Add F] [Sub F] [Div F] (stakes : List F) (f : F) : shareOut stakes stakes.length f = initialStakes stakes f := by
  unfold shareOut initialStakes
  rw [if_neg (lt_irrefl _), List.take_length]

theorem choices_ok64 {w : List B64} (h3 : w.length = 3) (h0 : ∀ x ∈ w, 0 ≤ x) (hpos : ∃ x ∈ w, 0 < x) (n : Nat) (u : Nat → B64) :
    ∃ idx, choices 3 w n u = .ok idx ∧ idx.length = n ∧ ∀ j ∈ idx, j < 3 := by
  match w, h3 with
  | [x, y, z], _ =>
    have hx : 0 ≤ x := h0 x (by simp)
    have hy : 0 ≤ y := h0 y (by simp)
    have hz : 0 ≤ z := h0 z (by simp)
    have hxy := RoundedArith.add_nonneg hx hy
    have hle1 : x ≤ x + y := RoundedArith.le_add hy
    have hle2 : y ≤ x + y := by
      have := RoundedArith.add_mono hx (le_refl y)
      rwa [RoundedArith.zero_add] at this
    have hle3 : x + y ≤ x + y + z := RoundedArith.le_add hz
    have hle4 : z ≤ x + y + z := by
      have := RoundedArith.add_mono hxy (le_refl z)
      rwa [RoundedArith.zero_add] at this
    have ht : 0 < x + y + z := by
      obtain ⟨v, hv, hv0⟩ := hpos
      simp only [List.mem_cons, List.not_mem_nil, or_false] at hv
      rcases hv with rfl | rfl | rfl
      · exact hv0.trans_le (hle1.trans hle3)
      · exact hv0.trans_le (hle2.trans hle3)
      · exact hv0.trans_le hle4
    have hcum : accumulate 0 [x, y, z] = [x, x + y, x + y + z] := by simp [accumulate, RoundedArith.zero_add]
    refine ⟨(List.range n).map (fun i => bisectIndex [x, x + y, x + y + z] (u i * (x + y + z))), ?_, by simp, ?_⟩
    · unfold choices
      simp [hcum, not_le.2 ht]
    · intro j hj
      obtain ⟨i, -, rfl⟩ := List.mem_map.1 hj
      unfold bisectIndex
      have := (List.takeWhile_sublist (fun c => decide (c ≤ u i * (x + y + z))) (l := [x, x + y, x + y + z].dropLast)).length_le
      refine Nat.lt_of_le_of_lt this ?_
      simp

theorem init_stakes64 (c : Config B64) : (agentsList (initState c)).map (fun a => a.stake) = c.people.map (fun e => e.1) := by
  unfold agentsList initState
  simp only [List.map_map]
  have : ((fun a : Agent B64 => a.stake) ∘ (fun e : Nat × Agent B64 => e.2) ∘ fun e : (B64 × B64 × Profile) × Nat => (e.2, newAgent e.2 e.1.1 e.1.2.1 e.1.2.2)) =
      (fun e => e.1) ∘ Prod.fst := rfl
  rw [this, ← List.map_map, List.zipIdx_map_fst]

theorem setK64 {k : Nat} (h1 : 1 ≤ k) (h2 : k ≤ 2 ^ 53) (s : Scheme) : (⟨s, 0, 0, 0⟩ : RS B64).setKValue (k : B64) = .ok ⟨s, k, 1 / (k : B64), 0⟩ := by
  have hv : ((k : Nat) : B64).1 = (k : ℚ) := B64.round64_natCast h2
  have hne : (k : B64) ≠ 0 := (RoundedArith.zero_lt_one.trans_le (RoundedArith.one_le_cast (F := B64) (by omega))).ne'
  unfold RS.setKValue
  rw [if_neg hne]
  have : PyInt.trunc (k : B64) = k := by
    change ⌊(k : B64).1⌋.toNat = k
    rw [hv]
    simp
  rw [this]

/-- the costs that are drawn -/
theorem costs64 {lo hi u : B64} (h0 : 0 ≤ lo) (h : lo ≤ hi) (hu : 0 ≤ u ∧ u < 1) : 0 ≤ lo + (hi - lo) * u ∧ (lo + (hi - lo) * u).1 ≤ (1 + 1 / 100) * hi.1 := by
  have hd : 0 ≤ hi - lo := RoundedArith.sub_nonneg h
  have hm := RoundedArith.mul_nonneg hd hu.1
  refine ⟨RoundedArith.add_nonneg h0 hm, ?_⟩
  have h0' : (0 : ℚ) ≤ lo.1 := h0
  have h' : lo.1 ≤ hi.1 := h
  have hm' : (0 : ℚ) ≤ ((hi - lo) * u).1 := hm
  have h1 : ((hi - lo) * u).1 ≤ (hi - lo).1 := by
    have := RoundedArith.mul_left_mono hd hu.2.le
    rwa [RoundedArith.mul_one] at this
  have h2 := (abs_le.1 (B64.sub_err' h')).2
  have h3 := (abs_le.1 (B64.add_err' h0' hm')).2
  have hs : ulp ≤ 1 / 1000 := by unfold ulp; norm_num
  have h4 : ulp * (hi.1 - lo.1) ≤ 1 / 1000 * (hi.1 - lo.1) := mul_le_mul_of_nonneg_right hs (by linarith)
  have h5 : ulp * (lo.1 + ((hi - lo) * u).1) ≤ 1 / 1000 * (lo.1 + ((hi - lo) * u).1) := mul_le_mul_of_nonneg_right hs (by linarith)
  linarith

/-- what a saturated pool without pledge earns -/
theorem earns64 {k : Nat} (h1 : 1 ≤ k) (h2 : k ≤ 2 ^ 53) {x : B64} (hx0 : 0 ≤ x) (hx : x.1 ≤ 2 ^ 53) :
    (1 - 1 / 1000) / (k : ℚ) ≤ (1 / (k : B64) : B64).1 ∧ (1 - 1 / 100) / (k * (1 + x.1)) ≤ ((1 / (1 + x)) * (1 / (k : B64)) : B64).1 := by
  have hs : ulp ≤ 1 / 10000 := by unfold ulp; norm_num
  have hu := ulp_pos
  have ht := tiny64_le_200
  have ht0 := tiny64_pos
  have hx0' : (0 : ℚ) ≤ x.1 := hx0
  have hv : ((k : Nat) : B64).1 = (k : ℚ) := B64.round64_natCast h2
  have hk1 : (1 : ℚ) ≤ k := by exact_mod_cast h1
  have hk2 : (k : ℚ) ≤ 2 ^ 53 := by exact_mod_cast h2
  have hb := (abs_le.1 (B64.div_err' (a := 1) (b := (k : B64)) (by rw [B64.one_val]; norm_num) (by rw [hv]; linarith))).1
  rw [B64.one_val, hv] at hb
  have hgk : (1 : ℚ) / 2 ^ 53 ≤ 1 / k := one_div_le_one_div_of_le (by linarith) hk2
  have hB : (1 - 1 / 1000) / (k : ℚ) ≤ (1 / (k : B64) : B64).1 := by
    have e1 : ulp * (1 / (k : ℚ)) ≤ 1 / 10000 * (1 / k) := mul_le_mul_of_nonneg_right hs (by positivity)
    have e2 : tiny64 ≤ 1 / 10000 * (1 / k) := by
      refine ht.trans (le_trans ?_ (mul_le_mul_of_nonneg_left hgk (by norm_num)))
      norm_num
    have e3 : (1 - 1 / 1000) / (k : ℚ) = (1 - 1 / 1000) * (1 / k) := by ring
    rw [e3]
    linarith
  refine ⟨hB, ?_⟩
  have hf := (abs_le.1 (B64.factor_err hx0')).1
  have hg : (1 : ℚ) / 2 ^ 54 ≤ 1 / (1 + x.1) := one_div_le_one_div_of_le (by linarith) (by linarith)
  have hF : (1 - 1 / 1000) * (1 / (1 + x.1)) ≤ (1 / (1 + x) : B64).1 := by
    have e1 : ulp * (1 / (1 + x.1)) ≤ 1 / 10000 * (1 / (1 + x.1)) := mul_le_mul_of_nonneg_right hs (by positivity)
    have e2 : tiny64 ≤ 1 / 10000 * (1 / (1 + x.1)) := by
      refine ht.trans (le_trans ?_ (mul_le_mul_of_nonneg_left hg (by norm_num)))
      norm_num
    linarith
  have hp1 : 0 ≤ (1 / (1 + x) : B64).1 := le_trans (by positivity) hF
  have hp2 : 0 ≤ (1 / (k : B64) : B64).1 := le_trans (by positivity) hB
  have hm := (abs_le.1 (B64.mul_err' hp1 hp2)).1
  have hprod : (1 - 1 / 1000) * (1 / (1 + x.1)) * ((1 - 1 / 1000) / (k : ℚ)) ≤ (1 / (1 + x) : B64).1 * (1 / (k : B64) : B64).1 :=
    mul_le_mul hF hB (by positivity) hp1
  set P := (1 / (1 + x) : B64).1 * (1 / (k : B64) : B64).1 with hP
  set g := 1 / ((k : ℚ) * (1 + x.1)) with hgd
  have hgg : (1 : ℚ) / 2 ^ 107 ≤ g := by
    rw [hgd]
    refine one_div_le_one_div_of_le (by positivity) ?_
    calc (k : ℚ) * (1 + x.1) ≤ 2 ^ 53 * 2 ^ 54 := mul_le_mul hk2 (by linarith) (by linarith) (by norm_num)
      _ = 2 ^ 107 := by norm_num
  have e0 : (1 - 1 / 1000) * (1 / (1 + x.1)) * ((1 - 1 / 1000) / (k : ℚ)) = (1 - 1 / 1000) * (1 - 1 / 1000) * g := by
    rw [hgd]; field_simp
  rw [e0] at hprod
  have e1 : (1 - 1 / 100) / ((k : ℚ) * (1 + x.1)) = (1 - 1 / 100) * g := by rw [hgd]; ring
  rw [e1]
  have hg0 : 0 < g := by rw [hgd]; positivity
  have e2 : tiny64 ≤ 1 / 10000 * g := by
    refine ht.trans (le_trans ?_ (mul_le_mul_of_nonneg_left hgg (by norm_num)))
    norm_num
  have e3 : ulp * P ≤ 1 / 10000 * P := mul_le_mul_of_nonneg_right hs (by rw [hP]; positivity)
  nlinarith

theorem small_nat {n k m : Nat} (hn : 1 ≤ n) (hk : 1 ≤ k) (hm : 1 ≤ m) (h : 12 * (n : ℚ) * k * m ≤ 2 ^ 51) : n * m ≤ 2 ^ 49 ∧ k ≤ 2 ^ 53 := by
  have h1 : 12 * n * k * m ≤ 2251799813685248 := by
    have : ((12 * n * k * m : Nat) : ℚ) ≤ ((2251799813685248 : Nat) : ℚ) := by
      push_cast
      refine h.trans ?_
      norm_num
    exact_mod_cast this
  have e : 12 * n * k * m = 12 * (n * m * k) := by ring
  have h2 : n * m * 1 ≤ n * m * k := Nat.mul_le_mul_left _ hk
  have h3 : 1 * k ≤ n * m * k := Nat.mul_le_mul_right _ (Nat.mul_le_mul hn hm)
  rw [e] at h1
  have e1 : 2 ^ 49 = 562949953421312 := by norm_num
  have e2 : 2 ^ 53 = 9007199254740992 := by norm_num
  omega

/-! ### The constructor -/

theorem inRange_built {a : Args B64} {d : Draws B64} {n k m : Nat} (h : InRange a d n k m) {l : List B64} (hs : rawStakes a.source n d = .ok l) (hl : FairShares l n k m) :
    ∃ b, construct a d = .ok b ∧ b.n = n ∧ b.config.people.length = n ∧ FloatsOK b.config m := by
  have hs1 : ulp ≤ 1 / 10000 := by unfold ulp; norm_num
  have hu := ulp_pos
  have ht := tiny64_le_200
  have hnq : (1 : ℚ) ≤ n := by exact_mod_cast h.n_pos
  have hkq : (1 : ℚ) ≤ k := by exact_mod_cast h.k_pos
  have hmq : (1 : ℚ) ≤ m := by exact_mod_cast h.m_pos
  obtain ⟨x, ax, ax0, ax1, ax2⟩ := h.a0
  obtain ⟨f, af, f0, f1⟩ := h.extra
  obtain ⟨rel, arel⟩ := h.relThr
  obtain ⟨ab, aab⟩ := h.absThr
  -- the stakes
  have hpos : ∀ y ∈ l, 0 < y := fun y hy => (hl.2 y hy).1
  have hnn : ∀ y ∈ l, 0 ≤ y := fun y hy => (hpos y hy).le
  obtain ⟨y0, hy0⟩ : ∃ y, y ∈ l := List.exists_mem_of_ne_nil _ (by rintro rfl; have := hl.1; have := h.n_pos; simp at *; omega)
  have hX : 0 < exactSum l := lt_of_lt_of_le (show (0 : ℚ) < y0.1 from hpos y0 hy0) (mem_le_exactSum hnn hy0)
  have hsum : trueSum l = exactSum l := rfl
  have hlen := hl.1
  have hsmall : 12 * (n : ℚ) * k * m ≤ 2 ^ 51 := by
    have h1 := (hl.2 y0 hy0).2
    have h2 := mem_le_exactSum hnn hy0
    rw [hsum] at h1
    have h3 : 12 * (n : ℚ) * k * m * exactSum l ≤ 2 ^ 51 * exactSum l := h1.trans (mul_le_mul_of_nonneg_left h2 (by positivity))
    exact le_of_mul_le_mul_right h3 hX
  have hsmall2 := small_nat h.n_pos h.k_pos h.m_pos hsmall
  have hk53 := hsmall2.2
  obtain ⟨new, t1, tN⟩ := normal_ok hnn (by rw [hlen]; exact h.n_max) hX
  have hnl : new.length = n := by rw [tN.length, hlen]
  have t0 : shareOut l n a.inactive = .ok (new, 1) := by rw [h.inactive, ← hlen, shareOut_self]; exact t1
  set E : ℚ := (n : ℚ) * m * (2 : ℚ) ^ (-51 : Int) with hE
  have hz : (2 : ℚ) ^ (-51 : Int) * 2 ^ 51 = 1 := by norm_num
  have hz0 : (0 : ℚ) < (2 : ℚ) ^ (-51 : Int) := by positivity
  have hstakeErr : stakeErr l.length ≤ 2 * n * ulp := by
    unfold stakeErr
    rw [hlen]
    nlinarith
  have hulp : ulp = (2 : ℚ) ^ (-51 : Int) / 4 := by unfold ulp; norm_num
  have hE0 : (2 : ℚ) ^ (-51 : Int) ≤ E := by
    rw [hE]
    have : (1 : ℚ) ≤ n * m := by nlinarith
    nlinarith
  have hEk : 12 * E ≤ 1 / k := by
    rw [le_div_iff₀ (by linarith), hE]
    have : 12 * ((n : ℚ) * m * (2 : ℚ) ^ (-51 : Int)) * k = 12 * n * k * m * (2 : ℚ) ^ (-51 : Int) := by ring
    rw [this]
    calc 12 * (n : ℚ) * k * m * (2 : ℚ) ^ (-51 : Int) ≤ 2 ^ 51 * (2 : ℚ) ^ (-51 : Int) := mul_le_mul_of_nonneg_right hsmall hz0.le
      _ = 1 := by norm_num
  have hnew : ∀ y ∈ new, 9 * k * E ≤ y.1 := by
    intro y hy
    obtain ⟨i, hi⟩ := List.getElem?_of_mem hy
    have hlt : i < l.length := by
      have := (List.getElem?_eq_some_iff.1 hi).1
      rw [tN.length] at this
      exact this
    have h1 := (abs_le.1 (tN.all i l[i] y (List.getElem?_eq_getElem hlt) hi)).1
    have h2 := (hl.2 l[i] (List.getElem_mem hlt)).2
    rw [hsum] at h2
    have h3 : 12 * (k * E) ≤ (l[i]).1 / exactSum l := by
      rw [le_div_iff₀ hX, hE]
      calc 12 * ((k : ℚ) * ((n : ℚ) * m * (2 : ℚ) ^ (-51 : Int))) * exactSum l = 12 * n * k * m * exactSum l * (2 : ℚ) ^ (-51 : Int) := by ring
        _ ≤ 2 ^ 51 * (l[i]).1 * (2 : ℚ) ^ (-51 : Int) := mul_le_mul_of_nonneg_right h2 hz0.le
        _ = (l[i]).1 := by rw [mul_comm ((2 : ℚ) ^ 51), mul_assoc, mul_comm ((2 : ℚ) ^ 51), hz, mul_one]
    have h4 : 6 * stakeErr l.length ≤ 3 * (k * E) := by
      have e1 : (n : ℚ) * (2 : ℚ) ^ (-51 : Int) ≤ k * E := by
        rw [hE]
        have : (1 : ℚ) ≤ k * m := by nlinarith
        calc (n : ℚ) * (2 : ℚ) ^ (-51 : Int) = (n * (2 : ℚ) ^ (-51 : Int)) * 1 := by ring
          _ ≤ (n * (2 : ℚ) ^ (-51 : Int)) * (k * m) := mul_le_mul_of_nonneg_left this (by positivity)
          _ = k * (n * m * (2 : ℚ) ^ (-51 : Int)) := by ring
      calc 6 * stakeErr l.length ≤ 6 * (2 * n * ulp) := by linarith
        _ = 3 * (n * (2 : ℚ) ^ (-51 : Int)) := by rw [hulp]; ring
        _ ≤ 3 * (k * E) := by linarith
    linarith
  have hkE : 0 < 9 * (k : ℚ) * E := by have : 0 < E := hz0.trans_le hE0; positivity
  have hnew0 : ∀ y ∈ new, 0 ≤ y := fun y hy => by
    have := hnew y hy
    change (0 : ℚ) ≤ y.1
    linarith
  have hsumnew := abs_le.1 tN.sum
  have herr : 2 * stakeErr l.length ≤ 1 / 1000 := by
    unfold stakeErr
    have := len_ulp (l := l) (by rw [hlen]; exact h.n_max)
    have e : 2 * (((l.length : ℚ) + 1) * ulp) = 2 * ((l.length : ℚ) * ulp) + 2 * ulp := by ring
    rw [e]
    linarith
  -- the costs and the profiles
  have c1 : costsUniform n a.costMin a.costMax d.cost = .ok ((List.range n).map (fun i => a.costMin + (a.costMax - a.costMin) * d.cost i)) := by
    unfold costsUniform
    rw [if_neg (not_lt.2 h.costs)]
  set costs := (List.range n).map (fun i => a.costMin + (a.costMax - a.costMin) * d.cost i) with hcosts
  have hcl : costs.length = n := by rw [hcosts]; simp
  have hc : ∀ c ∈ costs, 0 ≤ c ∧ c.1 ≤ (1 + 1 / 100) * a.costMax.1 := by
    intro c hc
    obtain ⟨i, -, rfl⟩ := List.mem_map.1 hc
    exact costs64 h.costMin h.costs (h.cost i)
  have hw : (a.weights.getD [1, 0, 0]).length = 3 ∧ (∀ x ∈ a.weights.getD [1, 0, 0], 0 ≤ x) ∧ ∃ x ∈ a.weights.getD [1, 0, 0], 0 < x := by
    cases hw : a.weights with
    | none => exact ⟨rfl, by decide +kernel, 1, by simp, RoundedArith.zero_lt_one⟩
    | some w => exact h.weights w hw
  obtain ⟨idx, i1, i2, i3⟩ := choices_ok64 hw.1 hw.2.1 hw.2.2 n d.profile
  obtain ⟨prof, p1, p2, -⟩ := mapM_ok (l := idx) (f := profileOf) (fun j hj => ⟨_, profileOf_ok (i3 j hj)⟩)
  -- the rest
  obtain ⟨o, ho1, ho2⟩ : ∃ o, a.order = .one o ∧ (o = .random ∨ o = .sequential) := by
    rcases h.order with h | h
    · exact ⟨_, h, .inl rfl⟩
    · exact ⟨_, h, .inr rfl⟩
  have hsch : makeScheme a.scheme = .ok a.scheme := (C44_schemes a.scheme).1.2 (by have := h.scheme; omega)
  have hne : schemeOf a.scheme ≠ .cip50 := by
    have := h.scheme
    have h3 : a.scheme = 0 ∨ a.scheme = 1 ∨ a.scheme = 2 := by omega
    rcases h3 with h3 | h3 | h3 <;> rw [h3] <;> decide
  obtain ⟨names, w1, -, -⟩ := mapM_ok (l := a.metrics.getD defaultMetrics) (f := reporterName) (fun i hi => (C74_ids i).2 (by
    cases hm : a.metrics with
    | none => rw [hm] at hi; revert hi i; decide
    | some l => rw [hm] at hi; exact h.metrics l hm i hi))
  have w2 : columns (a.metrics.getD defaultMetrics) = .ok names.eraseDups := by unfold columns; rw [w1]; rfl
  obtain ⟨c, hcd⟩ : ∃ c : Config B64, c = ⟨⟨schemeOf a.scheme, k, 1 / (k : B64), x⟩, rel, ab, f, o.isSimultaneous, new.zip (costs.zip prof), 1⟩ := ⟨_, rfl⟩
  have hpl : c.people.length = n := by
    rw [hcd]; simp only [List.length_zip, hnl, hcl, p2, i2, min_self]
  have hstk : c.people.map (fun e => e.1) = new := by
    rw [hcd]; exact List.map_fst_zip (by simp [hnl, hcl, p2, i2])
  obtain ⟨dsc, d1⟩ := initDesc_ok64 (s := initState c) (by rw [init_stakes64, hstk]; exact hnew0) (by rw [init_stakes64, hstk, hnl]; exact h.n_pos)
    (by rw [init_stakes64, hstk, hnl]; exact h.n_max) (by rw [init_stakes64, hstk]; linarith [hsumnew.1])
  have n1 : a.n.first = .ok n := by rw [h.agents]; rfl
  have k1 := (values_first h.pools).1
  have a1 := (values_first ax).1
  have r1 : a.relThr.first = .ok rel := by rw [arel]; rfl
  have b1 : a.absThr.first = .ok ab := by rw [aab]; rfl
  have m1 : a.maxIter.first = .ok (m : Int) := by rw [h.maxIter]; rfl
  have e1 : a.extraFrac.first = .ok f := by rw [af]; rfl
  have o1 : a.order.first = .ok o := by rw [ho1]; rfl
  refine ⟨⟨c, n, o, m, a.totalPhases, names.eraseDups, dsc⟩, ?_, rfl, hpl, ?_⟩
  · unfold construct
    simp only [hsch, n1, k1, setK64 h.k_pos hk53, a1, r1, b1, m1, e1, o1, h.known, hs, c1, i1, p1, t0, w2, bind, Except.bind, pure, Except.pure, Bool.false_eq_true, if_false]
    rw [← hcd, d1]
  · change FloatsOK c m
    have hv : ((k : Nat) : B64).1 = (k : ℚ) := B64.round64_natCast hk53
    have hrs : c.rs = ⟨schemeOf a.scheme, k, 1 / (k : B64), x⟩ := by rw [hcd]
    have hex : c.extraFrac = f := by rw [hcd]
    obtain ⟨hearn1, hearn2⟩ := earns64 h.k_pos hk53 ax0 ax1
    have hbeta : 0 < c.rs.beta := by
      rw [hrs]
      change (0 : ℚ) < (1 / (k : B64) : B64).1
      exact lt_of_lt_of_le (by positivity) hearn1
    have hall : allStake c = exactSum new := by
      unfold allStake exactSum
      rw [← hstk, List.map_map]
      rfl
    have hD : runDrift c m ≤ (8 + 1 / 100) * E := by
      unfold runDrift
      rw [hpl, hall]
      have e : 8 * (n : ℚ) * m * (2 : ℚ) ^ (-51 : Int) * exactSum new = 8 * E * exactSum new := by rw [hE]; ring
      rw [e]
      have : exactSum new ≤ 1 + 1 / 1000 := by linarith [hsumnew.2]
      have hE' : 0 < E := hz0.trans_le hE0
      nlinarith
    have htE : tiny64 ≤ 1 / 1000 * E := by
      refine ht.trans (le_trans ?_ (mul_le_mul_of_nonneg_left hE0 (by norm_num)))
      norm_num
    have hpeople : ∀ e ∈ c.people, e.1 ∈ new ∧ e.2.1 ∈ costs := by
      intro e he
      rw [hcd] at he
      have := List.of_mem_zip he
      exact ⟨this.1, (List.of_mem_zip this.2).1⟩
    have hE' : 0 < E := hz0.trans_le hE0
    refine ⟨by rw [hrs]; exact h.k_pos, hbeta, by rw [hex]; exact f0, fun e he => ⟨hnew0 _ (hpeople e he).1, (hc _ (hpeople e he).2).1⟩, ?_, fun e he _ => ⟨?_, ?_⟩,
      fun e he _ j j1 j2 => ?_⟩
    · rw [hpl]
      exact hsmall2.1
    · rw [hrs]
      have h1 := hnew _ (hpeople e he).1
      have h2 := (abs_le.1 (B64.div_err' (a := e.1) (b := (k : B64)) (by have := hnew0 _ (hpeople e he).1; exact this) (by rw [hv]; linarith))).1
      rw [hv] at h2
      have h3 : 9 * E ≤ e.1.1 / k := by rw [le_div_iff₀ (by linarith)]; linarith
      have h4 : ulp * (e.1.1 / k) ≤ 1 / 10000 * (e.1.1 / k) := mul_le_mul_of_nonneg_right hs1 (by linarith)
      change runDrift c m < (e.1 / (k : B64)).1
      linarith
    · rw [hrs]
      have e : (1 - 1 / 1000) / (k : ℚ) = (1 - 1 / 1000) * (1 / k) := by ring
      rw [e] at hearn1
      change runDrift c m < (1 / (k : B64) : B64).1
      linarith
    · have hq : 0 ≤ min (e.1 / (j : B64)) c.rs.beta := le_min (RoundedArith.div_nonneg (hnew0 _ (hpeople e he).1)
        (RoundedArith.zero_lt_one.trans_le (RoundedArith.one_le_cast (by omega)))) hbeta.le
      have hk' : c.rs.k = k := by rw [hrs]
      rw [hk'] at j2
      refine lt_of_lt_of_le ?_ (saturated_ge (by rw [hrs]; exact hne) hbeta (by rw [hrs]; exact ax0) hq)
      rw [B64.lt_def]
      refine (costOf_le j1 (j2.trans hk53) (hc _ (hpeople e he).2).1 (by rw [hex]; exact f1)).trans_lt ?_
      have h1 := (hc _ (hpeople e he).2).2
      rw [hrs]
      refine lt_of_lt_of_le ?_ hearn2
      have hx0 : (0 : ℚ) ≤ x.1 := ax0
      have hkx : 0 < (k : ℚ) * (1 + x.1) := by positivity
      rw [lt_div_iff₀ hkx]
      have h2 : 3 * (a.costMax.1 * ((k : ℚ) * (1 + x.1))) ≤ 1 := by linarith
      have h3 : e.2.1.1 * ((k : ℚ) * (1 + x.1)) ≤ (1 + 1 / 100) * a.costMax.1 * ((k : ℚ) * (1 + x.1)) := mul_le_mul_of_nonneg_right h1 hkx.le
      linarith

/-- C127.  In binary64, with arguments and stakes as above, the simulation is constructed and runs to its end: at most `m` rounds, no exception, all results; whatever the costs and profiles that
are drawn and the orders of activation are. -/
theorem C127_completes {a : Args B64} {d : Draws B64} {n k m : Nat} (h : InRange a d n k m) {raw : List B64} (hs : rawStakes a.source n d = .ok raw) (hl : FairShares raw n k m)
    {t : Turns} (ht : TurnsOK t) (solver : State B64 → B64) (rnd rnd4 : B64 → B64) :
    ∃ b l, construct a d = .ok b ∧ b.config.people.length = n ∧ simulate a d solver t (m + 1) = .ok l ∧ Completed b rnd rnd4 m l := by
  obtain ⟨b, h1, -, h2, h3⟩ := inRange_built h hs hl
  obtain ⟨x, ax, -, -, -⟩ := h.a0
  obtain ⟨f, af, -, -⟩ := h.extra
  obtain ⟨rel, arel⟩ := h.relThr
  obtain ⟨ab, aab⟩ := h.absThr
  have hph : a.totalPhases = 1 := by
    unfold Args.totalPhases
    rw [(values_first h.pools).2, (values_first ax).2, h.agents, arel, aab, h.maxIter, af]
    rcases h.order with ho | ho <;> rw [ho] <;> rfl
  obtain ⟨l, h4, h5, -⟩ := C125_completes h1 h.maxIter hph (by rcases h.order with ho | ho <;> rw [ho]; exacts [.inl rfl, .inr rfl]) h3 ht solver rnd rnd4
  exact ⟨b, l, h1, h2, h4, h5⟩

/-! ### Where the stakes come from -/

theorem trueSum_le {l : List B64} {g : B64 → ℚ} (h : ∀ x ∈ l, x.1 ≤ g x) : trueSum l ≤ (l.map g).sum := by
  unfold trueSum
  exact List.sum_le_sum h

/-- C127.  Stakes drawn from a Pareto distribution: it suffices that the drawn values `z` are not negative and `13 n k m (n + Σ z) ≤ 2^51`. -/
theorem C127_pareto {d : Draws B64} {n k m : Nat} (h0 : ∀ i < n, 0 ≤ d.pareto i)
    (hsum : 13 * (n : ℚ) * k * m * (n + ((List.range n).map (fun i => (d.pareto i).1)).sum) ≤ 2 ^ 51) : ∃ raw, rawStakes .pareto n d = .ok raw ∧ FairShares raw n k m := by
  have hneg : ¬ (-1 : B64) > 0 := by decide +kernel
  have hs : ulp ≤ 1 / 10000 := by unfold ulp; norm_num
  refine ⟨(List.range n).map (fun i => (d.pareto i + 1) * 1), by unfold rawStakes stakesPareto; simp only [if_neg hneg], by simp, ?_⟩
  have hone : ∀ i < n, (1 : ℚ) ≤ ((d.pareto i + 1) * 1 : B64).1 ∧ ((d.pareto i + 1) * 1 : B64).1 ≤ (1 + 1 / 100) * (1 + (d.pareto i).1) := by
    intro i hi
    have hz : (0 : ℚ) ≤ (d.pareto i).1 := h0 i hi
    rw [RoundedArith.mul_one]
    constructor
    · have := RoundedArith.add_mono (h0 i hi) (le_refl (1 : B64))
      rw [RoundedArith.zero_add, B64.le_def, B64.one_val] at this
      exact this
    · have h1 := (abs_le.1 (B64.add_err' (a := d.pareto i) (b := 1) hz (by rw [B64.one_val]; norm_num))).2
      rw [B64.one_val] at h1
      have h2 : ulp * ((d.pareto i).1 + 1) ≤ 1 / 10000 * ((d.pareto i).1 + 1) := mul_le_mul_of_nonneg_right hs (by linarith)
      linarith
  have hle : trueSum ((List.range n).map (fun i => (d.pareto i + 1) * 1)) ≤ (1 + 1 / 100) * (n + ((List.range n).map (fun i => (d.pareto i).1)).sum) := by
    unfold trueSum
    rw [List.map_map]
    have key : ∀ l : List Nat, (∀ i ∈ l, i < n) → (l.map ((fun x : B64 => x.1) ∘ fun i => (d.pareto i + 1) * 1)).sum ≤ (1 + 1 / 100) * (l.length + (l.map (fun i => (d.pareto i).1)).sum) := by
      intro l
      induction l with
      | nil => intro _; simp
      | cons i t ih =>
        intro hl
        have h1 := (hone i (hl i List.mem_cons_self)).2
        have h2 := ih (fun j hj => hl j (List.mem_cons_of_mem _ hj))
        simp only [List.map_cons, List.sum_cons, List.length_cons, Function.comp_apply]
        simp only [Function.comp_def] at h2 ⊢
        push_cast
        linarith
    have := key (List.range n) (fun i hi => List.mem_range.1 hi)
    rwa [List.length_range] at this
  intro x hx
  obtain ⟨i, hi, rfl⟩ := List.mem_map.1 hx
  have h1 := (hone i (List.mem_range.1 hi)).1
  refine ⟨by change (0 : ℚ) < _; linarith, ?_⟩
  have h2 : 12 * (n : ℚ) * k * m * trueSum ((List.range n).map (fun i => (d.pareto i + 1) * 1)) ≤
      12 * (n : ℚ) * k * m * ((1 + 1 / 100) * (n + ((List.range n).map (fun i => (d.pareto i).1)).sum)) := mul_le_mul_of_nonneg_left hle (by positivity)
  have h3 : (0 : ℚ) ≤ (n : ℚ) * k * m * (n + ((List.range n).map (fun i => (d.pareto i).1)).sum) := by
    have : 0 ≤ ((List.range n).map (fun i => (d.pareto i).1)).sum := List.sum_nonneg (fun y hy => by
      obtain ⟨j, hj, rfl⟩ := List.mem_map.1 hy
      exact h0 j (List.mem_range.1 hj))
    positivity
  have h4 : (2 : ℚ) ^ 51 * 1 ≤ 2 ^ 51 * ((d.pareto i + 1) * 1 : B64).1 := mul_le_mul_of_nonneg_left h1 (by norm_num)
  nlinarith

/-- C127.  Equal stakes: it suffices that `12 n n k m ≤ 2^51`. -/
theorem C127_flat (d : Draws B64) {n k m : Nat} (hn : 1 ≤ n) (hk : 1 ≤ k) (hm : 1 ≤ m) (h : 12 * n * n * k * m ≤ 2 ^ 51) :
    ∃ raw, rawStakes .flat n d = .ok raw ∧ FairShares raw n k m := by
  have hn53 : n ≤ 2 ^ 53 := by
    have e : 12 * n * n * k * m = n * (12 * n * k * m) := by ring
    rw [e] at h
    have h1 : n * 1 ≤ n * (12 * n * k * m) := Nat.mul_le_mul_left _ (Nat.one_le_iff_ne_zero.2 (by positivity))
    have e1 : 2 ^ 51 = 2251799813685248 := by norm_num
    have e2 : 2 ^ 53 = 9007199254740992 := by norm_num
    omega
  have hpos : 0 < (1 / (n : B64) : B64) := by
    have := (earns64 hn hn53 (x := 0) le_rfl (by change (0 : ℚ) ≤ _; norm_num)).1
    change (0 : ℚ) < _
    have h1 : (1 : ℚ) ≤ n := by exact_mod_cast hn
    exact lt_of_lt_of_le (by positivity) this
  refine ⟨stakesFlat n, rfl, by simp [stakesFlat], ?_⟩
  have hall : ∀ x ∈ (stakesFlat n : List B64), x = 1 / (n : B64) := by
    intro x hx
    unfold stakesFlat at hx
    obtain ⟨i, -, rfl⟩ := List.mem_map.1 hx
    exact if_pos (by omega)
  have hsum : trueSum (stakesFlat n) = n * (1 / (n : B64) : B64).1 := by
    unfold trueSum
    have : (stakesFlat n : List B64) = List.replicate n (1 / (n : B64)) := List.eq_replicate_iff.2 ⟨by simp [stakesFlat], hall⟩
    rw [this, List.map_replicate, List.sum_replicate, nsmul_eq_mul]
  intro x hx
  rw [hall x hx, hsum]
  refine ⟨hpos, ?_⟩
  have h1 : 12 * (n : ℚ) * n * k * m ≤ 2 ^ 51 := by exact_mod_cast h
  have h2 : (0 : ℚ) < (1 / (n : B64) : B64).1 := hpos
  calc 12 * (n : ℚ) * k * m * (n * (1 / (n : B64) : B64).1) = 12 * (n : ℚ) * n * k * m * (1 / (n : B64) : B64).1 := by ring
    _ ≤ _ := mul_le_mul_of_nonneg_right h1 h2.le

/-! ### The script -/

variable {R : Reader}

/-- the values of the option, rounded to binary64 -/
def Rounded (d : ArgDict PyFloat) (name : String) (l : List B64) : Prop := ∃ q, Numbers d name q ∧ l = q.map B64.of

/-- As `Arrives`: the arguments of the constructor are the values of the options, as binary64 numbers. -/
structure ArrivesFloat (d : ArgDict PyFloat) (a : Args B64) : Prop where
  n : Numbers d "n" (a.n.values.map (fun x : Nat => (x : ℚ)))
  k : Numbers d "k" (a.k.values.map (fun x : Nat => (x : ℚ)))
  a0 : Rounded d "a0" a.a0.values
  relThr : Rounded d "relative_utility_threshold" a.relThr.values
  absThr : Rounded d "absolute_utility_threshold" a.absThr.values
  maxIter : Numbers d "max_iterations" (a.maxIter.values.map (fun x : Int => (x : ℚ)))
  extraFrac : Rounded d "extra_pool_cost_fraction" a.extraFrac.values
  order : ∃ o, a.order = .one o ∧ IsText d "agent_activation_order" o.name
  scheme : Numbers d "reward_scheme" [(a.scheme : ℚ)]
  weights : ∃ w, a.weights = some w ∧ Rounded d "agent_profile_distr" w
  inactive : Rounded d "inactive_stake_fraction" [a.inactive]
  known : d.get "inactive_stake_fraction_known" = .ok (.one (.bool a.known))
  costMin : Rounded d "cost_min" [a.costMin]
  costMax : Rounded d "cost_max" [a.costMax]
  source : IsText d "stake_distr_source" a.source.name
  metrics : ∃ l, a.metrics = some l ∧ (Numbers d "metrics" (l.map (fun x : Nat => (x : ℚ))) ∨ (d.get "metrics" = .ok (.one .none) ∧ l = [1, 2, 6, 9, 17, 18, 25]))
  conv : Numbers d "iterations_after_convergence" [(a.conv : ℚ)]

theorem map_values {α β : Type} (f : α → β) (m : Multi α) : (m.map f).values = m.values.map f := by cases m <;> rfl

theorem arrives_rounded {o : ArgDict PyFloat} {a : Args ℚ} (h : Arrives o a) : ArrivesFloat o (roundedArgs a) := by
  obtain ⟨w, h1, h2⟩ := h.weights
  exact ⟨h.n, h.k, ⟨_, h.a0, map_values _ _⟩, ⟨_, h.relThr, map_values _ _⟩, ⟨_, h.absThr, map_values _ _⟩, h.maxIter, ⟨_, h.extraFrac, map_values _ _⟩, h.order, h.scheme,
    ⟨w.map B64.of, by unfold roundedArgs; rw [h1]; rfl, _, h2, rfl⟩, ⟨_, h.inactive, rfl⟩, h.known, ⟨_, h.costMin, rfl⟩, ⟨_, h.costMax, rfl⟩, h.source, h.metrics, h.conv⟩

/-- C127.  main.py in binary64: a command line that is accepted, whose options have usable values, and that starts ends after at most `max_iterations` rounds without an exception if its
values, rounded to binary64, are as above. -/
theorem C127_main {ws : List Text} {o : ArgDict PyFloat} (h : parse R mainTable ws = .ok o) (hf : o.get "input_from_file" = .ok (.one (.bool false))) (hu : Usable o) {str : Value → Text}
    {cwd : Text} {D D' : Disk PyFloat} {entropy : Int} {r : Started PyFloat} (hr : mainStart R str cwd D ws entropy = .ok (D', .ok r)) :
    ∃ a, ArrivesFloat o a ∧ ∀ (d : Draws B64) (n k m : Nat) (raw : List B64), InRange a d n k m → rawStakes a.source n d = .ok raw → FairShares raw n k m →
      ∀ (t : Turns) (solver : State B64 → B64) (rnd rnd4 : B64 → B64), TurnsOK t →
        ∃ b l, construct a d = .ok b ∧ b.config.people.length = n ∧ executeFloats R str cwd D ws entropy d solver t (m + 1) = (D', some (.ok l)) ∧ Completed b rnd rnd4 m l := by
  obtain ⟨a, N, h1, ha, -⟩ := C121_arguments h hf hu hr
  refine ⟨roundedArgs a, arrives_rounded ha, fun d n k m raw h2 h3 h4 t solver rnd rnd4 ht => ?_⟩
  obtain ⟨b, l, g1, g2, g3, g4⟩ := C127_completes h2 h3 h4 ht solver rnd rnd4
  exact ⟨b, l, g1, g2, by unfold executeFloats; rw [hr]; simp only [h1, g3], g4⟩

/-- the options of main.py when none is given, but perhaps another source of stakes -/
theorem default_inRange {o : ArgDict PyFloat} {a : Args ℚ} {N : Nat} (hd : ∀ p ∈ essential, p ≠ "stake_distr_source" → o.get p = noOptions.get p)
    (hkn : o.get "inactive_stake_fraction_known" = .ok (.one (.bool false))) (ha : Arrives o a) (hw : Within a N) {d : Draws B64} (h2 : ∀ i, 0 ≤ d.cost i ∧ d.cost i < 1) :
    InRange (roundedArgs a) d 1000 100 2000 := by
  have get : ∀ {p : String} {x : Atom} {q : ℚ}, p ∈ essential → p ≠ "stake_distr_source" → noOptions.get p = .ok (.one x) → number x = some q → ∀ {l : List ℚ}, Numbers o p l → l = [q] :=
    fun h1 h2 h3 h4 _ h5 => numbers_one ((hd _ h1 h2).trans h3) h4 h5
  have hn : a.n = .one 1000 := by
    have := get (x := .int 1000) (q := 1000) (by decide) (by decide) (by decide +kernel) rfl ha.n
    rw [hw.n] at this ⊢
    have : (N : ℚ) = 1000 := by simpa [Multi.values] using this
    have : N = 1000 := by exact_mod_cast this
    rw [this]
  have hk : a.k.values = [100] := by
    have := get (x := .int 100) (q := 100) (by decide) (by decide) (by decide +kernel) rfl ha.k
    match hv : a.k.values with
    | [] => rw [hv] at this; cases this
    | [y] =>
      rw [hv] at this
      have : (y : ℚ) = 100 := by simpa using this
      have : y = 100 := by exact_mod_cast this
      rw [this]
    | y :: z :: t => rw [hv] at this; simp at this
  have ha0 : a.a0.values = [(B64.of (((3 : Nat) : ℚ) / 10 ^ 1)).1] := get (x := dec 3 1) (by decide) (by decide) (by decide +kernel) rfl ha.a0
  have hmi : a.maxIter = .one 2000 := by
    obtain ⟨m, hm, -⟩ := hw.maxIter
    have := get (x := .int 2000) (q := 2000) (by decide) (by decide) (by decide +kernel) rfl ha.maxIter
    rw [hm] at this ⊢
    have : (m : ℚ) = 2000 := by simpa [Multi.values] using this
    have : m = 2000 := by exact_mod_cast this
    rw [this]
  obtain ⟨rel, hrel, -⟩ := hw.relThr
  obtain ⟨ab, hab, -⟩ := hw.absThr
  obtain ⟨ex, hex, -⟩ := hw.extraFrac
  have hex' : ex = (B64.of (((4 : Nat) : ℚ) / 10 ^ 1)).1 := by
    have := get (x := dec 4 1) (by decide) (by decide) (by decide +kernel) rfl ha.extraFrac
    rw [hex] at this
    simpa [Multi.values] using this
  have hsch : a.scheme = 0 := by
    have := get (x := .int 0) (q := 0) (by decide) (by decide) (by decide +kernel) rfl ha.scheme
    have : (a.scheme : ℚ) = 0 := by simpa using this
    exact_mod_cast this
  have hina : a.inactive = 0 := by
    have := get (x := .int 0) (q := 0) (by decide) (by decide) (by decide +kernel) rfl ha.inactive
    simpa using this
  have hcmin : a.costMin = (B64.of (((1 : Nat) : ℚ) / 10 ^ 5)).1 := by
    have := get (x := dec 1 5) (by decide) (by decide) (by decide +kernel) rfl ha.costMin
    simpa using this
  have hcmax : a.costMax = (B64.of (((1 : Nat) : ℚ) / 10 ^ 4)).1 := by
    have := get (x := dec 1 4) (by decide) (by decide) (by decide +kernel) rfl ha.costMax
    simpa using this
  have hord : a.order = .one .random := by
    obtain ⟨od, h3, h4⟩ := ha.order
    unfold IsText at h4
    rw [hd _ (by decide) (by decide)] at h4
    have h5 : noOptions.get "agent_activation_order" = .ok (.one (.str "random".toList)) := by decide +kernel
    rw [h5] at h4
    rw [h3]
    cases od <;> first | rfl | (simp [Order.name] at h4)
  have hwt : a.weights = some [1, 0, 0] := by
    obtain ⟨w, h3, h4⟩ := ha.weights
    have h5 : noOptions.get "agent_profile_distr" = .ok (.list (ints [1, 0, 0])) := by decide +kernel
    have := numbers_list ((hd _ (by decide) (by decide)).trans h5) (m := [1, 0, 0]) (.cons (.int 1) (.cons (.int 0) (.cons (.int 0) .nil))) h4
    rw [h3, this]
  have hknown : a.known = false := by
    have := ha.known
    rw [hkn] at this
    cases hk : a.known with
    | false => rfl
    | true => rw [hk] at this; cases this
  refine ⟨hn, by decide, by norm_num, hk, by decide, hmi, by decide, ⟨B64.of rel, by unfold roundedArgs; rw [hrel]; rfl⟩, ⟨B64.of ab, by unfold roundedArgs; rw [hab]; rfl⟩, .inl hord,
    by change a.scheme ≤ 2; omega, ?_, ?_, hknown, ⟨B64.of (B64.of (((4 : Nat) : ℚ) / 10 ^ 1)).1, by unfold roundedArgs; rw [hex, hex']; rfl, by decide +kernel, by decide +kernel⟩, ?_, ?_, hw.metrics,
    ⟨B64.of (B64.of (((3 : Nat) : ℚ) / 10 ^ 1)).1, ?_, by decide +kernel, by decide +kernel, ?_⟩, h2⟩
  · intro w hw
    have hw : a.weights.map (fun l => l.map B64.of) = some w := hw
    rw [hwt] at hw
    cases hw
    exact ⟨rfl, by decide +kernel, B64.of 1, by simp, by decide +kernel⟩
  · change B64.of a.inactive = 0
    rw [hina]; decide +kernel
  · change 0 ≤ B64.of a.costMin
    rw [hcmin]; decide +kernel
  · change B64.of a.costMin ≤ B64.of a.costMax
    rw [hcmin, hcmax]; decide +kernel
  · change (a.a0.map B64.of).values = _
    rw [map_values, ha0]; rfl
  · change 3 * ((100 : Nat) : ℚ) * (1 + (B64.of (B64.of (((3 : Nat) : ℚ) / 10 ^ 1)).1).1) * (B64.of a.costMax).1 ≤ 1
    rw [hcmax]; decide +kernel

/-- C127.  `python main.py` without options, in binary64: if it starts, and the thousand values drawn from the Pareto distribution add up to at most 850000, it ends after at most 2000 rounds
without an exception, whatever else is drawn and in whatever order the agents act. -/
theorem C127_default {str : Value → Text} {cwd : Text} {D D' : Disk PyFloat} {entropy : Int} {r : Started PyFloat} (hr : mainStart R str cwd D [] entropy = .ok (D', .ok r)) {d : Draws B64}
    (h1 : ∀ i, 0 ≤ d.pareto i) (h1' : ((List.range 1000).map (fun i => (d.pareto i).1)).sum ≤ 850000) (h2 : ∀ i, 0 ≤ d.cost i ∧ d.cost i < 1) {t : Turns} (ht : TurnsOK t)
    (solver : State B64 → B64) (rnd rnd4 : B64 → B64) :
    ∃ a b l, ArrivesFloat noOptions a ∧ construct a d = .ok b ∧ b.config.people.length = 1000 ∧ executeFloats R str cwd D [] entropy d solver t 2001 = (D', some (.ok l)) ∧
      Completed b rnd rnd4 2000 l := by
  have hp : parse R mainTable [] = .ok noOptions := parse_nothing C120_main
  obtain ⟨a, N, e1, ha, hw⟩ := C121_arguments hp (by decide +kernel) noOptions_usable hr
  have hin := default_inRange (fun _ _ _ => rfl) (by decide +kernel) ha hw h2
  have hsrc : a.source = .pareto := by
    have h3 := ha.source
    unfold IsText at h3
    have h5 : noOptions.get "stake_distr_source" = .ok (.one (.str "pareto".toList)) := by decide +kernel
    rw [h5] at h3
    cases hs : a.source with
    | pareto => rfl
    | file => rw [hs] at h3; simp [StakeSource.name] at h3
    | flat => rw [hs] at h3; simp [StakeSource.name] at h3
    | disparity => rw [hs] at h3; simp [StakeSource.name] at h3
  obtain ⟨raw, q1, q2⟩ := C127_pareto (d := d) (n := 1000) (k := 100) (m := 2000) (fun i _ => h1 i) (by
    calc 13 * ((1000 : Nat) : ℚ) * ((100 : Nat) : ℚ) * ((2000 : Nat) : ℚ) * (((1000 : Nat) : ℚ) + ((List.range 1000).map (fun i => (d.pareto i).1)).sum)
        ≤ 13 * ((1000 : Nat) : ℚ) * ((100 : Nat) : ℚ) * ((2000 : Nat) : ℚ) * (((1000 : Nat) : ℚ) + 850000) := by gcongr
      _ ≤ 2 ^ 51 := by norm_num)
  obtain ⟨b, l, g1, g2, g3, g4⟩ := C127_completes hin (by change rawStakes a.source 1000 d = _; rw [hsrc]; exact q1) q2 ht solver rnd rnd4
  exact ⟨roundedArgs a, b, l, arrives_rounded ha, g1, g2, by unfold executeFloats; rw [hr]; simp only [e1, g3], g4⟩

theorem one_pos64 : (0 : B64) < 1 := by decide +kernel

/-- nobody draws more than the least stake -/
def evenDraws : Draws B64 := { pareto := fun _ => 0, file := [], choice := fun _ => 0, cost := fun _ => 0, profile := fun _ => 0 }

/-- one agent draws a stake two hundred thousand times that of the others -/
def richDraws : Draws B64 := { evenDraws with pareto := fun i => if i = 7 then ((200000 : Nat) : B64) else 0 }

example : (∃ D' r, mainStart plainReader (fun _ => []) "/home".toList newDisk [] 0 = .ok (D', .ok r)) ∧ (∀ i, 0 ≤ richDraws.pareto i) ∧
    ((List.range 1000).map (fun i => (richDraws.pareto i).1)).sum ≤ 850000 ∧ ∀ i, 0 ≤ richDraws.cost i ∧ richDraws.cost i < 1 := by
  refine ⟨⟨_, _, rfl⟩, fun i => ?_, by decide +kernel, fun _ => ⟨le_rfl, one_pos64⟩⟩
  change (0 : B64) ≤ if i = 7 then _ else 0
  split
  · decide +kernel
  · exact le_rfl

/-- arguments in range that are not the default ones: ten thousand agents with equal stakes, 500 pools, another scheme, sequential activation -/
def equalArgs : Args B64 :=
  { n := .one 10000, k := .many [500], a0 := .many [1], relThr := .one 0, absThr := .one 0, maxIter := .one 2000, extraFrac := .one 1, order := .one .sequential, scheme := 2, weights := none,
    inactive := 0, known := false, costMin := 0, costMax := B64.of (1 / 4000), source := .flat, metrics := some [3, 9], conv := 10 }

example : InRange equalArgs evenDraws 10000 500 2000 ∧ ∃ raw, rawStakes equalArgs.source 10000 evenDraws = .ok raw ∧ FairShares raw 10000 500 2000 :=
  ⟨⟨rfl, by decide, by norm_num, rfl, by decide, rfl, by decide, ⟨_, rfl⟩, ⟨_, rfl⟩, .inr rfl, by decide, (fun w hw => by cases hw), rfl, rfl, ⟨1, rfl, by decide +kernel, by decide +kernel⟩, le_rfl,
    by decide +kernel, (fun l hl => by cases hl; decide), ⟨1, rfl, by decide +kernel, by decide +kernel, by decide +kernel⟩, fun _ => ⟨le_rfl, one_pos64⟩⟩,
    C127_flat evenDraws (by decide) (by decide) (by decide) (by norm_num)⟩

end RSE.Props
