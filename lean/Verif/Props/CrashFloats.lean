import Verif.Lemmas.NoCrashFloats
import Verif.Props.Drift
import Verif.Props.Rounds

/-!
# C124: when binary64 simulations do not crash

In exact arithmetic a single-phase simulation does not raise (C29); in binary64 it can (`C96_crash`), since rounding can swallow a tiny pledge.  It does not
if the pledges exceed the bound on the rounding errors (C103) and all pools promise a profit.
-/

set_option linter.unusedSectionVars false
set_option exponentiation.threshold 2000

namespace RSE.Props

open RSE

/-- what rounding can do to the stake of a pool during the events `es` (C103) -/
def driftBound (c : Config B64) (es : List (Event B64)) : ℚ := (es.map rounds64).sum * (2 : ℚ) ^ (-51 : Int) * allStake c

/-- what each of `m` pools costs, as computed from the cost of one pool and the extra cost of further ones -/
def costOf (m : Nat) (cost f : B64) : B64 := (cost + ((m - 1 : Nat) : B64) * f * cost) / (m : B64)

/-- the smallest pledge that an agent with this stake can put into a pool is more than `D` -/
def PledgesExceed (c : Config B64) (D : ℚ) (stake : B64) : Prop := D < (stake / (c.rs.k : B64)).1 ∧ D < c.rs.beta.1

/-- whatever the number of pools, a saturated one earns its cost -/
def SaturatedPays (c : Config B64) (stake cost : B64) : Prop := ∀ m, 1 ≤ m → m ≤ c.rs.k →
  costOf m cost c.extraFrac < c.rs.reward (min (stake / (m : B64)) c.rs.beta) (c.rs.sat (min (stake / (m : B64)) c.rs.beta))

theorem slack_le_driftBound {c : Config B64} (h0 : ∀ e ∈ c.people, 0 ≤ e.1) {es : List (Event B64)} (hm : (es.map rounds64).sum ≤ 2 ^ 52) :
    slack (2 * c.funds) (es.map rounds64).sum ≤ driftBound c es := by
  have hT : 0 ≤ allStake c := by
    refine List.sum_nonneg fun x hx => ?_
    obtain ⟨e, he, rfl⟩ := List.mem_map.1 hx
    exact h0 e he
  have hm' : ((es.map rounds64).sum : ℚ) ≤ 2 ^ 52 := by exact_mod_cast hm
  have := pow_sub_one_le (u := (2 : ℚ) ^ (-53 : Int)) (by positivity) (m := (es.map rounds64).sum) (by
    calc ((es.map rounds64).sum : ℚ) * (2 : ℚ) ^ (-53 : Int) ≤ 2 ^ 52 * (2 : ℚ) ^ (-53 : Int) := by gcongr
      _ ≤ 1 / 2 := by norm_num)
  change ((1 + (2 : ℚ) ^ (-53 : Int)) ^ (es.map rounds64).sum - 1) * (2 * allStake c) ≤ _
  calc _ ≤ 2 * ((es.map rounds64).sum : ℚ) * (2 : ℚ) ^ (-53 : Int) * (2 * allStake c) := by gcongr
    _ = _ := by unfold driftBound; norm_num; ring

theorem driftBound_nonneg {c : Config B64} (h0 : ∀ e ∈ c.people, 0 ≤ e.1) (es : List (Event B64)) : 0 ≤ driftBound c es := by
  have hT : 0 ≤ allStake c := by
    refine List.sum_nonneg fun x hx => ?_
    obtain ⟨e, he, rfl⟩ := List.mem_map.1 hx
    exact h0 e he
  unfold driftBound
  positivity

theorem costOf_nonneg {m : Nat} (hm : 1 ≤ m) {cost f : B64} (hc : 0 ≤ cost) (hf : 0 ≤ f) : 0 ≤ costOf m cost f :=
  RoundedArith.div_nonneg (RoundedArith.add_nonneg hc (RoundedArith.mul_nonneg (RoundedArith.mul_nonneg (RoundedArith.cast_nonneg _) hf) hc))
    (RoundedArith.zero_lt_one.trans_le (RoundedArith.one_le_cast (by omega)))

theorem solid_of {c : Config B64} (hb : 0 < c.rs.beta) (hf : 0 ≤ c.extraFrac) (h0 : ∀ e ∈ c.people, 0 ≤ e.1 ∧ 0 ≤ e.2.1) {D : ℚ} (hD : 0 ≤ D)
    (hpl : ∀ e ∈ c.people, e.2.2 ≠ .abstainer → PledgesExceed c D e.1) (hpay : ∀ e ∈ c.people, e.2.2 ≠ .abstainer → SaturatedPays c e.1 e.2.1) : Solid c D := by
  intro e he hne m q co h1 h2 hq hco
  have hm0 : m ≠ 0 := by omega
  unfold pledgePerPool at hq
  rw [if_neg hm0] at hq
  unfold costPerPool at hco
  rw [if_neg hm0] at hco
  cases hq
  cases hco
  obtain ⟨p1, p2⟩ := hpl e he hne
  have hpm := hpay e he hne m h1 h2
  have hcost := costOf_nonneg h1 (h0 e he).2 hf
  have hdiv : e.1 / (c.rs.k : B64) ≤ e.1 / (m : B64) := RoundedArith.div_mono (h0 e he).1 le_rfl
    (RoundedArith.zero_lt_one.trans_le (RoundedArith.one_le_cast hm0)) (RoundedArith.cast_mono h2)
  have hlt : D < (min (e.1 / (m : B64)) c.rs.beta).1 := by
    rcases min_choice (e.1 / (m : B64)) c.rs.beta with h | h <;> rw [h]
    · exact p1.trans_le hdiv
    · exact p2
  refine ⟨hlt, hD.trans_lt hlt, B64.sub_pos hpm, ?_⟩
  by_cases hs : c.rs.scheme = .cip50
  · intro hz
    rw [hz] at hpm
    have hr : c.rs.reward (min (e.1 / (m : B64)) c.rs.beta) 0 = 0 := by
      unfold RS.reward
      rw [hs]
      simp only
      rw [hz, min_self]
      exact RoundedArith.mul_zero _
    rw [hr] at hpm
    exact absurd hcost (not_le.2 hpm)
  · have : c.rs.sat (min (e.1 / (m : B64)) c.rs.beta) = c.rs.beta := by
      unfold RS.sat
      split
      · rename_i h; exact absurd h hs
      · rfl
    rw [this]
    exact hb.ne'

/-- C124.  In binary64 a sequential or random single-phase simulation with `k ≥ 1` whose agents can only open pools with pledges above the possible rounding
error and with saturated rewards above their costs does not raise: every sequence of turns leads to a state (any reward scheme). -/
theorem C124_no_crash {c : Config B64} (hc : c.simultaneous = false) (hk : 1 ≤ c.rs.k) (hb : 0 < c.rs.beta) (hf : 0 ≤ c.extraFrac)
    (h0 : ∀ e ∈ c.people, 0 ≤ e.1 ∧ 0 ≤ e.2.1) {es : List (Event B64)} (hes : ∀ ev ∈ es, ev.Valid c.people.length ∧ ∀ p, ev ≠ .phase p)
    (hm : (es.map rounds64).sum ≤ 2 ^ 52) (hpl : ∀ e ∈ c.people, e.2.2 ≠ .abstainer → PledgesExceed c (driftBound c es) e.1)
    (hpay : ∀ e ∈ c.people, e.2.2 ≠ .abstainer → SaturatedPays c e.1 e.2.1) : ∃ s, iterM exec (initState c) es = .ok s := by
  have h0' : ∀ e ∈ c.people, 0 ≤ e.1 := fun e he => (h0 e he).1
  have hg := driftOK_graded h0'
  refine run_ok64 hc hk h0' hb.le (solid_of hb hf h0 (driftBound_nonneg h0' es) hpl hpay) es (N := 0) ⟨[], by simp, rfl⟩ (fun _ => hg.blank) hes ?_
  rw [Nat.zero_add, ← rounds64_cost]
  exact slack_le_driftBound h0' hm

/-! ### A simpler sufficient condition -/

/-- the reward of a saturated pool is at least that of a pool without pledge, also in binary64 -/
theorem saturated_ge {rs : RS B64} (hs : rs.scheme ≠ .cip50) (hb : 0 < rs.beta) (ha : 0 ≤ rs.a0) {q : B64} (hq : 0 ≤ q) :
    (1 / (1 + rs.a0)) * rs.beta ≤ rs.reward q (rs.sat q) := by
  have h1a : (0 : B64) < 1 + rs.a0 := RoundedArith.zero_lt_one.trans_le (RoundedArith.le_add ha)
  have hc : (0 : B64) ≤ 1 / (1 + rs.a0) := RoundedArith.div_nonneg RoundedArith.zero_lt_one.le h1a
  have hp : 0 ≤ min q rs.beta := le_min hq hb.le
  have hpa := RoundedArith.mul_nonneg hp ha
  have hap := RoundedArith.mul_nonneg ha hp
  unfold RS.reward RS.sat
  cases hsch : rs.scheme with
  | cip50 => exact absurd hsch hs
  | cardano =>
    simp only [min_self]
    rw [RoundedArith.div_self hb.ne', RoundedArith.sub_self, RoundedArith.mul_zero, RoundedArith.sub_zero, RoundedArith.div_self hb.ne', RoundedArith.mul_one]
    exact RoundedArith.mul_left_mono hc (RoundedArith.le_add hpa)
  | simplified =>
    simp only [min_self]
    have h1 : (1 : B64) ≤ 1 + rs.a0 * min q rs.beta / rs.beta := RoundedArith.le_add (RoundedArith.div_nonneg hap hb)
    have h2 := RoundedArith.mul_left_mono (RoundedArith.mul_nonneg hc hb.le) h1
    rwa [RoundedArith.mul_one] at h2
  | flat =>
    simp only [min_self]
    exact RoundedArith.mul_left_mono hc (RoundedArith.le_add hap)

theorem fits_double (a : B64) : round64 (2 * a.1) = 2 * a.1 := by
  obtain ⟨m, e, hm, he, hq⟩ := (by have := fits_round64 a.1; rwa [a.2] at this : Fits a.1)
  refine round64_of_fits ⟨m, e + 1, hm, by omega, ?_⟩
  rw [hq, zpow_add₀ (by norm_num : (2 : ℚ) ≠ 0)]
  ring

/-- the cost per pool is at most twice the cost of one pool (without rounding it is at most that cost) -/
theorem costOf_le {m : Nat} (h1 : 1 ≤ m) (hm : m ≤ 2 ^ 53) {cost f : B64} (hc : 0 ≤ cost) (hf : f ≤ 1) : (costOf m cost f).1 ≤ 2 * cost.1 := by
  have hc' : (0 : ℚ) ≤ cost.1 := hc
  have hcast : ((m - 1 : Nat) : B64) * f ≤ ((m - 1 : Nat) : B64) := by
    have := RoundedArith.mul_left_mono (RoundedArith.cast_nonneg (F := B64) (m - 1)) hf
    rwa [RoundedArith.mul_one] at this
  have hy : (((m - 1 : Nat) : B64) * f * cost).1 ≤ (m : ℚ) * cost.1 := by
    refine (B64.le_def.1 (RoundedArith.mul_right_mono hc hcast)).trans ?_
    change round64 ((((m - 1 : Nat) : B64)).1 * cost.1) ≤ _
    have hv : ((m - 1 : Nat) : B64).1 = ((m - 1 : Nat) : ℚ) := B64.round64_natCast (by omega)
    rw [hv]
    obtain ⟨g, hg⟩ := B64.grid cost
    have herr := round64_err_grid (q := ((m - 1 : Nat) : ℚ) * cost.1) ⟨((m - 1 : Nat) : Int) * g, by rw [hg]; push_cast; ring⟩
    have hnn : (0 : ℚ) ≤ ((m - 1 : Nat) : ℚ) * cost.1 := by positivity
    rw [abs_of_nonneg hnn] at herr
    have h2 := (abs_le.1 herr).2
    have h3 : ulp * ((m - 1 : Nat) : ℚ) ≤ 1 := by
      have : ((m - 1 : Nat) : ℚ) ≤ 2 ^ 53 := by exact_mod_cast (by omega : m - 1 ≤ 2 ^ 53)
      calc ulp * ((m - 1 : Nat) : ℚ) ≤ ulp * 2 ^ 53 := mul_le_mul_of_nonneg_left this ulp_pos.le
        _ = 1 := by unfold ulp; norm_num
    have h4 : ulp * ((m - 1 : Nat) : ℚ) * cost.1 ≤ 1 * cost.1 := mul_le_mul_of_nonneg_right h3 hc'
    have h5 : (m : ℚ) = ((m - 1 : Nat) : ℚ) + 1 := by exact_mod_cast (by omega : m = m - 1 + 1)
    rw [h5]
    nlinarith
  have hx : (cost + ((m - 1 : Nat) : B64) * f * cost).1 ≤ 2 * m * cost.1 := by
    rcases Nat.lt_or_ge m 2 with hm2 | hm2
    · have : m = 1 := by omega
      subst this
      have : ((1 - 1 : Nat) : B64) * f * cost = 0 := by
        rw [Nat.sub_self, RoundedArith.cast_zero, RoundedArith.zero_mul, RoundedArith.zero_mul]
      rw [this, RoundedArith.add_zero]
      push_cast
      linarith
    · have herr := B64.add_err cost (((m - 1 : Nat) : B64) * f * cost)
      set y := (((m - 1 : Nat) : B64) * f * cost) with hyd
      have hm2' : (2 : ℚ) ≤ m := by exact_mod_cast hm2
      have hsum : cost.1 + y.1 ≤ (m + 1) * cost.1 := by linarith
      have hu : ulp ≤ 1 / 4 := by unfold ulp; norm_num
      by_cases hpos : 0 ≤ cost.1 + y.1
      · rw [abs_of_nonneg hpos] at herr
        have := (abs_le.1 herr).2
        have h6 : ulp * (cost.1 + y.1) ≤ 1 / 4 * (cost.1 + y.1) := mul_le_mul_of_nonneg_right hu hpos
        nlinarith
      · have : (cost + y).1 ≤ 0 := by
          change round64 (cost.1 + y.1) ≤ 0
          rw [← round64_zero]
          exact round64_mono (not_le.1 hpos).le
        have : (0 : ℚ) ≤ 2 * m * cost.1 := by positivity
        linarith
  have hmv : ((m : Nat) : B64).1 = (m : ℚ) := B64.round64_natCast hm
  have hmpos : (0 : ℚ) < m := by exact_mod_cast h1
  change round64 ((cost + ((m - 1 : Nat) : B64) * f * cost).1 / ((m : Nat) : B64).1) ≤ _
  rw [← fits_double cost, hmv]
  refine round64_mono ?_
  rw [div_le_iff₀ hmpos]
  linarith

/-- C124.  For all schemes but CIP-50, with `a0 ≥ 0` and further pools no more expensive than the first, it suffices that the costs are less than half of what a
saturated pool without pledge earns, `beta / (1 + a0)`. -/
theorem C124_cheap_pools {c : Config B64} (hc : c.simultaneous = false) (hs : c.rs.scheme ≠ .cip50) (hk : 1 ≤ c.rs.k) (hk' : c.rs.k ≤ 2 ^ 53) (hb : 0 < c.rs.beta)
    (ha : 0 ≤ c.rs.a0) (hf : 0 ≤ c.extraFrac) (hf' : c.extraFrac ≤ 1) (h0 : ∀ e ∈ c.people, 0 ≤ e.1 ∧ 0 ≤ e.2.1)
    (hcost : ∀ e ∈ c.people, e.2.2 ≠ .abstainer → 2 * e.2.1.1 < ((1 / (1 + c.rs.a0)) * c.rs.beta).1)
    {es : List (Event B64)} (hes : ∀ ev ∈ es, ev.Valid c.people.length ∧ ∀ p, ev ≠ .phase p)
    (hm : (es.map rounds64).sum ≤ 2 ^ 52) (hpl : ∀ e ∈ c.people, e.2.2 ≠ .abstainer → PledgesExceed c (driftBound c es) e.1) :
    ∃ s, iterM exec (initState c) es = .ok s := by
  refine C124_no_crash hc hk hb hf h0 hes hm hpl (fun e he hne m h1 h2 => ?_)
  have hq : 0 ≤ min (e.1 / (m : B64)) c.rs.beta := le_min (RoundedArith.div_nonneg (h0 e he).1
    (RoundedArith.zero_lt_one.trans_le (RoundedArith.one_le_cast (by omega)))) hb.le
  refine lt_of_lt_of_le ?_ (saturated_ge hs hb ha hq)
  rw [B64.lt_def]
  exact (costOf_le h1 (h2.trans hk') (h0 e he).2 hf').trans_lt (hcost e he hne)

/-! ### Rounds -/

/-- the turns of the rounds `0, …, R - 1`: round `i` activates the agents `order i`, which iterate sets as `ords i` says -/
def turnsOfRounds (order : Nat → List Nat) (ords : Nat → Nat → List Nat → List Nat) (R : Nat) : List (Event B64) :=
  (List.range R).flatMap (fun i => (order i).zipIdx.map (fun e => .step e.1 (ords i e.2)))

theorem rounds64_turns (order : Nat → List Nat) (ords : Nat → Nat → List Nat → List Nat) {n : Nat} (hn : ∀ i, (order i).length = n) (R : Nat) :
    ((turnsOfRounds order ords R).map rounds64).sum = 8 * n * R := by
  have h1 : ∀ l : List (Nat × Nat), ∀ g : Nat → List Nat → List Nat, ((l.map (fun e => (Event.step e.1 (g e.2) : Event B64))).map rounds64).sum = 8 * l.length := by
    intro l g
    induction l with
    | nil => rfl
    | cons e t ih => rw [List.map_cons, List.map_cons, List.sum_cons, ih, List.length_cons]; simp only [rounds64]; omega
  unfold turnsOfRounds
  induction R with
  | zero => rfl
  | succ R ih =>
    rw [List.range_succ, List.flatMap_append, List.map_append, List.sum_append, ih, List.flatMap_cons, List.flatMap_nil, List.append_nil, h1, List.length_zipIdx, hn]
    ring

/-- C124.  So `R` rounds of `n` agents do not raise if `8 * n * R * 2^-51` times the stake of all agents is less than `beta` and less than the stake of each agent
that can open pools, divided by `k`. -/
theorem C124_rounds {c : Config B64} (hc : c.simultaneous = false) (hk : 1 ≤ c.rs.k) (hb : 0 < c.rs.beta) (hf : 0 ≤ c.extraFrac)
    (h0 : ∀ e ∈ c.people, 0 ≤ e.1 ∧ 0 ≤ e.2.1) {order : Nat → List Nat} (ho : ∀ i, (order i).Perm (List.range c.people.length))
    {ords : Nat → Nat → List Nat → List Nat} (hords : ∀ i j l, (ords i j l).Perm l) {R : Nat} (hR : c.people.length * R ≤ 2 ^ 49)
    (hpl : ∀ e ∈ c.people, e.2.2 ≠ .abstainer → PledgesExceed c (8 * c.people.length * R * (2 : ℚ) ^ (-51 : Int) * allStake c) e.1)
    (hpay : ∀ e ∈ c.people, e.2.2 ≠ .abstainer → SaturatedPays c e.1 e.2.1) :
    ∃ s, iterM (fun s i => roundSequential (ords i) (order i) s) (initState c) (List.range R) = .ok s := by
  have hlen : ∀ i, (order i).length = c.people.length := fun i => by rw [(ho i).length_eq, List.length_range]
  have hsum := rounds64_turns order ords hlen R
  have hD : driftBound c (turnsOfRounds order ords R) = 8 * c.people.length * R * (2 : ℚ) ^ (-51 : Int) * allStake c := by
    unfold driftBound; rw [hsum]; push_cast; ring
  obtain ⟨s, hs⟩ := C124_no_crash hc hk hb hf h0 (es := turnsOfRounds order ords R) (by
      intro ev hev
      obtain ⟨i, -, hi⟩ := List.mem_flatMap.1 hev
      obtain ⟨e, he, rfl⟩ := List.mem_map.1 hi
      refine ⟨⟨List.mem_range.1 ((ho i).mem_iff.1 (List.fst_mem_of_mem_zipIdx he)), hords i _⟩, fun p => by simp⟩)
    (by rw [hsum]; have : 8 * c.people.length * R = 8 * (c.people.length * R) := by ring
        rw [this]; omega)
    (by rw [hD]; exact hpl) hpay
  refine ⟨s, ?_⟩
  rw [← hs]
  unfold turnsOfRounds
  rw [List.flatMap_def, ← iterM_flatten, iterM_map]
  congr 1
  funext s i
  rw [iterM_map]
  rfl

/-! ### The theorems at work -/

theorem saturatedPays_four : ∀ e ∈ fourFloats.people, SaturatedPays fourFloats e.1 e.2.1 := by
  intro e he m h1 h2
  have hk : fourFloats.rs.k = 2 := rfl
  rw [hk] at h2
  have key : ∀ m ∈ [1, 2], ∀ e ∈ fourFloats.people, costOf m e.2.1 fourFloats.extraFrac <
    fourFloats.rs.reward (min (e.1 / (m : B64)) fourFloats.rs.beta) (fourFloats.rs.sat (min (e.1 / (m : B64)) fourFloats.rs.beta)) := by decide +kernel
  refine key m ?_ e he
  rw [List.mem_cons, List.mem_singleton]; omega

/-- A million rounds of the four agents of `C96_stake_drifts`, in any orders, do not raise, though the stakes of their pools drift. -/
example {order : Nat → List Nat} (ho : ∀ i, (order i).Perm (List.range 4)) {ords : Nat → Nat → List Nat → List Nat} (hords : ∀ i j l, (ords i j l).Perm l) :
    ∃ s, iterM (fun s i => roundSequential (ords i) (order i) s) (initState fourFloats) (List.range 1000000) = .ok s :=
  C124_rounds rfl (by decide) (by decide +kernel) (by decide +kernel) (by decide +kernel) ho hords (by decide)
    (fun e he _ => (by decide +kernel : ∀ e ∈ fourFloats.people,
      (8 * (fourFloats.people.length : ℚ) * (1000000 : Nat) * (2 : ℚ) ^ (-51 : Int) * allStake fourFloats < (e.1 / (fourFloats.rs.k : B64)).1 ∧
       8 * (fourFloats.people.length : ℚ) * (1000000 : Nat) * (2 : ℚ) ^ (-51 : Int) * allStake fourFloats < fourFloats.rs.beta.1)) e he)
    (fun e he _ => saturatedPays_four e he)

/-- The costs of these agents are also small enough for the simpler condition. -/
example : ∀ e ∈ fourFloats.people, 2 * e.2.1.1 < ((1 / (1 + fourFloats.rs.a0)) * fourFloats.rs.beta).1 := by decide +kernel

/-- two agents whose pools pay, one of them with a stake of `10 ^ -18` -/
def dustPays : Config B64 :=
  { rs := { scheme := .cardano, k := 1, beta := 1, a0 := flt 3 10 }, relThr := 0, absThr := 0, extraFrac := flt 1 2, simultaneous := false,
    people := [(flt 1 (10 ^ 18), flt 1 1000, .nonMyopic), (flt 3 10, flt 1 10, .nonMyopic)], totalStake := 1 }

/-- C124.  The condition on the pledges cannot be dropped: here all others hold, but a pledge is smaller than the bound, and the sixth turn raises. -/
theorem C124_pledges_needed : dustPays.simultaneous = false ∧ 1 ≤ dustPays.rs.k ∧ 0 < dustPays.rs.beta ∧ 0 ≤ dustPays.extraFrac ∧
    (∀ e ∈ dustPays.people, 0 < e.1 ∧ 0 < e.2.1) ∧ (∀ e ∈ dustPays.people, SaturatedPays dustPays e.1 e.2.1) ∧
    iterM exec (initState dustPays) (turnsB [1, 0, 1, 0, 1, 0]) = .error .zeroDiv := by
  refine ⟨rfl, by decide, by decide +kernel, by decide +kernel, by decide +kernel, ?_, ?_⟩
  · intro e he m h1 h2
    have hk : dustPays.rs.k = 1 := rfl
    rw [hk] at h2
    have : m = 1 := by omega
    subst this
    have key : ∀ e ∈ dustPays.people, costOf 1 e.2.1 dustPays.extraFrac <
      dustPays.rs.reward (min (e.1 / ((1 : Nat) : B64)) dustPays.rs.beta) (dustPays.rs.sat (min (e.1 / ((1 : Nat) : B64)) dustPays.rs.beta)) := by decide +kernel
    exact key e he
  · have : (match iterM exec (initState dustPays) (turnsB [1, 0, 1, 0, 1, 0]) with
      | .error e => some e
      | .ok _ => none) = some .zeroDiv := by decide +kernel
    cases h : iterM exec (initState dustPays) (turnsB [1, 0, 1, 0, 1, 0]) with
    | error e => rw [h] at this; simp only [Option.some.injEq] at this; rw [this]
    | ok s => rw [h] at this; cases this

end RSE.Props
