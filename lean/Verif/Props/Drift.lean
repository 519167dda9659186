import Verif.Lemmas.Drift
import Verif.Props.Rounding

/-!
# C103: how far rounding can drive a pool's stake away from its pledge and delegations

In exact arithmetic the stake of a pool is its pledge plus its delegations (C20); in binary64 it is not (`C96_stake_drifts`).  The difference is bounded
by the number of turns that the agents have had.
-/

set_option linter.unusedSectionVars false

namespace RSE.Props

open RSE

/-- the stake that a pool should have: its pledge and its delegations, added up exactly -/
def fairStake (p : Pool B64) : ℚ := p.pledge.1 + (p.delegators.map (fun e => e.2.1)).sum

/-- the stake of all agents together, added up exactly -/
def allStake (c : Config B64) : ℚ := (c.people.map (fun e => e.1.1)).sum

/-- how often an event can round the stake of one pool: a turn changes it at most four times and a delayed move once; every change adds and later subtracts -/
def rounds64 : Event B64 → Nat
  | .step _ _ => 8
  | .advance _ _ => 2
  | _ => 0

theorem rounds64_cost (es : List (Event B64)) : (es.map rounds64).sum = 2 * (es.map Event.cost).sum := by
  induction es with
  | nil => rfl
  | cons e t ih =>
    rw [List.map_cons, List.map_cons, List.sum_cons, List.sum_cons, ih]
    cases e <;> simp only [rounds64, Event.cost] <;> omega

/-- C103.  After the events `es` the stake of an open pool differs from its pledge plus its delegations by at most `(1 + 2^-53)^m - 1` times twice the stake
of all agents, where `m` is eight times the number of turns plus twice the number of delayed moves (any mode, any phases). -/
theorem C103_drift {c : Config B64} (h0 : ∀ e ∈ c.people, 0 ≤ e.1) (hb : 0 ≤ c.rs.beta) {es : List (Event B64)}
    (hv : ∀ ev ∈ es, ev.Valid c.people.length) {s : State B64} (hs : iterM exec (initState c) es = .ok s) {pid : Nat} {r : Ref}
    (_hp : s.pools.get? pid = some r) :
    |(s.heap r).stake.1 - fairStake (s.heap r)| ≤ ((1 + (2 : ℚ) ^ (-53 : Int)) ^ (es.map rounds64).sum - 1) * (2 * allStake c) := by
  have hg := driftOK_graded h0
  have h := run_graded hg h0 hb es (n := 0) (Reachable.init c) (fun _ => hg.blank) hv hs r
  obtain ⟨m, hm, hd⟩ := h.drift
  have hT : 0 ≤ 2 * c.funds := by have := h.pledge; linarith [this.1, this.2]
  rw [rounds64_cost]
  exact hd.trans (slack_mono hT (by omega))

/-- `(1 + u) ^ m - 1` grows linearly at first -/
theorem pow_sub_one_le {u : ℚ} (hu : 0 < u) {m : Nat} (hm : (m : ℚ) * u ≤ 1 / 2) : (1 + u) ^ m - 1 ≤ 2 * m * u := by
  by_cases hm0 : m = 0
  · subst hm0; simp
  have hu1 : u ≤ 1 / 2 := by
    have : (1 : ℚ) ≤ (m : ℚ) := by exact_mod_cast Nat.one_le_iff_ne_zero.2 hm0
    nlinarith
  have h1 : 1 + (m : ℚ) * (-u) ≤ (1 + -u) ^ m := one_add_mul_le_pow (by linarith) m
  have h2 : (1 + u) ^ m * (1 + -u) ^ m ≤ 1 := by
    rw [← mul_pow]
    exact pow_le_one₀ (by nlinarith) (by nlinarith)
  have h3 : 0 ≤ (1 + u) ^ m := by positivity
  have h4 : (1 + u) ^ m * (1 - m * u) ≤ 1 := by nlinarith
  have h5 : 0 ≤ (m : ℚ) * u := by positivity
  nlinarith

/-- C103.  As long as there are at most `2^52` roundings, the difference is at most `m * 2^-51` times the stake of all agents. -/
theorem C103_linear {c : Config B64} (h0 : ∀ e ∈ c.people, 0 ≤ e.1) (hb : 0 ≤ c.rs.beta) {es : List (Event B64)}
    (hv : ∀ ev ∈ es, ev.Valid c.people.length) (hm : (es.map rounds64).sum ≤ 2 ^ 52) {s : State B64} (hs : iterM exec (initState c) es = .ok s)
    {pid : Nat} {r : Ref} (hp : s.pools.get? pid = some r) :
    |(s.heap r).stake.1 - fairStake (s.heap r)| ≤ (es.map rounds64).sum * (2 : ℚ) ^ (-51 : Int) * allStake c := by
  refine (C103_drift h0 hb hv hs hp).trans ?_
  have hT : 0 ≤ allStake c := by
    refine List.sum_nonneg fun x hx => ?_
    obtain ⟨e, he, rfl⟩ := List.mem_map.1 hx
    exact h0 e he
  have hm' : ((es.map rounds64).sum : ℚ) ≤ 2 ^ 52 := by exact_mod_cast hm
  have := pow_sub_one_le (u := (2 : ℚ) ^ (-53 : Int)) (by positivity) (m := (es.map rounds64).sum) (by
    calc ((es.map rounds64).sum : ℚ) * (2 : ℚ) ^ (-53 : Int) ≤ 2 ^ 52 * (2 : ℚ) ^ (-53 : Int) := by gcongr
      _ ≤ 1 / 2 := by norm_num)
  calc _ ≤ 2 * ((es.map rounds64).sum : ℚ) * (2 : ℚ) ^ (-53 : Int) * (2 * allStake c) := by gcongr
    _ = _ := by norm_num; ring

/-- C103.  A pool whose pledge exceeds the possible drift has a positive stake; the crash of C96 (a pool with stake 0) needs a smaller pledge. -/
theorem C103_positive {c : Config B64} (h0 : ∀ e ∈ c.people, 0 ≤ e.1) (hb : 0 ≤ c.rs.beta) {es : List (Event B64)}
    (hv : ∀ ev ∈ es, ev.Valid c.people.length) (hm : (es.map rounds64).sum ≤ 2 ^ 52) {s : State B64} (hs : iterM exec (initState c) es = .ok s)
    {pid : Nat} {r : Ref} (hp : s.pools.get? pid = some r) (hpl : (es.map rounds64).sum * (2 : ℚ) ^ (-51 : Int) * allStake c < (s.heap r).pledge.1) :
    0 < (s.heap r).stake := by
  have h1 := C103_linear h0 hb hv hm hs hp
  have h2 := (driftOK_graded h0)
  have h3 : 0 ≤ ((s.heap r).delegators.map (fun e => e.2.1)).sum := by
    have h := run_graded h2 h0 hb es (n := 0) (Reachable.init c) (fun _ => h2.blank) hv hs r
    exact (sumQ_le_funds h0 h.nodup h.amounts).1
  rw [abs_le] at h1
  unfold fairStake at h1
  rw [B64.lt_def]
  change (0 : ℚ) < _
  linarith [h1.1]

/-- the stakes and the fair stakes of the open pools -/
def twoStakes (s : State B64) : List (ℚ × ℚ) := s.pools.map (fun e => ((s.heap e.2).stake.1, fairStake (s.heap e.2)))

/-- The theorem at work: after eight turns all three open pools are within `2^-44` of their fair stakes, and two of them are not exact. -/
example : ∃ s : State B64, iterM exec (initState fourFloats) (turnsB [0, 1, 2, 3, 0, 1, 2, 3]) = .ok s ∧
    (∀ pid r, s.pools.get? pid = some r → |(s.heap r).stake.1 - fairStake (s.heap r)| ≤ (2 : ℚ) ^ (-44 : Int)) ∧
    twoStakes s = [(3602879701896397/9007199254740992, 14411518807585587/36028797018963968),
      (326510972984361/1125899906842624, 5224175567749775/18014398509481984), (1170935903116329/4503599627370496, 1170935903116329/4503599627370496)] := by
  have key : (iterM exec (initState fourFloats) (turnsB [0, 1, 2, 3, 0, 1, 2, 3])).toOption.map twoStakes =
      some [(3602879701896397/9007199254740992, 14411518807585587/36028797018963968),
      (326510972984361/1125899906842624, 5224175567749775/18014398509481984), (1170935903116329/4503599627370496, 1170935903116329/4503599627370496)] := by
    decide +kernel
  cases hs : iterM exec (initState fourFloats) (turnsB [0, 1, 2, 3, 0, 1, 2, 3]) with
  | error e => rw [hs] at key; cases key
  | ok s =>
    rw [hs] at key
    refine ⟨s, rfl, fun pid r hp => ?_, by simpa [Except.toOption] using key⟩
    have hv : ∀ ev ∈ turnsB [0, 1, 2, 3, 0, 1, 2, 3], ev.Valid fourFloats.people.length := by
      intro e he
      obtain ⟨a, ha, rfl⟩ := List.mem_map.1 he
      refine ⟨?_, fun _ => List.Perm.refl _⟩
      change a < 4
      simp at ha
      omega
    refine (C103_linear (by decide +kernel) (by decide +kernel) hv (by simp [turnsB, rounds64]) hs hp).trans ?_
    have h1 : allStake fourFloats ≤ 2 := by decide +kernel
    have h2 : (((turnsB [0, 1, 2, 3, 0, 1, 2, 3]).map rounds64).sum : ℚ) = 64 := by simp [turnsB, rounds64]
    rw [h2]
    calc (64 : ℚ) * (2 : ℚ) ^ (-51 : Int) * allStake fourFloats ≤ 64 * (2 : ℚ) ^ (-51 : Int) * 2 := by gcongr
      _ ≤ _ := by norm_num

end RSE.Props
