import Verif.Lemmas.Nearest
import Verif.Lemmas.Terms
import Verif.Lemmas.Count
import Verif.Spec.Demo

/-!
# C96: what rounding leaves of the bounds, and what it breaks

`F` is any arithmetic with the laws of `Spec/Rounded.lean`: exact arithmetic and binary64 (`B64`).
-/

set_option linter.unusedSectionVars false

namespace RSE.Props

/-- the binary64 numbers -/
def IsFloat (q : ℚ) : Prop := ∃ m e : Int, |m| < 2 ^ 53 ∧ -1074 ≤ e ∧ q = (m : ℚ) * (2 : ℚ) ^ e

/-- `r` is what rounding to nearest, ties to even, makes of the exact result `q`: no float is nearer, and if another one is equally near, then the significand of `r`
is even when both are written with the same exponent -/
def RoundsTo (q r : ℚ) : Prop :=
  IsFloat r ∧ ∀ f, IsFloat f → |r - q| ≤ |f - q| ∧ (|r - q| = |f - q| → f ≠ r → ∃ m e : Int, r = (2 * m : Int) * (2 : ℚ) ^ e ∧ |f - r| = (2 : ℚ) ^ e)

theorem isFloat_iff {q : ℚ} : IsFloat q ↔ Fits q := by
  constructor
  · rintro ⟨m, e, hm, he, h⟩
    refine ⟨m, e, ?_, he, h⟩
    rw [Int.abs_eq_natAbs] at hm
    have : ((m.natAbs : Int)) < ((2 ^ 53 : Nat) : Int) := by exact_mod_cast hm
    omega
  · rintro ⟨m, e, hm, he, h⟩
    rcases Nat.lt_or_ge m.natAbs (2 ^ 53) with hlt | hge
    · refine ⟨m, e, ?_, he, h⟩
      rw [Int.abs_eq_natAbs]
      exact_mod_cast hlt
    · have hme : m.natAbs = 2 ^ 53 := le_antisymm hm hge
      have h2 : m = 2 * (m / 2) := by omega
      refine ⟨m / 2, e + 1, ?_, by omega, ?_⟩
      · rw [Int.abs_eq_natAbs]
        have : (m / 2).natAbs < 2 ^ 53 := by omega
        exact_mod_cast this
      · rw [h, zpow_add₀ (by norm_num), zpow_one]
        conv_lhs => rw [h2]
        push_cast; ring

theorem roundsTo_round64 (q : ℚ) : RoundsTo q (round64 q) :=
  ⟨isFloat_iff.2 (fits_round64 q), fun _ hf => round64_nearest q (isFloat_iff.1 hf)⟩

/-- C96.  The arithmetic of the following theorems is binary64: the numbers are the floats, and every operation is rounded to nearest, ties to even. -/
theorem C96_arithmetic :
    (∀ q : ℚ, IsFloat q ↔ ∃ a : B64, a.1 = q) ∧
    (∀ a b : B64, (a ≤ b ↔ a.1 ≤ b.1) ∧ RoundsTo (a.1 + b.1) (a + b).1 ∧ RoundsTo (a.1 - b.1) (a - b).1 ∧ RoundsTo (a.1 * b.1) (a * b).1 ∧
      RoundsTo (a.1 / b.1) (a / b).1 ∧ (-a).1 = -a.1) ∧
    (∀ l : List B64, RoundsTo (l.map (fun a : B64 => a.1)).sum (FSum.fsum l).1) ∧
    (∀ n : Nat, RoundsTo n ((n : B64)).1) ∧ (0 : B64).1 = 0 ∧ (1 : B64).1 = 1 ∧ RoundsTo (22 / 10 ^ 18) (minUnit : B64).1 ∧ RoundsTo (1 / 10 ^ 6) (boost : B64).1 := by
  refine ⟨fun q => ⟨fun h => ⟨⟨q, round64_of_fits (isFloat_iff.1 h)⟩, rfl⟩, ?_⟩, fun a b => ⟨Iff.rfl, roundsTo_round64 _, roundsTo_round64 _, roundsTo_round64 _,
    roundsTo_round64 _, rfl⟩, fun l => roundsTo_round64 _, fun n => roundsTo_round64 _, rfl, B64.one_val, ?_, ?_⟩
  · rintro ⟨a, rfl⟩
    rw [← a.2]
    exact isFloat_iff.2 (fits_round64 _)
  · have : (minUnit : B64).1 = round64 (22 / 10 ^ 18) := by decide +kernel
    rw [this]; exact roundsTo_round64 _
  · have : (boost : B64).1 = round64 (1 / 10 ^ 6) := by decide +kernel
    rw [this]; exact roundsTo_round64 _

/-- C96.  The relative error of an operation is at most `2 ^ -53`, unless the result is among the smallest numbers. -/
theorem C96_error (q : ℚ) : |(B64.of q).1 - q| ≤ max (|q| * (2 : ℚ) ^ (-53 : Int)) ((2 : ℚ) ^ (-1075 : Int)) := round64_err q

section
variable {F : Type} [LinearOrder F] [Zero F] [One F] [Add F] [Sub F] [Mul F] [Div F] [Neg F] [NatCast F] [FSum F] [RoundedArith F]

/-- C96.  The pledge of an open pool is between 0 and its owner's stake (any mode, any phases, with or without rounding). -/
theorem C96_pledges {c : Config F} {s : State F} (h : Reachable c s) (h0 : ∀ e ∈ c.people, 0 ≤ e.1) (hb : 0 ≤ c.rs.beta)
    {pid : Nat} {r : Ref} (hp : s.pools.get? pid = some r) :
    0 ≤ (s.heap r).pledge ∧ ∃ ag, s.agents.get? (s.heap r).owner = some ag ∧ (s.heap r).pledge ≤ ag.stake := by
  have hg := h.good RoundedArith.minUnit_pos
  obtain ⟨ag, σ, ha, hσ, ho⟩ := hg.inv.owner hp
  obtain ⟨rs, f, hrs, hsh⟩ := ((h.terms h0 hb).2 _ _ ha).strategy σ hσ
  have hne : σ.owned ≠ [] := by intro he; rw [he] at ho; cases ho
  obtain ⟨q, co, hq, -, hqe, hall⟩ := hsh.exists_terms hne
  have hs := hg.stake_ge h0 ha
  rw [(hall pid r ho).1]
  refine ⟨pledge_nonneg hq hs hrs, ag, ha, ?_⟩
  rw [hqe]
  exact (min_le_left _ _).trans (RoundedArith.div_le hs (RoundedArith.one_le_cast (by simpa using hne)))

/-- C96.  A delegation is at least one `MIN_STAKE_UNIT` and at most the delegator's stake. -/
theorem C96_delegations {c : Config F} {s : State F} (h : Reachable c s) (h0 : ∀ e ∈ c.people, 0 ≤ e.1) (hb : 0 ≤ c.rs.beta)
    {b : Nat} {ag : Agent F} {σ : Strategy F} (ha : s.agents.get? b = some ag) (hσ : ag.strategy = some σ) :
    ∀ e ∈ σ.allocs, minUnit ≤ e.2 ∧ e.2 ≤ ag.stake := by
  obtain ⟨rs, f, -, hsh⟩ := ((h.terms h0 hb).2 _ _ ha).strategy σ hσ
  exact fun e he => ⟨(h.allocsMin RoundedArith.minUnit_pos _ _ ha).1 σ hσ e he, hsh.le trivial e he⟩

/-- the records of a pool's delegations are in order -/
structure Recorded (p : Pool F) : Prop where
  nodup : p.delegators.keys.Nodup
  min : ∀ e ∈ p.delegators, minUnit ≤ e.2

theorem recorded_upd : UpdOK (Recorded (F := F)) := by
  intro p x a h hx
  refine ⟨nodup_updateDelegation h.nodup x a, ?_⟩
  unfold Pool.updateDelegation
  simp only
  intro e he
  split at he
  · rw [Dict.set_erase] at he
    exact h.min e ((Dict.erase_sublist _ _).subset he)
  · rename_i hge
    rcases Dict.mem_set he with rfl | he
    · exact not_lt.1 hge
    · exact h.min e he

theorem Reachable.recorded {c : Config F} {s : State F} (h : Reachable c s) : AllPools Recorded s :=
  h.allPools RoundedArith.minUnit_pos recorded_upd ⟨List.nodup_nil, by simp [blankPool]⟩ (fun rs p hp => ⟨hp.nodup, hp.min⟩)
    (fun s s₁ me ag σ _ _ _ _ _ _ => by
      intro m margins u q c _ _ _ _ _
      exact ⟨fun p m _ h => ⟨h.nodup, h.min⟩, fun pid a m _ => ⟨List.nodup_nil, fun e he => by cases he⟩⟩)

/-- C96.  A pool lists no delegator twice, and no delegation below one `MIN_STAKE_UNIT`. -/
theorem C96_records {c : Config F} {s : State F} (h : Reachable c s) {pid : Nat} {r : Ref} (_hp : s.pools.get? pid = some r) :
    ((s.heap r).delegators.map (fun e => e.1)).Nodup ∧ ∀ e ∈ (s.heap r).delegators, (minUnit : F) ≤ e.2 :=
  ⟨(Reachable.recorded h r).nodup, (Reachable.recorded h r).min⟩

/-- C96.  Rewards are not negative as long as the pool has at least its pledge as stake. -/
theorem C96_rewards (rs : RS F) (hb : 0 < rs.beta) (ha : 0 ≤ rs.a0) {pledge stake : F} (hp : 0 ≤ pledge) (hs : pledge ≤ stake) :
    0 ≤ rs.reward pledge stake := by
  have h1 := RoundedArith.zero_lt_one (F := F)
  have h1a : (0 : F) < 1 + rs.a0 := h1.trans_le (RoundedArith.le_add ha)
  have hR : (0 : F) ≤ totalRewards / (1 + rs.a0) := RoundedArith.div_nonneg h1.le h1a
  have p0 : 0 ≤ min pledge rs.beta := le_min hp hb.le
  have s0 : 0 ≤ min stake rs.beta := le_min (hp.trans hs) hb.le
  have ps : min pledge rs.beta ≤ min stake rs.beta := min_le_min_right _ hs
  unfold RS.reward
  split
  · refine RoundedArith.mul_nonneg hR (RoundedArith.add_nonneg s0 (RoundedArith.mul_nonneg (RoundedArith.mul_nonneg p0 ha) (RoundedArith.div_nonneg ?_ hb)))
    refine RoundedArith.sub_nonneg (le_trans ?_ ps)
    have hq := RoundedArith.div_nonneg s0 hb
    have := RoundedArith.mul_left_mono p0 (RoundedArith.sub_le (a := (1 : F)) hq)
    rwa [RoundedArith.mul_one] at this
  · exact RoundedArith.mul_nonneg (RoundedArith.mul_nonneg hR s0) (RoundedArith.add_nonneg h1.le (RoundedArith.div_nonneg (RoundedArith.mul_nonneg ha p0) hb))
  · exact RoundedArith.mul_nonneg hR (RoundedArith.add_nonneg s0 (RoundedArith.mul_nonneg ha p0))
  · refine RoundedArith.mul_nonneg h1.le (le_min (hp.trans hs) ?_)
    unfold RS.sat
    split
    · exact le_min (RoundedArith.mul_nonneg ha hp) hb.le
    · exact hb.le

/-- C96.  A pool with more stake does not get a smaller reward, also if every operation rounds. -/
theorem C96_reward_mono (rs : RS F) (hb : 0 < rs.beta) (ha : 0 ≤ rs.a0) {pledge stake stake' : F} (hp : 0 ≤ pledge) (h : stake ≤ stake') :
    rs.reward pledge stake ≤ rs.reward pledge stake' := by
  have h1 := RoundedArith.zero_lt_one (F := F)
  have h1a : (0 : F) < 1 + rs.a0 := h1.trans_le (RoundedArith.le_add ha)
  have hR : (0 : F) ≤ totalRewards / (1 + rs.a0) := RoundedArith.div_nonneg h1.le h1a
  have p0 : 0 ≤ min pledge rs.beta := le_min hp hb.le
  have hs : min stake rs.beta ≤ min stake' rs.beta := min_le_min_right _ h
  unfold RS.reward
  split
  · refine RoundedArith.mul_left_mono hR (RoundedArith.add_mono hs (RoundedArith.mul_left_mono (RoundedArith.mul_nonneg p0 ha)
      (RoundedArith.div_right_mono hb (RoundedArith.sub_mono hs (RoundedArith.mul_left_mono p0 (RoundedArith.sub_mono le_rfl
        (RoundedArith.div_right_mono hb hs)))))))
  · exact RoundedArith.mul_right_mono (RoundedArith.add_nonneg h1.le (RoundedArith.div_nonneg (RoundedArith.mul_nonneg ha p0) hb))
      (RoundedArith.mul_left_mono hR hs)
  · exact RoundedArith.mul_left_mono hR (RoundedArith.add_mono hs le_rfl)
  · exact RoundedArith.mul_left_mono h1.le (min_le_min_right _ h)

end

/-! ### Binary64 -/

/-- the float with the value nearest to `n / d` -/
def flt (n d : Nat) : B64 := B64.of ((n : ℚ) / (d : ℚ))

/-- the turns of the agents `l` -/
def turnsB (l : List Nat) : List (Event B64) := l.map (fun a => .step a id)

theorem reachable_of_runB {α : Type} {c : Config B64} {l : List Nat} (hl : ∀ a ∈ l, a < c.people.length)
    {f : State B64 → α} {v : α} (h : (iterM exec (initState c) (turnsB l)).toOption.map f = some v) : ∃ s, ReachableSinglePhase c s ∧ f s = v := by
  cases hs : iterM exec (initState c) (turnsB l) with
  | error e => rw [hs] at h; cases h
  | ok s =>
    rw [hs] at h
    refine ⟨s, ⟨turnsB l, ?_, hs⟩, by simpa [Except.toOption] using h⟩
    intro e he
    obtain ⟨a, ha, rfl⟩ := List.mem_map.1 he
    exact ⟨⟨hl a ha, fun _ => List.Perm.refl _⟩, fun p => by simp⟩

/-- four agents, `k = 2` -/
def fourFloats : Config B64 :=
  { rs := { scheme := .cardano, k := 2, beta := flt 1 2, a0 := flt 3 10 }, relThr := 0, absThr := 0, extraFrac := flt 1 2, simultaneous := false,
    people := [(flt 30 100, flt 4 1000, .nonMyopic), (flt 29 100, flt 5 1000, .nonMyopic), (flt 26 100, flt 6 1000, .nonMyopic), (flt 10 100, flt 4 1000, .nonMyopic)],
    totalStake := 1 }

/-- pledge and stake of the pool `pid`, if it has no delegators -/
def emptied (pid : Nat) (s : State B64) : Option (ℚ × ℚ) :=
  (s.pools.get? pid).bind (fun r => if (s.heap r).delegators.length = 0 then some ((s.heap r).pledge.1, (s.heap r).stake.1) else none)

/-- C96.  In binary64 the stake of a pool need not be its pledge plus its delegations (C20): here a pool that has lost its delegators is left with a stake
that is larger than its pledge. -/
theorem C96_stake_drifts : ∃ s : State B64, ReachableSinglePhase fourFloats s ∧
    ∃ r, s.pools.get? 3 = some r ∧ (s.heap r).delegators = [] ∧ (s.heap r).pledge < (s.heap r).stake := by
  obtain ⟨s, hs, hv⟩ := reachable_of_runB (c := fourFloats) (l := [0, 1, 2, 3, 0, 1, 2, 3]) (by decide)
    (f := emptied 3) (v := some (5224175567749775/18014398509481984, 326510972984361/1125899906842624)) (by decide +kernel)
  refine ⟨s, hs, ?_⟩
  unfold emptied at hv
  cases hp : s.pools.get? 3 with
  | none => rw [hp] at hv; cases hv
  | some r =>
    rw [hp] at hv
    simp only [Option.bind_some] at hv
    split at hv
    · rename_i hd
      simp only [Option.some.injEq, Prod.mk.injEq] at hv
      refine ⟨r, rfl, List.length_eq_zero_iff.1 hd, ?_⟩
      rw [B64.lt_def, hv.1, hv.2]
      decide +kernel
    · cases hv

/-- one agent who splits its stake over three pools -/
def splitFloats : Config B64 :=
  { rs := { scheme := .cardano, k := 3, beta := flt 1 3, a0 := flt 3 10 }, relThr := 0, absThr := 0, extraFrac := flt 1 2, simultaneous := false,
    people := [(flt 23 100, flt 14 1000, .myopic)], totalStake := 1 }

/-- what an agent has pledged and delegated, exactly -/
def committed (s : State B64) (σ : Strategy B64) : ℚ := (σ.allocs.map (fun e => e.2.1)).sum + (σ.owned.map (fun e => (s.heap e.2).pledge.1)).sum

/-- the stake of an agent and what it has committed -/
def budget (a : Nat) (s : State B64) : Option (ℚ × ℚ) :=
  (s.agents.get? a).bind (fun ag => ag.strategy.map (fun σ => (ag.stake.1, committed s σ)))

/-- C96.  In binary64 an agent can pledge more than its stake (C22): three times a third of the stake, rounded, is more than the stake. -/
theorem C96_overcommitted : ∃ s : State B64, ReachableSinglePhase splitFloats s ∧
    ∃ ag σ, s.agents.get? 0 = some ag ∧ ag.strategy = some σ ∧ ag.stake.1 < committed s σ := by
  obtain ⟨s, hs, hv⟩ := reachable_of_runB (c := splitFloats) (l := [0]) (by decide)
    (f := budget 0) (v := some (8286623314361713/36028797018963968, 16573246628723427/72057594037927936)) (by decide +kernel)
  refine ⟨s, hs, ?_⟩
  unfold budget at hv
  cases ha : s.agents.get? 0 with
  | none => rw [ha] at hv; cases hv
  | some ag =>
    rw [ha] at hv
    simp only [Option.bind_some] at hv
    cases hσ : ag.strategy with
    | none => rw [hσ] at hv; cases hv
    | some σ =>
      rw [hσ] at hv
      simp only [Option.map_some, Option.some.injEq, Prod.mk.injEq] at hv
      refine ⟨ag, σ, rfl, hσ, ?_⟩
      rw [hv.1, hv.2]
      decide +kernel

/-- three agents, one of them cannot afford a pool -/
def threeFloats : Config B64 :=
  { rs := { scheme := .simplified, k := 1, beta := 1, a0 := flt 3 10 }, relThr := 0, absThr := 0, extraFrac := flt 1 2, simultaneous := false,
    people := [(flt 1 10, flt 3 100, .nonMyopic), (flt 5 10, flt 5 100, .nonMyopic), (flt 3 10, 1, .nonMyopic)], totalStake := 1 }

instance decShown₁ : DecidableEq (Option ℚ × Option ℚ × Nat) := instDecidableEqProd
instance decShown₂ : DecidableEq (ℚ × ℚ × Option ℚ × Option ℚ × Nat) := instDecidableEqProd
instance decShown₃ : DecidableEq ((ℚ × ℚ × Option ℚ × Option ℚ × Nat) × ℚ) := instDecidableEqProd
instance decShown₄ : DecidableEq (Option ((ℚ × ℚ × Option ℚ × Option ℚ × Nat) × ℚ) × Bool × Option ((ℚ × ℚ × Option ℚ × Option ℚ × Nat) × ℚ)) :=
  instDecidableEqProd

/-- pledge, margin and delegations of agents 0 and 2 in the only open pool (id 2), and its stake -/
def shown (s : State B64) : Option ((ℚ × ℚ × Option ℚ × Option ℚ × Nat) × ℚ) :=
  if s.pools.length = 1 then
    (s.pools.get? 2).map (fun r => (((s.heap r).pledge.1, (s.heap r).margin.1, ((s.heap r).delegators.get? 0).map (fun x => x.1),
      ((s.heap r).delegators.get? 2).map (fun x => x.1), (s.heap r).delegators.length), (s.heap r).stake.1))
  else none

/-- before and after a turn of agent 2 -/
def turnOf2 (s : State B64) : Option (Option ((ℚ × ℚ × Option ℚ × Option ℚ × Nat) × ℚ) × Bool × Option ((ℚ × ℚ × Option ℚ × Option ℚ × Nat) × ℚ)) :=
  (exec s (.step 2 id)).toOption.map (fun s' => (shown s, s'.idle, shown s'))

/-- C96.  In binary64 planning can change the stake of a pool (C19): agent 2 takes its delegation out of the pool in order to plan, puts it back, changes
nothing - the round still counts as idle, the pool has the same delegations - and the stake of the pool is not what it was. -/
theorem C96_planning_disturbs : ∃ s s' : State B64, ReachableSinglePhase threeFloats s ∧ exec s (.step 2 id) = .ok s' ∧ s'.idle = true ∧
    ∃ v x x', shown s = some (v, x) ∧ shown s' = some (v, x') ∧ x ≠ x' := by
  have key : (iterM exec (initState threeFloats) (turnsB [0, 1, 2, 0] ++ [.roundEnd])).toOption.map turnOf2 =
      some (some (some ((1/2, 780347216539771/9007199254740992, some (3602879701896397/36028797018963968), some (5404319552844595/18014398509481984), 2),
          8106479329266893/9007199254740992), true,
        some ((1/2, 780347216539771/9007199254740992, some (3602879701896397/36028797018963968), some (5404319552844595/18014398509481984), 2),
          4053239664633447/4503599627370496))) := by decide +kernel
  cases hs : iterM exec (initState threeFloats) (turnsB [0, 1, 2, 0] ++ [.roundEnd]) with
  | error e => rw [hs] at key; cases key
  | ok s =>
    rw [hs] at key
    replace key : turnOf2 s = _ := Option.some.inj key
    unfold turnOf2 at key
    cases hs' : exec s (.step 2 id) with
    | error e => rw [hs'] at key; cases key
    | ok s' =>
      rw [hs'] at key
      have key' := Option.some.inj key
      simp only [Prod.mk.injEq] at key'
      refine ⟨s, s', ⟨turnsB [0, 1, 2, 0] ++ [.roundEnd], ?_, hs⟩, hs', key'.2.1, _, _, _, key'.1, key'.2.2, by decide +kernel⟩
      intro e he
      rcases List.mem_append.1 he with he | he
      · obtain ⟨a, ha, rfl⟩ := List.mem_map.1 he
        have hlt : ∀ a ∈ [0, 1, 2, 0], a < threeFloats.people.length := by decide
        exact ⟨⟨hlt a ha, fun _ => List.Perm.refl _⟩, fun p => by simp⟩
      · rw [List.mem_singleton] at he
        subst he
        exact ⟨trivial, fun p => by simp⟩

/-- an operator with a stake of `10 ^ -18` -/
def dustFloats : Config B64 :=
  { rs := { scheme := .cardano, k := 1, beta := 1, a0 := flt 3 10 }, relThr := 0, absThr := 0, extraFrac := flt 1 2, simultaneous := false,
    people := [(flt 1 (10 ^ 18), flt 1 100, .nonMyopic), (flt 3 10, flt 9 10, .nonMyopic), (flt 5 10, flt 1 1000, .nonMyopic)], totalStake := 1 }

/-- C96.  In binary64 a simulation with positive stakes can raise `ZeroDivisionError`, which it cannot in exact arithmetic (C29): a pledge of `10 ^ -18` is lost
when a delegator of the pool comes and goes, and the operator then divides by a stake of 0. -/
theorem C96_crash : iterM exec (initState dustFloats) (turnsB [0, 1, 2, 1, 0]) = .error .zeroDiv := by
  have : (match iterM exec (initState dustFloats) (turnsB [0, 1, 2, 1, 0]) with
    | .error e => some e
    | .ok _ => none) = some .zeroDiv := by decide +kernel
  cases h : iterM exec (initState dustFloats) (turnsB [0, 1, 2, 1, 0]) with
  | error e => rw [h] at this; simp only [Option.some.injEq] at this; rw [this]
  | ok s => rw [h] at this; cases this

/-- the exact theorem (C29) covers this configuration: its stakes are positive, its threshold is positive, it is sequential and its scheme is not CIP-50 -/
example : (∀ e ∈ dustFloats.people, 0 < e.1) ∧ 0 < dustFloats.rs.beta ∧ 0 ≤ dustFloats.rs.a0 ∧ 1 ≤ dustFloats.rs.k ∧ dustFloats.simultaneous = false ∧
    dustFloats.rs.scheme ≠ .cip50 := by decide +kernel

/-- the hypotheses of the bounds are met: binary64 has the laws, and the run above leads to a state with three pools -/
example : ∃ s : State B64, Reachable fourFloats s ∧ (∀ e ∈ fourFloats.people, 0 ≤ e.1) ∧ 0 ≤ fourFloats.rs.beta ∧ s.pools.length = 3 ∧
    ∃ ag σ, s.agents.get? 3 = some ag ∧ ag.strategy = some σ ∧ σ.allocs.length = 1 := by
  obtain ⟨s, hs, hv⟩ := reachable_of_runB (c := fourFloats) (l := [0, 1, 2, 3, 0, 1, 2, 3]) (by decide)
    (f := fun s => (s.pools.length, (s.agents.get? 3).bind (fun ag => ag.strategy.map (fun σ => σ.allocs.length)))) (v := (3, some 1)) (by decide +kernel)
  simp only [Prod.mk.injEq] at hv
  refine ⟨s, Reachable.of_single hs, by decide +kernel, by decide +kernel, hv.1, ?_⟩
  cases ha : s.agents.get? 3 with
  | none => rw [ha] at hv; cases hv.2
  | some ag =>
    rw [ha] at hv
    cases hσ : ag.strategy with
    | none => rw [Option.bind_some, hσ] at hv; cases hv.2
    | some σ =>
      rw [Option.bind_some, hσ] at hv
      exact ⟨ag, σ, rfl, hσ, by simpa using hv.2⟩

end RSE.Props
