import Verif.Props.Planned
import Verif.Props.Placed
import Verif.Props.Viable
import Verif.Props.Accounting
import Verif.Props.Equilibrium
import Verif.Props.Loop

/-!
# C113: a family of simulations that end in an equilibrium after one round of moves

Sequential or random activation, single phase, exact arithmetic, any reward scheme but CIP-50, any number of agents and any `k`.
-/

set_option linter.unusedSectionVars false

namespace RSE.Props

variable {K : Type} [Field K] [LinearOrder K] [IsStrictOrderedRing K]

/-! ### Arithmetic -/

/-- how much of the bonus for pledging a pool gets that consists of its pledge, `x` of the saturation threshold -/
def bonusShare (scheme : Scheme) (x : K) : K :=
  match scheme with
  | .cardano => x * x
  | .simplified => x
  | _ => 1

theorem reward_own {rs : RS K} (hs : rs.scheme ≠ .cip50) (hb : 0 < rs.beta) {p : K} (hp : p ≤ rs.beta) :
    rs.reward p p = p * ((1 + rs.a0 * bonusShare rs.scheme (p / rs.beta)) / (1 + rs.a0)) := by
  unfold RS.reward bonusShare totalRewards
  have hb' := hb.ne'
  cases h : rs.scheme with
  | cardano => simp only [min_eq_left hp]; field_simp; ring
  | simplified => simp only [min_eq_left hp]; field_simp
  | flat => simp only [min_eq_left hp]; field_simp
  | cip50 => exact absurd h hs

theorem bonusShare_mono (scheme : Scheme) {x y : K} (h0 : 0 ≤ x) (h : x ≤ y) : bonusShare scheme x ≤ bonusShare scheme y := by
  unfold bonusShare
  cases scheme with
  | cardano => exact mul_le_mul h h h0 (h0.trans h)
  | simplified => exact h
  | flat => exact le_rfl
  | cip50 => exact le_rfl

theorem reward_own_full {rs : RS K} (hs : rs.scheme ≠ .cip50) (hb : 0 < rs.beta) (ha : 0 ≤ rs.a0) : rs.reward rs.beta rs.beta = rs.beta := by
  have h1 : (1 + rs.a0) ≠ 0 := by positivity
  have hg : bonusShare rs.scheme (rs.beta / rs.beta) = 1 := by
    rw [div_self hb.ne']; unfold bonusShare; cases rs.scheme <;> simp
  rw [reward_own hs hb le_rfl, hg, mul_one, div_self h1, mul_one]

/-- splitting a stake over more pools does not raise what they earn by themselves -/
theorem split_own {rs : RS K} (hs : rs.scheme ≠ .cip50) (hb : 0 < rs.beta) (ha : 0 ≤ rs.a0) {x : K} (hx : 0 ≤ x) {n : Nat} (hn : 1 ≤ n)
    (hle : x / (n : K) ≤ rs.beta) :
    ((n + 1 : Nat) : K) * rs.reward (x / ((n + 1 : Nat) : K)) (x / ((n + 1 : Nat) : K)) ≤ (n : K) * rs.reward (x / (n : K)) (x / (n : K)) := by
  have hn0 : (0 : K) < (n : K) := by exact_mod_cast hn
  have hn1 : (0 : K) < ((n + 1 : Nat) : K) := by exact_mod_cast Nat.succ_pos n
  have hdiv : x / ((n + 1 : Nat) : K) ≤ x / (n : K) := div_le_div_of_nonneg_left hx hn0 (by push_cast; linarith)
  rw [reward_own hs hb hle, reward_own hs hb (hdiv.trans hle), ← mul_assoc, ← mul_assoc, mul_div_cancel₀ _ hn0.ne', mul_div_cancel₀ _ hn1.ne']
  have h1 : (0 : K) < 1 + rs.a0 := by linarith
  have hx0 : 0 ≤ x / ((n + 1 : Nat) : K) / rs.beta := by positivity
  have := bonusShare_mono rs.scheme hx0 (div_le_div_of_nonneg_right hdiv hb.le)
  refine mul_le_mul_of_nonneg_left (div_le_div_of_nonneg_right ?_ h1.le) hx
  have := mul_le_mul_of_nonneg_left this ha
  linarith

/-- the operator of a pool without other stake keeps all of its profit, whatever the margin -/
theorem operatorIncome_own {rs : RS K} {p : Pool K} (h : p.stake = p.pledge) (h0 : p.pledge ≠ 0) :
    operatorIncome rs p = rs.reward p.pledge p.pledge - p.cost := by
  unfold operatorIncome
  rw [h, div_self h0]
  split
  · rfl
  · ring

/-! ### The agents -/

/-- An agent that would operate exactly one pool, a private one: its stake is enough to saturate one pool but not two, one saturated pool pays (by more than
the absolute threshold and by at least two units), and with two or more pools, even saturated ones, each would earn less than a unit. -/
structure Sole (c : Config K) (e : K × K × Profile) : Prop where
  profile : e.2.2 = .nonMyopic
  one : c.rs.beta ≤ e.1
  two : e.1 < 2 * c.rs.beta
  cost : 0 < e.2.1
  pays : c.absThr < c.rs.beta - e.2.1
  unit : 2 / 1000000 ≤ c.rs.beta - e.2.1
  split : ∀ n : Nat, 2 ≤ n → n ≤ c.rs.k →
    saturatedReward c.rs.scheme c.rs.beta c.rs.a0 (e.1 / (n : K)) - (e.2.1 + ((n : K) - 1) * c.extraFrac * e.2.1) / (n : K) < 1 / 1000000

/-- the simulations that C113 is about -/
structure SoleWorld (c : Config K) : Prop where
  mode : c.simultaneous = false
  scheme : c.rs.scheme ≠ .cip50
  k : 1 ≤ c.rs.k
  beta : 0 < c.rs.beta
  a0 : 0 ≤ c.rs.a0
  extra : 0 < c.extraFrac
  rel : 0 ≤ c.relThr
  abs : 0 ≤ c.absThr
  stakes : ∀ e ∈ c.people, 0 < e.1
  people : ∀ (b : Nat) e, c.people[b]? = some e → Sole c e ∨ ¬ CouldProfit c b

theorem SoleWorld.sane {c : Config K} (h : SoleWorld c) : SaneScheme c := fun h' => absurd h' h.scheme

theorem fullAt_ne {rs : RS K} (h : rs.scheme ≠ .cip50) (p : K) : fullAt rs p = rs.beta := by unfold fullAt; rw [if_neg h]

theorem reward_saturated {rs : RS K} (hs : rs.scheme ≠ .cip50) (hb : 0 < rs.beta) (p : K) :
    rs.reward p rs.beta = saturatedReward rs.scheme rs.beta rs.a0 p := by
  have := potentialProfit_eq hb p (0 : K)
  unfold potentialProfit at this
  rw [sat_of_ne hs] at this
  simpa using this

/-- what such an agent plans for one pool -/
theorem plan_one {c : Config K} (hw : SoleWorld c) {me : Agent K} (hS : Sole c (me.stake, me.cost, me.profile)) {own : K} {x : K × K} {m v : K}
    (h : PoolPlan c.rs c.extraFrac me own 1 x m v) : v = c.rs.beta - me.cost := by
  unfold PoolPlan at h
  have hp := hS.profile
  have h1 := hS.one
  simp only at hp h1
  simp only [fullAt_ne hw.scheme, hp, if_true, Nat.cast_one, div_one, sub_self, zero_mul, add_zero, min_eq_right h1] at h
  have key : ∀ m, operatorIncome c.rs (ownPool me.id c.rs.beta me.cost m c.rs.beta) = c.rs.beta - me.cost := by
    intro m
    rw [operatorIncome_own (p := ownPool me.id c.rs.beta me.cost m c.rs.beta) rfl hw.beta.ne']
    change c.rs.reward c.rs.beta c.rs.beta - me.cost = _
    rw [reward_own_full hw.scheme hw.beta hw.a0]
  by_cases ht : c.rs.reward c.rs.beta c.rs.beta - me.cost < x.1 + 1 / 1000000
  · rw [(h.1 ht).2, key]
  · rw [(h.2 (not_lt.1 ht)).2, key]

/-- what such an agent plans for each of several pools -/
theorem plan_more {c : Config K} (hw : SoleWorld c) {me : Agent K} (hS : Sole c (me.stake, me.cost, me.profile)) {own : K} {n : Nat} (hn : 2 ≤ n)
    (hk : n ≤ c.rs.k) {x : K × K} (hx : 0 ≤ x.1) {m v : K} (h : PoolPlan c.rs c.extraFrac me own n x m v) :
    v = c.rs.reward (me.stake / n) (me.stake / n) - (me.cost + ((n : K) - 1) * c.extraFrac * me.cost) / n := by
  unfold PoolPlan at h
  have hp := hS.profile
  have h2 := hS.two
  have h1 := hS.one
  have hsp := hS.split n hn hk
  simp only at hp h2 h1 hsp
  have hn2 : (2 : K) ≤ (n : K) := by exact_mod_cast hn
  have hn0 : (0 : K) < (n : K) := by linarith
  have hle : me.stake / (n : K) ≤ c.rs.beta := by
    rw [div_le_iff₀ hn0]; nlinarith [hw.beta]
  have hpos : 0 < me.stake / (n : K) := div_pos (lt_of_lt_of_le hw.beta h1) hn0
  simp only [fullAt_ne hw.scheme, hp, if_true, min_eq_left hle, reward_saturated hw.scheme hw.beta] at h
  obtain ⟨-, hv⟩ := h.1 (by linarith)
  rw [hv, operatorIncome_own (p := ownPool me.id _ _ m _) rfl hpos.ne']
  rfl

theorem sum_const_of {l : List K} {v : K} (h : ∀ i (hi : i < l.length), l[i] = v) : l.sum = (l.length : K) * v := by
  have : l = List.replicate l.length v := List.eq_replicate_iff.2 ⟨rfl, fun b hb => by
    obtain ⟨i, hi, rfl⟩ := List.getElem_of_mem hb; exact h i hi⟩
  conv_lhs => rw [this]
  simp

theorem operatorPlan_sum {rs : RS K} {f : K} {pools : List (Pool K)} {me : Agent K} {own : K} {n : Nat} {ms : List K} {u w : K}
    (h : OperatorPlan rs f pools me own n ms u) (hv : ∀ x m v, 0 ≤ x.1 → PoolPlan rs f me own n x m v → v = w) : u = (n : K) * w := by
  obtain ⟨-, us, hl, rfl, hall⟩ := h
  rw [← hl]
  refine sum_const_of (fun i hi => ?_)
  obtain ⟨m, v, x, -, h2, h3, h4⟩ := hall (i + 1) (by omega) (by omega)
  rw [Nat.add_sub_cancel, List.getElem?_eq_getElem hi] at h2
  rw [Option.some.inj h2]
  exact hv x m v h3.fst h4

/-- such an agent plans exactly one pool -/
theorem plans_one {c : Config K} (hw : SoleWorld c) {me : Agent K} (hS : Sole c (me.stake, me.cost, me.profile)) {own : K} {pools : List (Pool K)} {n : Nat}
    (h1 : 1 ≤ n) (hk : n ≤ c.rs.k) {ms : List K} {u : K} (hpl : OperatorPlan c.rs c.extraFrac pools me own n ms u)
    (hmax : ∀ n', (n' + 1 = n ∨ n' = n + 1) → 1 ≤ n' → n' ≤ c.rs.k → (∃ ms' u', OperatorPlan c.rs c.extraFrac pools me own n' ms' u') ∧
      ∀ ms' u', OperatorPlan c.rs c.extraFrac pools me own n' ms' u' → u' ≤ u) : n = 1 := by
  by_contra hne
  have hn : 2 ≤ n := by omega
  obtain ⟨⟨ms', u', hpl'⟩, hle⟩ := hmax (n - 1) (by omega) (by omega) (by omega)
  replace hle := hle _ _ hpl'
  have e1 := operatorPlan_sum hpl (fun x m v hx h => plan_more hw hS hn hk hx h)
  have hcost := hS.cost
  have hone := hS.one
  have htwo := hS.two
  simp only at hcost hone htwo
  have hn0 : (0 : K) < (n : K) := by exact_mod_cast (show 0 < n by omega)
  have hstake : 0 < me.stake := lt_of_lt_of_le hw.beta hone
  have ef : ∀ {m : Nat} {R : K}, 0 < (m : K) → (m : K) * (R - (me.cost + ((m : K) - 1) * c.extraFrac * me.cost) / (m : K)) =
      (m : K) * R - (me.cost + ((m : K) - 1) * c.extraFrac * me.cost) := by
    intro m R hm
    rw [mul_sub, mul_div_cancel₀ _ hm.ne']
  by_cases h2 : n = 2
  · subst h2
    have e2 := operatorPlan_sum hpl' (fun x m v _ h => plan_one hw hS h)
    have hsp := hS.split 2 le_rfl hk
    have hu := hS.unit
    simp only at hsp hu
    rw [← reward_saturated hw.scheme hw.beta] at hsp
    have hle2 : me.stake / ((2 : Nat) : K) ≤ c.rs.beta := by
      rw [div_le_iff₀ hn0]; push_cast; linarith
    have hm := C02_reward_mono_stake c.rs hw.beta hw.a0 (me.stake / ((2 : Nat) : K)) (div_pos hstake hn0).le _ _ hle2
    rw [e1, e2] at hle
    push_cast at hle hsp hm
    linarith
  · obtain ⟨j, rfl⟩ : ∃ j, n = j + 1 := ⟨n - 1, by omega⟩
    rw [Nat.add_sub_cancel] at hpl'
    have e2 := operatorPlan_sum hpl' (fun x m v hx h => plan_more hw hS (by omega) (by omega) hx h)
    have hj0 : (0 : K) < (j : K) := by exact_mod_cast (show 0 < j by omega)
    have hj2 : (2 : K) ≤ (j : K) := by exact_mod_cast (show 2 ≤ j by omega)
    rw [ef hn0] at e1
    rw [ef hj0] at e2
    have hle2 : me.stake / (j : K) ≤ c.rs.beta := by
      rw [div_le_iff₀ hj0]; nlinarith [hw.beta]
    have hs := split_own hw.scheme hw.beta hw.a0 hstake.le (n := j) (by omega) hle2
    rw [e1, e2] at hle
    have hfc : 0 < c.extraFrac * me.cost := mul_pos hw.extra hcost
    have : (((j + 1 : Nat) : K) - 1) * c.extraFrac * me.cost = ((j : K) - 1) * c.extraFrac * me.cost + c.extraFrac * me.cost := by push_cast; ring
    linarith

/-! ### States without delegations -/

/-- the pools of an agent, as its strategy records them -/
def ownListOf (s : State K) (b : Nat) : Option (Dict Ref) := ((s.agents.get? b).map Agent.skel).bind (fun x => x.2.2.2.2.1)

theorem ownListOf_eq {s : State K} {b : Nat} {ag : Agent K} {σ : Strategy K} (ha : s.agents.get? b = some ag) (hσ : ag.strategy = some σ) :
    ownListOf s b = some σ.owned := by simp [ownListOf, ha, Agent.skel, hσ]

theorem ownListOf_some {s : State K} {b : Nat} {d : Dict Ref} (h : ownListOf s b = some d) :
    ∃ ag σ, s.agents.get? b = some ag ∧ ag.strategy = some σ ∧ σ.owned = d := by
  unfold ownListOf at h
  obtain ⟨x, h1, h2⟩ := Option.bind_eq_some_iff.1 h
  obtain ⟨ag, h3, rfl⟩ := Option.map_eq_some_iff.1 h1
  obtain ⟨σ, h4, h5⟩ := Option.map_eq_some_iff.1 h2
  exact ⟨ag, σ, h3, h4, h5⟩

/-- nobody delegates and nobody operates more than one pool -/
structure Solitary (s : State K) : Prop where
  allocs : ∀ b pid, allocOf s b pid = none
  few : ∀ b d, ownListOf s b = some d → d.length ≤ 1

/-- the agent operates a pool -/
def Owns (s : State K) (b : Nat) : Prop := ∃ d, ownListOf s b = some d ∧ d ≠ []

theorem Solitary.strategy {s : State K} (h : Solitary s) {b : Nat} {ag : Agent K} {σ : Strategy K} (ha : s.agents.get? b = some ag) (hσ : ag.strategy = some σ) :
    σ.allocs = [] ∧ σ.owned.length ≤ 1 := by
  refine ⟨?_, h.few b _ (ownListOf_eq ha hσ)⟩
  cases hd : σ.allocs with
  | nil => rfl
  | cons e t =>
    have := h.allocs b e.1
    rw [allocOf_eq_allocsOf ha] at this
    simp [allocsOf, hσ, hd, Dict.get?] at this

theorem SoleWorld.sole_of_owner {c : Config K} (hw : SoleWorld c) {s : State K} (h : ReachableSinglePhase c s) {b : Nat} {ag : Agent K} {σ : Strategy K}
    (ha : s.agents.get? b = some ag) (hσ : ag.strategy = some σ) (hne : σ.owned ≠ []) : Sole c (ag.stake, ag.cost, ag.profile) := by
  have hg := (Reachable.of_single h).good minUnit_pos
  obtain ⟨⟨pid, r⟩, he⟩ := List.exists_mem_of_ne_nil _ hne
  obtain ⟨h1, h2⟩ := hg.inv.owned ha hσ (Dict.get?_of_mem ((hg.inv.tidy b ag ha).owned _ hσ) he)
  have hcp := C87_operators_could_profit h hw.mode hw.stakes hw.beta hw.a0 h1
  rw [h2] at hcp
  exact (hw.people b _ (hg.person ha)).resolve_right (fun hn => hn hcp)

/-- the pools in such states -/
theorem Solitary.pools {c : Config K} (hw : SoleWorld c) {s : State K} (h : ReachableSinglePhase c s) (hq : Solitary s) {pid : Nat} {r : Ref}
    (hp : s.pools.get? pid = some r) :
    (∃ e, c.people[(s.heap r).owner]? = some e ∧ Sole c e ∧ (s.heap r).cost = e.2.1) ∧ (s.heap r).pledge = c.rs.beta ∧ (s.heap r).stake = c.rs.beta ∧
      (s.heap r).isPrivate = true ∧ (s.heap r).delegators = [] := by
  have hr := Reachable.of_single h
  have hg := hr.good minUnit_pos
  obtain ⟨ag, σ, ha, hσ, ho⟩ := hg.inv.owner hp
  have hne : σ.owned ≠ [] := by intro h; rw [h] at ho; cases ho
  have hS := hw.sole_of_owner h ha hσ hne
  have hlen : σ.owned.length = 1 := le_antisymm (hq.strategy ha hσ).2 (List.length_pos_iff.2 hne)
  obtain ⟨e1, e2, -, -⟩ := C65_pools_of_an_operator_are_alike minUnit_pos h ha hσ ho
  have hone := hS.one
  simp only at hone
  rw [hlen, Nat.cast_one, div_one, min_eq_right hone] at e1
  have hpr : (s.heap r).isPrivate = true := by
    rw [C24_private_iff_pledge_saturates minUnit_pos h hp, sat_of_ne hw.scheme, e1]
  obtain ⟨g1, g2, -⟩ := C24_private_pools_have_no_delegators hw.mode hr hp hpr
  refine ⟨⟨_, hg.person ha, hS, ?_⟩, e1, g2.trans e1, hpr, g1⟩
  rw [hlen] at e2
  unfold costPerPool at e2
  simp at e2
  exact e2.symm

theorem dict_nil {α : Type} {d : Dict α} (h : ∀ pid, d.get? pid = none) : d = [] := by
  cases d with
  | nil => rfl
  | cons e t => have := h e.1; simp [Dict.get?] at this

theorem openPools_get? (s : State K) (pid : Nat) : (openPools s).get? pid = (s.pools.get? pid).map (fun r => { s.heap r with delegators := [] }) := by
  unfold openPools
  induction s.pools with
  | nil => rfl
  | cons e t ih =>
    simp only [List.map_cons, Dict.get?]
    split
    · rfl
    · exact ih

/-- there is no pool to delegate to -/
theorem Solitary.placed_nil {c : Config K} (hw : SoleWorld c) {s : State K} (h : ReachableSinglePhase c s) (hq : Solitary s) {rs : RS K} {me : Agent K}
    {before : Dict K} {stake : K} {d : Dict K} (hd : PlacedAll rs (openPools s) me before stake d) : d = [] := by
  refine dict_nil (fun pid => ?_)
  rw [hd.2, openPools_get?]
  cases hp : s.pools.get? pid with
  | none => rfl
  | some r =>
    have := (hq.pools hw h hp).2.2.2.1
    simp [placed, this]

/-- a saturated pool of an agent's own is expected to stay as it is -/
theorem operating_own {c : Config K} (hw : SoleWorld c) {total : K} {others mine : List (Pool K)} {p : Pool K} (h1 : p.pledge = c.rs.beta)
    (h2 : p.stake = c.rs.beta) : operating c.rs total .nonMyopic others mine p = c.rs.beta - p.cost := by
  have hl : longRun c.rs total (others ++ mine) p = c.rs.beta := by
    unfold longRun
    rw [fullAt_ne hw.scheme, h1, h2, max_self]
    split <;> rfl
  change operatorIncome c.rs (matured c.rs total (others ++ mine) p) = _
  unfold matured
  rw [hl, operatorIncome_own (p := withStake p c.rs.beta) h1.symm (by change p.pledge ≠ 0; rw [h1]; exact hw.beta.ne')]
  change c.rs.reward p.pledge p.pledge - p.cost = _
  rw [h1, reward_own_full hw.scheme hw.beta hw.a0]

/-- what an agent decides in such a state -/
theorem Solitary.plan {c : Config K} (hw : SoleWorld c) {s s' : State K} (h : ReachableSinglePhase c s) (hq : Solitary s) {a : Nat} {ag : Agent K}
    {σ : Strategy K} (ha : s.agents.get? a = some ag) (hσ : ag.strategy = some σ) {ord : List Nat → List Nat} (hord : ∀ l, (ord l).Perm l)
    {oν : Option (Strategy K)} (hp : planMove ord s ag σ = .ok (s', oν)) :
    (Sole c (ag.stake, ag.cost, ag.profile) → σ.owned = [] → ∃ ν, oν = some ν ∧ ν.owned.length = 1 ∧ ν.allocs = []) ∧
    (Sole c (ag.stake, ag.cost, ag.profile) → σ.owned ≠ [] → oν = none) ∧
    (∀ ν, σ.owned = [] → oν = some ν → ν.owned ≠ []) := by
  have hr := Reachable.of_single h
  have hg := hr.good minUnit_pos
  have hpar := h.params minUnit_pos
  obtain ⟨s₁, δ, ω, ou, f1, f2, f3, f4, f5⟩ := C94_plan hr ha hσ (.inl hw.mode) hord hp
  obtain ⟨s₁', δ', ω', ou', f1', f2', hn1, hnk, ⟨u, hpl, hmax⟩, hdr⟩ := C93_plan hr ha hσ (.inl hw.mode) hord hp
  obtain ⟨s₁'', δ'', ω'', f1'', -, ⟨ou'', f2''⟩, hωne, d1, d2, d3⟩ := C90_plan hr ha hσ (.inl hw.mode) hord hp
  rw [f1] at f1' f1''
  cases f1'; cases f1''
  rw [f2] at f2' f2''
  cases f2'; cases f2''
  have hδ := hq.placed_nil hw h f4
  have hω := hq.placed_nil hw h f5
  obtain ⟨hσa, hσl⟩ := hq.strategy ha hσ
  rw [hpar.rs, hpar.relThr, hpar.absThr, hδ, hω, hσa] at d1 d2 d3
  simp only [expectation, List.map_nil, List.sum_nil, add_zero] at d1 d2 d3
  simp only [income, hσa, List.map_nil, List.sum_nil, add_zero] at d1 d2 d3
  have hrel := hw.rel
  have habs := hw.abs
  -- one pool, saturated by its pledge
  have hop : Sole c (ag.stake, ag.cost, ag.profile) → ω.owned.length = 1 ∧
      ∀ total others mine, (ω.owned.map (fun e => s'.heap e.2)).map (operating c.rs total ag.profile others mine) = [c.rs.beta - ag.cost] := by
    intro hS
    rw [hpar.rs, hpar.extraFrac] at hpl hmax hdr
    rw [hpar.rs] at hnk
    have hn := plans_one hw hS hn1 hnk hpl hmax
    refine ⟨hn, fun total others mine => ?_⟩
    cases hl : ω.owned with
    | nil => exact absurd hl hωne
    | cons e t =>
      rw [hl] at hn
      cases t with
      | cons _ _ => simp at hn
      | nil =>
        rw [hl] at hdr
        have hde := hdr e.1 e.2 (by simp [Dict.get?])
        have hone := hS.one
        simp only at hone
        have hpl : (s'.heap e.2).pledge = c.rs.beta := by
          rw [hde.pledge]; simp [min_eq_right hone]
        have hco : (s'.heap e.2).cost = ag.cost := by rw [hde.cost]; simp
        have hst : (s'.heap e.2).stake = c.rs.beta := by
          rw [hde.stake, hpl]
          cases ho : σ.owned.get? e.1 with
          | none => simp
          | some r =>
            obtain ⟨-, k1, k2, -⟩ := hq.pools hw h (hg.inv.owned ha hσ ho).1
            simp [k1, k2]
        have hprof := hS.profile
        simp only at hprof
        simp only [List.map_cons, List.map_nil]
        rw [hprof, operating_own hw hpl hst, hco]
  refine ⟨fun hS hno => ?_, fun hS hyes => ?_, fun ν hno hν => ?_⟩
  · obtain ⟨hn, hsum⟩ := hop hS
    rw [hsum, hno] at d3
    simp only [List.map_nil, List.sum_nil, List.sum_cons, add_zero] at d3
    have hpays := hS.pays
    simp only at hpays
    have := d3 ⟨by linarith, by linarith, by linarith, by linarith⟩ (by linarith)
    exact ⟨ω, this, hn, hω⟩
  · obtain ⟨hn, hsum⟩ := hop hS
    have hpays := hS.pays
    have hprof := hS.profile
    simp only at hpays hprof
    cases hl : σ.owned with
    | nil => exact absurd hl hyes
    | cons e t =>
      rw [hl] at hσl
      cases t with
      | cons _ _ => simp at hσl
      | nil =>
        have ho : σ.owned.get? e.1 = some e.2 := by rw [hl]; simp [Dict.get?]
        obtain ⟨k0, k5⟩ := hg.inv.owned ha hσ ho
        obtain ⟨⟨e', k6, -, k7⟩, k1, k2, -⟩ := hq.pools hw h k0
        rw [k5, hg.person ha] at k6
        cases k6
        simp only at k7
        refine d1.2 ?_
        rw [hsum, hl]
        simp only [List.map_cons, List.map_nil, List.sum_cons, List.sum_nil, add_zero]
        rw [hprof, operating_own hw k1 k2, k7]
        exact ⟨fun hb => by have := hb.2.2.2; linarith, fun hb => by have := hb.2.2.2; linarith⟩
  · rw [hno] at d1 d2 d3
    simp only [List.map_nil, List.sum_nil] at d1 d2 d3
    have hnd : ¬ Beats c.relThr c.absThr (0 : K) 0 0 := fun hb => by have := hb.2.1; linarith
    have hnn : oν ≠ none := by rw [hν]; simp
    by_cases hb : Beats c.relThr c.absThr (0 : K) 0 ((ω.owned.map (fun e => s'.heap e.2)).map
        (operating c.rs s.totalStake ag.profile ((openPools s).vals.filter (fun p => decide (p.owner ≠ ag.id))) (ω.owned.map (fun e => s'.heap e.2)))).sum
    · have := d3 hb (by have := hb.2.1; linarith)
      rw [hν] at this
      cases this
      exact hωne
    · exact absurd (d1.2 ⟨hnd, hb⟩) hnn

theorem solitary_init (c : Config K) : Solitary (initState c) ∧ ∀ b, ¬ Owns (initState c) b := by
  have hst : ∀ {b ag σ}, (initState c).agents.get? b = some ag → ag.strategy = some σ → σ.allocs = [] ∧ σ.owned = [] := by
    intro b ag σ ha hσ
    obtain ⟨x, -, rfl⟩ := agents_init ha
    unfold newAgent at hσ
    split at hσ <;> cases hσ
    exact ⟨rfl, rfl⟩
  have hp : ∀ {b d}, ownListOf (initState c) b = some d → d = [] := by
    intro b d h
    obtain ⟨ag, σ, h1, h2, h3⟩ := ownListOf_some h
    rw [← h3]; exact (hst h1 h2).2
  refine ⟨⟨fun b pid => ?_, fun b d h => by rw [hp h]; simp⟩, fun b ⟨d, h1, h2⟩ => h2 (hp h1)⟩
  unfold allocOf
  cases ha : (initState c).agents.get? b with
  | none => rfl
  | some ag =>
    cases hσ : ag.strategy with
    | none => simp [hσ]
    | some σ => simp [hσ, (hst ha hσ).1]

/-- one turn in such a state -/
theorem Solitary.step {c : Config K} (hw : SoleWorld c) {s s' : State K} (h : ReachableSinglePhase c s) (hq : Solitary s) {me : Nat}
    {ord : List Nat → List Nat} (hv : (Event.step me ord : Event K).Valid c.people.length) (he : exec s (.step me ord) = .ok s') :
    Solitary s' ∧ (∀ b, b ≠ me → ownListOf s' b = ownListOf s b) ∧
      (∀ e, c.people[me]? = some e → Sole c e → Owns s' me) ∧
      (∀ e, c.people[me]? = some e → Sole c e → ¬ Owns s me → s'.idle = false) ∧
      ((∀ e, c.people[me]? = some e → Sole c e → Owns s me) → s'.idle = s.idle ∧ s'.pools = s.pools ∧ ∀ b, ownListOf s' b = ownListOf s b) := by
  have hr := Reachable.of_single h
  have hg := hr.good minUnit_pos
  have hr' := h.next hv (fun p h => by cases h) he
  have hg' := (Reachable.of_single hr').good minUnit_pos
  have hd := hg.exec minUnit_pos hv
  rw [he] at hd
  obtain ⟨hd, -⟩ := hd
  have setA : ∀ {s₁ s₂ : State K} {ag : Agent K} {σ : Strategy K} {o : Option (Strategy K)}, s.agents.get? me = some ag → ag.strategy = some σ →
      s₁.agents = s.agents → s₂ = s₁.setAgent { ag with newStrategy := o } →
      (∀ b pid, allocOf s₂ b pid = allocOf s b pid) ∧ ∀ b, ownListOf s₂ b = ownListOf s b := by
    intro s₁ s₂ ag σ o ha hσ h1 h2
    have hid := hg.inv.core.agentId me ag ha
    have hget : ∀ b, s₂.agents.get? b = if b = me then some { ag with newStrategy := o } else s.agents.get? b := by
      intro b
      rw [h2, get?_setAgent (me := me) (ag := { ag with newStrategy := o }) hid b, h1]
    refine ⟨fun b pid => ?_, fun b => ?_⟩
    · unfold allocOf
      rw [hget]
      by_cases hb : b = me
      · subst hb; simp [ha]
      · simp [hb]
    · unfold ownListOf
      rw [hget]
      by_cases hb : b = me
      · subst hb; simp [ha, Agent.skel]
      · simp [hb]
  cases hd with
  | idle _ _ ag ha hprof =>
    have hper := hg.person ha
    have hns : ∀ e, c.people[me]? = some e → ¬ Sole c e := by
      intro e he hS
      rw [hper] at he; cases he
      have := hS.profile
      simp only at this
      rw [hprof] at this; cases this
    exact ⟨hq, fun _ _ => rfl, fun e he hS => absurd hS (hns e he), fun e he hS => absurd hS (hns e he), fun _ => ⟨rfl, rfl, fun _ => rfl⟩⟩
  | plan _ _ ag σ oν s₁ _ ha hprof hσ hpm hpl hsim ht =>
    have hn : oν = none := by
      rcases hsim with h1 | h1
      · rw [hg.fixed.simultaneous] at h1
        have : c.simultaneous = true := h1
        rw [hw.mode] at this; cases this
      · exact h1
    subst hn
    obtain ⟨h1, h2⟩ := setA ha hσ hpl.planned.agents hpl.eq
    obtain ⟨p1, p2, p3⟩ := hq.plan hw h ha hσ hv.2 hpm
    have hidle : s'.idle = s.idle := by rw [hpl.eq]; exact hpl.planned.idle
    have hpools : s'.pools = s.pools := by rw [hpl.eq]; exact hpl.planned.pools
    have howns : ∀ e, c.people[me]? = some e → Sole c e → Owns s me := by
      intro e he hS
      rw [hg.person ha] at he; cases he
      refine ⟨_, ownListOf_eq ha hσ, fun hno => ?_⟩
      obtain ⟨ν, hν, -⟩ := p1 hS hno
      cases hν
    refine ⟨⟨fun b pid => by rw [h1]; exact hq.allocs b pid, fun b d hd => hq.few b d (by rw [← h2]; exact hd)⟩, fun b _ => h2 b, ?_, ?_, ?_⟩
    · intro e he hS
      obtain ⟨d, d1, d2⟩ := howns e he hS
      exact ⟨d, by rw [h2]; exact d1, d2⟩
    · intro e he hS hno
      exact absurd (howns e he hS) hno
    · exact fun _ => ⟨hidle, hpools, h2⟩
  | move _ _ ag σ ν s₁ s₂ s₃ ha hprof hσ hpm hpl hsim ht hex hdx hinv hds =>
    obtain ⟨h1, h2⟩ := setA ha hσ hpl.planned.agents hpl.eq
    obtain ⟨p1, p2, p3⟩ := hq.plan hw h ha hσ hv.2 hpm
    have hid := hg.inv.core.agentId me ag ha
    have ha2 : s₂.agents.get? me = some { ag with newStrategy := some ν } := by
      rw [hpl.eq, get?_setAgent (me := me) (ag := { ag with newStrategy := some ν }) hid me, if_pos rfl]
    have hmine : ownListOf s₃ me = some ν.owned := by
      unfold ownListOf
      rw [hdx.mine, ha2]; rfl
    have hsq := hds hw.mode
    have hno : σ.owned = [] := by
      by_contra hno
      have := p2 (hw.sole_of_owner h ha hσ hno) hno
      cases this
    have hνne := p3 ν hno rfl
    have hS : Sole c (ag.stake, ag.cost, ag.profile) := by
      obtain ⟨ag₃, σ₃, k1, k2, k3⟩ := ownListOf_some hmine
      have hS₃ := hw.sole_of_owner hr' (b := me) (ag := ag₃) (σ := σ₃) k1 k2 (by rw [k3]; exact hνne)
      have e1 := hg'.person (b := me) (ag := ag₃) k1
      rw [hg.person ha] at e1
      rw [Option.some.inj e1]; exact hS₃
    obtain ⟨ν', hν', hlen, hal⟩ := p1 hS hno
    cases hν'
    have hoth : ∀ b, b ≠ me → ownListOf s₃ b = ownListOf s b := by
      intro b hb
      rw [← h2 b]
      unfold ownListOf
      rw [hdx.others b hb]
    have hnot : ¬ Owns s me := by
      rintro ⟨d, d1, d2⟩
      rw [ownListOf_eq ha hσ, hno] at d1
      cases d1; exact d2 rfl
    refine ⟨⟨fun b pid => ?_, fun b d hd => ?_⟩, hoth, ?_, ?_, ?_⟩
    · change allocOf s₃ b pid = none
      by_cases hb : b = me
      · rw [hb, hsq.mine, hal]; rfl
      · by_cases hgone : Gone s₂ σ ν pid
        · exact hsq.gone b hb pid hgone
        · rw [hsq.kept b hb pid hgone, h1]; exact hq.allocs b pid
    · have hd : ownListOf s₃ b = some d := hd
      by_cases hb : b = me
      · rw [hb, hmine] at hd; cases hd; exact hlen.le
      · rw [hoth b hb] at hd; exact hq.few b d hd
    · intro _ _ _
      exact ⟨_, hmine, hνne⟩
    · intro _ _ _ _; rfl
    · intro hall
      exact absurd (hall _ (hg.person ha) hS) hnot

/-- many turns in such a state -/
theorem Solitary.turns {c : Config K} (hw : SoleWorld c) {ords : Nat → List Nat → List Nat} (hords : ∀ i l, (ords i l).Perm l) (l : List (Nat × Nat)) :
    ∀ {s s' : State K}, ReachableSinglePhase c s → Solitary s → (∀ e ∈ l, e.1 < c.people.length) →
      iterM (fun s (e : Nat × Nat) => agentStep (ords e.2) s e.1) s l = .ok s' →
      ReachableSinglePhase c s' ∧ Solitary s' ∧ (∀ b e, c.people[b]? = some e → Sole c e → (b ∈ l.map Prod.fst ∨ Owns s b) → Owns s' b) ∧
        (s.idle = false → s'.idle = false) ∧
        ((∃ b ∈ l.map Prod.fst, ∃ e, c.people[b]? = some e ∧ Sole c e ∧ ¬ Owns s b) → s'.idle = false) ∧
        ((∀ b e, c.people[b]? = some e → Sole c e → Owns s b) → s'.idle = s.idle ∧ s'.pools = s.pools) := by
  induction l with
  | nil =>
    intro s s' hr hq _ he
    cases he
    exact ⟨hr, hq, fun b e _ _ h => h.resolve_left (by simp), fun h => h, fun ⟨b, hb, _⟩ => by simp at hb, fun _ => ⟨rfl, rfl⟩⟩
  | cons x t ih =>
    intro s s' hr hq hl he
    obtain ⟨s₁, he1, he2⟩ := bind_ok he
    have hv : (Event.step x.1 (ords x.2) : Event K).Valid c.people.length := ⟨hl x List.mem_cons_self, hords _⟩
    have hr1 := hr.next hv (fun p h => by cases h) he1
    obtain ⟨g1, g2, g3, g4, g5⟩ := hq.step hw hr hv he1
    obtain ⟨i1, i2, i3, i4, i5, i6⟩ := ih hr1 g1 (fun e he => hl e (List.mem_cons_of_mem _ he)) he2
    have hown : ∀ b, b ≠ x.1 → (Owns s₁ b ↔ Owns s b) := fun b hb => by unfold Owns; rw [g2 b hb]
    have hcase : s₁.idle = false ∨ s₁.idle = s.idle := by
      by_cases hc : ∀ e, c.people[x.1]? = some e → Sole c e → Owns s x.1
      · exact .inr (g5 hc).1
      · push Not at hc
        obtain ⟨e, h1, h2, h3⟩ := hc
        exact .inl (g4 e h1 h2 h3)
    refine ⟨i1, i2, ?_, ?_, ?_, ?_⟩
    · intro b e hb hS h
      refine i3 b e hb hS ?_
      by_cases hbx : b = x.1
      · subst hbx; exact .inr (g3 e hb hS)
      · rcases h with h | h
        · simp only [List.map_cons, List.mem_cons] at h
          exact .inl (h.resolve_left hbx)
        · exact .inr ((hown b hbx).2 h)
    · intro h0
      refine i4 (hcase.elim (fun h => h) (fun h => h.trans h0))
    · rintro ⟨b, hb, e, h1, h2, h3⟩
      by_cases hbx : b = x.1
      · subst hbx; exact i4 (g4 e h1 h2 h3)
      · simp only [List.map_cons, List.mem_cons] at hb
        exact i5 ⟨b, hb.resolve_left hbx, e, h1, h2, fun h => h3 ((hown b hbx).1 h)⟩
    · intro hall
      obtain ⟨j1, j2, j3⟩ := g5 (fun e h1 h2 => hall _ e h1 h2)
      obtain ⟨k1, k2⟩ := i6 (fun b e h1 h2 => by
        unfold Owns; rw [j3 b]; exact hall b e h1 h2)
      exact ⟨k1.trans j1, k2.trans j2⟩

/-! ### C113 -/

/-- Every agent that would operate exactly one pool operates exactly one; it is private and consists of the pledge, which saturates it.  There are no other
pools, and nobody delegates. -/
structure OnePoolEach (c : Config K) (s : State K) : Prop where
  pools : ∀ pid r, s.pools.get? pid = some r → (∃ e, c.people[(s.heap r).owner]? = some e ∧ Sole c e ∧ (s.heap r).cost = e.2.1) ∧
    (s.heap r).pledge = c.rs.beta ∧ (s.heap r).stake = c.rs.beta ∧ (s.heap r).isPrivate = true ∧ (s.heap r).delegators = []
  one : ∀ b e, c.people[b]? = some e → Sole c e → ∃! pid, ∃ r, s.pools.get? pid = some r ∧ (s.heap r).owner = b
  nobody : ∀ b pid x, ¬ Says s b pid x

theorem Solitary.onePoolEach {c : Config K} (hw : SoleWorld c) {s : State K} (h : ReachableSinglePhase c s) (hq : Solitary s)
    (hall : ∀ b e, c.people[b]? = some e → Sole c e → Owns s b) : OnePoolEach c s := by
  have hg := (Reachable.of_single h).good minUnit_pos
  refine ⟨fun pid r hp => hq.pools hw h hp, fun b e hb hS => ?_, ?_⟩
  · obtain ⟨d, hd, hne⟩ := hall b e hb hS
    obtain ⟨ag, σ, ha, hσ, rfl⟩ := ownListOf_some hd
    have hlen := (hq.strategy ha hσ).2
    cases hl : σ.owned with
    | nil => exact absurd hl hne
    | cons x t =>
      rw [hl] at hlen
      cases t with
      | cons _ _ => simp at hlen
      | nil =>
        have ho : σ.owned.get? x.1 = some x.2 := by rw [hl]; simp [Dict.get?]
        refine ⟨x.1, ⟨x.2, hg.inv.owned ha hσ ho⟩, ?_⟩
        rintro pid ⟨r, h1, h2⟩
        have := (hg.inv.own.own_iff b pid r).2 ⟨h1, h2⟩
        rw [ownOf_eq ha hσ, hl] at this
        simp only [Dict.get?] at this
        split at this
        · rename_i heq; exact heq.symm
        · cases this
  · rintro b pid x ⟨ag, σ, ha, hσ, hx⟩
    rw [(hq.strategy ha hσ).1] at hx
    cases hx

theorem OnePoolEach.solitary {c : Config K} (hw : SoleWorld c) {s : State K} (h : ReachableSinglePhase c s) (ho : OnePoolEach c s) :
    Solitary s ∧ ∀ b e, c.people[b]? = some e → Sole c e → Owns s b := by
  have hg := (Reachable.of_single h).good minUnit_pos
  refine ⟨⟨fun b pid => ?_, fun b d hd => ?_⟩, fun b e hb hS => ?_⟩
  · cases hx : allocOf s b pid with
    | none => rfl
    | some x =>
      exfalso
      unfold allocOf at hx
      cases ha : s.agents.get? b with
      | none => rw [ha] at hx; cases hx
      | some ag =>
        rw [ha] at hx
        obtain ⟨σ, hσ, hx⟩ := Option.bind_eq_some_iff.1 hx
        exact ho.nobody b pid x ⟨ag, σ, ha, hσ, hx⟩
  · obtain ⟨ag, σ, ha, hσ, rfl⟩ := ownListOf_some hd
    have hnd := (hg.inv.tidy b ag ha).owned _ hσ
    cases hl : σ.owned with
    | nil => simp
    | cons x t =>
      cases t with
      | nil => simp
      | cons y t =>
        exfalso
        have hS := hw.sole_of_owner h ha hσ (by rw [hl]; simp)
        obtain ⟨pid, -, huniq⟩ := ho.one b _ (hg.person ha) hS
        have hx : σ.owned.get? x.1 = some x.2 := Dict.get?_of_mem hnd (by rw [hl]; simp)
        have hy : σ.owned.get? y.1 = some y.2 := Dict.get?_of_mem hnd (by rw [hl]; simp)
        have e1 := huniq x.1 ⟨x.2, hg.inv.owned ha hσ hx⟩
        have e2 := huniq y.1 ⟨y.2, hg.inv.owned ha hσ hy⟩
        rw [hl] at hnd
        simp only [Dict.keys, List.map_cons, List.nodup_cons, List.mem_cons, not_or] at hnd
        exact hnd.1.1 (e1.trans e2.symm)
  · obtain ⟨pid, ⟨r, h1, h2⟩, -⟩ := ho.one b e hb hS
    obtain ⟨ag, σ, ha, hσ, hso⟩ := hg.inv.owner h1
    rw [h2] at ha
    exact ⟨_, ownListOf_eq ha hσ, fun hn => by rw [hn] at hso; cases hso⟩

/-- C113, the first round.  Whatever the order of the agents in it: afterwards every agent that would operate exactly one pool operates one, and that is
all.  The round is idle iff there are no such agents. -/
theorem C113_first_round {c : Config K} (hw : SoleWorld c) {ords : Nat → List Nat → List Nat} (hords : ∀ i l, (ords i l).Perm l) {order : List Nat}
    (hfull : ∀ a, a ∈ order ↔ a < c.people.length) :
    ∃ s, roundSequential ords order (initState c) = .ok s ∧ ReachableSinglePhase c s ∧ OnePoolEach c s ∧
      (s.idle = true ↔ ∀ (b : Nat) e, c.people[b]? = some e → ¬ Sole c e) := by
  have h0 : ReachableSinglePhase c (initState c) := ⟨[], by simp, rfl⟩
  obtain ⟨s, he, hr⟩ := C29_rounds_never_crash hw.mode hw.k hw.beta hw.a0 hw.stakes hw.sane h0 hords (fun a ha => (hfull a).1 ha)
  obtain ⟨hq, hno⟩ := solitary_init c
  have hmap : order.zipIdx.map Prod.fst = order := List.zipIdx_map_fst _ _
  obtain ⟨-, g2, g3, g4, g5, g6⟩ := hq.turns hw hords order.zipIdx h0 (by
    intro e he
    refine (hfull e.1).1 ?_
    rw [← hmap]; exact List.mem_map_of_mem he) he
  rw [hmap] at g3 g5
  have hlt : ∀ {b e}, c.people[b]? = some e → b ∈ order := fun hb => (hfull _).2 (List.getElem?_eq_some_iff.1 hb).1
  refine ⟨s, he, hr, g2.onePoolEach hw hr (fun b e hb hS => g3 b e hb hS (.inl (hlt hb))), ?_, ?_⟩
  · intro hi b e hb hS
    rw [g5 ⟨b, hlt hb, e, hb, hS, hno b⟩] at hi
    cases hi
  · intro hnone
    exact (g6 (fun b e hb hS => absurd hS (hnone b e hb))).1

/-- C113, later rounds.  From such a state on nobody moves, whatever the order of the agents. -/
theorem C113_later_rounds {c : Config K} (hw : SoleWorld c) {s : State K} (h : ReachableSinglePhase c s) (ho : OnePoolEach c s)
    {ords : Nat → List Nat → List Nat} (hords : ∀ i l, (ords i l).Perm l) {order : List Nat} (hv : ∀ a ∈ order, a < c.people.length) :
    ∃ s', roundSequential ords order s = .ok s' ∧ ReachableSinglePhase c s' ∧ OnePoolEach c s' ∧ s'.idle = s.idle ∧ s'.pools = s.pools := by
  obtain ⟨s', he, hr⟩ := C29_rounds_never_crash hw.mode hw.k hw.beta hw.a0 hw.stakes hw.sane h hords hv
  obtain ⟨hq, hall⟩ := ho.solitary hw h
  have hmap : order.zipIdx.map Prod.fst = order := List.zipIdx_map_fst _ _
  obtain ⟨-, g2, g3, g4, g5, g6⟩ := hq.turns hw hords order.zipIdx h (by
    intro e he
    refine hv e.1 ?_
    rw [← hmap]; exact List.mem_map_of_mem he) he
  obtain ⟨k1, k2⟩ := g6 hall
  exact ⟨s', he, hr, g2.onePoolEach hw hr (fun b e hb hS => g3 b e hb hS (.inr (hall b e hb hS))), k1, k2⟩

variable {R : Type}

/-- the history of a run: round 0 is idle iff nobody would operate a pool, all other rounds are idle -/
theorem sole_history {c : Config K} (hw : SoleWorld c) {ords : Nat → Nat → List Nat → List Nat} (hords : ∀ i j l, (ords i j l).Perm l)
    {order : Nat → List Nat} (hfull : ∀ i a, a ∈ order i ↔ a < c.people.length) {report : State K → Py R} {conv : Int}
    {phases : Nat → PhaseParams K} {h : List (Round (State K))} {w : State K}
    (hh : History (simEnv (seqRounds ords order) report conv 1 phases (fun _ => none)) (initState c) h w) (hnc : ∀ r ∈ h, r.phaseChange = false) :
    ReachableSinglePhase c w ∧ w.idle = true ∧ (h = [] → w = initState c) ∧ (h ≠ [] → OnePoolEach c w) ∧ (∀ r ∈ h, OnePoolEach c r.after) ∧
      ∀ i (hi : i < h.length), (h[i]).after.idle = true ↔ 0 < i ∨ ∀ (b : Nat) e, c.people[b]? = some e → ¬ Sole c e := by
  have hend : ∀ {s : State K}, ReachableSinglePhase c s → ReachableSinglePhase c { s with idle := true } := fun hr =>
    hr.next (ev := .roundEnd) trivial (fun p h => by cases h) rfl
  have hop : ∀ {s : State K}, OnePoolEach c s → OnePoolEach c { s with idle := true } := fun ho => ⟨ho.pools, ho.one, ho.nobody⟩
  induction hh with
  | start => exact ⟨⟨[], by simp, rfl⟩, rfl, fun _ => rfl, fun h => absurd rfl h, by simp, by simp⟩
  | @round h w₁ w₂ hh he ih =>
    obtain ⟨i1, i2, i3, i4, i5, i6⟩ := ih (fun r hr => hnc r (List.mem_append_left _ hr))
    have he : roundSequential (ords h.length) (order h.length) w₁ = .ok w₂ := he
    have key : ReachableSinglePhase c w₂ ∧ OnePoolEach c w₂ ∧ (w₂.idle = true ↔ 0 < h.length ∨ ∀ (b : Nat) e, c.people[b]? = some e → ¬ Sole c e) := by
      by_cases hn : h = []
      · rw [i3 hn] at he
        obtain ⟨s, g1, g2, g3, g4⟩ := C113_first_round hw (hords h.length) (hfull h.length)
        rw [he] at g1
        cases g1
        refine ⟨g2, g3, ?_⟩
        rw [g4, hn]; simp
      · obtain ⟨s, g1, g2, g3, g4, -⟩ := C113_later_rounds hw i1 (i4 hn) (hords h.length) (fun a ha => (hfull h.length a).1 ha)
        rw [he] at g1
        cases g1
        refine ⟨g2, g3, ?_⟩
        rw [g4, i2]
        simp [List.length_pos_iff.2 hn]
    obtain ⟨k1, k2, k3⟩ := key
    refine ⟨hend k1, rfl, fun h => by simp at h, fun _ => hop k2, ?_, ?_⟩
    · intro r hr
      rcases List.mem_append.1 hr with hr | hr
      · exact i5 r hr
      · simp only [List.mem_singleton] at hr; rw [hr]; exact k2
    · intro i hi
      by_cases hil : i < h.length
      · rw [List.getElem_append_left hil]; exact i6 i hil
      · have : i = h.length := by simp at hi; omega
        subst this
        simpa using k3
  | @change h w₁ w₂ w₃ hh he hcp ih =>
    have := hnc ⟨w₁, w₂, true⟩ (by simp)
    cases this

/-- C113, the whole run.  If there is an agent that would operate exactly one pool, and `max_iterations` is greater than `iterations_after_convergence`, then a
run ends after `iterations_after_convergence + 1` rounds and reports an equilibrium at step 0, in which those agents operate one pool each. -/
theorem C113_run {c : Config K} (hw : SoleWorld c) {ords : Nat → Nat → List Nat → List Nat} (hords : ∀ i j l, (ords i j l).Perm l)
    {order : Nat → List Nat} (hfull : ∀ i a, a ∈ order i ↔ a < c.people.length) {report : State K → Py R} {conv : Int} (hconv : 1 ≤ conv)
    {phases : Nat → PhaseParams K} {m : Int} (hm : conv + 1 ≤ m) {fuel : Nat} {l : Loop (State K) R}
    (hl : Loop.runModel (simEnv (seqRounds ords order) report conv 1 phases (fun _ => none)) fuel (Loop.init (initState c) m) = .ok l)
    (hsome : ∃ (b : Nat) (e : K × K × Profile), c.people[b]? = some e ∧ Sole c e) :
    l.exports = [true] ∧ (l.steps : Int) = conv + 1 ∧ l.eqSteps = [0] ∧ OnePoolEach c l.world := by
  have hnone : ¬ ∀ (b : Nat) e, c.people[b]? = some e → ¬ Sole c e := fun h => by
    obtain ⟨b, e, h1, h2⟩ := hsome; exact h b e h1 h2
  set env := simEnv (seqRounds ords order) report conv 1 phases (fun _ => none) with henv
  obtain ⟨h, -, hmeq, hle, hh⟩ := (Track.init env (initState c) m).loop_max (fun _ => rfl) fuel (by simp [Loop.init]; omega) hl
  have hidle : ∀ {w : State K} {h : List (Round (State K))}, History env (initState c) h w → (∀ r ∈ h, r.phaseChange = false) →
      ∀ i (hi : i < h.length), (h[i]).Idle env ↔ 0 < i := by
    intro w h hh hnc i hi
    have := (sole_history hw hords hfull hh hnc).2.2.2.2.2 i hi
    rw [or_iff_left hnone] at this
    exact this
  obtain ⟨h', w', f1, f2, f3, f4, f5⟩ := C34_first env (fun _ => rfl) le_rfl (initState c) m (by omega) fuel l hl
  have f1 : History env (initState c) h' w' := f1
  have hid := hidle f1 f3
  have hcv : env.conv = conv := rfl
  rw [hcv] at f4 f5
  have hlast : ∀ n, n ≤ h'.length → conv + 1 ≤ (n : Int) → LastIdle env (h'.take n) conv := by
    intro n hn h1
    have hlen : (h'.take n).length = n := by rw [List.length_take]; omega
    refine ⟨by omega, fun i hi h2 => ?_⟩
    rw [List.getElem_take]
    rw [hlen] at h2
    exact (hid i (by omega)).2 (by omega)
  have hlen : (h'.length : Int) = conv + 1 ∧ l.eqSteps = [0] := by
    rcases f5 with ⟨g1, ⟨g2, g3⟩, -⟩ | ⟨-, g2, g3⟩
    · have h1 : conv + 1 ≤ (h'.length : Int) := by
        by_contra hcon
        have := (hid 0 (by omega)).1 (g3 0 (by omega) (by omega))
        omega
      have h2 : (h'.length : Int) ≤ conv + 1 := by
        by_contra hcon
        obtain ⟨n, hn⟩ : ∃ n : Nat, (n : Int) = conv + 1 := ⟨(conv + 1).toNat, by omega⟩
        exact f4 n (by omega) (by omega) (by omega) ((hid _ (by omega)).2 (by omega)) (hlast n (by omega) hn.ge)
      have h3 : (h'.length : Int) = conv + 1 := le_antisymm h2 h1
      refine ⟨h3, ?_⟩
      rw [g1, h3]; congr 1; ring
    · exfalso
      have hpos : h'.length - 1 < h'.length := by omega
      have hgl : h'.getLast? = some h'[h'.length - 1] := by
        rw [List.getLast?_eq_getElem?]; exact List.getElem?_eq_getElem hpos
      refine g3 _ hgl ((hid _ hpos).2 (by omega)) ?_
      have := hlast h'.length le_rfl (by omega)
      rwa [List.take_length] at this
  rw [f2] at hlen
  refine ⟨?_, hlen.1, hlen.2, ?_⟩
  all_goals
    rcases hh with hh | hh
    · exfalso
      have := hh.eqSteps
      rw [hlen.2] at this
      obtain ⟨i, hi, -, hp⟩ := mem_eqOf (s := 0) (by rw [← this]; simp)
      have hz : changes h = 0 := Nat.le_zero.1 hh.phases
      unfold changes at hz
      rw [List.countP_eq_zero] at hz
      exact hz _ (List.getElem_mem hi) hp
  · exact hh.exports
  · obtain ⟨h₀, w₀, hpre, -⟩ := hh.prefix'
    have hz : changes h = 0 := hh.phases
    have hnc : ∀ r ∈ h, r.phaseChange = false := by
      intro r hr
      unfold changes at hz
      rw [List.countP_eq_zero] at hz
      simpa using hz r hr
    exact (sole_history hw hords hfull hh.hist hnc).2.2.2.2.1 ⟨w₀, l.world, false⟩ (by rw [hpre]; simp)

/-! ### A simulation that the theorems are about -/

/-- `k = 3`: two agents that would operate one pool each, one that cannot make a profit and one that abstains -/
def soleDemo : Config ℚ :=
  { rs := { scheme := .cardano, k := 3, beta := 1/3, a0 := 10 }, relThr := 0, absThr := 0, extraFrac := 1, simultaneous := false,
    people := [(1/5, 3/10, .myopic), (1/3, 3/10, .nonMyopic), (1/15, 1/1000, .abstainer), (2/5, 3/10, .nonMyopic)], totalStake := 1 }

theorem soleDemo_world : SoleWorld soleDemo ∧ ∃ (b : Nat) (e : ℚ × ℚ × Profile), soleDemo.people[b]? = some e ∧ Sole soleDemo e := by
  have hne : ¬ Scheme.cardano = Scheme.cip50 := by decide
  have h1 : Sole soleDemo (1/3, 3/10, .nonMyopic) := by
    refine ⟨rfl, ?_, ?_, ?_, ?_, ?_, fun n h1 h2 => ?_⟩
    · norm_num [soleDemo]
    · norm_num [soleDemo]
    · norm_num [soleDemo]
    · norm_num [soleDemo]
    · norm_num [soleDemo]
    · have h2 : n ≤ 3 := h2
      interval_cases n <;> norm_num [soleDemo, saturatedReward, hne]
  have h3 : Sole soleDemo (2/5, 3/10, .nonMyopic) := by
    refine ⟨rfl, ?_, ?_, ?_, ?_, ?_, fun n h1 h2 => ?_⟩
    · norm_num [soleDemo]
    · norm_num [soleDemo]
    · norm_num [soleDemo]
    · norm_num [soleDemo]
    · norm_num [soleDemo]
    · have h2 : n ≤ 3 := h2
      interval_cases n <;> norm_num [soleDemo, saturatedReward, hne]
  refine ⟨⟨rfl, by decide, by decide, ?_, ?_, ?_, ?_, ?_, ?_, ?_⟩, 1, _, rfl, h1⟩
  · norm_num [soleDemo]
  · norm_num [soleDemo]
  · norm_num [soleDemo]
  · norm_num [soleDemo]
  · norm_num [soleDemo]
  · intro e he
    simp only [soleDemo, List.mem_cons, List.not_mem_nil, or_false] at he
    rcases he with rfl | rfl | rfl | rfl <;> norm_num
  · intro b e hb
    have hlt : b < 4 := (List.getElem?_eq_some_iff.1 hb).1
    interval_cases b
    · right
      rintro ⟨e', he', -, n, n1, n2, hv⟩
      have he' : some ((1/5, 3/10, .myopic) : ℚ × ℚ × Profile) = some e' := he'
      cases he'
      have n2 : n ≤ 3 := n2
      interval_cases n <;> norm_num [Viable, soleDemo, saturatedReward, hne] at hv
    · cases hb; exact .inl h1
    · right
      rintro ⟨e', he', hab, -⟩
      have he' : some ((1/15, 1/1000, .abstainer) : ℚ × ℚ × Profile) = some e' := he'
      cases he'
      exact hab rfl
    · cases hb; exact .inl h3

/-- a run of it: no pools before the first round, two pools after it; three idle rounds follow -/
example : ∃ l, Loop.runModel (simEnv (seqRounds (fun _ _ => id) (fun _ => [3, 0, 2, 1])) (fun s => .ok (poolCount s)) 3 1 (fun _ => {}) (fun _ => none)) 21
    (Loop.init (initState soleDemo) 20) = .ok l ∧ outcome l = (4, [0, 2, 2, 2], [0], [], false, [true]) := run_outcome (by decide +kernel)

end RSE.Props
