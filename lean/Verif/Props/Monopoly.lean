import Verif.Props.SolePools
import Verif.Lemmas.Metrics
import Verif.Props.Metrics
import Mathlib.Tactic.LinearCombination

/-!
# C134: a family of simulations with `k = 1` that end in a monopoly

Sequential or random activation, single phase, exact arithmetic, any reward scheme but CIP-50, any number of agents.
-/

set_option linter.unusedSectionVars false

namespace RSE.Props

variable {K : Type} [Field K] [LinearOrder K] [IsStrictOrderedRing K]

/-! ### Statement -/

/-- what a full pool with pledge `x` and this cost leaves to its operator and its delegators -/
def fullProfit (c : Config K) (x cost : K) : K := saturatedReward c.rs.scheme c.rs.beta c.rs.a0 x - cost

/-- `k = 1`; agent `o`, with stake `x` and cost `cost`, is the only one who could make a profit with a pool.  All agents together could just fill one pool. -/
structure MonopolyWorld (c : Config K) (o : Nat) (x cost : K) : Prop where
  mode : c.simultaneous = false
  scheme : c.rs.scheme ≠ .cip50
  k : c.rs.k = 1
  beta : 0 < c.rs.beta
  a0 : 0 ≤ c.rs.a0
  rel : 0 ≤ c.relThr
  abs : 0 ≤ c.absThr
  total : 22 / 10 ^ 18 < c.totalStake
  stakes : ∀ e ∈ c.people, 0 < e.1
  room : (c.people.map (fun e => e.1)).sum ≤ c.rs.beta
  operator : c.people[o]? = some (x, cost, .nonMyopic)
  public_ : x < c.rs.beta
  pays : 1 / 1000000 ≤ fullProfit c x cost
  worth : c.absThr < fullProfit c x cost - 1 / 1000000 * (1 - x / c.rs.beta)
  others : ∀ b e, b ≠ o → c.people[b]? = some e → ¬ CouldProfit c b ∧ e.2.2 ≠ .myopic

/-- the other agents who delegate in the end: those who do not abstain, have at least the smallest amount that can be delegated, and whose share of `10^-6` exceeds the absolute threshold -/
def Joins (c : Config K) (o b : Nat) (e : K × K × Profile) : Prop :=
  b ≠ o ∧ e.2.2 = .nonMyopic ∧ 22 / 10 ^ 18 ≤ e.1 ∧ c.absThr < 1 / 1000000 * (e.1 / c.rs.beta)

/-! ### The pool -/

theorem minUnit_eq : (minUnit : K) = 22 / 10 ^ 18 := by unfold minUnit; norm_num

/-- the margin that leaves `10^-6` of the profit of a full pool to be shared by all stake in it -/
def unitMargin (c : Config K) (x cost : K) : K := 1 - 1 / 1000000 / fullProfit c x cost

section
variable {c : Config K} {o : Nat} {x cost : K}

theorem MonopolyWorld.profit_pos (hw : MonopolyWorld c o x cost) : 0 < fullProfit c x cost := lt_of_lt_of_le (by norm_num) hw.pays

theorem MonopolyWorld.margin (hw : MonopolyWorld c o x cost) : (1 - unitMargin c x cost) * fullProfit c x cost = 1 / 1000000 := by
  unfold unitMargin
  rw [sub_sub_cancel, div_mul_cancel₀ _ hw.profit_pos.ne']

theorem MonopolyWorld.margin_unique (hw : MonopolyWorld c o x cost) {m : K} (h : (1 - m) * fullProfit c x cost = 1 / 1000000) : m = unitMargin c x cost := by
  unfold unitMargin
  rw [← h, mul_div_assoc, div_self hw.profit_pos.ne']
  ring

theorem MonopolyWorld.x_pos (hw : MonopolyWorld c o x cost) : 0 < x := hw.stakes _ (List.mem_of_getElem? hw.operator)

/-- the only pool there can be -/
theorem MonopolyWorld.pool (hw : MonopolyWorld c o x cost) {s : State K} (h : ReachableSinglePhase c s) {pid : Nat} {r : Ref} (hp : s.pools.get? pid = some r) :
    (s.heap r).owner = o ∧ (s.heap r).pledge = x ∧ (s.heap r).cost = cost ∧ (s.heap r).isPrivate = false ∧ s.pools = [(pid, r)] := by
  have hr := Reachable.of_single h
  have hg := hr.good minUnit_pos
  have own : ∀ {pid : Nat} {r : Ref}, s.pools.get? pid = some r → (s.heap r).owner = o := by
    intro pid r hp
    by_contra hne
    obtain ⟨e, he, -⟩ := id (C87_operators_could_profit h hw.mode hw.stakes hw.beta hw.a0 hp)
    exact (hw.others _ e hne he).1 (C87_operators_could_profit h hw.mode hw.stakes hw.beta hw.a0 hp)
  have ho := own hp
  obtain ⟨ag, σ, ha, hσ, hso⟩ := hg.inv.owner hp
  rw [ho] at ha
  have hper := hg.person ha
  rw [hw.operator] at hper
  have hper := Option.some.inj hper
  have e1 : ag.stake = x := (congrArg (fun t => t.1) hper).symm
  have e2 : ag.cost = cost := (congrArg (fun t => t.2.1) hper).symm
  obtain ⟨g1, g2, -, g4⟩ := C65_pools_of_an_operator_are_alike minUnit_pos h ha hσ hso
  rw [hw.k] at g4
  have hne : σ.owned ≠ [] := by intro h; rw [h] at hso; cases hso
  have hlen : σ.owned.length = 1 := le_antisymm g4 (List.length_pos_iff.2 hne)
  rw [hlen, Nat.cast_one, div_one, e1, min_eq_left hw.public_.le] at g1
  rw [hlen] at g2
  unfold costPerPool at g2
  simp only [Nat.cast_one] at g2
  have hpr : (s.heap r).isPrivate = false := by
    by_contra hpr
    have := (C24_private_iff_pledge_saturates minUnit_pos h hp).1 (by simpa using hpr)
    rw [sat_of_ne hw.scheme, g1] at this
    exact absurd this (not_le.2 hw.public_)
  refine ⟨ho, g1, ?_, hpr, ?_⟩
  · simp at g2
    rw [← g2, e2]
  · have uniq : ∀ pid' r', s.pools.get? pid' = some r' → pid' = pid := by
      intro pid' r' hp'
      have k1 := (hg.inv.own.own_iff o pid' r').2 ⟨hp', own hp'⟩
      rw [ownOf_eq ha hσ] at k1
      obtain ⟨y, hy⟩ := List.length_eq_one_iff.1 hlen
      rw [hy] at k1 hso
      simp only [Dict.get?] at k1 hso
      split at k1
      · split at hso
        · rename_i q1 q2; exact q1.symm.trans q2
        · cases hso
      · cases k1
    have hnd := hg.inv.core.poolsNodup
    have hmem : ∀ e ∈ s.pools, e.1 = pid := fun e he => uniq e.1 e.2 (Dict.get?_of_mem hnd he)
    cases hl : s.pools with
    | nil => rw [hl] at hp; cases hp
    | cons y t =>
      have hy := hmem y (by rw [hl]; simp)
      cases t with
      | nil =>
        rw [hl] at hp
        obtain ⟨y1, y2⟩ := y
        simp only at hy
        subst hy
        simp [Dict.get?] at hp
        rw [hp]
      | cons z t =>
        exfalso
        have hz := hmem z (by rw [hl]; simp)
        rw [hl] at hnd
        simp only [Dict.keys, List.map_cons, List.nodup_cons, List.mem_cons, not_or] at hnd
        exact hnd.1.1 (hy.trans hz.symm)

theorem pools_nil_or (s : State K) : s.pools = [] ∨ ∃ pid r, s.pools.get? pid = some r := by
  cases hl : s.pools with
  | nil => exact .inl rfl
  | cons y t => exact .inr ⟨y.1, y.2, by simp [Dict.get?]⟩

/-! ### Stakes -/

theorem agents_stake_sum {s : State K} (h : Reachable c s) : (s.agents.map (fun e => e.2.stake)).sum = (c.people.map (fun e => e.1)).sum := by
  have hg := h.good minUnit_pos
  have h1 : s.agents.map (fun e => e.2.stake) = s.agents.keys.map (fun b => ((c.people[b]?).map (fun e => e.1)).getD 0) := by
    unfold Dict.keys
    rw [List.map_map]
    refine List.map_congr_left (fun e he => ?_)
    have := hg.person (Dict.get?_of_mem hg.inv.core.agentsNodup he)
    simp [this]
  have h2 : (List.range c.people.length).map (fun b => ((c.people[b]?).map (fun e => e.1)).getD 0) = c.people.map (fun e => e.1) := by
    apply List.ext_getElem
    · simp
    · intro i h1 h2
      simp at h1
      simp [h1]
  rw [h1, ((agents_perm_range h).map _).sum_eq, h2]

theorem MonopolyWorld.stake_le (hw : MonopolyWorld c o x cost) {s : State K} (h : ReachableSinglePhase c s) {pid : Nat} {r : Ref} (hp : s.pools.get? pid = some r) :
    (s.heap r).stake ≤ c.rs.beta ∧
    ∀ {b : Nat} {ag : Agent K} {σ : Strategy K}, s.agents.get? b = some ag → ag.strategy = some σ → σ.allocs = [] → σ.owned = [] →
      (s.heap r).stake + ag.stake ≤ c.rs.beta := by
  have hr := Reachable.of_single h
  have hg := hr.good minUnit_pos
  have h0 : ∀ e ∈ c.people, 0 ≤ e.1 := fun e he => (hw.stakes e he).le
  have hq := (hg.seq hw.mode).1.books
  have h1 := total_stake_eq hg.inv hq hr.balanced
  have hpl := (hw.pool h hp).2.2.2.2
  rw [hpl] at h1
  simp only [List.map_cons, List.map_nil, List.sum_cons, List.sum_nil, add_zero] at h1
  have hsum := agents_stake_sum hr
  have hroom := hw.room
  set g : Nat × Agent K → K := fun e => (allocsOf e.2).total + ((ownedOf e.2).map (fun p => (s.heap p.2).pledge)).sum with hgdef
  have hle : ∀ e ∈ s.agents, g e ≤ e.2.stake := by
    rintro ⟨b, ag⟩ he
    have ha := Dict.get?_of_mem hg.inv.core.agentsNodup he
    cases hs : ag.strategy with
    | none =>
      have := hg.stake_nonneg h0 ha
      simpa [hgdef, allocsOf, ownedOf, hs, Dict.total] using this
    | some σ =>
      have := C22_no_overcommitment hr h0 hw.beta ha hs
      simpa [hgdef, allocsOf, ownedOf, hs, Dict.total] using this
  refine ⟨?_, ?_⟩
  · rw [h1]
    exact (List.sum_le_sum hle).trans (hsum.le.trans hroom)
  · intro b ag σ ha hσ hal how
    obtain ⟨l₁, l₂, hl⟩ := List.append_of_mem (Dict.mem_of_get? ha)
    have hz : g (b, ag) = 0 := by simp [hgdef, allocsOf, ownedOf, hσ, hal, how, Dict.total]
    rw [hl] at h1 hsum hle
    simp only [List.map_append, List.map_cons, List.sum_append, List.sum_cons, hz] at h1 hsum
    have k1 := List.sum_le_sum (l := l₁) (f := g) (g := fun e => e.2.stake) (fun e he => hle e (by simp [he]))
    have k2 := List.sum_le_sum (l := l₂) (f := g) (g := fun e => e.2.stake) (fun e he => hle e (by simp [he]))
    rw [h1]
    linarith

/-! ### Expectations -/

theorem ahead_self (rs : RS K) (p : Pool K) : ahead rs [p] p = 0 := by
  have : ¬ Outranks p p := by unfold Outranks; simp
  simp [ahead, this]

theorem MonopolyWorld.longRun (hw : MonopolyWorld c o x cost) {p : Pool K} (hs : p.stake ≤ c.rs.beta) : longRun c.rs c.totalStake [p] p = c.rs.beta := by
  unfold RSE.Props.longRun
  rw [ahead_self, zero_add, minUnit_eq, if_pos hw.total, fullAt_ne hw.scheme, max_eq_left hs]

theorem MonopolyWorld.reward (hw : MonopolyWorld c o x cost) : c.rs.reward x c.rs.beta - cost = fullProfit c x cost := by
  rw [reward_saturated hw.scheme hw.beta]; rfl

theorem MonopolyWorld.delegating (hw : MonopolyWorld c o x cost) {p : Pool K} (h1 : p.pledge = x) (h2 : p.cost = cost) (h3 : p.margin = unitMargin c x cost)
    (hs : p.stake ≤ c.rs.beta) {before y : K} (hy : 0 ≤ y) (hb : p.stake - before + y ≤ c.rs.beta) :
    delegating c.rs c.totalStake .nonMyopic [p] before y p = 1 / 1000000 * (y / c.rs.beta) := by
  unfold RSE.Props.delegating
  simp only
  rw [hw.longRun hs, max_eq_left hb]
  unfold delegatorIncome withStake
  simp only
  rw [h1, h2, h3, hw.reward]
  have : (1 - unitMargin c x cost) * (y / c.rs.beta) * fullProfit c x cost = 1 / 1000000 * (y / c.rs.beta) := by rw [← hw.margin]; ring
  rw [this]
  exact max_eq_left (mul_nonneg (by norm_num) (div_nonneg hy hw.beta.le))

theorem MonopolyWorld.operating (hw : MonopolyWorld c o x cost) {p : Pool K} (h1 : p.pledge = x) (h2 : p.cost = cost) (h3 : p.margin = unitMargin c x cost)
    (hs : p.stake ≤ c.rs.beta) : operating c.rs c.totalStake .nonMyopic [] [p] p = fullProfit c x cost - 1 / 1000000 * (1 - x / c.rs.beta) := by
  unfold RSE.Props.operating
  simp only [List.nil_append]
  unfold matured operatorIncome withStake
  simp only
  rw [hw.longRun hs, h1, h2, h3, if_neg (by have := hw.reward; have := hw.profit_pos; linarith), hw.reward]
  have := hw.margin
  linear_combination (-(1 - x / c.rs.beta)) * this

theorem Beats.mono {rel abs cur exp u v : K} (h : Beats rel abs cur exp u) (huv : u ≤ v) : Beats rel abs cur exp v :=
  ⟨h.1.trans_le huv, h.2.1.trans_le huv, h.2.2.1.trans_le huv, h.2.2.2.trans_le huv⟩

/-! ### States -/

/-- the pool has the margin that leaves `10^-6` to be shared; delegations are of the whole stake, by those who join -/
structure Mono (c : Config K) (o : Nat) (x cost : K) (s : State K) : Prop where
  margin : ∀ pid r, s.pools.get? pid = some r → (s.heap r).margin = unitMargin c x cost
  allocs : ∀ b pid y, allocOf s b pid = some y → ∃ e, c.people[b]? = some e ∧ y = e.1 ∧ Joins c o b e

theorem monopoly_openPools {s : State K} {pid : Nat} {r : Ref} (h : s.pools = [(pid, r)]) : openPools s = [(pid, { s.heap r with delegators := [] })] := by
  unfold openPools; rw [h]; rfl

theorem dict_one {d : Dict K} (hn : d.keys.Nodup) {pid : Nat} (h : ∀ i, i ≠ pid → d.get? i = none) : d = [] ∨ ∃ y, d = [(pid, y)] := by
  have hmem : ∀ e ∈ d, e.1 = pid := by
    intro e he
    by_contra hne
    have := h e.1 hne
    rw [Dict.get?_of_mem hn he] at this
    cases this
  cases d with
  | nil => exact .inl rfl
  | cons e t =>
    cases t with
    | nil => refine .inr ⟨e.2, ?_⟩; have := hmem e (by simp); rw [← this]
    | cons z t =>
      exfalso
      have h1 := hmem e (by simp)
      have h2 := hmem z (by simp)
      simp only [Dict.keys, List.map_cons, List.nodup_cons, List.mem_cons, not_or] at hn
      exact hn.1.1 (h1.trans h2.symm)

theorem PlacedAll.nil_of_own {rs : RS K} {pools : Dict (Pool K)} {me : Agent K} {before : Dict K} {stake : K} {d : Dict K}
    (h : PlacedAll rs pools me before stake d) (hown : ∀ pid p, pools.get? pid = some p → p.owner = me.id) : d = [] := by
  refine dict_nil (fun pid => ?_)
  rw [h.2]
  cases hp : pools.get? pid with
  | none => rfl
  | some p => simp [placed, hown pid p hp]

theorem monopoly_owner (hw : MonopolyWorld c o x cost) {s : State K} (h : ReachableSinglePhase c s) {pid : Nat} {p : Pool K} (hp : (openPools s).get? pid = some p) :
    p.owner = o := by
  rw [openPools_get?] at hp
  obtain ⟨r, hr, rfl⟩ := Option.map_eq_some_iff.1 hp
  exact (hw.pool h hr).1

theorem monopoly_vals (hw : MonopolyWorld c o x cost) {s : State K} (h : ReachableSinglePhase c s) : ∀ p ∈ (openPools s).vals, p.owner = o := by
  intro p hp
  have hg := (Reachable.of_single h).good minUnit_pos
  simp only [openPools, Dict.vals, List.map_map, List.mem_map] at hp
  obtain ⟨e, he, rfl⟩ := hp
  exact (hw.pool h (Dict.get?_of_mem hg.inv.core.poolsNodup he)).1

/-- what the operator decides -/
theorem Mono.plan_operator (hw : MonopolyWorld c o x cost) {s s' : State K} (h : ReachableSinglePhase c s) (hq : Mono c o x cost s) {ag : Agent K}
    {σ : Strategy K} (ha : s.agents.get? o = some ag) (hσ : ag.strategy = some σ) {ord : List Nat → List Nat} (hord : ∀ l, (ord l).Perm l)
    {oν : Option (Strategy K)} (hp : planMove ord s ag σ = .ok (s', oν)) :
    (s.pools = [] → ∃ ν, oν = some ν ∧ ν.allocs = [] ∧ ν.owned ≠ [] ∧ ∀ pid r, ν.owned.get? pid = some r → (s'.heap r).margin = unitMargin c x cost) ∧
    (s.pools ≠ [] → oν = none) := by
  have hr := Reachable.of_single h
  have hg := hr.good minUnit_pos
  have hpar := h.params minUnit_pos
  have hid := hg.inv.core.agentId o ag ha
  have htot : s.totalStake = c.totalStake := hg.fixed.totalStake
  have hper := hg.person ha
  rw [hw.operator] at hper
  have hper := Option.some.inj hper
  have e1 : ag.stake = x := (congrArg (fun t => t.1) hper).symm
  have e2 : ag.cost = cost := (congrArg (fun t => t.2.1) hper).symm
  have e3 : ag.profile = .nonMyopic := (congrArg (fun t => t.2.2) hper).symm
  obtain ⟨s₁, δ, ω, ou, f1, f2, f3, f4, f5⟩ := C94_plan hr ha hσ (.inl hw.mode) hord hp
  obtain ⟨s₁', δ', ω', ou', f1', f2', hn1, hnk, ⟨u, hpl, hmax⟩, hdr⟩ := C93_plan hr ha hσ (.inl hw.mode) hord hp
  obtain ⟨s₁'', δ'', ω'', f1'', -, ⟨ou'', f2''⟩, hωne, d1, d2, d3⟩ := C90_plan hr ha hσ (.inl hw.mode) hord hp
  rw [f1] at f1' f1''
  cases f1'; cases f1''
  rw [f2] at f2' f2''
  cases f2'; cases f2''
  have hδ := f4.nil_of_own (fun pid p hp => by rw [hid]; exact monopoly_owner hw h hp)
  have hω := f5.nil_of_own (fun pid p hp => by rw [hid]; exact monopoly_owner hw h hp)
  have hσa : σ.allocs = [] := by
    refine dict_nil (fun pid => ?_)
    cases hx : σ.allocs.get? pid with
    | none => rfl
    | some y =>
      have : allocOf s o pid = some y := by simp [allocOf, ha, hσ, hx]
      obtain ⟨e, -, -, hj⟩ := hq.allocs o pid y this
      exact absurd rfl hj.1
  have hfil : (openPools s).vals.filter (fun p => decide (p.owner ≠ ag.id)) = [] := by
    rw [List.filter_eq_nil_iff]
    intro p hp
    rw [hid, monopoly_vals hw h p hp]; simp
  rw [hpar.rs, hw.k] at hnk
  have hn : ω.owned.length = 1 := le_antisymm hnk hn1
  obtain ⟨⟨pid, r⟩, hl⟩ := List.length_eq_one_iff.1 hn
  -- the draft
  have hde := hdr pid r (by rw [hl]; simp [Dict.get?])
  rw [hpar.rs, hpar.extraFrac, hn] at hde
  have hpl1 : (s'.heap r).pledge = x := by rw [hde.pledge, e1]; simp [hw.public_.le]
  have hco : (s'.heap r).cost = cost := by rw [hde.cost, e2]; simp
  have hma : (s'.heap r).margin = unitMargin c x cost := by
    rw [hpar.rs, hpar.extraFrac, hn] at hpl
    obtain ⟨-, us, -, -, hall⟩ := hpl
    obtain ⟨m, v, y, k1, -, k3, k4⟩ := hall 1 le_rfl le_rfl
    rw [hl] at k1
    simp at k1
    have hy : y = (0, 0) := by
      by_contra hy
      have := k3.here hy
      rw [hw.k] at this
      have hz : rivals c.rs ag.profile (openPools s).vals ag.id (fun z => ¬ RatedAbove y z) = 0 := by
        unfold rivals
        rw [List.countP_eq_zero]
        intro p hp
        rw [hid, monopoly_vals hw h p hp]; simp
      omega
    subst hy
    unfold PoolPlan at k4
    simp only [fullAt_ne hw.scheme, e3, if_true, Nat.cast_one, div_one, sub_self, zero_mul, add_zero, e1, e2, min_eq_left hw.public_.le, zero_add, hw.reward] at k4
    have k5 := (k4.2 hw.pays).1.1
    have hmx : max (1 / 1000000 : K) 0 = 1 / 1000000 := max_eq_left (by norm_num)
    rw [hmx] at k5
    rw [k1]
    exact hw.margin_unique (k5 hw.pays)
  have hst : (s'.heap r).stake ≤ c.rs.beta := by
    rw [hde.stake, hpl1]
    cases ho : σ.owned.get? pid with
    | none => simpa using hw.public_.le
    | some r₀ =>
      have k := (hg.inv.owned ha hσ ho).1
      have := (hw.stake_le h k).1
      simp only [Option.map_some, (hw.pool h k).2.1]
      linarith
  have hou := hw.operating hpl1 hco hma hst
  have hmap : ω.owned.map (fun e => s'.heap e.2) = [s'.heap r] := by rw [hl]; rfl
  have hW : 0 < fullProfit c x cost - 1 / 1000000 * (1 - x / c.rs.beta) := lt_of_le_of_lt hw.abs hw.worth
  rw [hpar.rs, hpar.relThr, hpar.absThr, hδ, hω, hσa, hmap] at d1 d2 d3
  simp only [expectation, hfil, e3, htot, List.map_nil, List.map_cons, List.sum_nil, List.sum_cons, add_zero, hou] at d1 d2 d3
  simp only [income, hσa, List.map_nil, List.sum_nil, add_zero] at d1 d2 d3
  have hrel := hw.rel
  have habs := hw.abs
  have hworth := hw.worth
  refine ⟨fun hno => ?_, fun hyes => ?_⟩
  · have ho : σ.owned = [] := by
      cases ho : σ.owned with
      | nil => rfl
      | cons e t =>
        have := (hg.inv.owned ha hσ (pid := e.1) (r := e.2) (by rw [ho]; simp [Dict.get?])).1
        rw [hno] at this
        cases this
    rw [ho] at d3
    simp only [List.map_nil, List.sum_nil] at d3
    have := d3 ⟨by linarith, by linarith, by linarith, by linarith⟩ (by linarith)
    refine ⟨ω, this, hω, hωne, fun pid' r' hget => ?_⟩
    rw [hl] at hget
    simp only [Dict.get?] at hget
    split at hget
    · cases hget; exact hma
    · cases hget
  · obtain ⟨pid₀, r₀, hp₀⟩ := (pools_nil_or s).resolve_left hyes
    obtain ⟨g1, g2, g3, g4, g5⟩ := hw.pool h hp₀
    have ho : σ.owned.get? pid₀ = some r₀ := by
      rw [← ownOf_eq ha hσ]; exact (hg.inv.own.own_iff o pid₀ r₀).2 ⟨hp₀, g1⟩
    have hlen : σ.owned.length ≤ 1 := by
      have := (C65_pools_of_an_operator_are_alike minUnit_pos h ha hσ ho).2.2.2
      rwa [hw.k] at this
    have hone : σ.owned = [(pid₀, r₀)] := by
      cases hl' : σ.owned with
      | nil => rw [hl'] at ho; cases ho
      | cons e t =>
        rw [hl'] at hlen ho
        cases t with
        | cons _ _ => simp at hlen
        | nil =>
          simp only [Dict.get?] at ho
          split at ho
          · rename_i q
            cases ho
            rw [← q]
          · cases ho
    refine d1.2 ?_
    rw [hone]
    simp only [List.map_cons, List.map_nil, List.sum_cons, List.sum_nil, add_zero, hw.operating g2 g3 (hq.margin _ _ hp₀) (hw.stake_le h hp₀).1]
    exact ⟨fun hb => by have := hb.2.2.2; linarith, fun hb => by have := hb.2.2.2; linarith⟩

/-- where an agent that has the stake `y` considers placing it -/
theorem MonopolyWorld.placed_one (hw : MonopolyWorld c o x cost) {p : Pool K} (h1 : p.owner = o) (h2 : p.isPrivate = false) {b : Nat} (hb : b ≠ o) {before : Dict K} {y : K}
    (hy : p.stake - (before.get? p.id).getD 0 + y ≤ c.rs.beta) :
    placed c.rs .nonMyopic [p] b before y p = if minUnit ≤ y then some y else none := by
  have hnp : ¬ Preferred c.rs .nonMyopic p p := by unfold Preferred Outranks; simp
  have hop : openTo [p] b = [p] := by simp [openTo, h1, h2, Ne.symm hb]
  have hsp : y ≤ spare c.rs before p := by unfold spare; rw [fullAt_ne hw.scheme]; linarith
  have hz : spareIn c.rs before (List.filter (fun q => decide (Preferred c.rs .nonMyopic q p)) [p]) = 0 := by simp [hnp, spareIn]
  unfold placed
  rw [if_pos ⟨by rw [h1]; exact Ne.symm hb, h2⟩, hop, hz]
  simp only [sub_zero]
  by_cases hs : minUnit ≤ spare c.rs before p
  · rw [if_pos hs, min_eq_left hsp]
  · rw [if_neg hs]
    have hlt : y < minUnit := lt_of_le_of_lt hsp (not_le.1 hs)
    rw [if_neg (not_le.2 hlt), if_neg]
    rintro ⟨h3, -⟩
    have : spareIn c.rs before [p] = 0 := by simp [spareIn, hs]
    rw [this, sub_zero] at h3
    exact absurd h3 (not_le.2 hlt)

/-- the delegations of an agent in such a state -/
theorem Mono.strategy (hw : MonopolyWorld c o x cost) {s : State K} (h : ReachableSinglePhase c s) (hq : Mono c o x cost s) {a : Nat} {ag : Agent K} {σ : Strategy K}
    (ha : s.agents.get? a = some ag) (hσ : ag.strategy = some σ) (hao : a ≠ o) :
    σ.owned = [] ∧ (σ.allocs = [] ∨ ∃ pid r, s.pools.get? pid = some r ∧ σ.allocs = [(pid, ag.stake)] ∧ Joins c o a (ag.stake, ag.cost, ag.profile)) := by
  have hg := (Reachable.of_single h).good minUnit_pos
  have hper := hg.person ha
  refine ⟨?_, ?_⟩
  · cases ho : σ.owned with
    | nil => rfl
    | cons e t =>
      obtain ⟨k1, k2⟩ := hg.inv.owned ha hσ (pid := e.1) (r := e.2) (by rw [ho]; simp [Dict.get?])
      exact absurd ((k2).symm.trans (hw.pool h k1).1) hao
  · have key : ∀ pid y, σ.allocs.get? pid = some y → y = ag.stake ∧ Joins c o a (ag.stake, ag.cost, ag.profile) ∧ ∃ r, s.pools.get? pid = some r := by
      intro pid y hy
      have hal : allocOf s a pid = some y := by simp [allocOf, ha, hσ, hy]
      obtain ⟨e, g1, g2, g3⟩ := hq.allocs a pid y hal
      rw [hper] at g1
      cases g1
      obtain ⟨-, r, g4, -⟩ := (hg.seq hw.mode).1.good a pid y hal
      exact ⟨g2, g3, r, g4⟩
    have hnd := (hg.inv.tidy a ag ha).allocs _ hσ
    cases hl : σ.allocs with
    | nil => exact .inl rfl
    | cons e t =>
      right
      obtain ⟨k1, k2, r, k3⟩ := key e.1 e.2 (by rw [hl]; simp [Dict.get?])
      refine ⟨e.1, r, k3, ?_, k2⟩
      have hone := (hw.pool h k3).2.2.2.2
      rcases dict_one hnd (pid := e.1) (fun i hi => by
        cases hx : σ.allocs.get? i with
        | none => rfl
        | some y =>
          obtain ⟨-, -, r', k4⟩ := key i y hx
          rw [hone] at k4
          simp only [Dict.get?] at k4
          split at k4
          · rename_i q; exact absurd q.symm hi
          · cases k4) with h1 | ⟨y, h1⟩
      · rw [h1] at hl; cases hl
      · rw [hl] at h1
        rw [h1]
        have : y = e.2 := by have := (List.cons.inj h1).1; rw [this]
        rw [this, k1]

/-- what the others decide -/
theorem Mono.plan_other (hw : MonopolyWorld c o x cost) {s s' : State K} (h : ReachableSinglePhase c s) (hq : Mono c o x cost s) {a : Nat} (hao : a ≠ o) {ag : Agent K}
    {σ : Strategy K} (ha : s.agents.get? a = some ag) (hσ : ag.strategy = some σ) (hab : ag.profile ≠ .abstainer) {ord : List Nat → List Nat} (hord : ∀ l, (ord l).Perm l)
    {oν : Option (Strategy K)} (hp : planMove ord s ag σ = .ok (s', oν)) :
    (∀ ν, oν = some ν → ν.owned ≠ [] ∨ (ν.owned = [] ∧ σ.allocs = [] ∧ Joins c o a (ag.stake, ag.cost, ag.profile) ∧
      ∃ pid r, s.pools.get? pid = some r ∧ ν.allocs = [(pid, ag.stake)])) ∧
    (s.pools ≠ [] → Joins c o a (ag.stake, ag.cost, ag.profile) → σ.allocs = [] → oν ≠ none) := by
  have hr := Reachable.of_single h
  have hg := hr.good minUnit_pos
  have hpar := h.params minUnit_pos
  have hid := hg.inv.core.agentId a ag ha
  have htot : s.totalStake = c.totalStake := hg.fixed.totalStake
  have hper := hg.person ha
  have hprof : ag.profile = .nonMyopic := by
    have := (hw.others a _ hao hper).2
    simp only at this
    cases hx : ag.profile with
    | nonMyopic => rfl
    | myopic => exact absurd hx this
    | abstainer => exact absurd hx hab
  have hpos : 0 < ag.stake := hw.stakes _ (List.mem_of_getElem? hper)
  obtain ⟨s₁, δ, ω, ou, f1, f2, f3, f4, f5⟩ := C94_plan hr ha hσ (.inl hw.mode) hord hp
  obtain ⟨s₁'', δ'', ω'', f1'', -, ⟨ou'', f2''⟩, hωne, d1, d2, d3⟩ := C90_plan hr ha hσ (.inl hw.mode) hord hp
  rw [f1] at f1''
  cases f1''
  rw [f2] at f2''
  cases f2''
  obtain ⟨ho, hal⟩ := hq.strategy hw h ha hσ hao
  have hrel := hw.rel
  have habs := hw.abs
  -- three possible outcomes
  have choice : ∀ {cur exp du ou : K}, (oν = none ↔ ¬ Beats s.relThr s.absThr cur exp du ∧ ¬ Beats s.relThr s.absThr cur exp ou) →
      (Beats s.relThr s.absThr cur exp du → ou ≤ du → oν = some δ) → (Beats s.relThr s.absThr cur exp ou → du < ou → oν = some ω) →
      (oν = none ∧ ¬ Beats s.relThr s.absThr cur exp du) ∨ (oν = some δ ∧ Beats s.relThr s.absThr cur exp du) ∨ oν = some ω := by
    intro cur exp du ou d1 d2 d3
    by_cases hb : Beats s.relThr s.absThr cur exp du
    · by_cases hle : ou ≤ du
      · exact .inr (.inl ⟨d2 hb hle, hb⟩)
      · exact .inr (.inr (d3 (hb.mono (not_le.1 hle).le) (not_le.1 hle)))
    · by_cases hb' : Beats s.relThr s.absThr cur exp ou
      · by_cases hle : ou ≤ du
        · exact absurd (hb'.mono hle) hb
        · exact .inr (.inr (d3 hb' (not_le.1 hle)))
      · exact .inl ⟨d1.2 ⟨hb, hb'⟩, hb⟩
  have hch := choice d1 d2 d3
  clear d1 d2 d3 choice
  rw [hpar.rs, hpar.relThr, hpar.absThr, htot, ho] at hch
  rw [hpar.rs] at f4
  rcases pools_nil_or s with hno | ⟨pid, r, hpr⟩
  · -- no pools
    have hδ := f4.nil_of_own (fun pid p hp => by rw [openPools_get?, hno] at hp; cases hp)
    have hσa : σ.allocs = [] := by
      rcases hal with h1 | ⟨pid, r, h1, -⟩
      · exact h1
      · rw [hno] at h1; cases h1
    refine ⟨fun ν hν => ?_, fun hne => absurd hno hne⟩
    rcases hch with ⟨h1, -⟩ | ⟨h1, h2⟩ | h1
    · rw [hν] at h1; cases h1
    · exfalso
      rw [hδ, hσa] at h2
      have := h2.2.2.2
      simp only [expectation, List.map_nil, List.sum_nil, add_zero] at this
      linarith
    · rw [hν] at h1; cases h1; exact .inl hωne
  · obtain ⟨g1, g2, g3, g4, g5⟩ := hw.pool h hpr
    obtain ⟨st1, st2⟩ := hw.stake_le h hpr
    have hopen := monopoly_openPools g5
    have hpid := (hg.inv.core.poolRef _ _ hpr).2.1
    set p : Pool K := { s.heap r with delegators := [] } with hpdef
    have hbefore : p.stake - (σ.allocs.get? p.id).getD 0 + ag.stake ≤ c.rs.beta ∧ (σ.allocs.get? pid).getD 0 = (σ.allocs.get? p.id).getD 0 := by
      refine ⟨?_, by rw [show p.id = pid from hpid]⟩
      rcases hal with h1 | ⟨pid', r', h1, h2, -⟩
      · rw [h1]; simpa [Dict.get?] using st2 ha hσ h1 ho
      · have : pid' = pid := by
          rw [g5] at h1
          simp only [Dict.get?] at h1
          split at h1
          · rename_i q; exact q.symm
          · cases h1
        subst this
        rw [h2, show p.id = pid' from hpid]
        simpa [Dict.get?] using st1
    have hplaced := hw.placed_one (p := p) g1 g4 hao hbefore.1
    have hδ : δ.allocs = if minUnit ≤ ag.stake then [(pid, ag.stake)] else [] := by
      have hget : ∀ i, δ.allocs.get? i = if i = pid then (if minUnit ≤ ag.stake then some ag.stake else none) else none := by
        intro i
        rw [f4.2 i, hopen, hprof, hid]
        by_cases hi : i = pid
        · subst hi
          simp only [Dict.get?, if_true, Option.bind_some, Dict.vals, List.map_cons, List.map_nil]
          exact hplaced
        · simp [Dict.get?, Ne.symm hi, hi]
      rcases dict_one f4.1 (pid := pid) (fun i hi => by rw [hget, if_neg hi]) with h1 | ⟨y, h1⟩
      · have := hget pid
        rw [h1, if_pos rfl] at this
        by_cases hm : (minUnit : K) ≤ ag.stake
        · rw [if_pos hm] at this; cases this
        · rw [if_neg hm]; exact h1
      · have := hget pid
        rw [h1, if_pos rfl] at this
        by_cases hm : (minUnit : K) ≤ ag.stake
        · rw [if_pos hm] at this
          simp [Dict.get?] at this
          rw [if_pos hm, h1, this]
        · rw [if_neg hm] at this
          simp [Dict.get?] at this
    have hval := hw.delegating (p := p) g2 g3 (hq.margin _ _ hpr) st1 hpos.le hbefore.1
    have hexpect : ∀ d : Dict K, d = [] ∨ d = [(pid, ag.stake)] → expectation c.rs c.totalStake (openPools s) ag σ.allocs [] d =
        if d = [] then 0 else 1 / 1000000 * (ag.stake / c.rs.beta) := by
      rintro d (rfl | rfl)
      · simp [expectation]
      · rw [hopen]
        simp only [expectation, hprof, List.map_nil, List.map_cons, List.sum_nil, List.sum_cons, zero_add, add_zero, Dict.get?, if_true, Dict.vals, hbefore.2, hval]
        simp
    have hδ' : δ.allocs = [] ∨ δ.allocs = [(pid, ag.stake)] := by
      rw [hδ]; split
      · exact .inr rfl
      · exact .inl rfl
    simp only [List.map_nil] at hch
    rw [hexpect _ hδ'] at hch
    have hq0 : 0 ≤ 1 / 1000000 * (ag.stake / c.rs.beta) := mul_nonneg (by norm_num) (div_nonneg hpos.le hw.beta.le)
    rcases hal with hσa | ⟨pid', r', h1, h2, h3⟩
    · -- does not delegate yet
      rw [hσa] at hch
      have hinc : income s σ = 0 := by simp [income, ho, hσa]
      have hexp : expectation c.rs c.totalStake (openPools s) ag [] [] [] = 0 := by simp [expectation]
      rw [hinc, hexp] at hch
      have hbeats : Beats c.relThr c.absThr 0 0 (if δ.allocs = [] then 0 else 1 / 1000000 * (ag.stake / c.rs.beta)) ↔ Joins c o a (ag.stake, ag.cost, ag.profile) := by
        unfold Beats Joins
        simp only [mul_zero, zero_add]
        rw [hδ, minUnit_eq]
        by_cases hm : (22 / 10 ^ 18 : K) ≤ ag.stake
        · simp only [hm, if_true]
          constructor
          · intro hb; exact ⟨hao, hprof, trivial, by simpa using hb.2.1⟩
          · rintro ⟨-, -, -, hj⟩
            have : (0 : K) < 1 / 1000000 * (ag.stake / c.rs.beta) := lt_of_le_of_lt habs hj
            simp only [List.cons_ne_nil, if_false]
            exact ⟨this, hj, this, hj⟩
        · simp only [hm, if_false, if_true]
          constructor
          · intro hb; exact absurd hb.1 (lt_irrefl _)
          · intro hj; exact absurd hj.2.2.1 (by simp)
      rw [hbeats] at hch
      refine ⟨fun ν hν => ?_, fun _ hj _ hnone => ?_⟩
      · rcases hch with ⟨h1, -⟩ | ⟨h1, h2⟩ | h1
        · rw [hν] at h1; cases h1
        · rw [hν] at h1; cases h1
          refine .inr ⟨f3, hσa, h2, pid, r, hpr, ?_⟩
          rw [hδ, minUnit_eq, if_pos h2.2.2.1]
        · rw [hν] at h1; cases h1; exact .inl hωne
      · rcases hch with ⟨-, h1⟩ | ⟨h1, -⟩ | h1
        · exact h1 hj
        · rw [hnone] at h1; cases h1
        · rw [hnone] at h1; cases h1
    · -- delegates already
      have hpp : pid' = pid := by
        rw [g5] at h1
        simp only [Dict.get?] at h1
        split at h1
        · rename_i q; exact q.symm
        · cases h1
      subst hpp
      have hm : (minUnit : K) ≤ ag.stake := by rw [minUnit_eq]; exact h3.2.2.1
      rw [if_pos hm] at hδ
      have he := hexpect σ.allocs (.inr h2)
      rw [he, if_neg (by rw [h2]; simp), if_neg (by rw [hδ]; simp)] at hch
      refine ⟨fun ν hν => ?_, fun _ _ hnil => by rw [h2] at hnil; cases hnil⟩
      rcases hch with ⟨h1, -⟩ | ⟨-, h1⟩ | h1
      · rw [hν] at h1; cases h1
      · exfalso
        have := h1.2.2.2
        linarith
      · rw [hν] at h1; cases h1; exact .inl hωne

/-! ### Turns -/

/-- the agent delegates to some pool -/
def Delegates (s : State K) (b : Nat) : Prop := ∃ pid y, allocOf s b pid = some y

theorem ownOf_ownListOf (s : State K) (b pid : Nat) : ownOf s b pid = (ownListOf s b).bind (fun d => d.get? pid) := by
  unfold ownOf ownListOf
  cases ha : s.agents.get? b with
  | none => rfl
  | some ag =>
    cases hσ : ag.strategy with
    | none => simp [Agent.skel, hσ]
    | some σ => simp [Agent.skel, hσ]

theorem mono_init : Mono c o x cost (initState c) := by
  refine ⟨fun pid r hp => (by cases hp), fun b pid y hy => ?_⟩
  rw [(solitary_init c).1.allocs b pid] at hy
  cases hy

/-- one turn -/
theorem Mono.step (hw : MonopolyWorld c o x cost) {s s' : State K} (h : ReachableSinglePhase c s) (hq : Mono c o x cost s) {me : Nat}
    {ord : List Nat → List Nat} (hv : (Event.step me ord : Event K).Valid c.people.length) (he : exec s (.step me ord) = .ok s') :
    Mono c o x cost s' ∧ (s.pools ≠ [] ∨ me = o → s'.pools ≠ []) ∧ (∀ b pid, b ≠ me → allocOf s' b pid = allocOf s b pid) ∧
      (s.pools ≠ [] → ∀ e, c.people[me]? = some e → Joins c o me e → Delegates s' me) ∧
      (s.pools ≠ [] → (∀ e, c.people[me]? = some e → Joins c o me e → Delegates s me) →
        s'.idle = s.idle ∧ s'.pools = s.pools ∧ ∀ b pid, allocOf s' b pid = allocOf s b pid) ∧
      (s'.idle = true → s'.pools = s.pools) := by
  have hr := Reachable.of_single h
  have hg := hr.good minUnit_pos
  have hr' := h.next hv (fun p h => by cases h) he
  have hg' := (Reachable.of_single hr').good minUnit_pos
  have hd := hg.exec minUnit_pos hv
  rw [he] at hd
  obtain ⟨hd, -⟩ := hd
  have setA : ∀ {s₁ s₂ : State K} {ag : Agent K} {σ : Strategy K} {o : Option (Strategy K)}, s.agents.get? me = some ag → ag.strategy = some σ →
      s₁.agents = s.agents → s₂ = s₁.setAgent { ag with newStrategy := o } →
      (∀ b pid, allocOf s₂ b pid = allocOf s b pid) ∧ ∀ b, ownListOf s₂ b = ownListOf s b := by
    intro s₁ s₂ ag σ o ha hσ h1 h2
    have hid := hg.inv.core.agentId me ag ha
    have hget : ∀ b, s₂.agents.get? b = if b = me then some { ag with newStrategy := o } else s.agents.get? b := by
      intro b
      rw [h2, get?_setAgent (me := me) (ag := { ag with newStrategy := o }) hid b, h1]
    refine ⟨fun b pid => ?_, fun b => ?_⟩
    · unfold allocOf
      rw [hget]
      by_cases hb : b = me
      · subst hb; simp [ha]
      · simp [hb]
    · unfold ownListOf
      rw [hget]
      by_cases hb : b = me
      · subst hb; simp [ha, Agent.skel]
      · simp [hb]
  cases hd with
  | idle _ _ ag ha hprof =>
    have hper := hg.person ha
    have hno : ∀ e, c.people[me]? = some e → ¬ Joins c o me e := by
      intro e he hj
      rw [hper] at he; cases he
      have := hj.2.1
      simp only at this
      rw [hprof] at this; cases this
    refine ⟨hq, ?_, fun _ _ _ => rfl, fun _ e he hj => absurd hj (hno e he), fun _ _ => ⟨rfl, rfl, fun _ _ => rfl⟩, fun _ => rfl⟩
    rintro (h1 | h1)
    · exact h1
    · rw [h1, hw.operator] at hper
      have := congrArg (fun t => t.2.2) (Option.some.inj hper)
      simp only at this
      rw [hprof] at this; cases this
  | plan _ _ ag σ oν s₁ _ ha hprof hσ hpm hpl hsim ht =>
    have hn : oν = none := by
      rcases hsim with h1 | h1
      · rw [hg.fixed.simultaneous] at h1
        have : c.simultaneous = true := h1
        rw [hw.mode] at this; cases this
      · exact h1
    subst hn
    obtain ⟨h1, h2⟩ := setA ha hσ hpl.planned.agents hpl.eq
    have hidle : s'.idle = s.idle := by rw [hpl.eq]; exact hpl.planned.idle
    have hpools : s'.pools = s.pools := by rw [hpl.eq]; exact hpl.planned.pools
    have hheap : s'.heap = s₁.heap := by rw [hpl.eq]; rfl
    refine ⟨⟨fun pid r hp => ?_, fun b pid y hy => hq.allocs b pid y (by rw [← h1]; exact hy)⟩, ?_, fun b pid _ => h1 b pid, ?_, fun _ _ => ⟨hidle, hpools, h1⟩, fun _ => hpools⟩
    · rw [hpools] at hp
      rw [hheap, (hpl.planned.same r (hg.inv.core.poolRef _ _ hp).1).margin]
      exact hq.margin pid r hp
    · rw [hpools]
      rintro (h3 | h3)
      · exact h3
      · intro hno
        subst h3
        obtain ⟨ν, hν, -⟩ := (hq.plan_operator hw h ha hσ hv.2 hpm).1 hno
        cases hν
    · intro hopen e he hj
      rw [hg.person ha] at he
      cases he
      obtain ⟨-, hal⟩ := hq.strategy hw h ha hσ hj.1
      rcases hal with hal | ⟨pid, r, -, hal, -⟩
      · exact absurd rfl ((hq.plan_other hw h hj.1 ha hσ hprof hv.2 hpm).2 hopen hj hal)
      · refine ⟨pid, ag.stake, ?_⟩
        rw [h1]
        simp [allocOf, ha, hσ, hal, Dict.get?]
  | move _ _ ag σ ν s₁ s₂ s₃ ha hprof hσ hpm hpl hsim ht hex hdx hinv hds =>
    obtain ⟨h1, h2⟩ := setA ha hσ hpl.planned.agents hpl.eq
    have hid := hg.inv.core.agentId me ag ha
    have ha2 : s₂.agents.get? me = some { ag with newStrategy := some ν } := by
      rw [hpl.eq, get?_setAgent (me := me) (ag := { ag with newStrategy := some ν }) hid me, if_pos rfl]
    have hheap : s₂.heap = s₁.heap := by rw [hpl.eq]; rfl
    have hmine : ownListOf s₃ me = some ν.owned := by
      unfold ownListOf
      rw [hdx.mine, ha2]; rfl
    have hsq := hds hw.mode
    have hoth : ∀ b, b ≠ me → ownListOf s₃ b = ownListOf s b := by
      intro b hb
      rw [← h2 b]
      unfold ownListOf
      rw [hdx.others b hb]
    have howns : ∀ pid r, s₃.pools.get? pid = some r → (ownListOf s₃ o).bind (fun d => d.get? pid) = some r := by
      intro pid r hp
      rw [← ownOf_ownListOf]
      exact (hg'.inv.own.own_iff o pid r).2 ⟨hp, (hw.pool hr' (s := { s₃ with idle := false }) hp).1⟩
    have hkept : ∀ pid b, σ.owned = [] → b ≠ me → allocOf s₃ b pid = allocOf s b pid := by
      intro pid b hno hb
      rw [hsq.kept b hb pid (fun hgone => by have := hgone.1; rw [hno] at this; cases this), h1]
    by_cases hmo : me = o
    · subst hmo
      obtain ⟨p1, p2⟩ := hq.plan_operator hw h ha hσ hv.2 hpm
      have hno : s.pools = [] := by
        by_contra hne
        have := p2 hne
        cases this
      obtain ⟨ν', hν', hal, hne, hma⟩ := p1 hno
      cases hν'
      have hσo : σ.owned = [] := by
        cases ho : σ.owned with
        | nil => rfl
        | cons e t =>
          have := (hg.inv.owned ha hσ (pid := e.1) (r := e.2) (by rw [ho]; simp [Dict.get?])).1
          rw [hno] at this
          cases this
      refine ⟨⟨fun pid r hp => ?_, fun b pid y hy => ?_⟩, fun _ => ?_, fun b pid hb => hkept pid b hσo hb, fun hopen => absurd hno hopen, fun hopen => absurd hno hopen,
        fun hi => by cases hi⟩
      · have := howns pid r hp
        rw [hmine] at this
        change (s₃.heap r).margin = _
        rw [(hdx.same r).margin, hheap]
        exact hma pid r this
      · have hy : allocOf s₃ b pid = some y := hy
        by_cases hb : b = me
        · rw [hb, hsq.mine, hal] at hy; cases hy
        · rw [hkept pid b hσo hb] at hy; exact hq.allocs b pid y hy
      · change s₃.pools ≠ []
        obtain ⟨e, he⟩ := List.exists_mem_of_ne_nil _ hne
        intro hnil
        have k := (hg'.inv.own.own_iff me e.1 e.2).1 (by
          rw [ownOf_ownListOf]
          change (ownListOf s₃ me).bind _ = _
          rw [hmine]
          exact Dict.get?_of_mem (hpl.new ν rfl).ownedNodup he)
        have k : s₃.pools.get? e.1 = some e.2 := k.1
        rw [hnil] at k; cases k
    · obtain ⟨p1, p2⟩ := hq.plan_other hw h hmo ha hσ hprof hv.2 hpm
      have hσo := (hq.strategy hw h ha hσ hmo).1
      rcases p1 ν rfl with hne | ⟨hν, hal, hj, pid₀, r₀, hp₀, hνa⟩
      · exfalso
        obtain ⟨e, he⟩ := List.exists_mem_of_ne_nil _ hne
        have k := (hg'.inv.own.own_iff me e.1 e.2).1 (by
          rw [ownOf_ownListOf]
          change (ownListOf s₃ me).bind _ = _
          rw [hmine]
          exact Dict.get?_of_mem (hpl.new ν rfl).ownedNodup he)
        exact hmo (k.2.symm.trans (hw.pool hr' k.1).1)
      · have hdel : Delegates { s₃ with idle := false } me := ⟨pid₀, ag.stake, by
          change allocOf s₃ me pid₀ = _
          rw [hsq.mine, hνa]; simp [Dict.get?]⟩
        have hso : ownListOf s₃ o = ownListOf s o := hoth o (Ne.symm hmo)
        refine ⟨⟨fun pid r hp => ?_, fun b pid y hy => ?_⟩, fun _ => ?_, fun b pid hb => hkept pid b hσo hb, fun _ _ _ _ => hdel, fun _ hall => ?_, fun hi => by cases hi⟩
        · have k := howns pid r hp
          rw [hso, ← ownOf_ownListOf] at k
          have k := ((hg.inv.own.own_iff o pid r).1 k).1
          change (s₃.heap r).margin = _
          rw [(hdx.same r).margin, hheap, (hpl.planned.same r (hg.inv.core.poolRef _ _ k).1).margin]
          exact hq.margin pid r k
        · have hy : allocOf s₃ b pid = some y := hy
          by_cases hb : b = me
          · rw [hb, hsq.mine, hνa] at hy
            have : y = ag.stake := by
              simp only [Dict.get?] at hy
              split at hy
              · exact (Option.some.inj hy).symm
              · cases hy
            rw [hb]
            exact ⟨_, hg.person ha, this, hj⟩
          · rw [hkept pid b hσo hb] at hy; exact hq.allocs b pid y hy
        · change s₃.pools ≠ []
          intro hnil
          have k := (hg.inv.own.own_iff o pid₀ r₀).2 ⟨hp₀, (hw.pool h hp₀).1⟩
          rw [ownOf_ownListOf, ← hso] at k
          have k := (hg'.inv.own.own_iff o pid₀ r₀).1 (by rw [ownOf_ownListOf]; exact k)
          have k : s₃.pools.get? pid₀ = some r₀ := k.1
          rw [hnil] at k; cases k
        · exfalso
          obtain ⟨pid, y, hy⟩ := hall _ (hg.person ha) hj
          simp [allocOf, ha, hσ, hal] at hy

/-- a round with an idle end had an idle beginning -/
theorem monopoly_idle_turns {ords : Nat → List Nat → List Nat} {s s' : State K} (hr : ReachableSinglePhase c s) (hords : ∀ i l, (ords i l).Perm l)
    (l : List (Nat × Nat)) (hl : ∀ e ∈ l, e.1 < c.people.length)
    (he : iterM (fun s (e : Nat × Nat) => agentStep (ords e.2) s e.1) s l = .ok s') (hi : s'.idle = true) : s.idle = true := by
  induction l generalizing s with
  | nil => cases he; exact hi
  | cons y t ih =>
    obtain ⟨s₁, he1, he2⟩ := bind_ok he
    have hv : (Event.step y.1 (ords y.2) : Event K).Valid c.people.length := ⟨hl y List.mem_cons_self, hords _⟩
    have hr1 := hr.next hv (fun p h => by cases h) he1
    exact exec_idle_of minUnit_pos (Reachable.of_single hr) hv he1 (ih hr1 (fun e he => hl e (List.mem_cons_of_mem _ he)) he2)

/-- many turns -/
theorem Mono.turns (hw : MonopolyWorld c o x cost) {ords : Nat → List Nat → List Nat} (hords : ∀ i l, (ords i l).Perm l) (l : List (Nat × Nat)) :
    ∀ {s s' : State K}, ReachableSinglePhase c s → Mono c o x cost s → (∀ e ∈ l, e.1 < c.people.length) →
      iterM (fun s (e : Nat × Nat) => agentStep (ords e.2) s e.1) s l = .ok s' →
      Mono c o x cost s' ∧ (s.pools ≠ [] ∨ o ∈ l.map Prod.fst → s'.pools ≠ []) ∧ (∀ b, Delegates s b → Delegates s' b) ∧
        (s.pools ≠ [] → ∀ b e, b ∈ l.map Prod.fst → c.people[b]? = some e → Joins c o b e → Delegates s' b) ∧
        (s.pools ≠ [] → (∀ b e, c.people[b]? = some e → Joins c o b e → Delegates s b) →
          s'.idle = s.idle ∧ s'.pools = s.pools ∧ ∀ b pid, allocOf s' b pid = allocOf s b pid) ∧
        (s'.idle = true → s'.pools = s.pools) := by
  induction l with
  | nil =>
    intro s s' hr hq _ he
    cases he
    exact ⟨hq, fun h => h.resolve_right (by simp), fun _ h => h, fun _ b e hb => by simp at hb, fun _ _ => ⟨rfl, rfl, fun _ _ => rfl⟩, fun _ => rfl⟩
  | cons y t ih =>
    intro s s' hr hq hl he
    obtain ⟨s₁, he1, he2⟩ := bind_ok he
    have hv : (Event.step y.1 (ords y.2) : Event K).Valid c.people.length := ⟨hl y List.mem_cons_self, hords _⟩
    have hr1 := hr.next hv (fun p h => by cases h) he1
    obtain ⟨g1, g2, g3, g4, g5, g6⟩ := hq.step hw hr hv he1
    obtain ⟨i1, i2, i3, i4, i5, i6⟩ := ih hr1 g1 (fun e he => hl e (List.mem_cons_of_mem _ he)) he2
    have hg := (Reachable.of_single hr).good minUnit_pos
    have hmono : ∀ b, Delegates s b → Delegates s₁ b := by
      rintro b ⟨pid, z, hz⟩
      by_cases hb : b = y.1
      · obtain ⟨e, k1, -, k2⟩ := hq.allocs b pid z hz
        obtain ⟨-, r, k3, -⟩ := (hg.seq hw.mode).1.good b pid z hz
        subst hb
        exact g4 (fun hnil => by rw [hnil] at k3; cases k3) e k1 k2
      · exact ⟨pid, z, by rw [g3 b pid hb]; exact hz⟩
    refine ⟨i1, ?_, fun b hb => i3 b (hmono b hb), ?_, ?_, ?_⟩
    · intro h
      refine i2 ?_
      rcases h with h | h
      · exact .inl (g2 (.inl h))
      · simp only [List.map_cons, List.mem_cons] at h
        rcases h with h | h
        · exact .inl (g2 (.inr h.symm))
        · exact .inr h
    · intro hopen b e hb he hj
      simp only [List.map_cons, List.mem_cons] at hb
      rcases hb with hb | hb
      · subst hb
        exact i3 _ (g4 hopen e he hj)
      · exact i4 (g2 (.inl hopen)) b e hb he hj
    · intro hopen hall
      obtain ⟨j1, j2, j3⟩ := g5 hopen (fun e h1 h2 => hall _ e h1 h2)
      obtain ⟨k1, k2, k3⟩ := i5 (by rw [j2]; exact hopen) (fun b e h1 h2 => by
        obtain ⟨pid, z, hz⟩ := hall b e h1 h2
        exact ⟨pid, z, by rw [j3]; exact hz⟩)
      exact ⟨k1.trans j1, k2.trans j2, fun b pid => (k3 b pid).trans (j3 b pid)⟩
    · intro hi
      exact (i6 hi).trans (g6 (monopoly_idle_turns hr1 hords t (fun e he => hl e (List.mem_cons_of_mem _ he)) he2 hi))

end

/-! ### C134 -/

/-- There is one pool.  It is the operator's, with their whole stake as pledge, public, and its margin leaves `10^-6` of the profit of a full pool to be shared.
Who delegates is one of those who would, and delegates everything to it. -/
structure Monopolised (c : Config K) (o : Nat) (x cost : K) (s : State K) : Prop where
  pool : ∃ pid r, s.pools = [(pid, r)] ∧ (s.heap r).owner = o ∧ (s.heap r).pledge = x ∧ (s.heap r).cost = cost ∧ (s.heap r).isPrivate = false ∧
    (1 - (s.heap r).margin) * fullProfit c x cost = 1 / 1000000 ∧ (s.heap r).stake = x + ((s.heap r).delegators.map (fun d => d.2)).sum
  delegations : ∀ b pid y, Says s b pid y → Records s pid b y ∧ ∃ e, c.people[b]? = some e ∧ y = e.1 ∧ Joins c o b e

/-- … and all who would delegate do so -/
structure AllJoined (c : Config K) (o : Nat) (x cost : K) (s : State K) : Prop extends Monopolised c o x cost s where
  joined : ∀ b e, c.people[b]? = some e → Joins c o b e → ∃ pid, Says s b pid e.1

theorem says_iff_allocOf {s : State K} {b pid : Nat} {y : K} : Says s b pid y ↔ allocOf s b pid = some y := by
  unfold Says allocOf
  constructor
  · rintro ⟨ag, σ, ha, hσ, h⟩
    simp [ha, hσ, h]
  · intro h
    cases ha : s.agents.get? b with
    | none => rw [ha] at h; cases h
    | some ag =>
      rw [ha] at h
      obtain ⟨σ, hσ, h⟩ := Option.bind_eq_some_iff.1 h
      exact ⟨ag, σ, rfl, hσ, h⟩

section
variable {c : Config K} {o : Nat} {x cost : K}

theorem Mono.monopolised (hw : MonopolyWorld c o x cost) {s : State K} (h : ReachableSinglePhase c s) (hq : Mono c o x cost s) (hne : s.pools ≠ []) :
    Monopolised c o x cost s := by
  have hr := Reachable.of_single h
  have hb := hr.books hw.mode
  obtain ⟨pid, r, hp⟩ := (pools_nil_or s).resolve_left hne
  obtain ⟨h1, h2, h3, h4, h5⟩ := hw.pool h hp
  refine ⟨⟨pid, r, h5, h1, h2, h3, h4, ?_, ?_⟩, fun b i y hy => ?_⟩
  · rw [hq.margin pid r hp]; exact hw.margin
  · have := (hr.balanced r).stake
    rw [h2] at this
    exact this
  · have hy := says_iff_allocOf.1 hy
    obtain ⟨-, r', hr', -⟩ := hb.good b i y hy
    exact ⟨⟨r', hr', by rw [hb.agree i r' hr' b, hy]⟩, hq.allocs b i y hy⟩

theorem Monopolised.mono (hw : MonopolyWorld c o x cost) {s : State K} (hm : Monopolised c o x cost s) : Mono c o x cost s ∧ s.pools ≠ [] := by
  obtain ⟨⟨pid, r, h1, -, -, -, -, h6, -⟩, hs⟩ := hm
  refine ⟨⟨fun i r' hp => ?_, fun b i y hy => (hs b i y (says_iff_allocOf.2 hy)).2⟩, by rw [h1]; simp⟩
  rw [h1] at hp
  simp only [Dict.get?] at hp
  split at hp
  · cases hp; exact hw.margin_unique h6
  · cases hp

theorem Mono.allJoined (hw : MonopolyWorld c o x cost) {s : State K} (h : ReachableSinglePhase c s) (hq : Mono c o x cost s) (hne : s.pools ≠ [])
    (hall : ∀ b e, c.people[b]? = some e → Joins c o b e → Delegates s b) : AllJoined c o x cost s := by
  refine ⟨hq.monopolised hw h hne, fun b e hb hj => ?_⟩
  obtain ⟨pid, y, hy⟩ := hall b e hb hj
  obtain ⟨e', h1, h2, -⟩ := hq.allocs b pid y hy
  rw [hb] at h1
  cases h1
  exact ⟨pid, says_iff_allocOf.2 (by rw [hy, h2])⟩

theorem MonopolyWorld.round (hw : MonopolyWorld c o x cost) {s : State K} (h : ReachableSinglePhase c s) {ords : Nat → List Nat → List Nat}
    (hords : ∀ i l, (ords i l).Perm l) {order : List Nat} (hv : ∀ a ∈ order, a < c.people.length) :
    ∃ s', roundSequential ords order s = .ok s' ∧ ReachableSinglePhase c s' :=
  C29_rounds_never_crash hw.mode (by rw [hw.k]) hw.beta hw.a0 hw.stakes (fun h' => absurd h' hw.scheme) h hords hv

/-- C134, the first round.  Whatever the order of the agents in it: afterwards the operator's pool is open, and the round was not idle. -/
theorem C134_first_round (hw : MonopolyWorld c o x cost) {ords : Nat → List Nat → List Nat} (hords : ∀ i l, (ords i l).Perm l) {order : List Nat}
    (hfull : ∀ a, a ∈ order ↔ a < c.people.length) :
    ∃ s, roundSequential ords order (initState c) = .ok s ∧ ReachableSinglePhase c s ∧ Monopolised c o x cost s ∧ s.idle = false := by
  have h0 : ReachableSinglePhase c (initState c) := ⟨[], by simp, rfl⟩
  obtain ⟨s, he, hr⟩ := hw.round h0 hords (fun a ha => (hfull a).1 ha)
  have hmap : order.zipIdx.map Prod.fst = order := List.zipIdx_map_fst _ _
  obtain ⟨g1, g2, -, -, -, g6⟩ := mono_init.turns hw hords order.zipIdx h0 (by
    intro e he
    refine (hfull e.1).1 ?_
    rw [← hmap]; exact List.mem_map_of_mem he) he
  rw [hmap] at g2
  have hne := g2 (.inr ((hfull o).2 (List.getElem?_eq_some_iff.1 hw.operator).1))
  refine ⟨s, he, hr, g1.monopolised hw hr hne, ?_⟩
  by_contra hi
  exact hne (g6 (by simpa using hi))

/-- C134, the second round.  Afterwards all who would delegate do so. -/
theorem C134_second_round (hw : MonopolyWorld c o x cost) {s : State K} (h : ReachableSinglePhase c s) (hm : Monopolised c o x cost s)
    {ords : Nat → List Nat → List Nat} (hords : ∀ i l, (ords i l).Perm l) {order : List Nat} (hfull : ∀ a, a ∈ order ↔ a < c.people.length) :
    ∃ s', roundSequential ords order s = .ok s' ∧ ReachableSinglePhase c s' ∧ AllJoined c o x cost s' := by
  obtain ⟨s', he, hr⟩ := hw.round h hords (fun a ha => (hfull a).1 ha)
  obtain ⟨hq, hne⟩ := hm.mono hw
  have hmap : order.zipIdx.map Prod.fst = order := List.zipIdx_map_fst _ _
  obtain ⟨g1, g2, -, g4, -, -⟩ := hq.turns hw hords order.zipIdx h (by
    intro e he
    refine (hfull e.1).1 ?_
    rw [← hmap]; exact List.mem_map_of_mem he) he
  rw [hmap] at g4
  exact ⟨s', he, hr, g1.allJoined hw hr (g2 (.inl hne)) (fun b e hb hj => g4 hne b e ((hfull b).2 (List.getElem?_eq_some_iff.1 hb).1) hb hj)⟩

/-- C134, later rounds.  From then on nobody moves, whatever the order of the agents. -/
theorem C134_later_rounds (hw : MonopolyWorld c o x cost) {s : State K} (h : ReachableSinglePhase c s) (hm : AllJoined c o x cost s)
    {ords : Nat → List Nat → List Nat} (hords : ∀ i l, (ords i l).Perm l) {order : List Nat} (hv : ∀ a ∈ order, a < c.people.length) :
    ∃ s', roundSequential ords order s = .ok s' ∧ ReachableSinglePhase c s' ∧ AllJoined c o x cost s' ∧ s'.idle = s.idle ∧ s'.pools = s.pools ∧
      ∀ b pid y, Says s' b pid y ↔ Says s b pid y := by
  obtain ⟨s', he, hr⟩ := hw.round h hords hv
  obtain ⟨hq, hne⟩ := hm.toMonopolised.mono hw
  have hall : ∀ b e, c.people[b]? = some e → Joins c o b e → Delegates s b := fun b e hb hj => by
    obtain ⟨pid, hs⟩ := hm.joined b e hb hj
    exact ⟨pid, _, says_iff_allocOf.1 hs⟩
  have hmap : order.zipIdx.map Prod.fst = order := List.zipIdx_map_fst _ _
  obtain ⟨g1, g2, g3, -, g5, -⟩ := hq.turns hw hords order.zipIdx h (by
    intro e he
    refine hv e.1 ?_
    rw [← hmap]; exact List.mem_map_of_mem he) he
  obtain ⟨k1, k2, k3⟩ := g5 hne hall
  refine ⟨s', he, hr, g1.allJoined hw hr (g2 (.inl hne)) (fun b e hb hj => g3 b (hall b e hb hj)), k1, k2, fun b pid y => ?_⟩
  rw [says_iff_allocOf, says_iff_allocOf, k3]

theorem Monopolised.metrics (hw : MonopolyWorld c o x cost) {s : State K} (hm : Monopolised c o x cost s) {d : Config K} (hr : Reachable d s) :
    poolCount s = 1 ∧ operatorCount s = 1 ∧ totalPledge s = x ∧ nakamoto s = .ok 1 := by
  obtain ⟨⟨pid, r, h1, h2, h3, -, -, -, h7⟩, -⟩ := hm
  have hpos : 0 < (s.heap r).stake := by
    have : 0 ≤ ((s.heap r).delegators.map (fun d => d.2)).sum := by
      refine List.sum_nonneg (fun y hy => ?_)
      obtain ⟨e, he, rfl⟩ := List.mem_map.1 hy
      exact minUnit_pos.le.trans ((hr.balanced r).min e he)
    have := hw.x_pos
    rw [h7]; linarith
  have hin : inPools s = (s.heap r).stake := by simp [inPools, h1]
  refine ⟨by simp [poolCount, h1], by simp [operatorCount, owners, poolsList, h1], ?_, ?_⟩
  · have : totalPledge s = ((poolsList s).map (fun p => p.pledge)).sum := rfl
    rw [this]
    simp [poolsList, h1, h3]
  · obtain ⟨n, g1, g2, -, -, g4⟩ := C47_nakamoto (owned_of_reachable hr) (by rw [hin]; exact hpos)
    have hag : o ∈ s.agents.keys := by
      rw [← h2]
      exact (owned_of_reachable hr).owner (pid, r) (by rw [h1]; simp)
    have := g4 {o} (by simpa using hag) (by
      rw [Finset.sum_singleton, hin]
      simp [controls, h1, h2]
      linarith)
    rw [Finset.card_singleton] at this
    rw [g1, le_antisymm this g2]

/-- C134, what metrics report in such a state: one pool, one operator, the operator's stake as total pledge, and a Nakamoto coefficient of 1. -/
theorem C134_metrics (hw : MonopolyWorld c o x cost) {s : State K} (h : ReachableSinglePhase c s) (hm : Monopolised c o x cost s) :
    poolCount s = 1 ∧ operatorCount s = 1 ∧ totalPledge s = x ∧ nakamoto s = .ok 1 :=
  hm.metrics hw (Reachable.of_single h)

variable {R : Type}

/-- the history of a run -/
theorem monopoly_history (hw : MonopolyWorld c o x cost) {ords : Nat → Nat → List Nat → List Nat} (hords : ∀ i j l, (ords i j l).Perm l)
    {order : Nat → List Nat} (hfull : ∀ i a, a ∈ order i ↔ a < c.people.length) {report : State K → Py R} {conv : Int}
    {phases : Nat → PhaseParams K} {h : List (Round (State K))} {w : State K}
    (hh : History (simEnv (seqRounds ords order) report conv 1 phases (fun _ => none)) (initState c) h w) (hnc : ∀ r ∈ h, r.phaseChange = false) :
    ReachableSinglePhase c w ∧ w.idle = true ∧ (h = [] → w = initState c) ∧ (h ≠ [] → Monopolised c o x cost w) ∧
      (2 ≤ h.length → AllJoined c o x cost w) ∧ (∀ i (hi : i < h.length), 1 ≤ i → AllJoined c o x cost (h[i]).after) ∧
      (∀ i (hi : i < h.length), (i = 0 → (h[i]).after.idle = false) ∧ (2 ≤ i → (h[i]).after.idle = true)) := by
  have hend : ∀ {s : State K}, ReachableSinglePhase c s → ReachableSinglePhase c { s with idle := true } := fun hr =>
    hr.next (ev := .roundEnd) trivial (fun p h => by cases h) rfl
  have hop : ∀ {s : State K}, Monopolised c o x cost s → Monopolised c o x cost { s with idle := true } := fun ho => ⟨ho.pool, ho.delegations⟩
  have hall : ∀ {s : State K}, AllJoined c o x cost s → AllJoined c o x cost { s with idle := true } := fun ho => ⟨hop ho.toMonopolised, ho.joined⟩
  induction hh with
  | start => exact ⟨⟨[], by simp, rfl⟩, rfl, fun _ => rfl, fun h => absurd rfl h, by simp, by simp, by simp⟩
  | @round h w₁ w₂ hh he ih =>
    obtain ⟨i1, i2, i3, i4, i5, i6, i7⟩ := ih (fun r hr => hnc r (List.mem_append_left _ hr))
    have he : roundSequential (ords h.length) (order h.length) w₁ = .ok w₂ := he
    have key : ReachableSinglePhase c w₂ ∧ Monopolised c o x cost w₂ ∧ (1 ≤ h.length → AllJoined c o x cost w₂) ∧
        (h.length = 0 → w₂.idle = false) ∧ (2 ≤ h.length → w₂.idle = true) := by
      by_cases hn : h = []
      · rw [i3 hn] at he
        obtain ⟨s, g1, g2, g3, g4⟩ := C134_first_round hw (hords h.length) (hfull h.length)
        rw [he] at g1
        cases g1
        exact ⟨g2, g3, fun h1 => by rw [hn] at h1; simp at h1, fun _ => g4, fun h1 => by rw [hn] at h1; simp at h1⟩
      · obtain ⟨s, g1, g2, g3⟩ := C134_second_round hw i1 (i4 hn) (hords h.length) (hfull h.length)
        rw [he] at g1
        cases g1
        refine ⟨g2, g3.toMonopolised, fun _ => g3, fun h1 => absurd (List.length_eq_zero_iff.1 h1) hn, fun h2 => ?_⟩
        obtain ⟨s, g1, -, -, g4, -⟩ := C134_later_rounds hw i1 (i5 h2) (hords h.length) (fun a ha => (hfull h.length a).1 ha)
        rw [he] at g1
        cases g1
        rw [g4, i2]
    obtain ⟨k1, k2, k3, k4, k5⟩ := key
    refine ⟨hend k1, rfl, fun h => by simp at h, fun _ => hop k2, fun h2 => hall (k3 (by simp at h2; omega)), ?_, ?_⟩
    · intro i hi h1
      by_cases hil : i < h.length
      · rw [List.getElem_append_left hil]; exact i6 i hil h1
      · have : i = h.length := by simp at hi; omega
        subst this
        simpa using k3 h1
    · intro i hi
      by_cases hil : i < h.length
      · rw [List.getElem_append_left hil]; exact i7 i hil
      · have : i = h.length := by simp at hi; omega
        subst this
        exact ⟨fun h0 => by simpa using k4 h0, fun h2 => by simpa using k5 h2⟩
  | @change h w₁ w₂ w₃ hh he hcp ih =>
    have := hnc ⟨w₁, w₂, true⟩ (by simp)
    cases this

/-- C134, the whole run.  If `max_iterations` is at least `iterations_after_convergence + 2`, a run reports an equilibrium at step 0 or at step 1, after
`iterations_after_convergence` further rounds, and all who would delegate to the pool do so. -/
theorem C134_run (hw : MonopolyWorld c o x cost) {ords : Nat → Nat → List Nat → List Nat} (hords : ∀ i j l, (ords i j l).Perm l)
    {order : Nat → List Nat} (hfull : ∀ i a, a ∈ order i ↔ a < c.people.length) {report : State K → Py R} {conv : Int} (hconv : 1 ≤ conv)
    {phases : Nat → PhaseParams K} {m : Int} (hm : conv + 2 ≤ m) {fuel : Nat} {l : Loop (State K) R}
    (hl : Loop.runModel (simEnv (seqRounds ords order) report conv 1 phases (fun _ => none)) fuel (Loop.init (initState c) m) = .ok l) :
    l.exports = [true] ∧ ((l.steps : Int) = conv + 1 ∧ l.eqSteps = [0] ∨ (l.steps : Int) = conv + 2 ∧ l.eqSteps = [1]) ∧ AllJoined c o x cost l.world := by
  set env := simEnv (seqRounds ords order) report conv 1 phases (fun _ => none) with henv
  obtain ⟨h, -, hmeq, hle, hh⟩ := (Track.init env (initState c) m).loop_max (fun _ => rfl) fuel (by simp [Loop.init]; omega) hl
  obtain ⟨h', w', f1, f2, f3, f4, f5⟩ := C34_first env (fun _ => rfl) le_rfl (initState c) m (by omega) fuel l hl
  have f1 : History env (initState c) h' w' := f1
  have hid := (monopoly_history hw hords hfull f1 f3).2.2.2.2.2.2
  have hid0 : ∀ (hi : 0 < h'.length), ¬ (h'[0]).Idle env := by
    intro hi hidle
    have : (h'[0]).after.idle = true := hidle
    rw [(hid 0 hi).1 rfl] at this
    cases this
  have hid2 : ∀ i (hi : i < h'.length), 2 ≤ i → (h'[i]).Idle env := fun i hi h2 => (hid i hi).2 h2
  have hcv : env.conv = conv := rfl
  rw [hcv] at f4 f5
  have hlast : ∀ n, n ≤ h'.length → conv + 2 ≤ (n : Int) → LastIdle env (h'.take n) conv := by
    intro n hn h1
    have hlen : (h'.take n).length = n := by rw [List.length_take]; omega
    refine ⟨by omega, fun i hi h2 => ?_⟩
    rw [List.getElem_take]
    rw [hlen] at h2
    exact hid2 i (by omega) (by omega)
  have hlen : (h'.length : Int) = conv + 1 ∧ l.eqSteps = [0] ∨ (h'.length : Int) = conv + 2 ∧ l.eqSteps = [1] := by
    rcases f5 with ⟨g1, ⟨g2, g3⟩, -⟩ | ⟨-, g2, g3⟩
    · have h1 : conv + 1 ≤ (h'.length : Int) := by
        by_contra hcon
        exact hid0 (by omega) (g3 0 (by omega) (by omega))
      have h2 : (h'.length : Int) ≤ conv + 2 := by
        by_contra hcon
        obtain ⟨n, hn⟩ : ∃ n : Nat, (n : Int) = conv + 2 := ⟨(conv + 2).toNat, by omega⟩
        exact f4 n (by omega) (by omega) (by omega) (hid2 _ (by omega) (by omega)) (hlast n (by omega) hn.ge)
      rcases (by omega : (h'.length : Int) = conv + 1 ∨ (h'.length : Int) = conv + 2) with h3 | h3
      · exact .inl ⟨h3, by rw [g1, h3]; congr 1; ring⟩
      · exact .inr ⟨h3, by rw [g1, h3]; congr 1; ring⟩
    · exfalso
      have hpos : h'.length - 1 < h'.length := by omega
      have hgl : h'.getLast? = some h'[h'.length - 1] := by
        rw [List.getLast?_eq_getElem?]; exact List.getElem?_eq_getElem hpos
      refine g3 _ hgl (hid2 _ hpos (by omega)) ?_
      have := hlast h'.length le_rfl (by omega)
      rwa [List.take_length] at this
  rw [f2] at hlen
  have heq : ∃ n, l.eqSteps = [n] := by rcases hlen with ⟨-, h⟩ | ⟨-, h⟩ <;> exact ⟨_, h⟩
  have hsteps : 2 ≤ l.steps := by rcases hlen with ⟨h, -⟩ | ⟨h, -⟩ <;> omega
  refine ⟨?_, hlen, ?_⟩
  all_goals
    rcases hh with hh | hh
    · exfalso
      obtain ⟨n, hn⟩ := heq
      have := hh.eqSteps
      rw [hn] at this
      obtain ⟨i, hi, -, hp⟩ := mem_eqOf (s := n) (by rw [← this]; simp)
      have hz : changes h = 0 := Nat.le_zero.1 hh.phases
      unfold changes at hz
      rw [List.countP_eq_zero] at hz
      exact hz _ (List.getElem_mem hi) hp
  · exact hh.exports
  · obtain ⟨h₀, w₀, hpre, -⟩ := hh.prefix'
    have hz : changes h = 0 := hh.phases
    have hnc : ∀ r ∈ h, r.phaseChange = false := by
      intro r hr
      unfold changes at hz
      rw [List.countP_eq_zero] at hz
      simpa using hz r hr
    have hst : h.length = l.steps := hh.steps.symm
    have h6 := (monopoly_history hw hords hfull hh.hist hnc).2.2.2.2.2.1
    subst hpre
    have := h6 h₀.length (by simp) (by simp at hst; omega)
    simpa using this

end

/-! ### A simulation that the theorems are about -/

/-- `k = 1`: agent 1 operates the pool, agents 0 and 3 delegate, agent 2 abstains -/
def monopolyDemo : Config ℚ :=
  { rs := { scheme := .cardano, k := 1, beta := 1, a0 := 3/10 }, relThr := 0, absThr := 1/10^9, extraFrac := 1, simultaneous := false,
    people := [(1/5, 2, .nonMyopic), (1/3, 1/10, .nonMyopic), (1/15, 1/1000, .abstainer), (2/5, 1, .nonMyopic)], totalStake := 1 }

theorem monopolyDemo_world : MonopolyWorld monopolyDemo 1 (1/3) (1/10) ∧ ∃ e, monopolyDemo.people[0]? = some e ∧ Joins monopolyDemo 1 0 e := by
  have hne : ¬ Scheme.cardano = Scheme.cip50 := by decide
  refine ⟨⟨rfl, by decide, rfl, ?_, ?_, ?_, ?_, ?_, ?_, ?_, rfl, ?_, ?_, ?_, ?_⟩, _, rfl, by decide, rfl, ?_, ?_⟩
  · norm_num [monopolyDemo]
  · norm_num [monopolyDemo]
  · norm_num [monopolyDemo]
  · norm_num [monopolyDemo]
  · norm_num [monopolyDemo]
  · intro e he
    simp only [monopolyDemo, List.mem_cons, List.not_mem_nil, or_false] at he
    rcases he with rfl | rfl | rfl | rfl <;> norm_num
  · norm_num [monopolyDemo]
  · norm_num [monopolyDemo]
  · norm_num [monopolyDemo, fullProfit, saturatedReward, hne]
  · norm_num [monopolyDemo, fullProfit, saturatedReward, hne]
  · intro b e hbo hb
    have hlt : b < 4 := (List.getElem?_eq_some_iff.1 hb).1
    interval_cases b
    · cases hb
      refine ⟨?_, by decide⟩
      rintro ⟨e', he', -, n, n1, n2, hv⟩
      have he' : some ((1/5, 2, .nonMyopic) : ℚ × ℚ × Profile) = some e' := he'
      cases he'
      have n2 : n ≤ 1 := n2
      interval_cases n; norm_num [Viable, monopolyDemo, saturatedReward, hne] at hv
    · exact absurd rfl hbo
    · cases hb
      refine ⟨?_, by decide⟩
      rintro ⟨e', he', hab, -⟩
      have he' : some ((1/15, 1/1000, .abstainer) : ℚ × ℚ × Profile) = some e' := he'
      cases he'
      exact hab rfl
    · cases hb
      refine ⟨?_, by decide⟩
      rintro ⟨e', he', -, n, n1, n2, hv⟩
      have he' : some ((2/5, 1, .nonMyopic) : ℚ × ℚ × Profile) = some e' := he'
      cases he'
      have n2 : n ≤ 1 := n2
      interval_cases n; norm_num [Viable, monopolyDemo, saturatedReward, hne] at hv
  · norm_num [monopolyDemo]
  · norm_num [monopolyDemo]

/-- a run of it, the operator last in the first round: equilibrium at step 1 -/
example : ∃ l, Loop.runModel (simEnv (seqRounds (fun _ _ => id) (fun _ => [3, 0, 2, 1])) (fun s => .ok (poolCount s)) 3 1 (fun _ => {}) (fun _ => none)) 21
    (Loop.init (initState monopolyDemo) 20) = .ok l ∧ outcome l = (5, [0, 1, 1, 1, 1], [1], [], false, [true]) := run_outcome (by decide +kernel)

/-- the operator first: equilibrium at step 0 -/
example : ∃ l, Loop.runModel (simEnv (seqRounds (fun _ _ => id) (fun _ => [1, 3, 0, 2])) (fun s => .ok (poolCount s)) 3 1 (fun _ => {}) (fun _ => none)) 21
    (Loop.init (initState monopolyDemo) 20) = .ok l ∧ outcome l = (4, [0, 1, 1, 1], [0], [], false, [true]) := run_outcome (by decide +kernel)

end RSE.Props
