import Verif.Props.Monopoly
import Verif.Props.SoleTogether

/-!
# C137: the simulations of C134 with simultaneous activation

The simulations of C134, with `k = 1` and one agent who could make a profit with a pool, with simultaneous or semi-simultaneous activation.
-/

set_option linter.unusedSectionVars false

namespace RSE.Props

variable {K : Type} [Field K] [LinearOrder K] [IsStrictOrderedRing K]

section
variable {c : Config K} {o : Nat} {x cost : K}

theorem MonopolyWorld.together (h : MonopolyWorld c o x cost) : Sane (together c) :=
  ⟨rfl, by change 1 ≤ c.rs.k; rw [h.k], h.beta, h.a0, h.stakes, fun h' => absurd h' h.scheme⟩

/-! ### The pool, stakes, decisions -/

/-- a state within a batch -/
structure Hall (c : Config K) (s : State K) : Prop where
  clean : Clean (RSE.Props.together c) s
  batch : Batch (c.rs.k + 1) s

theorem Hall.good {s : State K} (h : Hall c s) : Good (RSE.Props.together c) s := (Reachable.of_single h.clean.single).good minUnit_pos

theorem Hall.person {s : State K} (h : Hall c s) {b : Nat} {ag : Agent K} (ha : s.agents.get? b = some ag) :
    c.people[b]? = some (ag.stake, ag.cost, ag.profile) := h.good.person ha

theorem Hall.stake_sum {s : State K} (h : Hall c s) : (s.agents.map (fun e => e.2.stake)).sum = (c.people.map (fun e => e.1)).sum :=
  agents_stake_sum (c := RSE.Props.together c) (Reachable.of_single h.clean.single)

theorem Hall.inRecords {s : State K} (hk : Hall c s) {a : Nat} {ag : Agent K} {σ : Strategy K} (ha : s.agents.get? a = some ag)
    (hσ : ag.strategy = some σ) : InRecords s a σ := by
  have hal : ∀ pid, allocOf s a pid = σ.allocs.get? pid := fun pid => by simp [allocOf, ha, hσ]
  intro pid y
  constructor
  · rintro ⟨r, hr, hx⟩
    rw [hk.batch.books.agree pid r hr a, hal] at hx
    exact hx
  · intro hy
    obtain ⟨-, r, hr, -⟩ := hk.batch.books.good a pid y (by rw [hal, hy])
    exact ⟨r, hr, by rw [hk.batch.books.agree pid r hr a, hal, hy]⟩

theorem Hall.couldProfit_of (hw : MonopolyWorld c o x cost) {b : Nat} {ag : Agent K} (hper : c.people[b]? = some (ag.stake, ag.cost, ag.profile))
    (hab : ag.profile ≠ .abstainer) {n : Nat} (hn : 0 < n) (hle : n ≤ c.rs.k) (h : Profitable c.rs c.extraFrac ag n) : CouldProfit c b :=
  ⟨_, hper, hab, n, hn, hle, viable_of_profitable hw.beta hn h⟩

theorem Hall.couldProfit (hw : MonopolyWorld c o x cost) {s : State K} (hk : Hall c s) {pid : Nat} {r : Ref} (hp : s.pools.get? pid = some r) :
    CouldProfit c (s.heap r).owner := by
  have hg := hk.good
  obtain ⟨ag, σ, ha, hσ, ho⟩ := hg.inv.owner hp
  have hne : σ.owned ≠ [] := by intro h; rw [h] at ho; cases ho
  refine Hall.couldProfit_of hw (hk.person ha) (fun hab => ?_) (List.length_pos_iff.2 hne)
    (C65_pools_of_an_operator_are_alike minUnit_pos hk.clean.single ha hσ ho).2.2.2
    ((hk.clean.profitable hw.stakes hw.beta hw.a0 _ ag ha).strategy σ hσ)
  have := (hg.inv.abst _ ag ha hab).1
  rw [hσ] at this; cases this

/-- the only pool there can be -/
theorem Hall.pool (hw : MonopolyWorld c o x cost) {s : State K} (hk : Hall c s) {pid : Nat} {r : Ref} (hp : s.pools.get? pid = some r) :
    (s.heap r).owner = o ∧ (s.heap r).pledge = x ∧ (s.heap r).cost = cost ∧ (s.heap r).isPrivate = false ∧ s.pools = [(pid, r)] := by
  have h := hk.clean.single
  have hr := Reachable.of_single h
  have hg := hr.good minUnit_pos
  have own : ∀ {pid : Nat} {r : Ref}, s.pools.get? pid = some r → (s.heap r).owner = o := by
    intro pid r hp
    by_contra hne
    obtain ⟨e, he, -⟩ := id (hk.couldProfit hw hp)
    exact (hw.others _ e hne he).1 (hk.couldProfit hw hp)
  have ho := own hp
  obtain ⟨ag, σ, ha, hσ, hso⟩ := hg.inv.owner hp
  rw [ho] at ha
  have hper := hk.person ha
  rw [hw.operator] at hper
  have hper := Option.some.inj hper
  have e1 : ag.stake = x := (congrArg (fun t => t.1) hper).symm
  have e2 : ag.cost = cost := (congrArg (fun t => t.2.1) hper).symm
  obtain ⟨g1, g2, -, g4⟩ := C65_pools_of_an_operator_are_alike minUnit_pos h ha hσ hso
  have g1 : (s.heap r).pledge = min (ag.stake / (σ.owned.length : K)) c.rs.beta := g1
  have g2 : costPerPool σ.owned.length ag.cost c.extraFrac = .ok (s.heap r).cost := g2
  have g4 : σ.owned.length ≤ c.rs.k := g4
  rw [hw.k] at g4
  have hne : σ.owned ≠ [] := by intro h; rw [h] at hso; cases hso
  have hlen : σ.owned.length = 1 := le_antisymm g4 (List.length_pos_iff.2 hne)
  rw [hlen, Nat.cast_one, div_one, e1, min_eq_left hw.public_.le] at g1
  rw [hlen] at g2
  unfold costPerPool at g2
  simp only [Nat.cast_one] at g2
  have hpr : (s.heap r).isPrivate = false := by
    by_contra hpr
    have : c.rs.sat _ ≤ _ := (C24_private_iff_pledge_saturates minUnit_pos h hp).1 (by simpa using hpr)
    rw [sat_of_ne hw.scheme, g1] at this
    exact absurd this (not_le.2 hw.public_)
  refine ⟨ho, g1, ?_, hpr, ?_⟩
  · simp at g2
    rw [← g2, e2]
  · have uniq : ∀ pid' r', s.pools.get? pid' = some r' → pid' = pid := by
      intro pid' r' hp'
      have k1 := (hg.inv.own.own_iff o pid' r').2 ⟨hp', own hp'⟩
      rw [ownOf_eq ha hσ] at k1
      obtain ⟨y, hy⟩ := List.length_eq_one_iff.1 hlen
      rw [hy] at k1 hso
      simp only [Dict.get?] at k1 hso
      split at k1
      · split at hso
        · rename_i q1 q2; exact q1.symm.trans q2
        · cases hso
      · cases k1
    have hnd := hg.inv.core.poolsNodup
    have hmem : ∀ e ∈ s.pools, e.1 = pid := fun e he => uniq e.1 e.2 (Dict.get?_of_mem hnd he)
    cases hl : s.pools with
    | nil => rw [hl] at hp; cases hp
    | cons y t =>
      have hy := hmem y (by rw [hl]; simp)
      cases t with
      | nil =>
        rw [hl] at hp
        obtain ⟨y1, y2⟩ := y
        simp only at hy
        subst hy
        simp [Dict.get?] at hp
        rw [hp]
      | cons z t =>
        exfalso
        have hz := hmem z (by rw [hl]; simp)
        rw [hl] at hnd
        simp only [Dict.keys, List.map_cons, List.nodup_cons, List.mem_cons, not_or] at hnd
        exact hnd.1.1 (hy.trans hz.symm)

theorem Hall.stake_le (hw : MonopolyWorld c o x cost) {s : State K} (hk : Hall c s) {pid : Nat} {r : Ref} (hp : s.pools.get? pid = some r) :
    (s.heap r).stake ≤ c.rs.beta ∧
    ∀ {b : Nat} {ag : Agent K} {σ : Strategy K}, s.agents.get? b = some ag → ag.strategy = some σ → σ.allocs = [] → σ.owned = [] →
      (s.heap r).stake + ag.stake ≤ c.rs.beta := by
  have h := hk.clean.single
  have hr := Reachable.of_single h
  have hg := hr.good minUnit_pos
  have h0 : ∀ e ∈ c.people, 0 ≤ e.1 := fun e he => (hw.stakes e he).le
  have hq := hk.batch.books
  have h1 := total_stake_eq hg.inv hq hr.balanced
  have hpl := (hk.pool hw hp).2.2.2.2
  rw [hpl] at h1
  simp only [List.map_cons, List.map_nil, List.sum_cons, List.sum_nil, add_zero] at h1
  have hsum := hk.stake_sum
  have hroom := hw.room
  set g : Nat × Agent K → K := fun e => (allocsOf e.2).total + ((ownedOf e.2).map (fun p => (s.heap p.2).pledge)).sum with hgdef
  have hle : ∀ e ∈ s.agents, g e ≤ e.2.stake := by
    rintro ⟨b, ag⟩ he
    have ha := Dict.get?_of_mem hg.inv.core.agentsNodup he
    cases hs : ag.strategy with
    | none =>
      have := hg.stake_nonneg h0 ha
      simpa [hgdef, allocsOf, ownedOf, hs, Dict.total] using this
    | some σ =>
      have := C22_no_overcommitment hr h0 hw.beta ha hs
      simpa [hgdef, allocsOf, ownedOf, hs, Dict.total] using this
  refine ⟨?_, ?_⟩
  · rw [h1]
    exact (List.sum_le_sum hle).trans (hsum.le.trans hroom)
  · intro b ag σ ha hσ hal how
    obtain ⟨l₁, l₂, hl⟩ := List.append_of_mem (Dict.mem_of_get? ha)
    have hz : g (b, ag) = 0 := by simp [hgdef, allocsOf, ownedOf, hσ, hal, how, Dict.total]
    rw [hl] at h1 hsum hle
    simp only [List.map_append, List.map_cons, List.sum_append, List.sum_cons, hz] at h1 hsum
    have k1 := List.sum_le_sum (l := l₁) (f := g) (g := fun e => e.2.stake) (fun e he => hle e (by simp [he]))
    have k2 := List.sum_le_sum (l := l₂) (f := g) (g := fun e => e.2.stake) (fun e he => hle e (by simp [he]))
    rw [h1]
    linarith

theorem Hall.owner (hw : MonopolyWorld c o x cost) {s : State K} (hk : Hall c s) {pid : Nat} {p : Pool K} (hp : (openPools s).get? pid = some p) :
    p.owner = o := by
  have h := hk.clean.single
  rw [openPools_get?] at hp
  obtain ⟨r, hr, rfl⟩ := Option.map_eq_some_iff.1 hp
  exact (hk.pool hw hr).1

theorem Hall.vals (hw : MonopolyWorld c o x cost) {s : State K} (hk : Hall c s) : ∀ p ∈ (openPools s).vals, p.owner = o := by
  have h := hk.clean.single
  intro p hp
  have hg := (Reachable.of_single h).good minUnit_pos
  simp only [openPools, Dict.vals, List.map_map, List.mem_map] at hp
  obtain ⟨e, he, rfl⟩ := hp
  exact (hk.pool hw (Dict.get?_of_mem hg.inv.core.poolsNodup he)).1

/-- what the operator decides -/
theorem Hall.plan_operator (hw : MonopolyWorld c o x cost) {s s' : State K} (hk : Hall c s) (hq : Mono c o x cost s) {ag : Agent K}
    {σ : Strategy K} (ha : s.agents.get? o = some ag) (hσ : ag.strategy = some σ) {ord : List Nat → List Nat} (hord : ∀ l, (ord l).Perm l)
    {oν : Option (Strategy K)} (hp : planMove ord s ag σ = .ok (s', oν)) :
    (s.pools = [] → ∃ ν, oν = some ν ∧ ν.allocs = [] ∧ ν.owned ≠ [] ∧ ∀ pid r, ν.owned.get? pid = some r → (s'.heap r).margin = unitMargin c x cost) ∧
    (s.pools ≠ [] → oν = none) := by
  have h := hk.clean.single
  have hr := Reachable.of_single h
  have hg := hr.good minUnit_pos
  have hpar := h.params minUnit_pos
  have h_rs : s.rs = c.rs := hpar.rs
  have h_extraFrac : s.extraFrac = c.extraFrac := hpar.extraFrac
  have h_relThr : s.relThr = c.relThr := hpar.relThr
  have h_absThr : s.absThr = c.absThr := hpar.absThr
  have hid := hg.inv.core.agentId o ag ha
  have htot : s.totalStake = c.totalStake := hg.fixed.totalStake
  have hper := hk.person ha
  rw [hw.operator] at hper
  have hper := Option.some.inj hper
  have e1 : ag.stake = x := (congrArg (fun t => t.1) hper).symm
  have e2 : ag.cost = cost := (congrArg (fun t => t.2.1) hper).symm
  have e3 : ag.profile = .nonMyopic := (congrArg (fun t => t.2.2) hper).symm
  obtain ⟨s₁, δ, ω, ou, f1, f2, f3, f4, f5⟩ := C94_plan hr ha hσ (.inr (hk.inRecords ha hσ)) hord hp
  obtain ⟨s₁', δ', ω', ou', f1', f2', hn1, hnk, ⟨u, hpl, hmax⟩, hdr⟩ := C93_plan hr ha hσ (.inr (hk.inRecords ha hσ)) hord hp
  obtain ⟨s₁'', δ'', ω'', f1'', -, ⟨ou'', f2''⟩, hωne, d1, d2, d3⟩ := C90_plan hr ha hσ (.inr (hk.inRecords ha hσ)) hord hp
  rw [f1] at f1' f1''
  cases f1'; cases f1''
  rw [f2] at f2' f2''
  cases f2'; cases f2''
  have hδ := f4.nil_of_own (fun pid p hp => by rw [hid]; exact hk.owner hw hp)
  have hω := f5.nil_of_own (fun pid p hp => by rw [hid]; exact hk.owner hw hp)
  have hσa : σ.allocs = [] := by
    refine dict_nil (fun pid => ?_)
    cases hx : σ.allocs.get? pid with
    | none => rfl
    | some y =>
      have : allocOf s o pid = some y := by simp [allocOf, ha, hσ, hx]
      obtain ⟨e, -, -, hj⟩ := hq.allocs o pid y this
      exact absurd rfl hj.1
  have hfil : (openPools s).vals.filter (fun p => decide (p.owner ≠ ag.id)) = [] := by
    rw [List.filter_eq_nil_iff]
    intro p hp
    rw [hid, hk.vals hw p hp]; simp
  rw [h_rs, hw.k] at hnk
  have hn : ω.owned.length = 1 := le_antisymm hnk hn1
  obtain ⟨⟨pid, r⟩, hl⟩ := List.length_eq_one_iff.1 hn
  -- the draft
  have hde := hdr pid r (by rw [hl]; simp [Dict.get?])
  rw [h_rs, h_extraFrac, hn] at hde
  have hpl1 : (s'.heap r).pledge = x := by rw [hde.pledge, e1]; simp [hw.public_.le]
  have hco : (s'.heap r).cost = cost := by rw [hde.cost, e2]; simp
  have hma : (s'.heap r).margin = unitMargin c x cost := by
    rw [h_rs, h_extraFrac, hn] at hpl
    obtain ⟨-, us, -, -, hall⟩ := hpl
    obtain ⟨m, v, y, k1, -, k3, k4⟩ := hall 1 le_rfl le_rfl
    rw [hl] at k1
    simp at k1
    have hy : y = (0, 0) := by
      by_contra hy
      have := k3.here hy
      rw [hw.k] at this
      have hz : rivals c.rs ag.profile (openPools s).vals ag.id (fun z => ¬ RatedAbove y z) = 0 := by
        unfold rivals
        rw [List.countP_eq_zero]
        intro p hp
        rw [hid, hk.vals hw p hp]; simp
      omega
    subst hy
    unfold PoolPlan at k4
    simp only [fullAt_ne hw.scheme, e3, if_true, Nat.cast_one, div_one, sub_self, zero_mul, add_zero, e1, e2, min_eq_left hw.public_.le, zero_add, hw.reward] at k4
    have k5 := (k4.2 hw.pays).1.1
    have hmx : max (1 / 1000000 : K) 0 = 1 / 1000000 := max_eq_left (by norm_num)
    rw [hmx] at k5
    rw [k1]
    exact hw.margin_unique (k5 hw.pays)
  have hst : (s'.heap r).stake ≤ c.rs.beta := by
    rw [hde.stake, hpl1]
    cases ho : σ.owned.get? pid with
    | none => simpa using hw.public_.le
    | some r₀ =>
      have k := (hg.inv.owned ha hσ ho).1
      have := (hk.stake_le hw k).1
      simp only [Option.map_some, (hk.pool hw k).2.1]
      linarith
  have hou := hw.operating hpl1 hco hma hst
  have hmap : ω.owned.map (fun e => s'.heap e.2) = [s'.heap r] := by rw [hl]; rfl
  have hW : 0 < fullProfit c x cost - 1 / 1000000 * (1 - x / c.rs.beta) := lt_of_le_of_lt hw.abs hw.worth
  rw [h_rs, h_relThr, h_absThr, hδ, hω, hσa, hmap] at d1 d2 d3
  simp only [expectation, hfil, e3, htot, List.map_nil, List.map_cons, List.sum_nil, List.sum_cons, add_zero, hou] at d1 d2 d3
  simp only [income, hσa, List.map_nil, List.sum_nil, add_zero] at d1 d2 d3
  have hrel := hw.rel
  have habs := hw.abs
  have hworth := hw.worth
  refine ⟨fun hno => ?_, fun hyes => ?_⟩
  · have ho : σ.owned = [] := by
      cases ho : σ.owned with
      | nil => rfl
      | cons e t =>
        have := (hg.inv.owned ha hσ (pid := e.1) (r := e.2) (by rw [ho]; simp [Dict.get?])).1
        rw [hno] at this
        cases this
    rw [ho] at d3
    simp only [List.map_nil, List.sum_nil] at d3
    have := d3 ⟨by linarith, by linarith, by linarith, by linarith⟩ (by linarith)
    refine ⟨ω, this, hω, hωne, fun pid' r' hget => ?_⟩
    rw [hl] at hget
    simp only [Dict.get?] at hget
    split at hget
    · cases hget; exact hma
    · cases hget
  · obtain ⟨pid₀, r₀, hp₀⟩ := (pools_nil_or s).resolve_left hyes
    obtain ⟨g1, g2, g3, g4, g5⟩ := hk.pool hw hp₀
    have ho : σ.owned.get? pid₀ = some r₀ := by
      rw [← ownOf_eq ha hσ]; exact (hg.inv.own.own_iff o pid₀ r₀).2 ⟨hp₀, g1⟩
    have hlen : σ.owned.length ≤ 1 := by
      have : σ.owned.length ≤ c.rs.k := (C65_pools_of_an_operator_are_alike minUnit_pos h ha hσ ho).2.2.2
      rwa [hw.k] at this
    have hone : σ.owned = [(pid₀, r₀)] := by
      cases hl' : σ.owned with
      | nil => rw [hl'] at ho; cases ho
      | cons e t =>
        rw [hl'] at hlen ho
        cases t with
        | cons _ _ => simp at hlen
        | nil =>
          simp only [Dict.get?] at ho
          split at ho
          · rename_i q
            cases ho
            rw [← q]
          · cases ho
    refine d1.2 ?_
    rw [hone]
    simp only [List.map_cons, List.map_nil, List.sum_cons, List.sum_nil, add_zero, hw.operating g2 g3 (hq.margin _ _ hp₀) (hk.stake_le hw hp₀).1]
    exact ⟨fun hb => by have := hb.2.2.2; linarith, fun hb => by have := hb.2.2.2; linarith⟩

/-- the delegations of an agent in such a state -/
theorem Hall.strategy (hw : MonopolyWorld c o x cost) {s : State K} (hk : Hall c s) (hq : Mono c o x cost s) {a : Nat} {ag : Agent K} {σ : Strategy K}
    (ha : s.agents.get? a = some ag) (hσ : ag.strategy = some σ) (hao : a ≠ o) :
    σ.owned = [] ∧ (σ.allocs = [] ∨ ∃ pid r, s.pools.get? pid = some r ∧ σ.allocs = [(pid, ag.stake)] ∧ Joins c o a (ag.stake, ag.cost, ag.profile)) := by
  have h := hk.clean.single
  have hg := (Reachable.of_single h).good minUnit_pos
  have hper := hk.person ha
  refine ⟨?_, ?_⟩
  · cases ho : σ.owned with
    | nil => rfl
    | cons e t =>
      obtain ⟨k1, k2⟩ := hg.inv.owned ha hσ (pid := e.1) (r := e.2) (by rw [ho]; simp [Dict.get?])
      exact absurd ((k2).symm.trans (hk.pool hw k1).1) hao
  · have key : ∀ pid y, σ.allocs.get? pid = some y → y = ag.stake ∧ Joins c o a (ag.stake, ag.cost, ag.profile) ∧ ∃ r, s.pools.get? pid = some r := by
      intro pid y hy
      have hal : allocOf s a pid = some y := by simp [allocOf, ha, hσ, hy]
      obtain ⟨e, g1, g2, g3⟩ := hq.allocs a pid y hal
      rw [hper] at g1
      cases g1
      obtain ⟨-, r, g4, -⟩ := hk.batch.books.good a pid y hal
      exact ⟨g2, g3, r, g4⟩
    have hnd := (hg.inv.tidy a ag ha).allocs _ hσ
    cases hl : σ.allocs with
    | nil => exact .inl rfl
    | cons e t =>
      right
      obtain ⟨k1, k2, r, k3⟩ := key e.1 e.2 (by rw [hl]; simp [Dict.get?])
      refine ⟨e.1, r, k3, ?_, k2⟩
      have hone := (hk.pool hw k3).2.2.2.2
      rcases dict_one hnd (pid := e.1) (fun i hi => by
        cases hx : σ.allocs.get? i with
        | none => rfl
        | some y =>
          obtain ⟨-, -, r', k4⟩ := key i y hx
          rw [hone] at k4
          simp only [Dict.get?] at k4
          split at k4
          · rename_i q; exact absurd q.symm hi
          · cases k4) with h1 | ⟨y, h1⟩
      · rw [h1] at hl; cases hl
      · rw [hl] at h1
        rw [h1]
        have : y = e.2 := by have := (List.cons.inj h1).1; rw [this]
        rw [this, k1]

/-- what the others decide -/
theorem Hall.plan_other (hw : MonopolyWorld c o x cost) {s s' : State K} (hk : Hall c s) (hq : Mono c o x cost s) {a : Nat} (hao : a ≠ o) {ag : Agent K}
    {σ : Strategy K} (ha : s.agents.get? a = some ag) (hσ : ag.strategy = some σ) (hab : ag.profile ≠ .abstainer) {ord : List Nat → List Nat} (hord : ∀ l, (ord l).Perm l)
    {oν : Option (Strategy K)} (hp : planMove ord s ag σ = .ok (s', oν)) :
    (∀ ν, oν = some ν → (ν.owned ≠ [] ∧ ν.owned.length ≤ c.rs.k) ∨ (ν.owned = [] ∧ σ.allocs = [] ∧ Joins c o a (ag.stake, ag.cost, ag.profile) ∧
      ∃ pid r, s.pools.get? pid = some r ∧ ν.allocs = [(pid, ag.stake)])) ∧
    (s.pools ≠ [] → Joins c o a (ag.stake, ag.cost, ag.profile) → σ.allocs = [] → oν ≠ none) := by
  have h := hk.clean.single
  have hr := Reachable.of_single h
  have hg := hr.good minUnit_pos
  have hpar := h.params minUnit_pos
  have h_rs : s.rs = c.rs := hpar.rs
  have h_extraFrac : s.extraFrac = c.extraFrac := hpar.extraFrac
  have h_relThr : s.relThr = c.relThr := hpar.relThr
  have h_absThr : s.absThr = c.absThr := hpar.absThr
  have hid := hg.inv.core.agentId a ag ha
  have htot : s.totalStake = c.totalStake := hg.fixed.totalStake
  have hper := hk.person ha
  have hprof : ag.profile = .nonMyopic := by
    have := (hw.others a _ hao hper).2
    simp only at this
    cases hx : ag.profile with
    | nonMyopic => rfl
    | myopic => exact absurd hx this
    | abstainer => exact absurd hx hab
  have hpos : 0 < ag.stake := hw.stakes _ (List.mem_of_getElem? hper)
  obtain ⟨s₁, δ, ω, ou, f1, f2, f3, f4, f5⟩ := C94_plan hr ha hσ (.inr (hk.inRecords ha hσ)) hord hp
  obtain ⟨s₁'', δ'', ω'', f1'', -, ⟨ou'', f2''⟩, hωne, d1, d2, d3⟩ := C90_plan hr ha hσ (.inr (hk.inRecords ha hσ)) hord hp
  rw [f1] at f1''
  cases f1''
  rw [f2] at f2''
  cases f2''
  obtain ⟨s₁', δ', ω', ou', f1', f2', -, hnk, -⟩ := C93_plan hr ha hσ (.inr (hk.inRecords ha hσ)) hord hp
  rw [f1] at f1'
  cases f1'
  rw [f2] at f2'
  cases f2'
  have hωk : ω.owned.length ≤ c.rs.k := by rw [← h_rs]; exact hnk
  obtain ⟨ho, hal⟩ := hk.strategy hw hq ha hσ hao
  have hrel := hw.rel
  have habs := hw.abs
  -- three possible outcomes
  have choice : ∀ {cur exp du ou : K}, (oν = none ↔ ¬ Beats s.relThr s.absThr cur exp du ∧ ¬ Beats s.relThr s.absThr cur exp ou) →
      (Beats s.relThr s.absThr cur exp du → ou ≤ du → oν = some δ) → (Beats s.relThr s.absThr cur exp ou → du < ou → oν = some ω) →
      (oν = none ∧ ¬ Beats s.relThr s.absThr cur exp du) ∨ (oν = some δ ∧ Beats s.relThr s.absThr cur exp du) ∨ oν = some ω := by
    intro cur exp du ou d1 d2 d3
    by_cases hb : Beats s.relThr s.absThr cur exp du
    · by_cases hle : ou ≤ du
      · exact .inr (.inl ⟨d2 hb hle, hb⟩)
      · exact .inr (.inr (d3 (hb.mono (not_le.1 hle).le) (not_le.1 hle)))
    · by_cases hb' : Beats s.relThr s.absThr cur exp ou
      · by_cases hle : ou ≤ du
        · exact absurd (hb'.mono hle) hb
        · exact .inr (.inr (d3 hb' (not_le.1 hle)))
      · exact .inl ⟨d1.2 ⟨hb, hb'⟩, hb⟩
  have hch := choice d1 d2 d3
  clear d1 d2 d3 choice
  rw [h_rs, h_relThr, h_absThr, htot, ho] at hch
  rw [h_rs] at f4
  rcases pools_nil_or s with hno | ⟨pid, r, hpr⟩
  · -- no pools
    have hδ := f4.nil_of_own (fun pid p hp => by rw [openPools_get?, hno] at hp; cases hp)
    have hσa : σ.allocs = [] := by
      rcases hal with h1 | ⟨pid, r, h1, -⟩
      · exact h1
      · rw [hno] at h1; cases h1
    refine ⟨fun ν hν => ?_, fun hne => absurd hno hne⟩
    rcases hch with ⟨h1, -⟩ | ⟨h1, h2⟩ | h1
    · rw [hν] at h1; cases h1
    · exfalso
      rw [hδ, hσa] at h2
      have := h2.2.2.2
      simp only [expectation, List.map_nil, List.sum_nil, add_zero] at this
      linarith
    · rw [hν] at h1; cases h1; exact .inl ⟨hωne, hωk⟩
  · obtain ⟨g1, g2, g3, g4, g5⟩ := hk.pool hw hpr
    obtain ⟨st1, st2⟩ := hk.stake_le hw hpr
    have hopen := monopoly_openPools g5
    have hpid := (hg.inv.core.poolRef _ _ hpr).2.1
    set p : Pool K := { s.heap r with delegators := [] } with hpdef
    have hbefore : p.stake - (σ.allocs.get? p.id).getD 0 + ag.stake ≤ c.rs.beta ∧ (σ.allocs.get? pid).getD 0 = (σ.allocs.get? p.id).getD 0 := by
      refine ⟨?_, by rw [show p.id = pid from hpid]⟩
      rcases hal with h1 | ⟨pid', r', h1, h2, -⟩
      · rw [h1]; simpa [Dict.get?] using st2 ha hσ h1 ho
      · have : pid' = pid := by
          rw [g5] at h1
          simp only [Dict.get?] at h1
          split at h1
          · rename_i q; exact q.symm
          · cases h1
        subst this
        rw [h2, show p.id = pid' from hpid]
        simpa [Dict.get?] using st1
    have hplaced := hw.placed_one (p := p) g1 g4 hao hbefore.1
    have hδ : δ.allocs = if minUnit ≤ ag.stake then [(pid, ag.stake)] else [] := by
      have hget : ∀ i, δ.allocs.get? i = if i = pid then (if minUnit ≤ ag.stake then some ag.stake else none) else none := by
        intro i
        rw [f4.2 i, hopen, hprof, hid]
        by_cases hi : i = pid
        · subst hi
          simp only [Dict.get?, if_true, Option.bind_some, Dict.vals, List.map_cons, List.map_nil]
          exact hplaced
        · simp [Dict.get?, Ne.symm hi, hi]
      rcases dict_one f4.1 (pid := pid) (fun i hi => by rw [hget, if_neg hi]) with h1 | ⟨y, h1⟩
      · have := hget pid
        rw [h1, if_pos rfl] at this
        by_cases hm : (minUnit : K) ≤ ag.stake
        · rw [if_pos hm] at this; cases this
        · rw [if_neg hm]; exact h1
      · have := hget pid
        rw [h1, if_pos rfl] at this
        by_cases hm : (minUnit : K) ≤ ag.stake
        · rw [if_pos hm] at this
          simp [Dict.get?] at this
          rw [if_pos hm, h1, this]
        · rw [if_neg hm] at this
          simp [Dict.get?] at this
    have hval := hw.delegating (p := p) g2 g3 (hq.margin _ _ hpr) st1 hpos.le hbefore.1
    have hexpect : ∀ d : Dict K, d = [] ∨ d = [(pid, ag.stake)] → expectation c.rs c.totalStake (openPools s) ag σ.allocs [] d =
        if d = [] then 0 else 1 / 1000000 * (ag.stake / c.rs.beta) := by
      rintro d (rfl | rfl)
      · simp [expectation]
      · rw [hopen]
        simp only [expectation, hprof, List.map_nil, List.map_cons, List.sum_nil, List.sum_cons, zero_add, add_zero, Dict.get?, if_true, Dict.vals, hbefore.2, hval]
        simp
    have hδ' : δ.allocs = [] ∨ δ.allocs = [(pid, ag.stake)] := by
      rw [hδ]; split
      · exact .inr rfl
      · exact .inl rfl
    simp only [List.map_nil] at hch
    rw [hexpect _ hδ'] at hch
    have hq0 : 0 ≤ 1 / 1000000 * (ag.stake / c.rs.beta) := mul_nonneg (by norm_num) (div_nonneg hpos.le hw.beta.le)
    rcases hal with hσa | ⟨pid', r', h1, h2, h3⟩
    · -- does not delegate yet
      rw [hσa] at hch
      have hinc : income s σ = 0 := by simp [income, ho, hσa]
      have hexp : expectation c.rs c.totalStake (openPools s) ag [] [] [] = 0 := by simp [expectation]
      rw [hinc, hexp] at hch
      have hbeats : Beats c.relThr c.absThr 0 0 (if δ.allocs = [] then 0 else 1 / 1000000 * (ag.stake / c.rs.beta)) ↔ Joins c o a (ag.stake, ag.cost, ag.profile) := by
        unfold Beats Joins
        simp only [mul_zero, zero_add]
        rw [hδ, minUnit_eq]
        by_cases hm : (22 / 10 ^ 18 : K) ≤ ag.stake
        · simp only [hm, if_true]
          constructor
          · intro hb; exact ⟨hao, hprof, trivial, by simpa using hb.2.1⟩
          · rintro ⟨-, -, -, hj⟩
            have : (0 : K) < 1 / 1000000 * (ag.stake / c.rs.beta) := lt_of_le_of_lt habs hj
            simp only [List.cons_ne_nil, if_false]
            exact ⟨this, hj, this, hj⟩
        · simp only [hm, if_false, if_true]
          constructor
          · intro hb; exact absurd hb.1 (lt_irrefl _)
          · intro hj; exact absurd hj.2.2.1 (by simp)
      rw [hbeats] at hch
      refine ⟨fun ν hν => ?_, fun _ hj _ hnone => ?_⟩
      · rcases hch with ⟨h1, -⟩ | ⟨h1, h2⟩ | h1
        · rw [hν] at h1; cases h1
        · rw [hν] at h1; cases h1
          refine .inr ⟨f3, hσa, h2, pid, r, hpr, ?_⟩
          rw [hδ, minUnit_eq, if_pos h2.2.2.1]
        · rw [hν] at h1; cases h1; exact .inl ⟨hωne, hωk⟩
      · rcases hch with ⟨-, h1⟩ | ⟨h1, -⟩ | h1
        · exact h1 hj
        · rw [hnone] at h1; cases h1
        · rw [hnone] at h1; cases h1
    · -- delegates already
      have hpp : pid' = pid := by
        rw [g5] at h1
        simp only [Dict.get?] at h1
        split at h1
        · rename_i q; exact q.symm
        · cases h1
      subst hpp
      have hm : (minUnit : K) ≤ ag.stake := by rw [minUnit_eq]; exact h3.2.2.1
      rw [if_pos hm] at hδ
      have he := hexpect σ.allocs (.inr h2)
      rw [he, if_neg (by rw [h2]; simp), if_neg (by rw [hδ]; simp)] at hch
      refine ⟨fun ν hν => ?_, fun _ _ hnil => by rw [h2] at hnil; cases hnil⟩
      rcases hch with ⟨h1, -⟩ | ⟨-, h1⟩ | h1
      · rw [hν] at h1; cases h1
      · exfalso
        have := h1.2.2.2
        linarith
      · rw [hν] at h1; cases h1; exact .inl ⟨hωne, hωk⟩

theorem Hall.monopolised (hw : MonopolyWorld c o x cost) {s : State K} (hk : Hall c s) (hq : Mono c o x cost s) (hne : s.pools ≠ []) :
    Monopolised c o x cost s := by
  have h := hk.clean.single
  have hr := Reachable.of_single h
  have hb := hk.batch.books
  obtain ⟨pid, r, hp⟩ := (pools_nil_or s).resolve_left hne
  obtain ⟨h1, h2, h3, h4, h5⟩ := hk.pool hw hp
  refine ⟨⟨pid, r, h5, h1, h2, h3, h4, ?_, ?_⟩, fun b i y hy => ?_⟩
  · rw [hq.margin pid r hp]; exact hw.margin
  · have := (hr.balanced r).stake
    rw [h2] at this
    exact this
  · have hy := says_iff_allocOf.1 hy
    obtain ⟨-, r', hr', -⟩ := hb.good b i y hy
    exact ⟨⟨r', hr', by rw [hb.agree i r' hr' b, hy]⟩, hq.allocs b i y hy⟩

theorem Hall.allJoined (hw : MonopolyWorld c o x cost) {s : State K} (hk : Hall c s) (hq : Mono c o x cost s) (hne : s.pools ≠ [])
    (hall : ∀ b e, c.people[b]? = some e → Joins c o b e → Delegates s b) : AllJoined c o x cost s := by
  have h := hk.clean.single
  refine ⟨hk.monopolised hw hq hne, fun b e hb hj => ?_⟩
  obtain ⟨pid, y, hy⟩ := hall b e hb hj
  obtain ⟨e', h1, h2, -⟩ := hq.allocs b pid y hy
  rw [hb] at h1
  cases h1
  exact ⟨pid, says_iff_allocOf.2 (by rw [hy, h2])⟩

/-! ### States -/

/-- agent `b` would delegate to the pool -/
def JoinsAgent (c : Config K) (o b : Nat) : Prop := ∃ e, c.people[b]? = some e ∧ Joins c o b e

/-- agent `b` has a reason to move: the operator if there is no pool, the others if there is one, they would delegate to it and do not yet -/
def Urged (c : Config K) (o : Nat) (s : State K) (b : Nat) : Prop :=
  (b = o ∧ s.pools = []) ∨ (s.pools ≠ [] ∧ JoinsAgent c o b ∧ ¬ Delegates s b)

/-- what agent `b` may plan in this state: to open the pool, or to delegate everything to it -/
def Intends (c : Config K) (o : Nat) (x cost : K) (s : State K) (b : Nat) (ν : Strategy K) : Prop :=
  (b = o ∧ s.pools = [] ∧ ν.allocs = [] ∧ ν.owned ≠ [] ∧ ∀ pid r, ν.owned.get? pid = some r → (s.heap r).margin = unitMargin c x cost) ∨
  (b ≠ o ∧ ν.owned = [] ∧ ¬ Delegates s b ∧ ∃ e pid r, c.people[b]? = some e ∧ Joins c o b e ∧ s.pools.get? pid = some r ∧
    ∀ i, ν.allocs.get? i = if i = pid then some e.1 else none)

/-- a state within a batch -/
structure Court (c : Config K) (o : Nat) (x cost : K) (s : State K) : Prop extends Hall c s where
  mono : Mono c o x cost s
  staged : ∀ b ag ν, s.agents.get? b = some ag → ag.newStrategy = some ν → Intends c o x cost s b ν

theorem Delegates.congr {s s' : State K} {b : Nat} (h : ∀ pid, allocOf s' b pid = allocOf s b pid) : Delegates s' b ↔ Delegates s b := by
  unfold Delegates
  simp only [h]

theorem Urged.congr {s s' : State K} {b : Nat} (hp : s'.pools = s.pools) (h : ∀ pid, allocOf s' b pid = allocOf s b pid) :
    Urged c o s' b ↔ Urged c o s b := by
  unfold Urged
  rw [hp, Delegates.congr h]

theorem Court.operator_never (h : Court c o x cost s) : ¬ Delegates s o := by
  rintro ⟨pid, y, hy⟩
  obtain ⟨e, -, -, hj⟩ := h.mono.allocs o pid y hy
  exact hj.1 rfl

/-! ### Planning -/

/-- an agent plans -/
theorem Court.step (hw : MonopolyWorld c o x cost) {s : State K} (h : Court c o x cost s) {me : Nat} (hme : me < c.people.length) {ord : List Nat → List Nat}
    (hord : ∀ l, (ord l).Perm l) :
    ∃ s', exec s (.step me ord) = .ok s' ∧ Court c o x cost s' ∧ (∀ b pid, allocOf s' b pid = allocOf s b pid) ∧ s'.idle = s.idle ∧ s'.pools = s.pools ∧
      (∀ b, b ≠ me → s'.agents.get? b = s.agents.get? b) ∧ (Waits s' me ↔ Urged c o s me) := by
  have hk := h.toHall
  have hg := hk.good
  obtain ⟨ag, ha⟩ : ∃ ag, s.agents.get? me = some ag := by
    have : (s.agents.get? me).isSome := by rw [hg.fixed.isSome]; exact isSome_init (RSE.Props.together c) hme
    exact Option.isSome_iff_exists.1 this
  have hv : (Event.step me ord : Event K).Valid (RSE.Props.together c).people.length := ⟨hme, hord⟩
  obtain ⟨s', he⟩ : ∃ s', exec s (.step me ord) = .ok s' := by
    obtain ⟨s', k1, -⟩ := Clean.plansOf hw.together (ords := fun _ => ord) (fun _ => hord) [me] 0 s
      (fun a ha => by rw [List.mem_singleton.1 ha]; exact hme) h.clean h.batch
    simp only [List.zipIdx_cons, List.zipIdx_nil, iterM] at k1
    obtain ⟨s₁, k2, -⟩ := bind_ok k1
    exact ⟨s₁, k2⟩
  have hcl : Clean (RSE.Props.together c) s' := h.clean.next hv (fun p => by simp) (fun _ _ _ => h.batch.books) he
  have hB := ((h.batch.step hord ha).of_ok he).1
  have hid := hg.inv.core.agentId me ag ha
  have hd := hg.exec minUnit_pos hv
  rw [he] at hd
  obtain ⟨hd, -⟩ := hd
  refine ⟨s', he, ?_⟩
  cases hd with
  | idle _ _ ag' ha' hprof =>
    rw [ha] at ha'; cases ha'
    have hper := hk.person ha
    refine ⟨h, fun _ _ => rfl, rfl, rfl, fun _ _ => rfl, ?_, ?_⟩
    · rintro ⟨ag', ν, k1, k2⟩
      rw [ha] at k1; cases k1
      rw [(hg.inv.abst _ ag ha hprof).2] at k2; cases k2
    · rintro (⟨k1, -⟩ | ⟨-, ⟨e, k1, k2⟩, -⟩)
      · rw [k1, hw.operator] at hper
        have := congrArg (fun t => t.2.2) (Option.some.inj hper)
        simp only at this
        rw [hprof] at this; cases this
      · rw [hper] at k1; cases k1
        have := k2.2.1
        simp only at this
        rw [hprof] at this; cases this
  | plan _ _ ag' σ oν s₁ _ ha' hprof hσ hpm hpl hsim ht =>
    rw [ha] at ha'; cases ha'
    have hget : ∀ b, s'.agents.get? b = if b = me then some { ag with newStrategy := oν } else s.agents.get? b := by
      intro b
      rw [hpl.eq, get?_setAgent (me := me) (ag := { ag with newStrategy := oν }) hid b, hpl.planned.agents]
    have hal : ∀ b pid, allocOf s' b pid = allocOf s b pid := by
      intro b p; rw [hpl.eq]; exact allocOf_setAgent ha hid hpl.planned.agents oν b p
    have hidle : s'.idle = s.idle := by rw [hpl.eq]; exact hpl.planned.idle
    have hpools : s'.pools = s.pools := by rw [hpl.eq]; exact hpl.planned.pools
    have hheap : s'.heap = s₁.heap := by rw [hpl.eq]; rfl
    have hmar : ∀ r, r < s.next → (s'.heap r).margin = (s.heap r).margin := fun r hr => by
      rw [hheap, (hpl.planned.same r hr).margin]
    have hmono : Mono c o x cost s' := by
      refine ⟨fun pid r hp => ?_, fun b pid y hy => h.mono.allocs b pid y (by rw [← hal]; exact hy)⟩
      rw [hpools] at hp
      rw [hmar r (hg.inv.core.poolRef _ _ hp).1]
      exact h.mono.margin pid r hp
    have hdel : Delegates s me ↔ σ.allocs ≠ [] := by
      have hal : ∀ pid, allocOf s me pid = σ.allocs.get? pid := fun pid => by simp [allocOf, ha, hσ]
      unfold Delegates
      simp only [hal]
      constructor
      · rintro ⟨pid, y, hy⟩ hn
        rw [hn] at hy; cases hy
      · intro hne
        obtain ⟨e, he⟩ := List.exists_mem_of_ne_nil _ hne
        exact ⟨e.1, e.2, Dict.get?_of_mem ((hg.inv.tidy me ag ha).allocs _ hσ) he⟩
    -- the plan
    have hmine : (∀ ν, oν = some ν → Intends c o x cost s' me ν ∧ Urged c o s me) ∧ (Urged c o s me → oν ≠ none) := by
      by_cases hmo : me = o
      · subst hmo
        obtain ⟨p1, p2⟩ := hk.plan_operator hw h.mono ha hσ hord hpm
        refine ⟨fun ν hν => ?_, ?_⟩
        · have hno : s.pools = [] := by
            by_contra hne
            rw [p2 hne] at hν; cases hν
          obtain ⟨ν', q1, q2, q3, q4⟩ := p1 hno
          rw [hν] at q1; cases q1
          exact ⟨.inl ⟨rfl, by rw [hpools]; exact hno, q2, q3, fun pid r hr => by rw [hheap]; exact q4 pid r hr⟩, .inl ⟨rfl, hno⟩⟩
        · rintro (⟨-, hno⟩ | ⟨-, ⟨e, -, hj⟩, -⟩)
          · obtain ⟨ν', q1, -⟩ := p1 hno
            rw [q1]; simp
          · exact absurd rfl hj.1
      · obtain ⟨p1, p2⟩ := hk.plan_other hw h.mono hmo ha hσ hprof hord hpm
        refine ⟨fun ν hν => ?_, ?_⟩
        · rcases p1 ν hν with ⟨hne, hlek⟩ | ⟨q1, q2, q3, pid, r, q4, q5⟩
          · exfalso
            have hlen := List.length_pos_iff.2 hne
            have hme' : s'.agents.get? me = some { ag with newStrategy := oν } := by rw [hget, if_pos rfl]
            have hpr := (hcl.profitable hw.stakes hw.beta hw.a0 me _ hme').staged ν hν
            exact (hw.others me _ hmo (hk.person ha)).1 (Hall.couldProfit_of hw (hk.person ha) hprof hlen hlek (hpr.congr rfl rfl rfl))
          · have hnd : ¬ Delegates s me := by rw [hdel]; exact fun hn => hn q2
            refine ⟨.inr ⟨hmo, q1, by rw [Delegates.congr (hal me)]; exact hnd, _, pid, r, hk.person ha, q3, by rw [hpools]; exact q4, fun i => ?_⟩,
              .inr ⟨(fun hn => by rw [hn] at q4; cases q4), ⟨_, hk.person ha, q3⟩, hnd⟩⟩
            rw [q5]
            simp only [Dict.get?, eq_comm]
        · rintro (⟨k1, -⟩ | ⟨hne, ⟨e, k1, hj⟩, hnd⟩)
          · exact absurd k1 hmo
          · rw [hk.person ha] at k1; cases k1
            exact p2 hne hj (by by_contra hn; exact hnd (hdel.2 hn))
    refine ⟨⟨⟨hcl, hB.1⟩, hmono, ?_⟩, hal, hidle, hpools, fun b hb => by rw [hget, if_neg hb], ?_⟩
    · intro b agb ν k1 k2
      rw [hget] at k1
      by_cases hb : b = me
      · rw [if_pos hb] at k1
        cases k1
        rw [hb]
        exact (hmine.1 ν k2).1
      · rw [if_neg hb] at k1
        rcases h.staged b agb ν k1 k2 with ⟨q1, q2, q3, q4, q5⟩ | ⟨q1, q2, q3, e, pid, r, q4, q5, q6, q7⟩
        · refine .inl ⟨q1, by rw [hpools]; exact q2, q3, q4, fun pid r hr => ?_⟩
          rw [hmar r (hg.inv.own.stg_ok b pid r (by rw [stgOf_eq k1 k2]; exact hr)).1]
          exact q5 pid r hr
        · exact .inr ⟨q1, q2, by rw [Delegates.congr (hal b)]; exact q3, e, pid, r, q4, q5, by rw [hpools]; exact q6, q7⟩
    · constructor
      · rintro ⟨agb, ν, k1, k2⟩
        rw [hget, if_pos rfl] at k1
        cases k1
        exact (hmine.1 ν k2).2
      · intro hs
        obtain ⟨ν, hν⟩ := Option.ne_none_iff_exists'.1 (hmine.2 hs)
        exact ⟨{ ag with newStrategy := oν }, ν, by rw [hget, if_pos rfl], hν⟩
  | move _ _ ag' σ ν s₁ s₂ s₃ ha' hprof hσ hpm hpl hsim =>
    have := h.batch.sim
    rw [hsim] at this; cases this

/-- agents plan -/
theorem Court.steps (hw : MonopolyWorld c o x cost) {ords : Nat → List Nat → List Nat} (hords : ∀ i l, (ords i l).Perm l) (l : List (Nat × Nat)) :
    ∀ {s : State K}, Court c o x cost s → (∀ e ∈ l, e.1 < c.people.length) →
    ∃ s', iterM (fun s (e : Nat × Nat) => agentStep (ords e.2) s e.1) s l = .ok s' ∧ Court c o x cost s' ∧ (∀ b pid, allocOf s' b pid = allocOf s b pid) ∧ s'.idle = s.idle ∧
      s'.pools = s.pools ∧ ∀ b, Waits s' b ↔ if b ∈ l.map Prod.fst then Urged c o s b else Waits s b := by
  induction l with
  | nil => intro s h _; exact ⟨s, rfl, h, fun _ _ => rfl, rfl, rfl, fun b => by simp⟩
  | cons a l ih =>
    intro s h hl
    obtain ⟨s₁, e1, h1, o1, i1, p1, w1, w2⟩ := h.step hw (hl a (by simp)) (hords a.2)
    obtain ⟨s', e2, h2, o2, i2, p2, w3⟩ := ih h1 (fun b hb => hl b (List.mem_cons_of_mem _ hb))
    refine ⟨s', ?_, h2, fun b pid => (o2 b pid).trans (o1 b pid), i2.trans i1, p2.trans p1, fun b => ?_⟩
    · change exec s (.step a.1 (ords a.2)) >>= _ = _
      rw [e1]; exact e2
    · rw [w3, Urged.congr p1 (o1 b)]
      by_cases hb : b ∈ l.map Prod.fst
      · simp [hb]
      · by_cases hba : b = a.1
        · subst hba; simp only [List.map_cons, List.mem_cons, true_or, if_true, hb, if_false, w2]
        · simp only [hb, hba, List.map_cons, List.mem_cons, or_self, if_false]
          unfold Waits
          rw [w1 b hba]

/-! ### Moving -/

/-- an agent carries out its plan -/
theorem Court.advance (hw : MonopolyWorld c o x cost) {s : State K} (h : Court c o x cost s) {me : Nat} (hme : me < c.people.length) {ord : List Nat → List Nat}
    (hord : ∀ l, (ord l).Perm l) :
    ∃ s', exec s (.advance me ord) = .ok s' ∧ Court c o x cost s' ∧ (∀ b, Waits s' b ↔ Waits s b ∧ b ≠ me) ∧
      (∀ b, Delegates s' b ↔ Delegates s b ∨ (b = me ∧ b ≠ o ∧ Waits s b)) ∧ (s'.pools ≠ [] ↔ s.pools ≠ [] ∨ (me = o ∧ Waits s o)) ∧
      (Waits s me → s'.idle = false) ∧ (¬ Waits s me → s' = s) := by
  have hk := h.toHall
  have hg := hk.good
  obtain ⟨ag, ha⟩ : ∃ ag, s.agents.get? me = some ag := by
    have : (s.agents.get? me).isSome := by rw [hg.fixed.isSome]; exact isSome_init (RSE.Props.together c) hme
    exact Option.isSome_iff_exists.1 this
  have hv : (Event.advance me ord : Event K).Valid (RSE.Props.together c).people.length := ⟨hme, hord⟩
  obtain ⟨s', he, hB, -⟩ := h.batch.advance minUnit_pos hord ha (fun b agb νb hb k1 k2 ag ν _ _ pid k3 k4 => by
    exfalso
    rw [stgOf_eq k1 k2] at k4
    rcases h.staged b agb νb k1 k2 with ⟨-, q2, -⟩ | ⟨-, q2, -⟩
    · obtain ⟨r, hr⟩ := Option.isSome_iff_exists.1 k3
      have := ((hg.inv.own.own_iff b pid r).1 hr).1
      rw [q2] at this; cases this
    · rw [q2] at k4; cases k4)
  have he : exec s (.advance me ord) = .ok s' := he
  have hcl : Clean (RSE.Props.together c) s' := h.clean.next hv (fun p => by simp) (fun _ _ hh => by cases hh) he
  have hk' : Hall c s' := ⟨hcl, hB⟩
  have hg' := hk'.good
  have hd := hg.exec minUnit_pos hv
  rw [he] at hd
  obtain ⟨hd, -⟩ := hd
  refine ⟨s', he, ?_⟩
  cases hd with
  | skip _ _ ag' ha' hn =>
    have hno : ¬ Waits s me := by
      rintro ⟨agb, ν, k1, k2⟩
      rw [ha'] at k1; cases k1
      rw [hn] at k2; cases k2
    refine ⟨h, fun b => ⟨fun hb => ⟨hb, fun e => hno (e ▸ hb)⟩, fun hb => hb.1⟩, fun b => ⟨.inl, ?_⟩, ⟨.inl, ?_⟩, fun hb => absurd hb hno, fun _ => rfl⟩
    · rintro (hb | ⟨rfl, -, hb⟩)
      · exact hb
      · exact absurd hb hno
    · rintro (hb | ⟨rfl, hb⟩)
      · exact hb
      · exact absurd hb hno
  | adv _ _ ag' σ ν s₃ ha' hσ hν hex hdx hinv ht =>
    rw [ha] at ha'; cases ha'
    have hbk := executeStrategy_books minUnit_pos hg.inv hord ha hσ hν (t := True) (fun _ => h.batch.books) (fun _ => h.batch.staged me ag σ ν ha hσ hν)
    rw [hex] at hbk
    have hbk := hbk.2 trivial
    have hwm : Waits s me := ⟨ag, ν, ha, hν⟩
    have hplan := h.staged me ag ν ha hν
    have hmine : ownListOf s₃ me = some ν.owned := by
      unfold ownListOf
      rw [hdx.mine, ha]; rfl
    have hoth : ∀ b, b ≠ me → ownListOf s₃ b = ownListOf s b := by
      intro b hb
      unfold ownListOf
      rw [hdx.others b hb]
    have hσo : σ.owned = [] := by
      rcases hplan with ⟨q1, q2, -⟩ | ⟨q1, -⟩
      · cases ho : σ.owned with
        | nil => rfl
        | cons e t =>
          have := (hg.inv.owned ha hσ (pid := e.1) (r := e.2) (by rw [ho]; simp [Dict.get?])).1
          rw [q2] at this; cases this
      · exact (hk.strategy hw h.mono ha hσ q1).1
    have hng : ∀ pid, ¬ Gone s σ ν pid := fun pid hgone => by have := hgone.1; rw [hσo] at this; cases this
    have hkept : ∀ b, b ≠ me → ∀ pid, allocOf s₃ b pid = allocOf s b pid := fun b hb pid => hbk.kept b hb pid (hng pid)
    have howns : ∀ pid r, s₃.pools.get? pid = some r → (ownListOf s₃ o).bind (fun d => d.get? pid) = some r := by
      intro pid r hp
      rw [← ownOf_ownListOf]
      exact (hg'.inv.own.own_iff o pid r).2 ⟨hp, (hk'.pool hw (s := { s₃ with idle := false }) hp).1⟩
    have hmine' : ¬ Waits s₃ me := by
      rintro ⟨agb, νb, k1, k2⟩
      have := hdx.mine
      rw [k1, ha] at this
      simp only [Option.map_some, Option.some.injEq, Agent.skel, Prod.mk.injEq] at this
      have := this.2.2.2.2.2
      rw [k2] at this; cases this
    have hback : ∀ b, b ≠ me → ∀ agb νb, s₃.agents.get? b = some agb → agb.newStrategy = some νb →
        ∃ ag₀ ν₀, s.agents.get? b = some ag₀ ∧ ag₀.newStrategy = some ν₀ ∧ ν₀.owned = νb.owned ∧ ∀ pid, νb.allocs.get? pid = ν₀.allocs.get? pid := by
      intro b hb agb νb k1 k2
      obtain ⟨ag₀, q1, q2⟩ := get?_of_skel (hdx.others b hb) k1
      simp only [Agent.skel, Prod.mk.injEq] at q2
      have := q2.2.2.2.2.2
      rw [k2] at this
      obtain ⟨ν₀, q3, q4⟩ := Option.map_eq_some_iff.1 this.symm
      refine ⟨ag₀, ν₀, q1, q3, q4, fun pid => ?_⟩
      rw [← newOf_eq k1 k2, ← newOf_eq q1 q3]
      exact hbk.stagedKept b hb pid (.inl (hng pid))
    have hforth : ∀ b, b ≠ me → Waits s b → Waits s₃ b := by
      rintro b hb ⟨ag₀, ν₀, k1, k2⟩
      obtain ⟨agb, q1, q2⟩ := get?_of_skel (hdx.others b hb).symm k1
      simp only [Agent.skel, Prod.mk.injEq] at q2
      have := q2.2.2.2.2.2
      rw [k2] at this
      obtain ⟨νb, q3, -⟩ := Option.map_eq_some_iff.1 this.symm
      exact ⟨agb, νb, q1, q3⟩
    have hwaits : ∀ b, Waits s₃ b ↔ Waits s b ∧ b ≠ me := by
      intro b
      constructor
      · rintro ⟨agb, νb, k1, k2⟩
        have hb : b ≠ me := fun hb => hmine' ⟨agb, νb, hb ▸ k1, k2⟩
        obtain ⟨ag₀, ν₀, q1, q2, -⟩ := hback b hb agb νb k1 k2
        exact ⟨⟨ag₀, ν₀, q1, q2⟩, hb⟩
      · rintro ⟨k1, hb⟩
        exact hforth b hb k1
    rcases hplan with ⟨rfl, hno, hal, hne, hma⟩ | ⟨hmo, hν0, hnd, e, pid₀, r₀, hper, hj, hp₀, hνa⟩
    · -- the operator opens the pool
      have halone : ∀ b, b ≠ me → ¬ Waits s b := by
        rintro b hb ⟨agb, νb, k1, k2⟩
        rcases h.staged b agb νb k1 k2 with ⟨q1, -⟩ | ⟨-, -, -, e, pid, r, -, -, q, -⟩
        · exact hb q1
        · rw [hno] at q; cases q
      have hnme : ∀ pid, allocOf s₃ me pid = none := fun pid => by rw [hbk.mine, hal]; rfl
      refine ⟨⟨hk', ⟨fun pid r hp => ?_, fun b pid y hy => ?_⟩, fun b agb νb k1 k2 => ?_⟩, hwaits, fun b => ?_, ?_, fun _ => rfl, fun hn => absurd hwm hn⟩
      · have := howns pid r hp
        rw [hmine] at this
        change (s₃.heap r).margin = _
        rw [(hdx.same r).margin]
        exact hma pid r this
      · have hy : allocOf s₃ b pid = some y := hy
        by_cases hb : b = me
        · rw [hb, hnme] at hy; cases hy
        · rw [hkept b hb pid] at hy; exact h.mono.allocs b pid y hy
      · exfalso
        obtain ⟨q1, q2⟩ := (hwaits b).1 ⟨agb, νb, k1, k2⟩
        exact halone b q2 q1
      · by_cases hb : b = me
        · subst hb
          constructor
          · rintro ⟨pid, y, hy⟩
            have hy : allocOf s₃ b pid = some y := hy
            rw [hnme] at hy; cases hy
          · rintro (hd | ⟨-, q, -⟩)
            · exact absurd hd h.operator_never
            · exact absurd rfl q
        · rw [show Delegates { s₃ with idle := false } b ↔ Delegates s b from Delegates.congr (hkept b hb)]
          simp [hb]
      · refine ⟨fun _ => .inr ⟨rfl, hwm⟩, fun _ => ?_⟩
        change s₃.pools ≠ []
        obtain ⟨e, he⟩ := List.exists_mem_of_ne_nil _ hne
        intro hnil
        have k := (hg'.inv.own.own_iff me e.1 e.2).1 (by
          rw [ownOf_ownListOf]
          change (ownListOf s₃ me).bind _ = _
          rw [hmine]
          exact Dict.get?_of_mem ((hg.inv.tidy me ag ha).newOwned ν hν) he)
        have k : s₃.pools.get? e.1 = some e.2 := k.1
        rw [hnil] at k; cases k
    · -- another agent delegates to it
      have hso : ownListOf s₃ o = ownListOf s o := hoth o (Ne.symm hmo)
      have hold : ∀ pid r, s₃.pools.get? pid = some r → s.pools.get? pid = some r := by
        intro pid r hp
        have k := howns pid r hp
        rw [hso, ← ownOf_ownListOf] at k
        exact ((hg.inv.own.own_iff o pid r).1 k).1
      have hnew : ∀ pid r, s.pools.get? pid = some r → s₃.pools.get? pid = some r := by
        intro pid r hp
        have k := (hg.inv.own.own_iff o pid r).2 ⟨hp, (hk.pool hw hp).1⟩
        rw [ownOf_ownListOf, ← hso] at k
        exact ((hg'.inv.own.own_iff o pid r).1 (by rw [ownOf_ownListOf]; exact k)).1
      have hopen : s.pools ≠ [] := fun hn => by rw [hn] at hp₀; cases hp₀
      refine ⟨⟨hk', ⟨fun pid r hp => ?_, fun b pid y hy => ?_⟩, fun b agb νb k1 k2 => ?_⟩, hwaits, fun b => ?_, ?_, fun _ => rfl, fun hn => absurd hwm hn⟩
      · change (s₃.heap r).margin = _
        rw [(hdx.same r).margin]
        exact h.mono.margin pid r (hold pid r hp)
      · have hy : allocOf s₃ b pid = some y := hy
        by_cases hb : b = me
        · rw [hb, hbk.mine, hνa] at hy
          rw [hb]
          split at hy
          · exact ⟨e, hper, (Option.some.inj hy).symm, hj⟩
          · cases hy
        · rw [hkept b hb pid] at hy; exact h.mono.allocs b pid y hy
      · have hb := ((hwaits b).1 ⟨agb, νb, k1, k2⟩).2
        obtain ⟨ag₀, ν₀, q1, q2, q3, q4⟩ := hback b hb agb νb k1 k2
        rcases h.staged b ag₀ ν₀ q1 q2 with ⟨-, m2, -⟩ | ⟨m1, m2, m3, e', pid', r', m4, m5, m6, m7⟩
        · exact absurd m2 hopen
        · refine .inr ⟨m1, by rw [← q3]; exact m2, ?_, e', pid', r', m4, m5, hnew pid' r' m6, fun i => by rw [q4]; exact m7 i⟩
          rw [show Delegates { s₃ with idle := false } b ↔ Delegates s b from Delegates.congr (hkept b hb)]
          exact m3
      · by_cases hb : b = me
        · subst hb
          refine ⟨fun _ => .inr ⟨rfl, hmo, hwm⟩, fun _ => ⟨pid₀, e.1, ?_⟩⟩
          change allocOf s₃ b pid₀ = _
          rw [hbk.mine, hνa, if_pos rfl]
        · rw [show Delegates { s₃ with idle := false } b ↔ Delegates s b from Delegates.congr (hkept b hb)]
          simp [hb]
      · refine ⟨fun _ => .inl hopen, fun _ hnil => ?_⟩
        have k := hnew pid₀ r₀ hp₀
        have hnil : s₃.pools = [] := hnil
        rw [hnil] at k; cases k

/-- agents carry out their plans -/
theorem Court.advances (hw : MonopolyWorld c o x cost) {ords : Nat → List Nat → List Nat} (hords : ∀ i l, (ords i l).Perm l) (l : List (Nat × Nat)) :
    ∀ {s : State K}, Court c o x cost s → (∀ e ∈ l, e.1 < c.people.length) →
    ∃ s', iterM (fun s (e : Nat × Nat) => RSE.advance (ords e.2) s e.1) s l = .ok s' ∧ Court c o x cost s' ∧ (∀ b, Waits s' b ↔ Waits s b ∧ b ∉ l.map Prod.fst) ∧
      (∀ b, Delegates s' b ↔ Delegates s b ∨ (b ∈ l.map Prod.fst ∧ b ≠ o ∧ Waits s b)) ∧ (s'.pools ≠ [] ↔ s.pools ≠ [] ∨ (o ∈ l.map Prod.fst ∧ Waits s o)) ∧
      (s.idle = false → s'.idle = false) ∧ ((∃ b ∈ l.map Prod.fst, Waits s b) → s'.idle = false) ∧ ((∀ b ∈ l.map Prod.fst, ¬ Waits s b) → s' = s) := by
  induction l with
  | nil =>
    intro s h _
    exact ⟨s, rfl, h, fun b => by simp, fun b => by simp, by simp, fun h => h, fun ⟨b, hb, _⟩ => by simp at hb, fun _ => rfl⟩
  | cons a l ih =>
    intro s h hl
    obtain ⟨s₁, e1, h1, w1, o1, p1, i1, r1⟩ := h.advance hw (hl a (by simp)) (hords a.2)
    obtain ⟨s', e2, h2, w2, o2, p2, i2, i3, r2⟩ := ih h1 (fun b hb => hl b (List.mem_cons_of_mem _ hb))
    refine ⟨s', ?_, h2, fun b => ?_, fun b => ?_, ?_, fun hi => ?_, ?_, fun hno => ?_⟩
    · change exec s (.advance a.1 (ords a.2)) >>= _ = _
      rw [e1]; exact e2
    · rw [w2, w1, List.map_cons, List.mem_cons, not_or, and_assoc]
    · rw [o2, o1, w1, List.map_cons, List.mem_cons]
      by_cases hb : b = a.1
      · simp [hb]
      · simp [hb]
    · rw [p2, p1, w1, List.map_cons, List.mem_cons]
      by_cases hb : o = a.1
      · simp [hb]
      · simp [hb, Ne.symm hb]
    · by_cases hwa : Waits s a.1
      · exact i2 (i1 hwa)
      · refine i2 ?_
        rw [r1 hwa]; exact hi
    · rintro ⟨b, hb, hwb⟩
      by_cases hwa : Waits s a.1
      · exact i2 (i1 hwa)
      · rw [List.map_cons] at hb
        rcases List.mem_cons.1 hb with rfl | hb
        · exact absurd hwb hwa
        · exact i3 ⟨b, hb, by rw [r1 hwa]; exact hwb⟩
    · have e := r1 (hno a.1 (by simp))
      rw [r2 (fun b hb => by rw [e]; exact hno b (by rw [List.map_cons]; exact List.mem_cons_of_mem _ hb)), e]

/-! ### Batches and rounds -/

/-- a batch -/
theorem Court.runBatch (hw : MonopolyWorld c o x cost) {ords : Nat → List Nat → List Nat} (hords : ∀ i l, (ords i l).Perm l) {l : List Nat}
    (hl : ∀ a ∈ l, a < c.people.length) {s : State K} (h : Court c o x cost s) (hn : ∀ b, ¬ Waits s b) :
    ∃ s', RSE.runBatch ords s l = .ok s' ∧ Court c o x cost s' ∧ (∀ b, ¬ Waits s' b) ∧
      (∀ b, Delegates s' b ↔ Delegates s b ∨ (b ∈ l ∧ s.pools ≠ [] ∧ JoinsAgent c o b)) ∧ (s'.pools ≠ [] ↔ s.pools ≠ [] ∨ o ∈ l) ∧
      (s.idle = false → s'.idle = false) ∧ ((∃ b ∈ l, Urged c o s b) → s'.idle = false) ∧
      ((∀ b ∈ l, ¬ Urged c o s b) → s'.idle = s.idle ∧ s'.pools = s.pools ∧ ∀ b pid, allocOf s' b pid = allocOf s b pid) := by
  have hmap : l.zipIdx.map Prod.fst = l := List.zipIdx_map_fst _ _
  have hl' : ∀ e ∈ l.zipIdx, e.1 < c.people.length := fun e he => hl e.1 (by rw [← hmap]; exact List.mem_map_of_mem he)
  obtain ⟨s₁, e1, h1, o1, i1, p1, w1⟩ := h.steps hw hords l.zipIdx hl'
  obtain ⟨s', e2, h2, w2, o2, p2, i2, i3, r2⟩ := h1.advances hw (ords := fun i => ords (l.length + i)) (fun i => hords (l.length + i)) l.zipIdx hl'
  rw [hmap] at r2 i3
  simp only [hmap] at w1 w2 o2 p2
  have hw1 : ∀ b, Waits s₁ b ↔ b ∈ l ∧ Urged c o s b := by
    intro b
    rw [w1]
    by_cases hb : b ∈ l
    · simp [hb]
    · simp [hb, hn b]
  refine ⟨s', ?_, h2, fun b => ?_, fun b => ?_, ?_, fun hi => i2 (i1.trans hi), ?_, fun hall => ?_⟩
  · unfold RSE.runBatch
    rw [e1]; exact e2
  · rw [w2, hw1]; exact fun hb => hb.2 hb.1.1
  · rw [o2, hw1, Delegates.congr (o1 b)]
    constructor
    · rintro (hb | ⟨q1, q2, -, ⟨q3, -⟩ | ⟨q3, q4, -⟩⟩)
      · exact .inl hb
      · exact absurd q3 q2
      · exact .inr ⟨q1, q3, q4⟩
    · rintro (hb | ⟨q1, q2, q3⟩)
      · exact .inl hb
      · by_cases hb : Delegates s b
        · exact .inl hb
        · obtain ⟨e, -, hj⟩ := id q3
          exact .inr ⟨q1, hj.1, q1, .inr ⟨q2, q3, hb⟩⟩
  · rw [p2, hw1, p1]
    constructor
    · rintro (q | ⟨q, -⟩)
      · exact .inl q
      · exact .inr q
    · intro q
      by_cases hno : s.pools = []
      · have := q.resolve_left (fun hne => hne hno)
        exact .inr ⟨this, this, .inl ⟨rfl, hno⟩⟩
      · exact .inl hno
  · rintro ⟨b, hb, hS⟩
    exact i3 ⟨b, hb, (hw1 b).2 ⟨hb, hS⟩⟩
  · have e := r2 (fun b hb hwb => hall b hb ((hw1 b).1 hwb).2)
    rw [e]; exact ⟨i1, p1, o1⟩

/-- a round -/
theorem Court.round (hw : MonopolyWorld c o x cost) {ords : Nat → Nat → List Nat → List Nat} (hords : ∀ i j l, (ords i j l).Perm l) (bs : List (List Nat)) :
    ∀ {s : State K}, (∀ b ∈ bs, ∀ a ∈ b, a < c.people.length) → Court c o x cost s → (∀ b, ¬ Waits s b) →
    ∃ s', roundInBatches ords bs s = .ok s' ∧ Court c o x cost s' ∧ (∀ b, ¬ Waits s' b) ∧ (∀ b, Delegates s b → Delegates s' b) ∧
      (s.pools ≠ [] → ∀ b, Delegates s' b ↔ Delegates s b ∨ ((∃ l ∈ bs, b ∈ l) ∧ JoinsAgent c o b)) ∧ (s'.pools ≠ [] ↔ s.pools ≠ [] ∨ ∃ l ∈ bs, o ∈ l) ∧
      (s.idle = false → s'.idle = false) ∧ (s.pools = [] → s'.pools ≠ [] → s'.idle = false) ∧
      (s.pools ≠ [] → (∃ b, (∃ l ∈ bs, b ∈ l) ∧ JoinsAgent c o b ∧ ¬ Delegates s b) → s'.idle = false) ∧
      (s.pools ≠ [] → (∀ b, JoinsAgent c o b → Delegates s b) → s'.idle = s.idle ∧ s'.pools = s.pools ∧ ∀ b pid, allocOf s' b pid = allocOf s b pid) := by
  unfold roundInBatches
  generalize 0 = n
  induction bs generalizing n with
  | nil =>
    intro s _ h hn
    exact ⟨s, rfl, h, hn, fun _ h => h, fun _ b => by simp, by simp, fun h => h, fun h h' => absurd h h', fun _ ⟨b, ⟨l, hl, _⟩, _⟩ => by simp at hl,
      fun _ _ => ⟨rfl, rfl, fun _ _ => rfl⟩⟩
  | cons l bs ih =>
    intro s hl h hn
    obtain ⟨s₁, e1, h1, w1, o1, p1, i1, j1, r1⟩ := h.runBatch hw (hords n) (hl l (by simp)) hn
    obtain ⟨s', e2, h2, w2, d2, o2, p2, i2, k2, j2, r2⟩ := ih (n + 1) (fun b hb => hl b (List.mem_cons_of_mem _ hb)) h1 w1
    refine ⟨s', ?_, h2, w2, fun b hb => d2 b ((o1 b).2 (.inl hb)), fun hne b => ?_, ?_, fun hi => i2 (i1 hi), fun hno hne => ?_, fun hne => ?_, fun hne hall => ?_⟩
    · rw [List.zipIdx_cons]
      simp only [iterM]
      rw [e1]; exact e2
    · rw [o2 (p1.2 (.inl hne)), o1]
      constructor
      · rintro ((q | ⟨q1, -, q2⟩) | ⟨⟨l', q1, q2⟩, q3⟩)
        · exact .inl q
        · exact .inr ⟨⟨l, by simp, q1⟩, q2⟩
        · exact .inr ⟨⟨l', List.mem_cons_of_mem _ q1, q2⟩, q3⟩
      · rintro (q | ⟨⟨l', q1, q2⟩, q3⟩)
        · exact .inl (.inl q)
        · rcases List.mem_cons.1 q1 with rfl | q1
          · exact .inl (.inr ⟨q2, hne, q3⟩)
          · exact .inr ⟨⟨l', q1, q2⟩, q3⟩
    · rw [p2, p1, or_assoc]
      simp
    · by_cases hol : o ∈ l
      · exact i2 (j1 ⟨o, hol, .inl ⟨rfl, hno⟩⟩)
      · refine k2 ?_ hne
        by_contra hcon
        rcases p1.1 hcon with q | q
        · exact q hno
        · exact hol q
    · rintro ⟨b, ⟨l', hl', hb⟩, hS, ho⟩
      by_cases hbl : b ∈ l
      · exact i2 (j1 ⟨b, hbl, .inr ⟨hne, hS, ho⟩⟩)
      · rcases List.mem_cons.1 hl' with rfl | hl'
        · exact absurd hb hbl
        · refine j2 (p1.2 (.inl hne)) ⟨b, ⟨l', hl', hb⟩, hS, fun hc => ?_⟩
          rcases (o1 b).1 hc with hc | hc
          · exact ho hc
          · exact hbl hc.1
    · obtain ⟨k1, k2, k3⟩ := r1 (fun b _ hS => by
        rcases hS with ⟨-, q⟩ | ⟨-, q1, q2⟩
        · exact hne q
        · exact q2 (hall b q1))
      obtain ⟨k4, k5, k6⟩ := r2 (by rw [k2]; exact hne) (fun b hS => (o1 b).2 (.inl (hall b hS)))
      exact ⟨k4.trans k1, k5.trans k2, fun b pid => (k6 b pid).trans (k3 b pid)⟩

theorem court_init : Court c o x cost (initState (RSE.Props.together c)) ∧ ∀ b, ¬ Waits (initState (RSE.Props.together c)) b := by
  obtain ⟨h, hn⟩ := crew_init c
  refine ⟨⟨⟨h.clean, h.batch⟩, ⟨fun pid r hp => (by cases hp), fun b pid y hy => ?_⟩, fun b ag ν k1 k2 => absurd ⟨ag, ν, k1, k2⟩ (hn b)⟩, hn⟩
  rw [h.solitary.allocs b pid] at hy
  cases hy

theorem Court.roundEnd {s : State K} (h : Court c o x cost s) : Court c o x cost { s with idle := true } := by
  have hcl : Clean (RSE.Props.together c) { s with idle := true } := h.clean.next (ev := .roundEnd) trivial (fun p => by simp) (fun _ _ hh => by cases hh) rfl
  have hg := (Reachable.of_single hcl.single).good minUnit_pos
  refine ⟨⟨hcl, ⟨hg.inv, h.batch.sim, ⟨h.batch.books.agree, h.batch.books.good⟩, ?_⟩⟩, ⟨h.mono.margin, h.mono.allocs⟩, h.staged⟩
  intro b ag σ ν k1 k2 k3
  have S := h.batch.staged b ag σ ν k1 k2 k3
  exact ⟨S.allocs, S.copies, S.fresh⟩

/-! ### C137 -/

theorem court_pools_init : (initState (RSE.Props.together c)).pools = [] := rfl

theorem Court.allJoined (hw : MonopolyWorld c o x cost) {s : State K} (h : Court c o x cost s) (hne : s.pools ≠ []) (hall : ∀ b, JoinsAgent c o b → Delegates s b) :
    AllJoined c o x cost s := h.toHall.allJoined hw h.mono hne (fun b e hb hj => hall b ⟨e, hb, hj⟩)

theorem AllJoined.delegates {s : State K} (h : AllJoined c o x cost s) : ∀ b, JoinsAgent c o b → Delegates s b := by
  rintro b ⟨e, hb, hj⟩
  obtain ⟨pid, hs⟩ := h.joined b e hb hj
  exact ⟨pid, _, says_iff_allocOf.1 hs⟩

/-- C137, rounds.  Simultaneous or semi-simultaneous activation, whatever the batches.  After the first round the operator's pool is open, and the round was not idle.
After the second all who would delegate do so; it is idle iff they did so already, and if the first round was a single batch nobody did.  From then on nobody moves.
No exceptions are raised. -/
theorem C137_rounds (hw : MonopolyWorld c o x cost) {ords ords' : Nat → Nat → List Nat → List Nat} (hords : ∀ i j l, (ords i j l).Perm l) (hords' : ∀ i j l, (ords' i j l).Perm l) {bs bs' : List (List Nat)}
    (hf : FullRound c.people.length bs) (hf' : FullRound c.people.length bs') (later : List ((Nat → Nat → List Nat → List Nat) × List (List Nat)))
    (hl : ∀ e ∈ later, (∀ i j l, (e.1 i j l).Perm l) ∧ ∀ b ∈ e.2, ∀ a ∈ b, a < c.people.length) :
    ∃ s t u, roundInBatches ords bs (initState (RSE.Props.together c)) = .ok s ∧ Monopolised c o x cost s ∧ s.idle = false ∧
      (bs.length = 1 → ∀ b pid y, ¬ Says s b pid y) ∧
      roundInBatches ords' bs' { s with idle := true } = .ok t ∧ AllJoined c o x cost t ∧ (t.idle = true ↔ AllJoined c o x cost s) ∧
      iterM (fun v e => roundInBatches e.1 e.2 v) t later = .ok u ∧ AllJoined c o x cost u ∧ u.idle = t.idle ∧ u.pools = t.pools ∧
      ∀ b pid y, Says u b pid y ↔ Says t b pid y := by
  obtain ⟨h0, hn0⟩ := court_init (c := c) (o := o) (x := x) (cost := cost)
  have hin : ∀ {b}, JoinsAgent c o b → ∃ l ∈ bs', b ∈ l := fun ⟨e, hb, _⟩ => hf'.all _ (List.getElem?_eq_some_iff.1 hb).1
  obtain ⟨s, e1, h1, w1, d1, -, p1, -, k1, -, -⟩ := h0.round hw hords bs hf.agents hn0
  have hopen := p1.2 (.inr (hf.all o (List.getElem?_eq_some_iff.1 hw.operator).1))
  have h1' := h1.roundEnd
  obtain ⟨t, e2, h2, w2, d2, o2, p2, -, -, j2, r2⟩ := h1'.round hw hords' bs' hf'.agents w1
  have hopen' : t.pools ≠ [] := p2.2 (.inl hopen)
  have hall : ∀ b, JoinsAgent c o b → Delegates t b := fun b hb => (o2 hopen b).2 (.inr ⟨hin hb, hb⟩)
  have key : ∀ (later : List ((Nat → Nat → List Nat → List Nat) × List (List Nat))), (∀ e ∈ later, (∀ i j l, (e.1 i j l).Perm l) ∧ ∀ b ∈ e.2, ∀ a ∈ b, a < c.people.length) → ∀ s, Court c o x cost s → (∀ b, ¬ Waits s b) →
      s.pools ≠ [] → (∀ b, JoinsAgent c o b → Delegates s b) →
      ∃ u, iterM (fun v e => roundInBatches e.1 e.2 v) s later = .ok u ∧ AllJoined c o x cost u ∧ u.idle = s.idle ∧ u.pools = s.pools ∧
        ∀ b pid, allocOf u b pid = allocOf s b pid := by
    intro later
    induction later with
    | nil => intro _ s h _ hne ha; exact ⟨s, rfl, h.allJoined hw hne ha, rfl, rfl, fun _ _ => rfl⟩
    | cons e later ih =>
      intro hl s h hn hne ha
      obtain ⟨s₁, e1, h1, w1, d1, -, p1, -, -, -, r1⟩ := h.round hw (hl e (by simp)).1 e.2 (hl e (by simp)).2 hn
      obtain ⟨k1, k2, k3⟩ := r1 hne ha
      obtain ⟨u, e2, h2, k4, k5, k6⟩ := ih (fun b hb => hl b (List.mem_cons_of_mem _ hb)) s₁ h1 w1 (by rw [k2]; exact hne) (fun b hb => d1 b (ha b hb))
      refine ⟨u, ?_, h2, k4.trans k1, k5.trans k2, fun b pid => (k6 b pid).trans (k3 b pid)⟩
      simp only [iterM]
      rw [e1]; exact e2
  obtain ⟨u, e3, h3, q1, q2, q3⟩ := key later hl t h2 w2 hopen' hall
  refine ⟨s, t, u, e1, h1.toHall.monopolised hw h1.mono hopen, k1 rfl hopen, fun hlen b pid y hs => ?_, e2, h2.allJoined hw hopen' hall, ⟨fun hi => ?_, fun hj => ?_⟩, e3, h3, q1, q2,
    fun b pid y => by rw [says_iff_allocOf, says_iff_allocOf, q3]⟩
  · obtain ⟨l, rfl⟩ := List.length_eq_one_iff.1 hlen
    obtain ⟨s', g1, -, -, g2, -⟩ := h0.runBatch hw (hords 0) (hf.agents l (by simp)) hn0
    have e1' : roundInBatches ords [l] (initState (RSE.Props.together c)) = .ok s' := by
      unfold roundInBatches
      simp only [List.zipIdx_cons, List.zipIdx_nil, iterM]
      rw [g1]; rfl
    rw [e1] at e1'
    cases e1'
    rcases (g2 b).1 ⟨pid, y, says_iff_allocOf.1 hs⟩ with ⟨i, z, hz⟩ | ⟨-, hz, -⟩
    · rw [(crew_init c).1.solitary.allocs b i] at hz; cases hz
    · exact hz rfl
  · refine h1.allJoined hw hopen (fun b hb => ?_)
    by_contra hnd
    rw [j2 hopen ⟨b, hin hb, hb, hnd⟩] at hi
    cases hi
  · exact (r2 hopen hj.delegates).1

variable {R : Type}

/-- the history of a run -/
theorem monopoly_together_history (hw : MonopolyWorld c o x cost) {ords : Nat → Nat → Nat → List Nat → List Nat} (hords : ∀ i j m l, (ords i j m l).Perm l) {bs : Nat → List (List Nat)}
    (hf : ∀ i, FullRound c.people.length (bs i)) {report : State K → Py R} {conv : Int}
    {phases : Nat → PhaseParams K} {h : List (Round (State K))} {w : State K}
    (hh : History (batchesEnv ords bs report conv 1 phases) (initState (RSE.Props.together c)) h w) (hnc : ∀ r ∈ h, r.phaseChange = false) :
    Court c o x cost w ∧ (∀ b, ¬ Waits w b) ∧ w.idle = true ∧ (h = [] → w = initState (RSE.Props.together c)) ∧ (h ≠ [] → w.pools ≠ []) ∧
      (2 ≤ h.length → ∀ b, JoinsAgent c o b → Delegates w b) ∧ (∀ i (hi : i < h.length), 1 ≤ i → AllJoined c o x cost (h[i]).after) ∧
      (∀ i (hi : i < h.length), (i = 0 → (h[i]).after.idle = false) ∧ (2 ≤ i → (h[i]).after.idle = true)) ∧
      ((bs 0).length = 1 → (h.length = 1 → ∀ b, ¬ Delegates w b) ∧ ∀ i (hi : i < h.length), i = 1 → ((h[i]).after.idle = true ↔ ∀ b, ¬ JoinsAgent c o b)) := by
  induction hh with
  | start =>
    obtain ⟨h0, hn0⟩ := court_init (c := c) (o := o) (x := x) (cost := cost)
    exact ⟨h0, hn0, rfl, fun _ => rfl, fun h => absurd rfl h, by simp, by simp, by simp, fun _ => ⟨by simp, by simp⟩⟩
  | @round h w₁ w₂ hh he ih =>
    obtain ⟨i1, i0, i2, i3, i4, i5, i6, i7, i8⟩ := ih (fun r hr => hnc r (List.mem_append_left _ hr))
    have he : roundInBatches (ords h.length) (bs h.length) w₁ = .ok w₂ := he
    obtain ⟨s, g1, g2, g3, g4, g5, g6, g7, g8, g9, g10⟩ := i1.round hw (hords h.length) (bs h.length) (hf h.length).agents i0
    rw [he] at g1
    cases g1
    have hin : ∀ {b}, JoinsAgent c o b → ∃ l ∈ bs h.length, b ∈ l := fun ⟨e, hb, _⟩ => (hf h.length).all _ (List.getElem?_eq_some_iff.1 hb).1
    have hopen : w₂.pools ≠ [] := g6.2 (.inr ((hf h.length).all o (List.getElem?_eq_some_iff.1 hw.operator).1))
    have hall : 1 ≤ h.length → ∀ b, JoinsAgent c o b → Delegates w₂ b := fun h1 b hb =>
      (g5 (i4 (List.length_pos_iff.1 h1)) b).2 (.inr ⟨hin hb, hb⟩)
    have key0 : h.length = 0 → w₂.idle = false := fun h0 => g8 (by rw [i3 (List.length_eq_zero_iff.1 h0)]; rfl) hopen
    have key2 : 2 ≤ h.length → w₂.idle = true := fun h2 => by
      rw [(g10 (i4 (List.length_pos_iff.1 (by omega))) (i5 h2)).1, i2]
    have key1 : (bs 0).length = 1 → (h.length = 0 → ∀ b, ¬ Delegates w₂ b) ∧ (h.length = 1 → (w₂.idle = true ↔ ∀ b, ¬ JoinsAgent c o b)) := by
      intro hlen
      refine ⟨fun h0 b hd => ?_, fun h1 => ?_⟩
      · obtain ⟨s, t, u, f1, -, -, f2, -⟩ := C137_rounds hw (hords 0) (hords 0) (hf 0) (hf 0) [] (by simp)
        rw [h0, i3 (List.length_eq_zero_iff.1 h0)] at he
        rw [he] at f1
        cases f1
        obtain ⟨pid, y, hy⟩ := hd
        exact f2 hlen b pid y (says_iff_allocOf.2 hy)
      · have hne := i4 (List.length_pos_iff.1 (by omega))
        have hnd := (i8 hlen).1 h1
        constructor
        · intro hi b hb
          rw [g9 hne ⟨b, hin hb, hb, hnd b⟩] at hi
          cases hi
        · intro hno
          rw [(g10 hne (fun b hb => absurd hb (hno b))).1, i2]
    refine ⟨g2.roundEnd, g3, rfl, fun h => by simp at h, fun _ => hopen, fun h2 => hall (by simp at h2; omega), ?_, ?_, fun hlen => ⟨fun h1 => ?_, ?_⟩⟩
    · intro i hi h1
      by_cases hil : i < h.length
      · rw [List.getElem_append_left hil]; exact i6 i hil h1
      · have : i = h.length := by simp at hi; omega
        subst this
        simpa using g2.allJoined hw hopen (hall h1)
    · intro i hi
      by_cases hil : i < h.length
      · rw [List.getElem_append_left hil]; exact i7 i hil
      · have : i = h.length := by simp at hi; omega
        subst this
        exact ⟨fun h0 => by simpa using key0 h0, fun h2 => by simpa using key2 h2⟩
    · exact (key1 hlen).1 (by simp at h1; simp [h1])
    · intro i hi h1
      by_cases hil : i < h.length
      · rw [List.getElem_append_left hil]; exact (i8 hlen).2 i hil h1
      · have : i = h.length := by simp at hi; omega
        subst this
        simpa using (key1 hlen).2 h1
  | @change h w₁ w₂ w₃ hh he hcp ih =>
    have := hnc ⟨w₁, w₂, true⟩ (by simp)
    cases this

/-- C137, the whole run.  If `max_iterations` is at least `iterations_after_convergence + 2`, a run reports an equilibrium at step 0 or at step 1, after
`iterations_after_convergence` further rounds, and all who would delegate to the pool do so.  If the first round is a single batch, as with simultaneous activation,
then the equilibrium is at step 1 iff somebody would delegate. -/
theorem C137_run (hw : MonopolyWorld c o x cost) {ords : Nat → Nat → Nat → List Nat → List Nat} (hords : ∀ i j m l, (ords i j m l).Perm l)
    {bs : Nat → List (List Nat)} (hf : ∀ i, FullRound c.people.length (bs i)) {report : State K → Py R} {conv : Int} (hconv : 1 ≤ conv)
    {phases : Nat → PhaseParams K} {m : Int} (hm : conv + 2 ≤ m) {fuel : Nat} {l : Loop (State K) R}
    (hl : Loop.runModel (batchesEnv ords bs report conv 1 phases) fuel (Loop.init (initState (RSE.Props.together c)) m) = .ok l) :
    l.exports = [true] ∧ ((l.steps : Int) = conv + 1 ∧ l.eqSteps = [0] ∨ (l.steps : Int) = conv + 2 ∧ l.eqSteps = [1]) ∧ AllJoined c o x cost l.world ∧
      ((bs 0).length = 1 → ((∃ b e, c.people[b]? = some e ∧ Joins c o b e) → l.eqSteps = [1]) ∧ ((∀ b e, c.people[b]? = some e → ¬ Joins c o b e) → l.eqSteps = [0])) := by
  set env := batchesEnv ords bs report conv 1 phases with henv
  obtain ⟨h, -, hmeq, hle, hh⟩ := (Track.init env (initState (RSE.Props.together c)) m).loop_max (fun _ => rfl) fuel (by simp [Loop.init]; omega) hl
  obtain ⟨h', w', f1, f2, f3, f4, f5⟩ := C34_first env (fun _ => rfl) le_rfl (initState (RSE.Props.together c)) m (by omega) fuel l hl
  have f1 : History env (initState (RSE.Props.together c)) h' w' := f1
  obtain ⟨hid, hid1⟩ := (monopoly_together_history hw hords hf f1 f3).2.2.2.2.2.2.2
  have hid0 : ∀ (hi : 0 < h'.length), ¬ (h'[0]).Idle env := by
    intro hi hidle
    have : (h'[0]).after.idle = true := hidle
    rw [(hid 0 hi).1 rfl] at this
    cases this
  have hid2 : ∀ i (hi : i < h'.length), 2 ≤ i → (h'[i]).Idle env := fun i hi h2 => (hid i hi).2 h2
  have hcv : env.conv = conv := rfl
  rw [hcv] at f4 f5
  have hlast : ∀ n, n ≤ h'.length → conv + 2 ≤ (n : Int) → LastIdle env (h'.take n) conv := by
    intro n hn h1
    have hlen : (h'.take n).length = n := by rw [List.length_take]; omega
    refine ⟨by omega, fun i hi h2 => ?_⟩
    rw [List.getElem_take]
    rw [hlen] at h2
    exact hid2 i (by omega) (by omega)
  have hid1 : (bs 0).length = 1 → ∀ (hi : 1 < h'.length), (h'[1]).Idle env ↔ ∀ b, ¬ JoinsAgent c o b := fun hone hi => (hid1 hone).2 1 hi rfl
  have hlen : ((h'.length : Int) = conv + 1 ∧ l.eqSteps = [0] ∧ ((bs 0).length = 1 → ∀ b, ¬ JoinsAgent c o b)) ∨
      ((h'.length : Int) = conv + 2 ∧ l.eqSteps = [1] ∧ ((bs 0).length = 1 → ∃ b, JoinsAgent c o b)) := by
    rcases f5 with ⟨g1, ⟨g2, g3⟩, -⟩ | ⟨-, g2, g3⟩
    · have h1 : conv + 1 ≤ (h'.length : Int) := by
        by_contra hcon
        exact hid0 (by omega) (g3 0 (by omega) (by omega))
      have h2 : (h'.length : Int) ≤ conv + 2 := by
        by_contra hcon
        obtain ⟨n, hn⟩ : ∃ n : Nat, (n : Int) = conv + 2 := ⟨(conv + 2).toNat, by omega⟩
        exact f4 n (by omega) (by omega) (by omega) (hid2 _ (by omega) (by omega)) (hlast n (by omega) hn.ge)
      rcases (by omega : (h'.length : Int) = conv + 1 ∨ (h'.length : Int) = conv + 2) with h3 | h3
      · exact .inl ⟨h3, by rw [g1, h3]; congr 1; ring, fun hone => (hid1 hone (by omega)).1 (g3 1 (by omega) (by omega))⟩
      · refine .inr ⟨h3, by rw [g1, h3]; congr 1; ring, fun hone => ?_⟩
        by_contra hno
        have hidle : ∀ i (hi : i < h'.length), 1 ≤ i → (h'[i]).Idle env := by
          intro i hi h1
          by_cases h2 : 2 ≤ i
          · exact hid2 i hi h2
          · obtain rfl : i = 1 := by omega
            exact (hid1 hone hi).2 (fun b hb => hno ⟨b, hb⟩)
        obtain ⟨n, hn⟩ : ∃ n : Nat, (n : Int) = conv + 1 := ⟨(conv + 1).toNat, by omega⟩
        refine f4 n (by omega) (by omega) (by omega) (hidle _ (by omega) (by omega)) ?_
        have hlen : (h'.take n).length = n := by rw [List.length_take]; omega
        refine ⟨by omega, fun i hi h2 => ?_⟩
        rw [List.getElem_take]
        rw [hlen] at h2
        exact hidle i (by omega) (by omega)
    · exfalso
      have hpos : h'.length - 1 < h'.length := by omega
      have hgl : h'.getLast? = some h'[h'.length - 1] := by
        rw [List.getLast?_eq_getElem?]; exact List.getElem?_eq_getElem hpos
      refine g3 _ hgl (hid2 _ hpos (by omega)) ?_
      have := hlast h'.length le_rfl (by omega)
      rwa [List.take_length] at this
  rw [f2] at hlen
  have heq : ∃ n, l.eqSteps = [n] := by rcases hlen with ⟨-, h, -⟩ | ⟨-, h, -⟩ <;> exact ⟨_, h⟩
  have hsteps : 2 ≤ l.steps := by rcases hlen with ⟨h, -⟩ | ⟨h, -⟩ <;> omega
  refine ⟨?_, hlen.imp (fun h => ⟨h.1, h.2.1⟩) (fun h => ⟨h.1, h.2.1⟩), ?_, fun hone => ⟨?_, ?_⟩⟩
  rotate_left 2
  · rintro ⟨b, e, hb, hj⟩
    rcases hlen with ⟨-, -, h3⟩ | ⟨-, h2, -⟩
    · exact absurd ⟨e, hb, hj⟩ (h3 hone b)
    · exact h2
  · intro hno
    rcases hlen with ⟨-, h2, -⟩ | ⟨-, -, h3⟩
    · exact h2
    · obtain ⟨b, e, hb, hj⟩ := h3 hone
      exact absurd hj (hno b e hb)
  all_goals
    rcases hh with hh | hh
    · exfalso
      obtain ⟨n, hn⟩ := heq
      have := hh.eqSteps
      rw [hn] at this
      obtain ⟨i, hi, -, hp⟩ := mem_eqOf (s := n) (by rw [← this]; simp)
      have hz : changes h = 0 := Nat.le_zero.1 hh.phases
      unfold changes at hz
      rw [List.countP_eq_zero] at hz
      exact hz _ (List.getElem_mem hi) hp
  · exact hh.exports
  · obtain ⟨h₀, w₀, hpre, -⟩ := hh.prefix'
    have hz : changes h = 0 := hh.phases
    have hnc : ∀ r ∈ h, r.phaseChange = false := by
      intro r hr
      unfold changes at hz
      rw [List.countP_eq_zero] at hz
      simpa using hz r hr
    have hst : h.length = l.steps := hh.steps.symm
    have h6 := (monopoly_together_history hw hords hf hh.hist hnc).2.2.2.2.2.2.1
    subst hpre
    have := h6 h₀.length (by simp) (by simp at hst; omega)
    simpa using this

/-- the delegations to the pool once all have joined -/
theorem AllJoined.delegators {s : State K} (h : AllJoined c o x cost s) (hb : Books s) {pid : Nat} {r : Ref} (hp : s.pools = [(pid, r)]) (b : Nat) (y : K) :
    (s.heap r).delegators.get? b = some y ↔ ∃ e, c.people[b]? = some e ∧ y = e.1 ∧ Joins c o b e := by
  have hget : s.pools.get? pid = some r := by rw [hp]; simp [Dict.get?]
  constructor
  · intro hd
    rw [hb.agree pid r hget b] at hd
    exact (h.delegations b pid y (says_iff_allocOf.2 hd)).2
  · rintro ⟨e, h1, rfl, h2⟩
    obtain ⟨i, hs⟩ := h.joined b e h1 h2
    obtain ⟨⟨r', k1, k2⟩, -⟩ := h.delegations b i e.1 hs
    rw [hp] at k1
    simp only [Dict.get?] at k1
    split at k1
    · cases k1; exact k2
    · cases k1

/-- the pools of two such states -/
theorem AllJoined.same {s u : State K} (hs : AllJoined c o x cost s) (hu : AllJoined c o x cost u) (hbs : Books s) (hbu : Books u)
    (hns : ∀ r, (s.heap r).delegators.keys.Nodup) (hnu : ∀ r, (u.heap r).delegators.keys.Nodup) (hpos : fullProfit c x cost ≠ 0) :
    ∃ pid r pid' r', s.pools = [(pid, r)] ∧ u.pools = [(pid', r')] ∧ facade (u.heap r') = facade (s.heap r) ∧ (u.heap r').margin = (s.heap r).margin ∧
      ∀ b y, Says u b pid' y ↔ Says s b pid y := by
  obtain ⟨pid, r, a1, a2, a3, a4, a5, a6, a7⟩ := hs.pool
  obtain ⟨pid', r', b1, b2, b3, b4, b5, b6, b7⟩ := hu.pool
  have hds := hs.delegators hbs a1
  have hdu := hu.delegators hbu b1
  have hperm : (u.heap r').delegators.Perm (s.heap r).delegators := by
    refine (List.perm_ext_iff_of_nodup (List.Nodup.of_map _ (hnu r')) (List.Nodup.of_map _ (hns r))).2 (fun e => ?_)
    constructor
    · intro he
      exact Dict.mem_of_get? ((hds e.1 e.2).2 ((hdu e.1 e.2).1 (Dict.get?_of_mem (hnu r') he)))
    · intro he
      exact Dict.mem_of_get? ((hdu e.1 e.2).2 ((hds e.1 e.2).1 (Dict.get?_of_mem (hns r) he)))
  refine ⟨pid, r, pid', r', a1, b1, ?_, ?_, fun b y => ?_⟩
  · unfold Props.facade
    rw [a2, a3, a4, a5, a7, b2, b3, b4, b5, b7, (hperm.map _).sum_eq]
  · have := mul_right_cancel₀ hpos (b6.trans a6.symm)
    linarith
  · have hgs : s.pools.get? pid = some r := by rw [a1]; simp [Dict.get?]
    have hgu : u.pools.get? pid' = some r' := by rw [b1]; simp [Dict.get?]
    rw [says_iff_allocOf, says_iff_allocOf, ← hbs.agree pid r hgs b, ← hbu.agree pid' r' hgu b, hds, hdu]

/-- C137, comparison.  Two simultaneous or semi-simultaneous rounds lead to the same pool as two sequential ones, apart from its id, and to the same delegations. -/
theorem C137_as_sequential (hw : MonopolyWorld c o x cost) {ordb ordb' : Nat → Nat → List Nat → List Nat} (hordb : ∀ i j l, (ordb i j l).Perm l) (hordb' : ∀ i j l, (ordb' i j l).Perm l) {bs bs' : List (List Nat)}
    (hf : FullRound c.people.length bs) (hf' : FullRound c.people.length bs') {ords ords' : Nat → List Nat → List Nat} (hords : ∀ i l, (ords i l).Perm l)
    (hords' : ∀ i l, (ords' i l).Perm l) {order order' : List Nat} (hfull : ∀ a, a ∈ order ↔ a < c.people.length)
    (hfull' : ∀ a, a ∈ order' ↔ a < c.people.length) :
    ∃ s₁ s u₁ u, roundSequential ords order (initState c) = .ok s₁ ∧ roundSequential ords' order' s₁ = .ok s ∧
      roundInBatches ordb bs (initState (RSE.Props.together c)) = .ok u₁ ∧ roundInBatches ordb' bs' u₁ = .ok u ∧
      ∃ pid r pid' r', s.pools = [(pid, r)] ∧ u.pools = [(pid', r')] ∧ facade (u.heap r') = facade (s.heap r) ∧ (u.heap r').margin = (s.heap r).margin ∧
        ∀ b y, Says u b pid' y ↔ Says s b pid y := by
  obtain ⟨s₁, e1, q1, m1, -⟩ := C134_first_round hw hords hfull
  obtain ⟨s, e2, q2, m2⟩ := C134_second_round hw q1 m1 hords' hfull'
  obtain ⟨h0, hn0⟩ := court_init (c := c) (o := o) (x := x) (cost := cost)
  obtain ⟨u₁, f1, h1, w1, -, -, p1, -⟩ := h0.round hw hordb bs hf.agents hn0
  have hopen := p1.2 (.inr (hf.all o (List.getElem?_eq_some_iff.1 hw.operator).1))
  obtain ⟨u, f2, h2, w2, -, o2, p2, -⟩ := h1.round hw hordb' bs' hf'.agents w1
  have hu : AllJoined c o x cost u := h2.allJoined hw (p2.2 (.inl hopen)) (fun b hb => (o2 hopen b).2 (.inr ⟨by
    obtain ⟨e, k, -⟩ := hb
    exact hf'.all _ (List.getElem?_eq_some_iff.1 k).1, hb⟩))
  have hr := Reachable.of_single q2
  exact ⟨s₁, s, u₁, u, e1, e2, f1, f2, m2.same hu (hr.books hw.mode) h2.batch.books (fun r => (hr.good minUnit_pos).inv.core.delNodup r)
    (fun r => h2.good.inv.core.delNodup r) hw.profit_pos.ne'⟩

/-- C137 for the schedulers of the model: with simultaneous activation, nobody delegates after the first round, and all who would do so after the second. -/
theorem C137_simultaneous (hw : MonopolyWorld c o x cost) {ords ords' : Nat → List Nat → List Nat} (hords : ∀ i l, (ords i l).Perm l) (hords' : ∀ i l, (ords' i l).Perm l) {order order' : List Nat}
    (h1 : order.Perm (List.range c.people.length)) (h2 : order'.Perm (List.range c.people.length)) :
    ∃ s t, roundSimultaneous ords order (initState (RSE.Props.together c)) = .ok s ∧ Monopolised c o x cost s ∧ (∀ b pid y, ¬ Says s b pid y) ∧
      roundSimultaneous ords' order' { s with idle := true } = .ok t ∧ AllJoined c o x cost t := by
  obtain ⟨s, t, -, e1, m1, -, n1, e2, m2, -⟩ := C137_rounds hw (fun _ => hords) (fun _ => hords') (FullRound.simultaneous h1) (FullRound.simultaneous h2) [] (by simp)
  exact ⟨s, t, by rw [roundInBatches_simultaneous]; exact e1, m1, n1 rfl, by rw [roundInBatches_simultaneous]; exact e2, m2⟩

/-- … and with semi-simultaneous activation all who would delegate do so after the second round. -/
theorem C137_semi (hw : MonopolyWorld c o x cost) {ords ords' : Nat → Nat → List Nat → List Nat} (hords : ∀ i j l, (ords i j l).Perm l) (hords' : ∀ i j l, (ords' i j l).Perm l) {z : Nat} (hz : 1 ≤ z)
    {sample sample' : List Nat → Nat → List Nat} (h1 : SampleOK sample) (h2 : SampleOK sample') :
    ∃ s t, roundSemi z sample ords (List.range c.people.length) (initState (RSE.Props.together c)) = .ok s ∧ Monopolised c o x cost s ∧
      roundSemi z sample' ords' (List.range c.people.length) { s with idle := true } = .ok t ∧ AllJoined c o x cost t := by
  obtain ⟨s, t, -, e1, m1, -, -, e2, m2, -⟩ := C137_rounds hw hords hords' (FullRound.semi hz h1) (FullRound.semi hz h2) [] (by simp)
  exact ⟨s, t, by rw [roundInBatches_semi]; exact e1, m1, by rw [roundInBatches_semi]; exact e2, m2⟩

/-- C137, metrics: after one or more rounds they are those of C134. -/
theorem C137_metrics (hw : MonopolyWorld c o x cost) {ords : Nat → Nat → Nat → List Nat → List Nat} (hords : ∀ i j m l, (ords i j m l).Perm l) {bs : Nat → List (List Nat)}
    (hf : ∀ i, FullRound c.people.length (bs i)) {report : State K → Py R} {conv : Int}
    {phases : Nat → PhaseParams K} {h : List (Round (State K))} {w : State K}
    (hh : History (batchesEnv ords bs report conv 1 phases) (initState (RSE.Props.together c)) h w) (hnc : ∀ r ∈ h, r.phaseChange = false) (hne : h ≠ []) :
    poolCount w = 1 ∧ operatorCount w = 1 ∧ totalPledge w = x ∧ nakamoto w = .ok 1 := by
  obtain ⟨g1, -, -, -, g5, -⟩ := monopoly_together_history hw hords hf hh hnc
  exact (g1.toHall.monopolised hw g1.mono (g5 hne)).metrics hw (Reachable.of_single g1.clean.single)

end

/-! ### A simulation that the theorems are about -/

/-- the demonstration of C134, all at once: nobody can delegate in the first round, so that the equilibrium is at step 1 -/
example : MonopolyWorld monopolyDemo 1 (1/3) (1/10) ∧ FullRound monopolyDemo.people.length [[1, 3, 0, 2]] ∧ (∃ b e, monopolyDemo.people[b]? = some e ∧ Joins monopolyDemo 1 b e) ∧
    ∃ l, Loop.runModel (batchesEnv (fun _ _ _ => id) (fun _ => [[1, 3, 0, 2]]) (fun s => .ok (poolCount s)) 3 1 (fun _ => {})) 21
      (Loop.init (initState (together monopolyDemo)) 20) = .ok l ∧ outcome l = (5, [0, 1, 1, 1, 1], [1], [], false, [true]) := by
  refine ⟨monopolyDemo_world.1, ⟨by decide, by decide, ?_⟩, ⟨0, monopolyDemo_world.2⟩, run_outcome (by decide +kernel)⟩
  intro a ha
  have ha : a < 4 := ha
  interval_cases a <;> simp

/-- in batches of two, the operator in the first: equilibrium at step 1, as the other agent of that batch has to wait -/
example : ∃ l, Loop.runModel (batchesEnv (fun _ _ _ => id) (fun _ => [[1, 3], [0, 2]]) (fun s => .ok (poolCount s)) 3 1 (fun _ => {})) 21
    (Loop.init (initState (together monopolyDemo)) 20) = .ok l ∧ outcome l = (5, [0, 1, 1, 1, 1], [1], [], false, [true]) := run_outcome (by decide +kernel)

/-- … and with somebody who abstains: equilibrium at step 0 -/
example : ∃ l, Loop.runModel (batchesEnv (fun _ _ _ => id) (fun _ => [[1, 2], [0, 3]]) (fun s => .ok (poolCount s)) 3 1 (fun _ => {})) 21
    (Loop.init (initState (together monopolyDemo)) 20) = .ok l ∧ outcome l = (4, [0, 1, 1, 1], [0], [], false, [true]) := run_outcome (by decide +kernel)

end RSE.Props
