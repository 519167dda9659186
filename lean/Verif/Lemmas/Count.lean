import Verif.Lemmas.Private
import Verif.Props.Split

/-!
# Counting delegations and pools twice: over the pools and over the agents (sequential activation)
-/

set_option linter.unusedSectionVars false

namespace RSE

variable {F : Type} [LinearOrder F] [Zero F] [One F] [Add F] [Sub F] [Mul F] [Div F] [Neg F] [NatCast F] [FSum F]
variable {K : Type} [Field K] [LinearOrder K] [IsStrictOrderedRing K]

/-- the delegations of an agent -/
def allocsOf (ag : Agent F) : Dict F := match ag.strategy with
  | some σ => σ.allocs
  | none => []

/-- the pools of an agent -/
def ownedOf (ag : Agent F) : Dict Ref := match ag.strategy with
  | some σ => σ.owned
  | none => []

theorem nodup_flat {V β : Type} {d : Dict V} (hd : d.keys.Nodup) {f : Nat × V → List β} (tag : β → Nat) (h1 : ∀ e ∈ d, (f e).Nodup)
    (h2 : ∀ e ∈ d, ∀ b ∈ f e, tag b = e.1) : (d.flatMap f).Nodup := by
  rw [List.nodup_flatMap]
  refine ⟨h1, ?_⟩
  have : d.Pairwise (fun a b => a.1 ≠ b.1) := by
    have := hd
    unfold Dict.keys List.Nodup at this
    rw [List.pairwise_map] at this
    exact this
  refine (List.Pairwise.imp_of_mem ?_ this)
  intro a b ha hb hab x hx hx'
  exact hab ((h2 a ha x hx).symm.trans (h2 b hb x hx'))

theorem Dict.nodup_of_keys {V : Type} {d : Dict V} (h : d.keys.Nodup) : d.Nodup := List.Nodup.of_map _ h

theorem allocOf_eq_allocsOf {s : State F} {b : Nat} {ag : Agent F} (h : s.agents.get? b = some ag) (pid : Nat) : allocOf s b pid = (allocsOf ag).get? pid := by
  unfold allocOf allocsOf
  rw [h]
  dsimp only [Option.bind_some]
  cases ag.strategy <;> rfl

theorem ownOf_eq_ownedOf {s : State F} {b : Nat} {ag : Agent F} (h : s.agents.get? b = some ag) (pid : Nat) : ownOf s b pid = (ownedOf ag).get? pid := by
  unfold ownOf ownedOf
  rw [h]
  dsimp only [Option.bind_some]
  cases ag.strategy <;> rfl

theorem Agent.Tidy.allocsOf {ag : Agent F} (h : ag.Tidy) : (allocsOf ag).keys.Nodup := by
  unfold RSE.allocsOf
  cases hs : ag.strategy with
  | none => exact List.nodup_nil
  | some σ => exact h.allocs σ hs

theorem Agent.Tidy.ownedOf {ag : Agent F} (h : ag.Tidy) : (ownedOf ag).keys.Nodup := by
  unfold RSE.ownedOf
  cases hs : ag.strategy with
  | none => exact List.nodup_nil
  | some σ => exact h.owned σ hs

/-- the delegations (pool id, delegator, amount) seen from the pools and from the agents are the same -/
theorem delegations_perm {n : Nat} {s : State F} (h : Inv n s) (hq : Books s) :
    (s.pools.flatMap (fun e => (s.heap e.2).delegators.map (fun d => (e.1, d.1, d.2)))).Perm
      (s.agents.flatMap (fun e => (allocsOf e.2).map (fun a => (a.1, e.1, a.2)))) := by
  rw [List.perm_ext_iff_of_nodup]
  · rintro ⟨pid, b, x⟩
    simp only [List.mem_flatMap, List.mem_map, Prod.mk.injEq]
    constructor
    · rintro ⟨⟨pid', r⟩, he, ⟨b', x'⟩, hd, rfl, rfl, rfl⟩
      have hp := Dict.get?_of_mem h.core.poolsNodup he
      have hx := Dict.get?_of_mem (h.core.delNodup r) hd
      simp only at hp hx ⊢
      rw [hq.agree pid' r hp] at hx
      cases hb : s.agents.get? b' with
      | none => simp [allocOf, hb] at hx
      | some ag =>
        rw [allocOf_eq_allocsOf hb] at hx
        exact ⟨(b', ag), Dict.mem_of_get? hb, (pid', x'), Dict.mem_of_get? hx, rfl, rfl, rfl⟩
    · rintro ⟨⟨b', ag⟩, he, ⟨pid', x'⟩, hd, rfl, rfl, rfl⟩
      have hb := Dict.get?_of_mem h.core.agentsNodup he
      have hx := Dict.get?_of_mem (h.tidy _ _ hb).allocsOf hd
      simp only at hb hx ⊢
      rw [← allocOf_eq_allocsOf hb] at hx
      obtain ⟨-, r, hp, -⟩ := hq.good _ _ _ hx
      rw [← hq.agree pid' r hp] at hx
      exact ⟨(pid', r), Dict.mem_of_get? hp, (b', x'), Dict.mem_of_get? hx, rfl, rfl, rfl⟩
  · refine nodup_flat h.core.poolsNodup (fun t => t.1) ?_ ?_
    · intro e _
      exact (Dict.nodup_of_keys (h.core.delNodup e.2)).map (by rintro ⟨a, b⟩ ⟨c, d⟩ hh; simp_all)
    · intro e _ b hb
      obtain ⟨d, -, rfl⟩ := List.mem_map.1 hb
      rfl
  · refine nodup_flat h.core.agentsNodup (fun t => t.2.1) ?_ ?_
    · intro e he
      exact (Dict.nodup_of_keys (h.tidy _ _ (Dict.get?_of_mem h.core.agentsNodup he)).allocsOf).map (by rintro ⟨a, b⟩ ⟨c, d⟩ hh; simp_all)
    · intro e _ b hb
      obtain ⟨d, -, rfl⟩ := List.mem_map.1 hb
      rfl

/-- the pools seen from the simulation and from the agents are the same -/
theorem pools_perm {n : Nat} {s : State F} (h : Inv n s) (hown : ∀ pid r, s.pools.get? pid = some r → ∃ a, s.agents.get? (s.heap r).owner = some a) :
    s.pools.Perm (s.agents.flatMap (fun e => ownedOf e.2)) := by
  rw [List.perm_ext_iff_of_nodup (Dict.nodup_of_keys h.core.poolsNodup)]
  · rintro ⟨pid, r⟩
    simp only [List.mem_flatMap]
    constructor
    · intro he
      have hp := Dict.get?_of_mem h.core.poolsNodup he
      obtain ⟨ag, ha⟩ := hown pid r hp
      have := (h.own.own_iff _ pid r).2 ⟨hp, rfl⟩
      rw [ownOf_eq_ownedOf ha] at this
      exact ⟨(_, ag), Dict.mem_of_get? ha, Dict.mem_of_get? this⟩
    · rintro ⟨⟨b, ag⟩, he, hm⟩
      have hb := Dict.get?_of_mem h.core.agentsNodup he
      have hx := Dict.get?_of_mem (h.tidy _ _ hb).ownedOf hm
      rw [← ownOf_eq_ownedOf hb] at hx
      exact Dict.mem_of_get? ((h.own.own_iff _ pid r).1 hx).1
  · refine nodup_flat h.core.agentsNodup (fun e => (s.heap e.2).owner) ?_ ?_
    · intro e he
      exact Dict.nodup_of_keys (h.tidy _ _ (Dict.get?_of_mem h.core.agentsNodup he)).ownedOf
    · rintro ⟨b, ag⟩ he ⟨pid, r⟩ hm
      have hb := Dict.get?_of_mem h.core.agentsNodup he
      have hx := Dict.get?_of_mem (h.tidy _ _ hb).ownedOf hm
      rw [← ownOf_eq_ownedOf hb] at hx
      exact ((h.own.own_iff _ pid r).1 hx).2

theorem sum_flatMap {α β : Type} (l : List α) (f : α → List β) (g : β → K) :
    ((l.flatMap f).map g).sum = (l.map (fun a => ((f a).map g).sum)).sum := by
  induction l with
  | nil => rfl
  | cons a t ih => simp [List.flatMap_cons, ih]

/-- every open pool has an owner with a strategy that lists it -/
theorem Inv.owner {n : Nat} {s : State F} (h : Inv n s) {pid : Nat} {r : Ref} (hp : s.pools.get? pid = some r) :
    ∃ ag σ, s.agents.get? (s.heap r).owner = some ag ∧ ag.strategy = some σ ∧ σ.owned.get? pid = some r := by
  have := (h.own.own_iff _ pid r).2 ⟨hp, rfl⟩
  unfold ownOf at this
  cases ha : s.agents.get? (s.heap r).owner with
  | none => rw [ha] at this; cases this
  | some ag =>
    rw [ha] at this
    simp only [Option.bind_some] at this
    cases hs : ag.strategy with
    | none => rw [hs] at this; cases this
    | some σ => rw [hs] at this; exact ⟨ag, σ, rfl, hs, this⟩

/-- a sum over the open pools is a sum over the agents' pools -/
theorem sum_pools {n : Nat} {s : State F} (h : Inv n s) (g : Nat × Ref → K) :
    (s.pools.map g).sum = (s.agents.map (fun e => ((ownedOf e.2).map g).sum)).sum := by
  rw [((pools_perm h (fun pid r hp => by obtain ⟨ag, _, ha, -⟩ := h.owner hp; exact ⟨ag, ha⟩)).map g).sum_eq, sum_flatMap]

/-- a sum over the delegations in the open pools is a sum over the agents' delegations -/
theorem sum_delegations {n : Nat} {s : State F} (h : Inv n s) (hq : Books s) (g : Nat × Nat × F → K) :
    (s.pools.map (fun e => ((s.heap e.2).delegators.map (fun d => g (e.1, d.1, d.2))).sum)).sum =
      (s.agents.map (fun e => ((allocsOf e.2).map (fun a => g (a.1, e.1, a.2))).sum)).sum := by
  have := ((delegations_perm h hq).map g).sum_eq
  rw [sum_flatMap, sum_flatMap] at this
  simpa [List.map_map, Function.comp_def] using this

theorem sum_map_add {α : Type} (l : List α) (f g : α → K) : (l.map (fun a => f a + g a)).sum = (l.map f).sum + (l.map g).sum := by
  induction l with
  | nil => simp
  | cons a t ih => simp only [List.map_cons, List.sum_cons, ih]; ring

/-- the total stake in pools is what the agents have committed -/
theorem total_stake_eq {n : Nat} {s : State K} (h : Inv n s) (hq : Books s) (hb : AllPools Balanced s) :
    (s.pools.map (fun e => (s.heap e.2).stake)).sum =
      (s.agents.map (fun e => (allocsOf e.2).total + ((ownedOf e.2).map (fun p => (s.heap p.2).pledge)).sum)).sum := by
  have h1 : (s.pools.map (fun e => (s.heap e.2).stake)).sum =
      (s.pools.map (fun e => ((s.heap e.2).delegators.map (fun d => d.2)).sum + (s.heap e.2).pledge)).sum := by
    congr 1
    apply List.map_congr_left
    intro e _
    rw [(hb e.2).stake, add_comm]; rfl
  rw [h1, sum_map_add, sum_map_add, sum_pools h (fun e => (s.heap e.2).pledge)]
  have := sum_delegations h hq (fun t => t.2.2)
  rw [this]; rfl

theorem pledgePerPool_pos {stake beta q : K} {n : Nat} (h : pledgePerPool stake beta n = .ok q) (hs : 0 < stake) (hb : 0 < beta) : 0 < q := by
  unfold pledgePerPool at h
  split at h
  · cases h
  · rename_i hn
    cases h
    exact lt_min (div_pos hs (Nat.cast_pos.2 (Nat.pos_of_ne_zero hn))) hb

/-- every pool of a strategy has a positive pledge -/
theorem Shaped.pledge_pos {one : Prop} {rs : RS K} {f : K} {heap : Ref → Pool K} {ag : Agent K} {σ : Strategy K} (h : Shaped one rs f heap ag σ)
    (hs : 0 < ag.stake) (hb : 0 < rs.beta) {r : Ref} (hr : r ∈ σ.owned.vals) : 0 < (heap r).pledge := by
  have hn : σ.owned.length ≠ 0 := by
    intro h0
    rw [List.length_eq_zero_iff.1 h0] at hr; cases hr
  obtain ⟨q, hq⟩ : ∃ q, pledgePerPool ag.stake rs.beta σ.owned.length = .ok q := by simp [pledgePerPool, hn]
  obtain ⟨c, hc⟩ : ∃ c, costPerPool σ.owned.length ag.cost f = .ok c := by simp [costPerPool, hn]
  rw [(h.pools q c hq hc r hr).1]
  exact pledgePerPool_pos hq hs hb

/-- every open pool has a positive pledge (all phases, all modes) -/
theorem Reachable.pledge_pos {c : Config K} {s : State K} (h : Reachable c s) (h0 : ∀ e ∈ c.people, 0 < e.1) (hb : 0 < c.rs.beta) {pid : Nat} {r : Ref}
    (hp : s.pools.get? pid = some r) : 0 < (s.heap r).pledge := by
  have hg := h.good minUnit_pos
  obtain ⟨ag, σ, ha, hσ, ho⟩ := hg.inv.owner hp
  obtain ⟨rs, f, hΦ, hsh⟩ := ((h.shaped (fun e he => (h0 e he).le) hb).2 _ _ ha).strategy σ hσ
  exact hsh.pledge_pos (h0 _ (List.mem_of_getElem? (hg.person ha))) hΦ (List.mem_map.2 ⟨(pid, r), Dict.mem_of_get? ho, rfl⟩)

theorem Balanced.pledge_le {p : Pool K} (h : Balanced p) : p.pledge ≤ p.stake := by
  rw [h.stake]
  have := Dict.total_nonneg (fun e he => (pos_of_minUnit (h.min e he)).le)
  linarith

/-! ### Utilities -/

/-- what an operator gets from a pool -/
def opVal (rs : RS K) (p : Pool K) : K := operatorReward p.margin p.cost (rs.reward p.pledge p.stake) (p.pledge / p.stake)

/-- what a delegation of `x` gets from a pool -/
def delVal (rs : RS K) (p : Pool K) (x : K) : K := delegatorReward p.margin p.cost (rs.reward p.pledge p.stake) (x / p.stake)

theorem operatorUtility_val {rs : RS K} {st pl m c : K} (h : st ≠ 0) :
    operatorUtility rs st pl m c = .ok (operatorReward m c (rs.reward pl st) (pl / st)) := by
  simp [operatorUtility, pyDiv, h, bind, Except.bind, pure, Except.pure]

theorem delegatorUtility_val {rs : RS K} {x st pl m c : K} (h : st ≠ 0) :
    delegatorUtility rs x st pl m c = .ok (delegatorReward m c (rs.reward pl st) (x / st)) := by
  simp [delegatorUtility, pyDiv, h, bind, Except.bind, pure, Except.pure]

theorem accM_ok {α : Type} {f : α → Py K} {g : α → K} : ∀ (l : List α) (u : K), (∀ x ∈ l, f x = .ok (g x)) → accM f l u = .ok (u + (l.map g).sum)
  | [], u, _ => by simp [accM]
  | x :: t, u, h => by
    unfold accM
    rw [h x List.mem_cons_self]
    change accM f t (u + g x) = _
    rw [accM_ok t _ (fun y hy => h y (List.mem_cons_of_mem _ hy))]
    simp [add_assoc]

theorem mapM_ok {α β : Type} {f : α → Py β} {g : α → β} : ∀ (l : List α), (∀ x ∈ l, f x = .ok (g x)) → l.mapM f = .ok (l.map g)
  | [], _ => rfl
  | x :: t, h => by
    rw [List.mapM_cons, h x List.mem_cons_self, mapM_ok t (fun y hy => h y (List.mem_cons_of_mem _ hy))]
    rfl

/-- the pool listed under an id -/
def poolAt (s : State K) (pid : Nat) : Pool K := s.heap ((s.pools.get? pid).getD 0)

theorem currentUtility_ok {s : State K} {σ : Strategy K} (h1 : ∀ r ∈ σ.owned.vals, (s.heap r).stake ≠ 0)
    (h2 : ∀ e ∈ σ.allocs, ∃ r, s.pools.get? e.1 = some r ∧ (s.heap r).stake ≠ 0) :
    currentUtility s σ = .ok ((σ.owned.map (fun e => opVal s.rs (s.heap e.2))).sum + (σ.allocs.map (fun e => delVal s.rs (poolAt s e.1) e.2)).sum) := by
  unfold currentUtility
  rw [accM_ok (g := fun r => opVal s.rs (s.heap r)) _ _ (fun r hr => operatorUtility_val (h1 r hr))]
  change accM _ σ.allocs _ = _
  rw [accM_ok (g := fun e => delVal s.rs (poolAt s e.1) e.2)]
  · simp [Dict.vals, Function.comp_def]
  · intro e he
    obtain ⟨r, hr, hs⟩ := h2 e he
    rw [Dict.getE_of hr]
    change delegatorUtility s.rs e.2 (s.heap r).stake (s.heap r).pledge (s.heap r).margin (s.heap r).cost = _
    rw [delegatorUtility_val hs]
    unfold delVal poolAt
    rw [hr]; rfl

/-- the profit of a pool is split completely -/
theorem split_complete {rs : RS K} {p : Pool K} (hb : Balanced p) (hm : p.margin ≤ 1) (hp : 0 < p.stake) :
    opVal rs p + (p.delegators.map (fun d => delVal rs p d.2)).sum = rs.reward p.pledge p.stake - p.cost := by
  have hsum : p.pledge + (p.delegators.map Prod.snd).sum = p.stake := hb.stake.symm
  obtain ⟨uo, uds, h1, h2, -, h3, -⟩ := Props.C04_budget_balance rs p.pledge p.margin p.cost (p.delegators.map Prod.snd) hm
    (by intro d hd; obtain ⟨e, he, rfl⟩ := List.mem_map.1 hd; exact (pos_of_minUnit (hb.min e he)).le) (by rw [hsum]; exact hp)
  rw [hsum] at h1 h2 h3
  rw [operatorUtility_val hp.ne'] at h1
  cases h1
  rw [mapM_ok (g := fun d => delVal rs p d) _ (fun d _ => delegatorUtility_val hp.ne')] at h2
  cases h2
  rw [← h3]
  simp [opVal, List.map_map, Function.comp_def]

end RSE
