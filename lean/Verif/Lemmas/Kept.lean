import Verif.Lemmas.Ready
import Verif.Lemmas.PlanOk

/-!
# Planning twice

`determine_stake_allocations` (stakeholder.py:251-303) takes the planning agent's delegations out of the pools and puts them back according to the
agent's strategy, provided there is a pool to delegate to.  So after an agent has planned, the pools record what it says, and planning again does
not change the records any more.
-/

set_option linter.unusedSectionVars false

namespace RSE

section
variable {F : Type} [LinearOrder F] [Zero F] [One F] [Add F] [Sub F] [Mul F] [Div F] [Neg F] [NatCast F] [FSum F]

theorem mem_eligible {n : Nat} {s : State F} (h : Core n s) {me : Agent F} {r : Ref} (hr : Eligible s me.id r) : r ∈ eligiblePools s me := by
  unfold eligiblePools
  refine List.mem_filterMap.2 ⟨some r, ?_, ?_⟩
  · unfold rankingsOf
    split
    · exact List.mem_map.2 ⟨_, h.mem_rank hr.1, rfl⟩
    · exact List.mem_map.2 ⟨_, h.mem_rankM hr.1, rfl⟩
  · simp [hr.2.1, hr.2.2]

theorem eligible_nil {n : Nat} {s : State F} (h : Core n s) {me : Agent F} (hno : ∀ r, ¬ Eligible s me.id r) : eligiblePools s me = [] := by
  apply List.eq_nil_iff_forall_not_mem.2
  intro r hr
  exact hno r (eligible_of_mem h hr)

/-- without a pool to delegate to, nothing is touched -/
theorem findDelegationMove_still {n : Nat} {s s' : State F} (h : Core n s) {me : Agent F} (hno : ∀ r, ¬ Eligible s me.id r) {σ δ : Strategy F} {stake : F}
    (he : findDelegationMove s me σ stake = .ok (s', δ)) : s' = s := by
  unfold findDelegationMove at he
  split at he
  · cases he; rfl
  · obtain ⟨⟨s₁, d⟩, h1, h2⟩ := bind_ok he
    cases h2
    unfold determineStakeAllocations at h1
    simp only [eligible_nil h hno, List.length_nil, if_true] at h1
    cases h1; rfl

/-- with a pool to delegate to, the agent's delegations are recorded as its strategy has them -/
theorem findDelegationMove_records {n : Nat} {s s' : State F} (h : Core n s) {me : Agent F} {r₀ : Ref} (hr₀ : Eligible s me.id r₀) {σ δ : Strategy F}
    (hσ : σ.allocs.keys.Nodup) {stake : F} (hst : minUnit ≤ stake) (he : findDelegationMove s me σ stake = .ok (s', δ)) {pid : Nat} {x : F}
    (hx : σ.allocs.get? pid = some x) {r : Ref} (hp : s.pools.get? pid = some r) : (s'.heap r).delegators.get? me.id = recorded x := by
  unfold findDelegationMove at he
  rw [if_neg (not_lt.2 hst)] at he
  obtain ⟨⟨s₁, d⟩, h1, h2⟩ := bind_ok he
  cases h2
  unfold determineStakeAllocations at h1
  have hne : ¬ (eligiblePools s me).length = 0 := by
    intro hl
    have := mem_eligible h hr₀
    rw [List.length_eq_zero_iff.1 hl] at this
    cases this
  simp only [if_neg hne] at h1
  obtain ⟨sa, g1, h1⟩ := bind_ok h1
  obtain ⟨sb, g2, h1⟩ := bind_ok h1
  cases h1
  have hk : Dict.keys (σ.allocs.map (fun e => (e.1, (0 : F)))) = σ.allocs.keys := Dict.keys_map_snd σ.allocs (fun _ _ => (0 : F))
  obtain ⟨ca, sha, -⟩ := (setDelegations_spec me.id (σ.allocs.map (fun e => (e.1, (0 : F)))) s h (by rw [hk]; exact hσ)).of_ok g1
  obtain ⟨cb, shb, hb⟩ := (setDelegations_spec me.id σ.allocs sa ca hσ).of_ok g2
  have := hb pid r (by rw [sha.pools]; exact hp)
  rw [this, hx]

theorem findOperatorMove_still {n : Nat} {s₁ s s' : State F} (h : Core n s) {me : Agent F} {σ τ : Strategy F}
    (hp : Planned me.id [] s₁ s) (hh : ∀ r < s₁.next, s.heap r = s₁.heap r) (hpr : ∀ pid r, s₁.pools.get? pid = some r → r < s₁.next)
    {k : Nat} {owned : Dict Ref} (hnd : owned.keys.Nodup) (hvd : owned.vals.Nodup) (hlen : owned.length ≤ k) (hids : ∀ i ∈ owned.keys, i ≤ s.idSeq)
    (hcp : ∀ e ∈ owned, s₁.next ≤ e.2) {margins : List F} (hml : margins.length = k) (hno : ∀ r, ¬ Eligible s₁ me.id r)
    (he : findOperatorMove s me σ k owned margins = .ok (s', τ)) : ∀ r < s₁.next, s'.heap r = s₁.heap r := by
  unfold findOperatorMove at he
  obtain ⟨q, hq, he⟩ := bind_ok he
  obtain ⟨c, hc, he⟩ := bind_ok he
  obtain ⟨s2, e2, he⟩ := bind_ok he
  obtain ⟨⟨s3, owned3⟩, e3, he⟩ := bind_ok he
  obtain ⟨s2', e2', c2, p2, i2, n2, f2, d2⟩ := reworkPools_spec me q c margins owned 0 s₁ s h hp hcp
    (by rw [hp.pools]; exact hpr) hvd (by omega)
  rw [e2] at e2'; cases e2'
  obtain ⟨s3', new, e3', c3, p3, n3, i3, nd3, l3, f3, d3⟩ := draftPools_spec me q c margins (k - owned.length) owned.length s₁ s2 owned c2 p2
    (by rw [i2]; exact hids) hnd (by omega)
  rw [e3] at e3'; cases e3'
  have hnext : s₁.next ≤ s.next := hp.next_le
  have hold : ∀ r < s₁.next, s3.heap r = s₁.heap r := by
    intro r hr
    rw [f3 r (by omega), f2 r (fun e he hre => by have := hcp e he; omega), hh r hr]
  have hno3 : ∀ r, ¬ Eligible s3 me.id r := by
    rintro r ⟨h1, h2, h3⟩
    have hr : r < s₁.next := hpr _ _ (by rw [p3.pools] at h1; exact h1)
    rw [p3.pools] at h1
    rw [hold r hr] at h1 h2 h3
    exact hno r ⟨h1, h2, h3⟩
  dsimp only at he
  split at he
  · obtain ⟨⟨s4, d⟩, e4, he⟩ := bind_ok he
    cases he
    rw [findDelegationMove_still c3 hno3 e4]
    exact hold
  · cases he
    exact hold

theorem choosePoolStrategy_still {n : Nat} {s s' : State F} (h : Core n s) {ord : List Nat → List Nat} (hord : ∀ l, (ord l).Perm l) {me : Agent F}
    {σ τ : Strategy F} {u : F} (hnd : σ.owned.keys.Nodup) (hown : ∀ pid r, σ.owned.get? pid = some r → s.pools.get? pid = some r)
    (hno : ∀ r, ¬ Eligible s me.id r) (he : choosePoolStrategy ord s me σ = .ok (s', u, τ)) : ∀ r < s.next, s'.heap r = s.heap r := by
  obtain ⟨k, margins, s₁, copies, hch⟩ := choosePoolStrategy_ok he
  obtain ⟨s2, d, e2, c2, p2, i2, f2, kd2, vd2, l2, sub2, cp2⟩ := determinePoolsToKeep_spec h hord me.id [] hnd
    (fun pid r hg => (h.poolRef _ _ (hown _ _ hg)).1) k
  rw [hch.keep] at e2; cases e2
  have hml : margins.length = k := by
    have hk : s.rs.k ≠ 0 := by
      intro hk
      have hs := hch.search
      have he : marginsAndUtility s me σ 0 = .error .zeroDiv := rfl
      rw [hk] at hs
      simp [searchPools, he, bind, Except.bind] at hs
    have := (searchPools_sat (E := fun _ => True) (s.rs.k + 1) 1 s.rs.k (fun t _ _ => (marginsAndUtility_sat s me σ t).mono (fun _ _ => trivial) (fun _ _ => trivial))
      (by omega) (by omega)).of_ok hch.search
    obtain ⟨-, -, u', hu⟩ := this
    exact ((marginsAndUtility_sat s me σ k).of_ok hu).2
  refine findOperatorMove_still c2 p2 f2 (fun pid r hp => (h.poolRef _ _ hp).1) kd2 vd2 (by omega) ?_ (fun e he => (cp2 e he).1) hml hno hch.find
  intro i hi
  obtain ⟨r, hr⟩ := Dict.mem_keys_iff.1 (sub2 i hi)
  rw [i2]
  exact (h.poolRef _ _ (hown _ _ hr)).2.2.2

/-- without a pool to delegate to, planning touches no pool object -/
theorem planMove_still {n : Nat} {s s' : State F} (h : Core n s) {ord : List Nat → List Nat} (hord : ∀ l, (ord l).Perm l) {me : Agent F}
    {σ : Strategy F} {oν : Option (Strategy F)} (hnd : σ.owned.keys.Nodup) (hown : ∀ pid r, σ.owned.get? pid = some r → s.pools.get? pid = some r)
    (hno : ∀ r, ¬ Eligible s me.id r) (he : planMove ord s me σ = .ok (s', oν)) : ∀ r < s.next, s'.heap r = s.heap r := by
  obtain ⟨cur, exp, s₁, δ, du, ou, ω, hpl⟩ := planMove_ok he
  have h1 := findDelegationMove_still h hno hpl.delegate
  subst h1
  exact choosePoolStrategy_still h hord hnd hown hno hpl.operate

/-- with a pool to delegate to, the delegations of an agent that has planned are recorded -/
theorem planMove_records {n : Nat} {s s' : State F} (h : Core n s) {ord : List Nat → List Nat} (hord : ∀ l, (ord l).Perm l) {me : Agent F}
    {σ : Strategy F} {oν : Option (Strategy F)} (hσ : σ.allocs.keys.Nodup) (hnd : σ.owned.keys.Nodup)
    (hown : ∀ pid r, σ.owned.get? pid = some r → s.pools.get? pid = some r) {r₀ : Ref} (hr₀ : Eligible s me.id r₀) (hst : minUnit ≤ me.stake)
    (he : planMove ord s me σ = .ok (s', oν)) {pid : Nat} {x : F} (hx : σ.allocs.get? pid = some x) {r : Ref} (hp : s.pools.get? pid = some r) :
    (s'.heap r).delegators.get? me.id = recorded x := by
  obtain ⟨cur, exp, s₁, δ, du, ou, ω, hpl⟩ := planMove_ok he
  have h1 := findDelegationMove_records h hr₀ hσ hst hpl.delegate hx hp
  obtain ⟨c1, sh1, -⟩ := (findDelegationMove_spec h me σ hσ me.stake).of_ok hpl.delegate
  simp only at c1 sh1
  obtain ⟨-, -, r2, -⟩ := (choosePoolStrategy_spec c1 hord me hσ hnd (by rw [sh1.pools]; exact hown)).of_ok hpl.operate
  rcases r2 pid r (by rw [sh1.pools]; exact hp) with g | g
  · rw [g]; exact h1
  · rw [g, hx]

end

end RSE
