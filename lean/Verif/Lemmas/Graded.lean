import Verif.Lemmas.Terms

/-!
# Predicates on pool objects that may deteriorate step by step

`P n p` is a predicate that gets weaker as `n` grows.  Withdrawing a delegation costs nothing; every other change of a pool's stake costs one unit.  A turn
of an agent then costs at most four units, a delayed move one, and nothing else costs anything.
-/

set_option linter.unusedSectionVars false

namespace RSE

variable {F : Type} [LinearOrder F] [Zero F] [One F] [Add F] [Sub F] [Mul F] [Div F] [Neg F] [NatCast F] [FSum F]

/-- what the agent with number `a` may delegate to a pool -/
def Amount (c : Config F) (a : Nat) (x : F) : Prop := ∃ e, c.people[a]? = some e ∧ minUnit ≤ x ∧ x ≤ e.1

/-- what somebody may pledge -/
def PledgeOK (c : Config F) (q : F) : Prop := 0 ≤ q ∧ ∃ (a : Nat) (e : F × F × Profile), c.people[a]? = some e ∧ q ≤ e.1

/-- a predicate that may deteriorate -/
structure Graded (c : Config F) (P : Nat → Pool F → Prop) : Prop where
  mono : ∀ n m p, n ≤ m → P n p → P m p
  zero : ∀ n p a, P n p → P n (p.updateDelegation 0 a)
  place : ∀ n p x a, Amount c a x → P n p → P (n + 1) (p.updateDelegation x a)
  rework : ∀ n rs q co p m, PledgeOK c q → P n p → P (n + 1) ((reworkPool rs q co p).setMargin m)
  fresh : ∀ rs q co a pid m, PledgeOK c q → P 0 (freshPool rs q co a pid m)
  blank : P 0 (blankPool c.people.length)
  reeval : ∀ n rs p, P n p → P n (p.reeval rs)

/-- different pools are different objects -/
def PoolsInj (s : State F) : Prop := ∀ pid pid' r, s.pools.get? pid = some r → s.pools.get? pid' = some r → pid = pid'

theorem Core.poolsInj {n : Nat} {s : State F} (h : Core n s) : PoolsInj s := fun pid pid' r h1 h2 => by
  rw [← (h.poolRef pid r h1).2.1, ← (h.poolRef pid' r h2).2.1]

theorem AllPools.grade {c : Config F} {P : Nat → Pool F → Prop} (hg : Graded c P) {n m : Nat} (hnm : n ≤ m) {s : State F} (h : AllPools (P n) s) :
    AllPools (P m) s := fun r => hg.mono n m _ hnm (h r)

/-! ### Planning -/

theorem setDelegations_zero {Q : Pool F → Prop} (hz : ZeroOK Q) (a : Nat) : ∀ (l : List Nat) {s : State F}, AllPools Q s →
    Sat AnyErr (setDelegations s a (l.map (fun i => (i, (0 : F))))) (fun s' => AllPools Q s' ∧ s'.rs = s.rs ∧ s'.pools = s.pools)
  | [], s, h => ⟨h, rfl, rfl⟩
  | pid :: t, s, h => by
    simp only [List.map_cons, setDelegations, setDelegation]
    refine Sat.bind (P := fun s' => AllPools Q s' ∧ s'.rs = s.rs ∧ s'.pools = s.pools) ?_ (fun s₁ h₁ => ?_)
    · refine Sat.bind (P := fun _ => True) (Sat.any fun _ _ => trivial) (fun r _ => ?_)
      refine Sat.bind (P := fun _ => True) (Sat.any fun _ _ => trivial) (fun l _ => ?_)
      exact ⟨AllPools.update h (hz _ _ (h r)), rfl, rfl⟩
    · refine (setDelegations_zero hz a t h₁.1).imp ?_
      rintro s' ⟨k1, k2, k3⟩
      exact ⟨k1, k2.trans h₁.2.1, k3.trans h₁.2.2⟩

theorem setDelegations_place {c : Config F} {P : Nat → Pool F → Prop} (hg : Graded c P) (n a : Nat) : ∀ (l : Dict F) {s : State F}, PoolsInj s →
    l.keys.Nodup → (∀ e ∈ l, Amount c a e.2) → AllPools (P (n + 1)) s → (∀ pid ∈ l.keys, ∀ r, s.pools.get? pid = some r → P n (s.heap r)) →
    Sat AnyErr (setDelegations s a l) (fun s' => AllPools (P (n + 1)) s' ∧ s'.rs = s.rs ∧ s'.pools = s.pools)
  | [], s, _, _, _, h, _ => ⟨h, rfl, rfl⟩
  | (pid, x) :: t, s, hi, hnd, hA, h, hn => by
    simp only [Dict.keys, List.map_cons, List.nodup_cons] at hnd
    simp only [setDelegations, setDelegation]
    refine Sat.bind (P := fun s' => (AllPools (P (n + 1)) s' ∧ s'.rs = s.rs ∧ s'.pools = s.pools) ∧
        ∀ pid' ∈ Dict.keys t, ∀ r, s.pools.get? pid' = some r → P n (s'.heap r)) ?_ (fun s₁ h₁ => ?_)
    · refine Sat.bind (P := fun r => s.pools.get? pid = some r) ?_ (fun r hr => ?_)
      · unfold Dict.getE
        cases hp : s.pools.get? pid with
        | none => trivial
        | some r => rfl
      refine Sat.bind (P := fun _ => True) (Sat.any fun _ _ => trivial) (fun l _ => ?_)
      refine ⟨⟨AllPools.update h (hg.place _ _ _ _ (hA _ List.mem_cons_self) (hn pid (by simp [Dict.keys]) r hr)), rfl, rfl⟩, ?_⟩
      intro pid' hpid' r' hr'
      have hne : r' ≠ r := by
        rintro rfl
        have := hi _ _ _ hr hr'
        subst this
        exact hnd.1 hpid'
      change P n (Function.update s.heap r _ r')
      rw [Function.update_of_ne hne]
      exact hn pid' (List.mem_cons_of_mem _ hpid') r' hr'
    · obtain ⟨⟨k1, k2, k3⟩, k4⟩ := h₁
      refine (setDelegations_place hg n a t (s := s₁) (by unfold PoolsInj; rw [k3]; exact hi) hnd.2 (fun e he => hA e (List.mem_cons_of_mem _ he)) k1
        (by rw [k3]; exact k4)).imp ?_
      rintro s' ⟨j1, j2, j3⟩
      exact ⟨j1, j2.trans k2, j3.trans k3⟩

theorem Graded.zeroOK {c : Config F} {P : Nat → Pool F → Prop} (hg : Graded c P) (n : Nat) : ZeroOK (P n) := fun p a h => hg.zero n p a h

theorem findDelegationMove_graded {c : Config F} {P : Nat → Pool F → Prop} (hg : Graded c P) {n : Nat} {s : State F} (hi : PoolsInj s)
    (h : AllPools (P n) s) (me : Agent F) {σ : Strategy F} (hnd : σ.allocs.keys.Nodup) (hσ : ∀ e ∈ σ.allocs, Amount c me.id e.2) (stake : F) :
    Sat AnyErr (findDelegationMove s me σ stake) (fun res => AllPools (P (n + 1)) res.1 ∧ res.1.rs = s.rs ∧ res.1.pools = s.pools) := by
  have h1 := h.grade hg (Nat.le_succ n)
  unfold findDelegationMove
  split
  · exact ⟨h1, rfl, rfl⟩
  · refine Sat.bind (P := fun res => AllPools (P (n + 1)) res.1 ∧ res.1.rs = s.rs ∧ res.1.pools = s.pools) ?_ (fun res hres => by
      obtain ⟨s', al⟩ := res
      exact hres)
    unfold determineStakeAllocations
    simp only
    split
    · exact ⟨h1, rfl, rfl⟩
    · have e : (σ.allocs.map (fun e => (e.1, (0 : F)))) = σ.allocs.keys.map (fun i => (i, (0 : F))) := by
        simp [Dict.keys, Function.comp_def]
      rw [e]
      refine Sat.bind (setDelegations_zero (hg.zeroOK n) me.id _ h) ?_
      rintro s₁ ⟨k1, k2, k3⟩
      refine Sat.bind (setDelegations_place hg n me.id σ.allocs (by unfold PoolsInj; rw [k3]; exact hi) hnd hσ (k1.grade hg (Nat.le_succ n))
        (fun _ _ r _ => k1 r)) ?_
      rintro s₂ ⟨j1, j2, j3⟩
      exact ⟨j1, j2.trans k2, j3.trans k3⟩

theorem copyPools_pools : ∀ (l : List (Nat × Ref)) (s : State F), (copyPools s l).1.pools = s.pools
  | [], s => rfl
  | (pid, r) :: t, s => by
    simp only [copyPools]
    exact copyPools_pools t _

theorem reworkPools_graded {c : Config F} {P : Nat → Pool F → Prop} (hg : Graded c P) (n : Nat) (me : Agent F) {q co : F} {margins : List F}
    (hq : PledgeOK c q) : ∀ (l : List (Nat × Ref)) (i : Nat) {s : State F}, (l.map Prod.snd).Nodup → AllPools (P (n + 1)) s →
    (∀ r ∈ l.map Prod.snd, P n (s.heap r)) →
    Sat AnyErr (reworkPools me q co margins s i l) (fun s' => AllPools (P (n + 1)) s' ∧ s'.rs = s.rs ∧ s'.pools = s.pools)
  | [], i, s, _, h, _ => ⟨h, rfl, rfl⟩
  | (pid, r) :: t, i, s, hnd, h, hn => by
    simp only [List.map_cons, List.nodup_cons] at hnd
    simp only [reworkPools]
    refine Sat.bind (P := fun _ => True) (Sat.any fun _ _ => trivial) (fun m _ => ?_)
    refine (reworkPools_graded hg n me hq t (i + 1) (s := s.setPool r _) hnd.2 (h.setPool r (hg.rework n _ _ _ _ _ hq (hn r List.mem_cons_self))) ?_).imp
      (fun s' h' => ⟨h'.1, h'.2.1, h'.2.2⟩)
    intro r' hr'
    have hne : r' ≠ r := fun he => hnd.1 (he ▸ hr')
    change P n (Function.update s.heap r _ r')
    rw [Function.update_of_ne hne]
    exact hn r' (List.mem_cons_of_mem _ hr')

theorem draftPools_graded {c : Config F} {P : Nat → Pool F → Prop} (hg : Graded c P) (n : Nat) (me : Agent F) {q co : F} {margins : List F}
    (hq : PledgeOK c q) : ∀ (cnt i : Nat) {s : State F} (owned : Dict Ref), AllPools (P n) s →
    Sat AnyErr (draftPools me q co margins cnt s i owned) (fun res => AllPools (P n) res.1 ∧ res.1.rs = s.rs ∧ res.1.pools = s.pools)
  | 0, i, s, owned, h => ⟨h, rfl, rfl⟩
  | cnt + 1, i, s, owned, h => by
    simp only [draftPools]
    refine Sat.bind (P := fun _ => True) (Sat.any fun _ _ => trivial) (fun m _ => ?_)
    exact draftPools_graded hg n me hq cnt (i + 1) _ (AllPools.alloc (s := { s with idSeq := s.idSeq + 1 }) h
      (hg.mono 0 n _ (Nat.zero_le _) (hg.fresh s.rs q co me.id (s.idSeq + 1) m hq)))

theorem findOperatorMove_graded {c : Config F} {P : Nat → Pool F → Prop} (hg : Graded c P) {n : Nat} {s : State F} (hi : PoolsInj s)
    (h : AllPools (P n) s) (me : Agent F) {σ : Strategy F} (hnd : σ.allocs.keys.Nodup) (hσ : ∀ e ∈ σ.allocs, Amount c me.id e.2)
    (k : Nat) {d : Dict Ref} (hd : d.vals.Nodup) (margins : List F) (hq : ∀ q, pledgePerPool me.stake s.rs.beta k = .ok q → PledgeOK c q) :
    Sat AnyErr (findOperatorMove s me σ k d margins) (fun res => AllPools (P (n + 2)) res.1) := by
  unfold findOperatorMove
  refine Sat.bind (P := fun q => PledgeOK c q) (Sat.any hq) (fun q hq => ?_)
  refine Sat.bind (P := fun _ => True) (Sat.any fun _ _ => trivial) (fun co _ => ?_)
  refine Sat.bind (reworkPools_graded hg n me hq d 0 hd (h.grade hg (Nat.le_succ n)) (fun r _ => h r)) ?_
  rintro s3 ⟨h3, r3, p3⟩
  refine Sat.bind (draftPools_graded hg (n + 1) me hq (k - d.length) d.length d h3) ?_
  rintro ⟨s4, owned⟩ ⟨h4, r4, p4⟩
  simp only at h4 r4 p4 ⊢
  split
  · exact Sat.bind (findDelegationMove_graded hg (by unfold PoolsInj; rw [p4, p3]; exact hi) h4 me hnd hσ _) (fun res h5 => h5.1)
  · exact h4.grade hg (Nat.le_succ _)

theorem choosePoolStrategy_graded {c : Config F} {P : Nat → Pool F → Prop} (hg : Graded c P) {n N : Nat} {s : State F} (hc : Core N s)
    (h : AllPools (P n) s) {ord : List Nat → List Nat} (hord : ∀ l, (ord l).Perm l) (me : Agent F) {σ : Strategy F}
    (hnd : σ.owned.keys.Nodup) (hown : ∀ pid r, σ.owned.get? pid = some r → s.pools.get? pid = some r) (ha : σ.allocs.keys.Nodup)
    (hσ : ∀ e ∈ σ.allocs, Amount c me.id e.2) (hq : ∀ k q, pledgePerPool me.stake s.rs.beta k = .ok q → PledgeOK c q) :
    Sat AnyErr (choosePoolStrategy ord s me σ) (fun res => AllPools (P (n + 2)) res.1) := by
  unfold choosePoolStrategy
  refine Sat.bind (P := fun _ => True) (Sat.any fun _ _ => trivial) ?_
  rintro ⟨k, margins⟩ -
  simp only
  obtain ⟨s2, d, e2, c2, p2, i2, f2, kd2, vd2, l2, sub2, cp2⟩ := determinePoolsToKeep_spec hc hord me.id σ.allocs.keys hnd
    (fun pid r hg => (hc.poolRef _ _ (hown _ _ hg)).1) k
  have hall2 := determinePoolsToKeep_all h ord σ k
  rw [e2] at hall2
  rw [e2]
  refine Sat.bind (P := fun p => p = (s2, d)) rfl ?_
  rintro _ rfl
  simp only
  refine Sat.bind (findOperatorMove_graded hg c2.poolsInj hall2.1 me ha hσ k vd2 margins (by rw [p2.rs]; exact hq k)) (fun res hres =>
    Sat.bind (P := fun _ => True) (Sat.any fun _ _ => trivial) (fun _ _ => by
      obtain ⟨s', al⟩ := res
      exact hres))

theorem planMove_graded {c : Config F} {P : Nat → Pool F → Prop} (hg : Graded c P) {n N : Nat} {s : State F} (hc : Core N s)
    (h : AllPools (P n) s) {ord : List Nat → List Nat} (hord : ∀ l, (ord l).Perm l) (me : Agent F) {σ : Strategy F}
    (hnd : σ.owned.keys.Nodup) (hown : ∀ pid r, σ.owned.get? pid = some r → s.pools.get? pid = some r) (ha : σ.allocs.keys.Nodup)
    (hσ : ∀ e ∈ σ.allocs, Amount c me.id e.2) (hq : ∀ k q, pledgePerPool me.stake s.rs.beta k = .ok q → PledgeOK c q) :
    Sat AnyErr (planMove ord s me σ) (fun res => AllPools (P (n + 3)) res.1) := by
  unfold planMove
  refine Sat.bind (P := fun _ => True) (Sat.any fun _ _ => trivial) (fun cur _ => ?_)
  refine Sat.bind (P := fun _ => True) (Sat.any fun _ _ => trivial) (fun exp _ => ?_)
  refine Sat.bind (((findDelegationMove_spec hc me σ ha me.stake).and (findDelegationMove_graded hg hc.poolsInj h me ha hσ me.stake)).mono
    (fun _ _ => trivial) (fun _ h => h)) ?_
  rintro ⟨s₁, δ⟩ ⟨⟨c1, sh1, r1, g1, o1⟩, a1, rs1, ps1⟩
  simp only at c1 sh1 r1 g1 o1 a1 rs1 ps1
  refine Sat.bind (P := fun _ => True) (Sat.any fun _ _ => trivial) (fun du _ => ?_)
  refine Sat.bind (choosePoolStrategy_graded hg c1 a1 hord me hnd (by rw [ps1]; exact hown) ha hσ (by rw [rs1]; exact hq)) ?_
  rintro ⟨s', ou, ω⟩ h2
  exact h2

/-! ### Executing -/

theorem executeStrategy_graded {c : Config F} {P : Nat → Pool F → Prop} (hg : Graded c P) {n : Nat} {s : State F} (hi : PoolsInj s)
    (h : AllPools (P n) s) (ord : List Nat → List Nat) {aid : Nat} {me : Agent F}
    (ha : s.agents.get? aid = some me) (hnd : ∀ ν, me.newStrategy = some ν → ν.allocs.keys.Nodup)
    (hν : ∀ ν, me.newStrategy = some ν → ∀ e ∈ ν.allocs, Amount c aid e.2) :
    Sat AnyErr (executeStrategy ord s aid) (AllPools (P (n + 1))) := by
  unfold executeStrategy
  rw [Dict.getE_of ha]
  refine Sat.bind (P := fun p => p = me) rfl (fun me' hme => ?_)
  subst hme
  cases hs : me'.strategy with
  | none => trivial
  | some σ =>
    cases hn : me'.newStrategy with
    | none => trivial
    | some ν =>
      simp only
      have hz := hg.zeroOK (n + 1)
      refine Sat.bind (setDelegations_zero (hg.zeroOK n) aid _ h) ?_
      rintro s₁ ⟨k1, k2, k3⟩
      refine Sat.bind (setDelegations_place hg n aid ν.allocs (by unfold PoolsInj; rw [k3]; exact hi) (hnd ν hn) (hν ν hn) (k1.grade hg (Nat.le_succ n))
        (fun _ _ r _ => k1 r)) ?_
      rintro s₂ ⟨h₂, -, -⟩
      refine Sat.bind (iterM_all (Q := AllPools (P (n + 1))) (fun s pid hs => closePool_all hz pid hs) _ h₂) (fun s₃ h₃ => ?_)
      refine Sat.bind (iterM_all (Q := AllPools (P (n + 1))) (fun s pid hs => updatePool_all hz aid pid hs) _ h₃) (fun s₄ h₄ => ?_)
      refine Sat.bind (P := fun _ => True) (Sat.any fun _ _ => trivial) (fun me' _ => ?_)
      exact iterM_all (Q := AllPools (P (n + 1))) (fun s pid hs => openPool_all aid pid hs) _ (s := s₄.setAgent _) h₄

/-! ### Simulating -/

/-- how many units an event costs -/
def Event.cost : Event F → Nat
  | .step _ _ => 4
  | .advance _ _ => 1
  | _ => 0

section
variable [RoundedArith F]

theorem amounts_of_terms {c : Config F} {s : State F} (hg : Good c s) (hm : AllocsMin s) {Φ : RS F → F → Prop} (ht : AllTerms Φ False True s)
    {b : Nat} {ag : Agent F} (ha : s.agents.get? b = some ag) :
    (∀ σ, ag.strategy = some σ → ∀ e ∈ σ.allocs, Amount c b e.2) ∧ (∀ ν, ag.newStrategy = some ν → ∀ e ∈ ν.allocs, Amount c b e.2) := by
  refine ⟨fun σ hσ e he => ?_, fun ν hν e he => ?_⟩
  · obtain ⟨rs, f, -, h⟩ := (ht b ag ha).strategy σ hσ
    exact ⟨_, hg.person ha, (hm b ag ha).1 σ hσ e he, h.le trivial e he⟩
  · obtain ⟨rs, f, -, h⟩ := (ht b ag ha).staged ν hν
    exact ⟨_, hg.person ha, (hm b ag ha).2 ν hν e he, h.le trivial e he⟩

theorem exec_graded {c : Config F} {P : Nat → Pool F → Prop} (hgr : Graded c P) (h0 : ∀ e ∈ c.people, 0 ≤ e.1) (hb : 0 ≤ c.rs.beta) {n : Nat}
    {s s' : State F} (hr : Reachable c s) (h : AllPools (P n) s) {ev : Event F} (hv : ev.Valid c.people.length) (he : exec s ev = .ok s') :
    AllPools (P (n + ev.cost)) s' := by
  have hmin := RoundedArith.minUnit_pos (F := F)
  have hg := hr.good hmin
  have hm := hr.allocsMin hmin
  obtain ⟨hbeta, ht⟩ := hr.terms h0 hb
  have hd := ((hg.exec hmin hv).of_ok he).1
  have hplan : ∀ me ord ag σ oν s₁, (∀ l, (ord l).Perm l) → s.agents.get? me = some ag → ag.strategy = some σ →
      planMove ord s ag σ = .ok (s₁, oν) → AllPools (P (n + 3)) s₁ := by
    intro me ord ag σ oν s₁ hord ha hσ hpm
    have hid : ag.id = me := hg.inv.core.agentId me ag ha
    have htd := hg.inv.tidy me ag ha
    refine (planMove_graded hgr hg.inv.core h hord ag (htd.owned _ hσ) (fun pid r hr => (hg.inv.owned ha hσ hr).1) (htd.allocs _ hσ) ?_ ?_).of_ok hpm
    · rw [hid]; exact (amounts_of_terms hg hm ht ha).1 σ hσ
    · intro k q hq
      have hs := hg.stake_ge h0 ha
      refine ⟨pledge_nonneg hq hs hbeta, me, _, hg.person ha, ?_⟩
      unfold pledgePerPool at hq
      split at hq
      · cases hq
      · rename_i hk
        cases hq
        exact (min_le_left _ _).trans (RoundedArith.div_le hs (RoundedArith.one_le_cast hk))
  cases hd with
  | idle me ord => exact h.grade hgr (Nat.le_add_right _ _)
  | plan me ord ag σ oν s₁ s' ha hpr hσ hpm hpl =>
    rw [hpl.eq]
    have h3 : AllPools (P (n + 4)) s₁ := (hplan me ord ag σ oν s₁ hv.2 ha hσ hpm).grade hgr (by omega)
    exact h3
  | move me ord ag σ ν s₁ s₂ s₃ ha hpr hσ hpm hpl hsim htr hex hd =>
    have hid : ag.id = me := hg.inv.core.agentId me ag ha
    have h2 : AllPools (P (n + 3)) s₂ := by rw [hpl.eq]; exact hplan me ord ag σ _ s₁ hv.2 ha hσ hpm
    have ha2 : s₂.agents.get? me = some { ag with newStrategy := some ν } := by
      rw [hpl.eq, get?_setAgent (me := me) (ag := { ag with newStrategy := some ν }) hid me, if_pos rfl]
    have hm2 := hpl.allocsMin hid ha hm
    have ht2 := stepPlan_terms hpl hg.inv ha hσ hv.2 hpm hbeta (fun _ => ⟨inferInstance, hg.stake_ge h0 ha, hbeta⟩) ht
    have h3 : AllPools (P (n + 4)) s₃ := (executeStrategy_graded hgr hpl.inv.core.poolsInj h2 ord ha2 (fun ν' hν' => (hpl.inv.tidy me _ ha2).newAllocs ν' hν')
      (fun ν' hν' e he => by
        obtain ⟨rs, f, -, h⟩ := (ht2 me _ ha2).staged ν' hν'
        exact ⟨_, hg.person ha, (hm2 me _ ha2).2 ν' hν' e he, h.le trivial e he⟩)).of_ok hex
    exact h3
  | skip me ord => exact h.grade hgr (Nat.le_add_right _ _)
  | adv me ord ag σ ν s₃ ha hσ hν hex hd =>
    have h3 : AllPools (P (n + 1)) s₃ := (executeStrategy_graded hgr hg.inv.core.poolsInj h ord ha (fun ν' hν' => (hg.inv.tidy me _ ha).newAllocs ν' hν')
      (amounts_of_terms hg hm ht ha).2).of_ok hex
    exact h3
  | phase p s' hph hc =>
    intro r
    rw [hph.heap r]
    split
    · exact hgr.reeval _ _ _ (h r)
    · exact h r
  | roundEnd => exact h

theorem run_graded {c : Config F} {P : Nat → Pool F → Prop} (hgr : Graded c P) (h0 : ∀ e ∈ c.people, 0 ≤ e.1) (hb : 0 ≤ c.rs.beta) :
    ∀ (es : List (Event F)) {n : Nat} {s s' : State F}, Reachable c s → AllPools (P n) s → (∀ ev ∈ es, ev.Valid c.people.length) →
    iterM exec s es = .ok s' → AllPools (P (n + (es.map Event.cost).sum)) s'
  | [], n, s, s', _, h, _, he => by cases he; exact h
  | ev :: t, n, s, s', hr, h, hv, he => by
    simp only [iterM, bind, Except.bind] at he
    cases h1 : exec s ev with
    | error e => rw [h1] at he; cases he
    | ok s₁ =>
      rw [h1] at he
      have hv1 := hv ev List.mem_cons_self
      have := run_graded hgr h0 hb t (hr.next hv1 h1) (exec_graded hgr h0 hb hr h hv1 h1) (fun e he => hv e (List.mem_cons_of_mem _ he)) he
      rw [List.map_cons, List.sum_cons, ← Nat.add_assoc]
      exact this

end

end RSE
