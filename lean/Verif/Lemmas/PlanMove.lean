import Verif.Lemmas.Plan
import Mathlib.Data.List.Sort

/-!
# Planning: the operator move and the choice of a move
-/

set_option linter.unusedSectionVars false

namespace RSE

variable {F : Type} [LinearOrder F] [Zero F] [One F] [Add F] [Sub F] [Mul F] [Div F] [Neg F] [NatCast F] [FSum F]

theorem mapM_getE {d : Dict Ref} : ∀ (ids : List Nat), (∀ i ∈ ids, i ∈ d.keys) →
    ∃ es : List (Nat × Ref), ids.mapM (fun pid => do
      let r ← d.getE pid
      return (pid, r)) = (.ok es : Py _) ∧ es.map Prod.fst = ids ∧ ∀ e ∈ es, d.get? e.1 = some e.2
  | [], _ => ⟨[], rfl, rfl, by simp⟩
  | i :: t, h => by
    obtain ⟨r, hr⟩ := Dict.mem_keys_iff.1 (h i List.mem_cons_self)
    obtain ⟨es, h1, h2, h3⟩ := mapM_getE t (fun j hj => h j (List.mem_cons_of_mem _ hj))
    refine ⟨(i, r) :: es, ?_, by simp [h2], ?_⟩
    · rw [List.mapM_cons, h1, Dict.getE_of hr]; rfl
    · intro e he
      rcases List.mem_cons.1 he with rfl | he
      · exact hr
      · exact h3 e he

theorem topPoolIds_sub (heap : Ref → Pool F) (owned : Dict Ref) (m : Nat) : ∀ i ∈ topPoolIds heap owned m, i ∈ owned.keys := by
  intro i hi
  obtain ⟨e, he, rfl⟩ := List.mem_map.1 hi
  have := List.mem_of_mem_take he
  rw [(List.perm_insertionSort _ _).mem_iff] at this
  exact List.mem_map.2 ⟨e, this, rfl⟩

theorem topPoolIds_nodup (heap : Ref → Pool F) {owned : Dict Ref} (h : owned.keys.Nodup) (m : Nat) : (topPoolIds heap owned m).Nodup := by
  unfold topPoolIds
  have h1 : ((owned.insertionSort (fun a b => keepKey heap b ≤ keepKey heap a)).map Prod.fst).Nodup :=
    ((List.perm_insertionSort _ owned).map Prod.fst).nodup_iff.2 h
  rw [List.map_take]
  exact h1.sublist (List.take_sublist _ _)

theorem topPoolIds_length (heap : Ref → Pool F) (owned : Dict Ref) {m : Nat} (hm : m ≤ owned.length) : (topPoolIds heap owned m).length = m := by
  unfold topPoolIds
  rw [List.length_map, List.length_take, List.length_insertionSort]
  omega

/-- the copies with which an operator move starts -/
theorem determinePoolsToKeep_spec {n : Nat} {s : State F} (h : Core n s) {ord : List Nat → List Nat} (hord : ∀ l, (ord l).Perm l)
    (a : Nat) (ids : List Nat) {σ : Strategy F} (hnd : σ.owned.keys.Nodup) (hown : ∀ pid r, σ.owned.get? pid = some r → r < s.next) (m : Nat) :
    ∃ s' d, determinePoolsToKeep ord s σ m = .ok (s', d) ∧ Core n s' ∧ Planned a ids s s' ∧
      s'.idSeq = s.idSeq ∧ (∀ r < s.next, s'.heap r = s.heap r) ∧ d.keys.Nodup ∧ d.vals.Nodup ∧
      d.length = min m σ.owned.length ∧
      (∀ i ∈ d.keys, i ∈ σ.owned.keys) ∧
      ∀ e ∈ d, s.next ≤ e.2 ∧ e.2 < s'.next ∧ ∃ r, σ.owned.get? e.1 = some r ∧ s'.heap e.2 = s.heap r := by
  have key : ∀ es : List (Nat × Ref), (es.map Prod.fst).Nodup → es.length = min m σ.owned.length →
      (∀ e ∈ es, σ.owned.get? e.1 = some e.2) →
      Core n (copyPools s es).1 ∧ Planned a ids s (copyPools s es).1 ∧
      (copyPools s es).1.idSeq = s.idSeq ∧ (∀ r < s.next, (copyPools s es).1.heap r = s.heap r) ∧
      (copyPools s es).2.keys.Nodup ∧ (copyPools s es).2.vals.Nodup ∧ (copyPools s es).2.length = min m σ.owned.length ∧
      (∀ i ∈ (copyPools s es).2.keys, i ∈ σ.owned.keys) ∧
      ∀ e ∈ (copyPools s es).2, s.next ≤ e.2 ∧ e.2 < (copyPools s es).1.next ∧
        ∃ r, σ.owned.get? e.1 = some r ∧ (copyPools s es).1.heap e.2 = s.heap r := by
    intro es hn hl he
    obtain ⟨c1, c2, c3, c4, c5, c6, c7, c8⟩ := copyPools_spec (a := a) (ids := ids) es s s h (Planned.refl _ _ _)
      (fun e hm => hown _ _ (he e hm))
    refine ⟨c1, c2, c3, c4, by rw [c5]; exact hn, by rw [c6]; exact List.nodup_range', ?_, ?_, ?_⟩
    · have : (copyPools s es).2.keys.length = es.length := by rw [c5, List.length_map]
      rw [← hl, ← this, Dict.keys, List.length_map]
    · intro i hi
      rw [c5] at hi
      obtain ⟨e, hm, rfl⟩ := List.mem_map.1 hi
      exact Dict.mem_keys_of_get? (he e hm)
    · intro e hm
      have hv : e.2 ∈ (copyPools s es).2.vals := List.mem_map.2 ⟨e, hm, rfl⟩
      rw [c6, List.mem_range'_1] at hv
      obtain ⟨r, hr, hh⟩ := c8 e hm
      exact ⟨hv.1, by omega, r, he _ hr, hh⟩
  unfold determinePoolsToKeep
  split
  · rename_i hlt
    obtain ⟨es, h1, h2, h3⟩ := mapM_getE (d := σ.owned) (ord (topPoolIds s.heap σ.owned m))
      (fun i hi => topPoolIds_sub _ _ _ i ((hord _).mem_iff.1 hi))
    refine ⟨_, _, ?_, key es ?_ ?_ h3⟩
    · simp only [h1]; rfl
    · rw [h2]; exact (hord _).nodup_iff.2 (topPoolIds_nodup _ hnd _)
    · have : (es.map Prod.fst).length = (ord (topPoolIds s.heap σ.owned m)).length := by rw [h2]
      rw [List.length_map, (hord _).length_eq, topPoolIds_length _ _ (by omega)] at this
      omega
  · rename_i hge
    refine ⟨_, _, rfl, key σ.owned hnd ?_ (fun e he => Dict.get?_of_mem hnd he)⟩
    omega

/-- The operator strategy `τ` drafted by `choose_pool_strategy` called in state `s₁` and returning in state `s'`. -/
structure OpPlan (n : Nat) (s₁ s' : State F) (me : Agent F) (σ τ : Strategy F) : Prop where
  nodup : τ.owned.keys.Nodup
  allocs : GoodAllocs s' me.id τ.allocs
  shape : ∃ q c margins u, marginsAndUtility s₁ me σ τ.owned.length = .ok (margins, u) ∧
    pledgePerPool me.stake s₁.rs.beta τ.owned.length = .ok q ∧ costPerPool τ.owned.length me.cost s₁.extraFrac = .ok c ∧
    0 < τ.owned.length ∧ τ.owned.length ≤ s₁.rs.k ∧
    (∀ pid r, τ.owned.get? pid = some r → s₁.next ≤ r ∧ r < s'.next ∧ ∃ m ∈ margins,
      (∃ r₀, σ.owned.get? pid = some r₀ ∧ s'.heap r = (reworkPool s₁.rs q c (s₁.heap r₀)).setMargin m) ∨
      (s₁.idSeq < pid ∧ pid ≤ s'.idSeq ∧ s'.heap r = freshPool s₁.rs q c me.id pid m)) ∧
    ((¬ me.stake - q * (τ.owned.length : F) > 0 ∧ τ.allocs = []) ∨
      ∃ sA sB, me.stake - q * (τ.owned.length : F) > 0 ∧ Core n sA ∧ Planned me.id σ.allocs.keys s₁ sA ∧
        (∀ r < s₁.next, sA.heap r = s₁.heap r) ∧
        findDelegationMove sA me σ (me.stake - q * (τ.owned.length : F)) = .ok (sB, { allocs := τ.allocs, owned := [] }))

/-- errors of planning: evaluation errors, or a delegation to a pool that no longer exists -/
def PlanErr (s : State F) (σ : Strategy F) (e : Err) : Prop :=
  Ev e ∨ (e = .key ∧ ∃ pid ∈ σ.allocs.keys, s.pools.get? pid = none)

theorem findOperatorMove_spec {n : Nat} {s₁ s : State F} (h : Core n s) (me : Agent F) {σ : Strategy F} (hσ : σ.allocs.keys.Nodup)
    (hp : Planned me.id σ.allocs.keys s₁ s) (hh : ∀ r < s₁.next, s.heap r = s₁.heap r) (hpr : ∀ pid r, s₁.pools.get? pid = some r → r < s₁.next)
    {k : Nat} (hk : 0 < k) (hkk : k ≤ s₁.rs.k) {owned : Dict Ref} (hnd : owned.keys.Nodup) (hvd : owned.vals.Nodup) (hlen : owned.length ≤ k)
    (hseq : s.idSeq = s₁.idSeq) (hids : ∀ i ∈ owned.keys, i ≤ s.idSeq)
    (hcp : ∀ e ∈ owned, s₁.next ≤ e.2 ∧ e.2 < s.next ∧ ∃ r, σ.owned.get? e.1 = some r ∧ s.heap e.2 = s₁.heap r)
    {margins : List F} {u : F} (hm : marginsAndUtility s₁ me σ k = .ok (margins, u)) (hml : margins.length = k) :
    Sat (fun e => e = .key ∧ ∃ pid ∈ σ.allocs.keys, s₁.pools.get? pid = none) (findOperatorMove s me σ k owned margins) (fun res =>
      Core n res.1 ∧ Planned me.id σ.allocs.keys s₁ res.1 ∧ Restored me.id σ.allocs s₁ res.1 ∧ OpPlan n s₁ res.1 me σ res.2) := by
  have hk0 : k ≠ 0 := by omega
  obtain ⟨q, hq⟩ : ∃ q, pledgePerPool me.stake s₁.rs.beta k = .ok q := by simp [pledgePerPool, hk0]
  obtain ⟨c, hc⟩ : ∃ c, costPerPool k me.cost s₁.extraFrac = .ok c := by simp [costPerPool, hk0]
  unfold findOperatorMove
  rw [hp.rs, hp.extraFrac, hq, hc]
  obtain ⟨s2, e2, c2, p2, i2, n2, f2, d2⟩ := reworkPools_spec me q c margins owned 0 s₁ s h hp (fun e he => (hcp e he).1)
    (by rw [hp.pools]; exact hpr) hvd (by omega)
  obtain ⟨s3, new, e3, c3, p3, n3, i3, nd3, l3, f3, d3⟩ := draftPools_spec me q c margins (k - owned.length) owned.length s₁ s2 owned c2 p2
    (by rw [i2]; exact hids) hnd (by omega)
  have hlen3 : (owned ++ new).length = k := by rw [List.length_append, l3]; omega
  have hnext : s₁.next ≤ s.next := hp.next_le
  have hold : ∀ r < s₁.next, s3.heap r = s₁.heap r := by
    intro r hr
    rw [f3 r (by omega), f2 r (fun e he hre => by have := (hcp e he).1; omega), hh r hr]
  -- the drafts as they are in any state that differs from `s3` by a shuffle
  have hdraft : ∀ s4 : State F, Shuf me.id σ.allocs.keys s3 s4 → ∀ pid r, Dict.get? (owned ++ new) pid = some r →
      s₁.next ≤ r ∧ r < s4.next ∧ ∃ m ∈ margins,
      (∃ r₀, σ.owned.get? pid = some r₀ ∧ s4.heap r = (reworkPool s₁.rs q c (s₁.heap r₀)).setMargin m) ∨
      (s₁.idSeq < pid ∧ pid ≤ s4.idSeq ∧ s4.heap r = freshPool s₁.rs q c me.id pid m) := by
    intro s4 sh pid r hg
    have hkeep : ∀ r', s₁.next ≤ r' → s4.heap r' = s3.heap r' := by
      intro r' hr'
      apply sh.untouched
      intro pid' _ hp'
      rw [p3.pools] at hp'
      have := hpr _ _ hp'; omega
    rcases List.mem_append.1 (Dict.mem_of_get? hg) with hm1 | hm1
    · obtain ⟨g1, g2, r₀, g3, g4⟩ := hcp _ hm1
      obtain ⟨m, hmm, hheap⟩ := d2 _ hm1
      refine ⟨g1, by rw [sh.next]; simp only at g2; omega, m, hmm, Or.inl ⟨r₀, g3, ?_⟩⟩
      rw [hkeep r g1, f3 r (by simp only at g2; omega)]
      simp only at hheap g4
      rw [hheap, g4]
    · obtain ⟨g1, g2, g3, g4, m, hmm, hheap⟩ := d3 _ hm1
      simp only at g1 g2 g3 g4 hheap
      refine ⟨by omega, by rw [sh.next]; exact g4, m, hmm, Or.inr ⟨by omega, by rw [sh.idSeq]; exact g2, ?_⟩⟩
      rw [hkeep r (by omega), hheap]
  simp only [bind, Except.bind]
  rw [e2]
  simp only
  rw [e3]
  simp only
  split
  · rename_i hpos
    have hfd := findDelegationMove_spec c3 me σ hσ (me.stake - q * (k : F))
    cases hfm : findDelegationMove s3 me σ (me.stake - q * (k : F)) with
    | error e =>
      rw [hfm] at hfd
      obtain ⟨he, pid, hm1, hm2⟩ := hfd
      rw [p3.pools] at hm2
      exact ⟨he, pid, hm1, hm2⟩
    | ok res =>
      rw [hfm] at hfd
      obtain ⟨s4, d⟩ := res
      obtain ⟨c4, sh4, r4, g4, o4⟩ := hfd
      refine ⟨c4, p3.trans (Planned.of_shuf sh4), ?_, nd3, g4, ?_⟩
      · exact (Restored.of_heap hold hpr).trans r4 p3.pools
      · have hl : (List.length (owned ++ new)) = k := hlen3
        refine ⟨q, c, margins, u, by simp only [hl]; exact hm, by simp only [hl]; exact hq, by simp only [hl]; exact hc,
          by simp only [hl]; exact hk, by simp only [hl]; exact hkk, hdraft s4 sh4, Or.inr ⟨s3, s4, ?_⟩⟩
        simp only [hl]
        refine ⟨hpos, c3, p3, hold, ?_⟩
        rw [hfm]
        simp only at o4
        obtain ⟨al, ow⟩ := d
        simp only at o4; subst o4; rfl
  · rename_i hnpos
    have sh := Shuf.refl me.id σ.allocs.keys s3
    have hl : (List.length (owned ++ new)) = k := hlen3
    refine ⟨c3, p3, Restored.of_heap hold hpr, nd3, GoodAllocs.nil _ _, ?_⟩
    refine ⟨q, c, margins, u, by simp only [hl]; exact hm, by simp only [hl]; exact hq, by simp only [hl]; exact hc,
          by simp only [hl]; exact hk, by simp only [hl]; exact hkk, hdraft s3 sh, Or.inl ?_⟩
    simp only [hl]
    exact ⟨hnpos, trivial⟩

theorem choosePoolStrategy_spec {n : Nat} {s₁ : State F} (h : Core n s₁) {ord : List Nat → List Nat} (hord : ∀ l, (ord l).Perm l)
    (me : Agent F) {σ : Strategy F} (hσ : σ.allocs.keys.Nodup) (hnd : σ.owned.keys.Nodup)
    (hown : ∀ pid r, σ.owned.get? pid = some r → s₁.pools.get? pid = some r) :
    Sat (PlanErr s₁ σ) (choosePoolStrategy ord s₁ me σ) (fun res =>
      Core n res.1 ∧ Planned me.id σ.allocs.keys s₁ res.1 ∧ Restored me.id σ.allocs s₁ res.1 ∧ OpPlan n s₁ res.1 me σ res.2.2) := by
  unfold choosePoolStrategy
  have hmu : ∀ t, Sat (PlanErr s₁ σ) (marginsAndUtility s₁ me σ t) (fun _ => True) := fun t =>
    (marginsAndUtility_sat s₁ me σ t).mono (fun _ he => Or.inl he) (fun _ _ => trivial)
  refine Sat.bind (P := fun res => 0 < res.1 ∧ res.1 ≤ s₁.rs.k ∧ ∃ u, marginsAndUtility s₁ me σ res.1 = .ok (res.2, u)) ?_ ?_
  · by_cases hk : s₁.rs.k = 0
    · have he : marginsAndUtility s₁ me σ 0 = .error .zeroDiv := rfl
      rw [hk]
      simp only [searchPools, he, bind, Except.bind, Nat.add_zero, Nat.reduceDiv, Sat]
      exact Or.inl (Or.inl rfl)
    · refine (searchPools_sat (s₁.rs.k + 1) 1 s₁.rs.k (fun t _ _ => hmu t) (by omega) (by omega)).imp ?_
      rintro a ⟨a1, a2, a3⟩
      exact ⟨by omega, a2, a3⟩
  rintro ⟨k, margins⟩ ⟨hk, hkk, u, hm⟩
  simp only at hk hkk hm
  have hlen : margins.length = k := ((marginsAndUtility_sat s₁ me σ k).of_ok hm).2
  obtain ⟨s2, d, e2, c2, p2, i2, f2, kd2, vd2, l2, sub2, cp2⟩ := determinePoolsToKeep_spec h hord me.id σ.allocs.keys hnd
    (fun pid r hg => (h.poolRef _ _ (hown _ _ hg)).1) k
  simp only [e2]
  refine Sat.bind (P := fun p => p = (s2, d)) rfl ?_
  rintro _ rfl
  refine Sat.bind ((findOperatorMove_spec c2 me hσ p2 f2 (fun pid r hp => (h.poolRef _ _ hp).1) hk hkk kd2 vd2 (by omega) i2 ?_ cp2 hm hlen).mono
    (fun _ he => Or.inr he) (fun _ h => h)) ?_
  · intro i hi
    obtain ⟨r, hr⟩ := Dict.mem_keys_iff.1 (sub2 i hi)
    rw [i2]
    exact (h.poolRef _ _ (hown _ _ hr)).2.2.2
  rintro ⟨s', τ⟩ ⟨c, p, r, o⟩
  refine Sat.bind ((expectedUtility_sat c me σ τ).mono (fun _ he => Or.inl he) (fun _ h => h)) (fun u' _ => ⟨c, p, r, o⟩)

/-- What `update_strategy` has staged when it returns in state `s'`. -/
structure NewStrat (s s' : State F) (me : Agent F) (σ ν : Strategy F) : Prop where
  ownedNodup : ν.owned.keys.Nodup
  allocs : GoodAllocs s' me.id ν.allocs
  drafts : ∀ pid r, ν.owned.get? pid = some r → s.next ≤ r ∧ r < s'.next ∧
    ((∃ r₀ q c m s₁, σ.owned.get? pid = some r₀ ∧ Planned me.id σ.allocs.keys s s₁ ∧
        s'.heap r = (reworkPool s.rs q c (s₁.heap r₀)).setMargin m) ∨
     (s.idSeq < pid ∧ pid ≤ s'.idSeq ∧ ∃ q c m, s'.heap r = freshPool s.rs q c me.id pid m))

theorem OpPlan.newStrat {n : Nat} {s s₁ s' : State F} {me : Agent F} {σ τ : Strategy F} (h : OpPlan n s₁ s' me σ τ)
    (hp : Planned me.id σ.allocs.keys s s₁) : NewStrat s s' me σ τ := by
  obtain ⟨q, c, margins, u, -, -, -, -, -, hd, -⟩ := h.shape
  refine ⟨h.nodup, h.allocs, fun pid r hg => ?_⟩
  obtain ⟨h1, h2, m, -, h3⟩ := hd pid r hg
  refine ⟨hp.next_le.trans h1, h2, ?_⟩
  rw [hp.rs] at h3
  rcases h3 with ⟨r₀, h4, h5⟩ | ⟨h4, h5, h6⟩
  · exact Or.inl ⟨r₀, q, c, m, s₁, h4, hp, h5⟩
  · exact Or.inr ⟨lt_of_le_of_lt hp.idSeq_le h4, h5, q, c, m, h6⟩

/-- planning, as seen by the rest of the system -/
theorem planMove_spec {n : Nat} {s : State F} (h : Core n s) {ord : List Nat → List Nat} (hord : ∀ l, (ord l).Perm l)
    (me : Agent F) {σ : Strategy F} (hσ : σ.allocs.keys.Nodup) (hnd : σ.owned.keys.Nodup)
    (hown : ∀ pid r, σ.owned.get? pid = some r → s.pools.get? pid = some r) :
    Sat (PlanErr s σ) (planMove ord s me σ) (fun res =>
      Core n res.1 ∧ Planned me.id σ.allocs.keys s res.1 ∧ Restored me.id σ.allocs s res.1 ∧
      ∀ ν, res.2 = some ν → NewStrat s res.1 me σ ν) := by
  unfold planMove
  refine Sat.bind (P := fun _ => True) (currentUtility_sat s σ) (fun cur _ => ?_)
  refine Sat.bind (P := fun _ => True) ((expectedUtility_sat h me σ σ).mono (fun _ he => Or.inl he) (fun _ h => h)) (fun exp _ => ?_)
  refine Sat.bind ((findDelegationMove_spec h me σ hσ me.stake).mono (fun _ he => Or.inr he) (fun _ h => h)) ?_
  rintro ⟨s₁, δ⟩ ⟨c1, sh1, r1, g1, o1⟩
  simp only at c1 sh1 r1 g1 o1
  refine Sat.bind (P := fun _ => True) ((expectedUtility_sat c1 me σ δ).mono (fun _ he => Or.inl he) (fun _ h => h)) (fun du _ => ?_)
  have p1 := Planned.of_shuf sh1
  refine Sat.bind ((choosePoolStrategy_spec c1 hord me hσ hnd (by rw [p1.pools]; exact hown)).mono ?_ (fun _ h => h)) ?_
  · rintro e (he | ⟨he, pid, hm, hn⟩)
    · exact Or.inl he
    · rw [p1.pools] at hn; exact Or.inr ⟨he, pid, hm, hn⟩
  rintro ⟨s', ou, ω⟩ ⟨c2, p2, r2, o2⟩
  simp only at c2 p2 r2 o2
  refine ⟨c2, p1.trans p2, r1.trans r2 p1.pools, ?_⟩
  intro ν hν
  split at hν
  · cases hν
  · cases hν
    refine ⟨by rw [o1]; exact List.nodup_nil, ?_, by rw [o1]; simp⟩
    refine ⟨g1.nodup, fun pid x hx => ?_⟩
    obtain ⟨h1, r, h2, h3, h4⟩ := g1.good pid x hx
    have hr : r < s₁.next := (c1.poolRef _ _ h2).1
    exact ⟨h1, r, by rw [p2.pools]; exact h2, by rw [(p2.same r hr).owner]; exact h3, by rw [(p2.same r hr).isPrivate]; exact h4⟩
  · cases hν
    exact o2.newStrat p1

end RSE
