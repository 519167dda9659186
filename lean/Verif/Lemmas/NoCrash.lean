import Verif.Lemmas.Others
import Verif.Lemmas.Profit

/-!
# No exceptions (single phase, sequential activation, exact arithmetic)
-/

set_option linter.unusedSectionVars false

namespace RSE

variable {K : Type} [Field K] [LinearOrder K] [IsStrictOrderedRing K]

/-- no error is allowed -/
def NoErr (_ : Err) : Prop := False

/-- the open pools can be evaluated without an error -/
def Sound (s : State K) (σ : Strategy K) : Prop := ∀ pid r, s.pools.get? pid = some r →
  0 < (s.heap r).pledge ∧ 0 < (s.heap r).stake ∧ 0 < (s.heap r).stake - (σ.allocs.get? pid).getD 0 ∧ 0 < (s.heap r).pp ∧ 0 ≤ (s.heap r).des

theorem Sound.calm {n : Nat} {s s' : State K} {σ : Strategy K} (h : Sound s σ) (hc : Core n s) (hcalm : Calm s s') : Sound s' σ := by
  intro pid r hp
  rw [hcalm.pools] at hp
  have hal := hcalm.open_alike hc hp
  rw [hal.same.pledge, hal.stake, hal.same.pp, hal.same.des]
  exact h pid r hp

theorem operatorUtility_never {rs : RS K} {st pl m c : K} (h : st ≠ 0) : Sat NoErr (operatorUtility rs st pl m c) (fun _ => True) := by
  rw [operatorUtility_val h]; trivial

theorem delegatorUtility_never {rs : RS K} {x st pl m c : K} (h : st ≠ 0) : Sat NoErr (delegatorUtility rs x st pl m c) (fun _ => True) := by
  rw [delegatorUtility_val h]; trivial

/-- a pool with a positive potential profit ranks before the place-holders -/
theorem poolKey_lt_none {p : Pool K} (h1 : 0 < p.pp) (h2 : 0 ≤ p.des) : poolKey p < noneKey := by
  unfold poolKey noneKey
  rw [Prod.Lex.toLex_lt_toLex]
  rcases lt_or_eq_of_le h2 with h | h
  · left; simpa using h
  · right
    refine ⟨by simp [← h], ?_⟩
    rw [Prod.Lex.toLex_lt_toLex]
    left; simpa using h1

theorem nonMyopicStake_never {rs : RS K} {total : K} {heap : Ref → Pool K} {rk : SKL (Key K) (Option Ref)} (hs : rk.Sorted) {r : Ref}
    (hm : (poolKey (heap r), some r) ∈ rk) (hbefore : ∀ k, (k, none) ∈ rk → poolKey (heap r) < k) (hp : 0 < (heap r).pledge) (hst : 0 < (heap r).stake) :
    Sat NoErr (nonMyopicStake rs total heap rk r) (fun v => 0 < v) := by
  obtain ⟨i, h1, -, h3⟩ := SKL.index_ok hs hm
  unfold nonMyopicStake
  simp only [h1]
  refine Sat.bind (P := fun j => j = i) rfl ?_
  rintro _ rfl
  refine Sat.bind (P := fun _ => True) ?_ (fun _ _ => ?_)
  · apply Sat.mapM
    intro e he
    cases e with
    | some q => trivial
    | none =>
      exfalso
      unfold SKL.vals at he
      rw [← List.map_take] at he
      obtain ⟨⟨k, o⟩, he, hee⟩ := List.mem_map.1 he
      simp only at hee
      subst hee
      exact absurd (h3 _ he).2 (not_le.2 (hbefore k (List.mem_of_mem_take he)))
  · change 0 < nonMyopicStakeFromRank _ _ _ _
    unfold nonMyopicStakeFromRank
    split
    · exact lt_of_lt_of_le hst (le_max_right _ _)
    · exact hp

theorem Core.rank_none {n : Nat} {s : State K} (h : Core n s) {k : Key K} (hk : (k, none) ∈ s.rank) : k = noneKey := by
  rw [h.rankPerm.mem_iff] at hk
  rcases List.mem_append.1 hk with hk | hk
  · exact (Prod.mk.inj (List.eq_of_mem_replicate hk)).1
  · obtain ⟨e, -, he⟩ := List.mem_map.1 hk; cases he

theorem delegatorUtilityFromPool_never {n : Nat} {s : State K} (hc : Core n s) {me : Agent K} {σ : Strategy K} (h : Sound s σ) {pid : Nat} {r : Ref}
    (hp : s.pools.get? pid = some r) {x : K} (hx : 0 ≤ x) : Sat NoErr (delegatorUtilityFromPool s me σ r x) (fun _ => True) := by
  obtain ⟨h1, h2, h3, h4, h5⟩ := h pid r hp
  rw [← (hc.poolRef _ _ hp).2.1] at h3
  unfold delegatorUtilityFromPool
  simp only
  revert h3
  cases σ.allocs.get? (s.heap r).id
  all_goals
    simp only [Option.getD_none, Option.getD_some]
    generalize (s.heap r).stake - _ = S
    intro h3
    have hne : S + x ≠ 0 := by linarith
    split
    · refine Sat.bind (nonMyopicStake_never hc.rankSorted (hc.mem_rank hp) (fun k hk => ?_) h1 h2) (fun v hv => delegatorUtility_never ?_)
      · rw [hc.rank_none hk]; exact poolKey_lt_none h4 h5
      · exact (lt_of_lt_of_le hv (le_max_left _ _)).ne'
    · exact delegatorUtility_never hne

theorem operatorUtilityFromStrategy_never {s : State K} {me : Agent K} {τ : Strategy K} (h : ∀ r ∈ τ.owned.vals, 0 < (s.heap r).pledge ∧ 0 < (s.heap r).stake) :
    Sat NoErr (operatorUtilityFromStrategy s me τ) (fun _ => True) := by
  unfold operatorUtilityFromStrategy
  simp only
  split
  · apply accM_sat
    intro r hr
    refine Sat.bind (nonMyopicStake_never (tempRankings_sorted _ _ _) ((mem_tempRankings s me _).2 (Or.inr ⟨r, hr, rfl⟩)) (fun k hk => ?_) (h r hr).1 (h r hr).2)
      (fun v hv => operatorUtility_never hv.ne')
    rcases (mem_tempRankings s me _).1 hk with ⟨r', -, -, he⟩ | ⟨r', -, he⟩ <;> cases he
  · exact accM_sat _ _ (fun r hr => operatorUtility_never (h r hr).2.ne')

theorem expectedUtility_never {n : Nat} {s : State K} (hc : Core n s) {me : Agent K} {σ τ : Strategy K} (h : Sound s σ)
    (ho : ∀ r ∈ τ.owned.vals, 0 < (s.heap r).pledge ∧ 0 < (s.heap r).stake) (ha : ∀ e ∈ τ.allocs, 0 ≤ e.2) :
    Sat NoErr (expectedUtility s me σ τ) (fun _ => True) := by
  unfold expectedUtility
  refine Sat.bind (P := fun _ => True) ?_ (fun u _ => ?_)
  · split
    · exact Sat.map (operatorUtilityFromStrategy_never ho) (fun _ _ => trivial)
    · trivial
  · apply accM_sat
    rintro ⟨r, x⟩ hm
    obtain ⟨e, hmem, he⟩ := List.mem_filterMap.1 hm
    obtain ⟨r', hr', he⟩ := Option.map_eq_some_iff.1 he
    cases he
    exact delegatorUtilityFromPool_never hc h hr' (ha e hmem)

/-! ### Margins -/

theorem pyIndex_never {α : Type} {l : List α} {k t : Nat} (h1 : 1 ≤ t) (h2 : t ≤ k) (h3 : k ≤ l.length) :
    Sat NoErr (pyIndex l ((k : Int) - (t : Int))) (fun _ => True) := by
  unfold pyIndex
  have hnn : ¬ ((k : Int) - (t : Int) < 0) := by omega
  simp only [hnn, if_false]
  have hlt : ((k : Int) - (t : Int)).toNat < l.length := by omega
  rw [List.getElem?_eq_getElem hlt]
  trivial

theorem Calm.others {n : Nat} {s s' : State K} (h : Calm s s') (hc : Core n s) (a : Nat) : othersPools s' a = othersPools s a := by
  unfold othersPools
  rw [h.pools]
  refine List.countP_congr (fun r hr => ?_)
  obtain ⟨pid, hp⟩ := (Dict.mem_vals_iff hc.poolsNodup).1 hr
  have h1 := (h.alike r (hc.poolRef _ _ hp).1).same.owner
  rw [h1]

theorem loopMargins_never {f : Nat → Py (K × K)} : ∀ (l : List Nat) (ms : List K) (u : K), (∀ t ∈ l, Sat NoErr (f t) (fun _ => True)) →
    Sat NoErr (loopMargins f l ms u) (fun _ => True)
  | [], _, _, _ => trivial
  | t :: ts, ms, u, h => by
    unfold loopMargins
    exact Sat.bind (h t List.mem_cons_self) (fun _ _ => loopMargins_never ts _ _ (fun t ht => h t (List.mem_cons_of_mem _ ht)))

/-- the agent never looks at a pool of saturation size 0 -/
def SatOK (rs : RS K) (f : K) (ag : Agent K) : Prop := ∀ m q co, pledgePerPool ag.stake rs.beta m = .ok q → costPerPool m ag.cost f = .ok co →
  rs.sat q ≠ 0 ∨ (ag.profile = .nonMyopic ∧ potentialProfit rs q co ≤ 0)

theorem marginsAndUtility_never {n : Nat} {s : State K} (hc : Core n s) {me : Agent K} (hn : s.rs.k ≤ n + othersPools s me.id) {σ : Strategy K} (hst : 0 < me.stake)
    (hb : 0 < s.rs.beta) (hsat : SatOK s.rs s.extraFrac me) (hdes : ∀ pid r, s.pools.get? pid = some r → 0 ≤ (s.heap r).des) {m : Nat} (h1 : 1 ≤ m) (h2 : m ≤ s.rs.k) :
    Sat NoErr (marginsAndUtility s me σ m) (fun _ => True) := by
  have hm : m ≠ 0 := by omega
  obtain ⟨q, hq⟩ : ∃ q, pledgePerPool me.stake s.rs.beta m = .ok q := by simp [pledgePerPool, hm]
  obtain ⟨co, hco⟩ : ∃ co, costPerPool m me.cost s.extraFrac = .ok co := by simp [costPerPool, hm]
  have hqpos : 0 < q := pledgePerPool_pos hq hst hb
  have hlen := hc.fixed_length me
  have hs := hsat m q co hq hco
  unfold marginsAndUtility
  rw [hq, hco]
  simp only [bind, Except.bind]
  have hix : ∀ t ∈ List.range' 1 m, Sat NoErr (pyIndex (fixedPools s me) ((s.rs.k : Int) - (t : Int))) (fun e => ∀ r, e = some r → 0 ≤ (s.heap r).des) := by
    intro t ht
    have ht := List.mem_range'_1.1 ht
    refine (pyIndex_never (l := fixedPools s me) (k := s.rs.k) (t := t) (by omega) (by omega) (by omega)).and_ok ?_ |>.imp (fun e he => he.2)
    intro e he r hr
    have hmem := (pyIndex_sat (fixedPools s me) ((s.rs.k : Int) - (t : Int))).of_ok he
    rw [hr] at hmem
    unfold fixedPools at hmem
    have hmem := (List.mem_filter.1 hmem).1
    have hp : ∃ pid, s.pools.get? pid = some r := by
      unfold rankingsOf at hmem
      split at hmem
      · exact hc.rank_open hmem
      · exact hc.rankM_open hmem
    obtain ⟨pid, hp⟩ := hp
    exact hdes pid r hp
  split
  · rename_i hprof
    refine loopMargins_never _ _ _ (fun t ht => ?_)
    unfold marginNM
    refine Sat.bind (hix t ht) (fun e hed => ?_)
    have hmain : ∀ td tpp : K, 0 ≤ td → Sat NoErr (if potentialProfit s.rs q co < td + boost then do
        let u ← operatorUtility s.rs q q 0 co
        return ((0 : K), u)
      else do
        let u ← operatorUtility s.rs (s.rs.sat q) q (suitableMargin (potentialProfit s.rs q co) (max (td + boost) tpp)) co
        return (suitableMargin (potentialProfit s.rs q co) (max (td + boost) tpp), u) : Py (K × K)) (fun _ => True) := by
      intro td tpp htd
      split
      · exact Sat.bind (operatorUtility_never hqpos.ne') (fun _ _ => trivial)
      · rename_i hnlt
        rcases hs with hs | ⟨-, hs⟩
        · exact Sat.bind (operatorUtility_never hs) (fun _ _ => trivial)
        · exfalso
          have := boost_pos (K := K)
          apply hnlt; linarith
    cases e with
    | none => exact hmain 0 0 le_rfl
    | some r => exact hmain (s.heap r).des (s.heap r).pp (hed r rfl)
  · rename_i hprof
    refine loopMargins_never _ _ _ (fun t ht => ?_)
    unfold marginM
    refine Sat.bind (hix t ht) (fun e hed => ?_)
    rcases hs with hs | ⟨hs, -⟩
    · exact Sat.bind (operatorUtility_never hs) (fun _ _ => trivial)
    · exact absurd hs hprof

/-! ### Planning -/

theorem findDelegationMove_never {n : Nat} {s : State K} {me : Agent K} {σ : Strategy K} (h : Ready n s me.id σ) (stake : K) :
    Sat NoErr (findDelegationMove s me σ stake) (fun res => Delegated s me σ stake res.1 res.2 ∧ GoodAllocs res.1 me.id res.2.allocs ∧ res.2.owned = []) := by
  have := findDelegationMove_spec h.core me σ h.nodup stake
  refine Sat.intro (fun res hr => ?_) (fun e he => ?_)
  · obtain ⟨-, -, -, h1, h2⟩ := this.of_ok hr
    exact ⟨findDelegationMove_ok hr, h1, h2⟩
  · obtain ⟨-, pid, hp, hn⟩ := this.of_error he
    obtain ⟨x, hx⟩ := Dict.mem_keys_iff.1 hp
    obtain ⟨r, hr⟩ := h.exist pid x hx
    rw [hr] at hn; cases hn

theorem GoodAllocs.nonneg {s : State K} {a : Nat} {d : Dict K} (h : GoodAllocs s a d) : ∀ e ∈ d, 0 ≤ e.2 :=
  fun _ hm => (pos_of_minUnit (h.good _ _ (Dict.get?_of_mem h.nodup hm)).1).le

theorem choosePoolStrategy_never {n : Nat} {s : State K} {me : Agent K} {σ : Strategy K} (h : Ready n s me.id σ) (hs : Sound s σ) (hn : s.rs.k ≤ n + othersPools s me.id)
    (hk : 1 ≤ s.rs.k) (hst : 0 < me.stake) (hb : 0 < s.rs.beta) (hsat : SatOK s.rs s.extraFrac me) {ord : List Nat → List Nat} (hord : ∀ l, (ord l).Perm l)
    (hnd : σ.owned.keys.Nodup) (hown : ∀ pid r, σ.owned.get? pid = some r → s.pools.get? pid = some r) :
    Sat NoErr (choosePoolStrategy ord s me σ) (fun _ => True) := by
  have hc := h.core
  have hmin : AmountsOK σ.allocs := fun e he => Or.inr (h.min e he)
  unfold choosePoolStrategy
  refine Sat.bind (searchPools_sat (s.rs.k + 1) 1 s.rs.k
    (fun t h1 h2 => marginsAndUtility_never hc hn hst hb hsat (fun pid r hp => (hs pid r hp).2.2.2.2) h1 h2) hk (by omega)) ?_
  rintro ⟨k, margins⟩ ⟨hk1, hkk, u, hm⟩
  simp only at hk1 hkk hm
  have hlen : margins.length = k := ((marginsAndUtility_sat s me σ k).of_ok hm).2
  obtain ⟨s2, d, e2, c2, p2, i2, f2, kd2, vd2, l2, sub2, cp2⟩ := determinePoolsToKeep_spec hc hord me.id σ.allocs.keys hnd
    (fun pid r hg => (hc.poolRef _ _ (hown _ _ hg)).1) k
  have hall2 := determinePoolsToKeep_all h.bal ord σ k
  rw [e2] at hall2
  simp only [e2]
  refine Sat.bind (P := fun p => p = (s2, d)) rfl ?_
  rintro _ rfl
  have hk0 : k ≠ 0 := by omega
  obtain ⟨q, hq⟩ : ∃ q, pledgePerPool me.stake s.rs.beta k = .ok q := by simp [pledgePerPool, hk0]
  obtain ⟨co, hco⟩ : ∃ c, costPerPool k me.cost s.extraFrac = .ok c := by simp [costPerPool, hk0]
  have hqpos : 0 < q := pledgePerPool_pos hq hst hb
  have hdd := balanced_decides s me σ k margins u q co (by omega) hkk hm hq hco
  have hspec := findOperatorMove_spec c2 me h.nodup p2 f2 (fun pid r hp => (hc.poolRef _ _ hp).1) (by omega : 0 < k) hkk kd2 vd2
    (by rw [l2]; exact Nat.min_le_left _ _) i2 (by
      intro i hi
      obtain ⟨r, hr⟩ := Dict.mem_keys_iff.1 (sub2 i hi)
      rw [i2]
      exact (hc.poolRef _ _ (hown _ _ hr)).2.2.2) cp2 hm hlen
  have hall := findOperatorMove_all balanced_upd hall2.1 me hmin (k := k) (d := d) (margins := margins) (q := q) (c := co) (by rw [p2.rs]; exact hq)
    (by rw [p2.extraFrac]; exact hco) (by rw [p2.rs]; exact hdd) hlen (by rw [l2]; exact Nat.min_le_left _ _)
  refine Sat.bind ((hspec.and hall).mono (E' := NoErr) (fun e he => ?_) (fun _ h => h)) ?_
  · obtain ⟨⟨-, pid, hp, hnone⟩, -⟩ := he
    obtain ⟨x, hx⟩ := Dict.mem_keys_iff.1 hp
    obtain ⟨r, hr⟩ := h.exist pid x hx
    rw [hr] at hnone; cases hnone
  rintro ⟨s', τ⟩ ⟨⟨c3, p3, r3, o3⟩, b3, -⟩
  simp only at c3 p3 r3 o3 b3
  obtain ⟨hcalm, hready⟩ := Calm.of_planned h p3 r3 c3 b3
  refine Sat.bind (expectedUtility_never c3 (hs.calm hc hcalm) (fun r hr => ?_) o3.allocs.nonneg) (fun _ _ => trivial)
  have hpl : 0 < (s'.heap r).pledge := by
    have hq' : pledgePerPool me.stake s.rs.beta τ.owned.length = .ok q → (s'.heap r).pledge = q := by
      intro hq'
      obtain ⟨q', c', margins', u', -, hqq, -, -, -, hdr, -⟩ := o3.shape
      rw [hqq] at hq'; cases hq'
      obtain ⟨pid, hpid⟩ := (Dict.mem_vals_iff o3.nodup).1 hr
      obtain ⟨-, -, m, -, ⟨r₀, -, he⟩ | ⟨-, -, he⟩⟩ := hdr pid r hpid <;> rw [he] <;> rfl
    obtain ⟨q', c', margins', u', -, hqq, -, -, -, hdr, -⟩ := o3.shape
    obtain ⟨pid, hpid⟩ := (Dict.mem_vals_iff o3.nodup).1 hr
    have := pledgePerPool_pos hqq hst hb
    obtain ⟨-, -, m, -, ⟨r₀, -, he⟩ | ⟨-, -, he⟩⟩ := hdr pid r hpid <;> rw [he] <;> exact this
  exact ⟨hpl, lt_of_lt_of_le hpl (b3 r).pledge_le⟩

theorem planMove_never {n : Nat} {s : State K} {me : Agent K} {σ : Strategy K} (h : Ready n s me.id σ) (hs : Sound s σ) (hn : s.rs.k ≤ n + othersPools s me.id)
    (hk : 1 ≤ s.rs.k) (hst : 0 < me.stake) (hb : 0 < s.rs.beta) (hsat : SatOK s.rs s.extraFrac me) {ord : List Nat → List Nat} (hord : ∀ l, (ord l).Perm l)
    (hnd : σ.owned.keys.Nodup) (hown : ∀ pid r, σ.owned.get? pid = some r → s.pools.get? pid = some r) :
    Sat NoErr (planMove ord s me σ) (fun _ => True) := by
  have ho : ∀ r ∈ σ.owned.vals, 0 < (s.heap r).pledge ∧ 0 < (s.heap r).stake := by
    intro r hr
    obtain ⟨pid, hpid⟩ := (Dict.mem_vals_iff hnd).1 hr
    obtain ⟨h1, h2, -⟩ := hs pid r (hown pid r hpid)
    exact ⟨h1, h2⟩
  unfold planMove
  refine Sat.bind (P := fun _ => True) ?_ (fun cur _ => ?_)
  · rw [currentUtility_ok (fun r hr => (ho r hr).2.ne') (fun e he => ?_)]
    · trivial
    · obtain ⟨r, hr⟩ := h.exist e.1 e.2 (Dict.get?_of_mem h.nodup he)
      exact ⟨r, hr, (hs _ r hr).2.1.ne'⟩
  refine Sat.bind (expectedUtility_never h.core hs ho (fun e he => (pos_of_minUnit (h.min e he)).le)) (fun exp _ => ?_)
  refine Sat.bind (findDelegationMove_never h me.stake) ?_
  rintro ⟨s₁, δ⟩ ⟨hd, hg, hδ⟩
  simp only at hd hg hδ
  obtain ⟨hcalm, -, -, hready⟩ := hd.calm h
  have hs₁ := hs.calm h.core hcalm
  refine Sat.bind (expectedUtility_never hready.core hs₁ (fun r hr => by rw [hδ] at hr; cases hr) hg.nonneg) (fun du _ => ?_)
  refine Sat.bind (choosePoolStrategy_never hready hs₁ (by rw [hcalm.rs, hcalm.others h.core]; exact hn) (by rw [hcalm.rs]; exact hk) hst (by rw [hcalm.rs]; exact hb)
    (by rw [hcalm.rs, hcalm.extraFrac]; exact hsat) hord hnd (by rw [hcalm.pools]; exact hown)) (fun _ _ => trivial)

/-- If the search for the number of pools fails, planning fails, and with the same exception. -/
theorem planMove_error {n : Nat} {s : State K} {me : Agent K} {σ : Strategy K} (h : Ready n s me.id σ) (hs : Sound s σ) {ord : List Nat → List Nat}
    (hnd : σ.owned.keys.Nodup) (hown : ∀ pid r, σ.owned.get? pid = some r → s.pools.get? pid = some r) {e : Err}
    (hch : ∀ s₁, Calm s s₁ → Ready n s₁ me.id σ → choosePoolStrategy ord s₁ me σ = .error e) : planMove ord s me σ = .error e := by
  have ho : ∀ r ∈ σ.owned.vals, 0 < (s.heap r).pledge ∧ 0 < (s.heap r).stake := by
    intro r hr
    obtain ⟨pid, hpid⟩ := (Dict.mem_vals_iff hnd).1 hr
    obtain ⟨h1, h2, -⟩ := hs pid r (hown pid r hpid)
    exact ⟨h1, h2⟩
  have hsat : Sat (fun e' => e' = e) (planMove ord s me σ) (fun _ => False) := by
    unfold planMove
    refine Sat.bind (P := fun _ => True) ?_ (fun cur _ => ?_)
    · rw [currentUtility_ok (fun r hr => (ho r hr).2.ne') (fun e he => ?_)]
      · trivial
      · obtain ⟨r, hr⟩ := h.exist e.1 e.2 (Dict.get?_of_mem h.nodup he)
        exact ⟨r, hr, (hs _ r hr).2.1.ne'⟩
    refine Sat.bind ((expectedUtility_never h.core hs ho (fun e he => (pos_of_minUnit (h.min e he)).le)).mono (fun _ h => h.elim) (fun _ h => h)) (fun exp _ => ?_)
    refine Sat.bind ((findDelegationMove_never h me.stake).mono (fun _ h => h.elim) (fun _ h => h)) ?_
    rintro ⟨s₁, δ⟩ ⟨hd, hg, hδ⟩
    simp only at hd hg hδ
    obtain ⟨hcalm, -, -, hready⟩ := hd.calm h
    have hs₁ := hs.calm h.core hcalm
    refine Sat.bind ((expectedUtility_never hready.core hs₁ (fun r hr => by rw [hδ] at hr; cases hr) hg.nonneg).mono (fun _ h => h.elim) (fun _ h => h)) (fun du _ => ?_)
    rw [hch s₁ hcalm hready]
    exact rfl
  cases hp : planMove ord s me σ with
  | ok res => exact (hsat.of_ok hp).elim
  | error e => rw [hsat.of_error hp]

/-- With a saturation threshold of 0 a myopic agent divides by 0. -/
theorem choosePoolStrategy_zero {n : Nat} {s : State K} (hc : Core n s) (hn : s.rs.k ≤ n) (hk : 1 ≤ s.rs.k) {me : Agent K} {σ : Strategy K}
    (hp : me.profile = .myopic) (hz : ∀ q, s.rs.sat q = 0) (ord : List Nat → List Nat) : choosePoolStrategy ord s me σ = .error .zeroDiv := by
  have key : marginsAndUtility s me σ ((1 + s.rs.k) / 2) = .error .zeroDiv := by
    obtain ⟨j, hj⟩ : ∃ j, (1 + s.rs.k) / 2 = j + 1 := ⟨(1 + s.rs.k) / 2 - 1, by omega⟩
    rw [hj]
    obtain ⟨q, hq⟩ : ∃ q, pledgePerPool me.stake s.rs.beta (j + 1) = .ok q := by simp [pledgePerPool]
    obtain ⟨co, hco⟩ : ∃ co, costPerPool (j + 1) me.cost s.extraFrac = .ok co := by simp [costPerPool]
    have hix := pyIndex_never (l := fixedPools s me) (k := s.rs.k) (t := 1) le_rfl hk (by rw [hc.fixed_length]; omega)
    cases hi : pyIndex (fixedPools s me) ((s.rs.k : Int) - ((1 : Nat) : Int)) with
    | error e => exact (hix.of_error hi).elim
    | ok o =>
      unfold marginsAndUtility
      rw [hq, hco]
      simp only [bind, Except.bind, List.range'_succ, hp]
      unfold loopMargins marginM
      simp only [hi, bind, Except.bind, operatorUtility, hz, pyDiv, if_true]
  unfold choosePoolStrategy searchPools
  simp only [key, bind, Except.bind]

/-- If planning fails, the turn fails, and with the same exception. -/
theorem step_error {s : State K} {a : Nat} {ag : Agent K} {σ : Strategy K} (ha : s.agents.get? a = some ag) (hp : ag.profile ≠ .abstainer)
    (hσ : ag.strategy = some σ) {ord : List Nat → List Nat} {e : Err} (h : planMove ord s ag σ = .error e) : exec s (.step a ord) = .error e := by
  have hu : updateStrategy ord s a = .error e := by
    unfold updateStrategy
    rw [Dict.getE_of ha]
    simp only [bind, Except.bind, hσ, h]
  change agentStep ord s a = .error e
  unfold agentStep
  rw [hu]; rfl

/-- An agent can plan, as long as the books are straight, all open pools may expect a profit and `k` does not exceed the number of place-holders and pools
of other agents. -/
theorem Reachable.plan_never {c : Config K} {s : State K} (hr : Reachable c s) (hq : Books s)
    (hk : 1 ≤ s.rs.k) {me : Nat} (hn : s.rs.k ≤ c.rs.k + 1 + othersPools s me) (h0 : ∀ e ∈ c.people, 0 < e.1) (hb : 0 < c.rs.beta) (ha0 : 0 ≤ s.rs.a0)
    (hpp : ∀ pid r, s.pools.get? pid = some r → 0 < (s.heap r).pp)
    {ag : Agent K} (hsat : ag.profile ≠ .abstainer → SatOK s.rs s.extraFrac ag)
    (ha : s.agents.get? me = some ag) {ord : List Nat → List Nat} (hord : ∀ l, (ord l).Perm l) : ∃ s', updateStrategy ord s me = .ok s' := by
  have hg := hr.good minUnit_pos
  have hbs := (hr.shaped (fun e he => (h0 e he).le) hb).1
  have hid : ag.id = me := hg.inv.core.agentId me ag ha
  have ht := hg.inv.tidy me ag ha
  cases hus : updateStrategy ord s me with
  | ok s' => exact ⟨s', rfl⟩
  | error e' =>
    exfalso
    unfold updateStrategy at hus
    rw [Dict.getE_of ha] at hus
    simp only [bind, Except.bind] at hus
    by_cases hprof : ag.profile = .abstainer
    · simp only [hprof] at hus
      cases hus
    obtain ⟨σ, hσ⟩ := hg.inv.strat me ag ha hprof
    have hready : Ready (c.rs.k + 1) s ag.id σ := by rw [hid]; exact hr.ready_of ha hσ (hq.inRecords ha hσ)
    have hstake : 0 < ag.stake := h0 _ (List.mem_of_getElem? (hg.person ha))
    have hsound : Sound s σ := by
      intro pid r hp
      have hpl := hr.pledge_pos h0 hb hp
      have hev := hr.evaluable hq h0 hb ha0 ha hσ pid r hp
      refine ⟨hpl, lt_of_lt_of_le hpl (hr.balanced r).pledge_le, hev.rest, hpp pid r hp, (hr.fair r).des_nonneg⟩
    have hnever := planMove_never hready hsound (by rw [hid]; exact hn) hk hstake hbs (hsat hprof) hord (ht.owned _ hσ) (fun pid r hr => (hg.inv.owned ha hσ hr).1)
    split at hus
    · cases hus
    · rw [hσ] at hus
      simp only at hus
      cases hpm : planMove ord s ag σ with
      | error e'' => exact (hnever.of_error hpm).elim
      | ok res => rw [hpm] at hus; cases hus

/-- Every event but a change of phase succeeds, as long as all open pools may expect a profit and `k` does not exceed the number of place-holders and pools
of other agents. -/
theorem Reachable.never' {c : Config K} {s : State K} (hr : Reachable c s) (hc : c.simultaneous = false)
    (hk : 1 ≤ s.rs.k)  (h0 : ∀ e ∈ c.people, 0 < e.1) (hb : 0 < c.rs.beta) (ha0 : 0 ≤ s.rs.a0)
    (hpp : ∀ pid r, s.pools.get? pid = some r → 0 < (s.heap r).pp)
    {ev : Event K}
    (hsat : ∀ b ag, (∃ ord, ev = .step b ord) → s.agents.get? b = some ag → ag.profile ≠ .abstainer → SatOK s.rs s.extraFrac ag) (hn : ∀ me ord, ev = .step me ord → s.rs.k ≤ c.rs.k + 1 + othersPools s me) (hv : ev.Valid c.people.length) (hev : ∀ p, ev ≠ .phase p) :
    ∃ s', exec s ev = .ok s' := by
  have hg := hr.good minUnit_pos
  have hbs := (hr.shaped (fun e he => (h0 e he).le) hb).1
  have hexec := hg.exec minUnit_pos hv
  cases he : exec s ev with
  | ok s' => exact ⟨s', rfl⟩
  | error e =>
    exfalso
    cases ev with
    | phase p => exact hev p rfl
    | roundEnd => cases he
    | advance me ord =>
      obtain ⟨ag, ha⟩ : ∃ ag, s.agents.get? me = some ag := by
        have : (s.agents.get? me).isSome := by rw [hg.fixed.isSome]; exact isSome_init c hv.1
        exact Option.isSome_iff_exists.1 this
      have hnone : ag.newStrategy = none := (hg.seq hc).2 me ag ha
      change advance ord s me = .error e at he
      unfold advance at he
      rw [Dict.getE_of ha] at he
      simp only [bind, Except.bind, hnone] at he
      cases he
    | step me ord =>
      obtain ⟨ag, ha⟩ : ∃ ag, s.agents.get? me = some ag := by
        have : (s.agents.get? me).isSome := by rw [hg.fixed.isSome]; exact isSome_init c hv.1
        exact Option.isSome_iff_exists.1 this
      have hid : ag.id = me := hg.inv.core.agentId me ag ha
      have ht := hg.inv.tidy me ag ha
      have hq := hg.seq hc
      have hu := updateStrategy_spec hg.inv hv.2 ha (t := True) (fun _ => hq.1)
      change agentStep ord s me = .error e at he
      unfold agentStep at he
      cases hus : updateStrategy ord s me with
      | error e' =>
        obtain ⟨s', h'⟩ := hr.plan_never (hr.books hc) hk (hn me ord rfl) h0 hb ha0 hpp (hsat me ag ⟨ord, rfl⟩ ha) ha hv.2
        rw [hus] at h'; cases h'
      | ok s₁ =>
        rw [hus] at he
        simp only [bind, Except.bind] at he
        split at he
        · cases he
        · rcases hu.of_ok hus with ⟨hprof, rfl⟩ | ⟨hprof, σ, oν, s₂, hσ, hpl, hpm, hseq⟩
          · have hnone : ag.newStrategy = none := (hq.2 me ag ha)
            unfold advance at he
            rw [Dict.getE_of ha] at he
            simp only [bind, Except.bind, hnone] at he
            cases he
          · have ha1 : s₁.agents.get? me = some { ag with newStrategy := oν } := by
              rw [hpl.eq, get?_setAgent (me := me) (ag := { ag with newStrategy := oν }) hid me, if_pos rfl]
            have := advance_spec minUnit_pos hpl.inv hv.2 ha1 (t := True) (fun htt => (hseq htt).1) (by
              intro htt σ' ν hσ' hν
              simp only at hσ' hν
              rw [hσ] at hσ'; cases hσ'
              exact (hseq htt).2 ν hν)
            exact (this.of_error he).2 trivial

theorem Reachable.never {c : Config K} {s : State K} (hr : Reachable c s) (hc : c.simultaneous = false)
    (hk : 1 ≤ s.rs.k) (h0 : ∀ e ∈ c.people, 0 < e.1) (hb : 0 < c.rs.beta) (ha0 : 0 ≤ s.rs.a0)
    (hpp : ∀ pid r, s.pools.get? pid = some r → 0 < (s.heap r).pp)
    (hsat : ∀ b ag, s.agents.get? b = some ag → ag.profile ≠ .abstainer → SatOK s.rs s.extraFrac ag) {ev : Event K}
    (hn : ∀ me ord, ev = .step me ord → s.rs.k ≤ c.rs.k + 1 + othersPools s me) (hv : ev.Valid c.people.length) (hev : ∀ p, ev ≠ .phase p) :
    ∃ s', exec s ev = .ok s' :=
  hr.never' hc hk h0 hb ha0 hpp (fun b ag _ => hsat b ag) hn hv hev

/-- Every event of a single-phase simulation succeeds. -/
theorem ReachableSinglePhase.never {c : Config K} {s : State K} (h : ReachableSinglePhase c s) (hc : c.simultaneous = false)
    (hk : 1 ≤ c.rs.k) (h0 : ∀ e ∈ c.people, 0 < e.1) (hb : 0 < c.rs.beta) (ha0 : 0 ≤ c.rs.a0)
    (hsat : ∀ b ag, s.agents.get? b = some ag → ag.profile ≠ .abstainer → SatOK c.rs c.extraFrac ag) {ev : Event K} (hv : ev.Valid c.people.length) (hev : ∀ p, ev ≠ .phase p) :
    ∃ s', exec s ev = .ok s' := by
  have hpar := h.params minUnit_pos
  exact (Reachable.of_single h).never hc (by rw [hpar.rs]; exact hk) h0 hb (by rw [hpar.rs]; exact ha0)
    (fun pid r hp => (h.pp_pos hc h0 hb ha0 hp).1) (by rw [hpar.rs, hpar.extraFrac]; exact hsat) (fun me _ _ => by rw [hpar.rs]; omega) hv hev

/-- An agent of a single-phase simulation can plan, as long as the books are straight. -/
theorem Clean.plan_never {c : Config K} {s : State K} (h : Clean c s) (hq : Books s)
    (hk : 1 ≤ c.rs.k) (h0 : ∀ e ∈ c.people, 0 < e.1) (hb : 0 < c.rs.beta) (ha0 : 0 ≤ c.rs.a0)
    (hsat : ∀ b ag, s.agents.get? b = some ag → ag.profile ≠ .abstainer → SatOK c.rs c.extraFrac ag) {me : Nat} (hme : me < c.people.length)
    {ord : List Nat → List Nat} (hord : ∀ l, (ord l).Perm l) : ∃ s', updateStrategy ord s me = .ok s' := by
  have hpar := h.single.params minUnit_pos
  have hg := (Reachable.of_single h.single).good minUnit_pos
  obtain ⟨ag, ha⟩ : ∃ ag, s.agents.get? me = some ag := by
    have : (s.agents.get? me).isSome := by rw [hg.fixed.isSome]; exact isSome_init c hme
    exact Option.isSome_iff_exists.1 this
  exact (Reachable.of_single h.single).plan_never hq (by rw [hpar.rs]; exact hk) (by rw [hpar.rs]; omega) h0 hb (by rw [hpar.rs]; exact ha0)
    (fun pid r hp => (h.pp_pos h0 hb ha0 hp).1) (by rw [hpar.rs, hpar.extraFrac]; exact hsat me ag ha) ha hord

end RSE
