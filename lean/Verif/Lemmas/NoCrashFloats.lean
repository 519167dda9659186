import Verif.Lemmas.NoCrash
import Verif.Lemmas.Drift

/-!
# No exceptions in binary64, as long as pledges exceed the rounding errors (single phase, sequential activation)
-/

set_option linter.unusedSectionVars false
set_option exponentiation.threshold 2000

namespace RSE

section
variable {F : Type} [LinearOrder F] [Zero F] [One F] [Add F] [Sub F] [Mul F] [Div F] [Neg F] [NatCast F] [FSum F]

theorem operatorUtility_ok' {rs : RS F} {st pl m c : F} (h : st ≠ 0) : Sat NoErr (operatorUtility rs st pl m c) (fun _ => True) := by
  simp [operatorUtility, pyDiv, h, bind, Except.bind, pure, Except.pure, Sat]

theorem delegatorUtility_ok' {rs : RS F} {x st pl m c : F} (h : st ≠ 0) : Sat NoErr (delegatorUtility rs x st pl m c) (fun _ => True) := by
  simp [delegatorUtility, pyDiv, h, bind, Except.bind, pure, Except.pure, Sat]

theorem loopMargins_ok' {f : Nat → Py (F × F)} : ∀ (l : List Nat) (ms : List F) (u : F), (∀ t ∈ l, Sat NoErr (f t) (fun _ => True)) →
    Sat NoErr (loopMargins f l ms u) (fun _ => True)
  | [], _, _, _ => trivial
  | t :: ts, ms, u, h => by
    unfold loopMargins
    exact Sat.bind (h t List.mem_cons_self) (fun _ _ => loopMargins_ok' ts _ _ (fun t ht => h t (List.mem_cons_of_mem _ ht)))

theorem Core.rank_none' {n : Nat} {s : State F} (h : Core n s) {k : Key F} (hk : (k, none) ∈ s.rank) : k = noneKey := by
  rw [h.rankPerm.mem_iff] at hk
  rcases List.mem_append.1 hk with hk | hk
  · exact (Prod.mk.inj (List.eq_of_mem_replicate hk)).1
  · obtain ⟨e, -, he⟩ := List.mem_map.1 hk; cases he

/-- what an agent who is about to plan knows (`Ready` without the balance of the pools) -/
structure Informed (n : Nat) (s : State F) (a : Nat) (σ : Strategy F) : Prop where
  core : Core n s
  nodup : σ.allocs.keys.Nodup
  min : ∀ e ∈ σ.allocs, minUnit ≤ e.2
  agree : ∀ pid r, s.pools.get? pid = some r → (s.heap r).delegators.get? a = σ.allocs.get? pid
  exist : ∀ pid x, σ.allocs.get? pid = some x → ∃ r, s.pools.get? pid = some r

theorem Informed.of_planned {n : Nat} {s s' : State F} {a : Nat} {σ : Strategy F} (h : Informed n s a σ) (hp : Planned a σ.allocs.keys s s')
    (hr : Restored a σ.allocs s s') (hc : Core n s') : Informed n s' a σ := by
  refine ⟨hc, h.nodup, h.min, fun pid r hpr => ?_, fun pid x hx => by rw [hp.pools]; exact h.exist pid x hx⟩
  rw [hp.pools] at hpr
  rcases hr pid r hpr with h1 | h1
  · rw [h1]; exact h.agree pid r hpr
  · rw [h1]
    cases hx : σ.allocs.get? pid with
    | none => simp only; rw [h.agree pid r hpr, hx]
    | some x =>
      have := h.min _ (Dict.mem_of_get? hx)
      simp [recorded, not_lt.2 this]

end

/-- the open pools can be evaluated without an error -/
structure Sound64 (s : State B64) (σ : Strategy B64) : Prop where
  pledge : ∀ pid r, s.pools.get? pid = some r → 0 < (s.heap r).pledge
  stake : ∀ pid r, s.pools.get? pid = some r → 0 < (s.heap r).stake
  rest : ∀ pid r, s.pools.get? pid = some r → 0 < (s.heap r).stake - (σ.allocs.get? pid).getD 0
  pp : ∀ pid r, s.pools.get? pid = some r → 0 < (s.heap r).pp
  des : ∀ pid r, s.pools.get? pid = some r → 0 ≤ (s.heap r).des

theorem B64.sub_pos {a b : B64} (h : b.1 < a.1) : 0 < a - b := by
  have := B64.sub_err a b
  rw [abs_of_pos (by linarith : 0 < a.1 - b.1)] at this
  have h1 := (abs_le.1 this).1
  have hu : ulp < 1 := by unfold ulp; norm_num
  have : ulp * (a.1 - b.1) < a.1 - b.1 := by nlinarith
  rw [B64.lt_def]
  change (0 : ℚ) < _
  linarith

theorem poolKey_lt_none64 {p : Pool B64} (h1 : 0 < p.pp) (h2 : 0 ≤ p.des) : poolKey p < noneKey := by
  unfold poolKey noneKey
  rw [Prod.Lex.toLex_lt_toLex]
  have hneg : ∀ x : B64, (-x).1 = -x.1 := fun _ => rfl
  have h0 : (0 : B64).1 = 0 := rfl
  rcases lt_or_eq_of_le h2 with h | h
  · left
    change (-p.des).1 < 0
    rw [hneg]
    have : (0 : ℚ) < p.des.1 := h
    linarith
  · right
    refine ⟨by rw [← h]; exact RoundedArith.neg_zero, ?_⟩
    rw [Prod.Lex.toLex_lt_toLex]
    left
    change (-p.pp).1 < 0
    rw [hneg]
    have : (0 : ℚ) < p.pp.1 := h1
    linarith

theorem nonMyopicStake_ok64 {rs : RS B64} {total : B64} {heap : Ref → Pool B64} {rk : SKL (Key B64) (Option Ref)} (hs : rk.Sorted) {r : Ref}
    (hm : (poolKey (heap r), some r) ∈ rk) (hbefore : ∀ k, (k, none) ∈ rk → poolKey (heap r) < k) (hp : 0 < (heap r).pledge) (hst : 0 < (heap r).stake) :
    Sat NoErr (nonMyopicStake rs total heap rk r) (fun v => 0 < v) := by
  obtain ⟨i, h1, -, h3⟩ := SKL.index_ok hs hm
  unfold nonMyopicStake
  simp only [h1]
  refine Sat.bind (P := fun j => j = i) rfl ?_
  rintro _ rfl
  refine Sat.bind (P := fun _ => True) ?_ (fun _ _ => ?_)
  · apply Sat.mapM
    intro e he
    cases e with
    | some q => trivial
    | none =>
      exfalso
      unfold SKL.vals at he
      rw [← List.map_take] at he
      obtain ⟨⟨k, o⟩, he, hee⟩ := List.mem_map.1 he
      simp only at hee
      subst hee
      exact absurd (h3 _ he).2 (not_le.2 (hbefore k (List.mem_of_mem_take he)))
  · change 0 < nonMyopicStakeFromRank _ _ _ _
    unfold nonMyopicStakeFromRank
    split
    · exact lt_of_lt_of_le hst (le_max_right _ _)
    · exact hp

theorem delegatorUtilityFromPool_ok64 {n : Nat} {s : State B64} (hc : Core n s) {me : Agent B64} {σ : Strategy B64} (h : Sound64 s σ) {pid : Nat} {r : Ref}
    (hp : s.pools.get? pid = some r) {x : B64} (hx : 0 ≤ x) : Sat NoErr (delegatorUtilityFromPool s me σ r x) (fun _ => True) := by
  have h1 := h.pledge pid r hp
  have h2 := h.stake pid r hp
  have h3 := h.rest pid r hp
  have h4 := h.pp pid r hp
  have h5 := h.des pid r hp
  rw [← (hc.poolRef _ _ hp).2.1] at h3
  unfold delegatorUtilityFromPool
  simp only
  revert h3
  cases σ.allocs.get? (s.heap r).id
  all_goals
    simp only [Option.getD_none, Option.getD_some]
    generalize (s.heap r).stake - _ = S
    intro h3
    have hne : S + x ≠ 0 := (lt_of_lt_of_le h3 (RoundedArith.le_add hx)).ne'
    split
    · refine Sat.bind (nonMyopicStake_ok64 hc.rankSorted (hc.mem_rank hp) (fun k hk => ?_) h1 h2) (fun v hv => delegatorUtility_ok' ?_)
      · rw [hc.rank_none' hk]; exact poolKey_lt_none64 h4 h5
      · exact (lt_of_lt_of_le hv (le_max_left _ _)).ne'
    · exact delegatorUtility_ok' hne

theorem operatorUtilityFromStrategy_ok64 {s : State B64} {me : Agent B64} {τ : Strategy B64}
    (h : ∀ r ∈ τ.owned.vals, 0 < (s.heap r).pledge ∧ 0 < (s.heap r).stake) : Sat NoErr (operatorUtilityFromStrategy s me τ) (fun _ => True) := by
  unfold operatorUtilityFromStrategy
  simp only
  split
  · apply accM_sat
    intro r hr
    refine Sat.bind (nonMyopicStake_ok64 (tempRankings_sorted _ _ _) ((mem_tempRankings s me _).2 (Or.inr ⟨r, hr, rfl⟩)) (fun k hk => ?_) (h r hr).1 (h r hr).2)
      (fun v hv => operatorUtility_ok' hv.ne')
    rcases (mem_tempRankings s me _).1 hk with ⟨r', -, -, he⟩ | ⟨r', -, he⟩ <;> cases he
  · exact accM_sat _ _ (fun r hr => operatorUtility_ok' (h r hr).2.ne')

theorem expectedUtility_ok64 {n : Nat} {s : State B64} (hc : Core n s) {me : Agent B64} {σ τ : Strategy B64} (h : Sound64 s σ)
    (ho : ∀ r ∈ τ.owned.vals, 0 < (s.heap r).pledge ∧ 0 < (s.heap r).stake) (ha : ∀ e ∈ τ.allocs, 0 ≤ e.2) :
    Sat NoErr (expectedUtility s me σ τ) (fun _ => True) := by
  unfold expectedUtility
  refine Sat.bind (P := fun _ => True) ?_ (fun u _ => ?_)
  · split
    · exact Sat.map (operatorUtilityFromStrategy_ok64 ho) (fun _ _ => trivial)
    · trivial
  · apply accM_sat
    rintro ⟨r, x⟩ hm
    obtain ⟨e, hmem, he⟩ := List.mem_filterMap.1 hm
    obtain ⟨r', hr', he⟩ := Option.map_eq_some_iff.1 he
    cases he
    exact delegatorUtilityFromPool_ok64 hc h hr' (ha e hmem)

theorem currentUtility_ok64 {n : Nat} {s : State B64} {a : Nat} {σ : Strategy B64} (hi : Informed n s a σ) (h : Sound64 s σ)
    (ho : ∀ r ∈ σ.owned.vals, 0 < (s.heap r).stake) : Sat NoErr (currentUtility s σ) (fun _ => True) := by
  unfold currentUtility
  refine Sat.bind (accM_sat _ _ (fun r hr => operatorUtility_ok' (ho r hr).ne')) (fun u _ => accM_sat _ _ (fun e he => ?_))
  obtain ⟨r, hr⟩ := hi.exist e.1 e.2 (Dict.get?_of_mem hi.nodup he)
  rw [Dict.getE_of hr]
  exact Sat.bind (P := fun p => p = r) rfl (fun p hp => by subst hp; exact delegatorUtility_ok' (h.stake _ _ hr).ne')

/-! ### Margins -/

theorem marginsAndUtility_ok64 {n : Nat} {s : State B64} (hc : Core n s) {me : Agent B64} (hn : s.rs.k ≤ n) {σ : Strategy B64} {m : Nat} (h1 : 1 ≤ m)
    (h2 : m ≤ s.rs.k) (hq : ∀ q, pledgePerPool me.stake s.rs.beta m = .ok q → 0 < q ∧ s.rs.sat q ≠ 0) :
    Sat NoErr (marginsAndUtility s me σ m) (fun _ => True) := by
  have hm : m ≠ 0 := by omega
  obtain ⟨q, hq'⟩ : ∃ q, pledgePerPool me.stake s.rs.beta m = .ok q := by simp [pledgePerPool, hm]
  obtain ⟨co, hco⟩ : ∃ co, costPerPool m me.cost s.extraFrac = .ok co := by simp [costPerPool, hm]
  obtain ⟨hqpos, hsat⟩ := hq q hq'
  have hlen := hc.fixed_length me
  unfold marginsAndUtility
  rw [hq', hco]
  simp only [bind, Except.bind]
  have hix : ∀ t ∈ List.range' 1 m, Sat NoErr (pyIndex (fixedPools s me) ((s.rs.k : Int) - (t : Int))) (fun _ => True) := by
    intro t ht
    have ht := List.mem_range'_1.1 ht
    exact pyIndex_never (l := fixedPools s me) (k := s.rs.k) (t := t) (by omega) (by omega) (by omega)
  split
  · refine loopMargins_ok' _ _ _ (fun t ht => ?_)
    unfold marginNM
    refine Sat.bind (hix t ht) (fun e _ => ?_)
    have hmain : ∀ td tpp : B64, Sat NoErr (if potentialProfit s.rs q co < td + boost then do
        let u ← operatorUtility s.rs q q 0 co
        return ((0 : B64), u)
      else do
        let u ← operatorUtility s.rs (s.rs.sat q) q (suitableMargin (potentialProfit s.rs q co) (max (td + boost) tpp)) co
        return (suitableMargin (potentialProfit s.rs q co) (max (td + boost) tpp), u) : Py (B64 × B64)) (fun _ => True) := by
      intro td tpp
      split
      · exact Sat.bind (operatorUtility_ok' hqpos.ne') (fun _ _ => trivial)
      · exact Sat.bind (operatorUtility_ok' hsat) (fun _ _ => trivial)
    cases e with
    | none => exact hmain 0 0
    | some r => exact hmain (s.heap r).des (s.heap r).pp
  · refine loopMargins_ok' _ _ _ (fun t ht => ?_)
    unfold marginM
    exact Sat.bind (hix t ht) (fun e _ => Sat.bind (operatorUtility_ok' hsat) (fun _ _ => trivial))

/-! ### Rounding errors -/

/-- a pool's pledge survives `N` changes -/
theorem DriftOK.rest {c : Config B64} (h0 : ∀ e ∈ c.people, 0 ≤ e.1) {N : Nat} {p : Pool B64} (h : DriftOK c N p)
    (hpl : slack (2 * c.funds) (2 * N) < p.pledge.1) (a : Nat) : 0 < p.stake ∧ 0 < p.stake - (p.delegators.get? a).getD 0 := by
  obtain ⟨m, hm, hd⟩ := h.drift
  have hT : 0 ≤ 2 * c.funds := by have := h.pledge; linarith [this.1, this.2]
  have hsl := slack_mono hT (show m ≤ 2 * N by omega)
  have h1 := (abs_le.1 hd).1
  have hsum := (sumQ_le_funds h0 h.nodup h.amounts).1
  unfold Pool.due at h1
  refine ⟨?_, B64.sub_pos ?_⟩
  · rw [B64.lt_def]; change (0 : ℚ) < _; linarith
  · cases hg : p.delegators.get? a with
    | none => change (0 : ℚ) < _; linarith
    | some x =>
      have hs := Dict.sumQ_erase hg
      have hA : ∀ e ∈ p.delegators.erase a, Amount c e.1 e.2 := fun e he => h.amounts e ((Dict.erase_sublist _ _).subset he)
      have hnd : (p.delegators.erase a).keys.Nodup := h.nodup.sublist ((Dict.erase_sublist _ _).map _)
      have := (sumQ_le_funds h0 hnd hA).1
      simp only [Option.getD_some]
      linarith

/-- pledge and potential profit of the open pools, which planning does not change -/
structure Backed (D : ℚ) (s : State B64) : Prop where
  pledge : ∀ pid r, s.pools.get? pid = some r → D < (s.heap r).pledge.1
  pp : ∀ pid r, s.pools.get? pid = some r → 0 < (s.heap r).pp
  des : ∀ pid r, s.pools.get? pid = some r → 0 ≤ (s.heap r).des

theorem Backed.of_planned {D : ℚ} {n : Nat} {s s' : State B64} {a : Nat} {ids : List Nat} (h : Backed D s) (hc : Core n s) (hp : Planned a ids s s') :
    Backed D s' := by
  have hs : ∀ pid r, s'.pools.get? pid = some r → s.pools.get? pid = some r ∧ SamePool (s.heap r) (s'.heap r) := by
    intro pid r hpr
    rw [hp.pools] at hpr
    exact ⟨hpr, hp.same r (hc.poolRef _ _ hpr).1⟩
  refine ⟨fun pid r hpr => ?_, fun pid r hpr => ?_, fun pid r hpr => ?_⟩
  · obtain ⟨h1, h2⟩ := hs pid r hpr; rw [h2.pledge]; exact h.pledge pid r h1
  · obtain ⟨h1, h2⟩ := hs pid r hpr; rw [h2.pp]; exact h.pp pid r h1
  · obtain ⟨h1, h2⟩ := hs pid r hpr; rw [h2.des]; exact h.des pid r h1

theorem Backed.sound {c : Config B64} (h0 : ∀ e ∈ c.people, 0 ≤ e.1) {D : ℚ} {n N : Nat} {s : State B64} {a : Nat} {σ : Strategy B64} (h : Backed D s)
    (hi : Informed n s a σ) (hd : AllPools (DriftOK c N) s) (hD : slack (2 * c.funds) (2 * N) ≤ D) : Sound64 s σ := by
  have hk : ∀ pid r, s.pools.get? pid = some r → slack (2 * c.funds) (2 * N) < (s.heap r).pledge.1 := fun pid r hp => hD.trans_lt (h.pledge pid r hp)
  refine ⟨fun pid r hp => ?_, fun pid r hp => ((hd r).rest h0 (hk pid r hp) a).1, fun pid r hp => ?_, h.pp, h.des⟩
  · have hT : 0 ≤ 2 * c.funds := by have := (hd r).pledge; linarith [this.1, this.2]
    have hz : (0 : ℚ) ≤ slack (2 * c.funds) (2 * N) := by
      have := slack_mono hT (Nat.zero_le (2 * N))
      simpa [slack] using this
    rw [B64.lt_def]
    exact hz.trans_lt (hk pid r hp)
  · rw [← hi.agree pid r hp]
    exact ((hd r).rest h0 (hk pid r hp) a).2

/-! ### Planning -/

theorem findDelegationMove_ok64 {n : Nat} {s : State B64} {me : Agent B64} {σ : Strategy B64} (h : Informed n s me.id σ) (stake : B64) :
    Sat NoErr (findDelegationMove s me σ stake) (fun res => Informed n res.1 me.id σ ∧ Planned me.id σ.allocs.keys s res.1 ∧
      GoodAllocs res.1 me.id res.2.allocs ∧ res.2.owned = []) := by
  have := findDelegationMove_spec h.core me σ h.nodup stake
  refine Sat.intro (fun res hr => ?_) (fun e he => ?_)
  · obtain ⟨h1, h2, h3, h4, h5⟩ := this.of_ok hr
    have hp := Planned.of_shuf h2
    exact ⟨h.of_planned hp h3 h1, hp, h4, h5⟩
  · obtain ⟨-, pid, hp, hn⟩ := this.of_error he
    obtain ⟨x, hx⟩ := Dict.mem_keys_iff.1 hp
    obtain ⟨r, hr⟩ := h.exist pid x hx
    rw [hr] at hn; cases hn

theorem GoodAllocs.nonneg64 {s : State B64} {a : Nat} {d : Dict B64} (h : GoodAllocs s a d) : ∀ e ∈ d, 0 ≤ e.2 :=
  fun _ hm => RoundedArith.minUnit_pos.le.trans (h.good _ _ (Dict.get?_of_mem h.nodup hm)).1

theorem choosePoolStrategy_ok64 {c : Config B64} (h0 : ∀ e ∈ c.people, 0 ≤ e.1) {D : ℚ} {n N : Nat} {s : State B64} {me : Agent B64} {σ : Strategy B64}
    (h : Informed n s me.id σ) (hb : Backed D s) (hd : AllPools (DriftOK c N) s) (hD : slack (2 * c.funds) (2 * (N + 2)) ≤ D)
    (hn : s.rs.k ≤ n) (hk : 1 ≤ s.rs.k) {ord : List Nat → List Nat} (hord : ∀ l, (ord l).Perm l) (hnd : σ.owned.keys.Nodup)
    (hown : ∀ pid r, σ.owned.get? pid = some r → s.pools.get? pid = some r) (hA : ∀ e ∈ σ.allocs, Amount c me.id e.2)
    (hok : ∀ k q, pledgePerPool me.stake s.rs.beta k = .ok q → PledgeOK c q)
    (hq : ∀ m q, 1 ≤ m → m ≤ s.rs.k → pledgePerPool me.stake s.rs.beta m = .ok q → D < q.1 ∧ 0 < q ∧ s.rs.sat q ≠ 0) :
    Sat NoErr (choosePoolStrategy ord s me σ) (fun _ => True) := by
  have hc := h.core
  have hg := driftOK_graded h0
  unfold choosePoolStrategy
  refine Sat.bind (searchPools_sat (s.rs.k + 1) 1 s.rs.k (fun t h1 h2 => marginsAndUtility_ok64 hc hn h1 h2 (fun q hq' => (hq t q h1 h2 hq').2)) hk (by omega)) ?_
  rintro ⟨k, margins⟩ ⟨hk1, hkk, u, hm⟩
  simp only at hk1 hkk hm
  have hlen : margins.length = k := ((marginsAndUtility_sat s me σ k).of_ok hm).2
  obtain ⟨s2, d, e2, c2, p2, i2, f2, kd2, vd2, l2, sub2, cp2⟩ := determinePoolsToKeep_spec hc hord me.id σ.allocs.keys hnd
    (fun pid r hg => (hc.poolRef _ _ (hown _ _ hg)).1) k
  have hall2 := determinePoolsToKeep_all hd ord σ k
  rw [e2] at hall2
  simp only [e2]
  refine Sat.bind (P := fun p => p = (s2, d)) rfl ?_
  rintro _ rfl
  have hspec := findOperatorMove_spec c2 me h.nodup p2 f2 (fun pid r hp => (hc.poolRef _ _ hp).1) (by omega : 0 < k) hkk kd2 vd2
    (by rw [l2]; exact Nat.min_le_left _ _) i2 (by
      intro i hi
      obtain ⟨r, hr⟩ := Dict.mem_keys_iff.1 (sub2 i hi)
      rw [i2]
      exact (hc.poolRef _ _ (hown _ _ hr)).2.2.2) cp2 hm hlen
  have hall := findOperatorMove_graded hg c2.poolsInj hall2.1 me h.nodup hA k vd2 margins (by rw [p2.rs]; exact hok k)
  refine Sat.bind ((hspec.and hall).mono (E' := NoErr) (fun e he => ?_) (fun _ h => h)) ?_
  · obtain ⟨⟨-, pid, hp, hnone⟩, -⟩ := he
    obtain ⟨x, hx⟩ := Dict.mem_keys_iff.1 hp
    obtain ⟨r, hr⟩ := h.exist pid x hx
    rw [hr] at hnone; cases hnone
  rintro ⟨s', τ⟩ ⟨⟨c3, p3, r3, o3⟩, d3⟩
  simp only at c3 p3 r3 o3 d3
  have hi3 := h.of_planned p3 r3 c3
  have hb3 := hb.of_planned hc p3
  refine Sat.bind (expectedUtility_ok64 c3 (hb3.sound h0 hi3 d3 hD) (fun r hr => ?_) o3.allocs.nonneg64) (fun _ _ => trivial)
  obtain ⟨q', c', margins', u', -, hqq, -, hl0, hlk, hdr, -⟩ := o3.shape
  obtain ⟨pid, hpid⟩ := Dict.mem_vals_get o3.nodup hr
  obtain ⟨h1, h2, -⟩ := hq _ _ hl0 hlk hqq
  have hpl : (s'.heap r).pledge = q' := by
    obtain ⟨-, -, m, -, ⟨r₀, -, he⟩ | ⟨-, -, he⟩⟩ := hdr pid r hpid <;> rw [he] <;> rfl
  refine ⟨by rw [hpl]; exact h2, ((d3 r).rest h0 ?_ me.id).1⟩
  rw [hpl]; exact hD.trans_lt h1

theorem planMove_ok64 {c : Config B64} (h0 : ∀ e ∈ c.people, 0 ≤ e.1) {D : ℚ} {n N : Nat} {s : State B64} {me : Agent B64} {σ : Strategy B64}
    (h : Informed n s me.id σ) (hb : Backed D s) (hd : AllPools (DriftOK c N) s) (hD : slack (2 * c.funds) (2 * (N + 3)) ≤ D)
    (hn : s.rs.k ≤ n) (hk : 1 ≤ s.rs.k) {ord : List Nat → List Nat} (hord : ∀ l, (ord l).Perm l) (hnd : σ.owned.keys.Nodup)
    (hown : ∀ pid r, σ.owned.get? pid = some r → s.pools.get? pid = some r) (hA : ∀ e ∈ σ.allocs, Amount c me.id e.2)
    (hok : ∀ k q, pledgePerPool me.stake s.rs.beta k = .ok q → PledgeOK c q)
    (hq : ∀ m q, 1 ≤ m → m ≤ s.rs.k → pledgePerPool me.stake s.rs.beta m = .ok q → D < q.1 ∧ 0 < q ∧ s.rs.sat q ≠ 0) :
    Sat NoErr (planMove ord s me σ) (fun _ => True) := by
  have hg := driftOK_graded h0
  have hT : 0 ≤ 2 * c.funds := by have := (hd 0).pledge; linarith [this.1, this.2]
  have hs := hb.sound h0 h hd ((slack_mono hT (by omega)).trans hD)
  have ho : ∀ r ∈ σ.owned.vals, 0 < (s.heap r).pledge ∧ 0 < (s.heap r).stake := by
    intro r hr
    obtain ⟨pid, hpid⟩ := Dict.mem_vals_get hnd hr
    exact ⟨hs.pledge pid r (hown pid r hpid), hs.stake pid r (hown pid r hpid)⟩
  unfold planMove
  refine Sat.bind (currentUtility_ok64 h hs (fun r hr => (ho r hr).2)) (fun cur _ => ?_)
  refine Sat.bind (expectedUtility_ok64 h.core hs ho (fun e he => RoundedArith.minUnit_pos.le.trans (h.min e he))) (fun exp _ => ?_)
  refine Sat.bind (((findDelegationMove_ok64 h me.stake).and (findDelegationMove_graded hg h.core.poolsInj hd me h.nodup hA me.stake)).mono
    (E' := NoErr) (fun _ h => h.1) (fun _ h => h)) ?_
  rintro ⟨s₁, δ⟩ ⟨⟨hi1, hp1, hg1, hδ⟩, hd1, -, -⟩
  simp only at hi1 hp1 hg1 hδ hd1
  have hb1 := hb.of_planned h.core hp1
  have hs1 := hb1.sound h0 hi1 hd1 ((slack_mono hT (by omega)).trans hD)
  refine Sat.bind (expectedUtility_ok64 hi1.core hs1 (fun r hr => by rw [hδ] at hr; cases hr) hg1.nonneg64) (fun du _ => ?_)
  exact Sat.bind (choosePoolStrategy_ok64 h0 hi1 hb1 hd1 hD (by rw [hp1.rs]; exact hn) (by rw [hp1.rs]; exact hk) hord hnd
    (by rw [hp1.pools]; exact hown) hA (by rw [hp1.rs]; exact hok) (by rw [hp1.rs]; exact hq)) (fun _ _ => trivial)

/-! ### Simulating -/

/-- every pool that an agent may open has a pledge of more than `D`, promises a profit and can be saturated -/
def Solid (c : Config B64) (D : ℚ) : Prop := ∀ e ∈ c.people, e.2.2 ≠ .abstainer → ∀ m q co, 1 ≤ m → m ≤ c.rs.k →
  pledgePerPool e.1 c.rs.beta m = .ok q → costPerPool m e.2.1 c.extraFrac = .ok co → D < q.1 ∧ 0 < q ∧ 0 < potentialProfit c.rs q co ∧ c.rs.sat q ≠ 0

theorem ReachableSinglePhase.backed {c : Config B64} {s : State B64} (h : ReachableSinglePhase c s) {D : ℚ} (hs : Solid c D) : Backed D s := by
  have hmin := RoundedArith.minUnit_pos (F := B64)
  have hr := Reachable.of_single h
  have hg := hr.good hmin
  have key : ∀ pid r, s.pools.get? pid = some r → D < (s.heap r).pledge.1 ∧ 0 < (s.heap r).pp := by
    intro pid r hp
    obtain ⟨ag, σ, ha, hσ, ho⟩ := hg.inv.owner hp
    have hprof : ag.profile ≠ .abstainer := fun hprof => by
      have := (hg.inv.abst _ ag ha hprof).1
      rw [hσ] at this; cases this
    obtain ⟨rs, f, ⟨rfl, rfl⟩, ht⟩ := (h.terms hmin _ ag ha).strategy σ hσ
    have hne : σ.owned ≠ [] := by rintro hne; rw [hne] at ho; cases ho
    obtain ⟨q, co, hq, hco, -, hall⟩ := ht.exists_terms hne
    obtain ⟨h1, -, -, h2⟩ := hall pid r ho
    obtain ⟨k1, -, k2, -⟩ := hs _ (List.mem_of_getElem? (hg.person ha)) hprof _ q co (List.length_pos_of_ne_nil hne) ht.len hq hco
    rw [h1, h2 trivial]
    exact ⟨k1, k2⟩
  exact ⟨fun pid r hp => (key pid r hp).1, fun pid r hp => (key pid r hp).2, fun pid r hp => (hr.fair r).des_nonneg⟩

/-- Every event of a single-phase simulation succeeds while the rounding errors are small. -/
theorem ReachableSinglePhase.ok64 {c : Config B64} {s : State B64} (h : ReachableSinglePhase c s) (hc : c.simultaneous = false) (hk : 1 ≤ c.rs.k)
    (h0 : ∀ e ∈ c.people, 0 ≤ e.1) (hbeta : 0 ≤ c.rs.beta) {D : ℚ} (hs : Solid c D) {N : Nat} (hd : AllPools (DriftOK c N) s)
    {ev : Event B64} (hD : slack (2 * c.funds) (2 * (N + ev.cost)) ≤ D) (hv : ev.Valid c.people.length) (hev : ∀ p, ev ≠ .phase p) :
    ∃ s', exec s ev = .ok s' := by
  have hmin := RoundedArith.minUnit_pos (F := B64)
  have hr := Reachable.of_single h
  have hg := hr.good hmin
  have hpar := h.params hmin
  have hT : 0 ≤ 2 * c.funds := by have := (hd 0).pledge; linarith [this.1, this.2]
  cases he : exec s ev with
  | ok s' => exact ⟨s', rfl⟩
  | error e =>
    exfalso
    cases ev with
    | phase p => exact hev p rfl
    | roundEnd => cases he
    | advance me ord =>
      obtain ⟨ag, ha⟩ : ∃ ag, s.agents.get? me = some ag := by
        have : (s.agents.get? me).isSome := by rw [hg.fixed.isSome]; exact isSome_init c hv.1
        exact Option.isSome_iff_exists.1 this
      have hnone : ag.newStrategy = none := (hg.seq hc).2 me ag ha
      change advance ord s me = .error e at he
      unfold advance at he
      rw [Dict.getE_of ha] at he
      simp only [bind, Except.bind, hnone] at he
      cases he
    | step me ord =>
      obtain ⟨ag, ha⟩ : ∃ ag, s.agents.get? me = some ag := by
        have : (s.agents.get? me).isSome := by rw [hg.fixed.isSome]; exact isSome_init c hv.1
        exact Option.isSome_iff_exists.1 this
      have hid : ag.id = me := hg.inv.core.agentId me ag ha
      have ht := hg.inv.tidy me ag ha
      have hq := hg.seq hc
      have hu := updateStrategy_spec hg.inv hv.2 ha (t := True) (fun _ => hq.1)
      change agentStep ord s me = .error e at he
      unfold agentStep at he
      cases hus : updateStrategy ord s me with
      | error e' =>
        unfold updateStrategy at hus
        rw [Dict.getE_of ha] at hus
        simp only [bind, Except.bind] at hus
        by_cases hprof : ag.profile = .abstainer
        · simp only [hprof] at hus
          cases hus
        obtain ⟨σ, hσ⟩ := hg.inv.strat me ag ha hprof
        have hm := hr.allocsMin hmin
        obtain ⟨-, hterms⟩ := hr.terms h0 hbeta
        have hbooks := hq.1.books
        have hinf : Informed (c.rs.k + 1) s ag.id σ := by
          rw [hid]
          refine ⟨hg.inv.core, ht.allocs _ hσ, (hm me ag ha).1 σ hσ, fun pid r hp => ?_, fun pid x hx => ?_⟩
          · rw [hbooks.agree pid r hp me, allocOf_eq ha hσ]
          · obtain ⟨-, r, hr, -⟩ := hbooks.good me pid x (by rw [allocOf_eq ha hσ]; exact hx)
            exact ⟨r, hr⟩
        have hper := hg.person ha
        have hmem := List.mem_of_getElem? hper
        have hst := hg.stake_ge h0 ha
        have hnever := planMove_ok64 h0 (ord := ord) hinf (h.backed hs) hd ((slack_mono hT (by simp only [Event.cost]; omega)).trans hD)
          (by rw [hpar.rs]; omega) (by rw [hpar.rs]; exact hk) hv.2 (ht.owned _ hσ) (fun pid r hr => (hg.inv.owned ha hσ hr).1)
          (by rw [hid]; exact (amounts_of_terms hg hm hterms ha).1 σ hσ)
          (by
            rw [hpar.rs]
            intro k q hq
            refine ⟨pledge_nonneg hq hst hbeta, me, _, hper, ?_⟩
            unfold pledgePerPool at hq
            split at hq
            · cases hq
            · rename_i hk
              cases hq
              exact (min_le_left _ _).trans (RoundedArith.div_le hst (RoundedArith.one_le_cast hk)))
          (by
            rw [hpar.rs]
            intro m q h1 h2 hq
            obtain ⟨co, hco⟩ : ∃ co, costPerPool m ag.cost c.extraFrac = .ok co := by simp [costPerPool, Nat.one_le_iff_ne_zero.1 h1]
            obtain ⟨k1, k2, -, k3⟩ := hs _ hmem hprof m q co h1 h2 hq hco
            exact ⟨k1, k2, k3⟩)
        split at hus
        · cases hus
        · rw [hσ] at hus
          simp only at hus
          cases hpm : planMove ord s ag σ with
          | error e'' => exact (hnever.of_error hpm).elim
          | ok res => rw [hpm] at hus; cases hus
      | ok s₁ =>
        rw [hus] at he
        simp only [bind, Except.bind] at he
        split at he
        · cases he
        · rcases hu.of_ok hus with ⟨hprof, rfl⟩ | ⟨hprof, σ, oν, s₂, hσ, hpl, hpm, hseq⟩
          · have hnone : ag.newStrategy = none := (hq.2 me ag ha)
            unfold advance at he
            rw [Dict.getE_of ha] at he
            simp only [bind, Except.bind, hnone] at he
            cases he
          · have ha1 : s₁.agents.get? me = some { ag with newStrategy := oν } := by
              rw [hpl.eq, get?_setAgent (me := me) (ag := { ag with newStrategy := oν }) hid me, if_pos rfl]
            have := advance_spec hmin hpl.inv hv.2 ha1 (t := True) (fun htt => (hseq htt).1) (by
              intro htt σ' ν hσ' hν
              simp only at hσ' hν
              rw [hσ] at hσ'; cases hσ'
              exact (hseq htt).2 ν hν)
            exact (this.of_error he).2 trivial

/-- All events of a single-phase simulation succeed while the rounding errors are small. -/
theorem run_ok64 {c : Config B64} (hc : c.simultaneous = false) (hk : 1 ≤ c.rs.k) (h0 : ∀ e ∈ c.people, 0 ≤ e.1) (hbeta : 0 ≤ c.rs.beta) {D : ℚ}
    (hs : Solid c D) : ∀ (es : List (Event B64)) {N : Nat} {s : State B64}, ReachableSinglePhase c s → AllPools (DriftOK c N) s →
    (∀ ev ∈ es, ev.Valid c.people.length ∧ ∀ p, ev ≠ .phase p) → slack (2 * c.funds) (2 * (N + (es.map Event.cost).sum)) ≤ D →
    ∃ s', iterM exec s es = .ok s'
  | [], N, s, _, _, _, _ => ⟨s, rfl⟩
  | ev :: t, N, s, hr, hd, hv, hD => by
    have hT : 0 ≤ 2 * c.funds := by have := (hd 0).pledge; linarith [this.1, this.2]
    have hv1 := hv ev List.mem_cons_self
    rw [List.map_cons, List.sum_cons] at hD
    obtain ⟨s₁, h1⟩ := hr.ok64 hc hk h0 hbeta hs hd ((slack_mono hT (by omega)).trans hD) hv1.1 hv1.2
    have hd1 := exec_graded (driftOK_graded h0) h0 hbeta (Reachable.of_single hr) hd hv1.1 h1
    obtain ⟨s', h'⟩ := run_ok64 hc hk h0 hbeta hs t (hr.next hv1.1 hv1.2 h1) hd1 (fun e he => hv e (List.mem_cons_of_mem _ he)) (by rw [Nat.add_assoc]; exact hD)
    exact ⟨s', by simp only [iterM, h1, bind, Except.bind]; exact h'⟩

end RSE
