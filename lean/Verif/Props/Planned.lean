import Verif.Props.Beliefs
import Verif.Props.Margins
import Verif.Props.Search

/-!
# C93: how many pools agents plan, and with which margins
-/

set_option linter.unusedSectionVars false

namespace RSE.Props

variable {K : Type} [Field K] [LinearOrder K] [IsStrictOrderedRing K]

/-! ### The specification -/

/-- what agents look at in pools of others: non-myopic agents at desirability and then at potential profit, if it is one; myopic agents at what the
delegators together get at present -/
def rating (rs : RS K) (profile : Profile) (p : Pool K) : K × K :=
  if profile = .nonMyopic then (p.des, max p.pp 0) else (max ((1 - p.margin) * (rs.reward p.pledge p.stake - p.cost)) 0, 0)

/-- a pair of ratings is better than another one: compare the first ones, then the second ones -/
def RatedAbove (x y : K × K) : Prop := y.1 < x.1 ∨ (x.1 = y.1 ∧ y.2 < x.2)

instance (x y : K × K) : Decidable (RatedAbove x y) := by unfold RatedAbove; infer_instance

/-- how many pools of other agents have a rating with property `P` -/
def rivals (rs : RS K) (profile : Profile) (pools : List (Pool K)) (a : Nat) (P : K × K → Prop) [DecidablePred P] : Nat :=
  pools.countP (fun p => decide (p.owner ≠ a ∧ P (rating rs profile p)))

/-- the rating of the pool of another agent that comes after `i` others, best first; `(0, 0)` if there are not so many -/
structure NextRival (rs : RS K) (profile : Profile) (pools : List (Pool K)) (a i : Nat) (x : K × K) : Prop where
  fst : 0 ≤ x.1
  snd : 0 ≤ x.2
  before : rivals rs profile pools a (fun y => RatedAbove y x) ≤ i
  here : x ≠ (0, 0) → i < rivals rs profile pools a (fun y => ¬ RatedAbove x y)

/-- the margin with which delegators to a pool with profit `profit` get `target` in total: none if there is not so much to get -/
def MarginFor (profit target m : K) : Prop := (target ≤ profit → (1 - m) * profit = target) ∧ (profit < target → m = 0)

/-- an agent's pool with the given figures -/
def ownPool (a : Nat) (pledge cost margin stake : K) : Pool K :=
  { id := 0, cost := cost, pledge := pledge, stake := stake, owner := a, margin := margin, isPrivate := false, delegators := [], pp := 0, des := 0 }

/-- margin `m` and utility `v` that an agent plans for one of `n` pools of which it takes `x` to be the rival; `own` is the stake in the pools it has -/
def PoolPlan (rs : RS K) (extra : K) (me : Agent K) (own : K) (n : Nat) (x : K × K) (m v : K) : Prop :=
  let pledge := min (me.stake / n) rs.beta
  let cost := (me.cost + ((n : K) - 1) * extra * me.cost) / n
  let full := fullAt rs pledge
  let target := x.1 + 1 / 1000000
  if me.profile = .nonMyopic then
    let profit := rs.reward pledge full - cost
    (profit < target → m = 0 ∧ v = operatorIncome rs (ownPool me.id pledge cost m pledge)) ∧
    (target ≤ profit → MarginFor profit (max target x.2) m ∧ v = operatorIncome rs (ownPool me.id pledge cost m full))
  else
    let profit := rs.reward pledge (max own me.stake / n) - cost
    MarginFor profit target m ∧ v = operatorIncome rs (ownPool me.id pledge cost m full)

/-- margins `ms` and utility `u` that an agent plans for `n` pools: the `t`-th one competes with the pool of another agent that comes after `k - t` others -/
def OperatorPlan (rs : RS K) (extra : K) (pools : List (Pool K)) (me : Agent K) (own : K) (n : Nat) (ms : List K) (u : K) : Prop :=
  ms.length = n ∧ ∃ us : List K, us.length = n ∧ u = us.sum ∧ ∀ t, 1 ≤ t → t ≤ n → ∃ m v x, ms[t - 1]? = some m ∧ us[t - 1]? = some v ∧
    NextRival rs me.profile pools me.id (rs.k - t) x ∧ PoolPlan rs extra me own n x m v

/-! ### The specification is met -/

theorem not_ratedAbove {x y : K × K} : ¬ RatedAbove x y ↔ x.1 < y.1 ∨ (x.1 = y.1 ∧ x.2 ≤ y.2) := by
  unfold RatedAbove
  push Not
  constructor
  · rintro ⟨h1, h2⟩
    rcases h1.lt_or_eq with h | h
    · exact .inl h
    · exact .inr ⟨h, h2 h⟩
  · rintro (h | ⟨h1, h2⟩)
    · exact ⟨h.le, fun e => absurd e h.ne⟩
    · exact ⟨h1.le, fun _ => h2⟩

/-- there is only one such rating -/
theorem NextRival.unique {rs : RS K} {profile : Profile} {pools : List (Pool K)} {a i : Nat} {x y : K × K} (hx : NextRival rs profile pools a i x)
    (hy : NextRival rs profile pools a i y) : x = y := by
  have key : ∀ {x y : K × K}, NextRival rs profile pools a i x → NextRival rs profile pools a i y → ¬ RatedAbove y x := by
    intro x y hx hy hb
    have hne : y ≠ (0, 0) := by
      rintro rfl
      rcases hb with h | ⟨h1, h2⟩
      · exact absurd hx.fst (not_le.2 h)
      · exact absurd hx.snd (not_le.2 h2)
    have h1 := hy.here hne
    have h2 : rivals rs profile pools a (fun z => ¬ RatedAbove y z) ≤ rivals rs profile pools a (fun z => RatedAbove z x) := by
      refine List.countP_mono_left (fun p _ hp => ?_)
      simp only [decide_eq_true_eq] at hp ⊢
      refine ⟨hp.1, ?_⟩
      have h3 := not_ratedAbove.1 hp.2
      unfold RatedAbove at hb ⊢
      rcases hb with hb | ⟨hb, hb'⟩
      · rcases h3 with h3 | ⟨h3, -⟩
        · exact .inl (hb.trans h3)
        · exact .inl (hb.trans_eq h3)
      · rcases h3 with h3 | ⟨h3, h4⟩
        · exact .inl (hb ▸ h3)
        · exact .inr ⟨h3.symm.trans hb, hb'.trans_le h4⟩
    have := hx.before
    omega
  have h1 := not_ratedAbove.1 (key hx hy)
  have h2 := not_ratedAbove.1 (key hy hx)
  rcases h1 with h1 | ⟨h1, h3⟩
  · rcases h2 with h2 | ⟨h2, -⟩
    · exact absurd h2 (not_lt.2 h1.le)
    · exact absurd h1 (by rw [h2]; exact lt_irrefl _)
  · rcases h2 with h2 | ⟨-, h4⟩
    · exact absurd h2 (by rw [h1]; exact lt_irrefl _)
    · exact Prod.ext h1.symm (le_antisymm h4 h3)

/-- the rating of an entry of a ranking -/
def entryRating (s : State K) (profile : Profile) : Option Ref → K × K
  | none => (0, 0)
  | some r => rating s.rs profile (s.heap r)

theorem rating_nonneg {s : State K} {profile : Profile} (hdes : ∀ r ∈ s.pools.vals, 0 ≤ (s.heap r).des) {r : Ref} (hr : r ∈ s.pools.vals) :
    0 ≤ (rating s.rs profile (s.heap r)).1 ∧ 0 ≤ (rating s.rs profile (s.heap r)).2 := by
  unfold rating
  split
  · exact ⟨hdes r hr, le_max_right _ _⟩
  · exact ⟨le_max_right _ _, le_rfl⟩

theorem rating_myopic {rs : RS K} {profile : Profile} (h : profile ≠ .nonMyopic) (p : Pool K) : rating rs profile p = (myopicDes rs p, 0) := by
  unfold rating
  rw [if_neg h]; rfl

/-- the rankings: pools by rating, best first -/
theorem rankings_sorted {n : Nat} {s : State K} (hc : Core n s) (me : Agent K) :
    (rankingsOf s me).Pairwise (fun o o' => ¬ RatedAbove (entryRating s me.profile o') (entryRating s me.profile o)) ∧
    (rankingsOf s me).Perm (List.replicate n none ++ s.pools.map (fun e => some e.2)) := by
  by_cases hp : me.profile = .nonMyopic
  · have e1 : rankingsOf s me = s.rank.map Prod.snd := by unfold rankingsOf; rw [hp]; rfl
    rw [e1]
    constructor
    · rw [List.pairwise_map]
      refine List.Pairwise.imp_of_mem ?_ hc.rankSorted
      rintro ⟨k, o⟩ ⟨k', o'⟩ ha hb hle
      have hof : ∀ {k : Key K} {o : Option Ref}, (k, o) ∈ s.rank → ∃ j, k = toLex (-(entryRating s me.profile o).1, toLex (j, (ofLex (ofLex k).2).2)) ∧
          (entryRating s me.profile o).2 = max (-j) 0 := by
        intro k o hm
        cases o with
        | none => rw [hc.rank_none hm]; exact ⟨0, by simp [noneKey, entryRating], by simp [entryRating]⟩
        | some r =>
          rw [(hc.of_mem_rank hm).2]
          refine ⟨-(s.heap r).pp, ?_, ?_⟩ <;> simp [entryRating, rating, hp, poolKey]
      obtain ⟨j, hj, hj'⟩ := hof ha
      obtain ⟨i, hi, hi'⟩ := hof hb
      rw [hj, hi] at hle
      rw [not_ratedAbove]
      simp only [Prod.Lex.toLex_le_toLex] at hle
      rcases hle with h | ⟨h, h'⟩
      · exact .inl (by linarith)
      · refine .inr ⟨by linarith, ?_⟩
        have : j ≤ i := by
          rcases h' with h' | ⟨h', -⟩
          · exact h'.le
          · exact h'.le
        rw [hj', hi']
        exact max_le_max (by linarith) le_rfl
    · have := hc.rankPerm.map Prod.snd
      simpa [rankEntries, Function.comp_def] using this
  · have e1 : rankingsOf s me = s.rankM.map Prod.snd := by
      unfold rankingsOf
      cases h : me.profile with
      | nonMyopic => exact absurd h hp
      | myopic => rfl
      | abstainer => rfl
    rw [e1]
    constructor
    · rw [List.pairwise_map]
      refine List.Pairwise.imp_of_mem ?_ hc.rankMSorted
      rintro ⟨k, o⟩ ⟨k', o'⟩ ha hb hle
      have hof : ∀ {k : KeyM K} {o : Option Ref}, (k, o) ∈ s.rankM → k = toLex (-(entryRating s me.profile o).1, (ofLex k).2) ∧
          (entryRating s me.profile o).2 = 0 := by
        intro k o hm
        cases o with
        | none =>
          have : k = noneKeyM := by
            rw [hc.rankMPerm.mem_iff] at hm
            rcases List.mem_append.1 hm with hm | hm
            · have := List.eq_of_mem_replicate hm
              exact congrArg Prod.fst this
            · obtain ⟨e, -, he⟩ := List.mem_map.1 hm
              cases he
          rw [this]; exact ⟨by simp [noneKeyM, entryRating], rfl⟩
        | some r =>
          rw [(hc.of_mem_rankM hm).2]
          refine ⟨?_, ?_⟩ <;> simp [entryRating, rating_myopic hp, poolKeyM]
      obtain ⟨hj, hj'⟩ := hof ha
      obtain ⟨hi, hi'⟩ := hof hb
      rw [hj, hi] at hle
      rw [not_ratedAbove, hj', hi']
      simp only [Prod.Lex.toLex_le_toLex] at hle
      rcases hle with h | ⟨h, -⟩
      · exact .inl (by linarith)
      · exact .inr ⟨by linarith, le_rfl⟩
    · have := hc.rankMPerm.map Prod.snd
      simpa [rankEntries, Function.comp_def] using this

theorem count_fixed {n : Nat} {s : State K} (hc : Core n s) (me : Agent K) (P : K × K → Prop)
    [DecidablePred P] (h0 : ¬ P (0, 0)) :
    (fixedPools s me).countP (fun o => decide (P (entryRating s me.profile o))) = rivals s.rs me.profile (openPools s).vals me.id P := by
  unfold fixedPools
  rw [List.countP_filter, (rankings_sorted hc me).2.countP_eq, List.countP_append, List.countP_eq_zero.2, List.countP_map, rivals, openPools_vals,
    List.countP_map, Dict.vals, List.countP_map, Nat.zero_add]
  · refine List.countP_congr (fun e _ => ?_)
    simp only [Function.comp_apply, entryRating, Bool.and_eq_true, decide_eq_true_eq]
    have : rating s.rs me.profile { s.heap e.2 with delegators := [] } = rating s.rs me.profile (s.heap e.2) := rfl
    rw [this]
    exact ⟨fun h => ⟨h.2, of_decide_eq_true h.1⟩, fun h => ⟨decide_eq_true h.2, h.1⟩⟩
  · intro o ho
    rw [List.eq_of_mem_replicate ho]
    simp [entryRating, h0]

theorem nextRival_of_index {n : Nat} {s : State K} (hc : Core n s) (me : Agent K) (hdes : ∀ r ∈ s.pools.vals, 0 ≤ (s.heap r).des) {i : Nat} {o : Option Ref}
    (h : (fixedPools s me)[i]? = some o) : NextRival s.rs me.profile (openPools s).vals me.id i (entryRating s me.profile o) := by
  obtain ⟨hsort, hperm⟩ := rankings_sorted hc me
  have hfs : (fixedPools s me).Pairwise (fun o o' => ¬ RatedAbove (entryRating s me.profile o') (entryRating s me.profile o)) :=
    hsort.sublist List.filter_sublist
  obtain ⟨hi, hget⟩ := List.getElem?_eq_some_iff.1 h
  have hnn : 0 ≤ (entryRating s me.profile o).1 ∧ 0 ≤ (entryRating s me.profile o).2 := by
    cases o with
    | none => exact ⟨le_rfl, le_rfl⟩
    | some r =>
      refine rating_nonneg hdes ?_
      have hm : some r ∈ rankingsOf s me := (List.mem_filter.1 (List.mem_of_getElem? h)).1
      rw [hperm.mem_iff] at hm
      rcases List.mem_append.1 hm with hm | hm
      · cases List.eq_of_mem_replicate hm
      · obtain ⟨e, he, h2⟩ := List.mem_map.1 hm
        cases h2
        exact List.mem_map.2 ⟨e, he, rfl⟩
  refine ⟨hnn.1, hnn.2, ?_, ?_⟩
  · rw [← count_fixed hc me]
    · rw [← List.take_append_drop i (fixedPools s me), List.countP_append]
      have h1 : ((fixedPools s me).drop i).countP (fun o' => decide (RatedAbove (entryRating s me.profile o') (entryRating s me.profile o))) = 0 := by
        rw [List.countP_eq_zero]
        intro o' ho'
        simp only [decide_eq_true_eq]
        obtain ⟨j, hj, rfl⟩ := List.getElem_of_mem ho'
        rw [List.getElem_drop]
        rw [List.length_drop] at hj
        rcases Nat.eq_zero_or_pos j with rfl | hj0
        · simp only [Nat.add_zero, hget]
          simp [RatedAbove]
        · have := (List.pairwise_iff_getElem.1 hfs) i (i + j) hi (by omega) (by omega)
          rw [hget] at this
          exact this
      rw [h1, Nat.add_zero]
      exact (List.countP_le_length).trans (by rw [List.length_take]; omega)
    · rintro (h | ⟨h, h'⟩)
      · exact absurd hnn.1 (not_le.2 h)
      · exact absurd hnn.2 (not_le.2 h')
  · intro hne
    rw [← count_fixed hc me]
    · have h1 : ((fixedPools s me).take (i + 1)).countP (fun o' => decide (¬ RatedAbove (entryRating s me.profile o) (entryRating s me.profile o'))) = i + 1 := by
        rw [List.countP_eq_length.2]
        · rw [List.length_take]; omega
        · intro o' ho'
          simp only [decide_eq_true_eq]
          obtain ⟨j, hj, rfl⟩ := List.getElem_of_mem ho'
          rw [List.getElem_take]
          rw [List.length_take] at hj
          rcases Nat.lt_or_ge j i with hlt | hge
          · have := (List.pairwise_iff_getElem.1 hfs) j i (by omega) hi hlt
            rw [hget] at this
            exact this
          · have : j = i := by omega
            subst this
            simp [hget, RatedAbove]
      have h2 := (List.take_sublist (i + 1) (fixedPools s me)).countP_le
        (p := fun o' => decide (¬ RatedAbove (entryRating s me.profile o) (entryRating s me.profile o')))
      omega
    · rw [not_ratedAbove]
      rintro (h | ⟨h, h'⟩)
      · exact absurd hnn.1 (not_le.2 h)
      · exact hne (Prod.ext h (le_antisymm h' hnn.2))

theorem marginFor_suitable {profit target : K} (ht : 0 < target) : MarginFor profit target (suitableMargin profit target) := by
  unfold MarginFor suitableMargin
  constructor
  · intro h
    have hp : 0 < profit := ht.trans_le h
    have h1 : target / profit ≤ 1 := (div_le_one hp).2 h
    rw [if_pos hp, max_eq_left (by linarith)]
    field_simp
    ring
  · intro h
    split
    · rename_i hp
      have : 1 < target / profit := (one_lt_div hp).2 h
      exact max_eq_right (by linarith)
    · exact max_eq_right le_rfl

theorem operatorUtility_ownPool {rs : RS K} {a : Nat} {pledge cost m stake y : K} (h : operatorUtility rs stake pledge m cost = .ok y) :
    y = operatorIncome rs (ownPool a pledge cost m stake) := operatorUtility_income (p := ownPool a pledge cost m stake) h

theorem loopMargins_each {f : Nat → Py (K × K)} : ∀ {l : List Nat} {ms ms' : List K} {u u' : K}, loopMargins f l ms u = .ok (ms', u') →
    ∃ ns us : List K, ms' = ms ++ ns ∧ ns.length = l.length ∧ us.length = l.length ∧ u' = u + us.sum ∧
      ∀ (i t : Nat), l[i]? = some t → ∃ m x, ns[i]? = some m ∧ us[i]? = some x ∧ f t = .ok (m, x)
  | [], ms, ms', u, u', h => by
    cases h
    exact ⟨[], [], by simp, rfl, rfl, by simp, by simp⟩
  | t :: ts, ms, ms', u, u', h => by
    unfold loopMargins at h
    obtain ⟨⟨m, x⟩, h1, h2⟩ := bind_ok h
    obtain ⟨ns, us, e1, e2, e3, e4, e5⟩ := loopMargins_each h2
    refine ⟨m :: ns, x :: us, by simp [e1], by simp [e2], by simp [e3], by rw [e4, List.sum_cons]; ring, ?_⟩
    intro i t' hi
    cases i with
    | zero =>
      simp only [List.getElem?_cons_zero, Option.some.injEq] at hi
      subst hi
      exact ⟨m, x, rfl, rfl, h1⟩
    | succ i => exact e5 i t' (by simpa using hi)

theorem boost_eq : (boost : K) = 1 / 1000000 := by unfold boost; norm_num

/-- the margins and the utility for `n` pools are as specified -/
theorem marginsAndUtility_eq {N : Nat} {s : State K} (hc : Core N s) (hdes : ∀ r ∈ s.pools.vals, 0 ≤ (s.heap r).des) {me : Agent K} {σ : Strategy K} {n : Nat}
    (hn : 1 ≤ n) (hk : n ≤ s.rs.k) {ms : List K} {u : K} (h : marginsAndUtility s me σ n = .ok (ms, u)) :
    OperatorPlan s.rs s.extraFrac (openPools s).vals me ((σ.owned.map (fun e => (s.heap e.2).stake)).sum) n ms u := by
  have hn0 : n ≠ 0 := by omega
  have hcost : costPerPool n me.cost s.extraFrac = .ok ((me.cost + ((n : K) - 1) * s.extraFrac * me.cost) / n) := by
    unfold costPerPool
    rw [if_neg hn0, Nat.cast_sub hn, Nat.cast_one]
  have hpl : pledgePerPool me.stake s.rs.beta n = .ok (min (me.stake / n) s.rs.beta) := by
    unfold pledgePerPool
    rw [if_neg hn0]
  have hidx : ∀ {t : Nat} {o : Option Ref}, 1 ≤ t → t ≤ n → pyIndex (fixedPools s me) ((s.rs.k : Int) - (t : Int)) = .ok o →
      (fixedPools s me)[s.rs.k - t]? = some o := by
    intro t o h1 h2 ho
    unfold pyIndex at ho
    have hnn : ¬ ((s.rs.k : Int) - (t : Int) < 0) := by omega
    simp only [if_neg hnn] at ho
    have hj : ((s.rs.k : Int) - (t : Int)).toNat = s.rs.k - t := by omega
    rw [hj] at ho
    cases hget : (fixedPools s me)[s.rs.k - t]? with
    | none => rw [hget] at ho; cases ho
    | some e => rw [hget] at ho; cases ho; rfl
  have hb := boost_pos (K := K)
  unfold marginsAndUtility at h
  rw [hcost, hpl] at h
  simp only [bind, Except.bind] at h
  by_cases hp : me.profile = .nonMyopic
  · rw [hp] at h
    simp only at h
    obtain ⟨ns, us, e1, e2, e3, e4, e5⟩ := loopMargins_each h
    rw [List.nil_append] at e1
    subst e1
    rw [List.length_range'] at e2 e3
    rw [zero_add] at e4
    refine ⟨e2, us, e3, e4, fun t h1 h2 => ?_⟩
    obtain ⟨m, v, g1, g2, g3⟩ := e5 (t - 1) t (by rw [List.getElem?_range' (by omega)]; simp; omega)
    unfold marginNM at g3
    obtain ⟨o, ho, g3⟩ := bind_ok g3
    have hr := nextRival_of_index hc me hdes (hidx h1 h2 ho)
    refine ⟨m, v, _, g1, g2, hr, ?_⟩
    unfold PoolPlan
    simp only [if_pos hp]
    rw [← boost_eq, ← sat_eq]
    have key : ∀ td tpp : K, td = (entryRating s me.profile o).1 → max (td + boost) tpp = max (td + boost) (entryRating s me.profile o).2 →
        ((if potentialProfit s.rs (min (me.stake / n) s.rs.beta) ((me.cost + ((n : K) - 1) * s.extraFrac * me.cost) / n) < td + boost then do
            let u ← operatorUtility s.rs (min (me.stake / n) s.rs.beta) (min (me.stake / n) s.rs.beta) 0
              ((me.cost + ((n : K) - 1) * s.extraFrac * me.cost) / n)
            return (0, u)
          else do
            let m := suitableMargin (potentialProfit s.rs (min (me.stake / n) s.rs.beta) ((me.cost + ((n : K) - 1) * s.extraFrac * me.cost) / n))
              (max (td + boost) tpp)
            let u ← operatorUtility s.rs (s.rs.sat (min (me.stake / n) s.rs.beta)) (min (me.stake / n) s.rs.beta) m
              ((me.cost + ((n : K) - 1) * s.extraFrac * me.cost) / n)
            return (m, u) : Py (K × K)) = .ok (m, v)) →
        (s.rs.reward (min (me.stake / n) s.rs.beta) (s.rs.sat (min (me.stake / n) s.rs.beta)) - (me.cost + ((n : K) - 1) * s.extraFrac * me.cost) / n <
            (entryRating s me.profile o).1 + boost → m = 0 ∧ v = operatorIncome s.rs (ownPool me.id (min (me.stake / n) s.rs.beta)
              ((me.cost + ((n : K) - 1) * s.extraFrac * me.cost) / n) m (min (me.stake / n) s.rs.beta))) ∧
        ((entryRating s me.profile o).1 + boost ≤
            s.rs.reward (min (me.stake / n) s.rs.beta) (s.rs.sat (min (me.stake / n) s.rs.beta)) - (me.cost + ((n : K) - 1) * s.extraFrac * me.cost) / n →
          MarginFor (s.rs.reward (min (me.stake / n) s.rs.beta) (s.rs.sat (min (me.stake / n) s.rs.beta)) -
              (me.cost + ((n : K) - 1) * s.extraFrac * me.cost) / n)
            (max ((entryRating s me.profile o).1 + boost) (entryRating s me.profile o).2) m ∧
          v = operatorIncome s.rs (ownPool me.id (min (me.stake / n) s.rs.beta)
              ((me.cost + ((n : K) - 1) * s.extraFrac * me.cost) / n) m (s.rs.sat (min (me.stake / n) s.rs.beta)))) := by
      intro td tpp h1 h2 g
      rw [h2, h1] at g
      by_cases hlt : potentialProfit s.rs (min (me.stake / n) s.rs.beta) ((me.cost + ((n : K) - 1) * s.extraFrac * me.cost) / n) <
          (entryRating s me.profile o).1 + boost
      · rw [if_pos hlt] at g
        obtain ⟨w, hw, g⟩ := bind_ok g
        cases g
        exact ⟨fun _ => ⟨rfl, operatorUtility_ownPool hw⟩, fun hle => absurd hlt (not_lt.2 hle)⟩
      · rw [if_neg hlt] at g
        obtain ⟨w, hw, g⟩ := bind_ok g
        cases g
        refine ⟨fun h => absurd h hlt, fun _ => ⟨?_, operatorUtility_ownPool hw⟩⟩
        refine marginFor_suitable (lt_of_lt_of_le ?_ (le_max_left _ _))
        have := hr.fst
        linarith
    cases o with
    | none => exact key 0 0 rfl rfl g3
    | some r =>
      refine key (s.heap r).des (s.heap r).pp (by simp only [entryRating, rating, if_pos hp]) ?_ g3
      have hf := hr.fst
      simp only [entryRating, rating, if_pos hp] at hf ⊢
      have h0 : (0 : K) ≤ (s.heap r).des + boost := by linarith
      rw [max_comm (s.heap r).pp 0, ← max_assoc, max_eq_left h0]
  · have h' : loopMargins (marginM s me (min (me.stake / n) s.rs.beta) ((me.cost + ((n : K) - 1) * s.extraFrac * me.cost) / n)
        (currentProfit s.rs (max (σ.owned.vals.foldl (fun acc r => acc + (s.heap r).stake) 0) me.stake / n) (min (me.stake / n) s.rs.beta)
          ((me.cost + ((n : K) - 1) * s.extraFrac * me.cost) / n))) (List.range' 1 n) [] 0 = .ok (ms, u) := by
      cases hq : me.profile with
      | nonMyopic => exact absurd hq hp
      | myopic => rw [hq] at h; exact h
      | abstainer => rw [hq] at h; exact h
    clear h
    obtain ⟨ns, us, e1, e2, e3, e4, e5⟩ := loopMargins_each h'
    rw [List.nil_append] at e1
    subst e1
    rw [List.length_range'] at e2 e3
    rw [zero_add] at e4
    refine ⟨e2, us, e3, e4, fun t h1 h2 => ?_⟩
    obtain ⟨m, v, g1, g2, g3⟩ := e5 (t - 1) t (by rw [List.getElem?_range' (by omega)]; simp; omega)
    unfold marginM at g3
    obtain ⟨o, ho, g3⟩ := bind_ok g3
    have hr := nextRival_of_index hc me hdes (hidx h1 h2 ho)
    refine ⟨m, v, _, g1, g2, hr, ?_⟩
    unfold PoolPlan
    simp only [if_neg hp]
    rw [← boost_eq, ← sat_eq]
    have hown : σ.owned.vals.foldl (fun acc r => acc + (s.heap r).stake) 0 = (σ.owned.map (fun e => (s.heap e.2).stake)).sum := by
      have : ∀ (l : List Ref) (x : K), l.foldl (fun acc r => acc + (s.heap r).stake) x = x + (l.map (fun r => (s.heap r).stake)).sum := by
        intro l
        induction l with
        | nil => intro x; simp
        | cons a t ih => intro x; rw [List.foldl_cons, ih, List.map_cons, List.sum_cons]; ring
      rw [this, zero_add, Dict.vals, List.map_map]; rfl
    simp only [hown] at g3
    have h0 := hr.fst
    cases o with
    | none =>
      obtain ⟨w, hw, g3⟩ := bind_ok g3
      cases g3
      refine ⟨marginFor_suitable ?_, operatorUtility_ownPool hw⟩
      linarith
    | some r =>
      have e0 : (entryRating s me.profile (some r)).1 = myopicDes s.rs (s.heap r) := by simp only [entryRating, rating_myopic hp]
      rw [e0] at h0 ⊢
      obtain ⟨w, hw, g3⟩ := bind_ok g3
      cases g3
      refine ⟨marginFor_suitable ?_, operatorUtility_ownPool hw⟩
      linarith

/-! ### The specification determines the plan -/

theorem MarginFor.unique {profit target m m' : K} (ht : 0 < target) (h : MarginFor profit target m) (h' : MarginFor profit target m') : m = m' := by
  by_cases hp : target ≤ profit
  · have h1 := (h.1 hp).trans (h'.1 hp).symm
    have h2 := mul_right_cancel₀ (ht.trans_le hp).ne' h1
    linarith
  · rw [h.2 (not_le.1 hp), h'.2 (not_le.1 hp)]

theorem PoolPlan.unique {rs : RS K} {extra own : K} {me : Agent K} {n : Nat} {x : K × K} {m v m' v' : K} (hx : 0 ≤ x.1) (h : PoolPlan rs extra me own n x m v)
    (h' : PoolPlan rs extra me own n x m' v') : m = m' ∧ v = v' := by
  have ht : (0 : K) < x.1 + 1 / 1000000 := by have : (0 : K) < 1 / 1000000 := by norm_num
                                              linarith
  unfold PoolPlan at h h'
  simp only at h h'
  split at h
  · rename_i hp
    rw [if_pos hp] at h'
    rcases lt_or_ge (rs.reward (min (me.stake / n) rs.beta) (fullAt rs (min (me.stake / n) rs.beta)) - (me.cost + ((n : K) - 1) * extra * me.cost) / n)
      (x.1 + 1 / 1000000) with hl | hl
    · obtain ⟨rfl, rfl⟩ := h.1 hl
      obtain ⟨rfl, rfl⟩ := h'.1 hl
      exact ⟨rfl, rfl⟩
    · obtain ⟨h1, rfl⟩ := h.2 hl
      obtain ⟨h2, rfl⟩ := h'.2 hl
      have := h1.unique (ht.trans_le (le_max_left _ _)) h2
      subst this
      exact ⟨rfl, rfl⟩
  · rename_i hp
    rw [if_neg hp] at h'
    obtain ⟨h1, rfl⟩ := h
    obtain ⟨h2, rfl⟩ := h'
    have := h1.unique ht h2
    subst this
    exact ⟨rfl, rfl⟩

/-- C93, the specification is one of functions: an agent can plan `n` pools in one way only. -/
theorem C93_one_plan {rs : RS K} {extra own : K} {pools : List (Pool K)} {me : Agent K} {n : Nat} {ms ms' : List K} {u u' : K}
    (h : OperatorPlan rs extra pools me own n ms u) (h' : OperatorPlan rs extra pools me own n ms' u') : ms = ms' ∧ u = u' := by
  obtain ⟨hl, us, hul, rfl, hall⟩ := h
  obtain ⟨hl', us', hul', rfl, hall'⟩ := h'
  have key : ∀ i, i < n → ms[i]? = ms'[i]? ∧ us[i]? = us'[i]? := by
    intro i hi
    obtain ⟨m, v, x, h1, h2, h3, h4⟩ := hall (i + 1) (by omega) (by omega)
    obtain ⟨m', v', x', h1', h2', h3', h4'⟩ := hall' (i + 1) (by omega) (by omega)
    have hx := h3.unique h3'
    subst hx
    obtain ⟨rfl, rfl⟩ := h4.unique h3.fst h4'
    simp only [Nat.add_sub_cancel] at h1 h2 h1' h2'
    exact ⟨h1.trans h1'.symm, h2.trans h2'.symm⟩
  have hm : ms = ms' := by
    refine List.ext_getElem? (fun i => ?_)
    by_cases hi : i < n
    · exact (key i hi).1
    · rw [List.getElem?_eq_none (by omega), List.getElem?_eq_none (by omega)]
  have hu : us = us' := by
    refine List.ext_getElem? (fun i => ?_)
    by_cases hi : i < n
    · exact (key i hi).2
    · rw [List.getElem?_eq_none (by omega), List.getElem?_eq_none (by omega)]
  exact ⟨hm, by rw [hu]⟩

/-! ### The pools are drafted with the planned margins, in order -/

theorem reworkPools_margins {F : Type} [LinearOrder F] [Zero F] [One F] [Add F] [Sub F] [Mul F] [Div F] [Neg F] [NatCast F] [FSum F]
    {me : Agent F} {q c : F} {margins : List F} : ∀ {l : List (Nat × Ref)} {i : Nat} {s s' : State F},
    reworkPools me q c margins s i l = .ok s' → (l.map Prod.snd).Nodup → i + l.length ≤ margins.length →
    (∀ r, r ∉ l.map Prod.snd → s'.heap r = s.heap r) ∧ l.map (fun e => (s'.heap e.2).margin) = (margins.drop i).take l.length ∧ s'.next = s.next ∧
      s'.idSeq = s.idSeq
  | [], i, s, s', h, _, _ => by
    cases h
    exact ⟨fun _ _ => rfl, by simp, rfl, rfl⟩
  | (pid, r) :: t, i, s, s', h, hnd, hlen => by
    simp only [List.map_cons, List.nodup_cons, List.length_cons] at hnd hlen
    have hi : i < margins.length := by omega
    have hmg : margins[i]? = some margins[i] := List.getElem?_eq_getElem hi
    simp only [reworkPools, marginAt, hmg] at h
    obtain ⟨h1, h2, h3, h4⟩ := reworkPools_margins (l := t) h hnd.2 (by omega)
    refine ⟨fun r' hr' => ?_, ?_, h3, h4⟩
    · simp only [List.map_cons, List.mem_cons, not_or] at hr'
      rw [h1 r' hr'.2]
      exact Function.update_of_ne hr'.1 _ _
    · rw [List.map_cons, h2, h1 r hnd.1, List.length_cons, List.drop_eq_getElem_cons hi, List.take_succ_cons]
      congr 1
      simp only [State.setPool, Function.update_self]
      rfl

theorem draftPools_margins {F : Type} [LinearOrder F] [Zero F] [One F] [Add F] [Sub F] [Mul F] [Div F] [Neg F] [NatCast F] [FSum F]
    {me : Agent F} {q c : F} {margins : List F} : ∀ {cnt i : Nat} {s s' : State F} {owned owned' : Dict Ref},
    draftPools me q c margins cnt s i owned = .ok (s', owned') → (∀ k ∈ owned.keys, k ≤ s.idSeq) → i + cnt ≤ margins.length →
    ∃ new, owned' = owned ++ new ∧ (∀ r < s.next, s'.heap r = s.heap r) ∧ new.map (fun e => (s'.heap e.2).margin) = (margins.drop i).take cnt
  | 0, i, s, s', owned, owned', h, _, _ => by
    cases h
    exact ⟨[], by simp, fun _ _ => rfl, by simp⟩
  | cnt + 1, i, s, s', owned, owned', h, hk, hlen => by
    have hi : i < margins.length := by omega
    have hmg : margins[i]? = some margins[i] := List.getElem?_eq_getElem hi
    have hfresh : s.idSeq + 1 ∉ owned.keys := fun hm => by have := hk _ hm; omega
    simp only [draftPools, marginAt, hmg] at h
    obtain ⟨new, h1, h2, h3⟩ := draftPools_margins (cnt := cnt) h (fun k hkm => by
      rcases (Dict.keys_set _ _ _ _).1 hkm with rfl | hkm
      · exact le_rfl
      · exact (hk k hkm).trans (Nat.le_succ _)) (by omega)
    rw [Dict.set_of_not_mem hfresh] at h1
    refine ⟨(s.idSeq + 1, s.next) :: new, by rw [h1]; simp, fun r hr => ?_, ?_⟩
    · rw [h2 r (Nat.lt_succ_of_lt hr)]
      exact Function.update_of_ne (Nat.ne_of_lt hr) _ _
    · rw [List.map_cons, h3, h2 s.next (Nat.lt_succ_self _), List.drop_eq_getElem_cons hi, List.take_succ_cons]
      congr 1
      simp only [State.alloc, Function.update_self]
      rfl

theorem setDelegations_margin {a : Nat} : ∀ {l : List (Nat × K)} {s s' : State K}, setDelegations s a l = .ok s' → ∀ r, (s'.heap r).margin = (s.heap r).margin
  | [], s, s', h, r => by cases h; rfl
  | (pid, x) :: t, s, s', h, r => by
    unfold setDelegations at h
    obtain ⟨s₁, h1, h2⟩ := bind_ok h
    rw [setDelegations_margin h2 r]
    unfold setDelegation at h1
    obtain ⟨r₀, h3, h4⟩ := bind_ok h1
    obtain ⟨lm, h5, h6⟩ := bind_ok h4
    cases h6
    change (Function.update s.heap r₀ _ r).margin = _
    by_cases hr : r = r₀
    · subst hr; rw [Function.update_self]; rfl
    · rw [Function.update_of_ne hr]

theorem findDelegationMove_margin {s s' : State K} {me : Agent K} {σ δ : Strategy K} {stake : K} (h : findDelegationMove s me σ stake = .ok (s', δ)) (r : Ref) :
    (s'.heap r).margin = (s.heap r).margin := by
  cases findDelegationMove_ok h with
  | tiny _ hs _ => rw [hs]
  | none _ _ hs _ => rw [hs]
  | some s₁ _ _ h1 h2 _ => rw [setDelegations_margin h2, setDelegations_margin h1]

theorem findOperatorMove_margins {s s' : State K} {me : Agent K} {σ τ : Strategy K} {n : Nat} {owned : Dict Ref} {margins : List K}
    (h : findOperatorMove s me σ n owned margins = .ok (s', τ)) (hvd : owned.vals.Nodup) (hids : ∀ k ∈ owned.keys, k ≤ s.idSeq)
    (href : ∀ r ∈ owned.vals, r < s.next) (hl : owned.length ≤ n) (hn : margins.length = n) :
    τ.owned.map (fun e => (s'.heap e.2).margin) = margins := by
  unfold findOperatorMove at h
  obtain ⟨q, -, h⟩ := bind_ok h
  obtain ⟨c, -, h⟩ := bind_ok h
  obtain ⟨s2, h2, h⟩ := bind_ok h
  obtain ⟨⟨s3, owned'⟩, h3, h⟩ := bind_ok h
  obtain ⟨a1, a2, a3, a4⟩ := reworkPools_margins h2 hvd (by omega)
  obtain ⟨new, b1, b2, b3⟩ := draftPools_margins h3 (by rw [a4]; exact hids) (by omega)
  have key : owned'.map (fun e => (s3.heap e.2).margin) = margins := by
    rw [b1, List.map_append, b3]
    have : owned.map (fun e => (s3.heap e.2).margin) = owned.map (fun e => (s2.heap e.2).margin) := by
      refine List.map_congr_left (fun e he => ?_)
      rw [b2 e.2 (by rw [a3]; exact href _ (List.mem_map.2 ⟨e, he, rfl⟩))]
    rw [this, a2, List.drop_zero, ← hn, ← List.length_drop, List.take_length, List.take_append_drop]
  simp only at h
  split at h
  · obtain ⟨⟨s4, d⟩, h4, h⟩ := bind_ok h
    cases h
    rw [← key]
    exact List.map_congr_left (fun e _ => findDelegationMove_margin h4 e.2)
  · cases h
    exact key

/-- the figures of a pool among `n` that an agent drafts; `old` is the pool it is made from, if there is one -/
structure DraftedAs (rs : RS K) (extra : K) (me : Agent K) (n : Nat) (old : Option (Pool K)) (p : Pool K) : Prop where
  owner : p.owner = me.id
  pledge : p.pledge = min (me.stake / n) rs.beta
  cost : p.cost = (me.cost + ((n : K) - 1) * extra * me.cost) / n
  closed : p.isPrivate = true ↔ fullAt rs p.pledge ≤ p.pledge
  pp : p.pp = rs.reward p.pledge (fullAt rs p.pledge) - p.cost
  des : p.des = max ((1 - p.margin) * p.pp) 0
  stake : p.stake = p.pledge + (match old with
    | none => 0
    | some q => q.stake - q.pledge)

/-- C93.  When an agent plans (sequential or random activation; or simultaneous activation, if its delegations are recorded), the pools it considers operating are as follows.  Their number `n` is between 1 and `k`, and
the utility the agent plans for `n` pools is at least the one it plans for `n - 1` and for `n + 1` pools.  The margins are the planned ones, in order.
The plans for each number of pools are computed from the open pools before planning began.  All `n` pools have the same pledge and cost;
those made from pools the agent has keep the stake of others. -/
theorem C93_plan {c : Config K} {s s' : State K} (h : Reachable c s) {a : Nat} {ag : Agent K} {σ : Strategy K}
    (ha : s.agents.get? a = some ag) (hσ : ag.strategy = some σ) (hr : c.simultaneous = false ∨ InRecords s a σ) {ord : List Nat → List Nat} (hord : ∀ l, (ord l).Perm l) {oν : Option (Strategy K)}
    (hp : planMove ord s ag σ = .ok (s', oν)) :
    ∃ s₁ δ ω ou, findDelegationMove s ag σ ag.stake = .ok (s₁, δ) ∧ choosePoolStrategy ord s₁ ag σ = .ok (s', ou, ω) ∧
      let n := ω.owned.length
      let own := (σ.owned.map (fun e => (s.heap e.2).stake)).sum
      let plan := OperatorPlan s.rs s.extraFrac (openPools s).vals ag own
      1 ≤ n ∧ n ≤ s.rs.k ∧
      (∃ u, plan n (ω.owned.map (fun e => (s'.heap e.2).margin)) u ∧
        ∀ n', (n' + 1 = n ∨ n' = n + 1) → 1 ≤ n' → n' ≤ s.rs.k → (∃ ms' u', plan n' ms' u') ∧ ∀ ms' u', plan n' ms' u' → u' ≤ u) ∧
      ∀ pid r, ω.owned.get? pid = some r → DraftedAs s.rs s.extraFrac ag n ((σ.owned.get? pid).map s.heap) (s'.heap r) := by
  have hg := h.good minUnit_pos
  have hid := hg.inv.core.agentId a ag ha
  have ht := hg.inv.tidy a ag ha
  have hr := hr.elim (fun hc => h.inRecords hc ha hσ) (fun hr => hr)
  have hready := h.ready_of ha hσ hr
  rw [← hid] at hready
  obtain ⟨cur, exp, s₁, δ, du, ou, ω, hpl⟩ := planMove_ok hp
  obtain ⟨calm1, hnext, hseq, ready1⟩ := (findDelegationMove_ok hpl.delegate).calm hready
  have hown1 : ∀ pid r, σ.owned.get? pid = some r → s₁.pools.get? pid = some r := fun pid r hr => by
    rw [calm1.pools]; exact (hg.inv.owned ha hσ hr).1
  have hlt : ∀ pid r, σ.owned.get? pid = some r → r < s.next := fun pid r hr => (hg.inv.core.poolRef _ _ (hg.inv.owned ha hσ hr).1).1
  obtain ⟨-, -, -, hop⟩ := (choosePoolStrategy_spec ready1.core hord ag (ht.allocs _ hσ) (ht.owned _ hσ) hown1).of_ok hpl.operate
  obtain ⟨q, cc, margins0, u0, -, hq, hcost, hpos, hle, hpools, -⟩ := hop.shape
  rw [calm1.rs] at hle
  have hk : 1 ≤ s₁.rs.k := by rw [calm1.rs]; omega
  obtain ⟨n, ms, v, hn1, hnk, hmu, hmax, s2, copies, hkeep, hfind⟩ := C32_choose_pool_strategy hk hpl.operate
  -- margins in order
  obtain ⟨s2', d, e2, c2, p2, i2, f2, kd2, vd2, l2, sub2, cp2⟩ := determinePoolsToKeep_spec ready1.core hord ag.id σ.allocs.keys (ht.owned _ hσ)
    (fun pid r hr => (ready1.core.poolRef _ _ (hown1 _ _ hr)).1) n
  rw [e2] at hkeep
  cases hkeep
  have hmlen : ms.length = n := ((marginsAndUtility_sat s₁ ag σ n).of_ok hmu).2
  have hmargins := findOperatorMove_margins hfind vd2 (fun i hi => by
      obtain ⟨r, hr⟩ := Dict.mem_keys_iff.1 (sub2 i hi)
      rw [i2]
      exact (ready1.core.poolRef _ _ (hown1 _ _ hr)).2.2.2)
    (fun r hr => by
      obtain ⟨e, he, rfl⟩ := List.mem_map.1 hr
      exact (cp2 e he).2.1) (by omega) hmlen
  have hωn : ω.owned.length = n := by rw [← hmlen, ← hmargins, List.length_map]
  -- the plans, seen from the state before planning
  have hplan : ∀ {t : Nat} {ms' : List K} {u' : K}, 1 ≤ t → t ≤ s.rs.k → marginsAndUtility s₁ ag σ t = .ok (ms', u') →
      OperatorPlan s.rs s.extraFrac (openPools s).vals ag ((σ.owned.map (fun e => (s.heap e.2).stake)).sum) t ms' u' := by
    intro t ms' u' h1 h2 h3
    have hdes : ∀ r ∈ s₁.pools.vals, 0 ≤ (s₁.heap r).des := by
      intro r hr
      rw [calm1.pools] at hr
      obtain ⟨⟨pid, r'⟩, hm, rfl⟩ := List.mem_map.1 hr
      have hlt := (hg.inv.core.poolRef _ _ (Dict.get?_of_mem hg.inv.core.poolsNodup hm)).1
      rw [(calm1.alike _ hlt).same.des]
      exact (h.fair _).des_nonneg
    have := marginsAndUtility_eq ready1.core hdes h1 (by rw [calm1.rs]; exact h2) h3
    rw [calm1.rs, calm1.extraFrac, Calm.openPools calm1 hg.inv.core] at this
    have he : σ.owned.map (fun e => (s₁.heap e.2).stake) = σ.owned.map (fun e => (s.heap e.2).stake) := by
      refine List.map_congr_left (fun e he => ?_)
      exact (calm1.alike _ (hlt e.1 e.2 (Dict.get?_of_mem (ht.owned _ hσ) he))).stake
    rw [he] at this
    exact this
  have hnk' : n ≤ s.rs.k := by rw [← calm1.rs]; exact hnk
  refine ⟨s₁, δ, ω, ou, hpl.delegate, hpl.operate, hpos, hle, ⟨v, ?_, ?_⟩, ?_⟩
  · rw [hmargins, hωn]
    exact hplan hn1 hnk' hmu
  · intro n' h1 h2 h3
    rw [hωn] at h1
    obtain ⟨ms', u', g1, g2⟩ := hmax n' h1 h2 (by rw [calm1.rs]; exact h3)
    have := hplan h2 h3 g1
    refine ⟨⟨ms', u', this⟩, fun ms'' u'' hpl' => ?_⟩
    obtain ⟨-, rfl⟩ := C93_one_plan this hpl'
    exact g2
  · intro pid r hr
    obtain ⟨-, -, m, -, hshape⟩ := hpools pid r hr
    have hn0 : ω.owned.length ≠ 0 := by omega
    have hq' : q = min (ag.stake / (ω.owned.length : K)) s.rs.beta := by
      unfold pledgePerPool at hq
      rw [if_neg hn0, calm1.rs] at hq
      exact (Except.ok.inj hq).symm
    have hc' : cc = (ag.cost + ((ω.owned.length : K) - 1) * s.extraFrac * ag.cost) / (ω.owned.length : K) := by
      unfold costPerPool at hcost
      rw [if_neg hn0, calm1.extraFrac, Nat.cast_sub hpos, Nat.cast_one] at hcost
      exact (Except.ok.inj hcost).symm
    rw [calm1.rs] at hshape
    rcases hshape with ⟨r₀, hr₀, hh⟩ | ⟨hidlt, -, hh⟩
    · have hal := calm1.alike r₀ (hlt _ _ hr₀)
      rw [hr₀, Option.map_some, hh]
      refine ⟨?_, hq', hc', ?_, ?_, rfl, ?_⟩
      · change (s₁.heap r₀).owner = ag.id
        rw [hal.same.owner, hid]
        exact (hg.inv.owned ha hσ hr₀).2
      · simp [reworkPool, Pool.setMargin, Pool.setDesirability, Pool.setProfit, sat_eq]
      · simp [reworkPool, Pool.setMargin, Pool.setDesirability, Pool.setProfit, sat_eq, potentialProfit]
      · change (s₁.heap r₀).stake - ((s₁.heap r₀).pledge - q) = q + ((s.heap r₀).stake - (s.heap r₀).pledge)
        rw [hal.stake, hal.same.pledge]
        ring
    · have hnone : σ.owned.get? pid = none := by
        cases ho : σ.owned.get? pid with
        | none => rfl
        | some r₀ =>
          have := (ready1.core.poolRef _ _ (hown1 _ _ ho)).2.2.2
          omega
      rw [hnone, Option.map_none, hh]
      refine ⟨rfl, hq', hc', ?_, ?_, rfl, ?_⟩
      · simp [freshPool, Pool.create, Pool.setMargin, Pool.setDesirability, Pool.setProfit, sat_eq]
      · simp [freshPool, Pool.create, Pool.setMargin, Pool.setDesirability, Pool.setProfit, sat_eq, potentialProfit]
      · simp [freshPool, Pool.create, Pool.setMargin, Pool.setDesirability, Pool.setProfit]

/-! ### The hypotheses are met -/

/-- the number, margins and utility of the pools that agent `a` considers operating after the given events, and the utilities it plans for 1, 2, … pools -/
def poolPlans (c : Config ℚ) (rounds : List (Event ℚ)) (a : Nat) : Option (List ℚ × List ℚ) := do
  let s ← (iterM exec (initState c) rounds).toOption
  let ag ← s.agents.get? a
  let σ ← ag.strategy
  let (s₁, _) ← (findDelegationMove s ag σ ag.stake).toOption
  let (s', _, ω) ← (choosePoolStrategy id s₁ ag σ).toOption
  return (ω.owned.map (fun e => (s'.heap e.2).margin), (List.range s.rs.k).filterMap (fun i => (marginsAndUtility s₁ ag σ (i + 1)).toOption.map Prod.snd))

instance : DecidableEq (List ℚ × List ℚ) := instDecidableEqProd

/-- agent 3 (non-myopic) considers two pools after two rounds of the demo: one or three would promise less -/
example : poolPlans (demo false) (demoRound ++ demoRound) 3 =
    some ([10764961 / 10765000, 0], [119199961 / 390000000, 312184571 / 780000000, 155019727 / 390000000]) := by decide +kernel

/-- agent 2 (myopic) considers two pools after one round -/
example : poolPlans (demo false) demoRound 2 =
    some ([1128101951 / 1128113625, 398521076 / 1154572125],
      [117116754217571 / 371044303500000, 295159406298115573 / 634839173787000000, 13414242611 / 30730687500]) := by decide +kernel

/-- without pools of others the rival has rating `(0, 0)` -/
example : NextRival (demo false).rs .nonMyopic [] 3 1 (0, 0) := ⟨le_rfl, le_rfl, by decide, fun h => absurd rfl h⟩

end RSE.Props
