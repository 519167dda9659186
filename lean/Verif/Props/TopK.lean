import Verif.Lemmas.NoCrash
import Verif.Props.Crash

/-!
# C09, C10: who is in the top `k`
-/

set_option linter.unusedSectionVars false

namespace RSE.Props

variable {K : Type} [Field K] [LinearOrder K] [IsStrictOrderedRing K]

/-! ### C10 -/

/-- pool `p` outranks pool `q`: more desirable; or as desirable with a higher potential profit; or also equal in that and with the
smaller id -/
def Outranks (p q : Pool K) : Prop :=
  q.des < p.des ∨ (p.des = q.des ∧ (q.pp < p.pp ∨ (p.pp = q.pp ∧ p.id < q.id)))

instance (p q : Pool K) : Decidable (Outranks p q) := by unfold Outranks; infer_instance

theorem outranks_iff (p q : Pool K) : Outranks p q ↔ poolKey p < poolKey q := by
  unfold poolKey Outranks
  simp only [Prod.Lex.toLex_lt_toLex, neg_lt_neg_iff, neg_inj]

theorem countP_sorted {κ V : Type} [LinearOrder κ] [DecidableEq V] {l : SKL κ V} (hs : l.Sorted) {k : κ} {v : V}
    (huniq : ∀ e ∈ l, e.1 = k → e.2 = v) {i : Nat} (h1 : l[i]? = some (k, v)) (h2 : ∀ e ∈ l.take i, e ≠ (k, v) ∧ e.1 ≤ k) :
    l.countP (fun e => decide (e.1 < k)) = i ∧ ∀ e ∈ l.take i, e.1 < k := by
  obtain ⟨hi, hget⟩ := List.getElem?_eq_some_iff.1 h1
  have htake : ∀ e ∈ l.take i, e.1 < k := by
    intro e he
    obtain ⟨ha, hb⟩ := h2 e he
    refine lt_of_le_of_ne hb (fun hk => ha ?_)
    exact Prod.ext hk (huniq e (List.mem_of_mem_take he) hk)
  refine ⟨?_, htake⟩
  have hdrop : ∀ e ∈ l.drop i, k ≤ e.1 := by
    intro e he
    obtain ⟨j, hj, rfl⟩ := List.getElem_of_mem he
    rw [List.getElem_drop]
    unfold SKL.Sorted at hs
    rw [List.pairwise_iff_getElem] at hs
    rcases Nat.eq_zero_or_pos j with rfl | hj0
    · simp only [Nat.add_zero, hget, le_refl]
    · have := hs i (i + j) hi (by simpa using (by rw [List.length_drop] at hj; omega)) (by omega)
      rw [hget] at this
      exact this
  rw [← List.take_append_drop i l, List.countP_append, List.countP_eq_length.2, List.countP_eq_zero.2]
  · rw [List.length_take]; omega
  · intro e he
    simpa using hdrop e he
  · intro e he
    simpa using htake e he

theorem sats_above {rs : RS K} (hs : rs.scheme ≠ .cip50) {heap : Ref → Pool K} : ∀ {l : List (Option Ref)}, (∀ e ∈ l, ∃ q, e = some q) →
    l.mapM (entrySat rs heap) = .ok (List.replicate l.length rs.beta)
  | [], _ => rfl
  | e :: t, h => by
    obtain ⟨q, rfl⟩ := h e List.mem_cons_self
    rw [List.mapM_cons, sats_above hs (fun e he => h e (List.mem_cons_of_mem _ he))]
    simp only [entrySat, sat_of_ne hs]
    rfl

/-- C10.  With the uniform saturation threshold `1/k` and total stake 1, a pool of a ranking counts as a top pool - and its non-myopic
stake is the threshold or its stake, whichever is larger - exactly if fewer than `k` entries are ranked strictly above it; otherwise its
non-myopic stake is its pledge.  (`k ≤ 4·10^16`, so that `MIN_STAKE_UNIT < 1/k`; the entries above must not be place-holders.) -/
theorem C10_top_pool {rs : RS K} (hsch : rs.scheme ≠ .cip50) (hk1 : 1 ≤ rs.k) (hk2 : rs.k ≤ 4 * 10 ^ 16) (hb : rs.beta = 1 / (rs.k : K))
    {heap : Ref → Pool K} {l : SKL (Key K) (Option Ref)} (hl : l.Sorted) {r : Ref} (hmem : (poolKey (heap r), some r) ∈ l)
    (huniq : ∀ e ∈ l, e.1 = poolKey (heap r) → e.2 = some r) (hpools : ∀ e ∈ l, e.1 < poolKey (heap r) → ∃ q, e.2 = some q) :
    nonMyopicStake rs 1 heap l r = .ok (if l.countP (fun e => decide (e.1 < poolKey (heap r))) < rs.k
      then max (1 / (rs.k : K)) (heap r).stake else (heap r).pledge) := by
  obtain ⟨i, h1, h2, h3⟩ := SKL.index_ok hl hmem
  obtain ⟨hc, hlt⟩ := countP_sorted hl huniq h2 h3
  have hsat := sats_above (rs := rs) hsch (heap := heap) (l := l.vals.take i) (by
    intro e he
    unfold SKL.vals at he
    rw [← List.map_take] at he
    obtain ⟨x, hx, rfl⟩ := List.mem_map.1 he
    exact hpools x (List.mem_of_mem_take hx) (hlt x hx))
  have hlen : (l.vals.take i).length = i := by
    obtain ⟨hi, -⟩ := List.getElem?_eq_some_iff.1 h2
    rw [List.length_take, SKL.vals, List.length_map]; omega
  rw [hlen] at hsat
  unfold nonMyopicStake
  simp only [h1, bind, Except.bind, hsat, pure, Except.pure]
  rw [hc, sat_of_ne hsch]
  have hkpos : (0 : K) < rs.k := by exact_mod_cast hk1
  have hsum : FSum.fsum (List.replicate i rs.beta) = (i : K) / rs.k := by
    change List.sum _ = _
    rw [List.sum_replicate, hb, nsmul_eq_mul]; ring
  have hmin : (minUnit : K) < 1 / rs.k := by
    unfold minUnit
    rw [div_lt_div_iff₀ (by positivity) hkpos]
    have : 22 * rs.k < 10 ^ 18 := by omega
    have h' : ((22 * rs.k : Nat) : K) < ((10 ^ 18 : Nat) : K) := by exact_mod_cast this
    push_cast at h' ⊢; linarith
  have htop : (FSum.fsum (List.replicate i rs.beta) + minUnit < 1) ↔ i < rs.k := by
    rw [hsum]
    constructor
    · intro h
      by_contra hik
      push Not at hik
      have h4 : (1 : K) ≤ (i : K) / rs.k := by rw [le_div_iff₀ hkpos, one_mul]; exact_mod_cast hik
      have := (minUnit_pos (K := K))
      linarith
    · intro hik
      have h4 : (i : K) + 1 ≤ rs.k := by exact_mod_cast hik
      have h5 : (i : K) / rs.k ≤ 1 - 1 / rs.k := by
        rw [div_le_iff₀ hkpos, sub_mul, one_div, inv_mul_cancel₀ hkpos.ne']; linarith
      linarith
  unfold nonMyopicStakeFromRank
  by_cases hik : i < rs.k
  · rw [if_pos hik, decide_eq_true (htop.2 hik), if_pos rfl, hb]
  · rw [if_neg hik, decide_eq_false (fun h => hik (htop.1 h))]
    simp

/-- C10 in a simulation: in every state of a sequential single-phase simulation with a uniform threshold `1/k` and total stake 1, the
non-myopic stake that agents attribute to an open pool is `max (1/k) stake` if fewer than `k` open pools outrank it and its pledge
otherwise. -/
theorem C10_in_simulation {c : Config K} {s : State K} (h : ReachableSinglePhase c s) (hseq : c.simultaneous = false)
    (h0 : ∀ e ∈ c.people, 0 < e.1) (ha0 : 0 ≤ c.rs.a0) (hsch : c.rs.scheme ≠ .cip50) (hk1 : 1 ≤ c.rs.k) (hk2 : c.rs.k ≤ 4 * 10 ^ 16)
    (hb : c.rs.beta = 1 / (c.rs.k : K)) (ht : c.totalStake = 1) {pid : Nat} {r : Ref} (hp : s.pools.get? pid = some r) :
    nonMyopicStake s.rs s.totalStake s.heap s.rank r =
      .ok (if s.pools.countP (fun e => decide (Outranks (s.heap e.2) (s.heap r))) < c.rs.k
        then max (1 / (c.rs.k : K)) (s.heap r).stake else (s.heap r).pledge) := by
  have hkpos : (0 : K) < c.rs.k := by exact_mod_cast hk1
  have hbpos : 0 < c.rs.beta := by rw [hb]; positivity
  have hcore := ((Reachable.of_single h).good minUnit_pos).inv.core
  have hpar := h.params minUnit_pos
  have hlt : ∀ k', (k', none) ∈ s.rank → poolKey (s.heap r) < k' := by
    intro k' hk'
    rw [hcore.rank_none hk']
    exact poolKey_lt_none (h.pp_pos hseq h0 hbpos ha0 hp).1 ((Reachable.of_single h).fair r).des_nonneg
  have huniq : ∀ e ∈ s.rank, e.1 = poolKey (s.heap r) → e.2 = some r := by
    rintro ⟨k', o⟩ he hk'
    simp only at hk' ⊢
    cases o with
    | none => exact absurd hk' (hlt k' he).ne'
    | some q =>
      obtain ⟨hq, hkq⟩ := hcore.of_mem_rank he
      rw [hk'] at hkq
      have hid : (s.heap r).id = (s.heap q).id := by
        have := congrArg (fun t : Key K => (ofLex (ofLex t).2).2) hkq
        simpa [poolKey] using this
      rw [← hid, (hcore.poolRef _ _ hp).2.1, hp] at hq
      exact hq.symm
  have hpools : ∀ e ∈ s.rank, e.1 < poolKey (s.heap r) → ∃ q, e.2 = some q := by
    rintro ⟨k', o⟩ he hk'
    cases o with
    | none => exact absurd hk' (not_lt.2 (hlt k' he).le)
    | some q => exact ⟨q, rfl⟩
  have hcount : s.rank.countP (fun e => decide (e.1 < poolKey (s.heap r))) =
      s.pools.countP (fun e => decide (Outranks (s.heap e.2) (s.heap r))) := by
    rw [hcore.rankPerm.countP_eq, rankEntries, List.countP_append, List.countP_map]
    rw [List.countP_eq_zero.2, Nat.zero_add]
    · refine List.countP_congr (fun e he => ?_)
      simp only [Function.comp_apply, decide_eq_true_eq, outranks_iff]
    · intro e he
      have h2 := hcore.rankPerm.mem_iff.2 (List.mem_append_left _ he)
      rw [List.eq_of_mem_replicate he] at h2 ⊢
      simpa using (hlt _ h2).le
  have htot : s.totalStake = 1 := ((Reachable.of_single h).good minUnit_pos).fixed.totalStake.trans ht
  have := C10_top_pool (rs := s.rs) (by rw [hpar.rs]; exact hsch) (by rw [hpar.rs]; exact hk1) (by rw [hpar.rs]; exact hk2)
    (by rw [hpar.rs]; exact hb) hcore.rankSorted (hcore.mem_rank hp) huniq hpools
  rw [hcount] at this
  rw [htot, this, hpar.rs]

/-- in the demo simulation (`k = 3`) all three pools are top pools -/
example : ∃ s, ReachableSinglePhase (demo false) s ∧ (demo false).rs.scheme ≠ .cip50 ∧ (demo false).rs.beta = 1 / ((demo false).rs.k : ℚ) ∧
    (demo false).totalStake = 1 ∧ s.pools.length = 3 := by
  obtain ⟨s, hs, hv⟩ := demo_reachable
  exact ⟨s, hs, by decide, by decide +kernel, rfl, by simpa [demoView] using congrArg List.length hv⟩

/-! ### C09 -/

theorem loopMargins_get {F : Type} [Add F] {f : Nat → Py (F × F)} : ∀ {l : List Nat} {ms ms' : List F} {u u' : F}, loopMargins f l ms u = .ok (ms', u') →
    ∃ ns, ms' = ms ++ ns ∧ ns.length = l.length ∧ ∀ (i t : Nat), l[i]? = some t → ∃ m x, ns[i]? = some m ∧ f t = .ok (m, x)
  | [], ms, ms', u, u', h => by
    cases h
    exact ⟨[], by simp, rfl, by simp⟩
  | t :: ts, ms, ms', u, u', h => by
    unfold loopMargins at h
    obtain ⟨⟨m, x⟩, h1, h2⟩ := bind_ok h
    obtain ⟨ns, e1, e2, e3⟩ := loopMargins_get h2
    refine ⟨m :: ns, by simp [e1], by simp [e2], ?_⟩
    intro i t' hi
    cases i with
    | zero =>
      simp only [List.getElem?_cons_zero, Option.some.injEq] at hi
      subst hi
      exact ⟨m, x, rfl, h1⟩
    | succ i => exact e3 i t' (by simpa using hi)

/-- the number of open pools of other agents with a desirability satisfying `P` -/
def foreign (s : State K) (a : Nat) (P : K → Prop) [DecidablePred P] : Nat :=
  s.pools.countP (fun e => decide ((s.heap e.2).owner ≠ a ∧ P (s.heap e.2).des))

/-- an entry of a ranking that does not belong to the agent -/
def isFixed (s : State K) (a : Nat) (e : Key K × Option Ref) : Bool :=
  match e.2 with
  | none => true
  | some r => decide ((s.heap r).owner ≠ a)

/-- the entry is a pool of another agent with a desirability satisfying `P` -/
def isForeign (s : State K) (a : Nat) (P : K → Prop) [DecidablePred P] (e : Key K × Option Ref) : Bool :=
  match e.2 with
  | none => false
  | some r => decide ((s.heap r).owner ≠ a ∧ P (s.heap r).des)

theorem foreign_eq {n : Nat} {s : State K} (hc : Core n s) (a : Nat) (P : K → Prop) [DecidablePred P] :
    foreign s a P = (s.rank.filter (isFixed s a)).countP (isForeign s a P) := by
  rw [List.countP_filter]
  have h1 : s.rank.countP (fun e => isForeign s a P e && isFixed s a e) = s.rank.countP (isForeign s a P) := by
    refine List.countP_congr (fun e _ => ?_)
    unfold isForeign isFixed
    cases e.2 with
    | none => simp
    | some r => simp +contextual
  rw [h1, hc.rankPerm.countP_eq, rankEntries, List.countP_append, List.countP_map, List.countP_eq_zero.2]
  · rw [Nat.zero_add]; rfl
  · intro e he
    rw [List.eq_of_mem_replicate he]
    simp [isForeign]

theorem fixedPools_eq {s : State K} {me : Agent K} (hp : me.profile = .nonMyopic) :
    fixedPools s me = (s.rank.filter (isFixed s me.id)).map Prod.snd := by
  unfold fixedPools rankingsOf SKL.vals
  rw [hp]
  simp only
  rw [List.filter_map]
  congr 1

/-- the desirability that a ranking entry stands for -/
def entryDes (s : State K) : Option Ref → K
  | none => 0
  | some r => (s.heap r).des

/-- C09.  The margin that a non-myopic agent plans for its `t`-th pool (of potential profit `pp`): if the pool can get ahead of all but
`k - t` foreign pools at all (with the safety margin `boost`), then with the planned margin at most `k - t` foreign pools are at least as
desirable as it; if it cannot, the margin is 0. -/
theorem C09_margins_and_rank {n : Nat} {s : State K} (hc : Core n s) (hdes : ∀ pid r, s.pools.get? pid = some r → 0 ≤ (s.heap r).des)
    {me : Agent K} (hp : me.profile = .nonMyopic) {σ : Strategy K} {m : Nat} (hm : m ≤ s.rs.k) {ms : List K} {u pledge cost : K}
    (h : marginsAndUtility s me σ m = .ok (ms, u)) (hpl : pledgePerPool me.stake s.rs.beta m = .ok pledge)
    (hco : costPerPool m me.cost s.extraFrac = .ok cost) {t : Nat} (h1 : 1 ≤ t) (h2 : t ≤ m) :
    ∃ margin, ms[t - 1]? = some margin ∧
      if boost ≤ potentialProfit s.rs pledge cost ∧ foreign s me.id (fun d => potentialProfit s.rs pledge cost < d + boost) ≤ s.rs.k - t
      then foreign s me.id (fun d => desirability margin (potentialProfit s.rs pledge cost) ≤ d) ≤ s.rs.k - t
      else margin = 0 := by
  unfold marginsAndUtility at h
  rw [hco, hpl, hp] at h
  simp only [bind, Except.bind] at h
  obtain ⟨ns, e1, e2, e3⟩ := loopMargins_get h
  obtain ⟨margin, x, hmar, hf⟩ := e3 (t - 1) t (by rw [List.getElem?_range' (by omega)]; simp; omega)
  simp only [List.nil_append] at e1
  subst e1
  refine ⟨margin, hmar, ?_⟩
  set pp := potentialProfit s.rs pledge cost with hppd
  set L := s.rank.filter (isFixed s me.id) with hL
  have hLs : L.Pairwise (fun a b => a.1 ≤ b.1) := hc.rankSorted.sublist List.filter_sublist
  unfold marginNM at hf
  obtain ⟨target, hidx, hf⟩ := bind_ok hf
  -- the target entry
  have hLj : ∃ key, L[s.rs.k - t]? = some (key, target) := by
    unfold pyIndex at hidx
    have hnn : ¬ ((s.rs.k : Int) - (t : Int) < 0) := by omega
    simp only [if_neg hnn] at hidx
    have hj : ((s.rs.k : Int) - (t : Int)).toNat = s.rs.k - t := by omega
    rw [hj, fixedPools_eq hp, List.getElem?_map] at hidx
    cases hget : L[s.rs.k - t]? with
    | none => rw [← hL, hget] at hidx; cases hidx
    | some e =>
      rw [← hL, hget] at hidx
      cases hidx
      exact ⟨e.1, rfl⟩
  obtain ⟨key, hLj⟩ := hLj
  obtain ⟨hjl, hje⟩ := List.getElem?_eq_some_iff.1 hLj
  have hmemL : ∀ e ∈ L, e ∈ s.rank := fun e he => (List.mem_filter.1 he).1
  have hkeyof : ∀ e ∈ L, (ofLex e.1).1 = -entryDes s e.2 := by
    rintro ⟨k', o⟩ he
    cases o with
    | none => rw [hc.rank_none (hmemL _ he)]; simp [noneKey, entryDes]
    | some q => rw [(hc.of_mem_rank (hmemL _ he)).2]; simp [poolKey, entryDes]
  have hdesle : ∀ e ∈ L, ∀ e' ∈ L, e.1 ≤ e'.1 → entryDes s e'.2 ≤ entryDes s e.2 := by
    intro e he e' he' hle
    have : (ofLex e.1).1 ≤ (ofLex e'.1).1 := by
      rw [Prod.Lex.le_iff] at hle
      rcases hle with h | h
      · exact h.le
      · exact h.1.le
    rw [hkeyof e he, hkeyof e' he'] at this
    linarith
  have htm : (key, target) ∈ L := List.mem_of_getElem? hLj
  have hafter : ∀ e ∈ L.drop (s.rs.k - t), entryDes s e.2 ≤ entryDes s target := by
    intro e he
    obtain ⟨i, hi, rfl⟩ := List.getElem_of_mem he
    rw [List.getElem_drop]
    rw [List.length_drop] at hi
    rcases Nat.eq_zero_or_pos i with rfl | hi0
    · simp only [Nat.add_zero, hje, le_refl]
    · have h3 := (List.pairwise_iff_getElem.1 hLs) (s.rs.k - t) (s.rs.k - t + i) hjl (by omega) (by omega)
      rw [hje] at h3
      exact hdesle _ htm _ (List.getElem_mem _) h3
  have hbefore : ∀ e ∈ L.take (s.rs.k - t + 1), e.1 ≤ key := by
    intro e he
    obtain ⟨i, hi, rfl⟩ := List.getElem_of_mem he
    rw [List.getElem_take]
    rw [List.length_take] at hi
    rcases Nat.lt_or_ge i (s.rs.k - t) with hlt | hge
    · have h3 := (List.pairwise_iff_getElem.1 hLs) i (s.rs.k - t) (by omega) hjl hlt
      rw [hje] at h3; exact h3
    · have : i = s.rs.k - t := by omega
      subst this
      rw [hje]
  have hb := boost_pos (K := K)
  have htdes : 0 ≤ entryDes s target := by
    cases target with
    | none => exact le_refl _
    | some q => exact hdes _ _ (hc.of_mem_rank (hmemL _ htm)).1
  -- the condition of the code and the condition of the claim agree
  have hcond : (boost ≤ pp ∧ foreign s me.id (fun d => pp < d + boost) ≤ s.rs.k - t) ↔ entryDes s target + boost ≤ pp := by
    constructor
    · rintro ⟨hbp, hcnt⟩
      by_contra hlt
      push Not at hlt
      have hpos : 0 < entryDes s target := by linarith
      rw [foreign_eq hc, ← hL] at hcnt
      have hall : ∀ e ∈ L.take (s.rs.k - t + 1), isForeign s me.id (fun d => pp < d + boost) e = true := by
        intro e he
        have heL := List.mem_of_mem_take he
        have hd := hdesle _ heL _ htm (hbefore e he)
        obtain ⟨k', o⟩ := e
        cases o with
        | none =>
          replace hd : entryDes s target ≤ 0 := hd
          linarith
        | some q =>
          have hfix := (List.mem_filter.1 heL).2
          simp only [isFixed, decide_eq_true_eq] at hfix
          replace hd : entryDes s target ≤ (s.heap q).des := hd
          simp only [isForeign, decide_eq_true_eq]
          exact ⟨hfix, by linarith⟩
      have h4 := List.countP_eq_length.2 hall
      have h5 : (L.take (s.rs.k - t + 1)).countP (isForeign s me.id (fun d => pp < d + boost)) ≤
          L.countP (isForeign s me.id (fun d => pp < d + boost)) := (List.take_sublist _ _).countP_le
      rw [h4, List.length_take] at h5
      omega
    · intro hle
      refine ⟨by linarith, ?_⟩
      rw [foreign_eq hc, ← hL, ← List.take_append_drop (s.rs.k - t) L, List.countP_append]
      have h6 : (L.drop (s.rs.k - t)).countP (isForeign s me.id (fun d => pp < d + boost)) = 0 := by
        rw [List.countP_eq_zero]
        intro e he
        have hd := hafter e he
        obtain ⟨k', o⟩ := e
        cases o with
        | none => simp [isForeign]
        | some q =>
          replace hd : (s.heap q).des ≤ entryDes s target := hd
          simp only [isForeign, decide_eq_true_eq, not_and, not_lt]
          intro _; linarith
      rw [h6]
      have := List.countP_le_length (p := isForeign s me.id (fun d => pp < d + boost)) (l := L.take (s.rs.k - t))
      rw [List.length_take] at this
      omega
  have hstep : (pp < entryDes s target + boost → margin = 0) ∧
      (¬ pp < entryDes s target + boost → ∃ tpp, margin = suitableMargin pp (max (entryDes s target + boost) tpp)) := by
    cases target with
    | none =>
      replace hf : (if pp < (0 : K) + boost then _ else _ : Py (K × K)) = _ := hf
      constructor
      · intro (hlt : pp < (0 : K) + boost)
        rw [if_pos hlt] at hf
        obtain ⟨y, -, hf⟩ := bind_ok hf
        cases hf; rfl
      · intro (hlt : ¬ pp < (0 : K) + boost)
        rw [if_neg hlt] at hf
        obtain ⟨y, -, hf⟩ := bind_ok hf
        cases hf; exact ⟨_, rfl⟩
    | some q =>
      replace hf : (if pp < (s.heap q).des + boost then _ else _ : Py (K × K)) = _ := hf
      constructor
      · intro (hlt : pp < (s.heap q).des + boost)
        rw [if_pos hlt] at hf
        obtain ⟨y, -, hf⟩ := bind_ok hf
        cases hf; rfl
      · intro (hlt : ¬ pp < (s.heap q).des + boost)
        rw [if_neg hlt] at hf
        obtain ⟨y, -, hf⟩ := bind_ok hf
        cases hf; exact ⟨_, rfl⟩
  by_cases hle : entryDes s target + boost ≤ pp
  · rw [if_pos (hcond.2 hle)]
    obtain ⟨tpp, rfl⟩ := hstep.2 (not_lt.2 hle)
    have hpos : 0 < pp := by linarith
    have hd : entryDes s target < desirability (suitableMargin pp (max (entryDes s target + boost) tpp)) pp := by
      rw [C07_hits_target pp _ hpos ((by linarith : (0:K) ≤ entryDes s target + boost).trans (le_max_left _ _))]
      exact lt_min (lt_of_lt_of_le (by linarith) (le_max_left _ _)) (by linarith)
    rw [foreign_eq hc, ← hL, ← List.take_append_drop (s.rs.k - t) L, List.countP_append]
    have h6 : (L.drop (s.rs.k - t)).countP (isForeign s me.id
        (fun d => desirability (suitableMargin pp (max (entryDes s target + boost) tpp)) pp ≤ d)) = 0 := by
      rw [List.countP_eq_zero]
      intro e he
      have hd' := hafter e he
      obtain ⟨k', o⟩ := e
      cases o with
      | none => simp [isForeign]
      | some q =>
        replace hd' : (s.heap q).des ≤ entryDes s target := hd'
        simp only [isForeign, decide_eq_true_eq, not_and, not_le]
        intro _; linarith
    rw [h6]
    have := List.countP_le_length (p := isForeign s me.id
        (fun d => desirability (suitableMargin pp (max (entryDes s target + boost) tpp)) pp ≤ d)) (l := L.take (s.rs.k - t))
    rw [List.length_take] at this
    omega
  · rw [if_neg (fun h => hle (hcond.1 h))]
    exact hstep.1 (not_le.1 hle)

/-- C09, one pool: a non-myopic agent that plans a single pool puts it ahead of all but at most `k - 1` foreign pools, if it can -/
theorem C09_single_pool {n : Nat} {s : State K} (hc : Core n s) (hdes : ∀ pid r, s.pools.get? pid = some r → 0 ≤ (s.heap r).des)
    {me : Agent K} (hp : me.profile = .nonMyopic) {σ : Strategy K} (hm : 1 ≤ s.rs.k) {ms : List K} {u pledge cost : K}
    (h : marginsAndUtility s me σ 1 = .ok (ms, u)) (hpl : pledgePerPool me.stake s.rs.beta 1 = .ok pledge)
    (hco : costPerPool 1 me.cost s.extraFrac = .ok cost) (hb : boost ≤ potentialProfit s.rs pledge cost)
    (hcan : foreign s me.id (fun d => potentialProfit s.rs pledge cost < d + boost) < s.rs.k) :
    ∃ margin, ms = [margin] ∧ foreign s me.id (fun d => desirability margin (potentialProfit s.rs pledge cost) ≤ d) < s.rs.k := by
  obtain ⟨margin, h1, h2⟩ := C09_margins_and_rank hc hdes hp hm h hpl hco (le_refl 1) (le_refl 1)
  rw [if_pos ⟨hb, by omega⟩] at h2
  refine ⟨margin, ?_, by omega⟩
  unfold marginsAndUtility at h
  rw [hco, hpl, hp] at h
  simp only [bind, Except.bind] at h
  obtain ⟨ns, e1, e2, -⟩ := loopMargins_get h
  simp only [List.nil_append] at e1
  subst e1
  rw [List.length_range', List.length_eq_one_iff] at e2
  obtain ⟨x, rfl⟩ := e2
  simpa using h1

/-- in the demo state agent 3 (one pool, two foreign pools, `k = 3`) meets the hypotheses of both theorems, for two pools as well -/
example : ∃ s, ReachableSinglePhase (demo false) s ∧ ∃ me σ ms u pledge cost, s.agents.get? 3 = some me ∧ me.profile = .nonMyopic ∧ 2 ≤ s.rs.k ∧
    marginsAndUtility s me σ 2 = .ok (ms, u) ∧ pledgePerPool me.stake s.rs.beta 2 = .ok pledge ∧ costPerPool 2 me.cost s.extraFrac = .ok cost ∧
    boost ≤ potentialProfit s.rs pledge cost ∧ foreign s me.id (fun d => potentialProfit s.rs pledge cost < d + boost) ≤ s.rs.k - 2 := by
  have key : (iterM exec (initState (demo false)) (demoRound ++ demoRound)).toOption.map (fun s => decide (∃ me ∈ s.agents.get? 3, ∃ σ ∈ me.strategy,
      ∃ x ∈ (marginsAndUtility s me σ 2).toOption, ∃ pledge ∈ (pledgePerPool me.stake s.rs.beta 2).toOption,
      ∃ cost ∈ (costPerPool 2 me.cost s.extraFrac).toOption, me.profile = .nonMyopic ∧ 2 ≤ s.rs.k ∧
      boost ≤ potentialProfit s.rs pledge cost ∧ foreign s me.id (fun d => potentialProfit s.rs pledge cost < d + boost) ≤ s.rs.k - 2)) = some true := by
    decide +kernel
  obtain ⟨s, hs, hv⟩ := reachable_of_run (fun e he => by
    have he' : e ∈ demoRound := by rcases List.mem_append.1 he with h | h <;> exact h
    refine ⟨demoRound_valid false e he', ?_⟩
    rintro p rfl
    simp [demoRound] at he') key
  obtain ⟨me, h1, σ, -, ⟨ms, u⟩, h2, pledge, h3, cost, h4, h5, h6, h7, h8⟩ := of_decide_eq_true hv
  have ok {α : Type} {x : Py α} {a : α} (h : a ∈ x.toOption) : x = .ok a := by
    cases x with
    | error e => cases h
    | ok b => cases h; rfl
  exact ⟨s, hs, me, σ, ms, u, pledge, cost, h1, h5, h6, ok h2, ok h3, ok h4, h7, h8⟩

/-- a simulation with `k = 2` in which two expensive pools and a moderate one are opened before the fourth agent splits its stake -/
def splitDemo : Config ℚ :=
  { rs := { scheme := .cardano, k := 2, beta := 1/2, a0 := 1/10 }, relThr := 0, absThr := 0, extraFrac := 3, simultaneous := false,
    people := [(15/100, 46/100, .nonMyopic), (15/100, 46/100, .nonMyopic), (2/10, 16/100, .nonMyopic), (45/100, 85/1000, .nonMyopic),
      (5/100, 1, .abstainer)],
    totalStake := 1 }

/-- C09, the promise of "margins so that all t pools end up in the top k" (stakeholder.py:121) is false: the fourth agent has
just opened pools 4 and 5, pool 4 with a positive margin, and two pools are ranked above pool 4, so that it is not among the top `k = 2`. -/
theorem C09_not_all_in_top_k : ∃ s, ReachableSinglePhase splitDemo s ∧ s.rs.k = 2 ∧ ∃ r, s.pools.get? 4 = some r ∧ (s.heap r).owner = 3 ∧
    0 < (s.heap r).margin ∧ s.pools.countP (fun e => decide (Outranks (s.heap e.2) (s.heap r))) = 2 := by
  have key : (iterM exec (initState splitDemo) (turns [0, 1, 2, 3])).toOption.map (fun s => decide (s.rs.k = 2 ∧ ∃ r ∈ s.pools.get? 4,
      (s.heap r).owner = 3 ∧ 0 < (s.heap r).margin ∧ s.pools.countP (fun e => decide (Outranks (s.heap e.2) (s.heap r))) = 2)) = some true := by
    decide +kernel
  obtain ⟨s, hs, hv⟩ := reachable_of_run (turns_valid (by decide)) key
  obtain ⟨h1, r, h2, h3⟩ := of_decide_eq_true hv
  exact ⟨s, hs, h1, r, h2, h3⟩

end RSE.Props
