import Verif.Lemmas.Thr
import Verif.Props.Rational
import Verif.Props.TopK

/-!
# C90: what agents expect, and how they decide

The specification below says what a strategy is expected to earn, from the open pools, the pools the agent considers operating and the delegations it
considers; it does not mention rankings, objects or the functions of the model.
-/

set_option linter.unusedSectionVars false

namespace RSE.Props

variable {K : Type} [Field K] [LinearOrder K] [IsStrictOrderedRing K]

/-- the stake at which a pool with this pledge is full -/
def fullAt (rs : RS K) (pledge : K) : K := if rs.scheme = .cip50 then min (rs.a0 * pledge) rs.beta else rs.beta

theorem sat_eq (rs : RS K) (q : K) : rs.sat q = fullAt rs q := by
  unfold RS.sat fullAt
  cases rs.scheme <;> simp

/-- the stake that the pools of `field` that outrank `p` can take before they are full -/
def ahead (rs : RS K) (field : List (Pool K)) (p : Pool K) : K :=
  ((field.filter (fun q => decide (Outranks q p))).map (fun q => fullAt rs q.pledge)).sum

/-- the stake a pool is expected to have in the long run: it fills up, unless the pools ahead of it can take all stake (up to one unit); then only its
pledge remains -/
def longRun (rs : RS K) (total : K) (field : List (Pool K)) (p : Pool K) : K :=
  if ahead rs field p + minUnit < total then max (fullAt rs p.pledge) p.stake else p.pledge

/-- the pool with another stake -/
def withStake (p : Pool K) (x : K) : Pool K := { p with stake := x }

/-- the pool as it is expected to be in the long run -/
def matured (rs : RS K) (total : K) (field : List (Pool K)) (p : Pool K) : Pool K := withStake p (longRun rs total field p)

/-- what an agent expects of operating the pool `p`, one of the pools `mine`, next to the other agents' pools `others` -/
def operating (rs : RS K) (total : K) (profile : Profile) (others mine : List (Pool K)) (p : Pool K) : K :=
  match profile with
  | .nonMyopic => operatorIncome rs (matured rs total (others ++ mine) p)
  | _ => operatorIncome rs p

/-- what an agent expects of delegating `x` to the pool `p`, one of the open pools `all`, if it delegates `before` to it at present -/
def delegating (rs : RS K) (total : K) (profile : Profile) (all : List (Pool K)) (before x : K) (p : Pool K) : K :=
  match profile with
  | .nonMyopic => delegatorIncome rs (withStake p (max (longRun rs total all p) (p.stake - before + x))) x
  | _ => delegatorIncome rs (withStake p (p.stake - before + x)) x

/-- the open pools, as far as plans depend on them -/
def openPools (s : State K) : Dict (Pool K) := s.pools.map (fun e => (e.1, { s.heap e.2 with delegators := [] }))

/-- What an agent that delegates according to `before` at present expects of operating the pools `mine` and delegating according to `allocs`. -/
def expectation (rs : RS K) (total : K) (pools : Dict (Pool K)) (me : Agent K) (before : Dict K) (mine : List (Pool K)) (allocs : Dict K) : K :=
  (mine.map (operating rs total me.profile (pools.vals.filter (fun p => decide (p.owner ≠ me.id))) mine)).sum +
    (allocs.map (fun e => match pools.get? e.1 with
      | some p => delegating rs total me.profile pools.vals ((before.get? e.1).getD 0) e.2 p
      | none => 0)).sum

/-! ### Non-myopic stakes -/

/-- the capacity of an entry of a ranking -/
def entryRoom (rs : RS K) (heap : Ref → Pool K) (e : Key K × Option Ref) : K :=
  match e.2 with
  | none => 0
  | some q => fullAt rs (heap q).pledge

theorem sats_ok {rs : RS K} {heap : Ref → Pool K} : ∀ {l : SKL (Key K) (Option Ref)} {xs : List K},
    (l.map Prod.snd).mapM (entrySat rs heap) = .ok xs → xs = l.map (entryRoom rs heap)
  | [], xs, h => by cases h; rfl
  | e :: t, xs, h => by
    rw [List.map_cons, List.mapM_cons] at h
    obtain ⟨x, h1, h⟩ := bind_ok h
    obtain ⟨ys, h2, h⟩ := bind_ok h
    cases h
    rw [sats_ok h2, List.map_cons]
    congr 1
    unfold entryRoom
    cases he : e.2 with
    | none => rw [he] at h1; cases h1
    | some q => rw [he] at h1; cases h1; exact sat_eq _ _

theorem take_eq_filter {κ V : Type} [LinearOrder κ] {l : SKL κ V} (hs : l.Sorted) {k : κ} {v : V} {i : Nat} (h1 : l[i]? = some (k, v))
    (h2 : ∀ e ∈ l.take i, e.1 < k) : l.take i = l.filter (fun e => decide (e.1 < k)) := by
  obtain ⟨hi, hget⟩ := List.getElem?_eq_some_iff.1 h1
  have hdrop : ∀ e ∈ l.drop i, k ≤ e.1 := by
    intro e he
    obtain ⟨j, hj, rfl⟩ := List.getElem_of_mem he
    rw [List.getElem_drop]
    unfold SKL.Sorted at hs
    rw [List.pairwise_iff_getElem] at hs
    rcases Nat.eq_zero_or_pos j with rfl | hj0
    · simp only [Nat.add_zero, hget, le_refl]
    · have := hs i (i + j) hi (by simpa using (by rw [List.length_drop] at hj; omega)) (by omega)
      rw [hget] at this
      exact this
  conv_rhs => rw [← List.take_append_drop i l]
  rw [List.filter_append, List.filter_eq_self.2 (fun e he => by simpa using h2 e he),
    List.filter_eq_nil_iff.2 (fun e he => by simpa using hdrop e he), List.append_nil]

theorem nonMyopicStake_eq {rs : RS K} {total : K} {heap : Ref → Pool K} {l : SKL (Key K) (Option Ref)} (hl : l.Sorted) {r : Ref}
    (hmem : (poolKey (heap r), some r) ∈ l) (huniq : ∀ e ∈ l, e.1 = poolKey (heap r) → e.2 = some r) {v : K}
    (h : nonMyopicStake rs total heap l r = .ok v) {field : List (Pool K)}
    (hf : ((l.filter (fun e => decide (e.1 < poolKey (heap r)))).map (entryRoom rs heap)).sum = ahead rs field (heap r)) :
    v = longRun rs total field (heap r) := by
  obtain ⟨i, h1, h2, h3⟩ := SKL.index_ok hl hmem
  obtain ⟨-, hlt⟩ := countP_sorted hl huniq h2 h3
  unfold nonMyopicStake at h
  simp only [h1] at h
  obtain ⟨_, h0, h⟩ := bind_ok h
  cases h0
  obtain ⟨xs, h4, h⟩ := bind_ok h
  have htk : l.vals.take i = (l.filter (fun e => decide (e.1 < poolKey (heap r)))).map Prod.snd := by
    unfold SKL.vals
    rw [← List.map_take, take_eq_filter hl h2 hlt]
  rw [htk] at h4
  have hxs := sats_ok h4
  cases h
  have hsum : FSum.fsum xs = ahead rs field (heap r) := by
    rw [hxs, ← hf]; rfl
  unfold longRun nonMyopicStakeFromRank
  rw [hsum, sat_eq]
  by_cases ht : ahead rs field (heap r) + minUnit < total
  · simp [ht]
  · simp [ht]

theorem filter_entries {rs : RS K} {heap : Ref → Pool K} (p : Pool K) (f : Pool K → Pool K)
    (hf : ∀ q, (f q).id = q.id ∧ (f q).des = q.des ∧ (f q).pp = q.pp ∧ (f q).pledge = q.pledge) (l : List Ref) :
    (((l.map (fun r => (poolKey (heap r), some r))).filter (fun e => decide (e.1 < poolKey p))).map (entryRoom rs heap)).sum =
      ahead rs (l.map (fun r => f (heap r))) p := by
  unfold ahead
  induction l with
  | nil => rfl
  | cons r t ih =>
    obtain ⟨h1, h2, h3, h4⟩ := hf (heap r)
    have hiff : Outranks (f (heap r)) p ↔ poolKey (heap r) < poolKey p := by
      rw [← outranks_iff]; unfold Outranks; rw [h1, h2, h3]
    simp only [List.map_cons, List.filter_cons]
    by_cases hk : poolKey (heap r) < poolKey p
    · rw [if_pos (by simpa using hk), if_pos (by simpa using hiff.2 hk), List.map_cons, List.sum_cons, List.map_cons, List.sum_cons, ih, h4]
      rfl
    · rw [if_neg (by simpa using hk), if_neg (by simpa using fun h => hk (hiff.1 h))]
      exact ih

theorem openPools_vals (s : State K) : (openPools s).vals = s.pools.vals.map (fun r => { s.heap r with delegators := [] }) := by
  unfold openPools Dict.vals
  rw [List.map_map, List.map_map]
  rfl

theorem openPools_get (s : State K) (pid : Nat) : (openPools s).get? pid = (s.pools.get? pid).map (fun r => { s.heap r with delegators := [] }) := by
  unfold openPools
  exact Dict.get?_map_snd s.pools (fun _ r => { s.heap r with delegators := [] }) pid

/-- the non-myopic stake of an open pool -/
theorem openStake_eq {n : Nat} {s : State K} (hc : Core n s) {pid : Nat} {r : Ref} (hp : s.pools.get? pid = some r) {v : K}
    (h : nonMyopicStake s.rs s.totalStake s.heap s.rank r = .ok v) : v = longRun s.rs s.totalStake (openPools s).vals (s.heap r) := by
  refine nonMyopicStake_eq hc.rankSorted (hc.mem_rank hp) ?_ h ?_
  · intro e he hk
    have := hc.rank_unique e he _ (hc.mem_rank hp) hk
    rw [this]
  · rw [((hc.rankPerm.filter _).map _).sum_eq, rankEntries, List.filter_append, List.map_append, List.sum_append]
    have h0 : ((List.filter (fun e => decide (e.1 < poolKey (s.heap r))) (List.replicate n ((noneKey : Key K), (none : Option Ref)))).map
        (entryRoom s.rs s.heap)).sum = 0 := by
      apply List.sum_eq_zero
      intro x hx
      obtain ⟨e, he, rfl⟩ := List.mem_map.1 hx
      rw [List.eq_of_mem_replicate (List.mem_of_mem_filter he)]
      rfl
    rw [h0, zero_add, openPools_vals]
    have := filter_entries (rs := s.rs) (heap := s.heap) (s.heap r) (fun q => { q with delegators := [] }) (fun q => ⟨rfl, rfl, rfl, rfl⟩) s.pools.vals
    rw [← this]
    unfold Dict.vals
    rw [List.map_map]
    rfl

theorem foldl_add_perm (heap : Ref → Pool K) : ∀ (l : List Ref) (b : SKL (Key K) (Option Ref)),
    (l.foldl (fun l r => SKL.add (poolKey (heap r)) (some r) l) b).Perm (b ++ l.map (fun r => (poolKey (heap r), some r)))
  | [], b => by simp
  | r :: t, b => by
    rw [List.foldl_cons]
    refine (foldl_add_perm heap t _).trans ?_
    refine ((SKL.add_perm _ _ _).append_right _).trans ?_
    rw [List.map_cons, List.cons_append]
    exact List.perm_middle.symm

theorem rank_refs {n : Nat} {s : State K} (hc : Core n s) : (s.rank.vals.filterMap id).Perm s.pools.vals := by
  have h1 : s.rank.vals.Perm ((rankEntries n noneKey poolKey s.pools s.heap).map Prod.snd) := hc.rankPerm.map _
  refine (h1.filterMap id).trans (List.Perm.of_eq ?_)
  unfold rankEntries Dict.vals
  rw [List.map_append, List.filterMap_append, List.map_replicate, List.map_map]
  have h2 : (List.replicate n (none : Option Ref)).filterMap id = [] := by
    rw [List.filterMap_eq_nil_iff]
    intro a ha
    rw [List.eq_of_mem_replicate ha]; rfl
  rw [h2, List.nil_append, List.filterMap_map]
  induction s.pools with
  | nil => rfl
  | cons e t ih => simp

/-- the ids of the pools of a strategy are its own -/
structure OwnIds (s : State K) (me : Agent K) (mine : List Ref) : Prop where
  nodup : (mine.map (fun r => (s.heap r).id)).Nodup
  apart : ∀ pid r, s.pools.get? pid = some r → (s.heap r).owner ≠ me.id → ∀ q ∈ mine, (s.heap q).id ≠ pid

/-- the non-myopic stake of a pool that an agent considers operating -/
theorem ownStake_eq {n : Nat} {s : State K} (hc : Core n s) {me : Agent K} {mine : List Ref} (hd : OwnIds s me mine) {r : Ref} (hr : r ∈ mine) {v : K}
    (h : nonMyopicStake s.rs s.totalStake s.heap (tempRankings s me mine) r = .ok v) :
    v = longRun s.rs s.totalStake ((openPools s).vals.filter (fun p => decide (p.owner ≠ me.id)) ++ mine.map s.heap) (s.heap r) := by
  have hkey : ∀ {q q' : Ref}, poolKey (s.heap q) = poolKey (s.heap q') → (s.heap q).id = (s.heap q').id := by
    intro q q' hk
    unfold poolKey at hk
    exact (Prod.mk.inj (toLex_inj.1 (Prod.mk.inj (toLex_inj.1 hk)).2)).2
  refine nonMyopicStake_eq (tempRankings_sorted s me mine) ((mem_tempRankings s me mine).2 (Or.inr ⟨r, hr, rfl⟩)) ?_ h ?_
  · intro e he hk
    rcases (mem_tempRankings s me mine).1 he with ⟨q, hq, ho, rfl⟩ | ⟨q, hq, rfl⟩
    · exfalso
      obtain ⟨x, hx, hxq⟩ := rank_pool hc.rankPerm hq
      have hg := Dict.get?_of_mem hc.poolsNodup hx
      rw [hxq] at hg
      refine hd.apart _ q hg ho r hr ?_
      rw [← hkey hk, (hc.poolRef _ _ hg).2.1]
    · exact congrArg some (List.inj_on_of_nodup_map hd.nodup hq hr (hkey hk))
  · rw [tempRankings_eq]
    set others := (s.rank.vals.filterMap id).filter (fun r => decide ((s.heap r).owner ≠ me.id)) with hothers
    have hp1 := foldl_add_perm s.heap mine (others.foldl (fun l r => SKL.add (poolKey (s.heap r)) (some r) l) [])
    have hp2 := foldl_add_perm s.heap others []
    have hp := hp1.trans (hp2.append_right _)
    rw [List.nil_append] at hp
    have hop : others.Perm (s.pools.vals.filter (fun r => decide ((s.heap r).owner ≠ me.id))) := (rank_refs hc).filter _
    have hp' := hp.trans ((hop.map (fun r => (poolKey (s.heap r), some r))).append_right _)
    rw [((hp'.filter _).map _).sum_eq, List.filter_append, List.map_append, List.sum_append]
    have e1 := filter_entries (rs := s.rs) (heap := s.heap) (s.heap r) (fun q => { q with delegators := [] }) (fun q => ⟨rfl, rfl, rfl, rfl⟩)
      (s.pools.vals.filter (fun r => decide ((s.heap r).owner ≠ me.id)))
    have e2 := filter_entries (rs := s.rs) (heap := s.heap) (s.heap r) (fun q => q) (fun q => ⟨rfl, rfl, rfl, rfl⟩) mine
    rw [e1, e2]
    have e3 : (openPools s).vals.filter (fun p => decide (p.owner ≠ me.id)) =
        (s.pools.vals.filter (fun r => decide ((s.heap r).owner ≠ me.id))).map (fun r => { s.heap r with delegators := [] }) := by
      rw [openPools_vals, List.filter_map]; rfl
    rw [e3]
    unfold ahead
    rw [List.filter_append, List.map_append, List.sum_append]

/-! ### Expected utilities -/

theorem accM_filterMap {α β : Type} {f : β → Py K} {sel : α → Option β} {g : α → K} (l : List α) {u v : K} (h : accM f (l.filterMap sel) u = .ok v)
    (hf : ∀ x ∈ l, ∀ b, sel x = some b → ∀ y, f b = .ok y → y = g x) (h0 : ∀ x ∈ l, sel x = none → g x = 0) : v = u + (l.map g).sum := by
  induction l generalizing u with
  | nil => cases h; simp
  | cons x t ih =>
    rw [List.filterMap_cons] at h
    cases hs : sel x with
    | none =>
      rw [hs] at h
      rw [ih h (fun z hz => hf z (List.mem_cons_of_mem _ hz)) (fun z hz => h0 z (List.mem_cons_of_mem _ hz)), List.map_cons, List.sum_cons,
        h0 x List.mem_cons_self hs, zero_add]
    | some b =>
      rw [hs] at h
      unfold accM at h
      obtain ⟨y, h1, h2⟩ := bind_ok h
      rw [ih h2 (fun z hz => hf z (List.mem_cons_of_mem _ hz)) (fun z hz => h0 z (List.mem_cons_of_mem _ hz)), List.map_cons, List.sum_cons,
        hf x List.mem_cons_self b hs y h1]
      ring

theorem expectedUtility_eq {n : Nat} {s : State K} (hc : Core n s) {me : Agent K} {σ τ : Strategy K} (hd : OwnIds s me τ.owned.vals) {u : K}
    (h : expectedUtility s me σ τ = .ok u) :
    u = expectation s.rs s.totalStake (openPools s) me σ.allocs (τ.owned.map (fun e => s.heap e.2)) τ.allocs := by
  unfold expectedUtility at h
  obtain ⟨u₀, h1, h2⟩ := bind_ok h
  have hvals : τ.owned.map (fun e => s.heap e.2) = τ.owned.vals.map s.heap := by unfold Dict.vals; rw [List.map_map]; rfl
  have e1 : u₀ = ((τ.owned.map (fun e => s.heap e.2)).map (operating s.rs s.totalStake me.profile
      ((openPools s).vals.filter (fun p => decide (p.owner ≠ me.id))) (τ.owned.map (fun e => s.heap e.2)))).sum := by
    by_cases hlen : τ.owned.length > 0
    · rw [if_pos hlen] at h1
      cases hou : operatorUtilityFromStrategy s me τ with
      | error e => rw [hou] at h1; cases h1
      | ok v =>
        rw [hou] at h1
        cases h1
        simp only [zero_add]
        rw [hvals, List.map_map]
        unfold operatorUtilityFromStrategy at hou
        have hmy : ∀ {x : K}, accM (fun r => operatorUtility s.rs (s.heap r).stake (s.heap r).pledge (s.heap r).margin (s.heap r).cost) τ.owned.vals 0 = .ok x →
            x = (τ.owned.vals.map (fun r => operatorIncome s.rs (s.heap r))).sum := by
          intro x hx
          have := accM_ok (g := fun r => operatorIncome s.rs (s.heap r)) _ hx (fun r _ y hy => operatorUtility_income hy)
          rw [this, zero_add]
        cases hpr : me.profile with
        | nonMyopic =>
          rw [hpr] at hou
          have := accM_ok (g := fun r => operatorIncome s.rs (matured s.rs s.totalStake
              ((openPools s).vals.filter (fun p => decide (p.owner ≠ me.id)) ++ τ.owned.vals.map s.heap) (s.heap r))) _ hou (fun r hr y hy => by
            obtain ⟨st, h3, h4⟩ := bind_ok hy
            have h5 := ownStake_eq hc hd hr h3
            subst h5
            exact operatorUtility_income (p := matured s.rs s.totalStake
              ((openPools s).vals.filter (fun p => decide (p.owner ≠ me.id)) ++ τ.owned.vals.map s.heap) (s.heap r)) h4)
          rw [this, zero_add]
          rfl
        | myopic => rw [hpr] at hou; exact hmy hou
        | abstainer => rw [hpr] at hou; exact hmy hou
    · rw [if_neg hlen] at h1
      cases h1
      have : τ.owned = [] := List.length_eq_zero_iff.1 (by omega)
      rw [this]; rfl
  rw [e1] at h2
  refine accM_filterMap _ h2 ?_ ?_
  · intro e he b hb y hy
    cases hg : s.pools.get? e.1 with
    | none => rw [hg] at hb; cases hb
    | some r =>
      rw [hg] at hb
      cases hb
      have hid := (hc.poolRef _ _ hg).2.1
      rw [openPools_get, hg, Option.map_some]
      simp only
      have hprev : delegatorUtilityFromPool s me σ r e.2 = (match me.profile with
          | .nonMyopic => do
            let nm ← nonMyopicStake s.rs s.totalStake s.heap s.rank r
            delegatorUtility s.rs e.2 (max nm ((s.heap r).stake - (σ.allocs.get? e.1).getD 0 + e.2)) (s.heap r).pledge (s.heap r).margin (s.heap r).cost
          | _ => delegatorUtility s.rs e.2 ((s.heap r).stake - (σ.allocs.get? e.1).getD 0 + e.2) (s.heap r).pledge (s.heap r).margin (s.heap r).cost) := by
        unfold delegatorUtilityFromPool
        simp only [hid]
        cases σ.allocs.get? e.1 <;> rfl
      rw [hprev] at hy
      unfold delegating
      cases hpr : me.profile with
      | nonMyopic =>
        rw [hpr] at hy
        obtain ⟨nm, h3, h4⟩ := bind_ok hy
        have h5 := openStake_eq hc hg h3
        subst h5
        exact delegatorUtility_income (p := withStake (s.heap r) (max (longRun s.rs s.totalStake (openPools s).vals (s.heap r))
          ((s.heap r).stake - (σ.allocs.get? e.1).getD 0 + e.2))) h4
      | myopic =>
        rw [hpr] at hy
        exact delegatorUtility_income (p := withStake (s.heap r) ((s.heap r).stake - (σ.allocs.get? e.1).getD 0 + e.2)) hy
      | abstainer =>
        rw [hpr] at hy
        exact delegatorUtility_income (p := withStake (s.heap r) ((s.heap r).stake - (σ.allocs.get? e.1).getD 0 + e.2)) hy
  · intro e he hn
    cases hg : s.pools.get? e.1 with
    | none => rw [openPools_get, hg]; rfl
    | some r => rw [hg] at hn; cases hn

theorem Calm.openPools {n : Nat} {s s' : State K} (h : Calm s s') (hc : Core n s) : openPools s' = openPools s := by
  unfold Props.openPools
  rw [h.pools]
  apply List.map_congr_left
  intro e he
  obtain ⟨ds, -, hds⟩ := (Calm.looksSame h hc).pool e.1 e.2 (Dict.get?_of_mem hc.poolsNodup he)
  rw [hds]

/-- the pools an agent operates have their own ids -/
theorem own_present {n : Nat} {s : State K} (hi : Inv n s) {a : Nat} {ag : Agent K} {σ : Strategy K} (ha : s.agents.get? a = some ag)
    (hσ : ag.strategy = some σ) : OwnIds s ag σ.owned.vals := by
  have hnd := (hi.tidy a ag ha).owned σ hσ
  have hid := hi.core.agentId a ag ha
  refine ⟨?_, ?_⟩
  · have : σ.owned.vals.map (fun r => (s.heap r).id) = σ.owned.keys := by
      unfold Dict.vals Dict.keys
      rw [List.map_map]
      apply List.map_congr_left
      intro e he
      exact (hi.core.poolRef _ _ (hi.owned ha hσ (Dict.get?_of_mem hnd he)).1).2.1
    rw [this]; exact hnd
  · intro pid r hp ho q hq hqp
    obtain ⟨pid', hp'⟩ := (Dict.mem_vals_iff hnd).1 hq
    obtain ⟨h1, h2⟩ := hi.owned ha hσ hp'
    rw [(hi.core.poolRef _ _ h1).2.1] at hqp
    subst hqp
    rw [hp] at h1
    cases h1
    exact ho (h2.trans hid.symm)

/-- so have the pools an agent considers operating -/
theorem own_planned {n : Nat} {s s₁ s' : State K} (hi : Inv n s) {a : Nat} {ag : Agent K} {σ ω : Strategy K} (ha : s.agents.get? a = some ag)
    (hσ : ag.strategy = some σ) (h1 : Calm s s₁) (hseq : s₁.idSeq = s.idSeq) (h2 : Calm s₁ s') (hω : OpPlan n s₁ s' ag σ ω) :
    OwnIds s' ag ω.owned.vals := by
  obtain ⟨q, c, margins, u, -, -, -, -, -, hsh, -⟩ := hω.shape
  have hid := hi.core.agentId a ag ha
  have key : ∀ pid r, ω.owned.get? pid = some r → (s'.heap r).id = pid ∧
      ((∃ r₀, s.pools.get? pid = some r₀ ∧ (s.heap r₀).owner = a) ∨ s.idSeq < pid) := by
    intro pid r hr
    obtain ⟨-, -, m, -, ⟨r₀, h3, h4⟩ | ⟨h3, -, h4⟩⟩ := hsh pid r hr
    · obtain ⟨h5, h6⟩ := hi.owned ha hσ h3
      have h7 := hi.core.poolRef _ _ h5
      refine ⟨?_, Or.inl ⟨r₀, h5, h6⟩⟩
      rw [h4]
      show (s₁.heap r₀).id = pid
      rw [(h1.alike r₀ h7.1).same.id, h7.2.1]
    · exact ⟨by rw [h4]; rfl, Or.inr (by rw [← hseq]; exact h3)⟩
  refine ⟨?_, ?_⟩
  · have : ω.owned.vals.map (fun r => (s'.heap r).id) = ω.owned.keys := by
      unfold Dict.vals Dict.keys
      rw [List.map_map]
      apply List.map_congr_left
      intro e he
      exact (key _ _ (Dict.get?_of_mem hω.nodup he)).1
    rw [this]; exact hω.nodup
  · intro pid r hp ho q hq hqp
    obtain ⟨pid', hp'⟩ := (Dict.mem_vals_iff hω.nodup).1 hq
    obtain ⟨h3, h4⟩ := key _ _ hp'
    rw [h3] at hqp
    subst hqp
    rw [h2.pools, h1.pools] at hp
    have h5 := hi.core.poolRef _ _ hp
    rcases h4 with ⟨r₀, h6, h7⟩ | h6
    · rw [hp] at h6
      cases h6
      have h8 := ((h1.trans h2).alike r h5.1).same.owner
      exact ho (h8.trans (h7.trans hid.symm))
    · omega

/-! ### C90 -/

/-- C90, the present.  In every reachable state, what the model computes as the expected utility of an agent's present strategy is the expectation of
the specification. -/
theorem C90_present_strategy {c : Config K} {s : State K} (h : Reachable c s) {a : Nat} {ag : Agent K} {σ : Strategy K}
    (ha : s.agents.get? a = some ag) (hσ : ag.strategy = some σ) {u : K} (hu : expectedUtility s ag σ σ = .ok u) :
    u = expectation s.rs s.totalStake (openPools s) ag σ.allocs (σ.owned.map (fun e => s.heap e.2)) σ.allocs := by
  have hg := h.good minUnit_pos
  exact expectedUtility_eq hg.inv.core (own_present hg.inv ha hσ) hu

/-- C90, the decision.  Whenever an agent plans (sequential or random activation; or simultaneous activation, if its delegations are recorded), it compares its present strategy with two candidates, a delegation `δ` and
pools to operate `ω` (with a delegation of what is left).  All expectations are those of the specification, computed from the open pools before planning
began; it stays iff neither candidate beats, by both thresholds, what it earns and what it expects of its present strategy; otherwise it adopts the better
one, and `δ` if they are equally good. -/
theorem C90_plan {c : Config K} {s s' : State K} (h : Reachable c s) {a : Nat} {ag : Agent K} {σ : Strategy K}
    (ha : s.agents.get? a = some ag) (hσ : ag.strategy = some σ) (hr : c.simultaneous = false ∨ InRecords s a σ) {ord : List Nat → List Nat} (hord : ∀ l, (ord l).Perm l) {oν : Option (Strategy K)}
    (hp : planMove ord s ag σ = .ok (s', oν)) :
    ∃ s₁ δ ω, findDelegationMove s ag σ ag.stake = .ok (s₁, δ) ∧ δ.owned = [] ∧ (∃ ou, choosePoolStrategy ord s₁ ag σ = .ok (s', ou, ω)) ∧ ω.owned ≠ [] ∧
      let exp := expectation s.rs s.totalStake (openPools s) ag σ.allocs (σ.owned.map (fun e => s.heap e.2)) σ.allocs
      let du := expectation s.rs s.totalStake (openPools s) ag σ.allocs [] δ.allocs
      let ou := expectation s.rs s.totalStake (openPools s) ag σ.allocs (ω.owned.map (fun e => s'.heap e.2)) ω.allocs
      (oν = none ↔ ¬ Beats s.relThr s.absThr (income s σ) exp du ∧ ¬ Beats s.relThr s.absThr (income s σ) exp ou) ∧
      (Beats s.relThr s.absThr (income s σ) exp du → ou ≤ du → oν = some δ) ∧
      (Beats s.relThr s.absThr (income s σ) exp ou → du < ou → oν = some ω) := by
  have hg := h.good minUnit_pos
  have hid := hg.inv.core.agentId a ag ha
  have ht := hg.inv.tidy a ag ha
  have hr := hr.elim (fun hc => h.inRecords hc ha hσ) (fun hr => hr)
  have hready := h.ready_of ha hσ hr
  rw [← hid] at hready
  obtain ⟨cur, exp, s₁, δ, du, ω, ou, g1, g2, g3, g4, g5, g6, g7⟩ := C31_inertia hp
  obtain ⟨calm1, hnext, hseq, ready1⟩ := (findDelegationMove_ok g3).calm hready
  obtain ⟨c2, -, -, hop⟩ := (choosePoolStrategy_spec ready1.core hord ag (ht.allocs _ hσ) (ht.owned _ hσ)
    (fun pid r hr => by rw [calm1.pools]; exact (hg.inv.owned ha hσ hr).1)).of_ok g5
  have calm := (h.plan_calm_of ha hσ hr hord hp).1
  have calm2 : Calm s₁ s' := by
    refine ⟨?_, by rw [hnext]; exact calm.next_le, fun r hr => ?_, fun r hr => ?_⟩
    · have e1 := calm1.eq
      have e2 := calm.eq
      rw [e1]; exact e2
    · rw [hnext] at hr
      exact (calm1.alike r hr).symm.trans (calm.alike r hr)
    · rw [hnext] at hr
      exact (calm.dels r hr).trans (calm1.dels r hr).symm
  have hδo := (findDelegationMove_ok g3).owned
  obtain ⟨q, cc, margins, u, -, -, -, hlen, -⟩ := hop.shape
  have e0 : cur = income s σ := C86_current_utility g1
  have e1 := C90_present_strategy h ha hσ g2
  have e2 := expectedUtility_eq ready1.core (me := ag) (τ := δ) (by
    rw [hδo]; exact ⟨List.nodup_nil, fun _ _ _ _ q hq => by cases hq⟩) g4
  have e3 := expectedUtility_eq c2 (own_planned hg.inv ha hσ calm1 hseq calm2 hop) g6
  rw [calm1.rs, calm1.totalStake, Calm.openPools calm1 hg.inv.core, hδo] at e2
  rw [calm.rs, calm.totalStake, Calm.openPools calm hg.inv.core] at e3
  refine ⟨s₁, δ, ω, g3, hδo, ⟨ou, g5⟩, fun hn => by rw [hn] at hlen; exact absurd hlen (by simp), ?_⟩
  rw [e0, e1, e2, e3] at g7
  exact g7

/-! ### The hypotheses are met -/

/-- what agent `a` earns, what it expects of its present strategy, of the best delegation and of operating pools, after the given events; and how many
pools it then decides to operate and how many pools to delegate to -/
def beliefs (c : Config ℚ) (rounds : List (Event ℚ)) (a : Nat) : Option (List ℚ × Option (Nat × Nat)) := do
  let s ← (iterM exec (initState c) rounds).toOption
  let ag ← s.agents.get? a
  let σ ← ag.strategy
  let (s₁, δ) ← (findDelegationMove s ag σ ag.stake).toOption
  let (s', _, ω) ← (choosePoolStrategy id s₁ ag σ).toOption
  let (_, oν) ← (planMove id s ag σ).toOption
  let e := expectation s.rs s.totalStake (openPools s) ag σ.allocs
  return ([income s σ, e (σ.owned.map (fun e => s.heap e.2)) σ.allocs, e [] δ.allocs, e (ω.owned.map (fun e => s'.heap e.2)) ω.allocs],
    oν.map (fun ν => (ν.owned.length, ν.allocs.length)))

instance : DecidableEq (List ℚ × Option (Nat × Nat)) := instDecidableEqProd

/-- agent 2 (myopic) moves on to operating one pool after two rounds of the demo, because that pays more than it earns, expects or could get by delegating -/
example : beliefs (demo false) (demoRound ++ demoRound) 2 =
    some ([181623274169 / 738601500000, 181623274169 / 738601500000, 181623274169 / 738601500000, 3599 / 13000], some (1, 0)) := by decide +kernel

/-- agent 1 (non-myopic) stays with what it has: it expects more than it earns, and the alternatives promise less -/
example : beliefs (demo false) (demoRound ++ demoRound) 1 =
    some ([61997802131 / 738601500000, 33739727 / 390000000, 5411 / 84500, 2439 / 32500], none) := by decide +kernel

example : ∃ s, Reachable (demo false) s ∧ s.pools.keys = [1, 4, 8] := by
  obtain ⟨s, h1, h2⟩ := demo_reachable
  exact ⟨s, Reachable.of_single h1, by
    have := congrArg (List.map Prod.fst) h2
    unfold demoView at this
    simpa [Dict.keys, List.map_map, Function.comp_def] using this⟩

end RSE.Props
