import Verif.Props.Planned
import Verif.Props.Delegation

/-!
# C94: where agents plan to delegate
-/

set_option linter.unusedSectionVars false

namespace RSE.Props

variable {K : Type} [Field K] [LinearOrder K] [IsStrictOrderedRing K]

/-! ### The specification -/

/-- what the delegators of a pool together get at present -/
def payout (rs : RS K) (p : Pool K) : K := max ((1 - p.margin) * (rs.reward p.pledge p.stake - p.cost)) 0

/-- an agent with this profile prefers pool `q` to pool `p`: non-myopic agents look at desirability, then at potential profit, then at ids; myopic agents
at what delegators together get at present, then at ids -/
def Preferred (rs : RS K) (profile : Profile) (q p : Pool K) : Prop :=
  if profile = .nonMyopic then Outranks q p else payout rs p < payout rs q ∨ (payout rs q = payout rs p ∧ q.id < p.id)

instance (rs : RS K) (profile : Profile) (q p : Pool K) : Decidable (Preferred rs profile q p) := by unfold Preferred; infer_instance

/-- the pools that an agent may delegate to: the public ones of other agents -/
def openTo (pools : List (Pool K)) (a : Nat) : List (Pool K) := pools.filter (fun p => decide (p.owner ≠ a) && !p.isPrivate)

/-- what a pool can still take, when the agent's present delegation `before` is not counted -/
def spare (rs : RS K) (before : Dict K) (p : Pool K) : K := fullAt rs p.pledge - (p.stake - (before.get? p.id).getD 0)

/-- what the pools of a list can still take, those that can take at least one unit -/
def spareIn (rs : RS K) (before : Dict K) (l : List (Pool K)) : K :=
  ((l.filter (fun p => decide (minUnit ≤ spare rs before p))).map (spare rs before)).sum

/-- What an agent that has `stake` to delegate places in pool `p`.  Pools that are not full get what they can take, or what the preferred ones have left.
If all of them can be filled, the rest goes to the preferred one of the pools that are full already.  Amounts of less than one unit are not placed. -/
def placed (rs : RS K) (profile : Profile) (pools : List (Pool K)) (a : Nat) (before : Dict K) (stake : K) (p : Pool K) : Option K :=
  if p.owner ≠ a ∧ p.isPrivate = false then
    if minUnit ≤ spare rs before p then
      let left := stake - spareIn rs before ((openTo pools a).filter (fun q => decide (Preferred rs profile q p)))
      if minUnit ≤ left then some (min left (spare rs before p)) else none
    else
      let left := stake - spareIn rs before (openTo pools a)
      if minUnit ≤ left ∧ ∀ q ∈ openTo pools a, spare rs before q < minUnit → ¬ Preferred rs profile q p then some left else none
  else none

/-! ### The greedy loop in closed form -/

/-- what the pools of a list of references can still take -/
def roomIn (rs : RS K) (heap : Ref → Pool K) (l : List Ref) : K :=
  ((l.filter (fun r => decide (minUnit ≤ roomOf rs (heap r)))).map (fun r => roomOf rs (heap r))).sum

theorem roomIn_cons (rs : RS K) (heap : Ref → Pool K) (r : Ref) (t : List Ref) :
    roomIn rs heap (r :: t) = (if minUnit ≤ roomOf rs (heap r) then roomOf rs (heap r) else 0) + roomIn rs heap t := by
  unfold roomIn
  rw [List.filter_cons]
  by_cases h : minUnit ≤ roomOf rs (heap r) <;> simp [h]

theorem roomIn_nonneg (rs : RS K) (heap : Ref → Pool K) (l : List Ref) : 0 ≤ roomIn rs heap l := by
  unfold roomIn
  refine List.sum_nonneg (fun x hx => ?_)
  obtain ⟨r, hr, rfl⟩ := List.mem_map.1 hx
  have := of_decide_eq_true (List.mem_filter.1 hr).2
  exact minUnit_pos.le.trans this

structure Closed (rs : RS K) (heap : Ref → Pool K) (l : List Ref) (stake : K) (best : Option Ref) (d : Dict K) (res : K × Option Ref × Dict K) : Prop where
  other : ∀ i, i ∉ l.map (fun r => (heap r).id) → res.2.2.get? i = d.get? i
  full : ∀ r ∈ l, roomOf rs (heap r) < minUnit → res.2.2.get? (heap r).id = d.get? (heap r).id
  open_ : ∀ a r b, l = a ++ r :: b → minUnit ≤ roomOf rs (heap r) → res.2.2.get? (heap r).id =
    if minUnit ≤ stake - roomIn rs heap a then some (min (stake - roomIn rs heap a) (roomOf rs (heap r))) else d.get? (heap r).id
  rest : minUnit ≤ res.1 → res.1 = stake - roomIn rs heap l ∧ res.2.1 = (best <|> l.find? (fun r => decide (roomOf rs (heap r) < minUnit)))
  restIff : minUnit ≤ stake - roomIn rs heap l → minUnit ≤ res.1

theorem greedy_closed (rs : RS K) (heap : Ref → Pool K) : ∀ (l : List Ref) (stake : K) (best : Option Ref) (d : Dict K),
    minUnit ≤ stake → (l.map (fun r => (heap r).id)).Nodup → Closed rs heap l stake best d (greedy rs heap l stake best d)
  | [], stake, best, d, hst, _ => by
    refine ⟨fun _ _ => rfl, by simp, by simp, fun _ => ⟨by simp [greedy, roomIn], by simp [greedy]⟩, fun _ => hst⟩
  | r :: t, stake, best, d, hst, hnd => by
    simp only [List.map_cons, List.nodup_cons] at hnd
    have hroom : rs.sat (heap r).pledge - (heap r).stake = roomOf rs (heap r) := rfl
    unfold greedy
    simp only [hroom]
    by_cases hfull : roomOf rs (heap r) < minUnit
    · rw [if_pos hfull]
      have hge : ¬ minUnit ≤ roomOf rs (heap r) := not_le.2 hfull
      suffices key : ∀ best', best' = (best <|> some r) → Closed rs heap (r :: t) stake best d (greedy rs heap t stake best' d) by
        cases best with
        | none => exact key _ rfl
        | some b => exact key _ rfl
      intro best' hbest
      obtain ⟨h1, h2, h3, h4, h5⟩ := greedy_closed rs heap t stake best' d hst hnd.2
      refine ⟨fun i hi => ?_, fun r' hr' hf => ?_, fun a r' b hl hr' => ?_, fun hres => ?_, fun hl => h5 ?_⟩
      · simp only [List.map_cons, List.mem_cons, not_or] at hi
        exact h1 i hi.2
      · rcases List.mem_cons.1 hr' with rfl | hr'
        · exact h1 _ hnd.1
        · exact h2 r' hr' hf
      · cases a with
        | nil =>
          simp only [List.nil_append, List.cons.injEq] at hl
          rw [← hl.1] at hr'; exact absurd hr' hge
        | cons r₀ a =>
          simp only [List.cons_append, List.cons.injEq] at hl
          obtain ⟨rfl, hl⟩ := hl
          rw [h3 a r' b hl hr', roomIn_cons, if_neg hge, zero_add]
      · obtain ⟨e1, e2⟩ := h4 hres
        rw [roomIn_cons, if_neg hge, zero_add]
        refine ⟨e1, ?_⟩
        rw [e2, hbest, List.find?_cons]
        simp only [hfull, decide_true]
        cases best <;> rfl
      · rw [roomIn_cons, if_neg hge, zero_add] at hl; exact hl
    · rw [if_neg hfull]
      have hge : minUnit ≤ roomOf rs (heap r) := not_lt.1 hfull
      have hset : ∀ i, i ≠ (heap r).id → (d.set (heap r).id (min stake (roomOf rs (heap r)))).get? i = d.get? i := fun i hi => by
        rw [Dict.get?_set, if_neg hi.symm]
      have hself : (d.set (heap r).id (min stake (roomOf rs (heap r)))).get? (heap r).id = some (min stake (roomOf rs (heap r))) := by
        rw [Dict.get?_set, if_pos rfl]
      by_cases hstop : stake - min stake (roomOf rs (heap r)) < minUnit
      · rw [if_pos hstop]
        have hle : stake - roomOf rs (heap r) < minUnit := by
          rcases le_total stake (roomOf rs (heap r)) with h | h
          · have := minUnit_pos (K := K); linarith
          · rw [min_eq_right h] at hstop; exact hstop
        have hneg : ∀ a, ¬ minUnit ≤ stake - roomIn rs heap (r :: a) := fun a hh => by
          rw [roomIn_cons, if_pos hge] at hh
          have := roomIn_nonneg rs heap a
          linarith
        refine ⟨fun i hi => ?_, fun r' hr' hf => ?_, fun a r' b hl hr' => ?_, fun hres => absurd hres (not_le.2 hstop), fun hl => absurd hl (hneg t)⟩
        · simp only [List.map_cons, List.mem_cons, not_or] at hi
          exact hset i hi.1
        · rcases List.mem_cons.1 hr' with rfl | hr'
          · exact absurd hf hfull
          · exact hset _ (fun he => hnd.1 (he ▸ List.mem_map.2 ⟨r', hr', rfl⟩))
        · cases a with
          | nil =>
            simp only [List.nil_append, List.cons.injEq] at hl
            obtain ⟨rfl, -⟩ := hl
            rw [if_pos (by simpa [roomIn] using hst)]
            simp [roomIn]
          | cons r₀ a =>
            simp only [List.cons_append, List.cons.injEq] at hl
            obtain ⟨rfl, hl⟩ := hl
            rw [if_neg (hneg a)]
            exact hset _ (fun he => hnd.1 (he ▸ List.mem_map.2 ⟨r', by rw [hl]; simp, rfl⟩))
      · rw [if_neg hstop]
        have hle : roomOf rs (heap r) ≤ stake := by
          rcases le_total stake (roomOf rs (heap r)) with h | h
          · rw [min_eq_left h, sub_self] at hstop
            exact absurd minUnit_pos hstop
          · exact h
        have hmin : stake - min stake (roomOf rs (heap r)) = stake - roomOf rs (heap r) := by rw [min_eq_right hle]
        rw [hmin] at hstop ⊢
        obtain ⟨h1, h2, h3, h4, h5⟩ := greedy_closed rs heap t (stake - roomOf rs (heap r)) best (d.set (heap r).id (min stake (roomOf rs (heap r))))
          (not_lt.1 hstop) hnd.2
        have hsub : ∀ a, stake - roomOf rs (heap r) - roomIn rs heap a = stake - roomIn rs heap (r :: a) := fun a => by
          rw [roomIn_cons, if_pos hge]; ring
        refine ⟨fun i hi => ?_, fun r' hr' hf => ?_, fun a r' b hl hr' => ?_, fun hres => ?_, fun hl => h5 ?_⟩
        · simp only [List.map_cons, List.mem_cons, not_or] at hi
          rw [h1 i hi.2, hset i hi.1]
        · rcases List.mem_cons.1 hr' with rfl | hr'
          · exact absurd hf hfull
          · rw [h2 r' hr' hf, hset _ (fun he => hnd.1 (he ▸ List.mem_map.2 ⟨r', hr', rfl⟩))]
        · cases a with
          | nil =>
            simp only [List.nil_append, List.cons.injEq] at hl
            obtain ⟨rfl, -⟩ := hl
            rw [if_pos (by simpa [roomIn] using hst), h1 _ hnd.1, hself]
            simp [roomIn]
          | cons r₀ a =>
            simp only [List.cons_append, List.cons.injEq] at hl
            obtain ⟨rfl, hl⟩ := hl
            rw [h3 a r' b hl hr', hsub, hset _ (fun he => hnd.1 (he ▸ List.mem_map.2 ⟨r', by rw [hl]; simp, rfl⟩))]
        · obtain ⟨e1, e2⟩ := h4 hres
          rw [hsub] at e1
          refine ⟨e1, ?_⟩
          rw [e2, List.find?_cons]
          simp only [hfull, decide_false]
        · rw [hsub]; exact hl

/-- the whole plan in closed form: no pool that is not listed; a pool that is not full; a full pool -/
theorem greedyAllocations_closed (rs : RS K) (heap : Ref → Pool K) {l : List Ref} {stake : K} (hst : minUnit ≤ stake)
    (hnd : (l.map (fun r => (heap r).id)).Nodup) :
    (∀ i, i ∉ l.map (fun r => (heap r).id) → (greedyAllocations rs heap l stake).get? i = none) ∧
    ∀ a r b, l = a ++ r :: b → (greedyAllocations rs heap l stake).get? (heap r).id =
      if minUnit ≤ roomOf rs (heap r) then
        if minUnit ≤ stake - roomIn rs heap a then some (min (stake - roomIn rs heap a) (roomOf rs (heap r))) else none
      else if minUnit ≤ stake - roomIn rs heap l ∧ ∀ q ∈ a, ¬ roomOf rs (heap q) < minUnit then some (stake - roomIn rs heap l) else none := by
  have hc := greedy_closed rs heap l stake none [] hst hnd
  rcases hres : greedy rs heap l stake none [] with ⟨rest, best, d⟩
  rw [hres] at hc
  obtain ⟨h1, h2, h3, h4, h5⟩ := hc
  have hnil : ∀ i, Dict.get? ([] : Dict K) i = none := fun _ => rfl
  simp only [hnil] at h1 h2 h3 h4 h5
  have hdefN : best = none → greedyAllocations rs heap l stake = d := by
    intro hb
    unfold greedyAllocations
    rw [hres, hb]
  have hdefS : ∀ b, best = some b → greedyAllocations rs heap l stake = if rest ≥ minUnit then d.set (heap b).id rest else d := by
    intro b hb
    unfold greedyAllocations
    rw [hres, hb]
  have hor : ∀ o : Option Ref, (none <|> o) = o := fun o => rfl
  simp only [hor] at h4
  by_cases hrest : minUnit ≤ rest
  · -- everything that is not full is filled; the rest goes to the first full pool
    obtain ⟨e1, e2⟩ := h4 hrest
    cases hb : l.find? (fun r => decide (roomOf rs (heap r) < minUnit)) with
    | none =>
      rw [hdefN (e2.trans hb)]
      refine ⟨h1, fun a r b hl => ?_⟩
      have hr : ¬ roomOf rs (heap r) < minUnit := by
        have := List.find?_eq_none.1 hb r (by rw [hl]; simp)
        simpa using this
      rw [if_pos (not_lt.1 hr)]
      exact h3 a r b hl (not_lt.1 hr)
    | some q =>
      rw [hdefS q (e2.trans hb), if_pos hrest]
      obtain ⟨hq, a₀, b₀, hl₀, hfirst⟩ := List.find?_eq_some_iff_append.1 hb
      simp only [decide_eq_true_eq] at hq
      have hids : ∀ {r r'}, r ∈ l → r' ∈ l → (heap r).id = (heap r').id → r = r' := fun hr hr' he => List.inj_on_of_nodup_map hnd hr hr' he
      have hql : q ∈ l := by rw [hl₀]; simp
      refine ⟨fun i hi => ?_, fun a r b hl => ?_⟩
      · rw [Dict.get?_set, if_neg (fun he : (heap q).id = i => hi (he ▸ List.mem_map.2 ⟨q, hql, rfl⟩))]
        exact h1 i hi
      · have hrl : r ∈ l := by rw [hl]; simp
        by_cases hr : minUnit ≤ roomOf rs (heap r)
        · rw [if_pos hr, Dict.get?_set, if_neg (fun he => by have := hids hql hrl he; subst this; exact absurd hq (not_lt.2 hr))]
          exact h3 a r b hl hr
        · rw [if_neg hr, Dict.get?_set]
          have hnodup : l.Nodup := List.Nodup.of_map _ hnd
          by_cases hqr : q = r
          · subst hqr
            have ha : a = a₀ := by
              rw [hl] at hl₀
              rcases List.append_eq_append_iff.1 hl₀ with ⟨c, h6, h7⟩ | ⟨c, h6, h7⟩
              · cases c with
                | nil => rw [h6, List.append_nil]
                | cons x c =>
                  simp only [List.cons_append, List.cons.injEq] at h7
                  have := hfirst q (by rw [h6, ← h7.1]; simp)
                  simp at this
                  exact absurd hq (not_lt.2 this)
              · cases c with
                | nil => rw [h6, List.append_nil]
                | cons x c =>
                  simp only [List.cons_append, List.cons.injEq] at h7
                  rw [hl, h6, ← h7.1] at hnodup
                  rw [List.nodup_append] at hnodup
                  exact absurd rfl (hnodup.2.2 q (by simp) q List.mem_cons_self)
            subst ha
            rw [if_pos rfl, if_pos, e1]
            refine ⟨e1 ▸ hrest, fun q' hq' => ?_⟩
            have := hfirst q' hq'
            simpa using this
          · rw [if_neg (fun he => hqr (hids hql hrl he)), if_neg, h2 r hrl (not_le.1 hr)]
            rintro ⟨-, hall⟩
            rw [hl] at hl₀
            rcases List.append_eq_append_iff.1 hl₀ with ⟨c, h6, h7⟩ | ⟨c, h6, h7⟩
            · cases c with
              | nil => simp only [List.nil_append, List.cons.injEq] at h7; exact hqr h7.1.symm
              | cons x c =>
                simp only [List.cons_append, List.cons.injEq] at h7
                have := hfirst r (by rw [h6, ← h7.1]; simp)
                simp at this
                exact hr this
            · cases c with
              | nil => simp only [List.nil_append, List.cons.injEq] at h7; exact hqr h7.1
              | cons x c =>
                simp only [List.cons_append, List.cons.injEq] at h7
                exact hall q (by rw [h6, ← h7.1]; simp) hq
  · have hle : ¬ minUnit ≤ stake - roomIn rs heap l := fun h => hrest (h5 h)
    have hd : greedyAllocations rs heap l stake = d := by
      cases hb : best with
      | none => exact hdefN hb
      | some b => rw [hdefS b hb]; exact if_neg hrest
    rw [hd]
    refine ⟨h1, fun a r b hl => ?_⟩
    by_cases hr : minUnit ≤ roomOf rs (heap r)
    · rw [if_pos hr]; exact h3 a r b hl hr
    · rw [if_neg hr, if_neg (fun h => hle h.1)]
      exact h2 r (by rw [hl]; simp) (not_le.1 hr)

/-! ### The order in which pools are considered -/

theorem preferred_iff (rs : RS K) {profile : Profile} (h : profile ≠ .nonMyopic) (q p : Pool K) :
    Preferred rs profile q p ↔ poolKeyM rs q < poolKeyM rs p := by
  unfold Preferred poolKeyM payout
  rw [if_neg h]
  simp only [Prod.Lex.toLex_lt_toLex, neg_lt_neg_iff, neg_inj]
  rfl

theorem eligible_pairwise {n : Nat} {s : State K} (hc : Core n s) (me : Agent K) :
    (eligiblePools s me).Pairwise (fun r r' => Preferred s.rs me.profile (s.heap r) (s.heap r')) := by
  have hids : (eligiblePools s me).Pairwise (fun r r' => (s.heap r).id ≠ (s.heap r').id) :=
    List.pairwise_map.1 (eligible_ids_nodup hc me (fun r => SamePool.refl (s.heap r)))
  have hel : ∀ {o : Option Ref} {r : Ref}, (match o with
      | none => none
      | some r => if (s.heap r).owner ≠ me.id ∧ (s.heap r).isPrivate = false then some r else none) = some r → o = some r := by
    intro o r h
    cases o with
    | none => cases h
    | some r' =>
      simp only at h
      split at h
      · exact h
      · cases h
  by_cases hp : me.profile = .nonMyopic
  · have hle : (eligiblePools s me).Pairwise (fun r r' => poolKey (s.heap r) ≤ poolKey (s.heap r')) := by
      unfold eligiblePools
      have e1 : rankingsOf s me = s.rank.map Prod.snd := by unfold rankingsOf; rw [hp]; rfl
      rw [e1, List.pairwise_filterMap, List.pairwise_map]
      refine List.Pairwise.imp_of_mem ?_ hc.rankSorted
      rintro ⟨k, o⟩ ⟨k', o'⟩ ha hb hle r hr r' hr'
      have ho := hel hr
      have ho' := hel hr'
      simp only at ho ho' hle
      subst ho ho'
      rw [(hc.of_mem_rank ha).2, (hc.of_mem_rank hb).2] at hle
      exact hle
    refine (hle.and hids).imp (fun {r r'} h => ?_)
    unfold Preferred
    rw [if_pos hp, outranks_iff]
    refine lt_of_le_of_ne h.1 (fun he => h.2 ?_)
    simp only [poolKey, EmbeddingLike.apply_eq_iff_eq, Prod.mk.injEq] at he
    exact he.2.2
  · have hle : (eligiblePools s me).Pairwise (fun r r' => poolKeyM s.rs (s.heap r) ≤ poolKeyM s.rs (s.heap r')) := by
      unfold eligiblePools
      have e1 : rankingsOf s me = s.rankM.map Prod.snd := by
        unfold rankingsOf
        cases h : me.profile with
        | nonMyopic => exact absurd h hp
        | myopic => rfl
        | abstainer => rfl
      rw [e1, List.pairwise_filterMap, List.pairwise_map]
      refine List.Pairwise.imp_of_mem ?_ hc.rankMSorted
      rintro ⟨k, o⟩ ⟨k', o'⟩ ha hb hle r hr r' hr'
      have ho := hel hr
      have ho' := hel hr'
      simp only at ho ho' hle
      subst ho ho'
      rw [(hc.of_mem_rankM ha).2, (hc.of_mem_rankM hb).2] at hle
      exact hle
    refine (hle.and hids).imp (fun {r r'} h => ?_)
    rw [preferred_iff _ hp]
    refine lt_of_le_of_ne h.1 (fun he => h.2 ?_)
    simp only [poolKeyM, EmbeddingLike.apply_eq_iff_eq, Prod.mk.injEq] at he
    exact he.2

theorem Preferred.asymm {rs : RS K} {profile : Profile} {q p : Pool K} (h : Preferred rs profile q p) : ¬ Preferred rs profile p q := by
  by_cases hp : profile = .nonMyopic
  · unfold Preferred at *
    rw [if_pos hp, outranks_iff] at *
    exact not_lt.2 h.le
  · rw [preferred_iff _ hp] at *
    exact not_lt.2 h.le

theorem eligible_perm {n : Nat} {s : State K} (hc : Core n s) (me : Agent K) :
    ((eligiblePools s me).map (fun r => ({ s.heap r with delegators := [] } : Pool K))).Perm (openTo (openPools s).vals me.id) := by
  have h1 := ((rankings_sorted hc me).2).filterMap (fun e => match e with
    | none => none
    | some r => if (s.heap r).owner ≠ me.id ∧ (s.heap r).isPrivate = false then some r else none)
  refine (h1.map _).trans (List.Perm.of_eq ?_)
  rw [List.filterMap_append, List.filterMap_eq_nil_iff.2 (fun a ha => by rw [List.eq_of_mem_replicate ha]), List.nil_append, openTo, openPools_vals, Dict.vals]
  generalize s.pools = l
  induction l with
  | nil => rfl
  | cons e t ih =>
    simp only [List.map_cons, List.filterMap_cons, List.filter_cons]
    by_cases hel : (s.heap e.2).owner ≠ me.id ∧ (s.heap e.2).isPrivate = false
    · rw [if_pos hel, if_pos (by simp [hel.1, hel.2])]
      simp only [List.map_cons, ih]
    · rw [if_neg hel, if_neg (by simpa using hel)]
      exact ih

/-- splitting at an element of a list that is sorted strictly: what comes before it are the preferred ones -/
theorem filter_before {α : Type} {R : α → α → Prop} [DecidableRel R] (hasymm : ∀ {x y}, R x y → ¬ R y x) {l a b : List α} {r : α} (hl : l = a ++ r :: b)
    (hs : l.Pairwise R) : l.filter (fun q => decide (R q r)) = a := by
  subst hl
  rw [List.pairwise_append, List.pairwise_cons] at hs
  obtain ⟨h1, ⟨h2, h3⟩, h4⟩ := hs
  rw [List.filter_append, List.filter_cons, List.filter_eq_self.2, List.filter_eq_nil_iff.2, if_neg, List.append_nil]
  · simpa using fun h => hasymm h h
  · intro q hq
    simpa using hasymm (h2 q hq)
  · intro q hq
    simpa using h4 q hq r List.mem_cons_self

/-! ### Delegations are as specified -/

theorem spareIn_perm {rs : RS K} {before : Dict K} {l l' : List (Pool K)} (h : l.Perm l') : spareIn rs before l = spareIn rs before l' := by
  unfold spareIn
  exact ((h.filter _).map _).sum_eq

theorem spareIn_nonneg (rs : RS K) (before : Dict K) (l : List (Pool K)) : 0 ≤ spareIn rs before l := by
  unfold spareIn
  refine List.sum_nonneg (fun x hx => ?_)
  obtain ⟨r, hr, rfl⟩ := List.mem_map.1 hx
  exact minUnit_pos.le.trans (of_decide_eq_true (List.mem_filter.1 hr).2)

theorem placed_tiny {rs : RS K} {profile : Profile} {pools : List (Pool K)} {a : Nat} {before : Dict K} {stake : K} (h : stake < minUnit) (p : Pool K) :
    placed rs profile pools a before stake p = none := by
  have key : ∀ l, ¬ minUnit ≤ stake - spareIn rs before l := fun l hl => by
    have := spareIn_nonneg rs before l
    linarith
  unfold placed
  simp only [key, if_false, false_and, ite_self]

/-- the plan for `stake`, made in a state `s` with the same open pools as `t` -/
theorem placed_eq {n : Nat} {s t s' : State K} {me : Agent K} {σ δ : Strategy K} {stake : K} (h : Ready n t me.id σ) (hc : Core n s)
    (hpools : s.pools = t.pools) (hh : ∀ pid r, t.pools.get? pid = some r → s.heap r = t.heap r)
    (hf : findDelegationMove s me σ stake = .ok (s', δ)) (pid : Nat) :
    δ.allocs.get? pid = ((openPools s).get? pid).bind (placed s.rs me.profile (openPools s).vals me.id σ.allocs stake) := by
  have hmem : ∀ {pid r}, s.pools.get? pid = some r → (s.heap r).owner ≠ me.id → (s.heap r).isPrivate = false → r ∈ eligiblePools s me :=
    fun hp h1 h2 => (mem_eligible_iff hc).2 ⟨_, hp, h1, h2⟩
  cases findDelegationMove_ok hf with
  | tiny hst _ hδ =>
    rw [hδ]
    cases (openPools s).get? pid with
    | none => rfl
    | some p => exact (placed_tiny hst p).symm
  | none hst he _ hδ =>
    rw [hδ, openPools_get]
    cases hp : s.pools.get? pid with
    | none => rfl
    | some r =>
      simp only [Option.map_some, Option.bind_some]
      unfold placed
      rw [if_neg]
      · rfl
      · rintro ⟨h1, h2⟩
        have := hmem hp h1 h2
        rw [he] at this
        cases this
  | some s₁ hst _ h1 h2 hδ =>
    obtain ⟨hrs, ht⟩ := takeOut_open h hc hpools hh h1
    rw [hδ]
    simp only
    rw [hrs]
    -- what is left of a pool
    have hroom : ∀ r ∈ eligiblePools s me, roomOf s.rs (s₁.heap r) = spare s.rs σ.allocs { s.heap r with delegators := [] } := by
      intro r hr
      obtain ⟨pid, hp, -, -⟩ := (mem_eligible_iff hc).1 hr
      unfold roomOf spare
      have hid := (hc.poolRef _ _ hp).2.1
      rw [hpools] at hp
      obtain ⟨hsame, hst⟩ := ht pid r hp
      rw [hsame.pledge, hst, sat_eq, hid, ← hh pid r hp]
    have hids : ∀ pid r, s.pools.get? pid = some r → (s₁.heap r).id = (s.heap r).id := by
      intro pid r hp
      rw [hpools] at hp
      rw [(ht pid r hp).1.id, hh pid r hp]
    have hnd : ((eligiblePools s me).map (fun r => (s₁.heap r).id)).Nodup := by
      have e : (eligiblePools s me).map (fun r => (s₁.heap r).id) = (eligiblePools s me).map (fun r => (s.heap r).id) := by
        refine List.map_congr_left (fun r hr => ?_)
        obtain ⟨pid, hp, -, -⟩ := (mem_eligible_iff hc).1 hr
        exact hids pid r hp
      rw [e]
      exact eligible_ids_nodup hc me (fun _ => SamePool.refl _)
    obtain ⟨g1, g2⟩ := greedyAllocations_closed s.rs s₁.heap hst hnd
    have hnot : ∀ {r₀}, s.pools.get? pid = r₀ → (∀ r, r₀ = some r → r ∉ eligiblePools s me) →
        (greedyAllocations s.rs s₁.heap (eligiblePools s me) stake).get? pid = none := by
      intro r₀ hp hr₀
      refine g1 pid (fun hm => ?_)
      obtain ⟨r, hr, he⟩ := List.mem_map.1 hm
      obtain ⟨pid', hp', -, -⟩ := (mem_eligible_iff hc).1 hr
      have : pid' = pid := by rw [← (hc.poolRef _ _ hp').2.1, ← hids _ _ hp', he]
      subst this
      exact hr₀ r (hp ▸ hp') hr
    rw [openPools_get]
    cases hp : s.pools.get? pid with
    | none => exact hnot hp (fun _ h => by cases h)
    | some r =>
      simp only [Option.map_some, Option.bind_some]
      by_cases hel : (s.heap r).owner ≠ me.id ∧ (s.heap r).isPrivate = false
      · have hr := hmem hp hel.1 hel.2
        obtain ⟨a, b, hab⟩ := List.append_of_mem hr
        have hid : (s₁.heap r).id = pid := by rw [hids _ _ hp]; exact (hc.poolRef _ _ hp).2.1
        have hg := g2 a r b hab
        rw [hid] at hg
        rw [hg]
        have hperm := eligible_perm hc me
        have hsum : ∀ l : List Ref, (∀ r ∈ l, r ∈ eligiblePools s me) →
            roomIn s.rs s₁.heap l = spareIn s.rs σ.allocs (l.map (fun r => { s.heap r with delegators := [] })) := by
          intro l hl
          unfold roomIn spareIn
          rw [List.filter_map, List.map_map]
          have e1 : l.filter (fun r => decide (minUnit ≤ roomOf s.rs (s₁.heap r))) =
              l.filter ((fun p => decide (minUnit ≤ spare s.rs σ.allocs p)) ∘ fun r => { s.heap r with delegators := [] }) := by
            refine List.filter_congr (fun r hr => ?_)
            simp only [Function.comp_apply, hroom r (hl r hr)]
          rw [e1]
          congr 1
          refine List.map_congr_left (fun r hr => ?_)
          exact hroom r (hl r (List.mem_filter.1 hr).1)
        have hbefore := filter_before (R := fun r r' => Preferred s.rs me.profile (s.heap r) (s.heap r')) (fun h => h.asymm) hab (eligible_pairwise hc me)
        have hE : spareIn s.rs σ.allocs (openTo (openPools s).vals me.id) = roomIn s.rs s₁.heap (eligiblePools s me) := by
          rw [hsum _ (fun _ h => h), spareIn_perm hperm]
        have hA : spareIn s.rs σ.allocs ((openTo (openPools s).vals me.id).filter
            (fun q => decide (Preferred s.rs me.profile q { s.heap r with delegators := [] }))) = roomIn s.rs s₁.heap a := by
          rw [← spareIn_perm (hperm.filter _), List.filter_map, hsum a (fun q hq => by rw [hab]; exact List.mem_append_left _ hq)]
          congr 2
        have hfirst : (∀ q ∈ openTo (openPools s).vals me.id, spare s.rs σ.allocs q < minUnit →
            ¬ Preferred s.rs me.profile q { s.heap r with delegators := [] }) ↔ ∀ q ∈ a, ¬ roomOf s.rs (s₁.heap q) < minUnit := by
          constructor
          · intro hall q hq hlt
            have hqE : q ∈ eligiblePools s me := by rw [hab]; exact List.mem_append_left _ hq
            have hpref : Preferred s.rs me.profile (s.heap q) (s.heap r) := by
              rw [← hbefore] at hq
              simpa using (List.mem_filter.1 hq).2
            rw [hroom q hqE] at hlt
            exact hall _ (hperm.mem_iff.1 (List.mem_map.2 ⟨q, hqE, rfl⟩)) hlt hpref
          · intro hall q hq hlt hpref
            obtain ⟨q', hq', rfl⟩ := List.mem_map.1 (hperm.mem_iff.2 hq)
            rw [← hroom q' hq'] at hlt
            refine hall q' ?_ hlt
            rw [← hbefore]
            exact List.mem_filter.2 ⟨hq', decide_eq_true hpref⟩
        unfold placed
        rw [if_pos hel, hroom r hr]
        simp only [hE, hA, hfirst]
      · rw [hnot hp (fun r' h => by
          cases h
          intro hm
          obtain ⟨pid', -, h3, h4⟩ := (mem_eligible_iff hc).1 hm
          exact hel ⟨h3, h4⟩)]
        unfold placed
        rw [if_neg hel]

/-! ### The property -/

/-- `d` says where an agent with `stake` to delegate places it -/
def PlacedAll (rs : RS K) (pools : Dict (Pool K)) (me : Agent K) (before : Dict K) (stake : K) (d : Dict K) : Prop :=
  d.keys.Nodup ∧ ∀ pid, d.get? pid = (pools.get? pid).bind (placed rs me.profile pools.vals me.id before stake)

/-- C94.  When an agent plans (sequential or random activation; or simultaneous activation, if its delegations are recorded), the delegation it considers places all its stake as specified, and what it considers delegating
beside operating `n` pools places what `n` pledges leave, as specified.  The specification mentions only the open pools before planning. -/
theorem C94_plan {c : Config K} {s s' : State K} (h : Reachable c s) {a : Nat} {ag : Agent K} {σ : Strategy K}
    (ha : s.agents.get? a = some ag) (hσ : ag.strategy = some σ) (hr : c.simultaneous = false ∨ InRecords s a σ) {ord : List Nat → List Nat} (hord : ∀ l, (ord l).Perm l) {oν : Option (Strategy K)}
    (hp : planMove ord s ag σ = .ok (s', oν)) :
    ∃ s₁ δ ω ou, findDelegationMove s ag σ ag.stake = .ok (s₁, δ) ∧ choosePoolStrategy ord s₁ ag σ = .ok (s', ou, ω) ∧
      δ.owned = [] ∧ PlacedAll s.rs (openPools s) ag σ.allocs ag.stake δ.allocs ∧
      let n := ω.owned.length
      PlacedAll s.rs (openPools s) ag σ.allocs (ag.stake - min (ag.stake / n) s.rs.beta * n) ω.allocs := by
  have hg := h.good minUnit_pos
  have hid := hg.inv.core.agentId a ag ha
  have ht := hg.inv.tidy a ag ha
  have hr := hr.elim (fun hc => h.inRecords hc ha hσ) (fun hr => hr)
  have hready := h.ready_of ha hσ hr
  rw [← hid] at hready
  obtain ⟨cur, exp, s₁, δ, du, ou, ω, hpl⟩ := planMove_ok hp
  obtain ⟨calm1, hnext, hseq, ready1⟩ := (findDelegationMove_ok hpl.delegate).calm hready
  have hown1 : ∀ pid r, σ.owned.get? pid = some r → s₁.pools.get? pid = some r := fun pid r hr => by
    rw [calm1.pools]; exact (hg.inv.owned ha hσ hr).1
  obtain ⟨-, -, -, hop⟩ := (choosePoolStrategy_spec ready1.core hord ag (ht.allocs _ hσ) (ht.owned _ hσ) hown1).of_ok hpl.operate
  have hfd := (findDelegationMove_spec hready.core ag σ (ht.allocs _ hσ) ag.stake).of_ok hpl.delegate
  have hopen : openPools s₁ = openPools s := Calm.openPools calm1 hg.inv.core
  refine ⟨s₁, δ, ω, ou, hpl.delegate, hpl.operate, ?_, ⟨?_, ?_⟩, hop.allocs.nodup, ?_⟩
  · exact hfd.2.2.2.2
  · exact hfd.2.2.2.1.nodup
  · exact placed_eq hready hready.core rfl (fun _ _ _ => rfl) hpl.delegate
  · obtain ⟨q, cc, margins, u, -, hq, -, hpos, -, -, hrest⟩ := hop.shape
    have hq' : q = min (ag.stake / (ω.owned.length : K)) s.rs.beta := by
      unfold pledgePerPool at hq
      rw [if_neg (by omega), calm1.rs] at hq
      exact (Except.ok.inj hq).symm
    rw [← hq']
    intro pid
    rcases hrest with ⟨hneg, hnil⟩ | ⟨sA, sB, -, hA, hpA, hhA, hfd⟩
    · rw [hnil]
      cases (openPools s).get? pid with
      | none => rfl
      | some p => exact (placed_tiny (lt_of_le_of_lt (not_lt.1 hneg) minUnit_pos) p).symm
    · have hheap : ∀ pid r, s₁.pools.get? pid = some r → sA.heap r = s₁.heap r := fun pid r hr => hhA r (ready1.core.poolRef _ _ hr).1
      have := placed_eq ready1 hA hpA.pools hheap hfd pid
      have hoA : openPools sA = openPools s₁ := by
        unfold openPools
        rw [hpA.pools]
        refine List.map_congr_left (fun e he => ?_)
        rw [hheap e.1 e.2 (Dict.get?_of_mem ready1.core.poolsNodup he)]
      rw [hoA, hopen, hpA.rs, calm1.rs] at this
      exact this

/-! ### The hypotheses are met -/

/-- the delegations of agent `a` after the given events, those it considers instead, and those it considers beside operating pools -/
def delegationPlans (c : Config ℚ) (rounds : List (Event ℚ)) (a : Nat) : Option (Dict ℚ × Dict ℚ × Dict ℚ) := do
  let s ← (iterM exec (initState c) rounds).toOption
  let ag ← s.agents.get? a
  let σ ← ag.strategy
  let (s₁, δ) ← (findDelegationMove s ag σ ag.stake).toOption
  let (_, _, ω) ← (choosePoolStrategy id s₁ ag σ).toOption
  return (σ.allocs, δ.allocs, ω.allocs)

instance : DecidableEq (Dict ℚ × Dict ℚ × Dict ℚ) := by
  unfold Dict
  exact @instDecidableEqProd _ _ _ (@instDecidableEqProd _ _ _ _)

/-- the demo with one rich agent and two pools wanted -/
def richDemo : Config ℚ :=
  { rs := { scheme := .cardano, k := 2, beta := 1/4, a0 := 3/10 }, relThr := 0, absThr := 0, extraFrac := 1/2, simultaneous := false,
    people := [(1/10, 1/1000, .nonMyopic), (6/10, 1/500, .nonMyopic), (1/10, 1/100, .myopic), (1/10, 1/50, .nonMyopic), (1/10, 1/1000, .abstainer)],
    totalStake := 1 }

/-- agent 2 (myopic) divides its stake among three pools in the first state; after another round it has delegated, and would do so again -/
example : delegationPlans (demo false) demoRound 2 = some ([], [(8, 1 / 30), (4, 7 / 30), (1, 1 / 30)], []) := by decide +kernel

/-- the rich agent fills one pool and places the same elsewhere when it also operates two pools -/
example : delegationPlans richDemo (demoRound ++ demoRound) 1 =
    some ([(5, 1 / 20), (1, 1 / 20)], [(5, 1 / 20), (1, 1 / 5), (2, 1 / 5)], [(5, 1 / 20), (1, 1 / 20)]) := by decide +kernel

/-- two full pools and one that can take a tenth: the rest goes to the preferred one of the full pools -/
def threePools : List (Pool ℚ) :=
  [{ id := 1, cost := 0, pledge := 1 / 10, stake := 1 / 3, owner := 1, margin := 0, isPrivate := false, delegators := [], pp := 1, des := 3 },
   { id := 2, cost := 0, pledge := 1 / 10, stake := 7 / 30, owner := 2, margin := 0, isPrivate := false, delegators := [], pp := 1, des := 1 },
   { id := 3, cost := 0, pledge := 1 / 10, stake := 1 / 3, owner := 3, margin := 0, isPrivate := false, delegators := [], pp := 1, des := 2 }]

example : threePools.map (placed (demo false).rs .nonMyopic threePools 0 [] (1 / 5)) = [some (1 / 10), some (1 / 10), none] := by decide +kernel

end RSE.Props
