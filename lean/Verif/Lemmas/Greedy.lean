import Verif.Lemmas.Exact

/-!
# The greedy allocation, exactly
-/

set_option linter.unusedSectionVars false

namespace RSE

variable {K : Type} [Field K] [LinearOrder K] [IsStrictOrderedRing K]

/-- how much a pool can take before it is saturated -/
def roomOf (rs : RS K) (p : Pool K) : K := rs.sat p.pledge - p.stake

/-- `new` is what the loop has allocated on the way through `l` starting with `stake` and ending with `rest` -/
structure Filled (rs : RS K) (heap : Ref → Pool K) (l : List Ref) (stake rest : K) (new : Dict K) : Prop where
  keys : List.Sublist new.keys (l.map (fun r => (heap r).id))
  sum : new.total = stake - rest
  rest_nonneg : 0 ≤ rest
  amounts : ∀ e ∈ new, ∃ r ∈ l, (heap r).id = e.1 ∧ minUnit ≤ e.2 ∧ e.2 ≤ roomOf rs (heap r)
  order : ∀ l₁ r l₂, l = l₁ ++ r :: l₂ → (heap r).id ∈ new.keys → ∀ r₁ ∈ l₁, minUnit ≤ roomOf rs (heap r₁) →
    ((heap r₁).id, roomOf rs (heap r₁)) ∈ new
  full : minUnit ≤ rest → ∀ r ∈ l, minUnit ≤ roomOf rs (heap r) → ((heap r).id, roomOf rs (heap r)) ∈ new

theorem greedy_filled (rs : RS K) (heap : Ref → Pool K) : ∀ (l : List Ref) (stake : K) (best : Option Ref) (d : Dict K),
    (l.map (fun r => (heap r).id)).Nodup → (∀ r ∈ l, (heap r).id ∉ d.keys) → minUnit ≤ stake →
    ∃ new, (greedy rs heap l stake best d).2.2 = d ++ new ∧ Filled rs heap l stake (greedy rs heap l stake best d).1 new ∧
      (∀ b, (greedy rs heap l stake best d).2.1 = some b → best = some b ∨ (b ∈ l ∧ roomOf rs (heap b) < minUnit)) ∧
      (minUnit ≤ (greedy rs heap l stake best d).1 → (greedy rs heap l stake best d).2.1 = none →
        best = none ∧ ∀ r ∈ l, minUnit ≤ roomOf rs (heap r))
  | [], stake, best, d, _, _, hst => by
    have hpos := (minUnit_pos (K := K)).trans_le hst
    refine ⟨[], by simp [greedy], ⟨by simp [Dict.keys], by simp [greedy], hpos.le, by simp, ?_, by simp⟩, ?_, ?_⟩
    · intro l₁ r l₂ h; simp at h
    · intro b hb; exact Or.inl hb
    · intro _ hb; exact ⟨hb, by simp⟩
  | r :: t, stake, best, d, hnd, hd, hst => by
    simp only [List.map_cons, List.nodup_cons] at hnd
    have hmin := minUnit_pos (K := K)
    unfold greedy
    simp only
    split
    · rename_i hroom
      obtain ⟨new, h1, h2, h3, h4⟩ := greedy_filled rs heap t stake (match best with
        | none => some r
        | some b => some b) d hnd.2 (fun r' hr' => hd r' (List.mem_cons_of_mem _ hr')) hst
      have hnr : (heap r).id ∉ new.keys := fun hm => hnd.1 (h2.keys.subset hm)
      refine ⟨new, h1, ⟨h2.keys.cons _, h2.sum, h2.rest_nonneg, ?_, ?_, ?_⟩, ?_, ?_⟩
      · intro e he
        obtain ⟨r', hr', h⟩ := h2.amounts e he
        exact ⟨r', List.mem_cons_of_mem _ hr', h⟩
      · intro l₁ r' l₂ hl hm r₁ hr₁ hro
        cases l₁ with
        | nil => cases hr₁
        | cons a l₁ =>
          simp only [List.cons_append, List.cons.injEq] at hl
          obtain ⟨rfl, hl⟩ := hl
          rcases List.mem_cons.1 hr₁ with rfl | hr₁
          · exact absurd hro (not_le.2 hroom)
          · exact h2.order l₁ r' l₂ hl hm r₁ hr₁ hro
      · intro hr r' hr' hro
        rcases List.mem_cons.1 hr' with rfl | hr'
        · exact absurd hro (not_le.2 hroom)
        · exact h2.full hr r' hr' hro
      · intro b hb
        rcases h3 b hb with hb | ⟨hb, hr⟩
        · cases best with
          | none => simp only [Option.some.injEq] at hb; subst hb; exact Or.inr ⟨List.mem_cons_self, hroom⟩
          | some b' => exact Or.inl hb
        · exact Or.inr ⟨List.mem_cons_of_mem _ hb, hr⟩
      · intro hr hb
        have := (h4 hr hb).1
        cases best <;> simp at this
    · rename_i hroom
      have hroom' : minUnit ≤ roomOf rs (heap r) := not_lt.1 hroom
      rw [show rs.sat (heap r).pledge - (heap r).stake = roomOf rs (heap r) from rfl]
      have hk : (heap r).id ∉ d.keys := hd r List.mem_cons_self
      have hset : ∀ x, d.set (heap r).id x = d ++ [((heap r).id, x)] := fun x => Dict.set_of_not_mem hk x
      split
      · rename_i hlt
        simp only
        refine ⟨[((heap r).id, min stake (roomOf rs (heap r)))], hset _, ⟨?_, ?_, ?_, ?_, ?_, ?_⟩, fun b hb => Or.inl hb, ?_⟩
        · simp [Dict.keys]
        · simp [Dict.total]
        · simp
        · intro e he
          simp only [List.mem_singleton] at he
          subst he
          exact ⟨r, List.mem_cons_self, rfl, le_min hst hroom', min_le_right _ _⟩
        · intro l₁ r' l₂ hl hm r₁ hr₁ hro
          cases l₁ with
          | nil => cases hr₁
          | cons a l₁ =>
            simp only [List.cons_append, List.cons.injEq] at hl
            obtain ⟨rfl, hl⟩ := hl
            simp only [Dict.keys, List.map_cons, List.map_nil, List.mem_singleton] at hm
            exact absurd (List.mem_map.2 ⟨r', by rw [hl]; simp, hm⟩) hnd.1
        · intro hr; exact absurd hlt (not_lt.2 hr)
        · intro hr; exact absurd hlt (not_lt.2 hr)
      · rename_i hge
        have hge' : minUnit ≤ stake - min stake (roomOf rs (heap r)) := not_lt.1 hge
        have hmn : min stake (roomOf rs (heap r)) = roomOf rs (heap r) := by
          apply min_eq_right
          by_contra hc
          rw [min_eq_left (not_le.1 hc).le, sub_self] at hge'
          exact absurd hge' (not_le.2 hmin)
        rw [hmn] at hge' ⊢
        obtain ⟨new, h1, h2, h3, h4⟩ := greedy_filled rs heap t (stake - roomOf rs (heap r)) best (d.set (heap r).id (roomOf rs (heap r))) hnd.2
          (fun r' hr' => by
            rw [Dict.keys_set]
            rintro (h | h)
            · exact hnd.1 (List.mem_map.2 ⟨r', hr', h⟩)
            · exact hd r' (List.mem_cons_of_mem _ hr') h) hge'
        refine ⟨((heap r).id, roomOf rs (heap r)) :: new, ?_, ⟨?_, ?_, h2.rest_nonneg, ?_, ?_, ?_⟩, ?_, ?_⟩
        · rw [h1, hset, List.append_assoc]; rfl
        · exact h2.keys.cons_cons _
        · rw [Dict.total_cons, h2.sum]; ring
        · intro e he
          rcases List.mem_cons.1 he with rfl | he
          · exact ⟨r, List.mem_cons_self, rfl, hroom', le_rfl⟩
          · obtain ⟨r', hr', h⟩ := h2.amounts e he
            exact ⟨r', List.mem_cons_of_mem _ hr', h⟩
        · intro l₁ r' l₂ hl hm r₁ hr₁ hro
          cases l₁ with
          | nil => cases hr₁
          | cons a l₁ =>
            simp only [List.cons_append, List.cons.injEq] at hl
            obtain ⟨rfl, hl⟩ := hl
            rcases List.mem_cons.1 hr₁ with rfl | hr₁
            · exact List.mem_cons_self
            · refine List.mem_cons_of_mem _ (h2.order l₁ r' l₂ hl ?_ r₁ hr₁ hro)
              simp only [Dict.keys, List.map_cons, List.mem_cons] at hm
              rcases hm with hm | hm
              · exact absurd (List.mem_map.2 ⟨r', by rw [hl]; simp, hm⟩) hnd.1
              · exact hm
        · intro hr r' hr' hro
          rcases List.mem_cons.1 hr' with rfl | hr'
          · exact List.mem_cons_self
          · exact List.mem_cons_of_mem _ (h2.full hr r' hr' hro)
        · intro b hb
          rcases h3 b hb with hb | ⟨hb, hr⟩
          · exact Or.inl hb
          · exact Or.inr ⟨List.mem_cons_of_mem _ hb, hr⟩
        · intro hr hb
          obtain ⟨h5, h6⟩ := h4 hr hb
          refine ⟨h5, fun r' hr' => ?_⟩
          rcases List.mem_cons.1 hr' with rfl | hr'
          · exact hroom'
          · exact h6 r' hr'

/-- The outcome of the whole allocation: the loop's allocations, and possibly the rest on one saturated pool. -/
theorem greedyAllocations_filled (rs : RS K) (heap : Ref → Pool K) (l : List Ref) (stake : K)
    (hnd : (l.map (fun r => (heap r).id)).Nodup) (hst : minUnit ≤ stake) :
    ∃ new rest, Filled rs heap l stake rest new ∧
      ((greedyAllocations rs heap l stake = new ∧ (minUnit ≤ rest → ∀ r ∈ l, minUnit ≤ roomOf rs (heap r))) ∨
       (minUnit ≤ rest ∧ ∃ b ∈ l, roomOf rs (heap b) < minUnit ∧ (heap b).id ∉ new.keys ∧
          greedyAllocations rs heap l stake = new ++ [((heap b).id, rest)])) := by
  obtain ⟨new, h1, h2, h3, h4⟩ := greedy_filled rs heap l stake none [] hnd (by simp [Dict.keys]) hst
  unfold greedyAllocations
  generalize greedy rs heap l stake none [] = g at h1 h2 h3 h4
  obtain ⟨rest, best, d⟩ := g
  simp only [List.nil_append] at h1 h2 h3 h4 ⊢
  subst h1
  refine ⟨d, rest, h2, ?_⟩
  cases best with
  | none => exact Or.inl ⟨rfl, fun hr => (h4 hr rfl).2⟩
  | some b =>
    obtain ⟨hb, hroom⟩ : b ∈ l ∧ roomOf rs (heap b) < minUnit := by
      rcases h3 b rfl with h | h
      · cases h
      · exact h
    simp only
    split
    · rename_i hr
      have hnk : (heap b).id ∉ d.keys := by
        intro hm
        obtain ⟨e, he, hek⟩ := List.mem_map.1 hm
        obtain ⟨r, hr, hri, h5, h6⟩ := h2.amounts e he
        have : r = b := List.inj_on_of_nodup_map hnd hr hb (by rw [hri, hek])
        subst this
        exact absurd (h5.trans h6) (not_le.2 hroom)
      exact Or.inr ⟨hr, b, hb, hroom, hnk, Dict.set_of_not_mem hnk rest⟩
    · rename_i hr
      exact Or.inl ⟨rfl, fun h => absurd h hr⟩

theorem Dict.total_append (d d' : Dict K) : Dict.total (d ++ d') = d.total + d'.total := by simp [Dict.total]

theorem greedyAllocations_total (rs : RS K) (heap : Ref → Pool K) (l : List Ref) (stake : K)
    (hnd : (l.map (fun r => (heap r).id)).Nodup) (hst : minUnit ≤ stake) : (greedyAllocations rs heap l stake).total ≤ stake := by
  obtain ⟨new, rest, h, ⟨he, -⟩ | ⟨-, b, -, -, -, he⟩⟩ := greedyAllocations_filled rs heap l stake hnd hst
  · rw [he, h.sum]; linarith [h.rest_nonneg]
  · rw [he, Dict.total_append, h.sum]; simp

/-! ### `find_delegation_move` -/

section
variable {F : Type} [LinearOrder F] [Zero F] [One F] [Add F] [Sub F] [Mul F] [Div F] [Neg F] [NatCast F] [FSum F]

/-- the eligible pools are different pools, with different ids -/
theorem eligible_ids_nodup {n : Nat} {s : State F} (h : Core n s) (me : Agent F) {heap : Ref → Pool F} (hsame : ∀ r, SamePool (s.heap r) (heap r)) :
    ((eligiblePools s me).map (fun r => (heap r).id)).Nodup := by
  have hr : ∀ {κ : Type} {l : List (κ × Option Ref)} {nk : κ} {kf : Pool F → κ}, l.Perm (rankEntries n nk kf s.pools s.heap) →
      ((l.map Prod.snd).filterMap (fun e => e.map (fun r => (s.heap r).id))).Perm s.pools.keys := by
    intro κ l nk kf hp
    refine ((hp.map Prod.snd).filterMap _).trans (List.Perm.of_eq ?_)
    simp only [rankEntries, List.map_append, List.map_replicate, List.filterMap_append, List.map_map, Dict.keys]
    have h1 : List.filterMap (fun e : Option Ref => e.map (fun r => (s.heap r).id)) (List.replicate n none) = [] := by
      rw [List.filterMap_eq_nil_iff]; intro a ha; rw [List.eq_of_mem_replicate ha]; rfl
    rw [h1, List.nil_append, List.filterMap_map]
    rw [← List.filterMap_eq_map]
    apply List.filterMap_congr
    intro e he
    simp [(h.poolRef e.1 e.2 (Dict.get?_of_mem h.poolsNodup he)).2.1]
  have hall : ((rankingsOf s me).filterMap (fun e => e.map (fun r => (s.heap r).id))).Nodup := by
    unfold rankingsOf
    split
    · exact (hr h.rankPerm).nodup_iff.2 h.poolsNodup
    · exact (hr h.rankMPerm).nodup_iff.2 h.poolsNodup
  refine hall.sublist ?_
  unfold eligiblePools
  rw [List.map_filterMap]
  generalize rankingsOf s me = l
  induction l with
  | nil => exact List.Sublist.refl _
  | cons e t ih =>
    cases e with
    | none => simpa using ih
    | some r =>
      simp only [List.filterMap_cons, Option.map_some]
      split
      · exact ih.cons _
      · rename_i b hb
        split at hb
        · simp only [Option.map_some, Option.some.injEq] at hb
          rw [← hb, (hsame r).id]
          exact ih.cons_cons _
        · simp at hb

/-- what `find_delegation_move` does, when it returns -/
inductive Delegated (s : State F) (me : Agent F) (σ : Strategy F) (stake : F) (s' : State F) (δ : Strategy F) : Prop
  | tiny (h : stake < minUnit) (hs : s' = s) (hδ : δ = { allocs := [], owned := [] })
  | none (h : minUnit ≤ stake) (he : eligiblePools s me = []) (hs : s' = s) (hδ : δ = { allocs := [], owned := [] })
  | some (s₁ : State F) (h : minUnit ≤ stake) (he : eligiblePools s me ≠ [])
      (h1 : setDelegations s me.id (σ.allocs.map (fun e => (e.1, 0))) = .ok s₁) (h2 : setDelegations s₁ me.id σ.allocs = .ok s')
      (hδ : δ = { allocs := greedyAllocations s₁.rs s₁.heap (eligiblePools s me) stake, owned := [] })

theorem findDelegationMove_ok {s s' : State F} {me : Agent F} {σ δ : Strategy F} {stake : F}
    (h : findDelegationMove s me σ stake = .ok (s', δ)) : Delegated s me σ stake s' δ := by
  unfold findDelegationMove at h
  split at h
  · rename_i hlt; cases h; exact .tiny hlt rfl rfl
  · rename_i hst
    unfold determineStakeAllocations at h
    simp only at h
    split at h
    · rename_i he
      cases h
      exact .none (not_lt.1 hst) (List.length_eq_zero_iff.1 he) rfl rfl
    · rename_i he
      cases h1 : setDelegations s me.id (σ.allocs.map (fun e => (e.1, 0))) with
      | error e => rw [h1] at h; cases h
      | ok s₁ =>
        rw [h1] at h
        change ((do
          let __x ← (do
            let s₂ ← setDelegations s₁ me.id σ.allocs
            return (s₂, some (greedyAllocations s₁.rs s₁.heap (eligiblePools s me) stake)))
          pure (__x.1, ({ allocs := __x.2.getD [], owned := [] } : Strategy F))) : Py (State F × Strategy F)) = _ at h
        cases h2 : setDelegations s₁ me.id σ.allocs with
        | error e => rw [h2] at h; cases h
        | ok s₂ => rw [h2] at h; cases h; exact .some s₁ (not_lt.1 hst) (fun hn => he (by rw [hn]; rfl)) h1 h2 rfl

theorem Delegated.owned {s s' : State F} {me : Agent F} {σ δ : Strategy F} {stake : F} (h : Delegated s me σ stake s' δ) : δ.owned = [] := by
  cases h <;> simp_all

end

theorem Delegated.total {n : Nat} {s s' : State K} {me : Agent K} {σ δ : Strategy K} {stake : K} (h : Delegated s me σ stake s' δ) (hc : Core n s)
    (hσ : σ.allocs.keys.Nodup) (h0 : 0 ≤ stake) : δ.allocs.total ≤ stake := by
  cases h with
  | tiny _ _ hδ => rw [hδ]; exact h0
  | none _ _ _ hδ => rw [hδ]; exact h0
  | some s₁ hst he h1 h2 hδ =>
    rw [hδ]
    have hk : Dict.keys (σ.allocs.map (fun e => (e.1, (0 : K)))) = σ.allocs.keys := Dict.keys_map_snd σ.allocs (fun _ _ => (0 : K))
    have hsh := ((setDelegations_spec me.id (σ.allocs.map (fun e => (e.1, (0 : K)))) s hc (by rw [hk]; exact hσ)).of_ok h1).2.1
    exact greedyAllocations_total _ _ _ _ (eligible_ids_nodup hc me hsh.same) hst

end RSE
