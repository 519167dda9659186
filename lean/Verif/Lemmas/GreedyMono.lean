import Verif.Lemmas.Calm

/-!
# More stake to delegate never lowers the amount any pool gets; utilities of delegations
-/

set_option linter.unusedSectionVars false

namespace RSE

variable {K : Type} [Field K] [LinearOrder K] [IsStrictOrderedRing K]

/-- the amount recorded under an id, 0 if there is none -/
def Dict.amount (d : Dict K) (i : Nat) : K := (d.get? i).getD 0

theorem Dict.amount_set (d : Dict K) (i j : Nat) (x : K) : (d.set i x).amount j = if i = j then x else d.amount j := by
  unfold Dict.amount
  rw [Dict.get?_set]
  split <;> rfl

theorem Dict.get?_append {V : Type} (d d' : Dict V) (i : Nat) : Dict.get? (d ++ d') i = (d.get? i).or (d'.get? i) := by
  induction d with
  | nil => simp
  | cons e t ih =>
    obtain ⟨k, v⟩ := e
    simp only [List.cons_append, Dict.get?_cons]
    split
    · rfl
    · exact ih

theorem Dict.amount_of_not_mem {d : Dict K} {i : Nat} (h : i ∉ d.keys) : d.amount i = 0 := by
  unfold Dict.amount; rw [Dict.get?_eq_none.2 h]; rfl

/-- recording more in fresh places only increases amounts -/
theorem Dict.amount_append {d d' : Dict K} (h : ∀ e ∈ d', 0 ≤ e.2) (i : Nat) : d.amount i ≤ Dict.amount (d ++ d') i := by
  unfold Dict.amount
  rw [Dict.get?_append]
  cases h1 : d.get? i with
  | some x => simp
  | none =>
    cases h2 : d'.get? i with
    | none => simp
    | some y => simpa using h _ (Dict.mem_of_get? h2)

theorem greedy_ge {rs : RS K} {heap : Ref → Pool K} {l : List Ref} {stake : K} {best : Option Ref} {d : Dict K}
    (hnd : (l.map (fun r => (heap r).id)).Nodup) (hd : ∀ r ∈ l, (heap r).id ∉ d.keys) (hst : minUnit ≤ stake) (i : Nat) :
    d.amount i ≤ (greedy rs heap l stake best d).2.2.amount i := by
  obtain ⟨new, h1, h2, -⟩ := greedy_filled rs heap l stake best d hnd hd hst
  rw [h1]
  refine Dict.amount_append (fun e he => ?_) i
  obtain ⟨r, -, -, h3, -⟩ := h2.amounts e he
  exact (pos_of_minUnit h3).le

theorem rest_mono {x y room : K} (h : x ≤ y) : x - min x room ≤ y - min y room := by
  rcases le_total x room with h1 | h1
  · rw [min_eq_left h1, sub_self]; exact sub_nonneg.2 (min_le_left _ _)
  · rw [min_eq_right h1, min_eq_right (h1.trans h)]; exact sub_le_sub_right h _

theorem greedy_mono (rs : RS K) (heap : Ref → Pool K) : ∀ (l : List Ref) (x y : K) (best : Option Ref) (d d' : Dict K),
    (l.map (fun r => (heap r).id)).Nodup → (∀ r ∈ l, (heap r).id ∉ d'.keys) →
    minUnit ≤ x → x ≤ y → (∀ i, d.amount i ≤ d'.amount i) →
    (∀ i, (greedy rs heap l x best d).2.2.amount i ≤ (greedy rs heap l y best d').2.2.amount i) ∧
    (minUnit ≤ (greedy rs heap l x best d).1 → (greedy rs heap l x best d).1 ≤ (greedy rs heap l y best d').1 ∧
      (greedy rs heap l x best d).2.1 = (greedy rs heap l y best d').2.1)
  | [], x, y, best, d, d', _, _, _, hxy, hdd => ⟨hdd, fun _ => ⟨hxy, rfl⟩⟩
  | r :: t, x, y, best, d, d', hnd, hd', hx, hxy, hdd => by
    simp only [List.map_cons, List.nodup_cons] at hnd
    have hd2 : ∀ r' ∈ t, (heap r').id ∉ d'.keys := fun r' hr' => hd' r' (List.mem_cons_of_mem _ hr')
    unfold greedy
    simp only
    by_cases hroom : rs.sat (heap r).pledge - (heap r).stake < minUnit
    · simp only [hroom, if_true]
      exact greedy_mono rs heap t x y _ d d' hnd.2 hd2 hx hxy hdd
    · simp only [hroom, if_false]
      generalize hR : rs.sat (heap r).pledge - (heap r).stake = room at hroom
      have hmono := rest_mono (room := room) hxy
      have hset : ∀ i, (d.set (heap r).id (min x room)).amount i ≤ (d'.set (heap r).id (min y room)).amount i := by
        intro i
        rw [Dict.amount_set, Dict.amount_set]
        split
        · exact min_le_min_right _ hxy
        · exact hdd i
      have hd3 : ∀ r' ∈ t, (heap r').id ∉ (d'.set (heap r).id (min y room)).keys := by
        intro r' hr' hm
        rcases (Dict.keys_set _ _ _ _).1 hm with h | h
        · exact hnd.1 (List.mem_map.2 ⟨r', hr', h⟩)
        · exact hd2 r' hr' h
      by_cases hsx : x - min x room < minUnit
      · simp only [hsx, if_true]
        refine ⟨fun i => ?_, fun hle => absurd hsx (not_lt.2 hle)⟩
        by_cases hsy : y - min y room < minUnit
        · simp only [hsy, if_true]; exact hset i
        · simp only [hsy, if_false]
          exact (hset i).trans (greedy_ge hnd.2 hd3 (not_lt.1 hsy) i)
      · have hsy : ¬ y - min y room < minUnit := fun h => hsx (lt_of_le_of_lt hmono h)
        simp only [hsx, hsy, if_false]
        exact greedy_mono rs heap t _ _ _ _ _ hnd.2 hd3 (not_lt.1 hsx) hmono hset

/-- More stake to delegate never lowers the amount any pool gets. -/
theorem greedyAllocations_mono (rs : RS K) (heap : Ref → Pool K) (l : List Ref) {x y : K} (hnd : (l.map (fun r => (heap r).id)).Nodup)
    (hx : minUnit ≤ x) (hxy : x ≤ y) (i : Nat) : (greedyAllocations rs heap l x).amount i ≤ (greedyAllocations rs heap l y).amount i := by
  obtain ⟨h1, h2⟩ := greedy_mono rs heap l x y none [] [] hnd (by simp [Dict.keys]) hx hxy (fun _ => le_rfl)
  obtain ⟨new, h3, h4, h5, -⟩ := greedy_filled rs heap l y none [] hnd (by simp [Dict.keys]) (hx.trans hxy)
  unfold greedyAllocations
  generalize greedy rs heap l x none [] = gx at h1 h2
  generalize greedy rs heap l y none [] = gy at h1 h2 h3 h4 h5
  obtain ⟨rx, bx, dx⟩ := gx
  obtain ⟨ry, bY, dy⟩ := gy
  simp only [List.nil_append] at h1 h2 h3 h4 h5 ⊢
  subst h3
  -- the last step only adds to a pool that has got nothing so far
  have hadd : ∀ i, dy.amount i ≤ Dict.amount (match bY with
      | some b => if ry ≥ minUnit then dy.set (heap b).id ry else dy
      | none => dy) i := by
    intro i
    cases bY with
    | none => exact le_rfl
    | some b =>
      simp only
      split
      · rename_i hr
        rw [Dict.amount_set]
        split
        · rename_i hb
          subst hb
          have hnot : (heap b).id ∉ dy.keys := by
            rcases h5 b rfl with h | ⟨hbl, hroom⟩
            · cases h
            · intro hm
              obtain ⟨v, hv⟩ := Dict.mem_keys_iff.1 hm
              obtain ⟨r, hr, hid, hmin, hle⟩ := h4.amounts _ (Dict.mem_of_get? hv)
              have : r = b := by
                have hinj := List.inj_on_of_nodup_map hnd
                exact hinj hr hbl hid
              subst this
              exact absurd (hmin.trans hle) (not_le.2 hroom)
          rw [Dict.amount_of_not_mem hnot]
          exact (pos_of_minUnit hr).le
        · exact le_rfl
      · exact le_rfl
  cases bx with
  | none => exact (h1 i).trans (hadd i)
  | some b =>
    simp only
    split
    · rename_i hr
      obtain ⟨hle, hb⟩ := h2 hr
      rw [← hb]
      simp only
      rw [if_pos (hr.trans hle), Dict.amount_set, Dict.amount_set]
      split
      · exact hle
      · exact h1 i
    · exact (h1 i).trans (hadd i)

/-- the allocation depends on the eligible pools only -/
theorem greedy_congr (rs : RS K) {heap heap' : Ref → Pool K} : ∀ (l : List Ref), (∀ r ∈ l, Alike (heap r) (heap' r)) → ∀ (stake : K) (best : Option Ref) (d : Dict K),
    greedy rs heap' l stake best d = greedy rs heap l stake best d
  | [], _, _, _, _ => rfl
  | r :: t, h, stake, best, d => by
    have hr := h r List.mem_cons_self
    unfold greedy
    simp only
    rw [hr.same.pledge, hr.stake, hr.same.id]
    have ih := greedy_congr rs t (fun r' hr' => h r' (List.mem_cons_of_mem _ hr'))
    simp only [ih]

theorem greedyAllocations_congr (rs : RS K) {heap heap' : Ref → Pool K} {l : List Ref} (h : ∀ r ∈ l, Alike (heap r) (heap' r))
    {stake : K} (hnd : (l.map (fun r => (heap r).id)).Nodup) (hst : minUnit ≤ stake) :
    greedyAllocations rs heap' l stake = greedyAllocations rs heap l stake := by
  obtain ⟨new, h3, h4, h5, -⟩ := greedy_filled rs heap l stake none [] hnd (by simp [Dict.keys]) hst
  unfold greedyAllocations
  rw [greedy_congr rs l h]
  generalize greedy rs heap l stake none [] = g at h3 h4 h5
  obtain ⟨rest, best, d⟩ := g
  simp only at h5 ⊢
  cases best with
  | none => rfl
  | some b =>
    rcases h5 b rfl with hb | ⟨hb, -⟩
    · cases hb
    · simp only [(h b hb).same.id]

/-- summing over the entries of a dictionary is summing over any list of ids that contains its keys -/
theorem sum_entries {d : Dict K} (hd : d.keys.Nodup) {g : Nat → K → K} (hg : ∀ i, g i 0 = 0) : ∀ {ids : List Nat}, ids.Nodup → (∀ i ∈ d.keys, i ∈ ids) →
    (d.map (fun e => g e.1 e.2)).sum = (ids.map (fun i => g i (d.amount i))).sum := by
  induction d with
  | nil =>
    intro ids _ _
    have : ids.map (fun i => g i (Dict.amount ([] : Dict K) i)) = ids.map (fun _ => 0) := List.map_congr_left (fun i _ => by simp [Dict.amount, hg])
    rw [this]; simp
  | cons e t ih =>
    obtain ⟨k, v⟩ := e
    intro ids hids hsub
    simp only [Dict.keys, List.map_cons, List.nodup_cons] at hd
    have hk : k ∈ ids := hsub k (by simp [Dict.keys])
    have hp := List.perm_cons_erase hk
    rw [(hp.map _).sum_eq]
    simp only [List.map_cons, List.sum_cons]
    have h1 : g k (Dict.amount ((k, v) :: t) k) = g k v := by simp [Dict.amount, Dict.get?_cons]
    have h2 : (ids.erase k).map (fun i => g i (Dict.amount ((k, v) :: t) i)) = (ids.erase k).map (fun i => g i (Dict.amount t i)) := by
      apply List.map_congr_left
      intro i hi
      have : k ≠ i := by
        rintro rfl
        exact (List.Nodup.not_mem_erase hids) hi
      simp [Dict.amount, Dict.get?_cons, this]
    rw [h1, h2]
    congr 1
    refine ih hd.2 (hids.erase k) (fun i hi => ?_)
    have : i ≠ k := by rintro rfl; exact hd.1 hi
    exact (List.mem_erase_of_ne this).2 (hsub i (List.mem_cons_of_mem _ hi))

end RSE
