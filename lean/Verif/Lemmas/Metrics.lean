import Verif.Model.Reporters
import Verif.Lemmas.Dict
import Verif.Lemmas.Exact
import Verif.Lemmas.Count

/-!
# Lemmas on sums over owners, majorities and medians
-/

set_option linter.unusedSectionVars false

namespace RSE

theorem Dict.keys_set_of_mem {V : Type} {d : Dict V} {k : Nat} (h : k ∈ d.keys) (v : V) : (d.set k v).keys = d.keys := by
  induction d with
  | nil => cases h
  | cons e t ih =>
    obtain ⟨k', v'⟩ := e
    unfold Dict.set
    split
    · rfl
    · rename_i hne
      have h' : k ∈ Dict.keys t := by
        rcases List.mem_cons.1 h with h | h
        · exact absurd h.symm hne
        · exact h
      have := ih h'
      simp only [Dict.keys, List.map_cons] at this ⊢
      rw [this]

theorem mapM_ok_of {α β : Type} {f : α → Py β} {g : α → β} : ∀ {l : List α}, (∀ a ∈ l, f a = .ok (g a)) → l.mapM f = .ok (l.map g)
  | [], _ => rfl
  | a :: t, h => by
    rw [List.mapM_cons, h a (by simp), mapM_ok_of (fun b hb => h b (by simp [hb]))]
    rfl

variable {K : Type} [Field K] [LinearOrder K] [IsStrictOrderedRing K]

/-- the stake in the pools of `a` -/
def controlledIn (l : List (Pool K)) (a : Nat) : K := ((l.filter (fun p => decide (p.owner = a))).map (fun p => p.stake)).sum

theorem controlledIn_cons (p : Pool K) (l : List (Pool K)) (a : Nat) :
    controlledIn (p :: l) a = (if p.owner = a then p.stake else 0) + controlledIn l a := by
  unfold controlledIn
  by_cases h : p.owner = a <;> simp [h]

theorem addStakes_spec : ∀ (l : List (Pool K)) (d : Dict K), (∀ p ∈ l, p.owner ∈ d.keys) →
    ∃ d', iterM addStake d l = .ok d' ∧ d'.keys = d.keys ∧ ∀ a x, d.get? a = some x → d'.get? a = some (x + controlledIn l a)
  | [], d, _ => ⟨d, rfl, rfl, fun a x h => by simpa [controlledIn] using h⟩
  | p :: l, d, h => by
    obtain ⟨y, hy⟩ := Dict.mem_keys_iff.1 (h p (by simp))
    have hk := Dict.keys_set_of_mem (Dict.mem_keys_of_get? hy) (y + p.stake)
    obtain ⟨d', h1, h2, h3⟩ := addStakes_spec l (d.set p.owner (y + p.stake)) (fun q hq => by rw [hk]; exact h q (by simp [hq]))
    refine ⟨d', ?_, h2.trans hk, ?_⟩
    · rw [iterM]
      have : addStake d p = .ok (d.set p.owner (y + p.stake)) := by
        unfold addStake; rw [Dict.getE_of hy]; rfl
      rw [this]; exact h1
    · intro a x ha
      rw [controlledIn_cons]
      by_cases hp : p.owner = a
      · subst hp
        rw [hy] at ha; cases ha
        rw [h3 _ _ (Dict.get?_set_self _ _ _), if_pos rfl]
        congr 1; ring
      · rw [h3 a x (by rw [Dict.get?_set_ne _ _ hp]; exact ha), if_neg hp]
        congr 1; ring

theorem addStakeAt_spec : ∀ (l : List (Pool K)) (m : List K), (∀ p ∈ l, p.owner < m.length) →
    ∃ m', iterM addStakeAt m l = .ok m' ∧ m'.length = m.length ∧ ∀ (a : Nat) x, m[a]? = some x → m'[a]? = some (x + controlledIn l a)
  | [], m, _ => ⟨m, rfl, rfl, fun a x h => by simpa [controlledIn] using h⟩
  | p :: l, m, h => by
    have hlt := h p (by simp)
    obtain ⟨m', h1, h2, h3⟩ := addStakeAt_spec l (m.set p.owner (m[p.owner] + p.stake)) (fun q hq => by
      rw [List.length_set]; exact h q (by simp [hq]))
    refine ⟨m', ?_, by simpa using h2, ?_⟩
    · rw [iterM]
      have : addStakeAt m p = .ok (m.set p.owner (m[p.owner] + p.stake)) := by
        unfold addStakeAt; rw [List.getElem?_eq_getElem hlt]
      rw [this]; exact h1
    · intro a x ha
      rw [controlledIn_cons]
      by_cases hp : p.owner = a
      · subst hp
        rw [List.getElem?_eq_getElem hlt] at ha; cases ha
        rw [h3 p.owner (m[p.owner] + p.stake) (by rw [List.getElem?_set_self hlt]), if_pos rfl]
        congr 1; ring
      · rw [h3 a x (by rw [List.getElem?_set_ne hp]; exact ha), if_neg hp]
        congr 1; ring

/-- summing over all owners counts every pool once -/
theorem sum_controlledIn : ∀ (l : List (Pool K)) (ids : List Nat), ids.Nodup → (∀ p ∈ l, p.owner ∈ ids) →
    (ids.map (controlledIn l)).sum = (l.map (fun p => p.stake)).sum
  | [], ids, _, _ => by
    have : ids.map (controlledIn ([] : List (Pool K))) = ids.map (fun _ => 0) :=
      List.map_congr_left (fun a _ => by simp [controlledIn])
    rw [this]; simp
  | p :: l, ids, hn, h => by
    have ih := sum_controlledIn l ids hn (fun q hq => h q (by simp [hq]))
    have h1 : ids.map (controlledIn (p :: l)) = ids.map (fun a => (if p.owner = a then p.stake else 0) + controlledIn l a) := by
      refine List.map_congr_left (fun a _ => controlledIn_cons p l a)
    have h2 : ∀ (ids : List Nat), ids.Nodup → p.owner ∈ ids → (ids.map (fun a => if p.owner = a then p.stake else (0 : K))).sum = p.stake := by
      intro ids
      induction ids with
      | nil => intro _ h; cases h
      | cons a t ih =>
        intro hn hm
        rw [List.nodup_cons] at hn
        rw [List.map_cons, List.sum_cons]
        by_cases hpa : p.owner = a
        · have : t.map (fun a => if p.owner = a then p.stake else (0 : K)) = t.map (fun _ => 0) := by
            refine List.map_congr_left (fun b hb => if_neg ?_)
            rintro rfl
            exact hn.1 (hpa ▸ hb)
          rw [this, if_pos hpa]; simp
        · rw [if_neg hpa, zero_add]
          exact ih hn.2 ((List.mem_cons.1 hm).resolve_left hpa)
    rw [h1, List.sum_map_add, ih, h2 ids hn (h p (by simp)), List.map_cons, List.sum_cons]

/-! ### Majorities -/

/-- no selection of values of a non-increasing list exceeds as many values at its front -/
theorem sublist_sum_le_take : ∀ {l' l : List K}, List.Sublist l' l → l.Pairwise (· ≥ ·) → l'.sum ≤ (l.take l'.length).sum
  | _, _, .slnil, _ => by simp
  | l', _, .cons (l₂ := l) x h, hs => by
    rw [List.pairwise_cons] at hs
    have ih := sublist_sum_le_take h hs.2
    cases hl : l' with
    | nil => simp
    | cons y t =>
      rw [← hl]
      have hlen : l'.length = t.length + 1 := by rw [hl]; rfl
      have hle := h.length_le
      rw [hlen, List.take_succ_cons, List.sum_cons]
      rw [hlen] at ih hle
      rw [List.take_add_one, List.getElem?_eq_getElem (by omega)] at ih
      simp only [Option.toList_some, List.sum_append, List.sum_cons, List.sum_nil, add_zero] at ih
      have := hs.1 _ (List.getElem_mem (show t.length < l.length by omega))
      linarith
  | _, _, .cons_cons x h, hs => by
    rw [List.pairwise_cons] at hs
    have ih := sublist_sum_le_take h hs.2
    simp only [List.length_cons, List.take_succ_cons, List.sum_cons]
    linarith

theorem subperm_sum_le_take {l' l : List K} (h : l'.Subperm l) (hs : l.Pairwise (· ≥ ·)) : l'.sum ≤ (l.take l'.length).sum := by
  obtain ⟨m, hm, hsub⟩ := h
  rw [← hm.sum_eq, ← hm.length_eq]
  exact sublist_sum_le_take hsub hs

theorem sorted_desc (l : List K) : (l.insertionSort (· ≥ ·)).Pairwise (· ≥ ·) := by
  have : Std.Total (α := K) (· ≥ ·) := ⟨fun a b => le_total b a⟩
  have : IsTrans K (· ≥ ·) := ⟨fun a b c h g => le_trans g h⟩
  exact List.pairwise_insertionSort _ _

theorem two_cast : ((2 : Nat) : K) = 2 := by norm_num

/-- `majorityCount` is the least number of front values of the sorted list that exceed half of the total -/
theorem majorityCount_spec {l : List K} (hpos : 0 < l.sum) : ∃ m, majorityCount l = .ok m ∧ 1 ≤ m ∧ m ≤ l.length ∧
    l.sum / 2 < ((l.insertionSort (· ≥ ·)).take m).sum ∧ ∀ j, j < m → ((l.insertionSort (· ≥ ·)).take j).sum ≤ l.sum / 2 := by
  set sorted := l.insertionSort (· ≥ ·) with hsd
  have hperm : sorted.Perm l := List.perm_insertionSort _ _
  have hlen : sorted.length = l.length := hperm.length_eq
  have hne : l.length ≠ 0 := by
    intro h
    rw [List.length_eq_zero_iff.1 h] at hpos
    simp at hpos
  set bs := (cumulative sorted).map (fun x => decide (x > FSum.fsum l / ((2 : Nat) : K))) with hbs
  have hbl : bs.length = l.length := by simp [hbs, cumulative, hlen]
  have hget : ∀ (i : Nat) (hi : i < bs.length), bs[i] = true ↔ l.sum / 2 < (sorted.take (i + 1)).sum := by
    intro i hi
    simp only [hbs, cumulative, List.getElem_map, List.getElem_range, decide_eq_true_eq, gt_iff_lt, two_cast]
    rfl
  have hlast : bs[l.length - 1]'(by omega) = true := by
    rw [hget, show l.length - 1 + 1 = sorted.length by omega, List.take_length, hperm.sum_eq]
    linarith
  cases hf : bs.findIdx? id with
  | none =>
    rw [List.findIdx?_eq_none_iff] at hf
    have := hf _ (List.getElem_mem (show l.length - 1 < bs.length by omega))
    rw [hlast] at this
    cases this
  | some i =>
    rw [List.findIdx?_eq_some_iff_getElem] at hf
    obtain ⟨hi, h1, h2⟩ := hf
    refine ⟨i + 1, ?_, by omega, by omega, (hget i hi).1 h1, ?_⟩
    · unfold majorityCount
      simp only [← hsd, ← hbs]
      unfold argmaxBool
      rw [if_neg (by omega)]
      have : bs.findIdx? id = some i := List.findIdx?_eq_some_iff_getElem.2 ⟨hi, h1, h2⟩
      rw [this]; rfl
    · intro j hj
      cases j with
      | zero => simp; linarith
      | succ j =>
        have := h2 j (by omega)
        by_contra hc
        push Not at hc
        exact this ((hget j (by omega)).2 hc)

theorem majorityLoop_spec (half : K) : ∀ (l : List K) (pre : List K), (∀ j, j < pre.length → (pre.take j).sum ≤ half) →
    half < (pre ++ l).sum →
    ∃ m, majorityLoop half l pre.sum pre.length = .ok m ∧ m ≤ (pre ++ l).length ∧ half < ((pre ++ l).take m).sum ∧
      ∀ j, j < m → ((pre ++ l).take j).sum ≤ half
  | [], pre, hpre, hsum => by
    rw [List.append_nil] at hsum ⊢
    refine ⟨pre.length, ?_, le_refl _, by simpa using hsum, hpre⟩
    unfold majorityLoop
    rw [if_neg (not_le.2 hsum)]
  | x :: t, pre, hpre, hsum => by
    unfold majorityLoop
    by_cases hle : pre.sum ≤ half
    · rw [if_pos hle]
      have := majorityLoop_spec half t (pre ++ [x]) (fun j hj => by
        rw [List.length_append, List.length_singleton] at hj
        rcases Nat.lt_or_ge j pre.length with h | h
        · rw [List.take_append_of_le_length h.le]; exact hpre j h
        · have : j = pre.length := by omega
          subst this; rw [List.take_left']; exact hle; rfl) (by simpa using hsum)
      simpa using this
    · rw [if_neg hle]
      push Not at hle
      refine ⟨pre.length, rfl, by simp, by simpa using hle, fun j hj => ?_⟩
      rw [List.take_append_of_le_length hj.le]; exact hpre j hj

/-! ### Reachable states -/

theorem owner_mem_agents {c : Config K} {s : State K} (h : Reachable c s) : ∀ p ∈ poolsList s, p.owner ∈ s.agents.keys := by
  intro p hp
  obtain ⟨e, he, rfl⟩ := List.mem_map.1 hp
  have hg := h.good minUnit_pos
  obtain ⟨ag, σ, ha, -, -⟩ := hg.inv.owner (Dict.get?_of_mem hg.inv.core.poolsNodup he)
  exact Dict.mem_keys_of_get? ha

theorem mem_agents_iff {c : Config K} {s : State K} (h : Reachable c s) (a : Nat) : a ∈ s.agents.keys ↔ a < c.people.length := by
  have hg := h.good minUnit_pos
  rw [Dict.mem_keys_iff, ← Option.isSome_iff_exists, hg.fixed.isSome, Option.isSome_iff_exists, ← Dict.mem_keys_iff, keys_init, List.mem_range]

theorem agents_perm_range {c : Config K} {s : State K} (h : Reachable c s) : s.agents.keys.Perm (List.range c.people.length) := by
  rw [List.perm_ext_iff_of_nodup (h.good minUnit_pos).inv.core.agentsNodup List.nodup_range]
  intro a
  rw [mem_agents_iff h, List.mem_range]

theorem agents_length {c : Config K} {s : State K} (h : Reachable c s) : s.agents.length = c.people.length := by
  have := (agents_perm_range h).length_eq
  simpa [Dict.keys] using this

end RSE
