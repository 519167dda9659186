import Verif.Model.Target
import Verif.Model.Init
import Verif.Lemmas.Metrics
import Mathlib.Algebra.Order.Field.Rat

/-!
# C62: `find_target_pool`
-/

set_option linter.unusedSectionVars false

namespace RSE.Props

variable {K : Type} [Field K] [LinearOrder K] [IsStrictOrderedRing K]

/-- the stake that the first `n` entries of the ranking can hold without being over-saturated (place-holders hold nothing) -/
def capacity (rs : RS K) (ranked : List (Option (Pool K))) (n : Nat) : K :=
  ((ranked.take n).map (fun o => match o with | some p => rs.sat p.pledge | none => 0)).sum

/-- entry `i` is the last one needed to cover `target`: all before it are pools which cannot cover the target, at no point; and it is a place-holder, or
completes the cover, or is the end of the list -/
def LastNeeded (rs : RS K) (target : K) (ranked : List (Option (Pool K))) (i : Nat) : Prop :=
  (∀ j < i, ∃ p, ranked[j]? = some (some p)) ∧ (∀ j ≤ i, capacity rs ranked j < target) ∧
  (ranked[i]? = some none ∨ target ≤ capacity rs ranked (i + 1) ∨ i + 1 = ranked.length)

theorem sum_filterMap (rs : RS K) (l : List (Option (Pool K))) :
    (l.filterMap (fun o => o.map (fun p => rs.sat p.pledge))).sum = (l.map (fun o => match o with | some p => rs.sat p.pledge | none => 0)).sum := by
  induction l with
  | nil => rfl
  | cons o t ih => cases o <;> simp [ih]

theorem findTargetLoop_spec (rs : RS K) (target : K) (ranked rest top : List (Option (Pool K))) (covered : K)
    (hsplit : ranked = top ++ rest) (hpools : ∀ o ∈ top, ∃ p, o = some p) (hcov : covered = capacity rs ranked top.length)
    (hbelow : ∀ j < top.length, capacity rs ranked j < target) :
    (findTargetLoop rs target rest top covered = [] ∧ (target ≤ 0 ∨ ranked = [])) ∨
    ∃ i o, (findTargetLoop rs target rest top covered).getLast? = some o ∧ ranked[i]? = some o ∧ LastNeeded rs target ranked i := by
  -- leaving the loop with the pools seen so far
  have leave : ∀ (h : target ≤ covered ∨ rest = []), (top = [] ∧ (target ≤ 0 ∨ ranked = [])) ∨
      ∃ i o, top.getLast? = some o ∧ ranked[i]? = some o ∧ LastNeeded rs target ranked i := by
    intro h
    by_cases ht : top = []
    · left
      refine ⟨ht, ?_⟩
      subst ht
      rcases h with h | h
      · left; rw [hcov] at h; simpa [capacity] using h
      · right; rw [hsplit, h]; rfl
    · right
      have hlen : 0 < top.length := List.length_pos_iff.2 ht
      have hlt : top.length - 1 < top.length := by omega
      refine ⟨top.length - 1, top[top.length - 1], ?_, ?_, ?_, ?_, ?_⟩
      · rw [List.getLast?_eq_getElem?]; exact List.getElem?_eq_getElem hlt
      · rw [hsplit, List.getElem?_append_left hlt]; exact List.getElem?_eq_getElem hlt
      · intro j hj
        have hj' : j < top.length := by omega
        obtain ⟨p, hp⟩ := hpools top[j] (List.getElem_mem hj')
        exact ⟨p, by rw [hsplit, List.getElem?_append_left hj', List.getElem?_eq_getElem hj', hp]⟩
      · intro j hj; exact hbelow j (by omega)
      · rw [Nat.sub_add_cancel hlen]
        rcases h with h | h
        · exact .inr (.inl (by rw [← hcov]; exact h))
        · exact .inr (.inr (by rw [hsplit, h]; simp))
  induction rest generalizing top covered with
  | nil => unfold findTargetLoop; exact leave (.inr rfl)
  | cons o rest ih =>
    unfold findTargetLoop
    split
    · rename_i hge; exact leave (.inl hge)
    · rename_i hlt
      rw [not_le] at hlt
      have hbelow' : ∀ j ≤ top.length, capacity rs ranked j < target := by
        intro j hj
        rcases Nat.lt_or_ge j top.length with h | h
        · exact hbelow j h
        · rw [le_antisymm hj h, ← hcov]; exact hlt
      have hget : ranked[top.length]? = some o := by rw [hsplit]; simp
      cases o with
      | none =>
        right
        refine ⟨top.length, none, by simp, hget, ?_, hbelow', .inl hget⟩
        intro j hj
        obtain ⟨p, hp⟩ := hpools top[j] (List.getElem_mem hj)
        exact ⟨p, by rw [hsplit, List.getElem?_append_left hj, List.getElem?_eq_getElem hj, hp]⟩
      | some q =>
        have hsplit' : ranked = (top ++ [some q]) ++ rest := by rw [hsplit]; simp
        have hpools' : ∀ o ∈ top ++ [some q], ∃ p, o = some p := by
          intro o ho
          rcases List.mem_append.1 ho with ho | ho
          · exact hpools o ho
          · simp only [List.mem_singleton] at ho; exact ⟨q, ho⟩
        have hcov' : FSum.fsum ((top ++ [some q]).filterMap (fun o => o.map (fun p => rs.sat p.pledge))) = capacity rs ranked (top ++ [some q]).length := by
          change List.sum _ = _
          rw [sum_filterMap]
          unfold capacity
          rw [hsplit', List.take_left']
          rfl
        have hb' : ∀ j < (top ++ [some q]).length, capacity rs ranked j < target := by
          intro j hj
          exact hbelow' j (by simp at hj; omega)
        refine ih _ _ hsplit' hpools' hcov' hb' ?_
        intro h
        -- the same argument as `leave`, for the longer list
        right
        refine ⟨top.length, some q, by simp, hget, ?_, hbelow', ?_⟩
        · intro j hj
          obtain ⟨p, hp⟩ := hpools top[j] (List.getElem_mem hj)
          exact ⟨p, by rw [hsplit, List.getElem?_append_left hj, List.getElem?_eq_getElem hj, hp]⟩
        · rcases h with h | h
          · rw [hcov'] at h; simp only [List.length_append, List.length_singleton] at h; exact .inr (.inl h)
          · exact .inr (.inr (by rw [hsplit', h]; simp))

theorem lastNeeded_unique {rs : RS K} {target : K} {ranked : List (Option (Pool K))} {i j : Nat} (hi : i < ranked.length) (hj : j < ranked.length)
    (h : LastNeeded rs target ranked i) (g : LastNeeded rs target ranked j) : i = j := by
  have key : ∀ {a b : Nat}, a < ranked.length → b < ranked.length → LastNeeded rs target ranked a → LastNeeded rs target ranked b → ¬ a < b := by
    intro a b ha hb h g hab
    rcases h.2.2 with h1 | h1 | h1
    · obtain ⟨p, hp⟩ := g.1 a hab
      rw [h1] at hp; cases hp
    · exact absurd (g.2.1 (a + 1) hab) (not_lt.2 h1)
    · omega
  rcases Nat.lt_trichotomy i j with h1 | h1 | h1
  · exact absurd h1 (key hi hj h g)
  · exact h1
  · exact absurd h1 (key hj hi g h)

/-- C62.  If the target is positive and the ranking not empty, exactly one entry of the ranking is the last one needed to cover the target, and
`find_target_pool` returns it (`None` if it is a place-holder).  Otherwise it returns `None`. -/
theorem C62_target (rs : RS K) (target : K) (ranked : List (Option (Pool K))) :
    ((0 < target ∧ ranked ≠ []) → ∃ i, ∃ hi : i < ranked.length, LastNeeded rs target ranked i ∧
      (∀ j, j < ranked.length → LastNeeded rs target ranked j → j = i) ∧ findTarget rs target ranked = ranked[i]) ∧
    ((target ≤ 0 ∨ ranked = []) → findTarget rs target ranked = none) := by
  have hspec := findTargetLoop_spec rs target ranked ranked [] 0 rfl (by simp) (by simp [capacity]) (by simp)
  constructor
  · rintro ⟨h0, hne⟩
    rcases hspec with ⟨-, h | h⟩ | ⟨i, o, h1, h2, h3⟩
    · exact absurd h (not_le.2 h0)
    · exact absurd h hne
    · obtain ⟨hi, ho⟩ := List.getElem?_eq_some_iff.1 h2
      refine ⟨i, hi, h3, fun j hj hj' => lastNeeded_unique hj hi hj' h3, ?_⟩
      unfold findTarget
      rw [h1, ho]; rfl
  · intro h
    unfold findTarget
    cases ranked with
    | nil => rfl
    | cons o t =>
      have h : target ≤ 0 := by rcases h with h | h; exacts [h, by cases h]
      unfold findTargetLoop
      rw [if_pos h]; rfl

/-- `k = 4`: three pools are needed to cover 7/10 -/
example : (findTarget ({ scheme := .cardano, k := 4, beta := 1/4, a0 := 3/10 } : RS ℚ) (7/10)
    ([1, 2, 3, 4].map (fun i => some { (blankPool 0 : Pool ℚ) with id := i }) ++ [none])).map (fun p => p.id) = some 3 := by decide +kernel

end RSE.Props
