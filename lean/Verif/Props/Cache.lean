import Verif.Model.Cache
import Verif.Model.Helper
import Mathlib.Algebra.Order.Field.Rat
import Mathlib.Data.Nat.Cast.Basic

/-!
# C63: memoisation is transparent
-/

set_option linter.unusedSectionVars false

namespace RSE.Props

variable {κ V : Type}

theorem cache_call (eq : κ → κ → Bool) (maxsize : Nat) (hm : 1 ≤ maxsize) (f : κ → Py V) (hf : ∀ k k', eq k k' = true → f k = f k')
    (c : Cache κ V) (hc : ∀ e ∈ c, f e.1 = .ok e.2) (hl : c.length ≤ maxsize) (k : κ) :
    (c.call eq maxsize f k).1 = f k ∧ (∀ e ∈ (c.call eq maxsize f k).2, f e.1 = .ok e.2) ∧ (c.call eq maxsize f k).2.length ≤ maxsize := by
  unfold Cache.call
  cases hfind : c.find eq k with
  | some e =>
    have hmem : e ∈ c := List.mem_of_find?_eq_some hfind
    have heq : eq e.1 k = true := by simpa using List.find?_some hfind
    refine ⟨by rw [← hf _ _ heq]; exact (hc e hmem).symm, ?_, ?_⟩
    · intro e' he'
      rcases List.mem_cons.1 he' with rfl | he'
      · exact hc _ hmem
      · exact hc _ (List.mem_of_mem_eraseP he')
    · have := List.length_eraseP_of_mem (p := fun e => eq e.1 k) hmem heq
      simp only [List.length_cons, this]
      have := List.length_pos_of_mem hmem
      omega
  | none =>
    simp only
    cases hk : f k with
    | error err => exact ⟨rfl, hc, hl⟩
    | ok v =>
      simp only
      split
      · refine ⟨trivial, ?_, ?_⟩
        · intro e he
          rcases List.mem_cons.1 he with rfl | he
          · exact hk
          · exact hc _ (List.dropLast_subset _ he)
        · simp; omega
      · refine ⟨trivial, ?_, ?_⟩
        · intro e he
          rcases List.mem_cons.1 he with rfl | he
          · exact hk
          · exact hc _ he
        · simp; omega

theorem cache_calls (eq : κ → κ → Bool) (maxsize : Nat) (hm : 1 ≤ maxsize) (f : κ → Py V) (hf : ∀ k k', eq k k' = true → f k = f k')
    (ks : List κ) : ∀ c : Cache κ V, (∀ e ∈ c, f e.1 = .ok e.2) → c.length ≤ maxsize →
    (Cache.calls eq maxsize f c ks).1 = ks.map f ∧ (Cache.calls eq maxsize f c ks).2.length ≤ maxsize := by
  induction ks with
  | nil => intro c _ hl; exact ⟨rfl, hl⟩
  | cons k ks ih =>
    intro c hc hl
    obtain ⟨h1, h2, h3⟩ := cache_call eq maxsize hm f hf c hc hl k
    obtain ⟨g1, g2⟩ := ih _ h2 h3
    unfold Cache.calls
    exact ⟨by simp only [List.map_cons, h1, g1], g2⟩

/-- C63.  For every history of calls, a function decorated with `@lru_cache(maxsize)` returns (or raises) what the undecorated function does, and at
most `maxsize` results are kept; the condition is that the function does not distinguish arguments that are equal for Python. -/
theorem C63_transparent (eq : κ → κ → Bool) (maxsize : Nat) (hm : 1 ≤ maxsize) (f : κ → Py V) (hf : ∀ k k', eq k k' = true → f k = f k')
    (ks : List κ) : (Cache.calls eq maxsize f [] ks).1 = ks.map f ∧ (Cache.calls eq maxsize f [] ks).2.length ≤ maxsize :=
  cache_calls eq maxsize hm f hf ks [] (by simp) (Nat.zero_le _)

/-- The condition is needed (a function of an object that is compared by identity, such as a reward scheme whose `a0` changes, must not be
cached): here the function tells 0 and 1 apart although `eq` does not. -/
theorem C63_needs_congruence : ∃ (eq : Nat → Nat → Bool) (f : Nat → Py Nat) (ks : List Nat),
    (Cache.calls eq 1024 f [] ks).1 ≠ ks.map f := by
  refine ⟨fun _ _ => true, fun n => .ok n, [0, 1], ?_⟩
  intro h
  have h2 : (Cache.calls (fun _ _ => true) 1024 (fun n => (.ok n : Py Nat)) [] [0, 1]).1 = [.ok 0, .ok 0] := rfl
  rw [h2] at h
  injection h with _ h
  injection h with h _
  cases h

/-- The eight cached helpers, for numbers compared by value (`desirability` is both `calculate_pool_desirability` and
`calculate_myopic_pool_desirability`, which have the same body). -/
theorem C63_helpers {F : Type} [LinearOrder F] [Zero F] [One F] [Add F] [Sub F] [Mul F] [Div F] [Neg F] [NatCast F] :
    (∀ ks : List (F × F × F × F), (Cache.calls (fun a b => decide (a = b)) 1024 (fun k => .ok (delegatorReward k.1 k.2.1 k.2.2.1 k.2.2.2)) [] ks).1 =
      ks.map (fun k => .ok (delegatorReward k.1 k.2.1 k.2.2.1 k.2.2.2))) ∧
    (∀ ks : List (F × F × F × F), (Cache.calls (fun a b => decide (a = b)) 1024 (fun k => .ok (operatorReward k.1 k.2.1 k.2.2.1 k.2.2.2)) [] ks).1 =
      ks.map (fun k => .ok (operatorReward k.1 k.2.1 k.2.2.1 k.2.2.2))) ∧
    (∀ ks : List (Nat × F × F), (Cache.calls (fun a b => decide (a = b)) 1024 (fun k => costPerPool k.1 k.2.1 k.2.2) [] ks).1 =
      ks.map (fun k => costPerPool k.1 k.2.1 k.2.2)) ∧
    (∀ ks : List (F × F), (Cache.calls (fun a b => decide (a = b)) 1024 (fun k => .ok (suitableMargin k.1 k.2)) [] ks).1 =
      ks.map (fun k => .ok (suitableMargin k.1 k.2))) ∧
    (∀ ks : List (F × F), (Cache.calls (fun a b => decide (a = b)) 1024 (fun k => .ok (desirability k.1 k.2)) [] ks).1 =
      ks.map (fun k => .ok (desirability k.1 k.2))) ∧
    (∀ ks : List (F × F × F × Bool), (Cache.calls (fun a b => decide (a = b)) 1024 (fun k => .ok (nonMyopicStakeFromRank k.1 k.2.1 k.2.2.1 k.2.2.2)) [] ks).1 =
      ks.map (fun k => .ok (nonMyopicStakeFromRank k.1 k.2.1 k.2.2.1 k.2.2.2))) ∧
    (∀ ks : List (F × F × Nat), (Cache.calls (fun a b => decide (a = b)) 1024 (fun k => pledgePerPool k.1 k.2.1 k.2.2) [] ks).1 =
      ks.map (fun k => pledgePerPool k.1 k.2.1 k.2.2)) := by
  refine ⟨fun ks => ?_, fun ks => ?_, fun ks => ?_, fun ks => ?_, fun ks => ?_, fun ks => ?_, fun ks => ?_⟩ <;>
    exact (C63_transparent _ 1024 (by omega) _ (fun k k' h => by rw [of_decide_eq_true h]) ks).1

/-- a cache of size 2: the third call is a hit, the last one had been evicted; all results are right -/
example : (Cache.calls (fun a b => decide (a = b)) 2 (fun k : Nat => if k = 7 then Except.error Err.value else .ok (k * k)) [] [3, 4, 3, 7, 5, 4]).1 =
    [.ok 9, .ok 16, .ok 9, .error .value, .ok 25, .ok 16] ∧
  (Cache.calls (fun a b => decide (a = b)) 2 (fun k : Nat => if k = 7 then Except.error Err.value else .ok (k * k)) [] [3, 4, 3, 7, 5]).2 =
    [(5, 25), (3, 9)] := ⟨rfl, rfl⟩

end RSE.Props
