import Verif.Lemmas.PlanMove

/-!
# The pools kept by an operator that shrinks
-/

set_option linter.unusedSectionVars false

namespace RSE

variable {F : Type} [LinearOrder F] [Zero F] [One F] [Add F] [Sub F] [Mul F] [Div F] [Neg F] [NatCast F] [FSum F]

/-- copying does not depend on any invariant -/
theorem copyPools_copies : ∀ (l : List (Nat × Ref)) (s : State F), (∀ e ∈ l, e.2 < s.next) →
    (∀ r < s.next, (copyPools s l).1.heap r = s.heap r) ∧ (copyPools s l).2.keys = l.map Prod.fst ∧
    (copyPools s l).2.vals = List.range' s.next l.length ∧ s.next ≤ (copyPools s l).1.next ∧
    ∀ e ∈ (copyPools s l).2, ∃ r, (e.1, r) ∈ l ∧ (copyPools s l).1.heap e.2 = s.heap r
  | [], s, _ => ⟨fun _ _ => rfl, rfl, rfl, le_refl _, by simp [copyPools]⟩
  | (pid, r) :: t, s, hl => by
    have ht : ∀ e ∈ t, e.2 < (s.alloc (s.heap r)).next := fun e he =>
      Nat.lt_succ_of_lt (hl e (List.mem_cons_of_mem _ he))
    obtain ⟨c4, c5, c6, c7, c8⟩ := copyPools_copies t (s.alloc (s.heap r)) ht
    have hold : ∀ r' < s.next, (s.alloc (s.heap r)).heap r' = s.heap r' := fun r' hr' =>
      Function.update_of_ne (Nat.ne_of_lt hr') _ _
    have hnew : (s.alloc (s.heap r)).heap s.next = s.heap r := Function.update_self _ _ _
    simp only [copyPools]
    refine ⟨?_, ?_, ?_, ?_, ?_⟩
    · intro r' hr'
      rw [c4 r' (Nat.lt_succ_of_lt hr'), hold r' hr']
    · simp only [Dict.keys, List.map_cons] at c5 ⊢; rw [c5]
    · simp only [Dict.vals, List.map_cons, List.length_cons, List.range'_succ] at c6 ⊢; rw [c6]; rfl
    · exact (Nat.le_succ _).trans c7
    · intro e he
      rcases List.mem_cons.1 he with rfl | he
      · exact ⟨r, List.mem_cons_self, by rw [c4 s.next (Nat.lt_succ_self _), hnew]⟩
      · obtain ⟨r', h1, h2⟩ := c8 e he
        refine ⟨r', List.mem_cons_of_mem _ h1, ?_⟩
        rw [h2, hold r' (hl (e.1, r') (List.mem_cons_of_mem _ h1))]

/-- what is chosen is at least as good as what is not -/
theorem topPoolIds_best (heap : Ref → Pool F) {owned : Dict Ref} (hnd : owned.keys.Nodup) (m : Nat) {i j : Nat} {r q : Ref}
    (hi : owned.get? i = some r) (hj : owned.get? j = some q) (h1 : i ∈ topPoolIds heap owned m) (h2 : j ∉ topPoolIds heap owned m) :
    keepKey heap (j, q) < keepKey heap (i, r) := by
  set srt := owned.insertionSort (fun a b => keepKey heap b ≤ keepKey heap a) with hs
  have hperm : srt.Perm owned := List.perm_insertionSort _ _
  have hpw : srt.Pairwise (fun a b => keepKey heap b ≤ keepKey heap a) := by
    have : Std.Total (fun a b : Nat × Ref => keepKey heap b ≤ keepKey heap a) := ⟨fun a b => le_total _ _⟩
    have : IsTrans (Nat × Ref) (fun a b => keepKey heap b ≤ keepKey heap a) := ⟨fun a b c h h' => le_trans h' h⟩
    exact List.pairwise_insertionSort _ _
  rw [← List.take_append_drop m srt, List.pairwise_append] at hpw
  have hir : (i, r) ∈ srt.take m := by
    obtain ⟨⟨i', r'⟩, he, hfst⟩ := List.mem_map.1 h1
    simp only at hfst; subst hfst
    have : (i', r') ∈ owned := hperm.mem_iff.1 (List.mem_of_mem_take he)
    have := Dict.get?_of_mem hnd this
    rw [hi] at this; cases this
    exact he
  have hjq : (j, q) ∈ srt.drop m := by
    have : (j, q) ∈ srt := hperm.mem_iff.2 (Dict.mem_of_get? hj)
    rw [← List.take_append_drop m srt] at this
    rcases List.mem_append.1 this with h | h
    · exact absurd (List.mem_map.2 ⟨_, h, rfl⟩) h2
    · exact h
  have hle := hpw.2.2 _ hir _ hjq
  refine lt_of_le_of_ne hle ?_
  intro heq
  have hij : i = j := by
    have h3 : (ofLex (ofLex (ofLex (keepKey heap (j, q))).2).2).2 = (ofLex (ofLex (ofLex (keepKey heap (i, r))).2).2).2 := by rw [heq]
    simp only [keepKey, ofLex_toLex] at h3
    omega
  subst hij
  exact h2 h1

end RSE
