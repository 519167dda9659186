import Verif.Model.Construct
import Verif.Props.Rounds

/-!
# C40: the rounds of a `Simulation`, for each activation order
-/

set_option linter.unusedSectionVars false

namespace RSE.Props

variable {K : Type} [Field K] [LinearOrder K] [IsStrictOrderedRing K]

theorem batches_length {z : Nat} (hz : 1 ≤ z) {sample : List Nat → Nat → List Nat} (hs : SampleOK sample) (fuel : Nat) (keys : List Nat)
    (hk : keys.Nodup) (hf : keys.length ≤ fuel) (j : Nat) (b : List Nat) (hb : (batches z sample fuel keys)[j]? = some b) :
    b.length = min z (keys.length - z * j) := by
  induction fuel generalizing keys j with
  | zero => simp [batches] at hb
  | succ fuel ih =>
    unfold batches at hb
    split at hb
    · rename_i hpos
      set k := if z < keys.length then z else keys.length with hkdef
      have hkle : k ≤ keys.length := by rw [hkdef]; split <;> omega
      have hkz : k = min z keys.length := by rw [hkdef]; split <;> omega
      obtain ⟨h1, h2, h3⟩ := hs keys k hk hkle
      set cur := sample keys k with hcur
      have hperm : (cur ++ keys.filter (fun key => !cur.contains key)).Perm keys := by
        have hf1 : (keys.filter (fun key => cur.contains key)).Perm cur := by
          rw [List.perm_ext_iff_of_nodup (hk.filter _) h2]
          intro x; simp only [List.mem_filter, List.contains_iff_mem]
          exact ⟨fun h => h.2, fun h => ⟨h3 x h, h⟩⟩
        exact (hf1.symm.append_right _).trans (List.filter_append_perm (fun key => cur.contains key) keys)
      have hlen : (keys.filter (fun key => !cur.contains key)).length = keys.length - k := by
        have := hperm.length_eq
        rw [List.length_append, h1] at this
        omega
      cases j with
      | zero =>
        simp only [List.getElem?_cons_zero, Option.some.injEq] at hb
        rw [← hb]
        rw [Nat.mul_zero, Nat.sub_zero, ← hkz]; exact h1
      | succ j =>
        rw [List.getElem?_cons_succ] at hb
        have hg := ih (keys.filter (fun key => !cur.contains key)) (hk.filter _) (by rw [hlen]; omega) j hb
        rw [hlen] at hg
        rw [hg, Nat.mul_add]
        generalize z * j = y
        omega
    · simp at hb

/-- C40, for the activation orders of a `Simulation`.  In a round with `n` agents,
- sequential activation calls `step` of the agents in the order of their ids, random activation in the order of the shuffle, and neither calls `advance`;
- simultaneous activation calls `step` of all agents, then `advance` of all;
- semi-simultaneous activation goes through batches of exactly 5 agents (the last one has the rest); every agent is in exactly one; the members of a batch are
  stepped, then advanced, before the next batch is drawn. -/
theorem C40_orders (n : Nat) (t : Turns) (i : Nat) (hs : SampleOK (t.sample i)) (s : State K) :
    (∃ es : List (Event K), Order.sequential.round n t i s = iterM exec s es ∧ stepped es = List.range n ∧ advanced es = []) ∧
    (∃ es : List (Event K), Order.random.round n t i s = iterM exec s es ∧ stepped es = t.shuffle i (List.range n) ∧ advanced es = []) ∧
    (∃ es₁ es₂ : List (Event K), Order.simultaneous.round n t i s = iterM exec s (es₁ ++ es₂) ∧
      stepped es₁ = List.range n ∧ advanced es₁ = [] ∧ stepped es₂ = [] ∧ advanced es₂ = List.range n) ∧
    (∃ bs : List (List Nat × List (Event K)), Order.semisimultaneous.round n t i s = iterM exec s (bs.map Prod.snd).flatten ∧
      (bs.map Prod.fst).flatten.Perm (List.range n) ∧
      ∀ j b, bs[j]? = some b → b.1.length = min 5 (n - 5 * j) ∧ 1 ≤ b.1.length ∧
        ∃ es₁ es₂, b.2 = es₁ ++ es₂ ∧ stepped es₁ = b.1 ∧ advanced es₁ = [] ∧ stepped es₂ = [] ∧ advanced es₂ = b.1) := by
  refine ⟨⟨stepEvents (t.ords i 0) (List.range n), ?_, stepped_stepEvents _ _, advanced_stepEvents _ _⟩,
    ⟨stepEvents (t.ords i 0) (t.shuffle i (List.range n)), ?_, stepped_stepEvents _ _, advanced_stepEvents _ _⟩, C40_simultaneous _ _ s, ?_⟩
  · unfold stepEvents; rw [iterM_map]; rfl
  · unfold stepEvents; rw [iterM_map]; rfl
  · have hk : (List.range n).Nodup := List.nodup_range
    set B := batches 5 (t.sample i) (List.range n).length (List.range n) with hB
    obtain ⟨h1, h2⟩ := batches_spec (z := 5) (by omega) hs (List.range n).length (List.range n) hk le_rfl
    refine ⟨B.zipIdx.map (fun e => (e.1, batchEvents (t.ords i e.2) e.1)), ?_, ?_, ?_⟩
    · rw [List.map_map, ← iterM_flatten, iterM_map]
      change roundSemi 5 (t.sample i) (t.ords i) (List.range n) s = _
      unfold roundSemi
      congr 1
      funext s' e
      exact runBatch_eq _ _ _
    · rw [List.map_map]
      have : (Prod.fst ∘ fun e : List Nat × Nat => (e.1, batchEvents (F := K) (t.ords i e.2) e.1)) = Prod.fst := rfl
      rw [this, List.zipIdx_map_fst]
      exact h1
    · intro j b hb
      rw [List.getElem?_map, List.getElem?_zipIdx, Option.map_map, Option.map_eq_some_iff] at hb
      obtain ⟨c, hc, rfl⟩ := hb
      refine ⟨?_, (h2 c (List.mem_of_getElem? hc)).1, stepEvents _ c, advanceEvents _ c, rfl, stepped_stepEvents _ _, advanced_stepEvents _ _,
        stepped_advanceEvents _ _, advanced_advanceEvents _ _⟩
      have := batches_length (z := 5) (by omega) hs _ _ hk le_rfl j c hc
      rwa [List.length_range] at this

/-- with 12 agents there are batches of 5, 5 and 2 -/
example : (batches 5 (fun l k => l.take k) 12 (List.range 12)).map List.length = [5, 5, 2] := by decide

end RSE.Props
