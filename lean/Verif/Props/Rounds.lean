import Verif.Lemmas.Reach
import Verif.Spec.Demo

/-!
# C40: every agent is activated exactly once per round
-/

set_option linter.unusedSectionVars false

namespace RSE.Props

variable {F : Type} [LinearOrder F] [Zero F] [One F] [Add F] [Sub F] [Mul F] [Div F] [Neg F] [NatCast F] [FSum F]

/-- the agents whose `step` is called, in order -/
def stepped (es : List (Event F)) : List Nat := es.filterMap (fun e => match e with | .step a _ => some a | _ => none)

/-- the agents whose `advance` is called by the scheduler, in order -/
def advanced (es : List (Event F)) : List Nat := es.filterMap (fun e => match e with | .advance a _ => some a | _ => none)

/-- what `random.sample(l, k)` may return -/
def SampleOK (sample : List Nat → Nat → List Nat) : Prop :=
  ∀ l k, l.Nodup → k ≤ l.length → (sample l k).length = k ∧ (sample l k).Nodup ∧ ∀ x ∈ sample l k, x ∈ l

theorem stepped_append (a b : List (Event F)) : stepped (a ++ b) = stepped a ++ stepped b := by simp [stepped]
theorem advanced_append (a b : List (Event F)) : advanced (a ++ b) = advanced a ++ advanced b := by simp [advanced]

/-- calls of `step` for the agents in `l` -/
def stepEvents (ords : Nat → List Nat → List Nat) (l : List Nat) : List (Event F) := l.zipIdx.map (fun e => .step e.1 (ords e.2))
/-- calls of `advance` for the agents in `l` -/
def advanceEvents (ords : Nat → List Nat → List Nat) (l : List Nat) : List (Event F) :=
  l.zipIdx.map (fun e => .advance e.1 (ords (l.length + e.2)))

theorem iterM_map {α β σ : Type} (f : σ → β → Py σ) (g : α → β) (s : σ) (l : List α) : iterM f s (l.map g) = iterM (fun s a => f s (g a)) s l := by
  induction l generalizing s with
  | nil => rfl
  | cons a t ih =>
    simp only [List.map_cons, iterM]
    cases f s (g a) with
    | error e => rfl
    | ok s' => exact ih s'

theorem stepped_stepEvents (ords : Nat → List Nat → List Nat) (l : List Nat) : stepped (stepEvents (F := F) ords l) = l := by
  unfold stepped stepEvents
  rw [List.filterMap_map]
  have : ((fun e : Event F => match e with | .step a _ => some a | _ => none) ∘ fun e : Nat × Nat => Event.step e.1 (ords e.2)) = fun e => some e.1 := rfl
  rw [this]; exact (congrFun (List.filterMap_eq_map' (f := Prod.fst)) _).trans (List.zipIdx_map_fst _ _)

theorem stepped_advanceEvents (ords : Nat → List Nat → List Nat) (l : List Nat) : stepped (advanceEvents (F := F) ords l) = [] := by
  unfold stepped advanceEvents
  rw [List.filterMap_map]
  apply List.filterMap_eq_nil_iff.2
  intro _ _; rfl

theorem advanced_stepEvents (ords : Nat → List Nat → List Nat) (l : List Nat) : advanced (stepEvents (F := F) ords l) = [] := by
  unfold advanced stepEvents
  rw [List.filterMap_map]
  apply List.filterMap_eq_nil_iff.2
  intro _ _; rfl

theorem advanced_advanceEvents (ords : Nat → List Nat → List Nat) (l : List Nat) : advanced (advanceEvents (F := F) ords l) = l := by
  unfold advanced advanceEvents
  rw [List.filterMap_map]
  have : ((fun e : Event F => match e with | .advance a _ => some a | _ => none) ∘ fun e : Nat × Nat => Event.advance e.1 (ords (l.length + e.2))) = fun e => some e.1 := rfl
  rw [this]; exact (congrFun (List.filterMap_eq_map' (f := Prod.fst)) _).trans (List.zipIdx_map_fst _ _)

/-- C40, sequential and random activation (`order` is the order in which the scheduler meets the agents, some permutation): the round calls
`step` exactly once for each agent and never `advance`. -/
theorem C40_sequential (ords : Nat → List Nat → List Nat) (order agents : List Nat) (hperm : order.Perm agents) (s : State F) :
    ∃ es : List (Event F), roundSequential ords order s = iterM exec s es ∧ (stepped es).Perm agents ∧ advanced es = [] := by
  refine ⟨stepEvents ords order, ?_, ?_, advanced_stepEvents _ _⟩
  · unfold stepEvents; rw [iterM_map]; rfl
  · rw [stepped_stepEvents]; exact hperm

/-- C40, simultaneous activation: all agents are stepped once, then all are advanced once. -/
theorem C40_simultaneous (ords : Nat → List Nat → List Nat) (order : List Nat) (s : State F) :
    ∃ es₁ es₂ : List (Event F), roundSimultaneous ords order s = iterM exec s (es₁ ++ es₂) ∧
      stepped es₁ = order ∧ advanced es₁ = [] ∧ stepped es₂ = [] ∧ advanced es₂ = order := by
  refine ⟨stepEvents ords order, advanceEvents ords order, ?_, stepped_stepEvents _ _, advanced_stepEvents _ _, stepped_advanceEvents _ _, advanced_advanceEvents _ _⟩
  rw [iterM_append]
  unfold stepEvents advanceEvents
  rw [iterM_map]
  change Except.bind _ _ = _
  congr 1
  funext s'
  rw [iterM_map]; rfl

theorem batches_spec {z : Nat} (hz : 1 ≤ z) {sample : List Nat → Nat → List Nat} (hs : SampleOK sample) (fuel : Nat) (keys : List Nat)
    (hk : keys.Nodup) (hf : keys.length ≤ fuel) :
    (batches z sample fuel keys).flatten.Perm keys ∧ ∀ b ∈ batches z sample fuel keys, 1 ≤ b.length ∧ b.length ≤ z := by
  induction fuel generalizing keys with
  | zero =>
    have : keys = [] := List.length_eq_zero_iff.1 (Nat.le_zero.1 hf)
    subst this; simp [batches]
  | succ fuel ih =>
    unfold batches
    split
    · rename_i hpos
      set k := if z < keys.length then z else keys.length with hkdef
      have hkle : k ≤ keys.length := by rw [hkdef]; split <;> omega
      have hkz : k ≤ z := by rw [hkdef]; split <;> omega
      have hk1 : 1 ≤ k := by rw [hkdef]; split <;> omega
      obtain ⟨h1, h2, h3⟩ := hs keys k hk hkle
      set cur := sample keys k with hcur
      have hperm : (cur ++ keys.filter (fun key => !cur.contains key)).Perm keys := by
        have hf1 : (keys.filter (fun key => cur.contains key)).Perm cur := by
          rw [List.perm_ext_iff_of_nodup (hk.filter _) h2]
          intro x; simp only [List.mem_filter, List.contains_iff_mem]
          exact ⟨fun h => h.2, fun h => ⟨h3 x h, h⟩⟩
        have := List.filter_append_perm (fun key => cur.contains key) keys
        exact (hf1.symm.append_right _).trans this
      have hlen : (keys.filter (fun key => !cur.contains key)).length ≤ fuel := by
        have := hperm.length_eq
        rw [List.length_append] at this
        omega
      obtain ⟨g1, g2⟩ := ih _ (hk.filter _) hlen
      refine ⟨?_, ?_⟩
      · simp only [List.flatten_cons]
        exact (g1.append_left _).trans hperm
      · intro b hb
        rcases List.mem_cons.1 hb with rfl | hb
        · rw [hcur] at h1; rw [h1]; exact ⟨hk1, hkz⟩
        · exact g2 b hb
    · rename_i hpos
      have : keys = [] := List.length_eq_zero_iff.1 (by omega)
      subst this; simp

/-- the events of one batch -/
def batchEvents (ords : Nat → List Nat → List Nat) (b : List Nat) : List (Event F) := stepEvents ords b ++ advanceEvents ords b

theorem runBatch_eq (ords : Nat → List Nat → List Nat) (s : State F) (b : List Nat) : runBatch ords s b = iterM exec s (batchEvents ords b) := by
  unfold batchEvents
  rw [iterM_append]
  unfold stepEvents advanceEvents runBatch
  rw [iterM_map]
  change Except.bind _ _ = _
  congr 1
  funext s'
  rw [iterM_map]; rfl

theorem iterM_flatten {α σ : Type} (f : σ → α → Py σ) (s : σ) (ls : List (List α)) : iterM (fun s l => iterM f s l) s ls = iterM f s ls.flatten := by
  induction ls generalizing s with
  | nil => rfl
  | cons l t ih =>
    rw [List.flatten_cons, iterM_append]
    simp only [iterM]
    cases iterM f s l with
    | error e => rfl
    | ok s' => exact ih s'

/-- C40, semi-simultaneous activation with `z ≥ 1` agents at a time (the code uses 5): the round consists of batches of at most `z` agents;
every agent is in exactly one batch; the members of a batch are stepped once each, then advanced once each, before the next batch starts. -/
theorem C40_semisimultaneous {z : Nat} (hz : 1 ≤ z) {sample : List Nat → Nat → List Nat} (hs : SampleOK sample)
    (ords : Nat → Nat → List Nat → List Nat) (keys : List Nat) (hk : keys.Nodup) (s : State F) :
    ∃ bs : List (List Nat × List (Event F)), roundSemi z sample ords keys s = iterM exec s (bs.map Prod.snd).flatten ∧
      (bs.map Prod.fst).flatten.Perm keys ∧
      ∀ b ∈ bs, 1 ≤ b.1.length ∧ b.1.length ≤ z ∧
        ∃ es₁ es₂, b.2 = es₁ ++ es₂ ∧ stepped es₁ = b.1 ∧ advanced es₁ = [] ∧ stepped es₂ = [] ∧ advanced es₂ = b.1 := by
  set B := batches z sample keys.length keys with hB
  obtain ⟨h1, h2⟩ := batches_spec hz hs keys.length keys hk le_rfl
  refine ⟨B.zipIdx.map (fun e => (e.1, batchEvents (ords e.2) e.1)), ?_, ?_, ?_⟩
  · rw [List.map_map, ← iterM_flatten, iterM_map]
    unfold roundSemi
    congr 1
    funext s' e
    exact runBatch_eq _ _ _
  · rw [List.map_map]
    have : (Prod.fst ∘ fun e : List Nat × Nat => (e.1, batchEvents (F := F) (ords e.2) e.1)) = Prod.fst := rfl
    rw [this, List.zipIdx_map_fst]
    exact h1
  · intro b hb
    obtain ⟨⟨b, i⟩, hm, rfl⟩ := List.mem_map.1 hb
    have hbB : b ∈ B := by
      have := List.mem_map_of_mem (f := Prod.fst) hm
      rwa [List.zipIdx_map_fst] at this
    refine ⟨(h2 b hbB).1, (h2 b hbB).2, stepEvents (ords i) b, advanceEvents (ords i) b, rfl, stepped_stepEvents _ _, advanced_stepEvents _ _,
      stepped_advanceEvents _ _, advanced_advanceEvents _ _⟩

/-- the oracle that always takes the first `k` agents satisfies the hypothesis -/
example : SampleOK (fun l k => l.take k) :=
  fun l k hl hk => ⟨by simp [hk], hl.sublist (List.take_sublist k l), fun x hx => List.mem_of_mem_take hx⟩

/-- Rounds of all activation modes lead from reachable states to reachable states, so theorems about `Reachable` cover complete runs. -/
theorem rounds_reachable {c : Config F} {s s' : State F} (h : Reachable c s) {es : List (Event F)}
    (hv : ∀ e ∈ es, e.Valid c.people.length) (he : iterM exec s es = .ok s') : Reachable c s' := by
  obtain ⟨es₀, h1, h2⟩ := h
  refine ⟨es₀ ++ es, ?_, ?_⟩
  · intro e he; rcases List.mem_append.1 he with he | he
    · exact h1 e he
    · exact hv e he
  · rw [iterM_append, h2]; exact he

/-- C40.  Exactly once: the number of calls of agent `a`'s `step` in a semi-simultaneous round is 1 for each agent. -/
theorem C40_semisimultaneous_once {z : Nat} (hz : 1 ≤ z) {sample : List Nat → Nat → List Nat} (hs : SampleOK sample)
    (ords : Nat → Nat → List Nat → List Nat) (keys : List Nat) (hk : keys.Nodup) (s : State F) :
    ∃ es : List (Event F), roundSemi z sample ords keys s = iterM exec s es ∧ (stepped es).Perm keys ∧ (advanced es).Perm keys := by
  obtain ⟨bs, h1, h2, h3⟩ := C40_semisimultaneous hz hs ords keys hk s
  refine ⟨_, h1, ?_, ?_⟩
  · have : stepped (bs.map Prod.snd).flatten = (bs.map Prod.fst).flatten := by
      clear h1 h2
      induction bs with
      | nil => rfl
      | cons b t ih =>
        simp only [List.map_cons, List.flatten_cons]
        rw [stepped_append, ih (fun b' hb' => h3 b' (List.mem_cons_of_mem _ hb'))]
        obtain ⟨-, -, e1, e2, k1, k2, k3, k4, k5⟩ := h3 b (by simp)
        rw [k1, stepped_append, k2, k4, List.append_nil]
    rw [this]; exact h2
  · have : advanced (bs.map Prod.snd).flatten = (bs.map Prod.fst).flatten := by
      clear h1 h2
      induction bs with
      | nil => rfl
      | cons b t ih =>
        simp only [List.map_cons, List.flatten_cons]
        rw [advanced_append, ih (fun b' hb' => h3 b' (List.mem_cons_of_mem _ hb'))]
        obtain ⟨-, -, e1, e2, k1, k2, k3, k4, k5⟩ := h3 b (by simp)
        rw [k1, advanced_append, k3, k5, List.nil_append]
    rw [this]; exact h2

end RSE.Props
