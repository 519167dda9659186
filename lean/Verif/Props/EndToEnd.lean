import Verif.Lemmas.Run
import Verif.Props.Construct
import Verif.Props.Phases
import Verif.Props.Rounds
import Verif.Props.Loop

/-!
# C78, C79: a whole execution of main.py
-/

set_option linter.unusedSectionVars false

namespace RSE.Props

section Any
variable {F : Type} [LinearOrder F] [Zero F] [One F] [Add F] [Sub F] [Mul F] [Div F] [Neg F] [NatCast F] [FSum F]

/-- the random choices during the rounds are what Python's library promises -/
structure TurnsOK (t : Turns) : Prop where
  shuffle : ∀ i l, (t.shuffle i l).Perm l
  sample : ∀ i, SampleOK (t.sample i)
  ords : ∀ i j m l, (t.ords i j m l).Perm l

theorem stepEvents_valid {ords : Nat → List Nat → List Nat} (ho : ∀ m l, (ords m l).Perm l) {l : List Nat} {n : Nat} (hl : ∀ x ∈ l, x < n) :
    ∀ e ∈ stepEvents (F := F) ords l, e.Valid n ∧ ∀ p, e ≠ .phase p := by
  intro e he
  obtain ⟨⟨x, m⟩, hx, rfl⟩ := List.mem_map.1 he
  refine ⟨⟨hl x ?_, ho m⟩, fun p => by simp⟩
  have := List.mem_map_of_mem (f := Prod.fst) hx
  rwa [List.zipIdx_map_fst] at this

theorem advanceEvents_valid {ords : Nat → List Nat → List Nat} (ho : ∀ m l, (ords m l).Perm l) {l : List Nat} {n : Nat} (hl : ∀ x ∈ l, x < n) :
    ∀ e ∈ advanceEvents (F := F) ords l, e.Valid n ∧ ∀ p, e ≠ .phase p := by
  intro e he
  obtain ⟨⟨x, m⟩, hx, rfl⟩ := List.mem_map.1 he
  refine ⟨⟨hl x ?_, ho _⟩, fun p => by simp⟩
  have := List.mem_map_of_mem (f := Prod.fst) hx
  rwa [List.zipIdx_map_fst] at this

/-- a round is a sequence of turns of agents -/
theorem round_events (o : Order) {t : Turns} (ht : TurnsOK t) (n i : Nat) :
    ∃ es : List (Event F), (∀ s, o.round n t i s = iterM exec s es) ∧ ∀ e ∈ es, e.Valid n ∧ ∀ p, e ≠ .phase p := by
  have hr : ∀ x ∈ List.range n, x < n := fun x => List.mem_range.1
  cases o with
  | sequential => exact ⟨_, fun s => (show _ = iterM exec s (stepEvents _ _) by unfold stepEvents; rw [iterM_map]; rfl), stepEvents_valid (ht.ords i 0) hr⟩
  | random =>
    exact ⟨_, fun s => (show _ = iterM exec s (stepEvents _ _) by unfold stepEvents; rw [iterM_map]; rfl),
      stepEvents_valid (ht.ords i 0) (fun x hx => hr x ((ht.shuffle i _).mem_iff.1 hx))⟩
  | simultaneous =>
    refine ⟨batchEvents (t.ords i 0) (List.range n), fun s => runBatch_eq (t.ords i 0) s (List.range n), ?_⟩
    intro e he
    rcases List.mem_append.1 he with he | he
    · exact stepEvents_valid (ht.ords i 0) hr e he
    · exact advanceEvents_valid (ht.ords i 0) hr e he
  | semisimultaneous =>
    have hb := (batches_spec (z := 5) (by omega) (ht.sample i) (List.range n).length (List.range n) List.nodup_range le_rfl).1
    refine ⟨((batches 5 (t.sample i) (List.range n).length (List.range n)).zipIdx.map (fun e => batchEvents (t.ords i e.2) e.1)).flatten, fun s => ?_, ?_⟩
    · rw [← iterM_flatten, iterM_map]
      change roundSemi 5 (t.sample i) (t.ords i) (List.range n) s = _
      unfold roundSemi
      congr 1
      funext s' e
      exact runBatch_eq _ _ _
    · intro e he
      obtain ⟨l, hl, he⟩ := List.mem_flatten.1 he
      obtain ⟨⟨b, j⟩, hb', rfl⟩ := List.mem_map.1 hl
      have hbm : b ∈ batches 5 (t.sample i) (List.range n).length (List.range n) := by
        have := List.mem_map_of_mem (f := Prod.fst) hb'
        rwa [List.zipIdx_map_fst] at this
      have hr' : ∀ x ∈ b, x < n := fun x hx => hr x (hb.mem_iff.1 (List.mem_flatten.2 ⟨b, hbm, hx⟩))
      rcases List.mem_append.1 he with he | he
      · exact stepEvents_valid (ht.ords i j) hr' e he
      · exact advanceEvents_valid (ht.ords i j) hr' e he

/-- what must be true of the result of an execution -/
structure Completed (b : Built F) (rnd rnd4 : F → F) (m : Int) (l : Loop (Nat × Nat × State F) (List (MetricValue F))) : Prop where
  stopped : l.running = false
  /-- the results were exported exactly once -/
  exported : l.exports.length = 1
  steps : (l.steps : Int) ≤ m
  /-- one row of metrics per round, and perhaps one after the last -/
  rows : l.rows.length = l.steps ∨ l.rows.length = l.steps + 1
  columns : ∀ row ∈ l.rows, row.length = b.cols.length
  /-- the files can be written, whatever rounding does -/
  files : ∀ conv, ∃ out, wrapUp rnd rnd4 conv l.world.2.2 = .ok out ∧ out.agents.length = b.n

/-- a run that ends without an exception, and whose files can be written, is complete -/
theorem completed_of_run {a : Args F} {b : Built F} {solver : State F → F} {t : Turns} {n : Nat} {m : Int} (hm : a.maxIter = .one m) (hm0 : 0 ≤ m) {fuel : Nat}
    {s : State F} {l : Loop (Nat × Nat × State F) (List (MetricValue F))} (hl : Loop.runModel (runEnv a b solver t) fuel (Loop.init (0, n, s) m) = .ok l)
    {rnd rnd4 : F → F} (hfiles : ∀ conv, ∃ out, wrapUp rnd rnd4 conv l.world.2.2 = .ok out ∧ out.agents.length = b.n) : Completed b rnd rnd4 m l := by
  have hmax : ∀ p, (runEnv a b solver t).newMax p = none := fun p => by change a.maxIter.later p = none; rw [hm]; rfl
  obtain ⟨t1, t2, -, h, w', t3, t4, t5⟩ := (C33_terminates _ hmax (0, n, s) m hm0).2 _ _ hl
  obtain ⟨h', w'', r1, r2, r3, r4⟩ := C36_rows _ hmax (0, n, s) m hm0 _ _ hl
  refine ⟨t1, t2, by rw [← t4]; exact t5, ?_, ?_, hfiles⟩
  · rcases r4 with r4 | r4
    · exact .inl r4.1
    · exact .inr r4.1
  · have key : ∀ w row, (runEnv a b solver t).report w = .ok row → row.length = b.cols.length := by
      intro w row hrow
      have hrow : b.cols.mapM (reportColumn ⟨w.2.1, w.1, solver⟩ w.2.2) = .ok row := hrow
      clear * - hrow
      revert row
      generalize b.cols = cols
      induction cols with
      | nil => intro row h; cases h; rfl
      | cons c t ih =>
        intro row h
        rw [List.mapM_cons] at h
        cases hc : reportColumn ⟨w.2.1, w.1, solver⟩ w.2.2 c with
        | error e => rw [hc] at h; cases h
        | ok v =>
          rw [hc] at h
          cases ht : t.mapM (reportColumn ⟨w.2.1, w.1, solver⟩ w.2.2) with
          | error e => rw [ht] at h; cases h
          | ok vs => rw [ht] at h; cases h; simp [ih vs ht]
    intro row hrow
    obtain ⟨i, hi, rfl⟩ := List.getElem_of_mem hrow
    by_cases hih : i < h'.length
    · obtain ⟨row', e1, e2⟩ := r3 i hih
      rw [List.getElem?_eq_getElem hi] at e1
      cases e1
      exact key _ _ e2
    · rcases r4 with r4 | r4
      · omega
      · obtain ⟨row', e1, e2⟩ := r4.2.2.2
        have : i = l.steps := by omega
        subst this
        rw [List.getElem?_eq_getElem hi] at e1
        cases e1
        exact key _ _ e2

end Any

variable {K : Type} [Field K] [LinearOrder K] [IsStrictOrderedRing K]

theorem Faithful.row {a : Args K} {d : Draws K} {n : Nat} {b : Built K} (hacc : Accepted a d n) (hf : Faithful a d n b) {s : State K}
    (hr : Reachable b.config s) (hcip : s.rs.scheme = .cip50 → 0 < s.rs.a0) (env : MetricEnv K) (hn : env.n = n) :
    ∃ row, collectRow env b.cols s = .ok row ∧ row.length = b.cols.length := by
  obtain ⟨cols, row, h1, -, -, h4, h5, -⟩ := C74_rows hr hf.stakes_pos hf.beta_pos hcip env (by rw [hn, hf.people]) (metrics := a.metrics.getD [1, 2, 6, 9, 17, 18, 25]) (by
    intro i hi
    cases hm : a.metrics with
    | none => rw [hm] at hi; revert hi i; decide
    | some l => rw [hm] at hi; exact hacc.metrics l hm i hi)
  rw [hf.cols] at h1
  cases h1
  exact ⟨row, h4, h5⟩

theorem schemeOf_cip {i : Nat} (h : i = 0 ∨ i = 1 ∨ i = 2 ∨ i = 4) : schemeOf i = .cip50 ↔ i = 4 := by
  rcases h with rfl | rfl | rfl | rfl <;> simp [schemeOf]

theorem completed {a : Args K} {d : Draws K} {n : Nat} {b : Built K} (hacc : Accepted a d n) (hf : Faithful a d n b) {t : Turns} {solver : State K → K}
    {m : Int} (hm : a.maxIter = .one m) {P : Nat → Nat × Nat × State K → Prop} (hs : Safe (runEnv a b solver t) P)
    (h0 : P 0 (0, n, { initState b.config with idSeq := 0 }))
    (hP : ∀ p w, P p w → w.2.1 = n ∧ Reachable b.config w.2.2 ∧ (w.2.2.rs.scheme = .cip50 → 0 < w.2.2.rs.a0)) (rnd rnd4 : K → K) :
    ∃ l, Loop.runModel (runEnv a b solver t) (m.toNat + 1) (Loop.init (0, b.n, initState b.config) b.maxIter) = .ok l ∧
      Completed b rnd rnd4 m l ∧ P l.phase l.world := by
  have hbm : b.maxIter = m := by
    have := hf.maxIter
    rw [hm] at this
    exact (Except.ok.inj this).symm
  have hm1 : 1 ≤ m := by have := hacc.maxIter; rw [hm] at this; exact this
  have hmax : ∀ p, (runEnv a b solver t).newMax p = none := fun p => by change a.maxIter.later p = none; rw [hm]; rfl
  rw [hbm, hf.n]
  obtain ⟨l, hl, hp⟩ := hs.loop hmax (m.toNat + 1) (l := { Loop.init (0, n, initState b.config) m with world := (0, n, { initState b.config with idSeq := 0 }) }) h0
    (by change m + 1 ≤ ((m.toNat + 1 : Nat) : Int) + (0 : Nat); push_cast; omega)
  have hl : Loop.runModel (runEnv a b solver t) (m.toNat + 1) (Loop.init (0, n, initState b.config) m) = .ok l := hl
  refine ⟨l, hl, ?_, hp⟩
  obtain ⟨-, hreach, -⟩ := hP _ _ hp
  refine completed_of_run hm (by omega) hl (fun conv => ?_)
  obtain ⟨out, nc, o1, -, -, -, -, -, -, o2⟩ := C75_wrap_up rnd rnd4 conv hreach hf.stakes_pos hf.beta_pos
  exact ⟨out, o1, by rw [o2, hf.people, hf.n]⟩

/-- C78.  A simulation started from the command line with accepted arguments, random or sequential activation and one phase (CIP-50: `a0 > 0`) runs to its end
without an exception, for all random draws, all metrics and all orders of activation: after at most `max_iterations` rounds it stops, has exported
its results exactly once and has collected a complete row of metrics per round; every file can be written. -/
theorem C78_completes [FloorSemiring K] {a : Args K} {d : Draws K} {n : Nat} (hacc : Accepted a d n) (h1 : a.totalPhases = 1) {m : Int} (hm : a.maxIter = .one m)
    {o : Order} (ho : a.order.first = .ok o) (hseq : o = .random ∨ o = .sequential) {x0 : K} (hx : a.a0.first = .ok x0) (hcip : a.scheme = 4 → 0 < x0)
    {t : Turns} (ht : TurnsOK t) (solver : State K → K) (rnd rnd4 : K → K) :
    ∃ b l, construct a d = .ok b ∧ simulate a d solver t (m.toNat + 1) = .ok l ∧ Completed b rnd rnd4 m l := by
  obtain ⟨b, hb, hf⟩ := C77_constructor hacc
  have hao : b.order = o := by have := hf.order; rw [ho] at this; exact (Except.ok.inj this).symm
  have hsim : b.config.simultaneous = false := by
    rw [← Bool.not_eq_true, hf.simultaneous, hao]; rcases hseq with rfl | rfl <;> simp
  have hxa : b.config.rs.a0 = x0 := by have := hf.a0; rw [hx] at this; exact (Except.ok.inj this).symm
  have hx0 : 0 ≤ x0 := by
    obtain ⟨y, y1, y2⟩ := multi_first hacc.a0
    rw [hx] at y1; cases y1; exact y2
  have hcip' : b.config.rs.scheme = .cip50 → 0 < b.config.rs.a0 := by
    intro h; rw [hf.scheme, schemeOf_cip hacc.scheme] at h; rw [hxa]; exact hcip h
  have hP : ∀ (p : Nat) (w : Nat × Nat × State K), (w.2.1 = n ∧ ReachableSinglePhase b.config w.2.2) → w.2.1 = n ∧ Reachable b.config w.2.2 ∧ (w.2.2.rs.scheme = .cip50 → 0 < w.2.2.rs.a0) := by
    rintro p w ⟨e1, e2⟩
    exact ⟨e1, .of_single e2, by rw [(e2.params minUnit_pos).rs]; exact hcip'⟩
  have hsafe : Safe (runEnv a b solver t) (fun _ w => w.2.1 = n ∧ ReachableSinglePhase b.config w.2.2) := by
    refine ⟨?_, ?_, ?_, ?_⟩
    · intro p w hw
      obtain ⟨e1, e2, e3⟩ := hP p w hw
      obtain ⟨row, g, -⟩ := hf.row hacc e2 e3 ⟨w.2.1, w.1, solver⟩ e1
      exact ⟨row, g⟩
    · rintro i p w ⟨e1, e2⟩
      obtain ⟨es, g1, g2⟩ := round_events (F := K) b.order ht w.2.2.agents.length i
      rw [agents_length (.of_single e2)] at g1 g2
      obtain ⟨es₀, q1, q2⟩ := e2
      have hall : ∀ e ∈ es₀ ++ es, e.Valid b.config.people.length ∧ ∀ p, e ≠ .phase p := by
        intro e he
        rcases List.mem_append.1 he with he | he
        · exact q1 e he
        · exact g2 e he
      obtain ⟨s', q3⟩ := C29_never_crashes hsim hf.k_pos hf.beta_pos (by rw [hxa]; exact hx0) hf.stakes_pos (fun h => .inl (hcip' h)) (es₀ ++ es) hall
      have hr' : ReachableSinglePhase b.config s' := ⟨_, hall, q3⟩
      rw [iterM_append, q2] at q3
      have q3 : iterM exec w.2.2 es = .ok s' := q3
      refine ⟨(i + 1, w.2.1, s'), ?_, e1, hr'⟩
      change (do let s ← b.order.round w.2.2.agents.length t i w.2.2; return (i + 1, w.2.1, s) : Py (Nat × Nat × State K)) = _
      rw [agents_length (.of_single ⟨es₀, q1, q2⟩), g1, q3]
      rfl
    · rintro p w ⟨e1, e2⟩
      exact ⟨e1, e2.next (ev := .roundEnd) trivial (fun p => by simp) rfl⟩
    · intro p w hlt
      rw [show (runEnv a b solver t).totalPhases = 1 from hf.phases.trans h1] at hlt
      omega
  obtain ⟨l, hl, hc, -⟩ := completed hacc hf hm hsafe ⟨rfl, ⟨[], by simp, rfl⟩⟩ hP rnd rnd4
  refine ⟨b, l, hb, ?_, hc⟩
  unfold simulate
  rw [hb]
  exact hl

/-! ### Several phases -/

/-- the value that belongs to phase `p`: a list that is too short keeps its last value -/
def _root_.RSE.Multi.value {α : Type} (m : Multi α) (p : Nat) : Option α :=
  match m with
  | .one x => some x
  | .many l => l[min p (l.length - 1)]?

theorem value_zero {α : Type} {m : Multi α} {x : α} (h : m.first = .ok x) : m.value 0 = some x := by
  match m, h with
  | .one y, h => cases h; rfl
  | .many (y :: t), h => cases h; simp [Multi.value]

theorem value_succ {α : Type} {m : Multi α} {x : α} {p : Nat} (h : m.value p = some x) : m.value (p + 1) = some ((m.later (p + 1)).getD x) := by
  match m, h with
  | .one y, h => cases h; rfl
  | .many l, h =>
    simp only [Multi.value, Multi.later] at h ⊢
    by_cases hl : p + 1 < l.length
    · rw [show min (p + 1) (l.length - 1) = p + 1 by omega, List.getElem?_eq_getElem hl]; rfl
    · rw [List.getElem?_eq_none (show l.length ≤ p + 1 by omega), show min (p + 1) (l.length - 1) = min p (l.length - 1) by omega, h]; rfl

theorem value_some {α : Type} {m : Multi α} {x : α} (h : m.first = .ok x) (p : Nat) : ∃ y, m.value p = some y := by
  induction p with
  | zero => exact ⟨x, value_zero h⟩
  | succ p ih => obtain ⟨y, hy⟩ := ih; exact ⟨_, value_succ hy⟩

theorem value_all {α : Type} {P : α → Prop} {m : Multi α} (hm : m.All P) {p : Nat} {x : α} (h : m.value p = some x) : P x := by
  match m, hm, h with
  | .one y, hm, h => cases h; exact hm
  | .many l, hm, h => exact hm.2 x (List.mem_of_getElem? h)

/-- from phase to phase `k` does not grow and neither does `a0` (CIP-50: `a0` does not shrink) -/
structure Relaxing (a : Args K) : Prop where
  k : ∀ p x y, a.k.value p = some x → a.k.value (p + 1) = some y → y ≤ x
  a0 : ∀ p x y, a.a0.value p = some x → a.a0.value (p + 1) = some y → if a.scheme = 4 then x ≤ y else y ≤ x

/-- C78.  The same for several phases if the system does not know the inactive stake and the values of `k` and `a0` only relax (what happens otherwise is shown in
`C30_index_error` and `C30_attribute_error`). -/
theorem C78_completes_phases [FloorSemiring K] {a : Args K} {d : Draws K} {n : Nat} (hacc : Accepted a d n) (hrel : Relaxing a)
    (hkn : a.known = false) {m : Int} (hm : a.maxIter = .one m)
    {o : Order} (ho : a.order = .one o) (hseq : o = .random ∨ o = .sequential) {x0 : K} (hx : a.a0.first = .ok x0) (hcip : a.scheme = 4 → 0 < x0)
    {t : Turns} (ht : TurnsOK t) (solver : State K → K) (rnd rnd4 : K → K) :
    ∃ b l, construct a d = .ok b ∧ simulate a d solver t (m.toNat + 1) = .ok l ∧ Completed b rnd rnd4 m l := by
  obtain ⟨b, hb, hf⟩ := C77_constructor hacc
  have hao : b.order = o := by have := hf.order; rw [ho] at this; exact (Except.ok.inj this).symm
  have hsim : b.config.simultaneous = false := by
    rw [← Bool.not_eq_true, hf.simultaneous, hao]; rcases hseq with rfl | rfl <;> simp
  have hxa : b.config.rs.a0 = x0 := by have := hf.a0; rw [hx] at this; exact (Except.ok.inj this).symm
  have hx0 : 0 ≤ x0 := by
    obtain ⟨y, y1, y2⟩ := multi_first hacc.a0
    rw [hx] at y1; cases y1; exact y2
  have hsch := schemeOf_cip hacc.scheme
  have hcip' : b.config.rs.scheme = .cip50 → 0 < b.config.rs.a0 := by
    intro h; rw [hf.scheme, hsch] at h; rw [hxa]; exact hcip h
  obtain ⟨k₀, k1, k2, -⟩ := hf.k
  obtain ⟨k3, k4⟩ := k2 hkn
  have hP : ∀ (p : Nat) (w : Nat × Nat × State K), (w.2.1 = n ∧ ∃ k x, a.k.value p = some k ∧ a.a0.value p = some x ∧ Paying b.config k x w.2.2) →
      w.2.1 = n ∧ Reachable b.config w.2.2 ∧ (w.2.2.rs.scheme = .cip50 → 0 < w.2.2.rs.a0) := by
    rintro p w ⟨e1, k, x, -, -, e2⟩
    exact ⟨e1, e2.reach, fun h => by rw [e2.a_eq]; exact e2.cip (by rw [← e2.scheme]; exact h)⟩
  have hsafe : Safe (runEnv a b solver t) (fun p w => w.2.1 = n ∧ ∃ k x, a.k.value p = some k ∧ a.a0.value p = some x ∧ Paying b.config k x w.2.2) := by
    refine ⟨?_, ?_, ?_, ?_⟩
    · intro p w hw
      obtain ⟨e1, e2, e3⟩ := hP p w hw
      obtain ⟨row, g, -⟩ := hf.row hacc e2 e3 ⟨w.2.1, w.1, solver⟩ e1
      exact ⟨row, g⟩
    · rintro i p w ⟨e1, k, x, e2, e3, e4⟩
      obtain ⟨es, g1, g2⟩ := round_events (F := K) b.order ht w.2.2.agents.length i
      rw [agents_length e4.reach] at g1 g2
      have : ∃ s', iterM exec w.2.2 es = .ok s' ∧ Paying b.config k x s' := by
        clear g1 e1
        generalize w.2.2 = s at e4
        induction es generalizing s with
        | nil => exact ⟨s, rfl, e4⟩
        | cons e es ih =>
          obtain ⟨s₁, q1, q2⟩ := e4.turn hsim hf.stakes_pos hf.beta_pos (g2 e List.mem_cons_self).1 (g2 e List.mem_cons_self).2
          obtain ⟨s', q3, q4⟩ := ih (fun e' he' => g2 e' (List.mem_cons_of_mem _ he')) s₁ q2
          refine ⟨s', ?_, q4⟩
          change (exec s e).bind _ = _
          rw [q1]
          exact q3
      obtain ⟨s', q1, q2⟩ := this
      refine ⟨(i + 1, w.2.1, s'), ?_, e1, k, x, e2, e3, q2⟩
      change (do let s ← b.order.round w.2.2.agents.length t i w.2.2; return (i + 1, w.2.1, s) : Py (Nat × Nat × State K)) = _
      rw [agents_length e4.reach, g1, q1]
      rfl
    · rintro p w ⟨e1, k, x, e2, e3, e4⟩
      obtain ⟨s', q1, q2⟩ := e4.turn hsim hf.stakes_pos hf.beta_pos (ev := .roundEnd) trivial (fun p => by simp)
      cases q1
      exact ⟨e1, k, x, e2, e3, q2⟩
    · rintro p w - ⟨e1, k, x, e2, e3, e4⟩
      have hk' := value_succ e2
      have hx' := value_succ e3
      have hxn := value_all hacc.a0 hx'
      obtain ⟨s', q1, q2⟩ := e4.phase hf.stakes_pos hf.beta_pos (p := a.phase (p + 1)) (value_all hacc.k hk') (hrel.k p _ _ e2 hk') (by
        have := hrel.a0 p _ _ e3 hx'
        rw [hf.scheme]
        by_cases h4 : a.scheme = 4
        · rw [if_pos (hsch.2 h4)]; rw [if_pos h4] at this; exact this
        · rw [if_neg (fun h => h4 (hsch.1 h))]; rw [if_neg h4] at this; exact ⟨hxn, this⟩)
      refine ⟨(w.1, w.2.1, s'), ?_, e1, _, _, hk', hx', q2⟩
      have q1 : changePhase w.2.2 (a.phase (p + 1)) = .ok s' := q1
      simp only [runEnv, q1, ho, hacc.n, Multi.later, bind, Except.bind, pure, Except.pure]
      rfl
  have h0 : Paying b.config k₀ x0 (initState b.config) := by
    have hk : 1 ≤ k₀ := by have := hf.k_pos; rw [k3] at this; exact this
    exact ⟨⟨[], by simp, rfl⟩, (fun pid r hp => by cases hp), rfl, k3, hk, by rw [k3], k4, hxa, hx0, fun h => by rw [← hxa]; exact hcip' h⟩
  obtain ⟨l, hl, hc, -⟩ := completed hacc hf hm hsafe ⟨rfl, k₀, x0, value_zero k1, value_zero hx, h0⟩ hP rnd rnd4
  refine ⟨b, l, hb, ?_, hc⟩
  unfold simulate
  rw [hb]
  exact hl

end RSE.Props
