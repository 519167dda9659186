import Verif.Lemmas.Books
import Verif.Props.Accounting
import Verif.Props.Rounds
import Verif.Props.SameView

/-!
# C100: simultaneous moves that keep the books straight

C25 is false because of one kind of conflict: an agent changes its delegation to a pool, and another agent, that advances later in the same batch,
keeps that pool.  The operator's copy of the pool was made before the change and replaces the pool after it.  Here: this is the only cause.  If no agent of
a batch changes its delegation to a pool that an agent advancing after it keeps, then no exception is raised while the batch advances, and
afterwards pools record exactly what the agents' strategies say.  Theorems about `F` hold in any arithmetic.
-/

set_option linter.unusedSectionVars false

namespace RSE.Props

section
variable {F : Type} [LinearOrder F] [Zero F] [One F] [Add F] [Sub F] [Mul F] [Div F] [Neg F] [NatCast F] [FSum F]

/-- Pools record exactly what the agents say, and no agent delegates to a pool that it operates. -/
structure Straight (s : State F) : Prop where
  same : ∀ b pid x, Records s pid b x ↔ Says s b pid x
  foreign : ∀ b pid x r, Says s b pid x → ¬ Operates s b pid r

/-- no agent has a staged strategy -/
def NobodyStaged (s : State F) : Prop := ∀ a ag, s.agents.get? a = some ag → ag.newStrategy = none

/-- agent `a` has staged a strategy that delegates `x` to pool `pid` -/
def Plans (s : State F) (a pid : Nat) (x : F) : Prop :=
  ∃ ag ν, s.agents.get? a = some ag ∧ ag.newStrategy = some ν ∧ ν.allocs.get? pid = some x

/-- agent `b` operates pool `pid` and has staged a strategy in which it still does -/
def Keeps (s : State F) (b pid : Nat) : Prop :=
  (∃ r, Operates s b pid r) ∧ ∃ ag ν r, s.agents.get? b = some ag ∧ ag.newStrategy = some ν ∧ ν.owned.get? pid = some r

/-- agent `a` has staged a strategy in which its delegation to pool `pid` is another one than now -/
def Redirects (s : State F) (a pid : Nat) : Prop :=
  (∃ ag ν, s.agents.get? a = some ag ∧ ag.newStrategy = some ν) ∧ ¬ ∀ x, Plans s a pid x ↔ Says s a pid x

/-- agent `a` is going to change its delegation to a pool that agent `b` is going to keep -/
def Clash (s : State F) (a b : Nat) : Prop := ∃ pid, Keeps s b pid ∧ Redirects s a pid

theorem says_iff {s : State F} {b pid : Nat} {x : F} : Says s b pid x ↔ allocOf s b pid = some x := by
  unfold Says allocOf
  cases h1 : s.agents.get? b with
  | none => simp
  | some ag =>
    cases h2 : ag.strategy with
    | none => simp [h2]
    | some σ => simp [h2]

theorem plans_iff {s : State F} {b pid : Nat} {x : F} : Plans s b pid x ↔ newOf s b pid = some x := by
  unfold Plans newOf
  cases h1 : s.agents.get? b with
  | none => simp
  | some ag =>
    cases h2 : ag.newStrategy with
    | none => simp [h2]
    | some σ => simp [h2]

theorem operates_iff {s : State F} {b pid : Nat} {r : Ref} : Operates s b pid r ↔ ownOf s b pid = some r := by
  unfold Operates ownOf
  cases h1 : s.agents.get? b with
  | none => simp
  | some ag =>
    cases h2 : ag.strategy with
    | none => simp [h2]
    | some σ => simp [h2]

theorem Straight.books {n : Nat} {s : State F} (h : Straight s) (hi : Inv n s)
    (hmin : ∀ b ag σ, s.agents.get? b = some ag → ag.strategy = some σ → ∀ e ∈ σ.allocs, minUnit ≤ e.2) : Books s := by
  refine ⟨fun pid r hp b => ?_, fun b pid x hx => ?_⟩
  · refine Option.ext (fun x => ?_)
    rw [← says_iff, ← h.same]
    exact ⟨fun hx => ⟨r, hp, hx⟩, fun ⟨r', hp', hx⟩ => by rw [hp] at hp'; cases hp'; exact hx⟩
  · have hs := says_iff.2 hx
    obtain ⟨r, hp, -⟩ := (h.same b pid x).2 hs
    have hf := h.foreign b pid x r hs
    obtain ⟨ag, σ, h1, h2, h3⟩ := hs
    refine ⟨hmin b ag σ h1 h2 (pid, x) (Dict.mem_of_get? h3), r, hp, fun ho => hf (operates_iff.2 ((hi.own.own_iff b pid r).2 ⟨hp, ho⟩))⟩

theorem straight_of_books {n : Nat} {s : State F} (h : Books s) (hi : Inv n s) : Straight s := by
  refine ⟨fun b pid x => ⟨?_, fun hs => ?_⟩, fun b pid x r hs ho => ?_⟩
  · rintro ⟨r, hp, hx⟩
    rw [says_iff, ← h.agree pid r hp]; exact hx
  · rw [says_iff] at hs
    obtain ⟨-, r, hp, -⟩ := h.good b pid x hs
    exact ⟨r, hp, by rw [h.agree pid r hp]; exact hs⟩
  · rw [says_iff] at hs
    rw [operates_iff, hi.own.own_iff] at ho
    obtain ⟨-, r', hp, hne⟩ := h.good b pid x hs
    rw [ho.1] at hp; cases hp
    exact hne ho.2

theorem undisturbed_of {s : State F} {a b : Nat} (h : ¬ Clash s a b) : Undisturbed s a b := by
  intro ag ν ha hν pid ho hs
  by_contra hne
  apply h
  obtain ⟨r, hr⟩ := Option.isSome_iff_exists.1 ho
  obtain ⟨r', hr'⟩ := Option.isSome_iff_exists.1 hs
  refine ⟨pid, ⟨⟨r, operates_iff.2 hr⟩, ?_⟩, ⟨ag, ν, ha, hν⟩, fun hall => hne ?_⟩
  · unfold stgOf at hr'
    obtain ⟨agb, k1, k2⟩ := Option.bind_eq_some_iff.1 hr'
    obtain ⟨νb, k3, k4⟩ := Option.bind_eq_some_iff.1 k2
    exact ⟨agb, νb, r', k1, k3, k4⟩
  · refine Option.ext (fun x => ?_)
    rw [← plans_iff, ← says_iff]; exact hall x

/-- The first half of a batch: all its agents plan, in the given order. -/
def plansOf (ords : Nat → List Nat → List Nat) (batch : List Nat) (s : State F) : Py (State F) :=
  iterM exec s (stepEvents ords batch)

/-- The second half of a batch: all its agents carry out what they have planned, in the same order. -/
def movesOf (ords : Nat → List Nat → List Nat) (batch : List Nat) (s : State F) : Py (State F) :=
  iterM exec s (advanceEvents ords batch)

theorem runBatch_halves (ords : Nat → List Nat → List Nat) (batch : List Nat) (s : State F) :
    runBatch ords s batch = (plansOf ords batch s).bind (movesOf ords batch) := by
  rw [runBatch_eq, batchEvents, iterM_append]; rfl

theorem roundSimultaneous_halves (ords : Nat → List Nat → List Nat) (batch : List Nat) (s : State F) :
    roundSimultaneous ords batch s = (plansOf ords batch s).bind (movesOf ords batch) := runBatch_halves ords batch s

/-- the agents of the batch exist, each occurs once, and the iteration orders of sets are orders -/
structure BatchOK (c : Config F) (ords : Nat → List Nat → List Nat) (batch : List Nat) : Prop where
  agents : ∀ a ∈ batch, a < c.people.length
  nodup : batch.Nodup
  ords : ∀ i l, (ords i l).Perm l

theorem reachable_iterM {c : Config F} {es : List (Event F)} : ∀ {s s' : State F}, Reachable c s → (∀ e ∈ es, e.Valid c.people.length) →
    iterM exec s es = .ok s' → Reachable c s' := by
  induction es with
  | nil => intro s s' h _ he; cases he; exact h
  | cons e l ih =>
    intro s s' h hv he
    unfold iterM at he
    cases h1 : exec s e with
    | error x => rw [h1] at he; cases he
    | ok s₁ =>
      rw [h1] at he
      exact ih (h.next (hv e (by simp)) h1) (fun e he => hv e (List.mem_cons_of_mem _ he)) he

theorem BatchOK.plans_valid {c : Config F} {ords : Nat → List Nat → List Nat} {batch : List Nat} (h : BatchOK c ords batch) :
    ∀ e ∈ stepEvents (F := F) ords batch, e.Valid c.people.length := by
  intro e he
  obtain ⟨⟨a, i⟩, hm, rfl⟩ := List.mem_map.1 he
  have := List.mem_map_of_mem (f := Prod.fst) hm
  rw [List.zipIdx_map_fst] at this
  exact ⟨h.agents a this, h.ords i⟩

theorem BatchOK.moves_valid {c : Config F} {ords : Nat → List Nat → List Nat} {batch : List Nat} (h : BatchOK c ords batch) :
    ∀ e ∈ advanceEvents (F := F) ords batch, e.Valid c.people.length := by
  intro e he
  obtain ⟨⟨a, i⟩, hm, rfl⟩ := List.mem_map.1 he
  have := List.mem_map_of_mem (f := Prod.fst) hm
  rw [List.zipIdx_map_fst] at this
  exact ⟨h.agents a this, h.ords _⟩

theorem batch_of {c : Config F} (hmin : (0 : F) < minUnit) {s : State F} (h : Reachable c s) (hc : c.simultaneous = true) (hb : Straight s)
    (hn : NobodyStaged s) : Batch (c.rs.k + 1) s := by
  have hg := h.good hmin
  exact ⟨hg.inv, by rw [hg.fixed.simultaneous]; exact hc, hb.books hg.inv (fun b ag σ h1 h2 => (h.allocsMin hmin b ag h1).1 σ h2),
    Settled.allStaged hn⟩

theorem plans_spec (hmin : (0 : F) < minUnit) {c : Config F} {s : State F} (h : Reachable c s) (hc : c.simultaneous = true) (hb : Straight s)
    (hn : NobodyStaged s) {ords : Nat → List Nat → List Nat} {batch : List Nat} (ho : BatchOK c ords batch) :
    Sat Ev (plansOf ords batch s) (fun s' => Batch (c.rs.k + 1) s' ∧
      (∀ b ag ν, s'.agents.get? b = some ag → ag.newStrategy = some ν → b ∈ batch) ∧ ∀ b, (s'.agents.get? b).isSome = (s.agents.get? b).isSome) := by
  unfold plansOf stepEvents
  rw [iterM_map]
  refine (batch_of hmin h hc hb hn).steps ho.ords batch 0 s (fun a ha => ?_) batch (fun _ h => h) (fun b ag ν h1 h2 => ?_)
  · rw [(h.good hmin).fixed.isSome]; exact isSome_init c (ho.agents a ha)
  · rw [hn b ag h1] at h2; cases h2

/-- C100.  Simultaneous activation, any arithmetic.  Let pools record exactly what agents say, and let nothing be staged.  If the agents of a batch have
planned and none of them is going to change its delegation to a pool that an agent after it keeps, then carrying out the plans raises no exception,
and afterwards pools again record exactly what agents say, with nothing staged. -/
theorem C100_batch (hmin : (0 : F) < minUnit) {c : Config F} {s s₁ : State F} (h : Reachable c s) (hc : c.simultaneous = true) (hb : Straight s)
    (hn : NobodyStaged s) {ords : Nat → List Nat → List Nat} {batch : List Nat} (ho : BatchOK c ords batch)
    (h₁ : plansOf ords batch s = .ok s₁) (hq : batch.Pairwise (fun a b => ¬ Clash s₁ a b)) :
    ∃ s₂, movesOf ords batch s₁ = .ok s₂ ∧ Reachable c s₂ ∧ Straight s₂ ∧ NobodyStaged s₂ := by
  obtain ⟨k1, k2, k3⟩ := (plans_spec hmin h hc hb hn ho).of_ok h₁
  obtain ⟨s₂, g1, g2, g3⟩ := k1.advances hmin (ords := fun i => ords (batch.length + i)) (fun i => ho.ords _) batch 0 s₁
    (hq.imp (fun h => undisturbed_of h)) ho.nodup (fun a ha => by
      rw [k3, (h.good hmin).fixed.isSome]; exact isSome_init c (ho.agents a ha)) k2
  have hm : movesOf ords batch s₁ = .ok s₂ := by
    unfold movesOf advanceEvents
    rw [iterM_map]; exact g1
  exact ⟨s₂, hm, reachable_iterM (reachable_iterM h ho.plans_valid h₁) ho.moves_valid hm, straight_of_books g2.books g2.inv, g3⟩

/-- C100.  So there is nothing else to blame: if the plans of a batch cannot be carried out, or if afterwards pools do not record what agents say,
then some agent of the batch changes its delegation to a pool that an agent after it keeps. -/
theorem C100_blame (hmin : (0 : F) < minUnit) {c : Config F} {s s₁ : State F} (h : Reachable c s) (hc : c.simultaneous = true) (hb : Straight s)
    (hn : NobodyStaged s) {ords : Nat → List Nat → List Nat} {batch : List Nat} (ho : BatchOK c ords batch)
    (h₁ : plansOf ords batch s = .ok s₁)
    (hbad : (∃ e, movesOf ords batch s₁ = .error e) ∨ ∃ s₂, movesOf ords batch s₁ = .ok s₂ ∧ ¬ Straight s₂) :
    ∃ before a between b after, batch = before ++ a :: (between ++ b :: after) ∧ Clash s₁ a b := by
  by_contra hno
  have hq : batch.Pairwise (fun a b => ¬ Clash s₁ a b) := by
    rw [List.pairwise_iff_forall_sublist]
    intro a b hsub hcl
    apply hno
    obtain ⟨r₁, r₂, e1, e2, e3⟩ := List.cons_sublist_iff.1 hsub
    obtain ⟨l1, l2, rfl⟩ := List.append_of_mem e2
    obtain ⟨m1, m2, rfl⟩ := List.append_of_mem (List.singleton_sublist.1 e3)
    exact ⟨l1, a, l2 ++ m1, b, m2, by rw [e1]; simp, hcl⟩
  obtain ⟨s₂, k1, -, k2, -⟩ := C100_batch hmin h hc hb hn ho h₁ hq
  rcases hbad with ⟨e, he⟩ | ⟨s₂', he, hns⟩
  · rw [k1] at he; cases he
  · rw [k1] at he; cases he
    exact hns k2

/-- C100.  While the agents of such a batch plan, no lookup of a pool or delegation fails: only the evaluation of strategies may raise something. -/
theorem C100_planning (hmin : (0 : F) < minUnit) {c : Config F} {s : State F} (h : Reachable c s) (hc : c.simultaneous = true) (hb : Straight s)
    (hn : NobodyStaged s) {ords : Nat → List Nat → List Nat} {batch : List Nat} (ho : BatchOK c ords batch) {e : Err}
    (he : plansOf ords batch s = .error e) : e ≠ .key ∧ e ≠ .value ∧ e ≠ .type ∧ e ≠ .diverge := by
  have := (plans_spec hmin h hc hb hn ho).of_error he
  rcases this with rfl | rfl | rfl <;> decide

/-- The states between the batches of a simulation with simultaneous or semi-simultaneous activation in which no batch has such a conflict. -/
inductive Orderly (c : Config F) : State F → Prop
  | init : Orderly c (initState c)
  | batch {s s₁ s₂ ords batch} (hs : Orderly c s) (ho : BatchOK c ords batch) (h₁ : plansOf ords batch s = .ok s₁)
      (hq : batch.Pairwise (fun a b => ¬ Clash s₁ a b)) (h₂ : movesOf ords batch s₁ = .ok s₂) : Orderly c s₂
  | phase {s s' p} (hs : Orderly c s) (h : exec s (.phase p) = .ok s') : Orderly c s'
  | roundEnd {s s'} (hs : Orderly c s) (h : exec s .roundEnd = .ok s') : Orderly c s'

/-- C100.  In such a simulation the books are straight between batches, always. -/
theorem C100_orderly (hmin : (0 : F) < minUnit) {c : Config F} (hc : c.simultaneous = true) {s : State F} (h : Orderly c s) :
    Reachable c s ∧ Straight s ∧ NobodyStaged s := by
  induction h with
  | init =>
    refine ⟨⟨[], by simp, rfl⟩, ⟨fun b pid x => ⟨?_, ?_⟩, fun b pid x r hs => ?_⟩, init_settled c⟩
    · rintro ⟨r, hr, -⟩; cases hr
    · rintro ⟨ag, σ, h1, h2, h3⟩
      obtain ⟨⟨x1, x2, x3⟩, -, rfl⟩ := agents_init h1
      cases x3 <;> simp [newAgent] at h2 <;> subst h2 <;> simp at h3
    · obtain ⟨ag, σ, h1, h2, h3⟩ := hs
      obtain ⟨⟨x1, x2, x3⟩, -, rfl⟩ := agents_init h1
      cases x3 <;> simp [newAgent] at h2 <;> subst h2 <;> simp at h3
  | batch hs ho h₁ hq h₂ ih =>
    obtain ⟨s₂', k1, k2⟩ := C100_batch hmin ih.1 hc ih.2.1 ih.2.2 ho h₁ hq
    rw [h₂] at k1; cases k1
    exact k2
  | @phase s s' p hs he ih =>
    have hg := ih.1.good hmin
    have hv : (Event.phase (F := F) p).Valid c.people.length := trivial
    have hr := ih.1.next hv he
    have hd := ((hg.exec hmin hv).of_ok he).1
    cases hd with
    | phase p s' hp hcore =>
      refine ⟨hr, ⟨fun b pid x => ?_, fun b pid x r => ?_⟩, fun b ag hb => ?_⟩
      · have e1 : Says s' b pid x ↔ Says s b pid x := by unfold Says; rw [hp.agents]
        have e2 : Records s' pid b x ↔ Records s pid b x := by
          unfold Records
          rw [hp.pools]
          simp only [(hp.attr _).2.2.1]
        rw [e1, e2]; exact ih.2.1.same b pid x
      · have e1 : Says s' b pid x ↔ Says s b pid x := by unfold Says; rw [hp.agents]
        have e2 : Operates s' b pid r ↔ Operates s b pid r := by unfold Operates; rw [hp.agents]
        rw [e1, e2]; exact ih.2.1.foreign b pid x r
      · rw [hp.agents] at hb; exact ih.2.2 b ag hb
  | roundEnd hs he ih =>
    have hr := ih.1.next (ev := .roundEnd) trivial he
    cases he
    exact ⟨hr, ⟨ih.2.1.same, ih.2.1.foreign⟩, ih.2.2⟩

/-! ### Batches without conflicts -/

theorem clash_operates {s : State F} {a b : Nat} (h : Clash s a b) : ∃ pid r, Operates s b pid r := by
  obtain ⟨pid, ⟨⟨r, hr⟩, -⟩, -⟩ := h
  exact ⟨pid, r, hr⟩

theorem plans_operates (hmin : (0 : F) < minUnit) {c : Config F} {s s₁ : State F} (h : Reachable c s) (hc : c.simultaneous = true)
    {ords : Nat → List Nat → List Nat} {batch : List Nat} (ho : BatchOK c ords batch) (h₁ : plansOf ords batch s = .ok s₁) {b pid : Nat} {r : Ref} :
    Operates s₁ b pid r ↔ Operates s b pid r := by
  have : ∀ (l : List (Event F)), (∀ e ∈ l, e.Valid c.people.length ∧ ∃ a ord, e = .step a ord) → ∀ s s₁, Reachable c s → iterM exec s l = .ok s₁ →
      (Operates s₁ b pid r ↔ Operates s b pid r) := by
    intro l
    induction l with
    | nil => intro _ s s₁ _ he; cases he; exact Iff.rfl
    | cons e l ih =>
      intro hl s s₁ hs he
      unfold iterM at he
      cases h1 : exec s e with
      | error x => rw [h1] at he; cases he
      | ok s' =>
        rw [h1] at he
        obtain ⟨hv, a, ord, rfl⟩ := hl e (by simp)
        rw [ih (fun e he => hl e (List.mem_cons_of_mem _ he)) s' s₁ (hs.next hv h1) he]
        have hg := hs.good hmin
        have hd := ((hg.exec hmin hv).of_ok h1).1
        have hsim : s.simultaneous = true := by rw [hg.fixed.simultaneous]; exact hc
        cases hd with
        | idle => exact Iff.rfl
        | move me ord ag σ ν s₁ s₂ s₃ ha hp hσ hpm hpl hs => rw [hsim] at hs; cases hs
        | plan me ord ag σ oν s₁ s' ha hp hσ hpm hpl hs ht =>
          have hid := hg.inv.core.agentId a ag ha
          rw [operates_iff, operates_iff]
          unfold ownOf
          rw [hpl.eq, get?_setAgent (me := a) (ag := { ag with newStrategy := oν }) hid b, hpl.planned.agents]
          by_cases hb : b = a
          · subst hb; simp [ha]
          · simp [hb]
  refine this _ (fun e he => ⟨ho.plans_valid e he, ?_⟩) s s₁ h h₁
  obtain ⟨⟨a, i⟩, -, rfl⟩ := List.mem_map.1 he
  exact ⟨a, _, rfl⟩

/-- C100.  There is no conflict in a batch if only its first agent operates pools -- in particular in the first round. -/
theorem C100_no_operators (hmin : (0 : F) < minUnit) {c : Config F} {s s₁ : State F} (h : Reachable c s) (hc : c.simultaneous = true)
    {ords : Nat → List Nat → List Nat} {batch : List Nat} (ho : BatchOK c ords batch) (h₁ : plansOf ords batch s = .ok s₁)
    (hno : ∀ b ∈ batch.tail, ∀ pid r, ¬ Operates s b pid r) : batch.Pairwise (fun a b => ¬ Clash s₁ a b) := by
  cases batch with
  | nil => exact .nil
  | cons a l =>
    rw [List.pairwise_cons]
    have key : ∀ a b, b ∈ l → ¬ Clash s₁ a b := by
      intro a b hb hcl
      obtain ⟨pid, r, hr⟩ := clash_operates hcl
      exact hno b hb pid r ((plans_operates hmin h hc ho h₁).1 hr)
    exact ⟨key a, List.pairwise_of_forall_mem_list (fun x _ y hy => key x y hy)⟩

/-- C100.  Semi-simultaneous activation with one move at a time (`simultaneous_moves = 1`) never has a conflict. -/
theorem C100_one_at_a_time {c : Config F} {s s' : State F} (h : Orderly c s) {sample : List Nat → Nat → List Nat} (hs : SampleOK sample)
    {ords : Nat → Nat → List Nat → List Nat} (hords : ∀ i j l, (ords i j l).Perm l)
    (hr : roundSemi 1 sample ords (List.range c.people.length) s = .ok s') : Orderly c s' := by
  obtain ⟨hperm, hlen⟩ := batches_spec (z := 1) le_rfl hs (List.range c.people.length).length (List.range c.people.length) List.nodup_range le_rfl
  have : ∀ (l : List (List Nat × Nat)), (∀ e ∈ l, e.1.length = 1 ∧ ∀ a ∈ e.1, a < c.people.length) → ∀ s s', Orderly c s →
      iterM (fun s (e : List Nat × Nat) => runBatch (ords e.2) s e.1) s l = .ok s' → Orderly c s' := by
    intro l
    induction l with
    | nil => intro _ s s' hs he; cases he; exact hs
    | cons e l ih =>
      intro hl s s' hs he
      obtain ⟨b, i⟩ := e
      obtain ⟨hb1, hb2⟩ := hl (b, i) (by simp)
      unfold iterM at he
      simp only at he
      rw [runBatch_halves] at he
      cases h1 : plansOf (ords i) b s with
      | error x => rw [h1] at he; cases he
      | ok s₁ =>
        rw [h1] at he
        simp only [Except.bind] at he
        cases h2 : movesOf (ords i) b s₁ with
        | error x => rw [h2] at he; cases he
        | ok s₂ =>
          rw [h2] at he
          obtain ⟨a, rfl⟩ := List.length_eq_one_iff.1 hb1
          exact ih (fun e he => hl e (List.mem_cons_of_mem _ he)) s₂ s'
            (Orderly.batch hs ⟨hb2, List.nodup_singleton a, hords i⟩ h1 (List.pairwise_singleton _ _) h2) he
  refine this _ (fun e he => ?_) s s' h hr
  have hm := List.mem_map_of_mem (f := Prod.fst) he
  rw [List.zipIdx_map_fst] at hm
  obtain ⟨k1, k2⟩ := hlen e.1 hm
  refine ⟨by omega, fun a ha => ?_⟩
  exact List.mem_range.1 (hperm.mem_iff.1 (List.mem_flatten.2 ⟨e.1, hm, ha⟩))

end

variable {K : Type} [Field K] [LinearOrder K] [IsStrictOrderedRing K]

theorem Orderly.books {c : Config K} (hc : c.simultaneous = true) {s : State K} (h : Orderly c s) : Books s := by
  obtain ⟨h1, h2, -⟩ := C100_orderly minUnit_pos hc h
  exact h2.books (h1.good minUnit_pos).inv (fun b ag σ k1 k2 => (h1.allocsMin minUnit_pos b ag k1).1 σ k2)

/-- C100.  In exact arithmetic, in a simulation without such conflicts, the pools together never hold more than the agents own, the utilities of all
agents add up to the profits of all pools, and the first half of every batch is as described in C95. -/
theorem C100_accounting {c : Config K} (hc : c.simultaneous = true) {s : State K} (h : Orderly c s) (h0 : ∀ e ∈ c.people, 0 < e.1)
    (hb : 0 < c.rs.beta) :
    totalDelegatedStake s ≤ totalAgentStake s ∧
    (∃ us, allUtilities s = .ok us ∧
      us.sum = (s.pools.map (fun e => s.rs.reward (s.heap e.2).pledge (s.heap e.2).stake - (s.heap e.2).cost)).sum) ∧
    BooksAgree s := by
  obtain ⟨h1, h2, -⟩ := C100_orderly minUnit_pos hc h
  refine ⟨stake_conserved h1 (h.books hc) (fun e he => (h0 e he).le) hb, utilities_add_up h1 (h.books hc) h0 hb, ?_⟩
  intro a ag σ ha hσ pid x
  rw [h2.same]
  constructor
  · rintro ⟨ag', σ', k1, k2, k3⟩
    rw [ha] at k1; cases k1
    rw [hσ] at k2; cases k2
    exact k3
  · exact fun hx => ⟨ag, σ, ha, hσ, hx⟩

/-! ### Witnesses -/

/-- a check for conflicts -/
def clashes (s : State ℚ) (a b : Nat) : Bool :=
  match s.agents.get? a, s.agents.get? b with
  | some aa, some bb =>
    match aa.newStrategy, bb.strategy, bb.newStrategy with
    | some ν, some σb, some νb => (σb.owned.keys.filter (fun p => νb.owned.contains p)).any
        (fun p => decide (ν.allocs.get? p ≠ (aa.strategy.bind (fun σ => σ.allocs.get? p))))
    | _, _, _ => false
  | _, _ => false

theorem not_clash {s : State ℚ} {a b : Nat} (h : clashes s a b = false) : ¬ Clash s a b := by
  rintro ⟨pid, ⟨⟨r, bb, σb, h1, h2, h3⟩, bb', νb, r', h4, h5, h6⟩, ⟨aa, ν, h7, h8⟩, hne⟩
  rw [h1] at h4; cases h4
  apply hne
  intro x
  unfold clashes at h
  simp only [h7, h1, h8, h2, h5, List.any_eq_false, decide_eq_true_eq, not_not] at h
  have he := h pid (List.mem_filter.2 ⟨Dict.mem_keys_of_get? h3, Dict.contains_iff.2 (Dict.mem_keys_of_get? h6)⟩)
  rw [plans_iff, says_iff, newOf_eq h7 h8, he]
  unfold allocOf
  rw [h7]

/-- the batch has no conflict, as a check -/
def noClash (s : State ℚ) : List Nat → Bool
  | [] => true
  | a :: l => l.all (fun b => !clashes s a b) && noClash s l

theorem noClash_spec {s : State ℚ} : ∀ {l : List Nat}, noClash s l = true → l.Pairwise (fun a b => ¬ Clash s a b)
  | [], _ => .nil
  | a :: l, h => by
    simp only [noClash, Bool.and_eq_true, List.all_eq_true, Bool.not_eq_true'] at h
    exact .cons (fun b hb => not_clash (h.1 b hb)) (noClash_spec h.2)

/-- `n` rounds of simultaneous moves, stopping at the first conflict -/
def orderlyRounds (order : List Nat) : Nat → State ℚ → Option (State ℚ)
  | 0, s => some s
  | n + 1, s => (plansOf (fun _ => id) order s).toOption.bind (fun s₁ =>
      if noClash s₁ order then (movesOf (fun _ => id) order s₁).toOption.bind (orderlyRounds order n) else none)

theorem orderlyRounds_spec {c : Config ℚ} {order : List Nat} (ho : BatchOK c (fun _ => id) order) : ∀ (n : Nat) {s s' : State ℚ}, Orderly c s →
    orderlyRounds order n s = some s' → Orderly c s'
  | 0, s, s', h, he => by cases he; exact h
  | n + 1, s, s', h, he => by
    unfold orderlyRounds at he
    obtain ⟨s₁, h1, he⟩ := Option.bind_eq_some_iff.1 he
    split at he
    · rename_i hq
      obtain ⟨s₂, h2, he⟩ := Option.bind_eq_some_iff.1 he
      exact orderlyRounds_spec ho n (Orderly.batch h ho (toOption_ok h1) (noClash_spec hq) (toOption_ok h2)) he
    · cases he

/-- Three simultaneous rounds of the demonstration have no conflict.  They end with three pools, all of them with delegations. -/
example : ∃ s, Orderly (demo true) s ∧ demoView s = [(1, 0, 1/3, [(2, 2/15)]), (4, 1, 7/30, [(2, 2/15)]), (10, 3, 1/3, [(2, 1/30)])] := by
  have key : (orderlyRounds [0, 1, 2, 3, 4] 3 (initState (demo true))).map demoView =
      some [(1, 0, 1/3, [(2, 2/15)]), (4, 1, 7/30, [(2, 2/15)]), (10, 3, 1/3, [(2, 1/30)])] := by decide +kernel
  obtain ⟨s, h1, h2⟩ := Option.map_eq_some_iff.1 key
  exact ⟨s, orderlyRounds_spec ⟨by decide, by decide, fun _ _ => List.Perm.refl _⟩ 3 Orderly.init h1, h2⟩

/-- The condition is needed.  The simulation of `C25_total_stake_exceeded` has two rounds without conflict.  In the third, agent 0 withdraws from pool 7,
which agent 2 keeps; no exception is raised, but afterwards pool 7 still counts the delegation. -/
theorem C100_needed : ∃ s s₁ s₂ : State ℚ, Orderly phantomCfg s ∧ plansOf (fun _ => id) [0, 1, 2] s = .ok s₁ ∧
    movesOf (fun _ => id) [0, 1, 2] s₁ = .ok s₂ ∧ Keeps s₁ 2 7 ∧ Redirects s₁ 0 7 ∧ Records s₂ 7 0 (1/69) ∧ ¬ Straight s₂ := by
  have key : (orderlyRounds [0, 1, 2] 2 (initState phantomCfg)).bind (fun s => (plansOf (fun _ => id) [0, 1, 2] s).toOption.bind (fun s₁ =>
      (movesOf (fun _ => id) [0, 1, 2] s₁).toOption.map (fun s₂ => (
        [((s₁.agents.get? 2).bind (·.strategy)).map (fun σ => (σ.owned.get? 7).isSome),
          ((s₁.agents.get? 2).bind (·.newStrategy)).map (fun σ => (σ.owned.get? 7).isSome)],
        [((s₁.agents.get? 0).bind (·.strategy)).map (fun σ => σ.allocs.get? 7),
        ((s₁.agents.get? 0).bind (·.newStrategy)).map (fun σ => σ.allocs.get? 7),
        (s₂.pools.get? 7).map (fun r => (s₂.heap r).delegators.get? 0),
        ((s₂.agents.get? 0).bind (·.strategy)).map (fun σ => σ.allocs.get? 7)])))) =
      some ([some true, some true], [some (some (1/69)), some none, some (some (1/69)), some none]) := by decide +kernel
  obtain ⟨s, h0, key⟩ := Option.bind_eq_some_iff.1 key
  obtain ⟨s₁, h1, key⟩ := Option.bind_eq_some_iff.1 key
  obtain ⟨s₂, h2, key⟩ := Option.map_eq_some_iff.1 key
  simp only [Prod.mk.injEq, List.cons.injEq, and_true] at key
  obtain ⟨⟨k1, k2⟩, k3, k4, k5, k6⟩ := key
  obtain ⟨σ2, e1, e2⟩ := Option.map_eq_some_iff.1 k1
  obtain ⟨ag2, e3, e4⟩ := Option.bind_eq_some_iff.1 e1
  obtain ⟨ν2, f1, f2⟩ := Option.map_eq_some_iff.1 k2
  obtain ⟨ag2', f3, f4⟩ := Option.bind_eq_some_iff.1 f1
  obtain ⟨σ0, g1, g2⟩ := Option.map_eq_some_iff.1 k3
  obtain ⟨ag0, g3, g4⟩ := Option.bind_eq_some_iff.1 g1
  obtain ⟨ν0, i1, i2⟩ := Option.map_eq_some_iff.1 k4
  obtain ⟨ag0', i3, i4⟩ := Option.bind_eq_some_iff.1 i1
  obtain ⟨r, j1, j2⟩ := Option.map_eq_some_iff.1 k5
  obtain ⟨σ0', l1, l2⟩ := Option.map_eq_some_iff.1 k6
  obtain ⟨ag0'', l3, l4⟩ := Option.bind_eq_some_iff.1 l1
  obtain ⟨r2, hr2⟩ := Option.isSome_iff_exists.1 e2
  obtain ⟨r2', hr2'⟩ := Option.isSome_iff_exists.1 f2
  have hrec : Records s₂ 7 0 (1/69) := ⟨r, j1, j2⟩
  refine ⟨s, s₁, s₂, orderlyRounds_spec ⟨by decide, by decide, fun _ _ => List.Perm.refl _⟩ 2 Orderly.init h0, toOption_ok h1, toOption_ok h2,
    ⟨⟨r2, ag2, σ2, e3, e4, hr2⟩, ag2', ν2, r2', f3, f4, hr2'⟩, ⟨⟨ag0', ν0, i3, i4⟩, fun hall => ?_⟩, hrec, fun hst => ?_⟩
  · obtain ⟨ag, ν, m1, m2, m3⟩ := (hall (1/69)).2 ⟨ag0, σ0, g3, g4, g2⟩
    rw [i3] at m1; cases m1
    rw [i4] at m2; cases m2
    rw [i2] at m3; cases m3
  · obtain ⟨ag, σ, m1, m2, m3⟩ := (hst.same 0 7 (1/69)).1 hrec
    rw [l3] at m1; cases m1
    rw [l4] at m2; cases m2
    rw [l2] at m3; cases m3

end RSE.Props
