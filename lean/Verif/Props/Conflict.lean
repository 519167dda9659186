import Verif.Lemmas.Spares
import Verif.Props.OrderlyRun

/-!
# C102: every conflict over a public pool leaves the books wrong

The converse of C100: if an agent of a batch changes its delegation to a pool that an agent after it keeps as a public pool, and carrying out the
plans raises no exception, then afterwards the pool records what the agent delegated before, while the agent's strategy says what it has planned.
-/

set_option linter.unusedSectionVars false

namespace RSE.Props

section
variable {F : Type} [LinearOrder F] [Zero F] [One F] [Add F] [Sub F] [Mul F] [Div F] [Neg F] [NatCast F] [FSum F]

/-- agent `b` operates pool `pid` and has staged a strategy in which it still does, and in which the pool is public -/
def KeepsPublic (s : State F) (b pid : Nat) : Prop :=
  (∃ r, Operates s b pid r) ∧ ∃ ag ν r, s.agents.get? b = some ag ∧ ag.newStrategy = some ν ∧ ν.owned.get? pid = some r ∧ (s.heap r).isPrivate = false

theorem KeepsPublic.keeps {s : State F} {b pid : Nat} (h : KeepsPublic s b pid) : Keeps s b pid := by
  obtain ⟨h1, ag, ν, r, h2, h3, h4, -⟩ := h
  exact ⟨h1, ag, ν, r, h2, h3, h4⟩

/-- the situation before the operator `b` of the pool advances: its copy `r'` of the pool has the delegation `old` of agent `a` -/
structure Waiting (s : State F) (a b pid : Nat) (r' : Ref) (old : Option F) : Prop where
  own : (ownOf s b pid).isSome
  stg : stgOf s b pid = some r'
  priv : (s.heap r').isPrivate = false
  del : (s.heap r').delegators.get? a = old

/-- ... and after it: the copy has become the pool -/
structure Replaced (s : State F) (a b pid : Nat) (r' : Ref) (old : Option F) : Prop where
  own : ownOf s b pid = some r'
  del : (s.heap r').delegators.get? a = old

/-- an agent advances: it has nothing staged, or it carries out what it has staged -/
theorem advance_cases (hmin : (0 : F) < minUnit) {c : Config F} {s s' : State F} (h : Reachable c s) {me : Nat} {ord : List Nat → List Nat}
    (hv : (Event.advance (F := F) me ord).Valid c.people.length) (he : exec s (.advance me ord) = .ok s') :
    (s' = s ∧ ∀ ag, s.agents.get? me = some ag → ag.newStrategy = none) ∨
    ∃ ag σ ν s₃, s.agents.get? me = some ag ∧ ag.strategy = some σ ∧ ag.newStrategy = some ν ∧ s' = { s₃ with idle := false } ∧
      Executed (c.rs.k + 1) s s₃ me ν ∧ LeavesAlone me (Shuts s σ ν) s s₃ := by
  have hg := h.good hmin
  have hd := ((hg.exec hmin hv).of_ok he).1
  cases hd with
  | skip me ord ag ha hp => exact Or.inl ⟨rfl, fun ag' ha' => by rw [ha] at ha'; cases ha'; exact hp⟩
  | adv me ord ag σ ν s₃ ha hσ hν hex hd =>
    exact Or.inr ⟨ag, σ, ν, s₃, ha, hσ, hν, rfl, hd, (executeStrategy_spares hg.inv hv.2 ha hσ hν).of_ok hex⟩

theorem not_shuts {n : Nat} {s : State F} (h : Inv n s) {me b pid : Nat} (hb : b ≠ me) (ho : (ownOf s b pid).isSome) {ag : Agent F} {σ ν : Strategy F}
    (ha : s.agents.get? me = some ag) (hσ : ag.strategy = some σ) : ¬ Shuts s σ ν pid := by
  rintro ⟨hk, -⟩
  obtain ⟨r, hr⟩ := Dict.mem_keys_iff.1 hk
  have h1 : ownOf s me pid = some r := by simp [ownOf, ha, hσ, hr]
  obtain ⟨q, hq⟩ := Option.isSome_iff_exists.1 ho
  obtain ⟨k1, k2⟩ := (h.own.own_iff _ _ _).1 h1
  obtain ⟨k3, k4⟩ := (h.own.own_iff _ _ _).1 hq
  rw [k1] at k3; cases k3
  exact hb (k4.symm.trans k2)

variable {c : Config F} {s s' : State F} {a b pid me : Nat} {r' : Ref} {old : Option F} {ord : List Nat → List Nat}

theorem Waiting.next (hmin : (0 : F) < minUnit) (h : Reachable c s) (hv : (Event.advance (F := F) me ord).Valid c.people.length)
    (he : exec s (.advance me ord) = .ok s') (hs : Waiting s a b pid r' old) (hb : b ≠ me) :
    Waiting s' a b pid r' old ∧ (a ≠ me → allocOf s' a pid = allocOf s a pid ∧ newOf s' a pid = newOf s a pid ∧
      ((∃ ag ν, s.agents.get? a = some ag ∧ ag.newStrategy = some ν) → ∃ ag ν, s'.agents.get? a = some ag ∧ ag.newStrategy = some ν)) ∧
    (a = me → (∃ ag ν, s.agents.get? a = some ag ∧ ag.newStrategy = some ν) → allocOf s' a pid = newOf s a pid) := by
  rcases advance_cases hmin h hv he with ⟨rfl, hno⟩ | ⟨ag, σ, ν, s₃, ha, hσ, hν, rfl, hd, hl⟩
  · refine ⟨hs, fun _ => ⟨rfl, rfl, fun h => h⟩, ?_⟩
    rintro rfl ⟨ag, ν, k1, k2⟩
    rw [hno ag k1] at k2; cases k2
  · have hi := (h.good hmin).inv
    have hn := not_shuts (ν := ν) hi hb hs.own ha hσ
    obtain ⟨e1, e2⟩ := ownOf_of_skel (hd.others b hb) pid
    obtain ⟨-, k2, -, k4⟩ := hi.own.stg_ok b pid r' hs.stg
    refine ⟨⟨?_, ?_, (hd.same r').isPrivate.trans hs.priv, ?_⟩, fun ham => ⟨hl.alloc a ham pid hn, hl.plan a ham pid hn, ?_⟩, ?_⟩
    · change (ownOf s₃ b pid).isSome
      rw [e1]; exact hs.own
    · change stgOf s₃ b pid = _
      rw [e2]; exact hs.stg
    · refine (hl.del r' a (Or.inr k4) ?_).trans hs.del
      rw [k2]; exact hn
    · rintro ⟨aga, νa, g1, g2⟩
      have hsk := hd.others a ham
      rw [g1] at hsk
      obtain ⟨aga', g3, g4⟩ := Option.map_eq_some_iff.1 hsk
      simp only [Agent.skel, Prod.mk.injEq] at g4
      have g5 := g4.2.2.2.2.2
      rw [g2] at g5
      obtain ⟨ν', g6, -⟩ := Option.map_eq_some_iff.1 g5
      exact ⟨aga', ν', g3, g6⟩
    · rintro rfl _
      exact hl.mine pid hn

theorem Waiting.operator (hmin : (0 : F) < minUnit) (h : Reachable c s) (hv : (Event.advance (F := F) b ord).Valid c.people.length)
    (he : exec s (.advance b ord) = .ok s') (hs : Waiting s a b pid r' old) (hab : a ≠ b) :
    Replaced s' a b pid r' old ∧ allocOf s' a pid = allocOf s a pid := by
  have hstg := hs.stg
  unfold stgOf at hstg
  obtain ⟨agb, k1, k2⟩ := Option.bind_eq_some_iff.1 hstg
  obtain ⟨νb, k3, k4⟩ := Option.bind_eq_some_iff.1 k2
  rcases advance_cases hmin h hv he with ⟨rfl, hno⟩ | ⟨ag, σ, ν, s₃, ha, hσ, hν, rfl, hd, hl⟩
  · rw [hno agb k1] at k3; cases k3
  · rw [ha] at k1; cases k1
    rw [hν] at k3; cases k3
    have hi := (h.good hmin).inv
    obtain ⟨-, g2, -, g4⟩ := hi.own.stg_ok b pid r' hs.stg
    have hn : ¬ Shuts s σ νb pid := by
      rintro ⟨-, hq | ⟨q, hq, hp⟩⟩
      · exact hq (Dict.mem_keys_of_get? k4)
      · rw [k4] at hq; cases hq
        rw [hs.priv] at hp; cases hp
    refine ⟨⟨?_, ?_⟩, hl.alloc a hab pid hn⟩
    · have hm := hd.mine
      rw [ha] at hm
      obtain ⟨ag', m1, m2⟩ := Option.map_eq_some_iff.1 hm
      simp only [Agent.skel, Prod.mk.injEq] at m2
      have m3 := m2.2.2.2.2.1
      obtain ⟨σ', m4, m5⟩ := Option.map_eq_some_iff.1 m3
      change ownOf s₃ b pid = some r'
      simp [ownOf, m1, m4, m5, k4]
    · refine (hl.del r' a (Or.inl hab) ?_).trans hs.del
      rw [g2]; exact hn

theorem Replaced.next (hmin : (0 : F) < minUnit) (h : Reachable c s) (hv : (Event.advance (F := F) me ord).Valid c.people.length)
    (he : exec s (.advance me ord) = .ok s') (hs : Replaced s a b pid r' old) (hb : b ≠ me) (ham : a ≠ me) :
    Replaced s' a b pid r' old ∧ allocOf s' a pid = allocOf s a pid := by
  rcases advance_cases hmin h hv he with ⟨rfl, hno⟩ | ⟨ag, σ, ν, s₃, ha, hσ, hν, rfl, hd, hl⟩
  · exact ⟨hs, rfl⟩
  · have hi := (h.good hmin).inv
    have hn := not_shuts (ν := ν) hi hb (by rw [hs.own]; rfl) ha hσ
    refine ⟨⟨?_, ?_⟩, hl.alloc a ham pid hn⟩
    · change ownOf s₃ b pid = _
      rw [(ownOf_of_skel (hd.others b hb) pid).1]; exact hs.own
    · refine (hl.del r' a (Or.inl ham) ?_).trans hs.del
      rw [(hi.core.poolRef pid r' ((hi.own.own_iff _ _ _).1 hs.own).1).2.1]; exact hn

/-- advancing a list of agents -/
theorem advances_inv {c : Config F} {ords : Nat → List Nat → List Nat} (hords : ∀ i l, (ords i l).Perm l) {Q : State F → Prop} : ∀ (l : List Nat) (i : Nat) {s s' : State F},
    (∀ a ∈ l, a < c.people.length) → Reachable c s → Q s →
    (∀ t t' me ord, me ∈ l → Reachable c t → Q t → (Event.advance (F := F) me ord).Valid c.people.length → exec t (.advance me ord) = .ok t' → Q t') →
    iterM exec s ((l.zipIdx i).map (fun e => Event.advance e.1 (ords e.2))) = .ok s' → Reachable c s' ∧ Q s'
  | [], _, s, s', _, hr, hq, _, he => by cases he; exact ⟨hr, hq⟩
  | me :: l, i, s, s', hl, hr, hq, hstep, he => by
    rw [List.zipIdx_cons, List.map_cons] at he
    unfold iterM at he
    have hv : (Event.advance (F := F) me (ords i)).Valid c.people.length := ⟨hl me (by simp), hords i⟩
    cases h1 : exec s (.advance me (ords i)) with
    | error x => rw [h1] at he; cases he
    | ok s₁ =>
      rw [h1] at he
      exact advances_inv hords l (i + 1) (fun a ha => hl a (List.mem_cons_of_mem _ ha)) (hr.next hv h1) (hstep s s₁ me (ords i) (by simp) hr hq hv h1)
        (fun t t' me ord hm => hstep t t' me ord (List.mem_cons_of_mem _ hm)) he

theorem iterM_cons_ok {σ α : Type} {f : σ → α → Py σ} {s s' : σ} {x : α} {l : List α} (h : iterM f s (x :: l) = .ok s') :
    ∃ s₁, f s x = .ok s₁ ∧ iterM f s₁ l = .ok s' := by
  unfold iterM at h
  cases h1 : f s x with
  | error e => rw [h1] at h; cases h
  | ok s₁ => rw [h1] at h; exact ⟨s₁, rfl, h⟩

theorem iterM_append_ok {σ α : Type} {f : σ → α → Py σ} {s s' : σ} {l m : List α} (h : iterM f s (l ++ m) = .ok s') :
    ∃ s₁, iterM f s l = .ok s₁ ∧ iterM f s₁ m = .ok s' := by
  rw [iterM_append] at h
  cases h1 : iterM f s l with
  | error e => rw [h1] at h; cases h
  | ok s₁ => rw [h1] at h; exact ⟨s₁, rfl, h⟩

/-- C102.  Simultaneous activation, any arithmetic.  Let pools record exactly what agents say, and let nothing be staged.  Let the agents of a batch
have planned, agent `a` among them, and let agent `b`, somewhere after `a`, keep a pool as a public pool.  If carrying out the plans raises no exception, then
afterwards the pool records what `a` delegated to it before, while `a` says what it has planned. -/
theorem C102_public (hmin : (0 : F) < minUnit) {s₁ s₂ : State F} (h : Reachable c s) (hc : c.simultaneous = true) (hb : Straight s)
    (hn : NobodyStaged s) {ords : Nat → List Nat → List Nat} {batch before between after : List Nat} (ho : BatchOK c ords batch)
    (hbatch : batch = before ++ a :: (between ++ b :: after)) (h₁ : plansOf ords batch s = .ok s₁) (h₂ : movesOf ords batch s₁ = .ok s₂)
    (hk : KeepsPublic s₁ b pid) (hst : ∃ ag ν, s₁.agents.get? a = some ag ∧ ag.newStrategy = some ν) (x : F) :
    (Records s₂ pid a x ↔ Says s₁ a pid x) ∧ (Says s₂ a pid x ↔ Plans s₁ a pid x) := by
  obtain ⟨B, -, -⟩ := (plans_spec hmin h hc hb hn ho).of_ok h₁
  have hr₁ := reachable_iterM h ho.plans_valid h₁
  have hnd := ho.nodup
  have hin := ho.agents
  subst hbatch
  simp only [List.nodup_append, List.nodup_cons, List.mem_append, List.mem_cons, not_or] at hnd
  obtain ⟨-, ⟨⟨hab1, hab, hab2⟩, hnb, ⟨hb2, -⟩, hb1⟩, hbef⟩ := hnd
  -- the situation at the start
  obtain ⟨⟨r, hr⟩, agb, νb, r', kb1, kb2, kb3, kb4⟩ := hk
  have hown : ownOf s₁ b pid = some r := operates_iff.1 hr
  obtain ⟨agb', σb, kb5, kb6, kb7⟩ := hr
  rw [kb1] at kb5; cases kb5
  have hS := B.staged b agb σb νb kb1 kb6 kb2
  have hopen := ((B.inv.own.own_iff _ _ _).1 hown).1
  have hW : Waiting s₁ a b pid r' (allocOf s₁ a pid) :=
    ⟨by rw [hown]; rfl, by simp [stgOf, kb1, kb2, kb3], kb4, (hS.copies pid r r' kb7 kb3 a).trans (B.books.agree pid r hopen a)⟩
  -- the batch in parts
  have hords : ∀ i l, (ords ((before ++ a :: (between ++ b :: after)).length + i) l).Perm l := fun i => ho.ords _
  unfold movesOf advanceEvents at h₂
  generalize (before ++ a :: (between ++ b :: after)).length = n at h₂ hords
  rw [List.zipIdx_append, List.zipIdx_cons, List.zipIdx_append, List.zipIdx_cons] at h₂
  simp only [List.map_append, List.map_cons] at h₂
  obtain ⟨t₁, e1, h₂⟩ := iterM_append_ok h₂
  obtain ⟨t₂, e2, h₂⟩ := iterM_cons_ok h₂
  obtain ⟨t₃, e3, h₂⟩ := iterM_append_ok h₂
  obtain ⟨t₄, e4, h₂⟩ := iterM_cons_ok h₂
  -- before `a`
  obtain ⟨R₁, W₁, A₁, N₁, S₁⟩ := advances_inv (c := c) (ords := fun i => ords (n + i)) hords
    (Q := fun t => Waiting t a b pid r' (allocOf s₁ a pid) ∧ allocOf t a pid = allocOf s₁ a pid ∧ newOf t a pid = newOf s₁ a pid ∧
      ∃ ag ν, t.agents.get? a = some ag ∧ ag.newStrategy = some ν) before 0 (fun z hz => hin z (by simp [hz])) hr₁ ⟨hW, rfl, rfl, hst⟩ (by
      rintro t t' me ord hm hrt ⟨w, q1, q2, q3⟩ hv he
      have hne := hbef me hm
      obtain ⟨w', g, -⟩ := w.next hmin hrt hv he (fun e => hne b (by simp) e.symm)
      obtain ⟨g1, g2, g3⟩ := g (fun e => hne a (by simp) e.symm)
      exact ⟨w', g1.trans q1, g2.trans q2, g3 q3⟩) e1
  -- `a`
  have hva : (Event.advance (F := F) a (ords (n + (0 + before.length)))).Valid c.people.length := ⟨hin a (by simp), ho.ords _⟩
  obtain ⟨W₂, -, A₂⟩ := W₁.next hmin R₁ hva e2 (Ne.symm hab)
  have A₂ := (A₂ rfl S₁).trans N₁
  -- between
  obtain ⟨R₃, W₃, A₃⟩ := advances_inv (c := c) (ords := fun i => ords (n + i)) hords
    (Q := fun t => Waiting t a b pid r' (allocOf s₁ a pid) ∧ allocOf t a pid = newOf s₁ a pid) between _
    (fun z hz => hin z (by simp [hz])) (R₁.next hva e2) ⟨W₂, A₂⟩ (by
      rintro t t' me ord hm hrt ⟨w, q1⟩ hv he
      obtain ⟨w', g, -⟩ := w.next hmin hrt hv he (fun e => (hb1 me hm b (Or.inl rfl)) e.symm)
      exact ⟨w', (g (fun e => hab1 (e ▸ hm))).1.trans q1⟩) e3
  -- `b`
  have hvb : (Event.advance (F := F) b (ords (n + (0 + before.length + 1 + between.length)))).Valid c.people.length := ⟨hin b (by simp), ho.ords _⟩
  obtain ⟨W₄, A₄⟩ := W₃.operator hmin R₃ hvb e4 hab
  -- after
  obtain ⟨R₅, W₅, A₅⟩ := advances_inv (c := c) (ords := fun i => ords (n + i)) hords
    (Q := fun t => Replaced t a b pid r' (allocOf s₁ a pid) ∧ allocOf t a pid = newOf s₁ a pid) after _
    (fun z hz => hin z (by simp [hz])) (R₃.next hvb e4) ⟨W₄, A₄.trans A₃⟩ (by
      rintro t t' me ord hm hrt ⟨w, q1⟩ hv he
      obtain ⟨w', g⟩ := w.next hmin hrt hv he (fun e => hb2 (e ▸ hm)) (fun e => hab2 (e ▸ hm))
      exact ⟨w', g.trans q1⟩) h₂
  have hp := (((R₅.good hmin).inv.own.own_iff _ _ _).1 W₅.own).1
  constructor
  · rw [says_iff, ← W₅.del]
    exact ⟨fun ⟨q, hq, hx⟩ => by rw [hp] at hq; cases hq; exact hx, fun hx => ⟨r', hp, hx⟩⟩
  · rw [says_iff, plans_iff, A₅]

/-- C102.  So every conflict over a pool that stays public leaves the books wrong, if no exception is raised. -/
theorem C102_conflict (hmin : (0 : F) < minUnit) {s₁ s₂ : State F} (h : Reachable c s) (hc : c.simultaneous = true) (hb : Straight s)
    (hn : NobodyStaged s) {ords : Nat → List Nat → List Nat} {batch before between after : List Nat} (ho : BatchOK c ords batch)
    (hbatch : batch = before ++ a :: (between ++ b :: after)) (h₁ : plansOf ords batch s = .ok s₁) (h₂ : movesOf ords batch s₁ = .ok s₂)
    (hk : KeepsPublic s₁ b pid) (hr : Redirects s₁ a pid) : ¬ Straight s₂ ∧ ∃ x, ¬ (Records s₂ pid a x ↔ Says s₂ a pid x) := by
  have key := C102_public hmin h hc hb hn ho hbatch h₁ h₂ hk hr.1
  have hne : ∃ x, ¬ (Records s₂ pid a x ↔ Says s₂ a pid x) := by
    by_contra hno
    push Not at hno
    refine hr.2 (fun x => ?_)
    rw [← (key x).1, ← (key x).2]
    exact (hno x).symm
  exact ⟨fun hs => by obtain ⟨x, hx⟩ := hne; exact hx (hs.same a pid x), hne⟩

/-- C102.  If the pools that are kept stay public, then the plans of a batch can be carried out with the books straight afterwards exactly if no agent of the
batch changes its delegation to a pool that an agent after it keeps. -/
theorem C102_iff (hmin : (0 : F) < minUnit) {s₁ : State F} (h : Reachable c s) (hc : c.simultaneous = true) (hb : Straight s)
    (hn : NobodyStaged s) {ords : Nat → List Nat → List Nat} {batch : List Nat} (ho : BatchOK c ords batch) (h₁ : plansOf ords batch s = .ok s₁)
    (hpub : ∀ b pid, Keeps s₁ b pid → KeepsPublic s₁ b pid) :
    (∃ s₂, movesOf ords batch s₁ = .ok s₂ ∧ Straight s₂) ↔ batch.Pairwise (fun a b => ¬ Clash s₁ a b) := by
  constructor
  · rintro ⟨s₂, h₂, hs⟩
    rw [List.pairwise_iff_forall_sublist]
    rintro a b hsub ⟨pid, hk, hr⟩
    obtain ⟨r₁, r₂, e1, e2, e3⟩ := List.cons_sublist_iff.1 hsub
    obtain ⟨l1, l2, rfl⟩ := List.append_of_mem e2
    obtain ⟨m1, m2, rfl⟩ := List.append_of_mem (List.singleton_sublist.1 e3)
    exact (C102_conflict hmin h hc hb hn (before := l1) (between := l2 ++ m1) (after := m2) ho (by rw [e1]; simp) h₁ h₂ (hpub b pid hk) hr).1 hs
  · intro hq
    obtain ⟨s₂, k1, -, k2, -⟩ := C100_batch hmin h hc hb hn ho h₁ hq
    exact ⟨s₂, k1, k2⟩

/-- C102.  The same of the whole batch, as the scheduler runs it. -/
theorem C102_batch (hmin : (0 : F) < minUnit) {s₁ : State F} (h : Reachable c s) (hc : c.simultaneous = true) (hb : Straight s)
    (hn : NobodyStaged s) {ords : Nat → List Nat → List Nat} {batch : List Nat} (ho : BatchOK c ords batch) (h₁ : plansOf ords batch s = .ok s₁)
    (hpub : ∀ b pid, Keeps s₁ b pid → KeepsPublic s₁ b pid) :
    ((∃ s₂, runBatch ords s batch = .ok s₂ ∧ Straight s₂) ↔ batch.Pairwise (fun a b => ¬ Clash s₁ a b)) ∧
      ((∃ s₂, roundSimultaneous ords batch s = .ok s₂ ∧ Straight s₂) ↔ batch.Pairwise (fun a b => ¬ Clash s₁ a b)) := by
  rw [← C102_iff hmin h hc hb hn ho h₁ hpub, runBatch_halves, roundSimultaneous_halves, h₁]
  exact ⟨Iff.rfl, Iff.rfl⟩

end

/-- `C102_conflict` applies: two rounds of `phantomCfg` are orderly, and in the third agent 0 withdraws from pool 7, which agent 2 keeps as a public pool;
no exception is raised. -/
theorem C102_happens : ∃ s s₁ s₂ : State ℚ, Reachable phantomCfg s ∧ Straight s ∧ NobodyStaged s ∧ plansOf (fun _ => id) [0, 1, 2] s = .ok s₁ ∧
    movesOf (fun _ => id) [0, 1, 2] s₁ = .ok s₂ ∧ KeepsPublic s₁ 2 7 ∧ Redirects s₁ 0 7 ∧ Records s₂ 7 0 (1/69) ∧ ∀ x, ¬ Says s₂ 0 7 x := by
  have key : (orderlyRounds [0, 1, 2] 2 (initState phantomCfg)).bind (fun s => (plansOf (fun _ => id) [0, 1, 2] s).toOption.bind (fun s₁ =>
      (movesOf (fun _ => id) [0, 1, 2] s₁).toOption.map (fun s₂ => (
        [((s₁.agents.get? 2).bind (·.strategy)).bind (fun σ => (σ.owned.get? 7).map (fun _ => false)),
          ((s₁.agents.get? 2).bind (·.newStrategy)).bind (fun σ => (σ.owned.get? 7).map (fun r => (s₁.heap r).isPrivate))],
        [((s₁.agents.get? 0).bind (·.strategy)).map (fun σ => σ.allocs.get? 7),
        ((s₁.agents.get? 0).bind (·.newStrategy)).map (fun σ => σ.allocs.get? 7)])))) =
      some ([some false, some false], [some (some (1/69)), some none]) := by decide +kernel
  obtain ⟨s, h0, key⟩ := Option.bind_eq_some_iff.1 key
  obtain ⟨s₁, h1, key⟩ := Option.bind_eq_some_iff.1 key
  obtain ⟨s₂, h2, key⟩ := Option.map_eq_some_iff.1 key
  simp only [Prod.mk.injEq, List.cons.injEq, and_true] at key
  obtain ⟨⟨k1, k2⟩, k3, k4⟩ := key
  obtain ⟨σ2, e1, e2⟩ := Option.bind_eq_some_iff.1 k1
  obtain ⟨ag2, e3, e4⟩ := Option.bind_eq_some_iff.1 e1
  obtain ⟨r2, hr2, -⟩ := Option.map_eq_some_iff.1 e2
  obtain ⟨ν2, f1, f2⟩ := Option.bind_eq_some_iff.1 k2
  obtain ⟨ag2', f3, f4⟩ := Option.bind_eq_some_iff.1 f1
  obtain ⟨r2', hr2', hpub⟩ := Option.map_eq_some_iff.1 f2
  obtain ⟨σ0, g1, g2⟩ := Option.map_eq_some_iff.1 k3
  obtain ⟨ag0, g3, g4⟩ := Option.bind_eq_some_iff.1 g1
  obtain ⟨ν0, i1, i2⟩ := Option.map_eq_some_iff.1 k4
  obtain ⟨ag0', i3, i4⟩ := Option.bind_eq_some_iff.1 i1
  have ho : BatchOK phantomCfg (fun _ => id) [0, 1, 2] := ⟨by decide, by decide, fun _ _ => List.Perm.refl _⟩
  obtain ⟨q1, q2, q3⟩ := C100_orderly minUnit_pos rfl (orderlyRounds_spec ho 2 Orderly.init h0)
  have hk : KeepsPublic s₁ 2 7 := ⟨⟨r2, ag2, σ2, e3, e4, hr2⟩, ag2', ν2, r2', f3, f4, hr2', hpub⟩
  have hno : ∀ x, ¬ Plans s₁ 0 7 x := by
    rintro x ⟨ag, ν, m1, m2, m3⟩
    rw [i3] at m1; cases m1
    rw [i4] at m2; cases m2
    rw [i2] at m3; cases m3
  have hs : Says s₁ 0 7 (1/69) := ⟨ag0, σ0, g3, g4, g2⟩
  have hc := C102_public minUnit_pos q1 rfl q2 q3 (before := []) (between := [1]) (after := []) ho rfl (toOption_ok h1) (toOption_ok h2) hk ⟨ag0', ν0, i3, i4⟩
  exact ⟨s, s₁, s₂, q1, q2, q3, toOption_ok h1, toOption_ok h2, hk, ⟨⟨ag0', ν0, i3, i4⟩, fun hall => hno _ ((hall _).2 hs)⟩, (hc _).1.2 hs,
    fun x hx => hno x ((hc x).2.1 hx)⟩

end RSE.Props
